import Verif.Uml.Model

/-!
# Specification: what a class diagram of a schema has to show

Every declaration is read by itself, without nodes or states: its name, its label, the names of what it
extends and one item per triple constraint, which is either an entry of the class or a link. A diagram
shows a list of such declarations when its nodes, classes, links and extension pairs are theirs.
-/

namespace Uml
open Shexc

/-! ## Names -/

/-- The name of an IRI: the text it is qualified to and the IRI. -/
inductive RefCalled (C : Cfg) (pm : Prefix.PrefixMap) (label : Option Str) : IriRef → Name → Prop
  | iri (i) : RefCalled C pm label (.iri i) ⟨pm.qualify i, some i, label⟩
  | prefixed (a l i) : pm.resolvePrefixLocal C.valid a l = some i →
      RefCalled C pm label (.prefixed a l) ⟨a ++ ':' :: l, some i, label⟩

/-- The name of a shape label. -/
inductive Called (C : Cfg) (pm : Prefix.PrefixMap) : Label → Name → Prop
  | iri (r n) : RefCalled C pm none r n → Called C pm (.iri r) n
  | bnode (b) : Called C pm (.bnode b) ⟨'_' :: ':' :: b, none, none⟩
  | start : Called C pm .start ⟨"start".toList, none, none⟩

/-- The annotation has another predicate. -/
def Other (C : Cfg) (pm : Prefix.PrefixMap) (p : Str) (a : Annot) : Prop :=
  ∃ i, resolve C pm a.pred = some i ∧ i ≠ p

/-- The label given by the annotations: the value of the first annotation with the first of the configured
predicates that has one. -/
inductive Labelled (C : Cfg) (pm : Prefix.PrefixMap) (anns : List Annot) : Option Str → Prop
  | none : (∀ p ∈ C.labels, ∀ a ∈ anns, Other C pm p a) → Labelled C pm anns none
  | some (ps p qs bs a cs t) : C.labels = ps ++ p :: qs → (∀ q ∈ ps, ∀ a ∈ anns, Other C pm q a) →
      anns = bs ++ a :: cs → (∀ b ∈ bs, Other C pm p b) → resolve C pm a.pred = some p → a.obj = .lit t →
      Labelled C pm anns (some (C.lexical t))

/-! ## Cardinalities -/

/-- The bounds a cardinality stands for; no upper bound is `none`. -/
def Card.bounds : Card → Int × Option Int
  | .oneOne => (1, some 1)
  | .star => (0, none)
  | .plus => (1, none)
  | .optional => (0, some 1)
  | .range m n => (m, some n)
  | .fixed m => (m, some m)

/-- The bounds written in a triple constraint: `-1` is no upper bound and a bound left out is one. -/
def written (mn mx : Option Int) : Int × Option Int :=
  (mn.getD 1, if mx.getD 1 = -1 then none else some (mx.getD 1))

/-- How a cardinality is shown: the four usual ones as such; of other intervals only the lower bound. -/
inductive Shown (mn mx : Option Int) : Card → Prop
  | usual (c) : c ∈ [Card.oneOne, .star, .plus, .optional] → c.bounds = written mn mx → Shown mn mx c
  | other (m n) : mn.getD 1 = m → mx.getD 1 = n → 0 ≤ m → m < n → ¬ (m = 0 ∧ n = 1) → Shown mn mx (.fixed m)

/-! ## Values -/

/-- Where a link goes: to a class, or to the node of an operator over classes. -/
inductive Target where
  | one (s : Str)
  | group (k : Kind) (ss : List Str)

/-- The classes a link is about. -/
def Target.names : Target → List Str
  | .one s => [s]
  | .group _ ss => ss

/-- A conjunction of constraints. -/
inductive Conj : List VC → VC → Prop
  | any : Conj [] .any
  | one (v) : Conj [v] v
  | more (v w vs) : Conj (v :: w :: vs) (.and (v :: w :: vs))

/-- The part of a node constraint for something that may be absent. -/
inductive Part {α : Type} (R : α → VC → Prop) : Option α → List VC → Prop
  | none : Part R none []
  | some (a v) : R a v → Part R (some a) [v]

/-- A value set of IRIs is the names of the IRIs. -/
inductive Values (C : Cfg) (pm : Prefix.PrefixMap) : List Value → List Name → Prop
  | nil : Values C pm [] []
  | cons (r n vs ns) : RefCalled C pm none r n → Values C pm vs ns → Values C pm (.obj (.iri r) :: vs) (n :: ns)

/-- The word for a kind of node. -/
def kindWord : Shexc.Kind → String
  | .iri => "iri"
  | .bnode => "bnode"
  | .nonLiteral => "nonliteral"
  | .literal => "literal"

/-- The word for a facet and the text of its value. -/
def facetParts (C : Cfg) : Facet → String × Str
  | .length n => ("length", Nat.toDigits 10 n)
  | .minLength n => ("minLength", Nat.toDigits 10 n)
  | .maxLength n => ("maxLength", Nat.toDigits 10 n)
  | .pattern s fl => ("pattern", s ++ (fl.map fun f => " (flags=".toList ++ f ++ [')']).getD [])
  | .minInc n => ("minInclusive", C.showNum n)
  | .minExc n => ("minExclusive", C.showNum n)
  | .maxInc n => ("maxInclusive", C.showNum n)
  | .maxExc n => ("maxExclusive", C.showNum n)
  | .totalDigits n => ("totalDigits", Nat.toDigits 10 n)
  | .fractionDigits n => ("fractionDigits", Nat.toDigits 10 n)

/-- A facet is shown as its word, `=` and its value. -/
def facetShown (C : Cfg) (f : Facet) : Name :=
  ⟨(facetParts C f).1.toList ++ '=' :: (facetParts C f).2, none, none⟩

/-- The constraint shown for a node constraint: kind, datatype, facets and values, in this order. -/
inductive Node (C : Cfg) (pm : Prefix.PrefixMap) (nc : NC) : VC → Prop
  | mk (k d f v w) : Part (fun a c => c = .kind ⟨(kindWord a).toList, none, none⟩) nc.kind k →
      Part (fun a c => ∃ n, RefCalled C pm none a n ∧ c = .datatype n) nc.datatype d →
      Part (fun a c => c = .facets (a.map (facetShown C))) nc.facets f →
      Part (fun a c => ∃ ns, Values C pm a ns ∧ c = .values ns) nc.values v →
      Conj (k ++ d ++ f ++ v) w → Node C pm nc w

/-- Lists related one by one. -/
inductive Each {α β : Type} (R : α → β → Prop) : List α → List β → Prop
  | nil : Each R [] []
  | cons (a b as bs) : R a b → Each R as bs → Each R (a :: as) (b :: bs)

/-- A node constraint with a datatype of that name. -/
def Typed (C : Cfg) (pm : Prefix.PrefixMap) (e : SE) (n : Name) : Prop :=
  ∃ nc d, e = .nc nc ∧ nc.datatype = some d ∧ RefCalled C pm none d n

/-- A reference to a shape of that name. -/
def RefTo (C : Cfg) (pm : Prefix.PrefixMap) (e : SE) (s : Str) : Prop :=
  ∃ l n, e = .ref l ∧ Called C pm l n ∧ n.str = s

/-- What the value of a triple constraint is shown as. -/
inductive Value (C : Cfg) (pm : Prefix.PrefixMap) : Option SE → VC ⊕ Target → Prop
  | any : Value C pm none (.inl .any)
  | node (nc v) : Node C pm nc v → Value C pm (some (.nc nc)) (.inl v)
  | orTyped (es ns) : es ≠ [] → Each (Typed C pm) es ns → Value C pm (some (.or es)) (.inl (.or (ns.map .datatype)))
  | andTyped (es ns) : es ≠ [] → Each (Typed C pm) es ns → Value C pm (some (.and es)) (.inl (.and (ns.map .datatype)))
  | ref (r n) : RefCalled C pm none r n → Value C pm (some (.ref (.iri r))) (.inr (.one n.str))
  | orRefs (es ss) : Each (RefTo C pm) es ss → Value C pm (some (.or es)) (.inr (.group .or ss))
  | andRefs (es ss) : Each (RefTo C pm) es ss → Value C pm (some (.and es)) (.inr (.group .and ss))
  | notRef (e s) : RefTo C pm e s → Value C pm (some (.not e)) (.inr (.group .not [s]))

/-- What a triple constraint is shown as. -/
structure Item where
  name : Name
  card : Card
  value : VC ⊕ Target

/-- The item of a triple constraint. -/
inductive Shows (C : Cfg) (pm : Prefix.PrefixMap) : TE → Item → Prop
  | mk (id ng iv p v mn mx acts anns label name card value) : Labelled C pm (anns.getD []) label →
      RefCalled C pm label p name → Shown mn mx card → Value C pm v value →
      Shows C pm (.tc id ng iv p v mn mx acts anns) ⟨name, card, value⟩

/-- The triple constraints of a shape: none, one, or those of one group. -/
inductive Constraints : Option TE → List TE → Prop
  | none : Constraints none []
  | one (id ng iv p v mn mx acts anns) :
      Constraints (some (.tc id ng iv p v mn mx acts anns)) [.tc id ng iv p v mn mx acts anns]
  | each (id ts mn mx acts anns) : Constraints (some (.each id ts mn mx acts anns)) ts

/-- A declaration, read. -/
structure Decl where
  name : Name
  exts : List Name
  items : List Item

/-- The declaration of a shape. -/
inductive Declares (C : Cfg) (pm : Prefix.PrefixMap) : Label × SE → Decl → Prop
  | mk (l cl ex te acts anns ext name label exts ts items) : Called C pm l name →
      Labelled C pm (anns.getD []) label → Each (Called C pm) (ext.getD []) exts → Constraints te ts →
      Each (Shows C pm) ts items →
      Declares C pm (l, .shape cl ex te acts anns ext) ⟨{ name with label := label }, exts, items⟩

/-! ## Diagrams -/

/-- The entry of an item. -/
def Item.entry (i : Item) : Option Entry :=
  match i.value with
  | .inl v => some ⟨i.name, v, i.card⟩
  | .inr _ => none

/-- The item, if it is a link. -/
def Item.link (i : Item) : Option (Name × Card × Target) :=
  match i.value with
  | .inl _ => none
  | .inr t => some (i.name, i.card, t)

/-- The links that leave a node, in the order they were made. -/
def St.from (u : St) (n : Nat) : List Link := u.links.filter fun l => l.src = n

/-- The node is the target: the class of that name, or an operator whose members are the classes of those
names, each once, with one link to each of them and no other. -/
def St.At (u : St) (n : Nat) : Target → Prop
  | .one s => u.find (.cls s) = some n
  | .group k ss => ∃ ids, u.comp n = some (.logic k ids) ∧ ids.Pairwise (· < ·) ∧
      (∀ s ∈ ss, ∃ i ∈ ids, u.find (.cls s) = some i) ∧ (∀ i ∈ ids, ∃ s ∈ ss, u.find (.cls s) = some i) ∧
      u.from n = ids.map fun i => ⟨n, i, member, .oneOne⟩

/-- The link is the one of the item, from that node. -/
def St.Drawn (u : St) (n : Nat) (x : Name × Card × Target) (l : Link) : Prop :=
  l.src = n ∧ l.name = x.1 ∧ l.card = x.2.1 ∧ u.At l.dst x.2.2

/-- The class is the one of the declaration. -/
def St.IsClass (u : St) (d : Decl) (c : Cls) : Prop :=
  c.name = d.name ∧ c.entries = d.items.filterMap Item.entry ∧
    ∀ m, m ∈ c.exts ↔ ∃ x ∈ d.exts, u.find (.cls x.str) = some m

/-- The declarations of a name. -/
def named (s : Str) (ds : List Decl) : List Decl := ds.filter fun d => d.name.str = s

/-- The diagram shows the declarations. -/
structure St.Draws (u : St) (ds : List Decl) : Prop where
  /-- different labels have different nodes -/
  apart : ∀ l l' n, u.find l = some n → u.find l' = some n → l = l'
  /-- every declaration has a node, with the class of the last declaration of its name -/
  classes : ∀ s d, (named s ds).getLast? = some d → ∃ n c, u.find (.cls s) = some n ∧
    u.comp n = some (.cls c) ∧ u.IsClass d c
  /-- the links that leave a class are those of all the declarations of its name, in order -/
  links : ∀ s n, u.find (.cls s) = some n →
    Each (u.Drawn n) (((named s ds).flatMap Decl.items).filterMap Item.link) (u.from n)
  /-- every link leaves a class or an operator and enters one -/
  ends : ∀ l ∈ u.links, (∃ x, u.find x = some l.src) ∧ ∃ x, u.find x = some l.dst
  /-- the pairs of extension are those of the declarations -/
  exts : ∀ a b, (a, b) ∈ u.exts ↔
    ∃ d ∈ ds, ∃ x ∈ d.exts, u.find (.cls d.name.str) = some a ∧ u.find (.cls x.str) = some b
  /-- an operator is the target of a link, and drawn once for the same members -/
  operators : ∀ k j n, u.find (.logic k j) = some n →
    (∃ d ∈ ds, ∃ i ∈ d.items, ∃ ss, i.value = .inr (.group k ss) ∧ u.At n (.group k ss)) ∧
    ∀ k' j' n', u.find (.logic k' j') = some n' → u.comp n' = u.comp n → n' = n
  /-- there are nodes only for what is declared, extended or linked to -/
  nodes : ∀ s n, u.find (.cls s) = some n → ∃ d ∈ ds, s = d.name.str ∨ (∃ x ∈ d.exts, s = x.str) ∨
    ∃ i ∈ d.items, ∃ t, i.value = .inr t ∧ s ∈ t.names
  /-- there are components only for nodes, and what is not declared has an empty class or none -/
  bare : ∀ n c, u.comp n = some c → (∃ l, u.find l = some n) ∧ ∀ s, u.find (.cls s) = some n → named s ds = [] →
    ∃ d ∈ ds, ∃ x ∈ d.exts, x.str = s ∧ c = .cls ⟨x, [], []⟩

end Uml
