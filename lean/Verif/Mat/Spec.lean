import Verif.Mat.Model

/-!
# Specification: what a graph made from a schema should be
-/

namespace Mat

open Shexc (SE TE NC IriRef Label SemAct Str)

namespace Spec

/-! ## Where the graph comes from -/

/-- The value expression of a triple constraint is not a shape or a reference to one. -/
def Leaf : Option SE → Prop
  | some (.ref _) => False
  | some (.shape _ _ _ _ _ _) => False
  | _ => True

/-- What occurs in an expression: references to shapes and triple constraints. -/
inductive Item where
  | lab (l : Label)
  | tc (p : IriRef) (v : Option SE) (acts : Option (List SemAct))

mutual
/-- What occurs in a shape expression, where something is made of it. -/
inductive InSE : Item → SE → Prop where
  | ref {l : Label} : InSE (.lab l) (.ref l)
  | shape {i : Item} {c x te a b d} (h : InTE i te) : InSE i (.shape c x (some te) a b d)
/-- What occurs in a triple expression. -/
inductive InTE : Item → TE → Prop where
  | each {i : Item} {id es mn mx a b} {t : TE} (ht : t ∈ es) (h : InTE i t) : InTE i (.each id es mn mx a b)
  | one {i : Item} {id es mn mx a b} {t : TE} (ht : t ∈ es) (h : InTE i t) : InTE i (.one id es mn mx a b)
  | tc {id ng iv p v mn mx acts b} : InTE (.tc p v acts) (.tc id ng iv p v mn mx acts b)
  | ref {id ng iv p l mn mx acts b} : InTE (.lab l) (.tc id ng iv p (some (.ref l)) mn mx acts b)
  | shape {i : Item} {id ng iv p mn mx acts b} {c x te a d e} (h : InSE i (.shape c x te a d e)) :
      InTE i (.tc id ng iv p (some (.shape c x te a d e)) mn mx acts b)
end

/-- The first shape declared with a label. -/
inductive Declared : List (Label × SE) → Label → SE → Prop where
  | here {l : Label} {e : SE} {ds} : Declared ((l, e) :: ds) l e
  | later {l k : Label} {e f : SE} {ds} (h : k ≠ l) (hd : Declared ds l e) : Declared ((k, f) :: ds) l e

/-- What occurs in an expression or in the shapes it refers to. -/
inductive Uses (S : Schema) : SE → Item → Prop where
  | own {e : SE} {i : Item} (h : InSE i e) : Uses S e i
  | step {e e' : SE} {l : Label} {i : Item} (h : Uses S e (.lab l)) (hd : Declared S.shapes l e') (hi : InSE i e') : Uses S e i

/-- The start of a schema, or else its first shape. -/
inductive Starts : Schema → SE → Prop where
  | start {S : Schema} {e : SE} (h : S.start = some e) : Starts S e
  | first {S : Schema} {l : Label} {e : SE} {ds} (h : S.start = none) (hs : S.shapes = (l, e) :: ds) : Starts S e

/-- The shape of one label refers to another label. -/
def RefersTo (S : Schema) (l l' : Label) : Prop := ∃ e, Declared S.shapes l e ∧ InSE (.lab l') e

/-- The names of a triple constraint that are looked up can be. -/
def NamesOk (E : Env) : Item → Prop
  | .lab _ => True
  | .tc p v acts => E.resolve p ≠ none ∧ (Leaf v → ∀ as, acts = some as → ∀ a ∈ as, E.resolve a.name ≠ none)

/-- An action asks for a value of the map: its name is that of the extension and its code the name of a key. -/
def Mapped (E : Env) (M : MapState) (acts : Option (List SemAct)) (x : Term) : Prop :=
  ∃ as a code k, acts = some as ∧ a ∈ as ∧ E.resolve a.name = some mapIri ∧ a.code = some code ∧ mapKey E code = some k ∧
    M k = some x

/-- The subject of the graph. -/
def IsRoot (E : Env) : Option Term → Term → Prop
  | none, x => x = .bnode (E.fresh 1)
  | some (.literal _), _ => False
  | some t, x => x = t

/-- A graph is what the materialisation ends with. -/
def Makes (E : Env) (S : Schema) (M : MapState) (init : Option Term) (g : List Triple) : Prop :=
  ∃ n, materialize E S M init n = .ok g

/-! ## Conformance -/

/-- The arcs of a node. -/
def arcs (g : List Triple) (x : Term) : List (Str × Term) := g.filterMap fun t => if t.1 = x then some t.2 else none

/-- A number is within a cardinality of ShEx: one if not given, `-1` for no limit. -/
def Card (mn mx : Option Int) (k : Nat) : Prop := mn.getD 1 ≤ k ∧ (mx.getD 1 = -1 ∨ (k : Int) ≤ mx.getD 1)

/-- A predicate occurs in a triple expression. -/
inductive Mentions (E : Env) : TE → Str → Prop where
  | tc {id ng iv p v mn mx acts b q} (h : E.resolve p = some q) : Mentions E (.tc id ng iv p v mn mx acts b) q
  | each {id es mn mx a b t q} (h : t ∈ es) (hq : Mentions E t q) : Mentions E (.each id es mn mx a b) q
  | one {id es mn mx a b t q} (h : t ∈ es) (hq : Mentions E t q) : Mentions E (.one id es mn mx a b) q

mutual
/-- A node of a graph conforms to a shape expression. `EXTRA` is not taken into account, which is stricter than ShEx,
and there is no case for negations, external shapes, inheritance and references to triple expressions. -/
inductive Sat (E : Env) (S : Schema) (ncSat : NC → Term → Prop) (g : List Triple) : SE → Term → Prop where
  | nc {c : NC} {x : Term} (h : ncSat c x) : Sat E S ncSat g (.nc c) x
  | ref {l : Label} {e : SE} {x : Term} (hl : Declared S.shapes l e) (h : Sat E S ncSat g e x) : Sat E S ncSat g (.ref l) x
  | and {es : List SE} {x : Term} (h : ∀ e ∈ es, Sat E S ncSat g e x) : Sat E S ncSat g (.and es) x
  | or {es : List SE} {e : SE} {x : Term} (he : e ∈ es) (h : Sat E S ncSat g e x) : Sat E S ncSat g (.or es) x
  | any {closed extra acts anns x} (h : closed = some true → arcs g x = []) :
      Sat E S ncSat g (.shape closed extra none acts anns none) x
  | shape {closed extra te acts anns x} {l rest : List (Str × Term)} (hp : (l ++ rest).Perm (arcs g x))
      (h : Fits E S ncSat g te l) (hr : ∀ a ∈ rest, ¬ Mentions E te a.1) (hc : closed = some true → rest = []) :
      Sat E S ncSat g (.shape closed extra (some te) acts anns none) x
/-- Arcs fit a triple expression. -/
inductive Fits (E : Env) (S : Schema) (ncSat : NC → Term → Prop) (g : List Triple) : TE → List (Str × Term) → Prop where
  | any {id ng iv p q mn mx acts b} {l : List (Str × Term)} (hn : ng ≠ some true) (hi : iv ≠ some true)
      (hp : E.resolve p = some q) (hl : ∀ a ∈ l, a.1 = q) (hc : Card mn mx l.length) :
      Fits E S ncSat g (.tc id ng iv p none mn mx acts b) l
  | tc {id ng iv p q e mn mx acts b} {l : List (Str × Term)} (hn : ng ≠ some true) (hi : iv ≠ some true)
      (hp : E.resolve p = some q) (hl : ∀ a ∈ l, a.1 = q) (h : ∀ a ∈ l, Sat E S ncSat g e a.2) (hc : Card mn mx l.length) :
      Fits E S ncSat g (.tc id ng iv p (some e) mn mx acts b) l
  | each {id es mn mx acts b} {parts : List (List (Str × Term))} (hc : Card mn mx parts.length)
      (h : ∀ l ∈ parts, FitsAll E S ncSat g es l) : Fits E S ncSat g (.each id es mn mx acts b) parts.flatten
  | one {id es mn mx acts b} {parts : List (List (Str × Term))} {choice : List (Str × Term) → TE} (hc : Card mn mx parts.length)
      (hm : ∀ l ∈ parts, choice l ∈ es) (h : ∀ l ∈ parts, Fits E S ncSat g (choice l) l) :
      Fits E S ncSat g (.one id es mn mx acts b) parts.flatten
/-- Arcs fit several triple expressions. -/
inductive FitsAll (E : Env) (S : Schema) (ncSat : NC → Term → Prop) (g : List Triple) : List TE → List (Str × Term) → Prop where
  | nil : FitsAll E S ncSat g [] []
  | cons {t ts l m} (h : Fits E S ncSat g t l) (hs : FitsAll E S ncSat g ts m) : FitsAll E S ncSat g (t :: ts) (l ++ m)
end

/-! ## Schemas whose graphs conform -/

mutual
/-- Shape expressions for which the map has all that is needed: shapes without inheritance whose triple constraints
have different predicates. -/
inductive Covered (E : Env) (S : Schema) (ncSat : NC → Term → Prop) (M : MapState) : SE → Prop where
  | ref {l : Label} {e : SE} (hl : Declared S.shapes l e) (h : Covered E S ncSat M e) : Covered E S ncSat M (.ref l)
  | any {closed extra acts anns} : Covered E S ncSat M (.shape closed extra none acts anns none)
  | shape {closed extra te acts anns ps} (h : CoveredTE E S ncSat M te ps) (hp : ps.Nodup) :
      Covered E S ncSat M (.shape closed extra (some te) acts anns none)
/-- Triple expressions with their predicates: groups that may occur once; constraints with a shape that may occur once;
and constraints with as many values in the map as may occur, which satisfy what is asked of them. -/
inductive CoveredTE (E : Env) (S : Schema) (ncSat : NC → Term → Prop) (M : MapState) : TE → List Str → Prop where
  | each {id es mn mx acts b ps} (hc : Card mn mx 1) (h : CoveredAll E S ncSat M es ps) :
      CoveredTE E S ncSat M (.each id es mn mx acts b) ps
  | ref {id ng iv p q l e mn mx acts b} (hn : ng ≠ some true) (hi : iv ≠ some true) (hp : E.resolve p = some q)
      (hc : Card mn mx 1) (hl : Declared S.shapes l e) (h : Covered E S ncSat M e) :
      CoveredTE E S ncSat M (.tc id ng iv p (some (.ref l)) mn mx acts b) [q]
  | shape {id ng iv p q closed extra te acts' anns ext mn mx acts b} (hn : ng ≠ some true) (hi : iv ≠ some true)
      (hp : E.resolve p = some q) (hc : Card mn mx 1) (h : Covered E S ncSat M (.shape closed extra te acts' anns ext)) :
      CoveredTE E S ncSat M (.tc id ng iv p (some (.shape closed extra te acts' anns ext)) mn mx acts b) [q]
  | leaf {id ng iv p q v mn mx acts b} {vs : List Term} (hn : ng ≠ some true) (hi : iv ≠ some true)
      (hp : E.resolve p = some q) (hv : v = none ∨ ∃ c, v = some (.nc c) ∧ ∀ x ∈ vs, ncSat c x)
      (hvs : ∀ x, x ∈ vs ↔ Mapped E M acts x) (hd : vs.Nodup) (hc : Card mn mx vs.length) :
      CoveredTE E S ncSat M (.tc id ng iv p v mn mx acts b) [q]
/-- All of several triple expressions. -/
inductive CoveredAll (E : Env) (S : Schema) (ncSat : NC → Term → Prop) (M : MapState) : List TE → List Str → Prop where
  | nil : CoveredAll E S ncSat M [] []
  | cons {t ts ps qs} (h : CoveredTE E S ncSat M t ps) (hs : CoveredAll E S ncSat M ts qs) :
      CoveredAll E S ncSat M (t :: ts) (ps ++ qs)
end

/-- No two blank nodes are given the same name, and none the name of the subject that was given. -/
def FreshNames (E : Env) (init : Option Term) : Prop :=
  (∀ i j, E.fresh i = E.fresh j → i = j) ∧ ∀ j, init ≠ some (.bnode (E.fresh j))

end Spec

end Mat
