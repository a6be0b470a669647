import Verif.Shexc.ShapeMap
import Verif.Shexc.SpecText

/-!
# Specification: how shape maps are written

The words and the grammar of the compact syntax of shape maps, after the ShapeMap specification
(https://shexspec.github.io/shape-map/#grammar). Nothing here mentions the reader. Where the rule is narrower than the
one of the specification the comment says so.
-/

namespace Shexc

namespace Spec

/-! ## Words -/

/-- The words of shape maps. -/
inductive MTok where
  | sym (c : Char)
  /-- A keyword, in capitals or not. -/
  | kw (k : String)
  | name (r : IriRef)
  /-- A name that does not begin with `focus`. -/
  | subj (r : IriRef)
  | bnode (b : Str)
  /-- `a`. -/
  | isA
  | lit (l : Lit)
  | str (s : Str)

/-- The text of a literal: as in schemas, with any name for the datatype. -/
inductive MLitText (lang : Str → Option Str) : Lit → Str → Prop where
  | base {l : Lit} {w : Str} (h : LitText lang l w) : MLitText lang l w
  | typed {s w v : Str} {d : IriRef} (h : StringText s w) (hd : RefText d v) :
      MLitText lang (.typed s d) (w ++ '^' :: '^' :: v)

/-- The text of a word. `lang` gives the normal form of a language tag. -/
inductive MText (lang : Str → Option Str) : MTok → Str → Prop where
  | sym {c : Char} (h : c ∈ ['{', '}', '@', ',', '_']) : MText lang (.sym c) [c]
  | kw {k : String} {w : Str} (hk : k ∈ ["FOCUS", "SPARQL", "START"])
      (h : w.map Char.toLower = k.toList.map Char.toLower) : MText lang (.kw k) w
  | name {r : IriRef} {w : Str} (h : RefText r w) : MText lang (.name r) w
  | subj {r : IriRef} {w : Str} (h : RefText r w) (hn : ¬ "focus".toList <+: w.map Char.toLower) :
      MText lang (.subj r) w
  | bnode {b : Str} (h : BnodeName b) : MText lang (.bnode b) ('_' :: ':' :: b)
  | isA : MText lang .isA ['a']
  | lit {l : Lit} {w : Str} (h : MLitText lang l w) : MText lang (.lit l) w
  | str {s w : Str} (h : StringText s w) : MText lang (.str s) w

/-- The characters that may not follow a word directly: those it could go on with. A string can go on with a language
tag, so that no `@` may follow it directly. -/
def msticks (t : MTok) (c : Char) : Prop :=
  match t with
  | .sym _ => False
  | .name (.iri _) => False
  | .subj (.iri _) => False
  | .lit (.str _) => c ∈ ['"', '\'', '@', '^']
  | .str _ => c ∈ ['"', '\'']
  | _ => nameChar c ∨ c ∈ [':', '.', '%', '\\']

/-- Words one after the other, each followed by a gap, which may be empty where the next word does not begin with
something that would be taken for a part of the word. -/
inductive MSpell (lang : Str → Option Str) : List MTok → Str → Prop where
  | nil : MSpell lang [] []
  | cons {t : MTok} {ts : List MTok} {w g r : Str} (ht : MText lang t w) (hg : Gap false g)
      (hs : g = [] → ∀ c ∈ r.head?, ¬ msticks t c) (hr : MSpell lang ts r) : MSpell lang (t :: ts) (w ++ (g ++ r))

/-! ## Grammar -/

/-- A node or the wildcard in a triple pattern; `nm` makes the word of a name. -/
inductive PatT (nm : IriRef → MTok) : Pat → List MTok → Prop where
  | name (r : IriRef) : PatT nm (.node (.iri r)) [nm r]
  | lit (l : Lit) : PatT nm (.node (.lit l)) [.lit l]
  | wildcard : PatT nm .wildcard [.sym '_']

/-- A path: one predicate. -/
inductive PathT : PathRef → List MTok → Prop where
  | name (r : IriRef) : PathT (.pred r) [.name r]
  | isA : PathT (.pred (.iri "http://www.w3.org/1999/02/22-rdf-syntax-ns#type".toList)) [.isA]

/-- A selector of nodes. Where a node is the subject of a pattern its name may not begin with `focus` (the
specification knows no such rule, see `C109_refuted`). -/
inductive SelT : Sel → List MTok → Prop where
  | name (r : IriRef) : SelT (.node (.iri r)) [.name r]
  | bnode (b : Str) : SelT (.bnode b) [.bnode b]
  | lit (l : Lit) : SelT (.node (.lit l)) [.lit l]
  | object {p : PathRef} {o : Pat} {ps os : List MTok} (hp : PathT p ps) (ho : PatT .name o os) :
      SelT (.triple .focus p o) (.sym '{' :: .kw "FOCUS" :: (ps ++ (os ++ [.sym '}'])))
  | subject {s : Pat} {p : PathRef} {ss ps : List MTok} (hs : PatT .subj s ss) (hp : PathT p ps) :
      SelT (.triple s p .focus) (.sym '{' :: (ss ++ (ps ++ [.kw "FOCUS", .sym '}'])))
  | sparql (q : Str) : SelT (.sparql q) [.kw "SPARQL", .str q]

/-- A selector of shapes. -/
inductive ShapeT : ShapeSel → List MTok → Prop where
  | name (r : IriRef) : ShapeT (.label (.iri r)) [.name r]
  | bnode (b : Str) : ShapeT (.label (.bnode b)) [.bnode b]
  | start : ShapeT .start [.kw "START"]

/-- An association. -/
inductive AssocT : Assoc → List MTok → Prop where
  | mk {n : Sel} {s : ShapeSel} {ns ss : List MTok} (hn : SelT n ns) (hs : ShapeT s ss) :
      AssocT ⟨n, s⟩ (ns ++ .sym '@' :: ss)

/-- A shape map: associations with commas between them, and perhaps one more comma. -/
inductive MapT : List Assoc → List MTok → Prop where
  | one {a : Assoc} {ts : List MTok} (h : AssocT a ts) : MapT [a] ts
  | comma {a : Assoc} {ts : List MTok} (h : AssocT a ts) : MapT [a] (ts ++ [.sym ','])
  | cons {a : Assoc} {as : List Assoc} {ts us : List MTok} (h : AssocT a ts) (hs : MapT as us) :
      MapT (a :: as) (ts ++ .sym ',' :: us)

/-- A text of a shape map: perhaps a gap, then the words. -/
def MapText (lang : Str → Option Str) (as : List Assoc) (w : Str) : Prop :=
  ∃ ts g v, MapT as ts ∧ Gap false g ∧ MSpell lang ts v ∧ w = g ++ v

end Spec

end Shexc
