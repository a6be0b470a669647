import Verif.Prefix.Spec
import Verif.Shexc.Schema
import Verif.Shexc.SpecText

/-!
# Specification: schemas that can be written in the compact syntax and read back

A part of the schemas, described without the reader and without the printer. `N` says which IRIs can be written and
read back (`Readable`).
-/

namespace Shexc

namespace Spec

/-- An IRI that can be written and read back, when `m` are the declared prefixes and `base` is the base: it is valid and
absolute, a longest namespace that it begins with ends in a slash or a hash and leaves a local name, and without such a
namespace it has no characters that need to be escaped. -/
structure Readable (I : Iris) (base : Option Str) (m : Prefix.PrefixMap) (i : Str) : Prop where
  valid : I.valid i = true
  absolute : ∀ b, base = some b → I.resolve b i = some i
  short : ∀ al ns rest, Prefix.Matches m i al ns rest → Prefix.Longest m i ns →
    (ns.getLast? = some '/' ∨ ns.getLast? = some '#') ∧ NameText (.prefixed al rest) (al ++ ':' :: rest)
  whole : (∀ al ns rest, ¬ Prefix.Matches m i al ns rest) → Chars IriChar i i

variable (N : Str → Prop)

/-- A name. -/
inductive PName : IriRef → Prop where
  | mk {i : Str} (h : N i) : PName (.iri i)

/-- The label of a shape. -/
inductive PLabel : Label → Prop where
  | iri {i : Str} (h : N i) : PLabel (.iri (.iri i))
  | bnode {b : Str} (h : BnodeName b) : PLabel (.bnode b)

/-- A facet: lengths, and patterns without characters that need to be escaped. -/
inductive PFacet : Facet → Prop where
  | length {n : Nat} (h : n < 2 ^ 64) : PFacet (.length n)
  | minLength {n : Nat} (h : n < 2 ^ 64) : PFacet (.minLength n)
  | maxLength {n : Nat} (h : n < 2 ^ 64) : PFacet (.maxLength n)
  | pattern {s : Str} {fs : Option Str} (h : PatBody s s) (hne : s ≠ []) (hs : s.head? ≠ some '*') (h0 : fs ≠ some [])
      (hf : ∀ f ∈ fs, ∀ c ∈ f, c ∈ "smix".toList) : PFacet (.pattern s fs)

/-- No facet or one. -/
inductive PFacets : Option (List Facet) → Prop where
  | none : PFacets none
  | one {f : Facet} (h : PFacet f) : PFacets (some [f])

/-- A value of a value set: an IRI. -/
inductive PValue : Value → Prop where
  | iri {i : Str} (h : N i) : PValue (.obj (.iri (.iri i)))

/-- A node constraint: one of a kind of nodes, a datatype, a value set and a facet. -/
inductive PNC : NC → Prop where
  | kind {fs : Option (List Facet)} (k : Kind) (h : PFacets fs) : PNC { kind := some k, facets := fs }
  | datatype {d : IriRef} {fs : Option (List Facet)} (hd : PName N d) (h : PFacets fs) :
      PNC { datatype := some d, facets := fs }
  | values {vs : List Value} {fs : Option (List Facet)} (hv : ∀ v ∈ vs, PValue N v) (h : PFacets fs) :
      PNC { values := some vs, facets := fs }
  | facet {f : Facet} (h : PFacet f) : PNC { facets := some [f] }

/-- What an annotation says: an IRI, or a string without characters that need to be escaped. -/
inductive PObj : ObjVal → Prop where
  | iri {i : Str} (h : N i) : PObj (.iri (.iri i))
  | str {s : Str} (h : Chars (CharText ['"', '\n', '\r']) s s) : PObj (.lit (.str s))

/-- An annotation. -/
structure PAnnot (a : Annot) : Prop where
  pred : PName N a.pred
  obj : PObj N a.obj

/-- A semantic action with code that has no characters that need to be escaped. -/
inductive PAct : SemAct → Prop where
  | mk {r : IriRef} {c : Str} (hr : PName N r) (hc : Chars CodeChar c c) : PAct ⟨r, some c⟩

/-- A list that is missing or not empty, with conditions on its elements. -/
inductive PList {α : Type} (P : α → Prop) : Option (List α) → Prop where
  | none : PList P none
  | some {l : List α} (hne : l ≠ []) (h : ∀ a ∈ l, P a) : PList P (some l)

/-- Something set, or not said. -/
inductive PSet : Option Bool → Prop where
  | none : PSet none
  | some : PSet (some true)

/-- The cardinalities that have a sign of their own. -/
inductive PCard : Option Int → Option Int → Prop where
  | none : PCard none none
  | opt : PCard (some 0) (some 1)
  | star : PCard (some 0) (some (-1))
  | plus : PCard (some 1) (some (-1))

/-- What is inside: values of triple constraints, and triple expressions. -/
structure PInner where
  inline : SE → Prop
  triple : TE → Prop

/-- A shape expression without operators. Inside a triple constraint (`inl`) a shape has no annotations and no parents. A
shape has one parent at most, and none when it has extra properties. -/
inductive PAtom (I : PInner) (inl : Bool) : SE → Prop where
  | ref {l : Label} (h : PLabel N l) : PAtom I inl (.ref l)
  | nc {c : NC} (h : PNC N c) : PAtom I inl (.nc c)
  | shape {closed : Option Bool} {extra : Option (List IriRef)} {te : Option TE} {anns : Option (List Annot)}
      {ext : Option (List Label)} (hc : PSet closed) (he : PList (PName N) extra) (ht : ∀ e ∈ te, I.triple e)
      (ha : PList (PAnnot N) anns) (hx : ∀ ls ∈ ext, ∃ l, ls = [l] ∧ PLabel N l) (hxe : ext = none ∨ extra = none)
      (hi : inl = true → anns = none ∧ ext = none) : PAtom I inl (.shape closed extra te none anns ext)

/-- Negation of an expression without operators, or such an expression. -/
inductive PNeg (I : PInner) (inl : Bool) : SE → Prop where
  | plain {e : SE} (h : PAtom N I inl e) : PNeg I inl e
  | not {e : SE} (h : PAtom N I inl e) : PNeg I inl (.not e)

/-- Conjunctions of at least two. -/
inductive PConj (I : PInner) (inl : Bool) : SE → Prop where
  | single {e : SE} (h : PNeg N I inl e) : PConj I inl e
  | and {e f : SE} {es : List SE} (h : ∀ x ∈ e :: f :: es, PNeg N I inl x) : PConj I inl (.and (e :: f :: es))

/-- Disjunctions of at least two. -/
inductive PDisj (I : PInner) (inl : Bool) : SE → Prop where
  | single {e : SE} (h : PConj N I inl e) : PDisj I inl e
  | or {e f : SE} {es : List SE} (h : ∀ x ∈ e :: f :: es, PConj N I inl x) : PDisj I inl (.or (e :: f :: es))

/-- A triple constraint: without label, without actions when it has annotations. Actions follow a sign. -/
inductive PTriple1 (I : PInner) : TE → Prop where
  | tc {neg inv : Option Bool} {p : IriRef} {v : Option SE} {mn mx : Option Int} {acts : Option (List SemAct)}
      {anns : Option (List Annot)} (hn : PSet neg) (hi : PSet inv) (hp : PName N p)
      (hv : ∀ e ∈ v, I.inline e ∧ e ≠ .shape none none none none none none) (hc : PCard mn mx)
      (ha : PList (PAct N) acts) (hb : PList (PAnnot N) anns) (h1 : acts = none ∨ anns = none)
      (h2 : acts = none ∨ v = none ∨ mn ≠ none) : PTriple1 I (.tc none neg inv p v mn mx acts anns)

/-- A triple constraint or a group of at least two. -/
inductive PTriple (I : PInner) : TE → Prop where
  | single {e : TE} (h : PTriple1 N I e) : PTriple I e
  | each {e f : TE} {es : List TE} (h : ∀ x ∈ e :: f :: es, PTriple1 N I x) :
      PTriple I (.each none (e :: f :: es) none none none none)

/-- Brackets at most `n` deep. -/
def PLevel : Nat → PInner
  | 0 => ⟨fun _ => False, fun _ => False⟩
  | n + 1 => ⟨PDisj N (PLevel n) true, PTriple N (PLevel n)⟩

/-- A shape expression. -/
def PShape (inl : Bool) (e : SE) : Prop := ∃ n, PDisj N (PLevel N n) inl e

/-- A declaration: not abstract. -/
structure PDecl (d : Decl) : Prop where
  label : PLabel N d.label
  expr : PShape N false d.expr ∨ d.expr = .external
  abs : d.abs = false

/-- An import, which is not resolved when it is read: a name that is written as it is. -/
inductive PImport (m : Prefix.PrefixMap) : IriRef → Prop where
  | iri {i : Str} (h : Chars IriChar i i) (hm : ∀ al ns rest, ¬ Prefix.Matches m i al ns rest) : PImport m (.iri i)
  | prefixed {p l : Str} (h : NameText (.prefixed p l) (p ++ ':' :: l)) : PImport m (.prefixed p l)

/-- The declared prefixes. -/
structure PPrefixes (m : Prefix.PrefixMap) : Prop where
  ne : m.map ≠ []
  built : Prefix.Built m
  plain : m.hyperlink = false
  name : ∀ e ∈ m.map, PrefixName e.1 ∧ Chars IriChar e.2 e.2

/-- A schema that can be written and read back. -/
structure Printable (I : Iris) (S : Schema) : Prop where
  prefixes : ∀ m ∈ S.env.pm, PPrefixes m
  base : ∀ b ∈ S.env.base, Chars IriChar b b
  imports : PList (PImport (S.env.pm.getD .new)) S.imports
  startActs : S.startActs = none
  start : ∀ e ∈ S.start, PShape (Readable I S.env.base (S.env.pm.getD .new)) true e
  shapes : PList (PDecl (Readable I S.env.base (S.env.pm.getD .new))) S.shapes

/-! ## What is not supported -/

/-- An expression. -/
inductive Node where
  | se (e : SE)
  | te (e : TE)

/-- The second expression is directly inside the first. -/
inductive Inside : Node → Node → Prop where
  | or {e : SE} {es : List SE} (h : e ∈ es) : Inside (.se (.or es)) (.se e)
  | and {e : SE} {es : List SE} (h : e ∈ es) : Inside (.se (.and es)) (.se e)
  | not {e : SE} : Inside (.se (.not e)) (.se e)
  | shape {closed : Option Bool} {extra : Option (List IriRef)} {te : TE} {acts : Option (List SemAct)}
      {anns : Option (List Annot)} {ext : Option (List Label)} :
      Inside (.se (.shape closed extra (some te) acts anns ext)) (.te te)
  | each {id : Option TLabel} {e : TE} {es : List TE} {mn mx : Option Int} {acts : Option (List SemAct)}
      {anns : Option (List Annot)} (h : e ∈ es) : Inside (.te (.each id es mn mx acts anns)) (.te e)
  | tc {id : Option TLabel} {neg inv : Option Bool} {p : IriRef} {e : SE} {mn mx : Option Int}
      {acts : Option (List SemAct)} {anns : Option (List Annot)} :
      Inside (.te (.tc id neg inv p (some e) mn mx acts anns)) (.se e)

/-- The second expression is inside the first, at any depth. -/
inductive Within : Node → Node → Prop where
  | refl {x : Node} : Within x x
  | step {x y z : Node} (h : Inside x y) (h' : Within y z) : Within x z

/-- Literals with a language tag, with a datatype, and booleans. -/
inductive OddLit : ObjVal → Prop where
  | lang {s t : Str} : OddLit (.lit (.lang s t))
  | typed {s : Str} {d : IriRef} : OddLit (.lit (.typed s d))
  | bool {b : Bool} : OddLit (.lit (.bool b))

/-- Values other than IRIs and numbers. -/
inductive OddValue : Value → Prop where
  | str {s : Str} : OddValue (.obj (.lit (.str s)))
  | lit {o : ObjVal} (h : OddLit o) : OddValue (.obj o)
  | iriStem {r : IriRef} : OddValue (.iriStem r)
  | iriStemRange {s : Option IriRef} {x : Option (List (Excl IriRef))} : OddValue (.iriStemRange s x)
  | litStem {s : Str} : OddValue (.litStem s)
  | litStemRange {s : Option Str} {x : Option (List (Excl Str))} : OddValue (.litStemRange s x)
  | lang {t : Str} : OddValue (.lang t)
  | langStem {s : Option Str} : OddValue (.langStem s)
  | langStemRange {s : Option Str} {x : Option (List (Excl Str))} : OddValue (.langStemRange s x)

/-- An expression that cannot be written: an alternative of triple expressions, a reference to a triple expression, a
value set with a value other than IRIs and numbers, an annotation with such a literal. -/
inductive Unsupported : Node → Prop where
  | one {id : Option TLabel} {es : List TE} {mn mx : Option Int} {acts : Option (List SemAct)}
      {anns : Option (List Annot)} : Unsupported (.te (.one id es mn mx acts anns))
  | ref {l : TLabel} : Unsupported (.te (.ref l))
  | value {c : NC} {vs : List Value} {v : Value} (hc : c.values = some vs) (hv : v ∈ vs) (h : OddValue v) :
      Unsupported (.se (.nc c))
  | shape {closed : Option Bool} {extra : Option (List IriRef)} {te : Option TE} {acts : Option (List SemAct)}
      {anns : List Annot} {ext : Option (List Label)} {a : Annot} (ha : a ∈ anns) (h : OddLit a.obj) :
      Unsupported (.se (.shape closed extra te acts (some anns) ext))
  | tc {id : Option TLabel} {neg inv : Option Bool} {p : IriRef} {v : Option SE} {mn mx : Option Int}
      {acts : Option (List SemAct)} {anns : List Annot} {a : Annot} (ha : a ∈ anns) (h : OddLit a.obj) :
      Unsupported (.te (.tc id neg inv p v mn mx acts (some anns)))

end Spec

end Shexc
