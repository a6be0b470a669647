import Verif.Shexj.Model

/-!
# Specification: schemas that survive being written to JSON and read back

Conditions on schemas, said without the reader, and the form in which a schema comes back.
-/

namespace Shexj

open Shexc
open Shexc.Pp (showDec)

/-- A name that a reader of names gives back: an IRI, or a prefixed name that is no IRI. -/
def RefOk (X : Ext) : IriRef → Prop
  | .iri s => X.iri s = true
  | .prefixed p l => ':' ∉ p ∧ X.iri (p ++ ':' :: l) = false

/-- An IRI that is written as such. -/
def IriOk (X : Ext) : IriRef → Prop
  | .iri s => X.iri s = true
  | .prefixed _ _ => False

/-- Some part of a line is between angle brackets. -/
def Angles (s : Str) : Prop := ∃ a b c, s = a ++ '<' :: (b ++ '>' :: c) ∧ '\n' ∉ b

/-- A text without the two characters that blank nodes start with. -/
def NoBlank (s : Str) : Prop := ¬ ['_', ':'] <:+: s

/-- A label that is not taken for another one. -/
def LabelOk (X : Ext) : Label → Prop
  | .iri (.iri s) => X.iri s = true ∧ ¬ Angles s ∧ NoBlank s
  | .iri (.prefixed _ _) => False
  | .bnode b => ¬ Angles ('_' :: ':' :: b) ∧ '\n' ∉ b
  | .start => False

/-- A label of a triple expression that is given back. -/
def TLabelOk (X : Ext) : TLabel → Prop
  | .iri r => IriOk X r
  | .bnode _ => False

/-- A text in which nothing is escaped. -/
def Unescaped (s : Str) : Prop := ∀ c ∈ s, c ≠ '"' ∧ c ≠ '\\' ∧ 32 ≤ c.toNat

/-- The datatypes that have literals of their own. -/
def natives : List Str := [booleanIri.toList, integerIri.toList, doubleIri.toList, decimalIri.toList]

/-- The types of values that are no literals. -/
def stemTypes : List Str :=
  ["IriStem".toList, "LanguageStem".toList, "LiteralStem".toList, "Language".toList, "IriStemRange".toList,
    "LanguageStemRange".toList, "LiteralStemRange".toList]

/-- A language tag in its normal form. -/
def TagOk (X : Ext) (t : Str) : Prop := X.lang t = some t

/-- Numbers of 64 bits. -/
def I64 (n : Int) : Prop := -2 ^ 63 ≤ n ∧ n < 2 ^ 63

/-- A literal that is given back: integers are of 64 bits, other numbers are what their text is read as, and a
datatype is an IRI without literals of its own. -/
def LitOk (X : Ext) : Lit → Prop
  | .str _ => True
  | .lang _ t => TagOk X t
  | .bool _ => True
  | .num (.int n) => I64 n
  | .num (.dec m s) => X.dec (showDec m s) = some (m, s)
  | .num (.other t) => X.dbl t = some t
  | .typed _ dt => IriOk X dt ∧ refText dt ∉ natives

/-- An object of an annotation that is given back. -/
def ObjOk (X : Ext) : ObjVal → Prop
  | .iri r => IriOk X r
  | .lit l => LitOk X l

/-- A text that is not taken for a name. -/
def NoName (X : Ext) (s : Str) : Prop := X.iri s = false ∧ ':' ∉ s

/-- An exclusion whose text or stem has some property. -/
def ExclOk {α : Type} (exact stem : α → Prop) : Excl α → Prop
  | .exact a => exact a
  | .stem a => stem a

/-- A value of a value set that is given back. Ranges have a list of exclusions. -/
def ValueOk (X : Ext) : Value → Prop
  | .obj (.lit (.typed s dt)) => LitOk X (.typed s dt) ∧ refText dt ∉ stemTypes
  | .obj o => ObjOk X o
  | .iriStem r => IriOk X r
  | .iriStemRange s es =>
    (∀ r, s = some r → IriOk X r) ∧ ∃ l, es = some l ∧ ∀ e ∈ l, ExclOk (IriOk X) (RefOk X) e
  | .litStem _ => True
  | .litStemRange _ es => ∃ l, es = some l ∧ ∀ e ∈ l, ExclOk (fun _ => True) (NoName X) e
  | .lang t => TagOk X t
  | .langStem s => ∀ t, s = some t → t ≠ [] ∧ TagOk X t
  | .langStemRange s es =>
    (∀ t, s = some t → t ≠ [] ∧ TagOk X t) ∧
      ∃ l, es = some l ∧ ∀ e ∈ l, ExclOk (TagOk X) (fun t => TagOk X t ∧ NoName X t) e

/-- The kinds of facets, in the order in which they are read. -/
def Facet.rank : Facet → Nat
  | .pattern _ _ => 0
  | .length _ => 1
  | .minLength _ => 2
  | .maxLength _ => 3
  | .minInc _ => 4
  | .maxInc _ => 5
  | .minExc _ => 6
  | .maxExc _ => 7
  | .totalDigits _ => 8
  | .fractionDigits _ => 9

/-- A facet that is given back: lengths are of 64 bits, numbers are what they are read as. -/
def FacetOk (X : Ext) : Facet → Prop
  | .pattern _ _ => True
  | .length n | .minLength n | .maxLength n | .totalDigits n | .fractionDigits n => n < 2 ^ 64
  | .minInc n | .maxInc n | .minExc n | .maxExc n => X.numR (X.numW n) = some n

/-- Facets in the order of their kinds. -/
def sortFacets (fs : List Facet) : List Facet := (List.range 10).flatMap fun i => fs.filter fun f => Facet.rank f == i

/-- A node constraint that is given back: no two of its facets are of the same kind. -/
def NCOk (X : Ext) (c : NC) : Prop :=
  (∀ r, c.datatype = some r → RefOk X r) ∧ (∀ vs, c.values = some vs → ∀ v ∈ vs, ValueOk X v) ∧
    ∀ fs, c.facets = some fs → (fs.map Facet.rank).Nodup ∧ ∀ f ∈ fs, FacetOk X f

/-- The node constraint that comes back: facets in the order of their kinds, and none rather than no facets. -/
def NC.back (c : NC) : NC :=
  { c with facets :=
      match c.facets with
      | some (f :: fs) => some (sortFacets (f :: fs))
      | _ => none }

/-- A semantic action that is given back. -/
def ActOk (X : Ext) (a : SemAct) : Prop := RefOk X a.name

/-- An annotation that is given back. -/
def AnnotOk (X : Ext) (a : Annot) : Prop := RefOk X a.pred ∧ ObjOk X a.obj

/-- Numbers of 32 bits. -/
def I32 (n : Int) : Prop := -2 ^ 31 ≤ n ∧ n < 2 ^ 31

/-- What shapes and triple expressions share. -/
def SharedOk (X : Ext) (acts : Option (List SemAct)) (anns : Option (List Annot)) : Prop :=
  (∀ as, acts = some as → ∀ a ∈ as, ActOk X a) ∧ ∀ as, anns = some as → ∀ a ∈ as, AnnotOk X a

/-- The fields that all triple expressions share. -/
def CardOk (X : Ext) (id : Option TLabel) (mn mx : Option Int) (acts : Option (List SemAct))
    (anns : Option (List Annot)) : Prop :=
  (∀ l, id = some l → TLabelOk X l ∧ ∀ r, l = .iri r → Unescaped (refText r)) ∧ (∀ n, mn = some n → I32 n) ∧
    (∀ n, mx = some n → I32 n) ∧ SharedOk X acts anns

mutual
/-- A shape expression that is given back. -/
def SEOk (X : Ext) : SE → Prop
  | .or es => SEsOk X es
  | .and es => SEsOk X es
  | .not e => SEOk X e
  | .nc c => NCOk X c
  | .shape _ extra expr acts anns ext =>
    (∀ rs, extra = some rs → ∀ r ∈ rs, RefOk X r) ∧ TEOOk X expr ∧ SharedOk X acts anns ∧
      ∀ ls, ext = some ls → ∀ l ∈ ls, LabelOk X l ∧ Unescaped (labelText l)
  | .external => True
  | .ref l => LabelOk X l
def SEsOk (X : Ext) : List SE → Prop
  | [] => True
  | e :: es => SEOk X e ∧ SEsOk X es
def SEOOk (X : Ext) : Option SE → Prop
  | none => True
  | some e => SEOk X e
/-- A triple expression that is given back. -/
def TEOk (X : Ext) : TE → Prop
  | .each id es mn mx acts anns => CardOk X id mn mx acts anns ∧ TEsOk X es
  | .one id es mn mx acts anns => CardOk X id mn mx acts anns ∧ TEsOk X es
  | .tc id _ _ pred ve mn mx acts anns => CardOk X id mn mx acts anns ∧ RefOk X pred ∧ SEOOk X ve
  | .ref l => TLabelOk X l
def TEsOk (X : Ext) : List TE → Prop
  | [] => True
  | e :: es => TEOk X e ∧ TEsOk X es
def TEOOk (X : Ext) : Option TE → Prop
  | none => True
  | some e => TEOk X e
end

mutual
/-- The shape expression that comes back. -/
def SE.back : SE → SE
  | .or es => .or (SE.backs es)
  | .and es => .and (SE.backs es)
  | .not e => .not (SE.back e)
  | .nc c => .nc (NC.back c)
  | .shape closed extra expr acts anns ext => .shape closed extra (TE.backO expr) acts anns ext
  | .external => .external
  | .ref l => .ref l
def SE.backs : List SE → List SE
  | [] => []
  | e :: es => SE.back e :: SE.backs es
def SE.backO : Option SE → Option SE
  | none => none
  | some e => some (SE.back e)
/-- The triple expression that comes back. -/
def TE.back : TE → TE
  | .each id es mn mx acts anns => .each id (TE.backs es) mn mx acts anns
  | .one id es mn mx acts anns => .one id (TE.backs es) mn mx acts anns
  | .tc id neg inv pred ve mn mx acts anns => .tc id neg inv pred (SE.backO ve) mn mx acts anns
  | .ref l => .ref l
def TE.backs : List TE → List TE
  | [] => []
  | e :: es => TE.back e :: TE.backs es
def TE.backO : Option TE → Option TE
  | none => none
  | some e => some (TE.back e)
end

/-- A declaration that is given back. -/
def DeclOk (X : Ext) (d : SDecl) : Prop := LabelOk X d.id ∧ Unescaped (labelText d.id) ∧ SEOk X d.expr

/-- The declaration that comes back. -/
def SDecl.back (d : SDecl) : SDecl := { d with expr := SE.back d.expr }

/-- Declared prefixes: no alias twice, and IRIs or empty texts. -/
def PMOk (X : Ext) (m : Prefix.PrefixMap) : Prop :=
  (m.map.map (·.1)).Nodup ∧ ∀ e ∈ m.map, e.2 = [] ∨ X.iri e.2 = true

/-- A schema that is given back. -/
structure SchOk (X : Ext) (s : Sch) : Prop where
  start : SEOOk X s.start
  startActs : ∀ as, s.startActs = some as → ∀ a ∈ as, ActOk X a
  shapes : ∀ ds, s.shapes = some ds → ∀ d ∈ ds, DeclOk X d
  prefixmap : ∀ m, s.prefixmap = some m → PMOk X m
  base : ∀ b, s.base = some b → b = [] ∨ X.iri b = true

/-- The schema that comes back: imports as texts, the facets of node constraints in the order of their kinds, and
without its source and the way in which prefixes are shown. -/
def Sch.back (s : Sch) : Sch :=
  { s with
    imports := s.imports.map (·.map fun i => .str (importText i))
    start := SE.backO s.start
    shapes := s.shapes.map (·.map SDecl.back)
    prefixmap := s.prefixmap.map fun m => ⟨m.map, false⟩
    source := [] }

end Shexj
