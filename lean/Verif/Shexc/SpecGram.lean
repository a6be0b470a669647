import Verif.Shexc.SpecText

/-!
# Specification: how the words of the compact syntax are put together

Relations between lists of words and syntax trees, after the grammar of the ShEx specification. The grammar is
recursive: shape expressions and triple expressions are written inside brackets. `Inner` stands for what is written
inside, and `Level n` for what is written with brackets at most `n` deep. Nothing here mentions the reader.
-/

namespace Shexc

namespace Spec

/-- What is written inside brackets: shape expressions, those of triple constraints, and triple expressions. -/
structure Inner where
  shape : List Tok → SE → Prop
  inline : List Tok → SE → Prop
  triple : List Tok → TE → Prop

/-- One or more, with a word between them. -/
inductive Chain {α : Type} (sep : Tok) (R : List Tok → α → Prop) : List Tok → List α → Prop where
  | one {ts : List Tok} {a : α} (h : R ts a) : Chain sep R ts [a]
  | more {ts us : List Tok} {a : α} {as : List α} (h : R ts a) (hs : Chain sep R us as) :
      Chain sep R (ts ++ sep :: us) (a :: as)

/-- Any number, one after the other. -/
inductive Seq {α : Type} (R : List Tok → α → Prop) : List Tok → List α → Prop where
  | nil : Seq R [] []
  | cons {ts us : List Tok} {a : α} {as : List α} (h : R ts a) (hs : Seq R us as) : Seq R (ts ++ us) (a :: as)

/-- A list, or nothing when it is empty. -/
def listed {α : Type} (l : List α) : Option (List α) := if l = [] then none else some l

/-! ## Facets -/

/-- A facet of strings. -/
inductive StrFacet : List Tok → Facet → Prop where
  | length {n : Nat} (h : n < 2 ^ 64) : StrFacet [.kw "LENGTH", .int n] (.length n)
  | minLength {n : Nat} (h : n < 2 ^ 64) : StrFacet [.kw "MINLENGTH", .int n] (.minLength n)
  | maxLength {n : Nat} (h : n < 2 ^ 64) : StrFacet [.kw "MAXLENGTH", .int n] (.maxLength n)
  | pattern (f : Facet) : StrFacet [.regex f] f

/-- A facet of numbers. -/
inductive NumFacet : List Tok → Facet → Prop where
  | minInc (n : Num) : NumFacet [.cap "MININCLUSIVE", .num n] (.minInc n)
  | maxInc (n : Num) : NumFacet [.cap "MAXINCLUSIVE", .num n] (.maxInc n)
  | minExc (n : Num) : NumFacet [.cap "MINEXCLUSIVE", .num n] (.minExc n)
  | maxExc (n : Num) : NumFacet [.cap "MAXEXCLUSIVE", .num n] (.maxExc n)
  | totalDigits {n : Nat} (h : n < 2 ^ 64) : NumFacet [.cap "TOTALDIGITS", .int n] (.totalDigits n)
  | fractionDigits {n : Nat} (h : n < 2 ^ 64) : NumFacet [.cap "FRACTIONDIGITS", .int n] (.fractionDigits n)

/-- At most one facet of strings. The ShEx specification allows several (see `C107_refuted`). -/
inductive StrFacets : List Tok → List Facet → Prop where
  | none : StrFacets [] []
  | one {ts : List Tok} {f : Facet} (h : StrFacet ts f) : StrFacets ts [f]

/-- Facets: those of strings before those of numbers, which the ShEx specification does not ask for. -/
inductive Facets : List Tok → List Facet → Prop where
  | mk {ts us : List Tok} {fs gs : List Facet} (h : StrFacets ts fs) (h' : Seq NumFacet us gs) :
      Facets (ts ++ us) (fs ++ gs)

/-! ## Values -/

/-- Something excluded, itself or as a stem. -/
inductive Exclusion {α : Type} (T : Tok → α → Prop) : List Tok → Excl α → Prop where
  | exact {t : Tok} {a : α} (h : T t a) : Exclusion T [.sym ['-'], t] (.exact a)
  | stem {t : Tok} {a : α} (h : T t a) : Exclusion T [.sym ['-'], t, .sym ['~']] (.stem a)

/-- The lexical form of a literal. -/
def lexicalForm : Lit → Str
  | .bool true => "true".toList
  | .bool false => "false".toList
  | .str s => s
  | .lang s _ => s
  | .typed s _ => s
  | .num _ => []

/-- Names. -/
inductive IsName : Tok → IriRef → Prop where
  | mk (r : IriRef) : IsName (.name r) r

/-- Names that do not begin like a boolean. -/
inductive IsPlainName : Tok → IriRef → Prop where
  | iri (s : Str) : IsPlainName (.name (.iri s)) (.iri s)
  | prefixed {p l : Str} (h1 : ¬ "true".toList <+: p) (h2 : ¬ "false".toList <+: p) :
      IsPlainName (.name (.prefixed p l)) (.prefixed p l)

/-- Literals by their lexical form. -/
inductive IsLit : Tok → Str → Prop where
  | mk (l : Lit) : IsLit (.lit l) (lexicalForm l)

/-- Language tags. -/
inductive IsLang : Tok → Str → Prop where
  | mk (t : Str) : IsLang (.lang t) t

/-- A value of a value set that excludes nothing and is no stem. -/
inductive PlainValue : List Tok → Value → Prop where
  | iri (r : IriRef) : PlainValue [.name r] (.obj (.iri r))
  | lit (l : Lit) : PlainValue [.lit l] (.obj (.lit l))
  | lang (t : Str) : PlainValue [.lang t] (.lang t)

/-- A stem, or a stem from which something is excluded. -/
inductive StemValue : List Tok → Value → Prop where
  | iriStem (r : IriRef) : StemValue [.name r, .sym ['~']] (.iriStem r)
  | iriRange {r : IriRef} {ts : List Tok} {e : Excl IriRef} {es : List (Excl IriRef)}
      (h : Seq (Exclusion IsName) ts (e :: es)) :
      StemValue (.name r :: .sym ['~'] :: ts) (.iriStemRange (some r) (some (e :: es)))
  | litStem (l : Lit) : StemValue [.lit l, .sym ['~']] (.litStem (lexicalForm l))
  | litRange {l : Lit} {ts : List Tok} {e : Excl Str} {es : List (Excl Str)} (h : Seq (Exclusion IsLit) ts (e :: es)) :
      StemValue (.lit l :: .sym ['~'] :: ts) (.litStemRange (some (lexicalForm l)) (some (e :: es)))
  | langStem (t : Str) : StemValue [.lang t, .sym ['~']] (.langStem (some t))
  | langRange {t : Str} {ts : List Tok} {e : Excl Str} {es : List (Excl Str)} (h : Seq (Exclusion IsLang) ts (e :: es)) :
      StemValue (.lang t :: .sym ['~'] :: ts) (.langStemRange (some t) (some (e :: es)))
  | anyLang : StemValue [.sym ['@'], .sym ['~']] (.langStem none)
  | anyLangRange {ts : List Tok} {e : Excl Str} {es : List (Excl Str)} (h : Seq (Exclusion IsLang) ts (e :: es)) :
      StemValue (.sym ['@'] :: .sym ['~'] :: ts) (.langStemRange none (some (e :: es)))
  | notIris {ts : List Tok} {e : Excl IriRef} {es : List (Excl IriRef)} (h : Seq (Exclusion IsPlainName) ts (e :: es)) :
      StemValue (.sym ['.'] :: ts) (.iriStemRange none (some (e :: es)))
  | notLits {ts : List Tok} {e : Excl Str} {es : List (Excl Str)} (h : Seq (Exclusion IsLit) ts (e :: es)) :
      StemValue (.sym ['.'] :: ts) (.litStemRange none (some (e :: es)))
  | notLangs {ts : List Tok} {e : Excl Str} {es : List (Excl Str)} (h : Seq (Exclusion IsLang) ts (e :: es)) :
      StemValue (.sym ['.'] :: ts) (.langStemRange none (some (e :: es)))

/-- A literal that may be written as a number with a minus sign. -/
def negative : Tok → Prop
  | .lit (.typed ('-' :: _) _) => True
  | _ => False

/-- The values of a value set. After a stem no negative number, which would be read as an exclusion, and after the
exclusion of a literal no other value, which would not be read at all (`C107_refuted`). -/
inductive Values : List Tok → List Value → Prop where
  | nil : Values [] []
  | plain {ts us : List Tok} {v : Value} {vs : List Value} (h : PlainValue ts v) (hs : Values us vs) :
      Values (ts ++ us) (v :: vs)
  | stem {ts us : List Tok} {v : Value} {vs : List Value} (h : StemValue ts v) (hs : Values us vs)
      (hn : ∀ t ∈ us.head?, ¬ negative t) (hl : ∀ l, ts.getLast? = some (.lit l) → us = []) : Values (ts ++ us) (v :: vs)

/-! ## Node constraints -/

/-- The kinds of nodes other than literals. -/
inductive KindWord : Tok → Kind → Prop where
  | iri : KindWord (.kw "IRI") .iri
  | bnode : KindWord (.kw "BNODE") .bnode
  | nonLiteral : KindWord (.kw "NONLITERAL") .nonLiteral

/-- A kind of node other than literals, with facets of strings. -/
inductive KindNC : List Tok → NC → Prop where
  | mk {t : Tok} {k : Kind} {ts : List Tok} {fs : List Facet} (hk : KindWord t k) (h : StrFacets ts fs) :
      KindNC (t :: ts) { kind := some k, facets := listed fs }

/-- A constraint on literals and values. -/
inductive LitNC : List Tok → NC → Prop where
  | literal {ts : List Tok} {fs : List Facet} (h : Facets ts fs) :
      LitNC (.kw "LITERAL" :: ts) { kind := some .literal, facets := listed fs }
  | datatype {d : IriRef} {ts : List Tok} {fs : List Facet} (h : Facets ts fs) :
      LitNC (.name d :: ts) { datatype := some d, facets := listed fs }
  | values {vs : List Value} {us ts : List Tok} {fs : List Facet} (hv : Values us vs) (h : Facets ts fs) :
      LitNC (.sym ['['] :: (us ++ .sym [']'] :: ts)) { values := some vs, facets := listed fs }
  | facets {ts : List Tok} {f : Facet} {fs : List Facet} (h : Seq NumFacet ts (f :: fs)) :
      LitNC ts { facets := some (f :: fs) }

/-! ## Shapes -/

/-- What stands for a property. -/
inductive PredWord : Tok → IriRef → Prop where
  | name (r : IriRef) : PredWord (.name r) r
  | isA : PredWord .isA (.iri "http://www.w3.org/1999/02/22-rdf-syntax-ns#type".toList)

/-- What is said in front of the braces of a shape. -/
inductive Qualifier where
  | closed
  | extra (ps : List IriRef)
  | ext (l : Label)

/-- Properties, one after the other. -/
inductive PredWords : List Tok → List IriRef → Prop where
  | one {t : Tok} {r : IriRef} (h : PredWord t r) : PredWords [t] [r]
  | more {t : Tok} {r : IriRef} {ts : List Tok} {rs : List IriRef} (h : PredWord t r) (hs : PredWords ts rs) :
      PredWords (t :: ts) (r :: rs)

/-- How it is written: `CLOSED` and `EXTRA` in capitals, a parent after `EXTENDS` or `&`. -/
inductive QualText : List Tok → Qualifier → Prop where
  | closed : QualText [.cap "CLOSED"] .closed
  | extra {ts : List Tok} {ps : List IriRef} (h : PredWords ts ps) : QualText (.cap "EXTRA" :: ts) (.extra ps)
  | ext (l : Label) : QualText [.kw "EXTENDS", .at l] (.ext l)
  | amp (l : Label) : QualText [.sym ['&'], .at l] (.ext l)

/-- Whether a shape is closed. -/
def isClosed (qs : List Qualifier) : Option Bool :=
  match qs with
  | [] => none
  | .closed :: _ => some true
  | _ :: qs => isClosed qs

/-- The properties that are left open. -/
def extras : List Qualifier → List IriRef
  | [] => []
  | .extra ps :: qs => ps ++ extras qs
  | _ :: qs => extras qs

/-- The parents. -/
def parents : List Qualifier → List Label
  | [] => []
  | .ext l :: qs => l :: parents qs
  | _ :: qs => parents qs

/-- What an annotation says. -/
inductive ObjWord : Tok → ObjVal → Prop where
  | iri (r : IriRef) : ObjWord (.name r) (.iri r)
  | lit (l : Lit) : ObjWord (.lit l) (.lit l)

/-- An annotation. -/
inductive AnnText : List Tok → Annot → Prop where
  | mk {t u : Tok} {p : IriRef} {o : ObjVal} (hp : PredWord t p) (ho : ObjWord u o) :
      AnnText [.sym ['/', '/'], t, u] ⟨p, o⟩

/-- A semantic action. -/
inductive ActText : List Tok → SemAct → Prop where
  | code (r : IriRef) (c : Str) : ActText [.sym ['%'], .name r, .code c] ⟨r, some c⟩
  | none (r : IriRef) : ActText [.sym ['%'], .name r, .sym ['%']] ⟨r, Option.none⟩

/-- What is inside the braces of a shape. -/
inductive Body (I : Inner) : List Tok → Option TE → Prop where
  | none : Body I [] none
  | some {ts : List Tok} {e : TE} (h : I.triple ts e) : Body I ts (some e)

/-- A shape. Inside a triple constraint (`inl`) it has neither annotations nor actions nor parents, which the ShEx
specification has as well, except for the parents. -/
inductive ShapeText (I : Inner) : Bool → List Tok → SE → Prop where
  | inner {qt bt : List Tok} {qs : List Qualifier} {te : Option TE} (hq : Seq QualText qt qs) (hb : Body I bt te)
      (hp : parents qs = []) :
      ShapeText I true (qt ++ .sym ['{'] :: (bt ++ [.sym ['}']]))
        (.shape (isClosed qs) (listed (extras qs)) te none none none)
  | outer {qt bt at' ct : List Tok} {qs : List Qualifier} {te : Option TE} {as : List Annot} {cs : List SemAct}
      (hq : Seq QualText qt qs) (hb : Body I bt te) (ha : Seq AnnText at' as) (hc : Seq ActText ct cs) :
      ShapeText I false (qt ++ .sym ['{'] :: (bt ++ .sym ['}'] :: (at' ++ ct)))
        (.shape (isClosed qs) (listed (extras qs)) te (listed cs) (listed as) (listed (parents qs)))

/-- A shape or a reference to one. -/
inductive ShapeOrRef (I : Inner) (inl : Bool) : List Tok → SE → Prop where
  | shape {ts : List Tok} {e : SE} (h : ShapeText I inl ts e) : ShapeOrRef I inl ts e
  | ref (l : Label) : ShapeOrRef I inl [.at l] (.ref l)

/-- A shape expression without `AND`, `OR` and `NOT` outside of brackets. What is written side by side is meant to
hold both. -/
inductive Atom (I : Inner) (inl : Bool) : List Tok → SE → Prop where
  | kind {ts : List Tok} {c : NC} (h : KindNC ts c) : Atom I inl ts (.nc c)
  | kindShape {ts us : List Tok} {c : NC} {e : SE} (h : KindNC ts c) (he : ShapeOrRef I inl us e) :
      Atom I inl (ts ++ us) (.and [.nc c, e])
  | facet {ts : List Tok} {f : Facet} (h : StrFacet ts f) : Atom I inl ts (.nc { facets := some [f] })
  | facetShape {ts us : List Tok} {f : Facet} {e : SE} (h : StrFacet ts f) (he : ShapeOrRef I inl us e) :
      Atom I inl (ts ++ us) (.and [.nc { facets := some [f] }, e])
  | lit {ts : List Tok} {c : NC} (h : LitNC ts c) : Atom I inl ts (.nc c)
  | shape {ts : List Tok} {e : SE} (h : ShapeOrRef I inl ts e) : Atom I inl ts e
  | shapeKind {ts us : List Tok} {c : NC} {e : SE} (he : ShapeOrRef I inl ts e) (h : KindNC us c) :
      Atom I inl (ts ++ us) (.and [e, .nc c])
  | brackets {ts : List Tok} {e : SE} (h : I.shape ts e) : Atom I inl (.sym ['('] :: (ts ++ [.sym [')']])) e
  | any : Atom I inl [.sym ['.']] (.shape none none none none none none)

/-- With or without `NOT`. -/
inductive Negation (I : Inner) (inl : Bool) : List Tok → SE → Prop where
  | plain {ts : List Tok} {e : SE} (h : Atom I inl ts e) : Negation I inl ts e
  | not {ts : List Tok} {e : SE} (h : Atom I inl ts e) : Negation I inl (.kw "NOT" :: ts) (.not e)

/-- The conjunction of several expressions; one alone is itself. -/
def conj : List SE → SE
  | [e] => e
  | es => .and es

/-- The disjunction of several expressions; one alone is itself. -/
def disj : List SE → SE
  | [e] => e
  | es => .or es

/-- Several joined by `AND`. -/
inductive Conj (I : Inner) (inl : Bool) : List Tok → SE → Prop where
  | mk {ts : List Tok} {es : List SE} (h : Chain (.kw "AND") (Negation I inl) ts es) : Conj I inl ts (conj es)

/-- Several joined by `OR`. -/
inductive Disj (I : Inner) (inl : Bool) : List Tok → SE → Prop where
  | mk {ts : List Tok} {es : List SE} (h : Chain (.kw "OR") (Conj I inl) ts es) : Disj I inl ts (disj es)

/-! ## Triple expressions -/

/-- The cardinality. -/
inductive CardWord : List Tok → Option Int → Option Int → Prop where
  | none : CardWord [] none none
  | plus : CardWord [.sym ['+']] (some 1) (some (-1))
  | star : CardWord [.sym ['*']] (some 0) (some (-1))
  | opt : CardWord [.sym ['?']] (some 0) (some 1)
  | range (m n : Int) : CardWord [.card m n] (some m) (some n)

/-- The signs in front of a property. -/
inductive Flags : List Tok → Option Bool → Option Bool → Prop where
  | none : Flags [] none none
  | neg : Flags [.sym ['!']] (some true) none
  | inv : Flags [.sym ['^']] none (some true)
  | negInv : Flags [.sym ['!'], .sym ['^']] (some true) (some true)
  | invNeg : Flags [.sym ['^'], .sym ['!']] (some true) (some true)

/-- The shape without conditions, which stands for no value expression. -/
def isDot : SE → Bool
  | .shape none none none none none none => true
  | _ => false

/-- A label of a triple expression. -/
inductive TLabelWord : Tok → TLabel → Prop where
  | iri (r : IriRef) : TLabelWord (.name r) (.iri r)
  | bnode (b : Str) : TLabelWord (.bnode b) (.bnode b)

/-- An optional label. -/
inductive Id : List Tok → Option TLabel → Prop where
  | none : Id [] none
  | some {t : Tok} {l : TLabel} (h : TLabelWord t l) : Id [.sym ['$'], t] (some l)

/-- A triple expression without `;` and `|` outside of brackets. Brackets are written around several expressions. -/
inductive Unary (I : Inner) : List Tok → TE → Prop where
  | incl {t : Tok} {l : TLabel} (h : TLabelWord t l) : Unary I [.sym ['&'], t] (.ref l)
  | constraint {it ft vt ct at' st : List Tok} {pt : Tok} {id : Option TLabel} {neg inv : Option Bool} {p : IriRef}
      {e : SE} {mn mx : Option Int} {as : List Annot} {cs : List SemAct} (hi : Id it id) (hf : Flags ft neg inv)
      (hp : PredWord pt p) (hv : I.inline vt e) (hc : CardWord ct mn mx) (ha : Seq AnnText at' as)
      (hs : Seq ActText st cs) :
      Unary I (it ++ (ft ++ pt :: (vt ++ (ct ++ (at' ++ st)))))
        (.tc id neg inv p (if isDot e then none else some e) mn mx (listed cs) (listed as))
  | each {it bt ct at' st : List Tok} {id : Option TLabel} {es : List TE} {mn mx : Option Int} {as : List Annot}
      {cs : List SemAct} (hi : Id it id) (hb : I.triple bt (.each none es none none none none)) (hc : CardWord ct mn mx)
      (ha : Seq AnnText at' as) (hs : Seq ActText st cs) :
      Unary I (it ++ .sym ['('] :: (bt ++ .sym [')'] :: (ct ++ (at' ++ st))))
        (.each id es mn mx (listed cs) (listed as))
  | one {it bt ct at' st : List Tok} {id : Option TLabel} {es : List TE} {mn mx : Option Int} {as : List Annot}
      {cs : List SemAct} (hi : Id it id) (hb : I.triple bt (.one none es none none none none)) (hc : CardWord ct mn mx)
      (ha : Seq AnnText at' as) (hs : Seq ActText st cs) :
      Unary I (it ++ .sym ['('] :: (bt ++ .sym [')'] :: (ct ++ (at' ++ st))))
        (.one id es mn mx (listed cs) (listed as))

/-- An optional `;` at the end. -/
inductive Semi : List Tok → Prop where
  | none : Semi []
  | some : Semi [.sym [';']]

/-- Several joined by `;`. -/
inductive Group (I : Inner) : List Tok → TE → Prop where
  | single {ts us : List Tok} {e : TE} (h : Unary I ts e) (hs : Semi us) : Group I (ts ++ us) e
  | many {ts us vs : List Tok} {e : TE} {es : List TE} (h : Unary I ts e) (hc : Chain (.sym [';']) (Unary I) us es)
      (hs : Semi vs) : Group I (ts ++ .sym [';'] :: (us ++ vs)) (.each none (e :: es) none none none none)

/-- Several joined by `|`. -/
inductive Triple (I : Inner) : List Tok → TE → Prop where
  | single {ts : List Tok} {e : TE} (h : Group I ts e) : Triple I ts e
  | many {ts us : List Tok} {e : TE} {es : List TE} (h : Group I ts e) (hc : Chain (.sym ['|']) (Group I) us es) :
      Triple I (ts ++ .sym ['|'] :: us) (.one none (e :: es) none none none none)

/-! ## Schemas -/

/-- What is written with brackets at most `n` deep. -/
def Level : Nat → Inner
  | 0 => ⟨fun _ _ => False, fun _ _ => False, fun _ _ => False⟩
  | n + 1 => ⟨Disj (Level n) false, Disj (Level n) true, Triple (Level n)⟩

/-- The text of a shape expression. -/
def ShapeExpr (ts : List Tok) (e : SE) : Prop := ∃ n, (Level n).shape ts e

/-- The text of a shape expression where a triple constraint has one. -/
def InlineExpr (ts : List Tok) (e : SE) : Prop := ∃ n, (Level n).inline ts e

/-- A statement. -/
inductive Statement where
  | pfx (name iri : Str)
  | base (iri : Str)
  | imp (r : IriRef)
  | start (e : SE)
  | decl (abs : Bool) (l : Label) (e : SE)

/-- The word for a label of a shape. -/
inductive LabelWord : Tok → Label → Prop where
  | iri (r : IriRef) : LabelWord (.name r) (.iri r)
  | bnode (b : Str) : LabelWord (.bnode b) (.bnode b)

/-- The text of a statement (actions at the beginning are left out). -/
inductive StatementText : List Tok → Statement → Prop where
  | pfx (p s : Str) : StatementText [.kw "PREFIX", .ns p, .name (.iri s)] (.pfx p s)
  | base (s : Str) : StatementText [.kw "BASE", .name (.iri s)] (.base s)
  | imp (r : IriRef) : StatementText [.kw "IMPORT", .name r] (.imp r)
  | start {ts : List Tok} {e : SE} (h : InlineExpr ts e) : StatementText (.kw "START" :: .sym ['='] :: ts) (.start e)
  | decl {t : Tok} {l : Label} {ts : List Tok} {e : SE} (hl : LabelWord t l) (h : ShapeExpr ts e) :
      StatementText (t :: ts) (.decl false l e)
  | abstr {t : Tok} {l : Label} {ts : List Tok} {e : SE} (hl : LabelWord t l) (h : ShapeExpr ts e) :
      StatementText (.kw "ABSTRACT" :: t :: ts) (.decl true l e)
  | external {t : Tok} {l : Label} (hl : LabelWord t l) : StatementText [t, .kw "EXTERNAL"] (.decl false l .external)

/-- The text of a schema. -/
def SchemaText (E : Ext) (w : Str) (ss : List Statement) : Prop :=
  ∃ g ts u, Gap true g ∧ w = g ++ u ∧ Spell E ts u ∧ Seq StatementText ts ss

end Spec

end Shexc
