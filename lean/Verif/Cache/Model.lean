import Verif.Cache.Codec
import Verif.Rbe.Model

/-!
# The precompiled form of a ShEx schema

Models `SchemaIR::write` and `SchemaIR::read` (shex_ast/src/ir/schema_ir.rs:815-838), the
envelope of shex_ast/src/ir/cache.rs, and how each type inside a `SchemaIR` is written and
read: by the derived `Serialize`/`Deserialize` where they are derived, by the hand-written
ones where the code has them.

Simplifications:
* a `usize` is a `Nat`, a `HashMap` is the list of its entries in the order in which it yields
  them, a `HashSet` and an `IndexSet` the list of their elements;
* the dependency and inheritance graphs (`petgraph::GraphMap`) are the lists of their nodes and
  edges, written in turn; the layout that `petgraph` gives them is not modelled;
* a decimal and a date-time are the texts that their `to_string` gives; `f32` and `f64` are
  their bytes; an `i8` is its byte;
* `Rbe::Fail` has no `DerivError` in it, as in `Verif/Rbe/Model.lean`;
* only what `write` and `read` look at is kept of the registry of semantic actions: its identity.
-/

namespace Cache

open Rbe (Mx Card Struct)

/-- External functions that reading needs. -/
structure Ext where
  /-- Whether `NamedNode::new` accepts the text, which is all that `IriS::from_str`
  (rudof_iri/src/iri/iris.rs:316-326) asks. -/
  iriOk : String → Bool
  /-- `Decimal::from_str`: the text of the decimal read, if the text is one. -/
  decimal : String → Option String
  /-- `XsdDateTime::new` (rudof_rdf/src/rdf_core/term/literal/xsd_datetime.rs:25-29): the text
  of the date-time read, if the text is one. -/
  dateTime : String → Option String

/-! ## Types of the compiled schema -/

/-- `ShapeLabel` (shex_ast/src/ir/shape_label.rs:12-17). -/
inductive Label where
  | iri (s : String)
  | bnode (s : String)
  | start
deriving DecidableEq

/-- `IriRef` (prefixmap/src/iri/iri_ref.rs:12-17). -/
inductive Ref where
  | iri (s : String)
  | prefixed (p l : String)
deriving DecidableEq

/-- `NodeKind` (shex_ast/src/ast/node_kind.rs:5-12). -/
inductive NodeKind where
  | iri | bnode | nonLiteral | literal
deriving DecidableEq

/-- `NumericLiteralTagged` (rudof_rdf/src/rdf_core/term/literal/numeric_literal.rs:545-562),
the form of a `NumericLiteral` in a binary format. -/
inductive Num where
  | integer (i : Int)
  | byte (b : UInt8)
  | short (i : Int)
  | nonNegativeInteger (n : Nat)
  | unsignedLong (n : Nat)
  | unsignedInt (n : Nat)
  | unsignedShort (n : Nat)
  | unsignedByte (b : UInt8)
  | positiveInteger (n : Nat)
  | negativeInteger (i : Int)
  | nonPositiveInteger (i : Int)
  | long (i : Int)
  | decimal (s : String)
  | double (b : {b : Bytes // b.length = 8})
  | float (b : {b : Bytes // b.length = 4})
deriving DecidableEq

/-- `ConcreteLiteral` (rudof_rdf/src/rdf_core/term/literal/literal.rs:161-190). -/
inductive Lit where
  | string (lex : String) (lang : Option String)
  | datatype (lex : String) (dt : Ref)
  | numeric (n : Num)
  | dateTime (s : String)
  | boolean (b : Bool)
  | wrong (lex : String) (dt : Ref) (error : String)
deriving DecidableEq

/-- `ObjectValue` (shex_ast/src/ir/object_value.rs:7-11). -/
inductive Obj where
  | iri (s : String)
  | literal (l : Lit)
deriving DecidableEq

/-- `IriExclusion` (shex_ast/src/ir/exclusion.rs:24-28). -/
inductive IriExcl where
  | iri (s : String)
  | stem (s : String)
deriving DecidableEq

/-- `LiteralExclusion` and `LanguageExclusion` (shex_ast/src/ir/exclusion.rs:9-13, 39-43): a
`Lang` is written and read as its text (`serde(transparent)`, lang.rs:13-17). -/
inductive TextExcl where
  | text (s : String)
  | stem (s : String)
deriving DecidableEq

/-- `IriOrWildcard`, `StringOrWildcard` and `LangOrWildcard`
(shex_ast/src/ir/value_set_value.rs:45-65). -/
inductive OrWild where
  | text (s : String)
  | wildcard (ty : String)
deriving DecidableEq

/-- `ValueSetValue` (shex_ast/src/ir/value_set_value.rs:12-37). -/
inductive Value where
  | iriStem (stem : String)
  | iriStemRange (stem : OrWild) (excl : Option (List IriExcl))
  | literalStem (stem : String)
  | literalStemRange (stem : OrWild) (excl : Option (List TextExcl))
  | language (tag : String)
  | languageStem (stem : OrWild)
  | languageStemRange (stem : OrWild) (excl : Option (List TextExcl))
  | object (o : Obj)
deriving DecidableEq

/-- `CondKind` (shex_ast/src/ast/cond_kind.rs:17-51). -/
inductive Kind where
  | any
  | nodeKind (k : NodeKind)
  | datatype (iri qualified : String)
  | length (n : Nat)
  | minLength (n : Nat)
  | maxLength (n : Nat)
  | pattern (regex : String) (flags base : Option String)
  | minInclusive (n : Num)
  | minExclusive (n : Num)
  | maxInclusive (n : Num)
  | maxExclusive (n : Num)
  | totalDigits (n : Nat)
  | fractionDigits (n : Nat)
  | valueSet (vs : List Value) (pm : List (String × String))
  | semAct (name : String) (code : Option String)
deriving DecidableEq

/-- `MatchCond` with its `SingleCond` (rbe/src/match_cond.rs:40-53, 138-156). -/
inductive Cond where
  | single (name : Option String) (kind : Option Kind)
  | ref (idx : Nat)
  | and (cs : List Cond)

/-- `Pred` (shex_ast/src/pred.rs:7-11). -/
structure Pred where
  iri : String
  isDirect : Bool
deriving DecidableEq

/-- `RbeTable` (rbe/src/rbe_table.rs:29-53). -/
structure Table where
  rbe : Struct Nat
  keyComponents : List (Pred × List Nat)
  componentCond : List (Nat × Cond)
  componentKey : List (Nat × Pred)
  isOpen : Bool
  counter : Nat

/-- `SemAct` (shex_ast/src/ir/sem_act.rs:6-10). -/
structure Act where
  name : String
  code : Option String
deriving DecidableEq

/-- `Annotation` (shex_ast/src/ir/annotation.rs:6-10). -/
structure Ann where
  predicate : String
  object : Obj
deriving DecidableEq

/-- `Shape` (shex_ast/src/ir/shape.rs:14-24). -/
structure Shape where
  closed : Bool
  extra : List Pred
  expr : Table
  semActs : List Act
  annotations : List Ann
  preds : List Pred
  extends_ : List Nat

/-- `ShapeExpr` (shex_ast/src/ir/shape_expr.rs:15-37). The `source` of a `NodeConstraint`
(shex_ast/src/ir/node_constraint.rs:7-15) is the node constraint of the schema it was compiled
from, of which only whether it is the default one is kept. -/
inductive SExpr where
  | or (exprs : List Nat)
  | and (exprs : List Nat)
  | not (expr : Nat)
  | nodeConstraint (source : Bool) (cond : Cond) (display : String)
  | shape (s : Shape)
  | external
  | ref (idx : Nat)
  | empty

/-- `ShapeExprInfo` (shex_ast/src/ir/shape_expr_info.rs:5-10). -/
structure Info where
  label : Option Label
  expr : SExpr
  source : Nat

/-- `DependencyGraph` (shex_ast/src/ir/dependency_graph.rs:8-11): nodes, and edges with whether
they are negative. -/
structure Deps where
  nodes : List Nat
  edges : List ((Nat × Nat) × Bool)
deriving DecidableEq

/-- `InheritanceGraph` (shex_ast/src/ir/inheritance_graph.rs:11-14). -/
structure Inh where
  nodes : List Nat
  edges : List (Nat × Nat)
deriving DecidableEq

/-- `SchemaIR` (shex_ast/src/ir/schema_ir.rs:30-50). -/
structure Schema where
  labels : List (Label × Nat)
  idxLabels : List (Nat × Label)
  shapes : List (Nat × Info)
  labelCounter : Nat
  sourcesMap : List (String × Nat)
  sources : List (Nat × String)
  sourcesCounter : Nat
  prefixmap : List (String × String)
  localShapes : Nat
  totalShapes : Nat
  imported : List String
  deps : Deps
  inh : Inh
  abstracts : List Nat
  registry : Nat
  base : Option String
  startActs : List Act

/-! ## Writing and reading each type -/

variable (X : Ext)

/-- `IriVisitor::visit_str` (rudof_iri/src/iri/visitor.rs:17-34). -/
def readIri (s : String) : Res String :=
  if s = "" then .ok "" else if X.iriOk s then .ok s else .err

/-- `Serialize for IriS` (rudof_iri/src/iri/iris.rs:265-272). -/
def encIri (s : String) : Bytes := encStr s

/-- `Deserialize for IriS` (rudof_iri/src/iri/visitor.rs:36-43). -/
def decIri : Dec String := do
  let s ← decStr
  Dec.lift (readIri X s)

/-- `ShapeLabel::to_string` as `serialize` uses it (shex_ast/src/ir/shape_label.rs:89-100);
`BNode` puts `_:` before its label (shex_ast/src/bnode.rs:26-30). -/
def showLabel : Label → String
  | .iri s => s
  | .bnode s => "_:" ++ s
  | .start => "Start"

/-- `ShapeLabel::try_from(&str)` (shex_ast/src/ir/shape_label.rs:66-79). -/
def readLabel (s : String) : Label :=
  if s = "Start" then .start else if X.iriOk s then .iri s else .bnode s

/-- `Serialize for ShapeLabel`. -/
def encLabel (l : Label) : Bytes := encStr (showLabel l)

/-- `Deserialize for ShapeLabel` (shex_ast/src/ir/shape_label.rs:102-122). -/
def decLabel : Dec Label := do
  let s ← decStr
  pure (readLabel X s)

/-- `String::from(IriRef)` (prefixmap/src/iri/iri_ref.rs:125-132). -/
def showRef : Ref → String
  | .iri s => s
  | .prefixed p l => p ++ ":" ++ l

/-- `IriRefVisitor::visit_str` (prefixmap/src/iri/visitor.rs:15-33). -/
def readRef (s : String) : Res Ref :=
  if X.iriOk s then .ok (.iri s)
  else
    match s.toList.span (· != ':') with
    | (_, []) => .err
    | (p, _ :: l) => .ok (.prefixed (String.ofList p) (String.ofList l))

/-- `Serialize for IriRef` (`serde(into = "String")`, prefixmap/src/iri/iri_ref.rs:12-13). -/
def encRef (r : Ref) : Bytes := encStr (showRef r)

/-- `Deserialize for IriRef` (prefixmap/src/iri/visitor.rs:36-43). -/
def decRef : Dec Ref := do
  let s ← decStr
  Dec.lift (readRef X s)

/-- `NodeKind`, derived. -/
def encNodeKind : NodeKind → Bytes
  | .iri => var 0
  | .bnode => var 1
  | .nonLiteral => var 2
  | .literal => var 3

/-- `NodeKind`, derived. -/
def decNodeKind : Dec NodeKind := do
  let t ← decVar
  match t with
  | 0 => pure .iri
  | 1 => pure .bnode
  | 2 => pure .nonLiteral
  | 3 => pure .literal
  | _ => Dec.fail

/-- The text read by an external function. -/
def ofOption {α : Type} : Option α → Res α
  | some a => .ok a
  | none => .err

/-- The next `k` bytes, as the bytes of a float. -/
def decRaw (k : Nat) : Dec {b : Bytes // b.length = k} := do
  let b ← decTake k
  if h : b.length = k then pure ⟨b, h⟩ else Dec.fail

/-- `Serialize for NumericLiteral` in a binary format (numeric_literal.rs:455-462, 564-585). -/
def encNum : Num → Bytes
  | .integer i => var 0 ⧺ encInt i
  | .byte b => var 1 ⧺ [b]
  | .short i => var 2 ⧺ encInt i
  | .nonNegativeInteger n => var 3 ⧺ var n
  | .unsignedLong n => var 4 ⧺ var n
  | .unsignedInt n => var 5 ⧺ var n
  | .unsignedShort n => var 6 ⧺ var n
  | .unsignedByte b => var 7 ⧺ [b]
  | .positiveInteger n => var 8 ⧺ var n
  | .negativeInteger i => var 9 ⧺ encInt i
  | .nonPositiveInteger i => var 10 ⧺ encInt i
  | .long i => var 11 ⧺ encInt i
  | .decimal s => var 12 ⧺ encStr s
  | .double b => var 13 ⧺ b.1
  | .float b => var 14 ⧺ b.1

/-- `Deserialize for NumericLiteral` in a binary format (numeric_literal.rs:492-504, 587-613). -/
def decNum : Dec Num := do
  let t ← decVar
  match t with
  | 0 => do let i ← decInt; pure (.integer i)
  | 1 => do let b ← decByte; pure (.byte b)
  | 2 => do let i ← decInt; pure (.short i)
  | 3 => do let n ← decVar; pure (.nonNegativeInteger n)
  | 4 => do let n ← decVar; pure (.unsignedLong n)
  | 5 => do let n ← decVar; pure (.unsignedInt n)
  | 6 => do let n ← decVar; pure (.unsignedShort n)
  | 7 => do let b ← decByte; pure (.unsignedByte b)
  | 8 => do let n ← decVar; pure (.positiveInteger n)
  | 9 => do let i ← decInt; pure (.negativeInteger i)
  | 10 => do let i ← decInt; pure (.nonPositiveInteger i)
  | 11 => do let i ← decInt; pure (.long i)
  | 12 => do
    let s ← decStr
    let d ← Dec.lift (ofOption (X.decimal s))
    pure (.decimal d)
  | 13 => do let b ← decRaw 8; pure (.double b)
  | 14 => do let b ← decRaw 4; pure (.float b)
  | _ => Dec.fail

/-- `serialize_boolean_literal` (rudof_rdf/src/rdf_core/term/literal/literal.rs:1147-1152): the
text of the boolean, in every format. -/
def encBoolLit (b : Bool) : Bytes := encStr (if b then "true" else "false")

/-- `Serialize for ConcreteLiteral`, derived but for `serialize_with` on the boolean
(literal.rs:161, 176-178). -/
def encLit : Lit → Bytes
  | .string lex lang => var 0 ⧺ encStr lex ⧺ encOpt encStr lang
  | .datatype lex dt => var 1 ⧺ encStr lex ⧺ encRef dt
  | .numeric n => var 2 ⧺ encNum n
  | .dateTime s => var 3 ⧺ encStr s
  | .boolean b => var 4 ⧺ encBoolLit b
  | .wrong lex dt e => var 5 ⧺ encStr lex ⧺ encRef dt ⧺ encStr e

/-- `Deserialize for ConcreteLiteral`, derived: the boolean is read as a `bool`. -/
def decLit : Dec Lit := do
  let t ← decVar
  match t with
  | 0 => do
    let lex ← decStr
    let lang ← decOpt decStr
    pure (.string lex lang)
  | 1 => do
    let lex ← decStr
    let dt ← decRef X
    pure (.datatype lex dt)
  | 2 => do let n ← decNum X; pure (.numeric n)
  | 3 => do
    let s ← decStr
    let d ← Dec.lift (ofOption (X.dateTime s))
    pure (.dateTime d)
  | 4 => do let b ← decBool; pure (.boolean b)
  | 5 => do
    let lex ← decStr
    let dt ← decRef X
    let e ← decStr
    pure (.wrong lex dt e)
  | _ => Dec.fail

/-- `ObjectValue`, derived. -/
def encObj : Obj → Bytes
  | .iri s => var 0 ⧺ encIri s
  | .literal l => var 1 ⧺ encLit l

/-- `ObjectValue`, derived. -/
def decObj : Dec Obj := do
  let t ← decVar
  match t with
  | 0 => do let s ← decIri X; pure (.iri s)
  | 1 => do let l ← decLit X; pure (.literal l)
  | _ => Dec.fail

/-- `IriExclusion`, derived. -/
def encIriExcl : IriExcl → Bytes
  | .iri s => var 0 ⧺ encIri s
  | .stem s => var 1 ⧺ encIri s

/-- `IriExclusion`, derived. -/
def decIriExcl : Dec IriExcl := do
  let t ← decVar
  match t with
  | 0 => do let s ← decIri X; pure (.iri s)
  | 1 => do let s ← decIri X; pure (.stem s)
  | _ => Dec.fail

/-- `LiteralExclusion`, `LanguageExclusion`, derived. -/
def encTextExcl : TextExcl → Bytes
  | .text s => var 0 ⧺ encStr s
  | .stem s => var 1 ⧺ encStr s

/-- `LiteralExclusion`, `LanguageExclusion`, derived. -/
def decTextExcl : Dec TextExcl := do
  let t ← decVar
  match t with
  | 0 => do let s ← decStr; pure (.text s)
  | 1 => do let s ← decStr; pure (.stem s)
  | _ => Dec.fail

/-- `StringOrWildcard` and the like, derived. -/
def encOrWild : OrWild → Bytes
  | .text s => var 0 ⧺ encStr s
  | .wildcard t => var 1 ⧺ encStr t

/-- `IriOrWildcard` (`d` reads an IRI), `StringOrWildcard`, `LangOrWildcard` (`d` reads a
text), derived. -/
def decOrWild (d : Dec String) : Dec OrWild := do
  let t ← decVar
  match t with
  | 0 => do let s ← d; pure (.text s)
  | 1 => do let s ← decStr; pure (.wildcard s)
  | _ => Dec.fail

/-- `ValueSetValue`, derived. -/
def encValue : Value → Bytes
  | .iriStem s => var 0 ⧺ encIri s
  | .iriStemRange s e => var 1 ⧺ encOrWild s ⧺ encOpt (encList encIriExcl) e
  | .literalStem s => var 2 ⧺ encStr s
  | .literalStemRange s e => var 3 ⧺ encOrWild s ⧺ encOpt (encList encTextExcl) e
  | .language s => var 4 ⧺ encStr s
  | .languageStem s => var 5 ⧺ encOrWild s
  | .languageStemRange s e => var 6 ⧺ encOrWild s ⧺ encOpt (encList encTextExcl) e
  | .object o => var 7 ⧺ encObj o

/-- `ValueSetValue`, derived. -/
def decValue : Dec Value := do
  let t ← decVar
  match t with
  | 0 => do let s ← decIri X; pure (.iriStem s)
  | 1 => do
    let s ← decOrWild (decIri X)
    let e ← decOpt (decList (decIriExcl X))
    pure (.iriStemRange s e)
  | 2 => do let s ← decStr; pure (.literalStem s)
  | 3 => do
    let s ← decOrWild decStr
    let e ← decOpt (decList decTextExcl)
    pure (.literalStemRange s e)
  | 4 => do let s ← decStr; pure (.language s)
  | 5 => do let s ← decOrWild decStr; pure (.languageStem s)
  | 6 => do
    let s ← decOrWild decStr
    let e ← decOpt (decList decTextExcl)
    pure (.languageStemRange s e)
  | 7 => do let o ← decObj X; pure (.object o)
  | _ => Dec.fail

/-- `Serialize for PrefixMap` (prefixmap/src/prefix_map.rs:54-62). -/
def encPrefixMap (pm : List (String × String)) : Bytes := encList (encPair encStr encIri) pm

/-- `Deserialize for PrefixMap` (prefixmap/src/prefix_map.rs:64-90). -/
def decPrefixMap : Dec (List (String × String)) := decMap decStr (decIri X)

/-- `CondKind`, derived. -/
def encKind : Kind → Bytes
  | .any => var 0
  | .nodeKind k => var 1 ⧺ encNodeKind k
  | .datatype i q => var 2 ⧺ encIri i ⧺ encStr q
  | .length n => var 3 ⧺ var n
  | .minLength n => var 4 ⧺ var n
  | .maxLength n => var 5 ⧺ var n
  | .pattern r f b => var 6 ⧺ encStr r ⧺ encOpt encStr f ⧺ encOpt encIri b
  | .minInclusive n => var 7 ⧺ encNum n
  | .minExclusive n => var 8 ⧺ encNum n
  | .maxInclusive n => var 9 ⧺ encNum n
  | .maxExclusive n => var 10 ⧺ encNum n
  | .totalDigits n => var 11 ⧺ var n
  | .fractionDigits n => var 12 ⧺ var n
  | .valueSet vs pm => var 13 ⧺ encList encValue vs ⧺ encPrefixMap pm
  | .semAct n c => var 14 ⧺ encIri n ⧺ encOpt encStr c

/-- `CondKind`, derived. -/
def decKind : Dec Kind := do
  let t ← decVar
  match t with
  | 0 => pure .any
  | 1 => do let k ← decNodeKind; pure (.nodeKind k)
  | 2 => do
    let i ← decIri X
    let q ← decStr
    pure (.datatype i q)
  | 3 => do let n ← decVar; pure (.length n)
  | 4 => do let n ← decVar; pure (.minLength n)
  | 5 => do let n ← decVar; pure (.maxLength n)
  | 6 => do
    let r ← decStr
    let f ← decOpt decStr
    let b ← decOpt (decIri X)
    pure (.pattern r f b)
  | 7 => do let n ← decNum X; pure (.minInclusive n)
  | 8 => do let n ← decNum X; pure (.minExclusive n)
  | 9 => do let n ← decNum X; pure (.maxInclusive n)
  | 10 => do let n ← decNum X; pure (.maxExclusive n)
  | 11 => do let n ← decVar; pure (.totalDigits n)
  | 12 => do let n ← decVar; pure (.fractionDigits n)
  | 13 => do
    let vs ← decList (decValue X)
    let pm ← decPrefixMap X
    pure (.valueSet vs pm)
  | 14 => do
    let n ← decIri X
    let c ← decOpt decStr
    pure (.semAct n c)
  | _ => Dec.fail

mutual
/-- `MatchCond`, derived; `_phantom` of a `SingleCond` is skipped. -/
def encCond : Cond → Bytes
  | .single n k => var 0 ⧺ encOpt encStr n ⧺ encOpt encKind k
  | .ref i => var 1 ⧺ var i
  | .and cs => var 2 ⧺ var cs.length ⧺ encConds cs
/-- The elements of an `And`. -/
def encConds : List Cond → Bytes
  | [] => []
  | c :: cs => encCond c ⧺ encConds cs
end

/-- `MatchCond`, derived, nested no deeper than the number. -/
def decCondN : Nat → Dec Cond
  | 0 => Dec.fail
  | n + 1 => do
    let t ← decVar
    match t with
    | 0 => do
      let m ← decOpt decStr
      let k ← decOpt (decKind X)
      pure (.single m k)
    | 1 => do let i ← decVar; pure (.ref i)
    | 2 => do let cs ← decList (decCondN n); pure (.and cs)
    | _ => Dec.fail

/-- `MatchCond`, derived: each level takes at least one byte, so there are no more levels than
bytes. -/
def decCond : Dec Cond := fun bs => decCondN X (bs.length + 1) bs

/-- `n as i64` for `n: usize` of 64 bits. -/
def asI64 (n : Nat) : Int :=
  if n % 2 ^ 64 < 2 ^ 63 then ((n % 2 ^ 64 : Nat) : Int) else ((n % 2 ^ 64 : Nat) : Int) - 2 ^ 64

/-- `Serialize for Max` (rbe/src/max.rs:143-154). -/
def encMax : Mx → Bytes
  | .unbounded => encInt (-1)
  | .intMax n => encInt (asI64 n)

/-- `MaxVisitor::visit_i64` (rbe/src/max.rs:165-177) with `Max::from(i64)`
(rbe/src/max.rs:113-121), which panics at 0. -/
def readMax (i : Int) : Res Mx :=
  if i < -1 then .err
  else if i = -1 then .ok .unbounded
  else if 0 < i then .ok (.intMax i.toNat)
  else .panic

/-- `Deserialize for Max` (rbe/src/max.rs:187-194). -/
def decMax : Dec Mx := do
  let i ← decInt
  Dec.lift (readMax i)

/-- `Cardinality`, derived; `Min` is written and read as a `u64` (rbe/src/min.rs:52-60,
113-120). -/
def encCard (c : Card) : Bytes := var c.min ⧺ encMax c.max

/-- `Cardinality`, derived. -/
def decCard : Dec Card := do
  let n ← decVar
  let m ← decMax
  pure ⟨n, m⟩

mutual
/-- `Rbe`, derived (rbe/src/rbe.rs:29-59). -/
def encExpr : Rbe.Expr Nat → Bytes
  | .fail => var 0
  | .empty => var 1
  | .symbol v c => var 2 ⧺ var v ⧺ encCard c
  | .and vs => var 3 ⧺ var vs.length ⧺ encExprs vs
  | .or vs => var 4 ⧺ var vs.length ⧺ encExprs vs
  | .star v => var 5 ⧺ encExpr v
  | .plus v => var 6 ⧺ encExpr v
  | .repeat v c => var 7 ⧺ encExpr v ⧺ encCard c
/-- The branches of an `And` or an `Or`. -/
def encExprs : List (Rbe.Expr Nat) → Bytes
  | [] => []
  | v :: vs => encExpr v ⧺ encExprs vs
end

/-- `Rbe`, derived, nested no deeper than the number. -/
def decExprN : Nat → Dec (Rbe.Expr Nat)
  | 0 => Dec.fail
  | n + 1 => do
    let t ← decVar
    match t with
    | 0 => pure .fail
    | 1 => pure .empty
    | 2 => do
      let v ← decVar
      let c ← decCard
      pure (.symbol v c)
    | 3 => do let vs ← decList (decExprN n); pure (.and vs)
    | 4 => do let vs ← decList (decExprN n); pure (.or vs)
    | 5 => do let v ← decExprN n; pure (.star v)
    | 6 => do let v ← decExprN n; pure (.plus v)
    | 7 => do
      let v ← decExprN n
      let c ← decCard
      pure (.repeat v c)
    | _ => Dec.fail

/-- `Rbe`, derived. -/
def decExpr : Dec (Rbe.Expr Nat) := fun bs => decExprN (bs.length + 1) bs

/-- `Serialize for RbeStruct` (rbe/src/rbe_struct.rs:318-325): the expression only. -/
def encStruct (s : Struct Nat) : Bytes := encExpr s.rbe

/-- `Deserialize for RbeStruct` (rbe/src/rbe_struct.rs:327-335): symbols and flag are computed
again. -/
def decStruct : Dec (Struct Nat) := do
  let e ← decExpr
  pure (Struct.ofExpr e)

/-- `Pred`, derived. -/
def encPred (p : Pred) : Bytes := encIri p.iri ⧺ encBool p.isDirect

/-- `Pred`, derived. -/
def decPred : Dec Pred := do
  let i ← decIri X
  let d ← decBool
  pure ⟨i, d⟩

/-- `RbeTable`, derived. -/
def encTable (t : Table) : Bytes :=
  encStruct t.rbe ⧺ encList (encPair encPred (encList var)) t.keyComponents ⧺
  encList (encPair var encCond) t.componentCond ⧺ encList (encPair var encPred) t.componentKey ⧺
  encBool t.isOpen ⧺ var t.counter

/-- `RbeTable`, derived. -/
def decTable : Dec Table := do
  let r ← decStruct
  let kc ← decMap (decPred X) (decSet decVar)
  let cc ← decMap decVar (decCond X)
  let ck ← decMap decVar (decPred X)
  let o ← decBool
  let n ← decVar
  pure ⟨r, kc, cc, ck, o, n⟩

/-- `SemAct`, derived. -/
def encAct (a : Act) : Bytes := encIri a.name ⧺ encOpt encStr a.code

/-- `SemAct`, derived. -/
def decAct : Dec Act := do
  let n ← decIri X
  let c ← decOpt decStr
  pure ⟨n, c⟩

/-- `Annotation`, derived. -/
def encAnn (a : Ann) : Bytes := encIri a.predicate ⧺ encObj a.object

/-- `Annotation`, derived. -/
def decAnn : Dec Ann := do
  let p ← decIri X
  let o ← decObj X
  pure ⟨p, o⟩

/-- `Shape`, derived. -/
def encShape (s : Shape) : Bytes :=
  encBool s.closed ⧺ encList encPred s.extra ⧺ encTable s.expr ⧺ encList encAct s.semActs ⧺
  encList encAnn s.annotations ⧺ encList encPred s.preds ⧺ encList var s.extends_

/-- `Shape`, derived. -/
def decShape : Dec Shape := do
  let c ← decBool
  let ex ← decList (decPred X)
  let t ← decTable X
  let sa ← decList (decAct X)
  let an ← decList (decAnn X)
  let ps ← decList (decPred X)
  let es ← decList decVar
  pure ⟨c, ex, t, sa, an, ps, es⟩

/-- `ShapeExpr`, derived; the `source` of a node constraint is skipped
(shex_ast/src/ir/node_constraint.rs:11). -/
def encSExpr : SExpr → Bytes
  | .or es => var 0 ⧺ encList var es
  | .and es => var 1 ⧺ encList var es
  | .not e => var 2 ⧺ var e
  | .nodeConstraint _ c d => var 3 ⧺ encCond c ⧺ encStr d
  | .shape s => var 4 ⧺ encShape s
  | .external => var 5
  | .ref i => var 6 ⧺ var i
  | .empty => var 7

/-- `ShapeExpr`, derived; the `source` of a node constraint is the default one. -/
def decSExpr : Dec SExpr := do
  let t ← decVar
  match t with
  | 0 => do let es ← decList decVar; pure (.or es)
  | 1 => do let es ← decList decVar; pure (.and es)
  | 2 => do let e ← decVar; pure (.not e)
  | 3 => do
    let c ← decCond X
    let d ← decStr
    pure (.nodeConstraint false c d)
  | 4 => do let s ← decShape X; pure (.shape s)
  | 5 => pure .external
  | 6 => do let i ← decVar; pure (.ref i)
  | 7 => pure .empty
  | _ => Dec.fail

/-- `ShapeExprInfo`, derived. -/
def encInfo (i : Info) : Bytes := encOpt encLabel i.label ⧺ encSExpr i.expr ⧺ var i.source

/-- `ShapeExprInfo`, derived. -/
def decInfo : Dec Info := do
  let l ← decOpt (decLabel X)
  let e ← decSExpr X
  let s ← decVar
  pure ⟨l, e, s⟩

/-- `DependencyGraph`, derived over `petgraph`'s own form, simplified. -/
def encDeps (g : Deps) : Bytes :=
  encList var g.nodes ⧺ encList (encPair (encPair var var) encBool) g.edges

/-- `DependencyGraph`. -/
def decDeps : Dec Deps := do
  let n ← decList decVar
  let e ← decList (decPair (decPair decVar decVar) decBool)
  pure ⟨n, e⟩

/-- `InheritanceGraph`, derived over `petgraph`'s own form, simplified. -/
def encInh (g : Inh) : Bytes := encList var g.nodes ⧺ encList (encPair var var) g.edges

/-- `InheritanceGraph`. -/
def decInh : Dec Inh := do
  let n ← decList decVar
  let e ← decList (decPair decVar decVar)
  pure ⟨n, e⟩

/-- `SchemaIR`, derived; the registry is skipped (shex_ast/src/ir/schema_ir.rs:46). -/
def encSchema (s : Schema) : Bytes :=
  encList (encPair encLabel var) s.labels ⧺ encList (encPair var encLabel) s.idxLabels ⧺
  encList (encPair var encInfo) s.shapes ⧺ var s.labelCounter ⧺
  encList (encPair encIri var) s.sourcesMap ⧺ encList (encPair var encIri) s.sources ⧺
  var s.sourcesCounter ⧺ encPrefixMap s.prefixmap ⧺ var s.localShapes ⧺ var s.totalShapes ⧺
  encList encIri s.imported ⧺ encDeps s.deps ⧺ encInh s.inh ⧺ encList var s.abstracts ⧺
  encOpt encIri s.base ⧺ encList encAct s.startActs

/-- `SchemaIR`, derived; the registry is the default one, here number 0. -/
def decSchema : Dec Schema := do
  let l ← decMap (decLabel X) decVar
  let il ← decMap decVar (decLabel X)
  let sh ← decMap decVar (decInfo X)
  let lc ← decVar
  let sm ← decMap (decIri X) decVar
  let so ← decMap decVar (decIri X)
  let sc ← decVar
  let pm ← decPrefixMap X
  let ls ← decVar
  let ts ← decVar
  let im ← decList (decIri X)
  let d ← decDeps
  let i ← decInh
  let ab ← decSet decVar
  let b ← decOpt (decIri X)
  let sa ← decList (decAct X)
  pure ⟨l, il, sh, lc, sm, so, sc, pm, ls, ts, im, d, i, ab, 0, b, sa⟩

/-! ## The envelope -/

/-- `MAGIC` (shex_ast/src/ir/cache.rs:9). -/
def magic : Bytes := [82, 83, 73, 82]

/-- `u32::to_le_bytes`. -/
def le32 (n : Nat) : Bytes :=
  [UInt8.ofNat n, UInt8.ofNat (n / 2 ^ 8), UInt8.ofNat (n / 2 ^ 16), UInt8.ofNat (n / 2 ^ 24)]

/-- `u32::from_le_bytes`. -/
def ofLe32 : Bytes → Nat
  | [a, b, c, d] => a.toNat + 2 ^ 8 * b.toNat + 2 ^ 16 * c.toNat + 2 ^ 24 * d.toNat
  | _ => 0

/-- `CACHE_VERSION` (shex_ast/src/ir/cache.rs:13). -/
def cacheVersion : Nat := 1

/-- `CacheHeader` (shex_ast/src/ir/cache.rs:64-69); `CacheFormat` has one variant. -/
structure Header where
  version : String
  hasNegCycle : Bool
deriving DecidableEq

/-- `CacheHeader`, derived. -/
def encHeader (h : Header) : Bytes := var 0 ⧺ encStr h.version ⧺ encBool h.hasNegCycle

/-- `CacheHeader`, derived. -/
def decHeader : Dec Header := do
  let f ← decVar
  match f with
  | 0 => do
    let v ← decStr
    let b ← decBool
    pure ⟨v, b⟩
  | _ => Dec.fail

/-- `postcard::from_bytes`: bytes that are left are of no concern. -/
def fromBytes {α : Type} (d : Dec α) (bs : Bytes) : Res α :=
  match d bs with
  | .ok (a, _) => .ok a
  | .err => .err
  | .panic => .panic

/-- `CacheHeader::write_to` (shex_ast/src/ir/cache.rs:84-104). -/
def writeHeader (h : Header) : Res Bytes :=
  if (encHeader h).length < 2 ^ 32 then
    .ok (magic ⧺ le32 cacheVersion ⧺ le32 (encHeader h).length ⧺ encHeader h)
  else .err

/-- `CacheHeader::read_from` (shex_ast/src/ir/cache.rs:106-143). -/
def readHeader : Dec Header := do
  let m ← decTake 4
  if m = magic then do
    let v ← decTake 4
    if ofLe32 v = cacheVersion then do
      let l ← decTake 4
      let hb ← decTake (ofLe32 l)
      Dec.lift (fromBytes decHeader hb)
    else Dec.fail
  else Dec.fail

/-- `CacheReaderMode` (shex_ast/src/ir/cache.rs:15-19). -/
inductive Mode where
  | strict
  | lax
deriving DecidableEq

/-- `SchemaIR::write` (shex_ast/src/ir/schema_ir.rs:815-820). `version` is the version of the
crate and `neg` is `has_neg_cycle`. -/
def write (version : String) (neg : Deps → Bool) (s : Schema) : Res Bytes := do
  let h ← writeHeader ⟨version, neg s.deps⟩
  pure (h ++ encSchema s)

/-- `SchemaIR::read` (shex_ast/src/ir/schema_ir.rs:822-838). -/
def read (registry : Nat) (mode : Mode) (bs : Bytes) : Res Schema :=
  match readHeader bs with
  | .ok (h, body) =>
    if mode = .strict ∧ h.hasNegCycle = true then .err
    else
      match fromBytes (decSchema X) body with
      | .ok s => .ok { s with registry := registry }
      | .err => .err
      | .panic => .panic
  | .err => .err
  | .panic => .panic

end Cache
