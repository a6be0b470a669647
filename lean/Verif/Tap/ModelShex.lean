import Verif.Tap.Model

/-!
# Model: DCTAP tables as ShEx schemas

shapes_converter/src/tap_to_shex: tap2shex.rs and tap2shex_config.rs, on the parts of the ShEx syntax tree
which the conversion builds (shex_ast/src/ast). The validity of an IRI (the oxiri crate) is a parameter.
Tracing calls are left out.
-/

namespace Tap

/-- `Tap2ShExConfig` (tap2shex_config.rs:9-19) and what is taken from `TapConfig`. -/
structure ShexConfig where
  baseIri : Option Str := none
  datatypeBaseIri : Option Str := none
  prefixmap : Prefix.PrefixMap := .new
  valueShapeDelimiter : Char := ' '

/-- `Tap2ShExError` (tap2shex_error.rs). -/
inductive ShexErr
  | noShapeId
  | iriNoPrefix (str : Str) (line : Nat)
  | iriError
  | resolvingPrefix (line : Nat) (field : Str)
  | parsingValueShape (err : ShexErr)
  | notImplemented

/-- `prefix_local_name` (tap2shex_config.rs:138-145). -/
def prefixLocalName (s : Str) : Option (Str × Str) := Prefix.rsplitOnce ':' s

/-- `base_iri.extend` with the error of the conversion (tap2shex_config.rs:113-116, 130). -/
def extendBase (valid : Str → Bool) (base s : Str) : Except ShexErr Str :=
  match Prefix.iriExtend valid base s with
  | some i => .ok i
  | none => .error .iriError

/-- The name after the base in `resolve_iri`, or the error without one (tap2shex_config.rs:108-117,
124-130). -/
def atBase (cfg : ShexConfig) (valid : Str → Bool) (s loc : Str) (line : Nat) : Except ShexErr Str :=
  match cfg.baseIri with
  | none => .error (.iriNoPrefix s line)
  | some base => extendBase valid base loc

/-- `resolve_iri` (tap2shex_config.rs:96-135). -/
def resolveIri (cfg : ShexConfig) (valid : Str → Bool) (s : Str) (line : Nat) : Except ShexErr Str :=
  match prefixLocalName s with
  | some (pfx, loc) =>
    match cfg.prefixmap.resolvePrefixLocal valid pfx loc with
    | some iri => .ok iri
    | none =>
      if pfx = [] then atBase cfg valid s loc line
      else .error (.resolvingPrefix line s)
  | none => atBase cfg valid s s line

/-! ## The parts of the syntax tree -/

/-- `ShapeExpr` (shex_ast ast/shape_expr.rs:19-47) as far as it is built for values: `NodeConstraint` with
its datatype and its values, which are IRIs, `Ref`, `ShapeAnd` and `ShapeOr`. -/
inductive ValueExpr
  | nodeConstraint (datatype : Option Str) (values : Option (List Str))
  | ref (label : Str)
  | and (es : List ValueExpr)
  | or (es : List ValueExpr)

/-- `TripleExpr::TripleConstraint` (ast/triple_expr.rs:91-110) without `id`, `negated`, `inverse` and
`sem_acts`, which are `None`; an annotation is the text of an `rdfs:label`. -/
structure TripleConstraint where
  predicate : Str
  valueExpr : Option ValueExpr
  min : Option Int
  max : Option Int
  annotations : Option (List Str) := none

/-- `Shape` (ast/shape.rs) with `TripleExpr::each_of` (ast/triple_expr.rs:112-125) of triple constraints. -/
structure ShexShape where
  expression : Option (List TripleConstraint)
  extends_ : Option (List Str) := none
  annotations : Option (List Str) := none

/-- `ShapeDecl` (ast/shape_decl.rs:13-24), never abstract. -/
structure ShexDecl where
  id : Str
  shape : ShexShape

/-- `add_annotation` (ast/triple_expr.rs:442-468), for a triple constraint. -/
def TripleConstraint.addAnnotation (t : TripleConstraint) (a : Str) : TripleConstraint :=
  match t.annotations with
  | some as => { t with annotations := some (as ++ [a]) }
  | none => { t with annotations := some [a] }

/-- `add_annotation` of `ShapeDecl` (ast/shape_decl.rs:51-53) for a shape. -/
def ShexDecl.addAnnotation (d : ShexDecl) (a : Str) : ShexDecl :=
  match d.shape.annotations with
  | some as => { d with shape := { d.shape with annotations := some (as ++ [a]) } }
  | none => { d with shape := { d.shape with annotations := some [a] } }

/-- `add_extend` (ast/shape.rs:78-83). -/
def ShexShape.addExtend (s : ShexShape) (l : Str) : ShexShape :=
  match s.extends_ with
  | none => { s with extends_ := some [l] }
  | some es => { s with extends_ := some (es ++ [l]) }

/-! ## The conversion -/

section
variable (T : Text) (cfg : ShexConfig) (valid : Str → Bool)

/-- `get_min` (tap2shex.rs:161-167). -/
def getMin : Option Bool → Option Int
  | some true => some 1
  | some false => some 0
  | none => some 1

/-- `get_max` (tap2shex.rs:169-175). -/
def getMax : Option Bool → Option Int
  | some false => some 1
  | some true => some (-1)
  | none => none

/-- `parse_value_set_value` (tap2shex.rs:258-269). -/
def parseValue (line : Nat) : Val → Except ShexErr Str
  | .str s => resolveIri cfg valid s line
  | .iri i => .ok i

/-- The loop of `parse_constraint` (tap2shex.rs:243-247). -/
def parseValuesLoop (line : Nat) : List Val → Except ShexErr (List Str)
  | [] => .ok []
  | v :: vs =>
    match parseValue cfg valid line v with
    | .error e => .error e
    | .ok i =>
      match parseValuesLoop line vs with
      | .error e => .error e
      | .ok is => .ok (i :: is)

/-- `parse_constraint` (tap2shex.rs:234-256): the values it adds. -/
def parseConstraint (line : Nat) : Constraint → Except ShexErr (List Str)
  | .picklist vs => parseValuesLoop cfg valid line vs
  | _ => .error .notImplemented

/-- `parse_constraint` for the constraint of a statement, if there is one. -/
def parseConstraintOpt (line : Nat) : Option Constraint → Except ShexErr (Option (List Str))
  | none => .ok none
  | some c =>
    match parseConstraint cfg valid line c with
    | .error e => .error e
    | .ok vs => .ok (some vs)

/-- The loop of `parse_node_constraint` over several datatypes (tap2shex.rs:214-225). -/
def datatypesLoop (line : Nat) (c : Option Constraint) : List Id → Except ShexErr (List ValueExpr)
  | [] => .ok []
  | d :: ds =>
    match resolveIri cfg valid d.str d.line with
    | .error e => .error e
    | .ok i =>
      match parseConstraintOpt cfg valid line c with
      | .error e => .error e
      | .ok vs =>
        match datatypesLoop line c ds with
        | .error e => .error e
        | .ok es => .ok (.nodeConstraint (some i) vs :: es)

/-- `parse_node_constraint` (tap2shex.rs:191-232): the shape expression afterwards. With one datatype the
node constraint is built and not stored, so what is left is `none`. -/
def parseNodeConstraint (st : Statement) : Except ShexErr (Option ValueExpr) :=
  let line := st.line.getD 0
  match st.datatypes with
  | [] =>
    match st.constraint with
    | some c =>
      match parseConstraint cfg valid line c with
      | .error e => .error e
      | .ok vs => .ok (some (.nodeConstraint none (some vs)))
    | none => .ok none
  | [d] =>
    match resolveIri cfg valid d.str d.line with
    | .error e => .error e
    | .ok _ =>
      match parseConstraintOpt cfg valid line st.constraint with
      | .error e => .error e
      | .ok _ => .ok none
  | ds =>
    match datatypesLoop cfg valid line st.constraint ds with
    | .error e => .error e
    | .ok es => .ok (some (.or es))

/-- `str::split_whitespace`. -/
def splitWhitespace : Str → List Str
  | [] => []
  | c :: cs =>
    if T.ws c then splitWhitespace cs
    else
      match cs with
      | [] => [[c]]
      | d :: ds =>
        if T.ws d then [c] :: splitWhitespace (d :: ds)
        else
          match splitWhitespace (d :: ds) with
          | [] => [[c]]
          | w :: ws => (c :: w) :: ws

/-- The loop of `parse_shape_ref` over the words (tap2shex.rs:132-139) with `parse_single_shape_ref`
(tap2shex.rs:271-278). -/
def shapeRefsLoop (line : Nat) : List Str → Except ShexErr (List ValueExpr)
  | [] => .ok []
  | w :: ws =>
    if w = [cfg.valueShapeDelimiter] then shapeRefsLoop line ws
    else
      match resolveIri cfg valid w line with
      | .error e => .error (.parsingValueShape e)
      | .ok i =>
        match shapeRefsLoop line ws with
        | .error e => .error e
        | .ok es => .ok (.ref i :: es)

/-- The `match` at the end of `parse_shape_ref` (tap2shex.rs:140-156). -/
def addShapes (se : Option ValueExpr) : List ValueExpr → Option ValueExpr
  | [] => se
  | [s] =>
    match se with
    | some e => some (.and [e, s])
    | none => some s
  | ss =>
    match se with
    | some e => some (.and [e, .or ss])
    | none => some (.or ss)

/-- `parse_shape_ref` (tap2shex.rs:122-159). -/
def parseShapeRef (st : Statement) (se : Option ValueExpr) : Except ShexErr (Option ValueExpr) :=
  match st.shape with
  | some r =>
    match shapeRefsLoop cfg valid r.line (splitWhitespace T r.str) with
    | .error e => .error e
    | .ok ss => .ok (addShapes se ss)
  | none => .ok se

/-- `statement_to_value_expr` (tap2shex.rs:111-120). -/
def valueExpr (st : Statement) : Except ShexErr (Option ValueExpr) :=
  match parseNodeConstraint cfg valid st with
  | .error e => .error e
  | .ok se => parseShapeRef T cfg valid st se

/-- `statement_to_triple_expr` (tap2shex.rs:96-109). -/
def tripleConstraint (st : Statement) : Except ShexErr TripleConstraint :=
  match resolveIri cfg valid st.property.str st.property.line with
  | .error e => .error e
  | .ok p =>
    match valueExpr T cfg valid st with
    | .error e => .error e
    | .ok se =>
      let te : TripleConstraint := ⟨p, se, getMin st.mandatory, getMax st.repeatable, none⟩
      match st.label with
      | some l => .ok (te.addAnnotation l)
      | none => .ok te

/-- The loop over the statements of a shape (tap2shex.rs:74-77). -/
def statementsLoop : List Statement → Except ShexErr (List TripleConstraint)
  | [] => .ok []
  | st :: sts =>
    match tripleConstraint T cfg valid st with
    | .error e => .error e
    | .ok t =>
      match statementsLoop sts with
      | .error e => .error e
      | .ok ts => .ok (t :: ts)

/-- The loop over what a shape extends (tap2shex.rs:85-88). -/
def extendsLoop : ShexShape → List ExtendsId → Except ShexErr ShexShape
  | s, [] => .ok s
  | s, e :: es =>
    match resolveIri cfg valid e.str e.line with
    | .error e => .error e
    | .ok i => extendsLoop (s.addExtend i) es

/-- `tapshape_to_shape_expr` (tap2shex.rs:72-91). -/
def shapeExpr (s : Shape) : Except ShexErr ShexShape :=
  match statementsLoop T cfg valid s.statements with
  | .error e => .error e
  | .ok ts => extendsLoop cfg valid { expression := if ts.isEmpty then none else some ts } s.extends_

/-- `tapshape_to_shape` (tap2shex.rs:36-52). -/
def shapeDecl (s : Shape) : Except ShexErr ShexDecl :=
  match s.id with
  | none => .error .noShapeId
  | some i =>
    match resolveIri cfg valid i.str i.line with
    | .error e => .error e
    | .ok id =>
      match shapeExpr T cfg valid s with
      | .error e => .error e
      | .ok sh =>
        match s.label with
        | some l => .ok ((⟨id, sh⟩ : ShexDecl).addAnnotation l)
        | none => .ok ⟨id, sh⟩

/-- The loop of `convert` (tap2shex.rs:26-32) on the declarations so far. -/
def convertLoop : List ShexDecl → List Shape → Except ShexErr (List ShexDecl)
  | ds, [] => .ok ds
  | ds, s :: ss =>
    match shapeDecl T cfg valid s with
    | .error e => .error e
    | .ok d => convertLoop (ds ++ [d]) ss

/-- `Tap2ShEx::convert` (tap2shex.rs:24-33): the declarations of the schema. -/
def convert (ss : List Shape) : Except ShexErr (List ShexDecl) := convertLoop T cfg valid [] ss

end

end Tap
