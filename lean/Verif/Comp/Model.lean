import Verif.Shex.ModelShape

/-!
# Model of the compiler from abstract syntax to the representation read by the engine

shex_ast/src/ir/ast2ir.rs, with the parts of shex_ast/src/ir/schema_ir.rs and of the abstract syntax
(shex_ast/src/ast) which it uses. The compiler is a recursive procedure over a schema under
construction; here the schema is passed along. The depth of the recursion is bounded by a number
(`more` when it is used up), since inclusions make it endless for some schemas.

Left out: annotations (dropped by the compiler), the texts which display conditions, the sources of
shapes, and the base (stored in pattern facets, where it is only printed). An `Option` of a list is a
list, as the compiler treats `None` and the empty list alike. Cardinalities are integers of any size.
-/

namespace Comp
open Shex

/-! ## Abstract syntax -/

/-- `enum IriRef` (prefixmap/src/iri/iri_ref.rs). -/
inductive IRef (P : Type) where
  | iri (i : P)
  | prefixed (ns loc : String)
  deriving DecidableEq

/-- `enum ShapeExprLabel` (shex_ast/src/ast/shape_expr_label.rs:15-21). -/
inductive Label (P : Type) where
  | ref (r : IRef P)
  | bnode (b : String)
  | start
  deriving DecidableEq

/-- `enum TripleExprLabel` (shex_ast/src/ast/triple_expr_label.rs:10-15). -/
inductive TLabel (P : Type) where
  | ref (r : IRef P)
  | bnode (b : String)
  deriving DecidableEq

/-- `enum ShapeLabel` (shex_ast/src/ir/shape_label.rs). -/
inductive SLabel (P : Type) where
  | iri (i : P)
  | bnode (b : String)
  | start
  deriving DecidableEq

/-- `struct SemAct` (shex_ast/src/ast/sem_act.rs). -/
structure Act (P : Type) where
  name : IRef P
  code : Option String

mutual
/-- `enum ShapeExpr` (shex_ast/src/ast/shape_expr.rs) with `struct Shape` (shex_ast/src/ast/shape.rs).
Node constraints are left to a parameter. -/
inductive SE (P NC : Type) : Type where
  | ref (l : Label P)
  | or (es : List (SE P NC))
  | and (es : List (SE P NC))
  | not (e : SE P NC)
  | shape (closed : Option Bool) (extra : List (IRef P)) (expr : Option (TE P NC))
      (exts : List (Label P)) (acts : List (Act P))
  | nc (c : NC)
  | external
/-- `enum TripleExpr` (shex_ast/src/ast/triple_expr.rs). -/
inductive TE (P NC : Type) : Type where
  | eachOf (id : Option (TLabel P)) (es : List (TE P NC)) (min max : Option Int)
      (acts : List (Act P))
  | oneOf (id : Option (TLabel P)) (es : List (TE P NC)) (min max : Option Int)
      (acts : List (Act P))
  | tc (id : Option (TLabel P)) (negated inverse : Option Bool) (pred : IRef P)
      (value : Option (SE P NC)) (min max : Option Int) (acts : List (Act P))
  | ref (l : TLabel P)
end

/-- `struct ShapeDecl` (shex_ast/src/ast/shape_decl.rs:10-26). -/
structure Decl (P NC : Type) where
  id : Label P
  abstr : Bool
  expr : SE P NC

/-- The fields of `ast::Schema` read by the compiler (shex_ast/src/ast/schema.rs); `expand` is
`resolve_prefix_local` of its prefix map. -/
structure Source (P NC : Type) where
  imports : List String
  expand : String → String → Option P
  startActs : List (Act P)
  start : Option (SE P NC)
  shapes : List (Decl P NC)

/-- What surrounds the compilation of shape expressions: the prefix map of the root schema
(ast2ir.rs:108), the conversion of node constraints (ast2ir.rs:415-432, modelled in
`Value/Model.lean`) given by the test it leads to, and the registry of semantic actions. -/
structure Ctxt (N P NC : Type) where
  expand : String → String → Option P
  nc : NC → Option (N → Bool)
  /-- `find_code` succeeds (ast2ir.rs:866-876). -/
  registered : P → Bool
  /-- `run_action` succeeds (shex_ast/src/ast/cond_kind.rs:129-137). -/
  run : P → Option String → Ctx N P → Bool

/-! ## Results and state -/

/-- `CResult`, the error dropped; `more` is a computation which did not end within the bound. -/
inductive Res (α : Type) where
  | ok (a : α)
  | err
  | more

/-- The `?` operator. -/
def Res.bind {α β : Type} : Res α → (α → Res β) → Res β
  | .ok a, f => f a
  | .err, _ => .err
  | .more, _ => .more

/-- `ok_or_else(..)?`. -/
def Res.of {α : Type} : Option α → Res α
  | some a => .ok a
  | none => .err

/-- `iter().map(f).collect::<CResult<Vec<_>>>()`. -/
def mapRes {α β : Type} (f : α → Res β) : List α → Res (List β)
  | [] => .ok []
  | a :: as => (f a).bind fun b => (mapRes f as).bind fun bs => .ok (b :: bs)

/-- The fields of `SchemaIR` which the compiler writes (shex_ast/src/ir/schema_ir.rs:30-50). -/
structure St (N P : Type) where
  labels : List (SLabel P × Nat)
  names : List (Nat × SLabel P)
  shapes : List (Nat × ShapeExpr N P)
  counter : Nat
  abstr : List Nat

variable {N P NC : Type}

namespace St

/-- `SchemaIR::new` (schema_ir.rs:52-73). -/
def init : St N P := ⟨[], [], [], 0, []⟩

/-- What the engine reads. -/
def schema (st : St N P) : Schema N P := ⟨st.shapes, st.abstr⟩

/-- `shapes.get(idx)`. -/
def find (st : St N P) (i : Nat) : Option (ShapeExpr N P) := Rbe.alookup i st.shapes

/-- `add_abstract_shape` (schema_ir.rs:104-106). -/
def addAbstract (st : St N P) (i : Nat) : St N P := { st with abstr := Rbe.sinsert i st.abstr }

/-- `new_index` (schema_ir.rs:441-448). -/
def newIndex (st : St N P) : Nat × St N P :=
  (st.counter, { st with
    shapes := Rbe.upsert st.counter .empty (fun _ => .empty) st.shapes
    counter := st.counter + 1 })

/-- `replace_shape` (schema_ir.rs:537-539). -/
def replace (st : St N P) (i : Nat) (se : ShapeExpr N P) : St N P :=
  { st with shapes := st.shapes.map fun x => if x.1 = i then (x.1, se) else x }

section
variable [DecidableEq P]

/-- `add_shape` with `ShapeExpr::Empty` (schema_ir.rs:155-164). -/
def addShape (st : St N P) (l : SLabel P) : Nat × St N P :=
  (st.counter, { st with
    labels := Rbe.upsert l st.counter (fun _ => st.counter) st.labels
    names := Rbe.upsert st.counter l (fun _ => l) st.names
    shapes := Rbe.upsert st.counter .empty (fun _ => .empty) st.shapes
    counter := st.counter + 1 })

/-- `get_shape_label_idx` (schema_ir.rs:528-535). -/
def idx (st : St N P) (l : SLabel P) : Option Nat := Rbe.alookup l st.labels

end

/-- The label of an index: `idx_labels_map.get` (schema_ir.rs:158). -/
def name (st : St N P) (i : Nat) : Option (SLabel P) := Rbe.alookup i st.names

end St

/-! ## Names and cardinalities -/

/-- `iri_ref_2_shape_label` and `shape_expr_label_to_shape_label` (ast2ir.rs:1097-1105, 282-292). -/
def toLabel : Label P → Res (SLabel P)
  | .ref (.iri i) => .ok (.iri i)
  | .ref (.prefixed _ _) => .err
  | .bnode b => .ok (.bnode b)
  | .start => .ok .start

/-- `cnv_iri_ref` (ast2ir.rs:1336-1347). -/
def cnvIri (G : Ctxt N P NC) : IRef P → Res P
  | .iri i => .ok i
  | .prefixed a l => .of (G.expand a l)

/-- `cnv_sem_action` (ast2ir.rs:602-605). -/
def cnvAct (G : Ctxt N P NC) (a : Act P) : Res (P × Option String) :=
  (cnvIri G a.name).bind fun i => .ok (i, a.code)

/-- `cnv_extra` (ast2ir.rs:441-452). -/
def cnvExtra (G : Ctxt N P NC) (extra : List (IRef P)) : Res (List (Pred P)) :=
  mapRes (fun r => (cnvIri G r).bind fun i => .ok ⟨i, true⟩) extra

/-- `cnv_predicate` (ast2ir.rs:607-618). -/
def cnvPredicate (pred : IRef P) (inverse : Option Bool) : Res (Pred P) :=
  match pred with
  | .iri i => .ok ⟨i, match inverse with | none => true | some b => !b⟩
  | .prefixed _ _ => .err

/-- `cnv_min` (ast2ir.rs:635-641). -/
def cnvMin : Option Int → Res Nat
  | some m => if m < 0 then .err else .ok m.toNat
  | none => .ok 1

/-- `cnv_max` (ast2ir.rs:643-650). -/
def cnvMax : Option Int → Res Rbe.Mx
  | some m => if m = -1 then .ok .unbounded else if m < -1 then .err else .ok (.intMax m.toNat)
  | none => .ok (.intMax 1)

/-- `cnv_min_max` (ast2ir.rs:620-624). -/
def cnvMinMax (min max : Option Int) : Res Rbe.Card :=
  (cnvMin min).bind fun a => (cnvMax max).bind fun b => .ok ⟨a, b⟩

/-- `mk_card_group` (ast2ir.rs:626-633). -/
def mkCardGroup (s : Rbe.Struct Nat) (c : Rbe.Card) : Rbe.Struct Nat :=
  if c.is11 then s
  else if c.min = 0 ∧ c.max = .unbounded then s.star
  else if c.min = 1 ∧ c.max = .unbounded then s.plus
  else s.repeat c.min c.max

/-! ## Conditions -/

/-- A condition with a payload that does not depend on the context: node constraints, and
`CondKind::Any` for the absent value expression (cond_kind.rs:61-128, ast2ir.rs:741-746). -/
def testCond (ok : N → Bool) : VCond N P :=
  .single (some fun v _ => if ok v then some Rbe.Pending.empty else none)

/-- `mk_cond_sem_act` (ast2ir.rs:983-990) with its evaluation (cond_kind.rs:129-137). -/
def actCond (run : Ctx N P → Bool) : VCond N P :=
  .single (some fun _ c => if run c then some Rbe.Pending.empty else none)

/-- The last lines of `value_expr2match_cond` (ast2ir.rs:747-755). -/
def withActs (acts : List (VCond N P)) (cond : VCond N P) : VCond N P :=
  if acts.isEmpty then cond else .and (acts ++ [cond])

/-- `sem_acts_to_conds` after `cnv_sem_actions` (ast2ir.rs:866-876, 594-600). -/
def actConds (G : Ctxt N P NC) (acts : List (Act P)) : Res (List (VCond N P)) :=
  (mapRes (cnvAct G) acts).bind fun as =>
    mapRes (fun a : P × Option String =>
      if G.registered a.1 then .ok (actCond (G.run a.1 a.2)) else .err) as

section Compile
variable [DecidableEq P]

/-- `ref2idx` and `get_shape_label_idx` (ast2ir.rs:294-297, 311-314). -/
def refIdx (st : St N P) (l : Label P) : Res Nat :=
  (toLabel l).bind fun s => .of (st.idx s)

/-! ## Shape expressions and triple expressions -/

/-- The loops over operands (ast2ir.rs:335-340, 347-352, 687-692, 704-709); `go` is
`compile_shape_expr`. -/
def operands (go : SE P NC → Nat → St N P → Res (ShapeExpr N P × St N P)) :
    List (SE P NC) → St N P → Res (List Nat × St N P)
  | [], st => .ok ([], st)
  | e :: es, st =>
    (go e st.newIndex.1 st.newIndex.2).bind fun r =>
      (operands go es (r.2.replace st.newIndex.1 r.1)).bind fun rs =>
        .ok (st.newIndex.1 :: rs.1, rs.2)

/-- A new index for a given expression (ast2ir.rs:693-695, 710-716, 728-730, 735-736). -/
def store (st : St N P) (se : ShapeExpr N P) : VCond N P × St N P :=
  (.ref st.newIndex.1, st.newIndex.2.replace st.newIndex.1 se)

/-- The condition of the value expression (ast2ir.rs:661-746). -/
def valueCond (G : Ctxt N P NC) (go : SE P NC → Nat → St N P → Res (ShapeExpr N P × St N P))
    (value : Option (SE P NC)) (st : St N P) : Res (VCond N P × St N P) :=
  match value with
  | none => .ok (testCond fun _ => true, st)
  | some (.nc c) => (Res.of (G.nc c)).bind fun f => .ok (testCond f, st)
  | some (.ref l) => (refIdx st l).bind fun i => .ok (.ref i, st)
  | some (.shape cl ex te xs as) =>
    (go (.shape cl ex te xs as) st.newIndex.1 st.newIndex.2).bind fun r =>
      .ok (.ref st.newIndex.1, r.2.replace st.newIndex.1 r.1)
  | some (.and es) => (operands go es st).bind fun r => .ok (store r.2 (.and r.1))
  | some (.or es) => (operands go es st).bind fun r => .ok (store r.2 (.or r.1))
  | some (.not e) =>
    (go e st.newIndex.1 st.newIndex.2).bind fun r =>
      .ok (store (r.2.replace st.newIndex.1 r.1) (.not st.newIndex.1))
  | some .external => .ok (store st .external)

/-- The loops over the parts of groups (ast2ir.rs:501-511, 531-541); `go` is
`triple_expr2rbe_with_refs`. -/
def parts (go : TE P NC → TExpr N P → St N P → Res (Rbe.Struct Nat × TExpr N P × St N P)) :
    List (TE P NC) → TExpr N P → St N P → Res (List (Rbe.Struct Nat) × TExpr N P × St N P)
  | [], t, st => .ok ([], t, st)
  | e :: es, t, st =>
    (go e t st).bind fun r =>
      (parts go es r.2.1 r.2.2).bind fun rs => .ok (r.1 :: rs.1, rs.2)

/-- The loops of `get_preds_triple_expr` over the parts of groups (ast2ir.rs:772-781). -/
def predsOver (go : TE P NC → Res (List (Pred P))) : List (TE P NC) → Res (List (Pred P))
  | [] => .ok []
  | e :: es => (go e).bind fun ps => (predsOver go es).bind fun qs => .ok (ps ++ qs)

/-- `get_preds_triple_expr` (ast2ir.rs:766-803). The panic of `iri_ref2iri_s` on a prefixed predicate
is an error here; such predicates have been refused before. -/
def getPreds (tes : TLabel P → Option (TE P NC)) :
    Nat → TE P NC → List (TLabel P) → Res (List (Pred P))
  | 0, _, _ => .more
  | n + 1, te, vis =>
    match te with
    | .eachOf _ es _ _ _ => predsOver (fun e => getPreds tes n e vis) es
    | .oneOf _ es _ _ _ => predsOver (fun e => getPreds tes n e vis) es
    | .tc _ _ inverse pred _ _ _ _ => (cnvPredicate pred inverse).bind fun p => .ok [p]
    | .ref l =>
      if l ∈ vis then .ok []
      else (Res.of (tes l)).bind fun e => getPreds tes n e (l :: vis)

/-- The table of a shape (ast2ir.rs:367-375). -/
def shapeTable (go : TE P NC → Res (Rbe.Struct Nat × TExpr N P × St N P)) (expr : Option (TE P NC))
    (st : St N P) : Res (TExpr N P × St N P) :=
  match expr with
  | none => .ok (Rbe.Table.new, st)
  | some te => (go te).bind fun r => .ok (r.2.1.withRbe r.1, r.2.2)

/-- `get_preds_shape` (ast2ir.rs:758-764). -/
def shapePreds (go : TE P NC → Res (List (Pred P))) : Option (TE P NC) → Res (List (Pred P))
  | none => .ok []
  | some te => go te

mutual
/-- `compile_shape_expr` (ast2ir.rs:316-413). -/
def compileSE (G : Ctxt N P NC) (tes : TLabel P → Option (TE P NC)) :
    Nat → SE P NC → Nat → St N P → Res (ShapeExpr N P × St N P)
  | 0, _, _, _ => .more
  | n + 1, se, i, st =>
    match se with
    | .ref l => (refIdx st l).bind fun j => .ok (.ref j, st)
    | .or es => (operands (compileSE G tes n) es st).bind fun r => .ok (.or r.1, r.2.replace i (.or r.1))
    | .and es =>
      (operands (compileSE G tes n) es st).bind fun r => .ok (.and r.1, r.2.replace i (.and r.1))
    | .not e =>
      (compileSE G tes n e st.newIndex.1 st.newIndex.2).bind fun r =>
        .ok (.not st.newIndex.1, (r.2.replace st.newIndex.1 r.1).replace i (.not st.newIndex.1))
    | .shape closed extra expr exts acts =>
      (cnvExtra G extra).bind fun ex =>
      (shapeTable (fun te => compileTE G tes n te [] Rbe.Table.new st) expr st).bind fun r =>
      (shapePreds (fun te => getPreds tes n te []) expr).bind fun preds =>
      (mapRes (refIdx r.2) exts).bind fun xs =>
      (mapRes (cnvAct G) acts).bind fun _ =>
        .ok (.shape ⟨closed.getD false, ex, r.1, preds, xs⟩, r.2)
    | .nc c => (Res.of (G.nc c)).bind fun f => .ok (.nodeConstraint (testCond f), st)
    | .external => .ok (.external, st)
/-- `triple_expr2rbe_with_refs` (ast2ir.rs:482-592); `negated` is not read, the actions of groups are
looked up (`EachOf`) or not (`OneOf`) and dropped. -/
def compileTE (G : Ctxt N P NC) (tes : TLabel P → Option (TE P NC)) :
    Nat → TE P NC → List (TLabel P) → TExpr N P → St N P → Res (Rbe.Struct Nat × TExpr N P × St N P)
  | 0, _, _, _, _ => .more
  | n + 1, te, vis, t, st =>
    match te with
    | .eachOf _ es min max acts =>
      (parts (fun e => compileTE G tes n e vis) es t st).bind fun r =>
      (cnvMinMax min max).bind fun c =>
      (actConds G acts).bind fun _ => .ok (mkCardGroup (Rbe.Struct.and r.1) c, r.2)
    | .oneOf _ es min max _ =>
      (parts (fun e => compileTE G tes n e vis) es t st).bind fun r =>
      (cnvMinMax min max).bind fun c => .ok (mkCardGroup (Rbe.Struct.or r.1) c, r.2)
    | .tc _ _ inverse pred value min max acts =>
      (cnvMin min).bind fun a =>
      (cnvMax max).bind fun b =>
      (cnvPredicate pred inverse).bind fun p =>
      (actConds G acts).bind fun as =>
      (valueCond G (compileSE G tes n) value st).bind fun r =>
        .ok (Rbe.Struct.symbol t.counter a b, t.addComponent p (withActs as r.1), r.2)
    | .ref l =>
      if l ∈ vis then .err
      else (Res.of (tes l)).bind fun e => compileTE G tes n e (l :: vis) t st
end

/-! ## Labels of triple expressions -/

/-- `register_triple_expr_label` (ast2ir.rs:850-864). -/
def registerT (id : Option (TLabel P)) (e : TE P NC) (m : List (TLabel P × TE P NC)) :
    Res (List (TLabel P × TE P NC)) :=
  match id with
  | none => .ok m
  | some l => if (Rbe.alookup l m).isSome then .err else .ok (m ++ [(l, e)])

mutual
/-- `collect_triple_expr_labels_triple_expr` (ast2ir.rs:836-848); value expressions are not entered. -/
def collectT : TE P NC → List (TLabel P × TE P NC) → Res (List (TLabel P × TE P NC))
  | .eachOf id es mn mx as, m => (registerT id (.eachOf id es mn mx as) m).bind (collectTs es)
  | .oneOf id es mn mx as, m => (registerT id (.oneOf id es mn mx as) m).bind (collectTs es)
  | .tc id ng iv p v mn mx as, m => registerT id (.tc id ng iv p v mn mx as) m
  | .ref _, m => .ok m
/-- The loop over the parts (ast2ir.rs:840-842). -/
def collectTs : List (TE P NC) → List (TLabel P × TE P NC) → Res (List (TLabel P × TE P NC))
  | [], m => .ok m
  | e :: es, m => (collectT e m).bind (collectTs es)
end

mutual
/-- `collect_triple_expr_labels_shape_expr` (ast2ir.rs:817-834). -/
def collectS : SE P NC → List (TLabel P × TE P NC) → Res (List (TLabel P × TE P NC))
  | .or es, m => collectSs es m
  | .and es, m => collectSs es m
  | .not e, m => collectS e m
  | .shape _ _ expr _ _, m => match expr with
    | none => .ok m
    | some e => collectT e m
  | .nc _, m => .ok m
  | .external, m => .ok m
  | .ref _, m => .ok m
/-- The loop over the operands (ast2ir.rs:820-822). -/
def collectSs : List (SE P NC) → List (TLabel P × TE P NC) → Res (List (TLabel P × TE P NC))
  | [], m => .ok m
  | e :: es, m => (collectS e m).bind (collectSs es)
end

/-- The loop over declarations in `collect_triple_expr_labels_schema` (ast2ir.rs:809-813). -/
def collectDecls : List (Decl P NC) → List (TLabel P × TE P NC) → Res (List (TLabel P × TE P NC))
  | [], m => .ok m
  | d :: ds, m => (collectS d.expr m).bind (collectDecls ds)

/-- The start expression in `collect_triple_expr_labels_schema` (ast2ir.rs:806-808). -/
def collectStart (start : Option (SE P NC)) (m : List (TLabel P × TE P NC)) :
    Res (List (TLabel P × TE P NC)) :=
  match start with
  | none => .ok m
  | some e => collectS e m

/-- `collect_triple_expr_labels_schema` (ast2ir.rs:805-815). -/
def collectSource (s : Source P NC) (m : List (TLabel P × TE P NC)) :
    Res (List (TLabel P × TE P NC)) :=
  (collectStart s.start m).bind (collectDecls s.shapes)

/-- The calls in `compile` (ast2ir.rs:125-129): imported schemas first, the root last. -/
def collectSources : List (Source P NC) → List (TLabel P × TE P NC) →
    Res (List (TLabel P × TE P NC))
  | [], m => .ok m
  | s :: ss, m => (collectSource s m).bind (collectSources ss)

/-! ## Schemas -/

/-- Labels of declarations: the loops of `collect_imported_shape_labels` and `collect_shape_labels`
(ast2ir.rs:198-217, 236-250). -/
def addDecls : List (Decl P NC) → St N P → Res (St N P)
  | [], st => .ok st
  | d :: ds, st =>
    (toLabel d.id).bind fun l =>
      addDecls ds (if d.abstr then (st.addShape l).2.addAbstract (st.addShape l).1 else (st.addShape l).2)

/-- `collect_shape_exprs` (ast2ir.rs:262-280) with `compile_shape_decl` (ast2ir.rs:299-309). -/
def compileDecls (G : Ctxt N P NC) (tes : TLabel P → Option (TE P NC)) (n : Nat) :
    List (Decl P NC) → St N P → Res (St N P)
  | [], st => .ok st
  | d :: ds, st =>
    (refIdx st d.id).bind fun i =>
      (compileSE G tes n d.expr i st).bind fun r => compileDecls G tes n ds (r.2.replace i r.1)

/-- The loop over schemas in `compile` (ast2ir.rs:133-136). -/
def compileSources (G : Ctxt N P NC) (tes : TLabel P → Option (TE P NC)) (n : Nat) :
    List (Source P NC) → St N P → Res (St N P)
  | [], st => .ok st
  | s :: ss, st => (compileDecls G tes n s.shapes st).bind (compileSources G tes n ss)

/-- The start expression in `collect_shape_labels` (ast2ir.rs:251-258): compiled before the labels of
triple expressions are collected. -/
def compileStart (G : Ctxt N P NC) (n : Nat) (start : Option (SE P NC)) (st : St N P) :
    Res (St N P) :=
  match start with
  | none => .ok st
  | some e =>
    (compileSE G (fun _ => none) n e (st.addShape .start).1 (st.addShape .start).2).bind fun r =>
      .ok (r.2.replace (st.addShape .start).1 r.1)

/-- What surrounds the compilation of a schema: resolution of the texts of imports against a base
(`IriOrStr::resolve`, shex_ast/src/ast/iri_or_str.rs:30-50), retrieval of an import with the source of
the importing schema (ast2ir.rs:219-226), `rewrite_ast` of the resolvers of external shapes, and the
rest of a context. -/
structure World (N P NC : Type) where
  resolve : Option P → String → Option P
  fetch : P → P → Option (Source P NC)
  rewrite : Source P NC → Source P NC
  nc : (String → String → Option P) → NC → Option (N → Bool)
  registered : P → Bool
  run : P → Option String → Ctx N P → Bool

/-- What `collect_imports_labels` changes: `visited_sources`, `imported_asts`, and the schema. -/
structure Acc (N P NC : Type) where
  visited : List P
  asts : List (Source P NC × P)
  st : St N P

/-- The loop over the imports of one schema (ast2ir.rs:158-194); `go` is the recursive call. -/
def importLoop (W : World N P NC) (src : P)
    (go : Source P NC → P → Option P → Acc N P NC → Res (Acc N P NC)) :
    List P → Acc N P NC → Res (Acc N P NC)
  | [], a => .ok a
  | i :: is, a =>
    if i ∈ a.visited then importLoop W src go is a
    else
      (Res.of (W.fetch i src)).bind fun s =>
        (go (W.rewrite s) i (some i) { a with visited := a.visited ++ [i] }).bind fun b =>
          (addDecls (W.rewrite s).shapes b.st).bind fun st =>
            importLoop W src go is { b with asts := b.asts ++ [(W.rewrite s, i)], st := st }

/-- `collect_imports_labels` (ast2ir.rs:145-196). -/
def collectImports (W : World N P NC) :
    Nat → Source P NC → P → Option P → Acc N P NC → Res (Acc N P NC)
  | 0, _, _, _, _ => .more
  | n + 1, s, src, base, a =>
    (mapRes (fun i => Res.of (W.resolve base i)) s.imports).bind fun is =>
      importLoop W src (collectImports W n) is a

/-- The context for a root schema. -/
def World.ctxt (W : World N P NC) (root : Source P NC) : Ctxt N P NC :=
  ⟨root.expand, W.nc root.expand, W.registered, W.run⟩

/-- `AST2IR::compile` (ast2ir.rs:69-143): the schema and the imported sources, in order. -/
def compile (W : World N P NC) (n : Nat) (s : Source P NC) (src : P) (base : Option P) :
    Res (St N P × List P) :=
  (collectImports W n (W.rewrite s) src base ⟨[], [], St.init⟩).bind fun a =>
  (mapRes (cnvAct (W.ctxt (W.rewrite s))) (W.rewrite s).startActs).bind fun _ =>
  (addDecls (W.rewrite s).shapes a.st).bind fun st₁ =>
  (compileStart (W.ctxt (W.rewrite s)) n (W.rewrite s).start st₁).bind fun st₂ =>
  (collectSources (a.asts.map Prod.fst ++ [W.rewrite s]) []).bind fun m =>
  (compileSources (W.ctxt (W.rewrite s)) (fun l => Rbe.alookup l m) n
    (a.asts.map Prod.fst ++ [W.rewrite s]) st₂).bind fun st₃ => .ok (st₃, a.visited)

end Compile
end Comp
