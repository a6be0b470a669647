import Verif.Part.Model
import Verif.Shex.ModelShape

/-!
# Model: shapes that extend others

shex_ast/src/ir/{extend_alternative,schema_ir}.rs and the EXTENDS part of
shex_validation/src/engine.rs. Reasons and errors are left out: a check answers whether it passes.
The contexts built without registry (engine.rs:770, 1156, 1343, 1749, 1782, 1788) differ from the others only in
that semantic actions fail; conditions are modelled as functions of value and context, and the
registry is not part of the context, so schemas with semantic actions are outside this model.
-/

namespace Shex
open Rbe

/-! ## Alternatives of an extended parent -/

/-- `struct ExtendAlternative` with `ScopedConstraint`
(shex_ast/src/ir/extend_alternative.rs:25-36): a constraint is its expression and its scope. -/
structure Alt where
  buckets : List Nat
  constraints : List (Nat × List Nat)
  deriving DecidableEq, Repr

/-- `push_unique` (extend_alternative.rs:124-128). -/
def pushUnique (v : List Nat) (x : Nat) : List Nat := if x ∈ v then v else v ++ [x]

/-- `push_unique_constraint` (extend_alternative.rs:114-122). -/
def pushConstraint : List (Nat × List Nat) → Nat × List Nat → List (Nat × List Nat)
  | [], c => [c]
  | e :: es, c =>
    if e.1 = c.1 then (e.1, c.2.foldl pushUnique e.2) :: es else e :: pushConstraint es c

namespace Alt

/-- `ExtendAlternative::default()` (extend_alternative.rs:25). -/
def dflt : Alt := ⟨[], []⟩

/-- `ExtendAlternative::with_bucket` (extend_alternative.rs:53-58). -/
def withBucket (i : Nat) : Alt := ⟨[i], []⟩

/-- `ExtendAlternative::with_constraint` (extend_alternative.rs:60-68). -/
def withConstraint (i : Nat) : Alt := ⟨[], [(i, [])]⟩

/-- `ExtendAlternative::with_scoped_constraints` (extend_alternative.rs:73-85). -/
def withScoped (a : Alt) (is : List Nat) : Alt :=
  { a with constraints := is.foldl (fun cs c => pushConstraint cs (c, a.buckets)) a.constraints }

/-- `ExtendAlternative::merge` (extend_alternative.rs:102-111). -/
def merge (a b : Alt) : Alt :=
  ⟨b.buckets.foldl pushUnique a.buckets, b.constraints.foldl pushConstraint a.constraints⟩

end Alt

/-- `cross_merge` (extend_alternative.rs:132-134). -/
def crossMerge (left right : List Alt) : List Alt := left.flatMap fun a => right.map fun b => a.merge b

section Basic
variable {N P : Type}

/-- The loop of `dereference` (schema_ir.rs:326-336). -/
def derefGo (sch : Schema N P) : Nat → List Nat → Nat → Nat
  | 0, _, cur => cur
  | n + 1, seen, cur =>
    if cur ∈ seen then cur
    else
      match sch.find cur with
      | some (.ref next) => derefGo sch n (cur :: seen) next
      | _ => cur

/-- `SchemaIR::dereference` (schema_ir.rs:326-336). Every turn but the last sees a new shape. -/
def Schema.deref (sch : Schema N P) (i : Nat) : Nat := derefGo sch (sch.shapes.length + 1) [] i

/-- The loop over the conjuncts in `extend_alternatives_rec` (schema_ir.rs:301-311): the
alternatives of the first conjunct with buckets, and the other conjuncts. -/
def altsAnd (deref : Nat → Nat) (go : Nat → List Alt) :
    List Nat → Option (List Alt) → List Nat → Option (List Alt) × List Nat
  | [], main, cs => (main, cs)
  | e :: es, none, cs =>
    let alts := go e
    if alts.any fun a => !a.buckets.isEmpty then altsAnd deref go es (some alts) cs
    else altsAnd deref go es none (cs ++ [deref e])
  | e :: es, some main, cs => altsAnd deref go es (some main) (cs ++ [deref e])

/-- `extend_alternatives_rec` (schema_ir.rs:274-323). The path grows with every call that goes on,
so the number of shapes bounds the depth. -/
def altsRec (sch : Schema N P) : Nat → List Nat → Nat → List Alt
  | 0, _, _ => [Alt.dflt]
  | n + 1, path, i =>
    let i := sch.deref i
    if i ∈ path then [Alt.dflt]
    else
      let go := altsRec sch n (i :: path)
      match sch.find i with
      | some (.shape s) => s.extends.foldl (fun acc p => crossMerge acc (go p)) [Alt.withBucket i]
      | some (.or es) => es.flatMap go
      | some (.and es) =>
        let r := altsAnd sch.deref go es none []
        (r.1.getD [Alt.dflt]).map fun a => a.withScoped r.2
      | some .empty => [Alt.dflt]
      | none => [Alt.dflt]
      | some _ => [Alt.withConstraint i]

/-- `SchemaIR::extend_alternatives` (schema_ir.rs:269-272). -/
def Schema.alternatives (sch : Schema N P) (i : Nat) : List Alt :=
  altsRec sch (sch.shapes.length + 1) [] i

/-- `SchemaIR::get_main_shape_constraints` (schema_ir.rs:220-258): node constraints, main shape and
remaining conjuncts. -/
def Schema.mainShape (sch : Schema N P) (i : Nat) :
    Option (List (VCond N P) × Option (Shape N P) × List (ShapeExpr N P)) :=
  match sch.find (sch.deref i) with
  | some (.shape s) => some ([], some s, [])
  | some (.and es) =>
    some (es.foldl (fun acc e =>
      match sch.find e with
      | none => acc
      | some (.shape s) =>
        match acc.2.1 with
        | none => (acc.1, some s, acc.2.2)
        | some _ => (acc.1, acc.2.1, acc.2.2 ++ [.shape s])
      | some (.nodeConstraint c) => (acc.1 ++ [c], acc.2.1, acc.2.2)
      | some se => (acc.1, acc.2.1, acc.2.2 ++ [se])) ([], none, []))
  | _ => none

/-- The shapes extended by the main shape of `i`. -/
def Schema.mainExtends (sch : Schema N P) (i : Nat) : List Nat :=
  match sch.mainShape i with
  | some (_, some m, _) => m.extends
  | _ => []

/-- `extends_closure` (engine.rs:1808-1825). Pushing what is already in the result changes nothing, as
it is skipped when popped. Bound: one turn for each root and for each parent of each shape. -/
def Schema.extendsClosure (sch : Schema N P) (roots : List Nat) : List Nat :=
  dfs sch.mainExtends
    (roots.length + (sch.shapes.map fun x => (sch.mainExtends x.1).length).sum + 1) roots.reverse []

/-- `ShapeExpr::preds` (shape_expr.rs:161-208). `visited` is only consulted at references, which
start afresh, so a cycle of references does not end; the first argument bounds the depth. -/
def predsOf (sch : Schema N P) : Nat → ShapeExpr N P → List (Pred P)
  | 0, _ => []
  | n + 1, se =>
    let go := fun e => match sch.find e with
      | none => []
      | some se' => predsOf sch n se'
    match se with
    | .or es => es.flatMap go
    | .and es => es.flatMap go
    | .not e => go e
    | .shape s => s.preds
    | .ref i => go i
    | _ => []

/-- `SchemaIR::get_preds_extends` (schema_ir.rs:338-349). -/
def Schema.predsExtends (sch : Schema N P) (i : Nat) : List (Pred P) :=
  match sch.find i with
  | none => []
  | some se =>
    let depth := sch.shapes.length + 1
    predsOf sch depth se ++ (sch.parents i).flatMap fun e =>
      match sch.find e with
      | none => []
      | some pe => predsOf sch depth pe

/-- The loops over operands of `collect_all_exprs_for_shape`. -/
def collectOver (go : Nat → List Nat → List (TExpr N P) × List Nat) :
    List Nat → List Nat → List (TExpr N P) × List Nat
  | [], vis => ([], vis)
  | e :: es, vis =>
    let r := go e vis
    let r' := collectOver go es r.2
    (r.1 ++ r'.1, r'.2)

/-- `collect_all_exprs_for_shape` (engine.rs:1705-1734). -/
def collectExprs (sch : Schema N P) : Nat → Nat → List Nat → List (TExpr N P) × List Nat
  | 0, _, vis => ([], vis)
  | n + 1, i, vis =>
    if i ∈ vis then ([], vis)
    else
      match sch.find i with
      | some (.shape s) =>
        let r := collectOver (collectExprs sch n) s.extends (i :: vis)
        (s.expr :: r.1, r.2)
      | some (.and es) => collectOver (collectExprs sch n) es (i :: vis)
      | some (.ref j) => collectExprs sch n j (i :: vis)
      | _ => ([], i :: vis)

end Basic

section Check
variable {N P : Type} [DecidableEq N] [DecidableEq P]

/-! ## Selections -/

/-- The inner loop that advances the selector (engine.rs:1086-1103); `none` is the level beyond the
last parent. -/
def advanceSelector {A : Type} : List (List A) → List Nat → Option (List Nat)
  | alts :: ps, d :: ds =>
    if d + 1 < alts.length then some ((d + 1) :: ds)
    else (advanceSelector ps ds).map (0 :: ·)
  | _, _ => none

/-- `alts[selector[i]]` for every parent (engine.rs:1072-1074); `none` is an index out of bounds. -/
def selected {A : Type} : List (List A) → List Nat → Option (List A)
  | alts :: ps, d :: ds => do
    let a ← alts[d]?
    let as ← selected ps ds
    pure (a :: as)
  | _, _ => some []

/-- The current selection (engine.rs:1071-1074). -/
def mergeAll (as : List Alt) : Alt := as.foldl Alt.merge Alt.dflt

/-- The loop of `check_node_shape_extends_selections` (engine.rs:1066-1105) with the check of one
selection as parameter: the verdict and the selections tried, in order. `none` is a panic, or the
bound on the turns reached. -/
def trySelections (check : Alt → Bool) (parents : List (List Alt)) :
    Nat → List Nat → Option (Bool × List (List Alt))
  | 0, _ => none
  | n + 1, sel => do
    let as ← selected parents sel
    if check (mergeAll as) then pure (true, [as])
    else
      match advanceSelector parents sel with
      | none => pure (false, [as])
      | some sel' => do
        let r ← trySelections check parents n sel'
        pure (r.1, as :: r.2)

/-- `check_node_shape_extends_selections` (engine.rs:1053-1106). The product of the numbers of
alternatives bounds the turns. -/
def checkSelections (check : Alt → Bool) (parents : List (List Alt)) :
    Option (Bool × List (List Alt)) :=
  trySelections check parents ((parents.map List.length).prod + 1) (List.replicate parents.length 0)

/-! ## Search for a partition -/

/-- What the search for partitions leaves open: the order of the hash maps of buckets and of
classes, and a bound on the turns of the iterator. -/
structure Search (N P : Type) where
  bucketOrder : List (Option Nat × List (TExpr N P)) → List (Option Nat × List (TExpr N P))
  classOrder : List (List Nat × List (Neigh N P)) → List (List Nat × List (Neigh N P))
  turns : List (List (TExpr N P)) → List (Neigh N P) → Nat

/-- `check_exprs_neigh` (engine.rs:1835-1859). -/
def checkExprsNeigh (enum : List Nat → List (Nat × Nat)) (ts : List (TExpr N P))
    (vs : List (Neigh N P)) (T : N × Nat → Bool) : Bool :=
  ts.all fun t => checkExprNeigh enum t vs T

/-- `allocated.get(&Some(b))` (engine.rs:983-988, 1284-1289). -/
def allocatedTo (labels : List (Option Nat)) (part : List (List (Neigh N P))) (b : Nat) :
    List (Neigh N P) :=
  (alookup (some b) (labels.zip part)).getD []

/-- One partition is accepted (engine.rs:930-1013, 1244-1308): every bucket takes its part, and every
constraint takes the parts of the buckets in its scope. -/
def partitionOk (enum : List Nat → List (Nat × Nat)) (buckets : List (Option Nat × List (TExpr N P)))
    (splits : List (List Nat × List (TExpr N P))) (T : N × Nat → Bool)
    (part : List (List (Neigh N P))) : Bool :=
  ((buckets.zip part).all fun x => checkExprsNeigh enum x.1.2 x.2 T) &&
    splits.all fun c =>
      checkExprsNeigh enum c.2 (c.1.flatMap (allocatedTo (buckets.map Prod.fst) part)) T

/-- The search over the partitions (engine.rs:913-1047, 1232-1322). -/
def searchPartitions (S : Search N P) (enum : List Nat → List (Nat × Nat))
    (buckets : List (Option Nat × List (TExpr N P))) (splits : List (List Nat × List (TExpr N P)))
    (values : List (Neigh N P)) (T : N × Nat → Bool) : Bool :=
  let bs := S.bucketOrder buckets
  let tables := bs.map Prod.snd
  match Part.drain Part.CIter.step (S.turns tables values)
      (Part.classPartitions S.classOrder tables values) with
  | none => false
  | some parts => parts.any (partitionOk enum bs splits T)

/-- `matches_leaf` over all buckets (engine.rs:838-847, 1158-1164). -/
def matchesSomeBucket (buckets : List (Option Nat × List (TExpr N P))) (x : Neigh N P) : Bool :=
  buckets.any fun b => b.2.any fun t => matchesAnyLeaf t x

/-- The feasibility guard (engine.rs:899-911, 1174-1187). -/
def guardOk (buckets : List (Option Nat × List (TExpr N P))) (values : List (Neigh N P)) : Bool :=
  buckets.all fun b => b.2.all fun t => t.feasibleNeighs values

/-! ## One selection -/

/-- `try_split_constraint` (engine.rs:1742-1769): `none` is `None`, `some none` is `Some(false)`,
`some (some tes)` is `Some(true)` with the expressions pushed. A cycle of references does not end;
the first argument bounds the depth. -/
def trySplit (sch : Schema N P) (node : N) : Nat → Nat → Option (Option (List (TExpr N P)))
  | 0, _ => none
  | n + 1, i =>
    match sch.find i with
    | some (.shape s) => if s.extends.isEmpty then some (some [s.expr]) else none
    | some (.nodeConstraint c) => some (if (c.matches node (node, none)).isSome then some [] else none)
    | some (.ref j) => trySplit sch node n j
    | some (.and es) =>
      es.foldl (fun acc e =>
        match acc with
        | some (some tes) =>
          match trySplit sch node n e with
          | some (some tes') => some (some (tes ++ tes'))
          | r => r
        | r => r) (some (some []))
    | _ => none

/-- `check_node_constraint_expr` (engine.rs:1327-1395), with what shapes with parents answer as
parameter. A cycle does not end; the numeric argument bounds the depth. -/
def Env.checkConstraint (E : Env N P) (ext : Ext N P) (node : N) (T : N × Nat → Bool) :
    Nat → Nat → Bool
  | 0, _ => false
  | n + 1, i =>
    match E.schema.find i with
    | none => true
    | some (.nodeConstraint c) => (c.matches node (node, none)).isSome
    | some (.shape s) => if s.extends.isEmpty then E.checkShape node s T else ext node i s T
    | some (.not e) => !(E.checkConstraint ext node T n e)
    | some (.and es) => es.all (E.checkConstraint ext node T n)
    | some (.or es) => es.any (E.checkConstraint ext node T n)
    | some (.ref j) => E.checkConstraint ext node T n j
    | some .empty => true
    | some .external => E.external node i

/-- The buckets of a selection (engine.rs:1126-1138). -/
def selectionBuckets (sch : Schema N P) (s : Shape N P) (σ : Alt) :
    List (Option Nat × List (TExpr N P)) :=
  (none, [s.expr]) :: σ.buckets.filterMap fun b =>
    match sch.find b with
    | some (.shape bs) => some (some b, [bs.expr])
    | _ => none

/-- The matchable predicates of a selection (engine.rs:1128-1144). -/
def selectionPreds (sch : Schema N P) (s : Shape N P) (σ : Alt) : List (Pred P) :=
  addPreds (σ.buckets.foldl (fun acc b =>
    match sch.find b with
    | some (.shape bs) => addPreds acc bs.preds
    | _ => acc) s.preds) s.extra

/-- The loop over the constraints of a selection (engine.rs:1195-1229): the constraints left for
the partitions, or `none` when one fails. -/
def Env.splitConstraints (E : Env N P) (ext : Ext N P) (node : N) (T : N × Nat → Bool) :
    List (Nat × List Nat) → Option (List (List Nat × List (TExpr N P)))
  | [] => some []
  | c :: cs =>
    let depth := E.schema.shapes.length + 1
    match trySplit E.schema node depth c.1 with
    | some (some tes) =>
      (E.splitConstraints ext node T cs).map fun r => if tes.isEmpty then r else (c.2, tes) :: r
    | some none => none
    | none =>
      if E.checkConstraint ext node T depth c.1 then E.splitConstraints ext node T cs else none

/-- `check_node_selection` (engine.rs:1110-1322). -/
def Env.checkSelection (E : Env N P) (S : Search N P) (ext : Ext N P) (node : N) (s : Shape N P)
    (T : N × Nat → Bool) (σ : Alt) : Bool :=
  let buckets := selectionBuckets E.schema s σ
  let preds := selectionPreds E.schema s σ
  if s.closed && !(E.graph.remainder node preds).isEmpty then false
  else
    let values := (withCtx node (E.neighs node preds)).filter fun x =>
      matchesSomeBucket buckets x || decide (x.1 ∉ s.extra)
    if !guardOk buckets values then false
    else
      match E.splitConstraints ext node T σ.constraints with
      | none => false
      | some splits => searchPartitions S E.enum buckets splits values T

/-! ## A single alternative per parent -/

/-- `collect_constraint_exprs` (engine.rs:1775-1802): `none` is `false`. A cycle of references does
not end; the first argument bounds the depth. -/
def collectConstraint (sch : Schema N P) (node : N) : Nat → ShapeExpr N P → Option (List (TExpr N P))
  | 0, _ => some []
  | n + 1, se =>
    match se with
    | .shape s => some [s.expr]
    | .nodeConstraint c => if (c.matches node (node, none)).isSome then some [] else none
    | .ref j =>
      match sch.mainShape j with
      | none => some []
      | some (ncs, main, rest) =>
        if ncs.all fun c => (c.matches node (node, none)).isSome then
          rest.foldl (fun acc r =>
            match acc, collectConstraint sch node n r with
            | some tes, some tes' => some (tes ++ tes')
            | _, _ => none) (some (main.toList.map Shape.expr))
        else none
    | _ => some []

/-- `check_node_extends_main_shape` (engine.rs:1397-1580). `child` is the shape that extends `i`. A
cycle of EXTENDS does not end; the numeric argument bounds the depth. -/
def Env.checkMainShape (E : Env N P) (node : N) (T : N × Nat → Bool) :
    Nat → Shape N P → Nat → Bool
  | 0, _, _ => false
  | n + 1, child, i =>
    match E.schema.mainShape i with
    | none => false
    | some (ncs, main, rest) =>
      (match main with
        | none => true
        | some m =>
          (if !m.preds.isEmpty && ((components m.expr).all fun c => !condHasRef c.2) &&
              !(child.preds.any fun p => decide (p ∈ m.preds)) then
            let values := (withCtx node (E.neighs node m.preds)).filter fun x =>
              (components m.expr).any fun c =>
                decide (c.1 = x.1) && (c.2.matches x.2.1 x.2.2).isSome
            checkExprNeigh E.enum m.expr values T
          else true) &&
          m.extends.all fun e => E.checkMainShape node T n m e) &&
      (ncs.all fun c => (c.matches node (node, none)).isSome) &&
      rest.all fun se =>
        match se with
        | .ref j =>
          match E.schema.mainShape j with
          | none => true
          | some (ncs', _, _) => ncs'.all fun c => (c.matches node (node, none)).isSome
        | _ => true

/-- The buckets and constraints of the ancestors (engine.rs:750-789): `none` when a conjunct fails.
The map is keyed by ancestor; the closure lists each ancestor once. -/
def Env.ancestorBuckets (E : Env N P) (node : N) :
    List Nat → Option (List (Option Nat × List (TExpr N P)) × List (List Nat × List (TExpr N P)))
  | [] => some ([], [])
  | a :: as =>
    match E.schema.mainShape a with
    | none => E.ancestorBuckets node as
    | some (ncs, main, rest) =>
      let depth := E.schema.shapes.length + 1
      let tes := rest.foldl (fun acc se =>
        match acc, collectConstraint E.schema node depth se with
        | some tes, some tes' => some (tes ++ tes')
        | _, _ => none) (some [])
      match tes with
      | none => none
      | some tes =>
        if ncs.all fun c => (c.matches node (node, none)).isSome then
          (E.ancestorBuckets node as).map fun r =>
            ((main.toList.map fun m => (some a, [m.expr])) ++ r.1,
              if tes.isEmpty then r.2
              else (a :: (main.toList.flatMap fun m => E.schema.extendsClosure m.extends), tes) :: r.2)
        else none

/-- The path of `check_node_shape_extends` for parents with one alternative each
(engine.rs:709-1047). -/
def Env.checkSingle (E : Env N P) (S : Search N P) (node : N) (i : Nat) (s : Shape N P)
    (T : N × Nat → Bool) : Bool :=
  let preds := addPreds (E.schema.predsExtends i) s.extra
  if s.closed && !(E.graph.remainder node preds).isEmpty then false
  else
    match E.ancestorBuckets node (E.schema.extendsClosure s.extends) with
    | none => false
    | some (abuckets, splits) =>
      let buckets := (none, [s.expr]) :: abuckets
      let depth := E.schema.shapes.length + 1
      let ancestorExprs :=
        (collectOver (collectExprs E.schema depth) (abuckets.filterMap Prod.fst) []).1 ++ [s.expr]
      let values := (withCtx node (E.neighs node preds)).filter fun x =>
        matchesSomeBucket buckets x ||
          (decide (x.1 ∉ s.extra) &&
            !(ancestorExprs.any fun t => (components t).any fun c =>
              decide (c.1 = x.1) && (c.2.matches x.2.1 x.2.2).isSome))
      if !(s.extends.all fun e => E.checkMainShape node T depth s e) then false
      else if !guardOk buckets values then false
      else searchPartitions S E.enum buckets splits values T

/-- `check_node_shape_extends` (engine.rs:677-1047). The recursion goes through the constraints of
selections; it does not end for cyclic hierarchies, and the first argument bounds its depth. -/
def Env.checkExtends (E : Env N P) (S : Search N P) : Nat → Ext N P
  | 0 => fun _ _ _ _ => false
  | n + 1 => fun node i s T =>
    let parents := s.extends.map E.schema.alternatives
    if parents.any fun alts => decide (alts.length > 1) then
      ((checkSelections (E.checkSelection S (E.checkExtends S n) node s T) parents).map
        Prod.fst).getD false
    else E.checkSingle S node i s T

end Check

end Shex
