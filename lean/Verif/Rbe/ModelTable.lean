import Verif.Rbe.ModelFeas

/-!
# Model of pending references, matching conditions and tables (rbe crate)

`IndexMap`s are association lists in insertion order, `IndexSet`s are lists without
duplicates. `Result<Pending, RbeError>` is `Option (Pending ..)`: error payloads are dropped.
-/

namespace Rbe

/-- Replace the value of the first entry for `x` by `f` of it, or append an entry
`(x, f dflt)`: `IndexMap::entry(x).or_default()` followed by a mutation. -/
def upsert {X Y : Type} [DecidableEq X] (x : X) (dflt : Y) (f : Y → Y) : List (X × Y) → List (X × Y)
  | [] => [(x, f dflt)]
  | (y, v) :: rest => if y = x then (y, f v) :: rest else (y, v) :: upsert x dflt f rest

/-- `IndexMap::get`. -/
def alookup {X Y : Type} [DecidableEq X] (x : X) : List (X × Y) → Option Y
  | [] => none
  | (y, v) :: rest => if y = x then some v else alookup x rest

/-- `IndexSet::insert`. -/
def sinsert {X : Type} [DecidableEq X] (x : X) (s : List X) : List X :=
  if x ∈ s then s else s ++ [x]

/-- `struct Pending` (rbe/src/pending.rs:8-15). -/
abbrev Pending (K V R : Type) := List (V × List (R × List K))

namespace Pending
variable {K V R : Type} [DecidableEq K] [DecidableEq V] [DecidableEq R]

/-- `Pending::empty` (rbe/src/pending.rs:29-31). -/
def empty : Pending K V R := []

/-- `Pending::insert` (rbe/src/pending.rs:69-74). -/
def insert (p : Pending K V R) (v : V) (r : R) : Pending K V R :=
  upsert v [] (fun rm => upsert r [] id rm) p

/-- `Pending::from_pair` (rbe/src/pending.rs:33-37). -/
def fromPair (v : V) (r : R) : Pending K V R := insert empty v r

/-- The inner loop of `merge` (rbe/src/pending.rs:60-62). -/
def mergeRefs (self other : List (R × List K)) : List (R × List K) :=
  other.foldl (fun s e => upsert e.1 [] (fun ks => e.2.foldl (fun acc k => sinsert k acc) ks) s) self

/-- `Pending::merge` (rbe/src/pending.rs:57-64). -/
def merge (self other : Pending K V R) : Pending K V R :=
  List.foldl (fun s e => upsert e.1 [] (fun rs => mergeRefs rs e.2) s) self other

/-- `Pending::annotate_key` (rbe/src/pending.rs:120-126). -/
def annotateKey (p : Pending K V R) (k : K) : Pending K V R :=
  List.map (fun e => (e.1, e.2.map fun f => (f.1, sinsert k f.2))) p

end Pending

/-- `enum MatchCond` (rbe/src/match_cond.rs:41-52). A `SingleCond` (match_cond.rs:141-155) is
its optional payload, given by the function `MatchKind::eval`. -/
inductive Cond (K V C R : Type) where
  | single (kind : Option (V → C → Option (Pending K V R)))
  | ref (r : R)
  | and (conds : List (Cond K V C R))

namespace Cond
variable {K V C R : Type} [DecidableEq K] [DecidableEq V] [DecidableEq R]

mutual
/-- `MatchCond::matches` (rbe/src/match_cond.rs:78-88) and `SingleCond::matches`
(match_cond.rs:191-196). -/
def «matches» (value : V) (ctx : C) : Cond K V C R → Option (Pending K V R)
  | .single (some kind) => kind value ctx
  | .single none => some Pending.empty
  | .ref r => some (Pending.fromPair value r)
  | .and vs => matchesAll value ctx Pending.empty vs
/-- The `try_fold` over the conjuncts (rbe/src/match_cond.rs:82-86). -/
def matchesAll (value : V) (ctx : C) (cur : Pending K V R) :
    List (Cond K V C R) → Option (Pending K V R)
  | [] => some cur
  | c :: cs =>
    match «matches» value ctx c with
    | none => none
    | some p => matchesAll value ctx (cur.merge p) cs
end

end Cond

namespace Expr
variable {A B : Type}

mutual
/-- Structure-preserving conversion of expressions, as in `cnv_rbe` (rbe/src/empty_iter.rs:75-118). -/
def map (f : A → B) : Expr A → Expr B
  | .fail => .fail
  | .empty => .empty
  | .symbol v c => .symbol (f v) c
  | .and vs => .and (mapList f vs)
  | .or vs => .or (mapList f vs)
  | .star v => .star (map f v)
  | .plus v => .plus (map f v)
  | .repeat v c => .repeat (map f v) c
/-- `values.iter().map(|c| cnv_rbe(c, table))` (rbe/src/empty_iter.rs:86, 90). -/
def mapList (f : A → B) : List (Expr A) → List (Expr B)
  | [] => []
  | v :: vs => map f v :: mapList f vs
end

mutual
/-- `RbeCond::nullable` (rbe/src/rbe_cond.rs:188-201). An `RbeCond` is an `Expr` whose symbols
are pairs of a key and a condition. -/
def condNullable : Expr A → Bool
  | .fail => false
  | .empty => true
  | .symbol _ c => c.nullable
  | .and vs => condNullableAll vs
  | .or vs => condNullableAny vs
  | .star _ => true
  | .plus v => condNullable v
  | .repeat v c => if c.min = 0 then true else condNullable v
/-- `exprs.iter().all(|v| v.nullable())` (rbe/src/rbe_cond.rs:194). -/
def condNullableAll : List (Expr A) → Bool
  | [] => true
  | v :: vs => condNullable v && condNullableAll vs
/-- `exprs.iter().any(|v| v.nullable())` (rbe/src/rbe_cond.rs:195). -/
def condNullableAny : List (Expr A) → Bool
  | [] => false
  | v :: vs => condNullable v || condNullableAny vs
end

end Expr

/-- `struct RbeTable` (rbe/src/rbe_table.rs:30-53). A `Component` is a natural number
(rbe/src/component.rs). -/
structure Table (K V C R : Type) where
  rbe : Struct Nat
  keyComponents : List (K × List Nat)
  componentCond : List (Nat × Cond K V C R)
  componentKey : List (Nat × K)
  «open» : Bool
  counter : Nat

/-- A candidate: key, value, context, component and condition
(`IterState`, rbe/src/rbe_table.rs:463). -/
structure Cand (K V C R : Type) where
  key : K
  value : V
  ctx : C
  comp : Nat
  cond : Cond K V C R

/-- All ways of choosing one element of each list, in lexicographic order:
`multi_cartesian_product` of itertools, as used in rbe/src/rbe_table.rs:268. -/
def product {T : Type} : List (List T) → List (List T)
  | [] => [[]]
  | l :: ls => l.flatMap fun x => (product ls).map (x :: ·)

namespace Table
variable {K V C R : Type} [DecidableEq K] [DecidableEq V] [DecidableEq R]

/-- `RbeTable::new` / `default` (rbe/src/rbe_table.rs:63-72, 83-85). -/
def new : Table K V C R := ⟨Struct.empty, [], [], [], false, 0⟩

/-- `RbeTable::get_condition` (rbe/src/rbe_table.rs:87-89). -/
def getCondition (t : Table K V C R) (c : Nat) : Option (Cond K V C R) := alookup c t.componentCond

/-- `RbeTable::get_key` (rbe/src/rbe_table.rs:91-93). -/
def getKey (t : Table K V C R) (c : Nat) : Option K := alookup c t.componentKey

/-- `RbeTable::add_component` (rbe/src/rbe_table.rs:135-152); the returned component is the old
`counter`. -/
def addComponent (t : Table K V C R) (k : K) (cond : Cond K V C R) : Table K V C R :=
  { t with
    keyComponents := upsert k [] (fun vs => sinsert t.counter vs) t.keyComponents
    componentCond := upsert t.counter cond (fun _ => cond) t.componentCond
    componentKey := upsert t.counter k (fun _ => k) t.componentKey
    counter := t.counter + 1 }

/-- `RbeTable::with_rbe` (rbe/src/rbe_table.rs:154-156). -/
def withRbe (t : Table K V C R) (rbe : Struct Nat) : Table K V C R := { t with rbe := rbe }

/-- `self.key_components.get(key).unwrap_or(&cs_empty)` (rbe/src/rbe_table.rs:200). -/
def componentsOf (t : Table K V C R) (k : K) : List Nat := (alookup k t.keyComponents).getD []

/-- `component_cond.get(component)` present and `cond.matches(value, ctx).is_ok()`
(rbe/src/rbe_table.rs:169-171). -/
def condOk (t : Table K V C R) (v : V) (ctx : C) (c : Nat) : Bool :=
  match t.getCondition c with
  | some cond => (cond.matches v ctx).isSome
  | none => false

/-- The counts `hi` of `feasible_neighs` (rbe/src/rbe_table.rs:165-176), read at component `c`:
one for every triple and every component of its key equal to `c` whose condition matches. -/
def hiCount (t : Table K V C R) (values : List (K × V × C)) (c : Nat) : Nat :=
  match values with
  | [] => 0
  | (k, v, ctx) :: rest =>
    ((t.componentsOf k).filter fun d => decide (d = c) && t.condOk v ctx d).length +
      hiCount t rest c

/-- `RbeTable::feasible_neighs` (rbe/src/rbe_table.rs:164-179). -/
def feasibleNeighs (t : Table K V C R) (values : List (K × V × C)) : Bool :=
  t.rbe.rbe.feasible (fun _ => 0) (t.hiCount values)

/-- The body of the first loop of `matches` (rbe/src/rbe_table.rs:199-233): the candidates of one
triple. `component_cond.get(component).unwrap()` would panic on a component without condition;
here such a component is skipped, which never happens in tables built with `add_component`. -/
def candidates (t : Table K V C R) (x : K × V × C) : List (Cand K V C R) :=
  let cs := (t.componentsOf x.1).filterMap fun c =>
    (t.getCondition c).map fun cond => ⟨x.1, x.2.1, x.2.2, c, cond⟩
  if (t.componentsOf x.1).length > 1 then
    cs.filter fun cand => (cand.cond.matches x.2.1 x.2.2).isSome
  else cs

/-- The loop over one combination in `IterCartesianProduct::next`
(rbe/src/rbe_table.rs:532-552): the merged pending references or the first failing condition. -/
def evalCands (cur : Pending K V R) : List (Cand K V C R) → Option (Pending K V R)
  | [] => some cur
  | x :: xs =>
    match x.cond.matches x.value x.ctx with
    | none => none
    | some p => evalCands (cur.merge (p.annotateKey x.key)) xs

/-- One combination in `IterCartesianProduct::next` (rbe/src/rbe_table.rs:530-567): an error item
`some none`, a success item, or nothing when the bag of components is rejected. The function
`enum` gives the entries of `Bag::from_iter` in the order of the hash table. -/
def step (t : Table K V C R) (enum : List Nat → List (Nat × Nat)) (vs : List (Cand K V C R)) :
    Option (Option (Pending K V R)) :=
  match evalCands Pending.empty vs with
  | none => some none
  | some p =>
    if t.rbe.matchBagInterval (enum (vs.map Cand.comp)) t.open then some (some p) else none

/-- `EmptyIter::next` driven to exhaustion (rbe/src/empty_iter.rs:52-73). `cnv_rbe` looks up key
and condition of each component; a component that was never registered makes it panic, which is
not modelled (`none` is stored instead). -/
def emptyItems (t : Table K V C R) : List (Option (Pending K V R)) :=
  let e := t.rbe.rbe.map fun c => (t.getKey c, t.getCondition c)
  [if e.condNullable then some Pending.empty else none]

/-- All items of the iterator returned by `RbeTable::matches` (rbe/src/rbe_table.rs:181-281,
`MatchTableIter::next` 419-424, `IterCartesianProduct::next` 517-569): `none` is an error item,
`some p` a success with pending references `p`. -/
def items (t : Table K V C R) (enum : List Nat → List (Nat × Nat)) (values : List (K × V × C)) :
    List (Option (Pending K V R)) :=
  let cands := values.map t.candidates
  let pairsFound := (cands.map List.length).sum
  if cands.isEmpty || pairsFound == 0 then t.emptyItems
  else (product cands).filterMap (t.step enum)

end Table
end Rbe
