/-!
# Model of the `rbe` crate: bounds, intervals and regular bag expressions

Simplifications: `usize` is `Nat`; error payloads (`DerivError`) are dropped, so the
`Fail` constructor carries nothing and `Result<(), _>` is `Bool`; a `HashSet` of
symbols is a list of which only membership is used; a `Bag` is the list of
`(symbol, count)` entries yielded by its `set_iter` (bag.rs:45-47), in an arbitrary order.
-/

namespace Rbe

/-- `enum Max` (rbe/src/max.rs:10-13). -/
inductive Mx where
  | unbounded
  | intMax (n : Nat)
deriving DecidableEq, Repr

namespace Mx

/-- `Max::minus` (rbe/src/max.rs:18-28). -/
def minus : Mx → Nat → Mx
  | unbounded, _ => unbounded
  | intMax 0, _ => intMax 0
  | intMax m, n => intMax (if m > n then m - n else 0)

/-- `Max::greater_or_equal` (rbe/src/max.rs:30-35). -/
def geq : Mx → Nat → Bool
  | intMax m, n => decide (m ≥ n)
  | unbounded, _ => true

/-- `Max::greater_than` (rbe/src/max.rs:38-45). -/
def gt : Mx → Mx → Bool
  | unbounded, unbounded => false
  | unbounded, intMax _ => true
  | intMax _, unbounded => false
  | intMax a, intMax b => decide (a > b)

/-- `Max::max` (rbe/src/max.rs:48-53). -/
def sup : Mx → Mx → Mx
  | unbounded, _ => unbounded
  | _, unbounded => unbounded
  | intMax a, intMax b => intMax (Nat.max a b)

/-- `Max::min` (rbe/src/max.rs:56-64). -/
def inf : Mx → Mx → Mx
  | unbounded, o => o
  | intMax m, unbounded => intMax m
  | intMax m, intMax n => intMax (Nat.min m n)

/-- `Max::plus` (rbe/src/max.rs:67-72). Overflow of `usize` addition is not modelled. -/
def plus : Mx → Mx → Mx
  | unbounded, _ => unbounded
  | _, unbounded => unbounded
  | intMax a, intMax b => intMax (a + b)

/-- `Max::div_up` (rbe/src/max.rs:75-84). `v.div_ceil(m)` is `(v + m - 1) / m`. -/
def divUp : Mx → Nat → Mx
  | _, 0 => intMax 0
  | unbounded, _ => intMax 1
  | intMax 0, _ => unbounded
  | intMax m, v => intMax ((v + m - 1) / m)

/-- `Max::div_down` (rbe/src/max.rs:87-97). -/
def divDown : Mx → Nat → Mx
  | intMax 0, 0 => unbounded
  | _, 0 => intMax 0
  | unbounded, _ => intMax 1
  | intMax 0, _ => unbounded
  | intMax m, v => intMax (v / m)

end Mx

/-- `struct Cardinality` (rbe/src/cardinality.rs:8-12); `Min` (rbe/src/min.rs:10-13) is
its `value : usize`. -/
structure Card where
  min : Nat
  max : Mx
deriving DecidableEq, Repr

namespace Card

/-- `Cardinality::nullable` (rbe/src/cardinality.rs:19-21). -/
def nullable (c : Card) : Bool := c.min == 0

/-- `Cardinality::is_0_0` (rbe/src/cardinality.rs:23-25). -/
def is00 (c : Card) : Bool := c.min == 0 && c.max == Mx.intMax 0

/-- `Cardinality::is_1_1` (rbe/src/cardinality.rs:27-29). -/
def is11 (c : Card) : Bool := c.min == 1 && c.max == Mx.intMax 1

/-- `Cardinality::contains` (rbe/src/cardinality.rs:39-41). -/
def contains (c : Card) (n : Nat) : Bool := decide (n ≥ c.min) && c.max.geq n

/-- `Cardinality::minus` (rbe/src/cardinality.rs:43-56); `saturating_sub` is `Nat.sub`. -/
def minus (c : Card) (n : Nat) : Card := ⟨c.min - n, c.max.minus n⟩

end Card

/-- `struct Interval` (rbe/src/interval.rs:6-10). -/
structure Interval where
  n : Mx
  m : Mx
deriving DecidableEq, Repr

namespace Interval

/-- `Interval::fail` (rbe/src/interval.rs:18-23). -/
def fail : Interval := ⟨.intMax 1, .intMax 0⟩

/-- `Interval::zero_any` (rbe/src/interval.rs:25-30). -/
def zeroAny : Interval := ⟨.intMax 0, .unbounded⟩

/-- `Interval::zero_zero` (rbe/src/interval.rs:32-37). -/
def zeroZero : Interval := ⟨.intMax 0, .intMax 0⟩

/-- `Interval::one_any` (rbe/src/interval.rs:39-44). -/
def oneAny : Interval := ⟨.intMax 1, .unbounded⟩

/-- `Interval::is_empty` (rbe/src/interval.rs:48-50). -/
def isEmpty (i : Interval) : Bool := i.n == .unbounded || i.n.gt i.m

/-- `Interval::contains` (rbe/src/interval.rs:53-59). -/
def contains (i : Interval) (v : Nat) : Bool :=
  (match i.n with
   | .unbounded => false
   | .intMax n => decide (v ≥ n)) && i.m.geq v

/-- `Interval::intersection` (rbe/src/interval.rs:62-66). -/
def inter (i j : Interval) : Interval := ⟨i.n.sup j.n, i.m.inf j.m⟩

/-- `Interval::addition` (rbe/src/interval.rs:69-74). -/
def add (i j : Interval) : Interval := ⟨i.n.plus j.n, i.m.plus j.m⟩

end Interval

/-- `enum Rbe<A>` (rbe/src/rbe.rs:30-59). The error carried by `Fail` is dropped. -/
inductive Expr (A : Type) where
  | fail
  | empty
  | symbol (value : A) (card : Card)
  | and (values : List (Expr A))
  | or (values : List (Expr A))
  | star (value : Expr A)
  | plus (value : Expr A)
  | repeat (value : Expr A) (card : Card)

namespace Expr

variable {A : Type}

/-- Induction over expressions with a hypothesis for every element of a list. -/
theorem ind {P : Expr A → Prop}
    (hfail : P .fail) (hempty : P .empty)
    (hsym : ∀ v c, P (.symbol v c))
    (hand : ∀ vs, (∀ v ∈ vs, P v) → P (.and vs))
    (hor : ∀ vs, (∀ v ∈ vs, P v) → P (.or vs))
    (hstar : ∀ v, P v → P (.star v))
    (hplus : ∀ v, P v → P (.plus v))
    (hrep : ∀ v c, P v → P (.repeat v c)) : ∀ e, P e := by
  intro e
  refine Expr.rec (motive_1 := P) (motive_2 := fun vs => ∀ v ∈ vs, P v)
    hfail hempty hsym hand hor hstar hplus (fun v c h => hrep v c h) ?_ ?_ e
  · intro v hv; cases hv
  · intro v vs hv hvs w hw
    cases hw with
    | head => exact hv
    | tail _ h => exact hvs w h

section Beq
variable [DecidableEq A]

mutual
/-- Derived `PartialEq` of `Rbe` (rbe/src/rbe.rs:29). With payloads dropped any two
`Fail`s are equal; it is used only in `mk_or` (rbe.rs:540). -/
def beq : Expr A → Expr A → Bool
  | .fail, .fail => true
  | .empty, .empty => true
  | .symbol v c, .symbol w d => decide (v = w) && decide (c = d)
  | .and vs, .and ws => beqList vs ws
  | .or vs, .or ws => beqList vs ws
  | .star v, .star w => beq v w
  | .plus v, .plus w => beq v w
  | .repeat v c, .repeat w d => beq v w && decide (c = d)
  | _, _ => false
/-- Element-wise equality of two `Vec<Rbe>` (derived `PartialEq`, rbe/src/rbe.rs:29). -/
def beqList : List (Expr A) → List (Expr A) → Bool
  | [], [] => true
  | v :: vs, w :: ws => beq v w && beqList vs ws
  | _, _ => false
end

end Beq

mutual
/-- `Rbe::symbols` / `symbols_aux` (rbe/src/rbe.rs:197-201, 230-253); a list instead of a
`HashSet`, so a symbol may be listed several times. -/
def symbols : Expr A → List A
  | .fail => []
  | .empty => []
  | .symbol v _ => [v]
  | .and vs => symbolsList vs
  | .or vs => symbolsList vs
  | .star v => symbols v
  | .plus v => symbols v
  | .repeat v _ => symbols v
/-- The `for_each` loops of `symbols_aux` (rbe/src/rbe.rs:238-243). -/
def symbolsList : List (Expr A) → List A
  | [] => []
  | v :: vs => symbols v ++ symbolsList vs
end

mutual
/-- `Rbe::symbol_cardinalities` (rbe/src/rbe.rs:210-228). -/
def symbolCards : Expr A → List (A × Card)
  | .fail => []
  | .empty => []
  | .symbol v c => [(v, c)]
  | .and vs => symbolCardsList vs
  | .or vs => symbolCardsList vs
  | .star v => symbolCards v
  | .plus v => symbolCards v
  | .repeat v _ => symbolCards v
/-- The loop over `values` in `symbol_cardinalities_aux` (rbe/src/rbe.rs:220-224). -/
def symbolCardsList : List (Expr A) → List (A × Card)
  | [] => []
  | v :: vs => symbolCards v ++ symbolCardsList vs
end

/-- `type MandatoryValues` (rbe/src/rbe.rs:65): `Left` is the list of errors (only their
number is kept), `Right` the list of mandatory symbols. -/
inductive Mand (A : Type) where
  | left (errors : Nat)
  | right (values : List A)

/-- Number of errors pushed by the loop over partial results (rbe/src/rbe.rs:308-312). -/
def Mand.errs : List (Mand A) → Nat
  | [] => 0
  | .left n :: rs => n + errs rs
  | .right _ :: rs => errs rs

/-- Values pushed by the loop over partial results (rbe/src/rbe.rs:308-312). -/
def Mand.vals : List (Mand A) → List A
  | [] => []
  | .left _ :: rs => vals rs
  | .right vs :: rs => vs ++ vals rs

/-- The test `matches!(r, Either::Right(vs) if vs.is_empty())` (rbe/src/rbe.rs:321, 349). -/
def Mand.isRightNil : Mand A → Bool
  | .right [] => true
  | _ => false

mutual
/-- `Rbe::mandatory_values` (rbe/src/rbe.rs:298-344). -/
def mandatory : Expr A → Mand A
  | .fail => .left 1
  | .empty => .right []
  | .symbol v c => if c.nullable then .right [] else .right [v]
  | .and vs =>
    let rs := mandatoryList vs
    if Mand.errs rs = 0 then .right (Mand.vals rs) else .left (Mand.errs rs)
  | .or vs =>
    let rs := mandatoryList vs
    if rs.any Mand.isRightNil then .right []
    else if (Mand.vals rs).isEmpty then .left (Mand.errs rs) else .right (Mand.vals rs)
  | .star _ => .right []
  | .plus v => mandatory v
  | .repeat v c => if c.min = 0 then .right [] else mandatory v
/-- `values.iter().map(|v| v.mandatory_values())` (rbe/src/rbe.rs:307, 320). -/
def mandatoryList : List (Expr A) → List (Mand A)
  | [] => []
  | v :: vs => mandatory v :: mandatoryList vs
end

/-- `Rbe::is_nullable` (rbe/src/rbe.rs:348-350). -/
def isNullable (e : Expr A) : Bool := (mandatory e).isRightNil

/-- `Rbe::is_fail` (rbe/src/rbe.rs:102-104). -/
def isFail : Expr A → Bool
  | .fail => true
  | _ => false

/-- `Rbe::bigger` (rbe/src/rbe.rs:550-555). -/
def bigger (mn : Nat) : Mx → Bool
  | .unbounded => false
  | .intMax m => decide (mn > m)

/-- `Rbe::mk_range` (rbe/src/rbe.rs:462-485). -/
def mkRange (e : Expr A) (c : Card) : Expr A :=
  if bigger c.min c.max then .fail
  else if c.is00 then .empty
  else if c.is11 then e
  else match e with
    | .fail => .fail
    | .empty => .empty
    | e => .repeat e c

/-- `Rbe::mk_range_symbol` (rbe/src/rbe.rs:487-504). -/
def mkRangeSymbol (x : A) (c : Card) : Expr A :=
  if bigger c.min c.max then .fail else .symbol x c

/-- `Rbe::mk_and` (rbe/src/rbe.rs:506-519). -/
def mkAnd : Expr A → Expr A → Expr A
  | .empty, v2 => v2
  | v1, .empty => v1
  | .fail, _ => .fail
  | _, .fail => .fail
  | v1, v2 => .and [v1, v2]

section Deriv
variable [DecidableEq A]

/-- `Rbe::mk_or` (rbe/src/rbe.rs:534-548). -/
def mkOr : Expr A → Expr A → Expr A
  | .fail, v2 => v2
  | v1, .fail => v1
  | e1, e2 => if beq e1 e2 then e1 else .or [e1, e2]

/-- `Rbe::mk_or_values` (rbe/src/rbe.rs:521-532). -/
def mkOrValues (vs : List (Expr A)) : Expr A := vs.foldl mkOr .fail

/-- `DerivN::next` driven to exhaustion (rbe/src/deriv_n.rs:40-87): for each position whose
derivative exists, the source vector with that position replaced. The source after `pre`
is given as pairs of an element and the result of the derivative closure. -/
def derivN {T : Type} (pre : List T) : List (T × Option T) → List (List T)
  | [] => []
  | (t, none) :: rest => derivN (pre ++ [t]) rest
  | (t, some d) :: rest => (pre ++ d :: rest.map Prod.fst) :: derivN (pre ++ [t]) rest

/-- The closure passed to `deriv_n` (rbe/src/rbe.rs:436-445): `Fail` becomes `None`. -/
def notFail : Expr A → Option (Expr A)
  | .fail => none
  | d => some d

/-- The final `match or_values.len()` of `Rbe::deriv_and` (rbe/src/rbe.rs:448-459). -/
def orOfAnds : List (List (Expr A)) → Expr A
  | [] => .fail
  | [vs] => .and vs
  | vss => .or (vss.map .and)

mutual
/-- `Rbe::deriv` (rbe/src/rbe.rs:352-430). -/
def deriv (op : Bool) (ctl : List A) (x : A) (n : Nat) : Expr A → Expr A
  | .fail => .fail
  | .empty => if op && !decide (x ∈ ctl) then .empty else .fail
  | .symbol v c =>
    if x = v then
      if c.max = .intMax 0 then .fail
      else if c.max.geq n then mkRangeSymbol x (c.minus n)
      else .fail
    else if op && !decide (x ∈ ctl) then .symbol v c
    else .fail
  | .and vs => orOfAnds (derivN [] (derivPairs op ctl x n vs))
  | .or vs => mkOrValues (derivList op ctl x n vs)
  | .plus v => mkAnd (deriv op ctl x n v) (.star v)
  | .repeat v c =>
    if c.is00 then
      if isNullable (deriv op ctl x n v) then .fail else .empty
    else mkAnd (deriv op ctl x n v) (mkRange v (c.minus n))
  | .star v =>
    if op && !decide (x ∈ ctl) then .star v
    else mkAnd (deriv op ctl x n v) (.star v)
/-- `values.iter().map(|rbe| rbe.deriv(..))` (rbe/src/rbe.rs:397). -/
def derivList (op : Bool) (ctl : List A) (x : A) (n : Nat) : List (Expr A) → List (Expr A)
  | [] => []
  | v :: vs => deriv op ctl x n v :: derivList op ctl x n vs
/-- The elements of an `And` with the result of the closure of `deriv_and`
(rbe/src/rbe.rs:436-445). -/
def derivPairs (op : Bool) (ctl : List A) (x : A) (n : Nat) :
    List (Expr A) → List (Expr A × Option (Expr A))
  | [] => []
  | v :: vs => (v, notFail (deriv op ctl x n v)) :: derivPairs op ctl x n vs
end

/-- Inner loop `for _ in 0..count` of `deriv_bag` (rbe/src/rbe.rs:263-285): one derivative
per occurrence, leaving the loop with `Fail` at the first failure. -/
def derivTimes (op : Bool) (ctl : List A) (x : A) : Nat → Expr A → Expr A
  | 0, cur => cur
  | k + 1, cur =>
    match deriv op ctl x 1 cur with
    | .fail => .fail
    | d => derivTimes op ctl x k d

/-- `Rbe::deriv_bag` (rbe/src/rbe.rs:259-292): `bag` is the sequence of entries yielded by
`Bag::iter`. The `processed` bag only feeds error messages and is dropped. -/
def derivBag (op : Bool) (ctl : List A) : List (A × Nat) → Expr A → Expr A
  | [], cur => cur
  | (x, k) :: rest, cur =>
    match derivTimes op ctl x k cur with
    | .fail => .fail
    | d => derivBag op ctl rest d

/-- `Rbe::match_bag_deriv` (rbe/src/rbe.rs:71-89); `true` stands for `Ok(())`. -/
def matchBagDeriv (e : Expr A) (bag : List (A × Nat)) (op : Bool) : Bool :=
  match derivBag op (symbols e) bag e with
  | .fail => false
  | d => isNullable d

end Deriv

/-- `Bag::contains` (rbe/src/bag.rs:33-35) on the entry list. -/
def bagCount [DecidableEq A] (bag : List (A × Nat)) (x : A) : Nat :=
  match bag with
  | [] => 0
  | (y, k) :: rest => (if y = x then k else 0) + bagCount rest x

section Interval
variable [DecidableEq A]

/-- `Rbe::no_symbols_in_bag` (rbe/src/rbe.rs:255-257). The bag is its count function. -/
def noSymbolsInBag (e : Expr A) (cnt : A → Nat) : Bool :=
  (symbols e).all fun s => cnt s == 0

mutual
/-- `Rbe::interval` (rbe/src/rbe.rs:106-195). The bag is its count function `Bag::contains`. -/
def interval (cnt : A → Nat) : Expr A → Interval
  | .fail => .fail
  | .empty => .zeroAny
  | .symbol v c => ⟨c.max.divUp (cnt v), (Mx.intMax c.min).divDown (cnt v)⟩
  | .and vs => intervalAnd cnt .zeroAny vs
  | .or vs => intervalOr cnt .zeroZero vs
  | .star v =>
    if noSymbolsInBag (.star v) cnt then .zeroAny
    else
      let i := interval cnt v
      if i.isEmpty then i else .oneAny
  | .plus v =>
    if noSymbolsInBag (.plus v) cnt then
      if isNullable v then .zeroAny else .zeroZero
    else
      let i := interval cnt v
      if i.isEmpty then i else ⟨.intMax 1, i.m⟩
  | .repeat v c =>
    if noSymbolsInBag (.repeat v c) cnt then
      if c.nullable || isNullable v then .zeroAny else .zeroZero
    else
      let i := interval cnt v
      if i.isEmpty then i
      else if (i.inter ⟨.intMax c.min, c.max⟩).isEmpty then .fail
      else ⟨.intMax 1, .intMax 1⟩
/-- The fold over the branches of an `And` (rbe/src/rbe.rs:117-120). -/
def intervalAnd (cnt : A → Nat) (acc : Interval) : List (Expr A) → Interval
  | [] => acc
  | v :: vs => intervalAnd cnt (acc.inter (interval cnt v)) vs
/-- The fold over the branches of an `Or` (rbe/src/rbe.rs:127-138). -/
def intervalOr (cnt : A → Nat) (acc : Interval) : List (Expr A) → Interval
  | [] => acc
  | v :: vs =>
    intervalOr cnt
      (if acc.isEmpty then acc
       else if (interval cnt v).isEmpty then .fail
       else acc.add (interval cnt v)) vs
end

end Interval

end Expr

/-- `struct RbeStruct<A>` (rbe/src/rbe_struct.rs:9-16). -/
structure Struct (A : Type) where
  rbe : Expr A
  symbols : List A
  hasRepeats : Bool

namespace Struct
variable {A : Type}

/-- `RbeStruct::empty` (rbe/src/rbe_struct.rs:128-134). -/
def empty : Struct A := ⟨.empty, [], false⟩

/-- `RbeStruct::symbol` (rbe/src/rbe_struct.rs:136-148). -/
def symbol (x : A) (min : Nat) (max : Mx) : Struct A := ⟨.symbol x ⟨min, max⟩, [x], false⟩

/-- Inner loop of `has_symbol_overlap` (rbe/src/rbe_struct.rs:229-234) for one item: the new
`seen` set, or `none` when an already seen symbol is met. The symbols of one item are
a set, so an item never collides with itself; `seen` is only extended after the scan. -/
def overlapItem [DecidableEq A] (seen : List A) (syms : List A) : Option (List A) :=
  if syms.any (fun s => decide (s ∈ seen)) then none else some (syms ++ seen)

/-- `RbeStruct::has_symbol_overlap` (rbe/src/rbe_struct.rs:227-237). -/
def overlap [DecidableEq A] (seen : List A) : List (List A) → Bool
  | [] => false
  | s :: ss =>
    match overlapItem seen s with
    | none => true
    | some seen' => overlap seen' ss

/-- `RbeStruct::or` (rbe/src/rbe_struct.rs:150-163). -/
def or [DecidableEq A] (items : List (Struct A)) : Struct A :=
  ⟨.or (items.map Struct.rbe), items.flatMap Struct.symbols,
   items.any Struct.hasRepeats || overlap [] (items.map Struct.symbols)⟩

/-- `RbeStruct::and` (rbe/src/rbe_struct.rs:165-178). -/
def and [DecidableEq A] (items : List (Struct A)) : Struct A :=
  ⟨.and (items.map Struct.rbe), items.flatMap Struct.symbols,
   items.any Struct.hasRepeats || overlap [] (items.map Struct.symbols)⟩

/-- `RbeStruct::opt` (rbe/src/rbe_struct.rs:180-188). -/
def opt (v : Struct A) : Struct A := ⟨.or [v.rbe, .empty], v.symbols, v.hasRepeats⟩

/-- `RbeStruct::plus` (rbe/src/rbe_struct.rs:190-196). -/
def plus (v : Struct A) : Struct A := ⟨.plus v.rbe, v.symbols, v.hasRepeats⟩

/-- `RbeStruct::star` (rbe/src/rbe_struct.rs:198-204). -/
def star (v : Struct A) : Struct A := ⟨.star v.rbe, v.symbols, v.hasRepeats⟩

/-- `RbeStruct::repeat` (rbe/src/rbe_struct.rs:206-215). -/
def «repeat» (v : Struct A) (min : Nat) (max : Mx) : Struct A :=
  ⟨.repeat v.rbe ⟨min, max⟩, v.symbols, v.hasRepeats⟩

mutual
/-- `impl From<Rbe<A>> for RbeStruct<A>` (rbe/src/rbe_struct.rs:291-316). -/
def ofExpr [DecidableEq A] : Expr A → Struct A
  | .fail => empty
  | .empty => empty
  | .symbol v c => ⟨.symbol v c, [v], false⟩
  | .and vs => Struct.and (ofExprs vs)
  | .or vs => Struct.or (ofExprs vs)
  | .star v => Struct.star (ofExpr v)
  | .plus v => Struct.plus (ofExpr v)
  | .repeat v c => Struct.repeat (ofExpr v) c.min c.max
/-- `values.into_iter().map(Self::from)` (rbe/src/rbe_struct.rs:303-304). -/
def ofExprs [DecidableEq A] : List (Expr A) → List (Struct A)
  | [] => []
  | v :: vs => ofExpr v :: ofExprs vs
end

/-- `RbeStruct::extra_symbols(..).is_empty()` (rbe/src/rbe_struct.rs:122-127). -/
def noExtraSymbols [DecidableEq A] (s : Struct A) (bag : List (A × Nat)) : Bool :=
  bag.all fun p => decide (p.1 ∈ s.symbols)

/-- `RbeStruct::match_bag_deriv` (rbe/src/rbe_struct.rs:42-44). -/
def matchBagDeriv [DecidableEq A] (s : Struct A) (bag : List (A × Nat)) (op : Bool) : Bool :=
  s.rbe.matchBagDeriv bag op

/-- `RbeStruct::match_bag_interval` (rbe/src/rbe_struct.rs:46-65); `true` is `Ok(())`. -/
def matchBagInterval [DecidableEq A] (s : Struct A) (bag : List (A × Nat)) (op : Bool) : Bool :=
  if s.hasRepeats then s.rbe.matchBagDeriv bag op
  else if !op && !s.noExtraSymbols bag then false
  else (s.rbe.interval (Expr.bagCount bag)).contains 1

/-- `enum RbeAlgorithm` (rbe/src/lib.rs:90). -/
inductive Algorithm where
  | derivatives
  | interval

/-- `RbeStruct::match_bag` (rbe/src/rbe_struct.rs:35-40). -/
def matchBag [DecidableEq A] (s : Struct A) (bag : List (A × Nat)) (op : Bool) :
    Algorithm → Bool
  | .derivatives => s.matchBagDeriv bag op
  | .interval => s.matchBagInterval bag op

end Struct

end Rbe
