import Verif.Rbe.ModelTable

/-!
# Model: explanations of failed interval matches, and the conditioned derivative
-/

namespace Rbe

/-- The errors `RbeStruct::match_bag_interval` can return (rbe/src/deriv_error.rs), as far as a
caller can attribute them to a cardinality: `card` is `CardinalityFail`, `multi` is
`CardinalityFailMulti` (the expression paired with each failure is rebuilt from it and dropped),
`extra` is `ExtraSymbolsClosed`, `other` is every error of the derivative matcher and
`IntervalFailed`. The derivative matcher cannot return `CardinalityFail`: it always steps with
`n = 1` (rbe/src/rbe.rs:263-285) and only builds that error when `max` is neither 0 nor ≥ 1
(rbe/src/rbe.rs:369-383). -/
inductive Diag (A : Type) where
  | extra
  | card (symbol : A) (expected : Card) (current : Nat)
  | multi (failures : List (A × Card × Nat))
  | other

namespace Struct
variable {A : Type} [DecidableEq A]

/-- The `filter_map` of `RbeStruct::diagnose_failure` (rbe/src/rbe_struct.rs:76-92). -/
def violations (cnt : A → Nat) (cards : List (A × Card)) : List (A × Card × Nat) :=
  cards.filterMap fun p => if p.2.contains (cnt p.1) then none else some (p.1, p.2, cnt p.1)

/-- `RbeStruct::diagnose_failure` (rbe/src/rbe_struct.rs:75-119). -/
def diagnose (s : Struct A) (cnt : A → Nat) : Diag A :=
  match violations cnt s.rbe.symbolCards with
  | [] => .other
  | [(a, c, n)] => .card a c n
  | vs => .multi vs

/-- `RbeStruct::match_bag_interval` (rbe/src/rbe_struct.rs:46-65) with its error; `none` is
`Ok(())`. -/
def matchReport (s : Struct A) (bag : List (A × Nat)) (op : Bool) : Option (Diag A) :=
  if s.hasRepeats then
    if s.rbe.matchBagDeriv bag op then none else some .other
  else if !op && !s.noExtraSymbols bag then some .extra
  else if (s.rbe.interval (Expr.bagCount bag)).contains 1 then none
  else some (s.diagnose (Expr.bagCount bag))

end Struct

namespace Table
variable {K V C R : Type}

/-- `RbeTable::cardinality_violations` on one `CardinalityFail` (rbe/src/rbe_table.rs:107-114);
`none` is `Err`. -/
def violationOf (t : Table K V C R) (f : Nat × Card × Nat) : Option (List (K × Card × Nat)) :=
  match t.getKey f.1 with
  | some k => some [(k, f.2.1, f.2.2)]
  | none => none

/-- `RbeTable::cardinality_violations` (rbe/src/rbe_table.rs:105-129); `none` is `Err`. -/
def cardinalityViolations (t : Table K V C R) : Diag Nat → Option (List (K × Card × Nat))
  | .card a c n => t.violationOf (a, c, n)
  | .multi fs =>
    let vs := (fs.filterMap t.violationOf).flatten
    if vs.isEmpty then none else some vs
  | .extra => none
  | .other => none

end Table

/-! ## `RbeCond`: derivatives with conditions

`RbeCond<K, V, R, Ctx, P>` (rbe/src/rbe_cond.rs:21-51) is `Expr (K × Q)`, where `Q` stands for
`MatchCond`; `sat q v` is `cond.matches(value, ctx).is_ok()` with `v` holding value and context.
The accumulated `pending` argument does not influence the result and is dropped. -/

namespace Expr
variable {K Q W : Type} [DecidableEq K] [DecidableEq Q]

mutual
/-- `RbeCond::deriv` (rbe/src/rbe_cond.rs:259-355). The Symbol arm has no upper bound test and the
Star arm continues with the body, not with the star. -/
def derivC (sat : Q → W → Bool) (op : Bool) (ctl : List K) (k : K) (w : W) (n : Nat) :
    Expr (K × Q) → Expr (K × Q)
  | .fail => .fail
  | .empty => if op && !decide (k ∈ ctl) then .empty else .fail
  | .symbol v c =>
    if v.1 = k then
      if sat v.2 w then
        if c.max = .intMax 0 then .fail else mkRangeSymbol v (c.minus n)
      else .fail
    else if op && !decide (k ∈ ctl) then .symbol v c
    else .fail
  | .and vs => orOfAnds (derivN [] (derivPairsC sat op ctl k w n vs))
  | .or vs => mkOrValues (derivListC sat op ctl k w n vs)
  | .plus v => mkAnd (derivC sat op ctl k w n v) (.star v)
  | .repeat v c =>
    if c.is00 then
      if condNullable (derivC sat op ctl k w n v) then .fail else .empty
    else mkAnd (derivC sat op ctl k w n v) (mkRange v (c.minus n))
  | .star v => mkAnd (derivC sat op ctl k w n v) v
/-- `exprs.iter().map(|rbe| rbe.deriv(..))` (rbe/src/rbe_cond.rs:325-329). -/
def derivListC (sat : Q → W → Bool) (op : Bool) (ctl : List K) (k : K) (w : W) (n : Nat) :
    List (Expr (K × Q)) → List (Expr (K × Q))
  | [] => []
  | v :: vs => derivC sat op ctl k w n v :: derivListC sat op ctl k w n vs
/-- The elements of an `And` with the result of the closure of `deriv_and`
(rbe/src/rbe_cond.rs:370-379). -/
def derivPairsC (sat : Q → W → Bool) (op : Bool) (ctl : List K) (k : K) (w : W) (n : Nat) :
    List (Expr (K × Q)) → List (Expr (K × Q) × Option (Expr (K × Q)))
  | [] => []
  | v :: vs => (v, notFail (derivC sat op ctl k w n v)) :: derivPairsC sat op ctl k w n vs
end

/-- `RbeCondMatcher::matches_iter` (rbe/src/rbe_cond_matcher.rs:90-121). -/
def derivAllC (sat : Q → W → Bool) (op : Bool) (ctl : List K) :
    List (K × W) → Expr (K × Q) → Expr (K × Q)
  | [], cur => cur
  | (k, w) :: rest, cur =>
    match derivC sat op ctl k w 1 cur with
    | .fail => .fail
    | d => derivAllC sat op ctl rest d

/-- `RbeCondMatcher::matches` (rbe/src/rbe_cond_matcher.rs:69-88); `true` is `Ok(_)`. -/
def matchesC (sat : Q → W → Bool) (op : Bool) (ctl : List K) (e : Expr (K × Q))
    (l : List (K × W)) : Bool :=
  match derivAllC sat op ctl l e with
  | .fail => false
  | d => condNullable d

end Expr

end Rbe
