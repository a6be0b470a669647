import Verif.Rbe.Model

/-!
# Model of the feasibility refutation test (rbe/src/feasibility.rs)

The two `HashMap`s are count functions that answer 0 for missing entries
(`Feasibility::lo`, `Feasibility::hi`, feasibility.rs:61-67).
-/

namespace Rbe
namespace Expr
variable {A : Type}

mutual
/-- `Feasibility::zero` (rbe/src/feasibility.rs:70-77). -/
def zero (lo : A → Nat) : Expr A → Bool
  | .fail => true
  | .empty => true
  | .symbol v _ => lo v == 0
  | .and vs => zeroAll lo vs
  | .or vs => zeroAll lo vs
  | .star v => zero lo v
  | .plus v => zero lo v
  | .repeat v _ => zero lo v
/-- `values.iter().all(|v| self.zero(v))` (rbe/src/feasibility.rs:74). -/
def zeroAll (lo : A → Nat) : List (Expr A) → Bool
  | [] => true
  | v :: vs => zero lo v && zeroAll lo vs
end

mutual
/-- `Feasibility::once` (rbe/src/feasibility.rs:142-153). -/
def once (hi : A → Nat) : Expr A → Bool
  | .fail => false
  | .empty => true
  | .symbol v c => c.min == 0 || decide (hi v ≥ c.min)
  | .and vs => onceAll hi vs
  | .or vs => onceAny hi vs
  | .star _ => true
  | .plus v => once hi v
  | .repeat v c => c.min == 0 || once hi v
/-- `values.iter().all(|v| self.once(v))` (rbe/src/feasibility.rs:147). -/
def onceAll (hi : A → Nat) : List (Expr A) → Bool
  | [] => true
  | v :: vs => once hi v && onceAll hi vs
/-- `values.iter().any(|v| self.once(v))` (rbe/src/feasibility.rs:148). -/
def onceAny (hi : A → Nat) : List (Expr A) → Bool
  | [] => false
  | v :: vs => once hi v || onceAny hi vs
end

mutual
/-- `Feasibility::fi` (rbe/src/feasibility.rs:115-139). -/
def fi (lo hi : A → Nat) : Expr A → Bool
  | .fail => false
  | .empty => true
  | .symbol v c =>
    (c.min == 0 || decide (hi v ≥ c.min)) && (c.max != .intMax 0 || lo v == 0)
  | .and vs => fiAll lo hi vs
  | .or vs => fiOr lo hi vs
  | .star v => zero lo v || fi lo hi v
  | .plus v => fi lo hi v && once hi v
  | .repeat v c =>
    if c.max == .intMax 0 then zero lo v
    else if c.min == 0 then zero lo v || fi lo hi v
    else fi lo hi v && once hi v
/-- `values.iter().all(|v| self.fi(v))` (rbe/src/feasibility.rs:123). -/
def fiAll (lo hi : A → Nat) : List (Expr A) → Bool
  | [] => true
  | v :: vs => fi lo hi v && fiAll lo hi vs
/-- `values.iter().all(|v| self.zero(v) || self.fi(v))` (rbe/src/feasibility.rs:126). -/
def fiOr (lo hi : A → Nat) : List (Expr A) → Bool
  | [] => true
  | v :: vs => (zero lo v || fi lo hi v) && fiOr lo hi vs
end

mutual
/-- `Feasibility::fx` (rbe/src/feasibility.rs:80-111). -/
def fx (lo hi : A → Nat) : Expr A → Bool
  | .fail => false
  | .empty => true
  | .symbol v c => c.max.geq (lo v) && decide (hi v ≥ c.min)
  | .and vs => fxAll lo hi vs
  | .or vs => fxOr lo hi true vs
  | .star v => zero lo v || (fi lo hi v && once hi v)
  | .plus v => fi lo hi v && once hi v
  | .repeat v c =>
    if c.max == .intMax 0 then zero lo v
    else if c.min == 0 && c.max == .intMax 1 then zero lo v || fx lo hi v
    else if c.min == 0 then zero lo v || (fi lo hi v && once hi v)
    else fi lo hi v && once hi v
/-- `values.iter().all(|v| self.fx(v))` (rbe/src/feasibility.rs:91). -/
def fxAll (lo hi : A → Nat) : List (Expr A) → Bool
  | [] => true
  | v :: vs => fx lo hi v && fxAll lo hi vs
/-- The `any` over branches with all other branches zero (rbe/src/feasibility.rs:92-95). The
quadratic test on indices is written as a recursion: `pre` says that all branches before the
current one are zero. -/
def fxOr (lo hi : A → Nat) (pre : Bool) : List (Expr A) → Bool
  | [] => false
  | v :: vs => (fx lo hi v && (pre && zeroAll lo vs)) || fxOr lo hi (pre && zero lo v) vs
end

/-- `Rbe::feasible` (rbe/src/feasibility.rs:44-46). -/
def feasible (e : Expr A) (lo hi : A → Nat) : Bool := fx lo hi e

end Expr
end Rbe
