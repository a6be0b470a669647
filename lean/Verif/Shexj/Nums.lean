import Verif.Shexj.Spec

/-!
# Lemmas: bounded numbers read back
-/

namespace Shexj

open Shexc

theorem inIsize_ok {n : Int} (h : I64 n) : inIsize n = some n := if_pos h

theorem readI32_ok {n : Int} (h : I32 n) : readI32 (.int n) = some n := if_pos h

/-- Numbers of 64 bits without a sign. -/
def U64 (n : Nat) : Prop := n < 2 ^ 64

theorem readUsize_ok {n : Nat} (h : U64 n) : readUsize (.int n) = some n := by
  have h1 : (0 : Int) ≤ (n : Int) := Int.natCast_nonneg n
  have h2 : (n : Int) < 2 ^ 64 := by unfold U64 at h; omega
  rw [readUsize, if_pos (And.intro h1 h2), Int.toNat_natCast]

theorem facet_u64 {X : Ext} {n : Nat} : (FacetOk X (.length n) → U64 n) ∧ (FacetOk X (.minLength n) → U64 n) ∧
    (FacetOk X (.maxLength n) → U64 n) ∧ (FacetOk X (.totalDigits n) → U64 n) ∧
    (FacetOk X (.fractionDigits n) → U64 n) :=
  ⟨id, id, id, id, id⟩

end Shexj
