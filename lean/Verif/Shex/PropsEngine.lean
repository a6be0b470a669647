import Verif.Shex.LemmasEngine
import Mathlib.Data.List.Forall2

/-!
# Properties C20–C22 of the recursive engine
-/

namespace Shex
variable {α : Type} [DecidableEq α]

/-- **C20** (engine, no negation). Whatever the cycles among the references and the order in which
they are explored, a pair is proved exactly when it belongs to the greatest typing closed under the
definitions. -/
theorem C20_prove_iff_greatest (S : Sys α) (hm : Monotone S) (ho : SameElements S)
    (n : Nat) (x : α) (b : Bool) (s' : St α) (h : prove S n x [] St.init = .ok (b, s')) :
    b = true ↔ Greatest S x := by
  obtain ⟨m, _, _, hv⟩ := prove_spec (ranked_zero hm) ho (greatest_stratified S) n x [] (by simp)
    St.init b s' exact_init h
  exact ⟨fun hb => GH_exact (ranked_zero hm) (greatest_stratified S) (by simp) (hv.2.1 hb), hv.2.2⟩

/-- **C20** (engine, stratified negation). When a ranking separates the negated references, exactly
one stratified greatest typing exists and a pair is proved exactly when it belongs to it. -/
theorem C20_prove_iff_stratified (S : Sys α) (ρ : α → Nat) (R : Ranked S ρ) (ho : SameElements S) :
    ∃ W, Stratified S ρ W ∧ (∀ W', Stratified S ρ W' → ∀ x, W' x ↔ W x) ∧
      ∀ n x b s', prove S n x [] St.init = .ok (b, s') → (b = true ↔ W x) := by
  obtain ⟨W, hW⟩ := stratified_exists R
  refine ⟨W, hW, fun W' h' x => stratified_unique R h' hW x, fun n x b s' h => ?_⟩
  obtain ⟨m, _, _, hv⟩ := prove_spec R ho hW n x [] (by simp) St.init b s' exact_init h
  exact ⟨fun hb => GH_exact R hW (by simp) (hv.2.1 hb), hv.2.2⟩

/-- **C21** (engine). In a sequence of queries sharing one cache every verdict is the one a fresh
engine gives to that query alone, even with another order of exploration. -/
theorem C21_history_independent (S : Sys α) (ρ : α → Nat) (R : Ranked S ρ) (ho : SameElements S)
    (ord : Nat → List α → List α) (ho' : SameElements { S with order := ord })
    (n : Nat) (xs : List α) (bs : List Bool) (s' : St α)
    (h : queries S n xs St.init = .ok (bs, s')) :
    List.Forall₂ (fun x b => ∀ m b' s'',
      prove { S with order := ord } m x [] St.init = .ok (b', s'') → b' = b) xs bs := by
  obtain ⟨W, hW⟩ := stratified_exists R
  have R' : Ranked { S with order := ord } ρ := ⟨R.dep, R.desc, R.mono⟩
  have hW' : Stratified { S with order := ord } ρ W := hW
  refine (queries_spec R ho hW n xs St.init exact_init bs s' h).2.imp ?_
  intro x b hb m b' s'' hp
  obtain ⟨_, _, _, hv⟩ := prove_spec R' ho' hW' m x [] (by simp) St.init b' s'' exact_init hp
  have : b' = true ↔ b = true :=
    ⟨fun h => hb.2 (GH_exact R' hW' (by simp) (hv.2.1 h)), fun h => hv.2.2 (hb.1 h)⟩
  cases b <;> cases b' <;> simp_all

/-- **C22** (engine), for acyclic inheritance: on any finite closed set of pairs `prove` comes back
within recursion depth `|U| * (h + 1)`, where `h` is the height of the hierarchy; `|U|` when no shape
extends another. The full statement, for every hierarchy, is false: `C22_cyclic_extends_diverges`. -/
theorem C22_terminates_partial (S : Sys α) (U : List α) (hU : Closed S U) (ho : SameElements S)
    (h : Nat) (hac : Acyclic S U h) (x : α) (hx : x ∈ U) (H : List α) (s : St α) :
    prove S (U.length * (h + 1)) x H s ≠ .fuel := by
  obtain ⟨height, hb, hd⟩ := hac
  refine prove_fuel hU ho height h hb hd _ x hx H ?_ s
  have hlt : (U.filter fun y => decide (y ∉ x :: H)).length < U.length := by
    have := length_filter_lt (U := U) (p := fun _ => true) (q := fun y => decide (y ∉ x :: H)) hx
      (by simp) rfl (by simp)
    simpa using this
  have hmul := Nat.mul_le_mul_right (h + 1) (Nat.succ_le_of_lt hlt)
  rw [Nat.succ_mul] at hmul
  have := hb x hx
  omega

/-- The depth bound of C22 is the number of pairs when no shape extends another. -/
theorem C22_depth_at_most_pairs (S : Sys α) (U : List α) (hU : Closed S U) (ho : SameElements S)
    (hno : ∀ x ∈ U, S.desc x = []) (x : α) (hx : x ∈ U) (H : List α) (s : St α) :
    prove S U.length x H s ≠ .fuel := by
  have := C22_terminates_partial S U hU ho 0
    ⟨fun _ => 0, by simp, fun x hx y hy => by simp [hno x hx] at hy⟩ x hx H s
  simpa using this

/-- C20–C22 together: over a finite closed set of defined pairs with an acyclic hierarchy, any
sequence of queries gives all its verdicts, and they are those of the typing. -/
theorem C21_queries_total (S : Sys α) (ρ : α → Nat) (R : Ranked S ρ) (ho : SameElements S)
    (U : List α) (hU : Closed S U) (hdef : Defined S U) (h : Nat) (hac : Acyclic S U h)
    (W : α → Prop) (hW : Stratified S ρ W) (xs : List α) (hxs : ∀ x ∈ xs, x ∈ U) :
    ∃ bs s', queries S (U.length * (h + 1)) xs St.init = .ok (bs, s') ∧
      List.Forall₂ (fun x b => b = true ↔ W x) xs bs := by
  have : ∀ s, ∃ r, queries S (U.length * (h + 1)) xs s = .ok r := by
    induction xs with
    | nil => intro s; exact ⟨_, rfl⟩
    | cons x xs ih =>
      intro s
      simp only [queries]
      cases hp : prove S (U.length * (h + 1)) x [] s with
      | fuel => exact absurd hp (C22_terminates_partial S U hU ho h hac x (hxs x (by simp)) [] s)
      | err => exact absurd hp (prove_err hU ho hdef _ x (hxs x (by simp)) [] s)
      | ok r =>
        obtain ⟨r2, h2⟩ := ih (fun y hy => hxs y (by simp [hy])) r.2
        obtain ⟨b, s1⟩ := r
        simp only at h2 ⊢
        rw [h2]
        exact ⟨_, rfl⟩
  obtain ⟨⟨bs, s'⟩, hq⟩ := this St.init
  exact ⟨bs, s', hq, (queries_spec R ho hW _ xs _ exact_init bs s' hq).2⟩

/-! ## Cases -/

/-- Pairs 0 → 1 → 2 → 0 form a cycle; 3 requires 1 and its own check fails; 4 negates 3. -/
def exSys : Sys Nat where
  dep := fun x => if x < 3 then some [(x + 1) % 3] else if x = 3 then some [1] else some [3]
  desc := fun _ => []
  abstr := fun _ => false
  check := fun x T => if x < 3 then some (T ((x + 1) % 3)) else if x = 3 then some false
    else some (!(T 3))
  order := fun _ l => l.reverse

theorem exSys_ranked : Ranked exSys (fun x => if x < 4 then 0 else 1) where
  dep := by
    intro x ds h y hy
    simp only [exSys] at h
    split at h
    · simp at h; subst h; simp at hy; subst hy
      have := Nat.mod_lt (x + 1) (y := 3) (by omega)
      have h4 : (x + 1) % 3 < 4 := by omega
      simp [h4]
    · split at h
      · simp at h; subst h; simp at hy; subst hy; simp
      · simp at h; subst h; simp at hy; subst hy; simp
  desc := by intro x y hy; simp [exSys] at hy
  mono := by
    intro x ds h T T' h1 h2 hc
    simp only [exSys] at h hc ⊢
    split at h
    · rename_i hx
      simp only [Option.some.injEq] at h; subst h
      rw [if_pos hx] at hc ⊢
      simp only [Option.some.injEq] at hc ⊢
      refine h2 _ (by simp) ?_ hc
      have := Nat.mod_lt (x + 1) (y := 3) (by omega)
      rw [if_pos (by omega), if_pos (by omega)]
    · rename_i hx
      rw [if_neg hx] at hc ⊢
      split at h
      · rename_i h3; rw [if_pos h3] at hc; simp at hc
      · rename_i h3
        simp only [Option.some.injEq] at h; subst h
        rw [if_neg h3] at hc ⊢
        have := h1 3 (by simp) (by rw [if_pos (by omega), if_neg (by omega)]; omega)
        rw [← this]; exact hc

/-- The hypotheses are met by a system with a cycle and a negation; the verdicts are as expected. -/
example : SameElements exSys ∧
    (match queries exSys 6 [0, 3, 4, 1] St.init with
      | .ok (bs, _) => bs
      | _ => []) = [true, false, true, true] := by
  refine ⟨fun n l y => by simp [exSys], by decide⟩

example : Closed exSys [0, 1, 2, 3, 4] ∧ Acyclic exSys [0, 1, 2, 3, 4] 0 ∧
    Defined exSys [0, 1, 2, 3, 4] := by
  refine ⟨?_, ⟨fun _ => 0, by simp, by simp [exSys]⟩, ?_⟩
  · intro x hx
    simp only [List.mem_cons, List.not_mem_nil, or_false] at hx
    rcases hx with rfl | rfl | rfl | rfl | rfl <;> simp [exSys]
  · intro x hx
    simp only [List.mem_cons, List.not_mem_nil, or_false] at hx
    rcases hx with rfl | rfl | rfl | rfl | rfl <;> simp [exSys]

/-- Two shapes that extend each other and do not match. -/
def exLoop : Sys Bool where
  dep := fun _ => some []
  desc := fun x => [!x]
  abstr := fun _ => false
  check := fun _ _ => some false
  order := fun _ l => l

/-- **C22** is false for cyclic inheritance, which the compiler accepts
(`InheritanceGraph::has_cycles` is never called on a ShEx schema): no recursion depth is enough. -/
theorem C22_cyclic_extends_diverges :
    Closed exLoop [true, false] ∧ SameElements exLoop ∧
      ∀ n x, prove exLoop n x [] St.init = .fuel := by
  refine ⟨fun x _ => by simp [exLoop], fun _ _ _ => Iff.rfl, fun n x => ?_⟩
  have : ∀ n x H s, s.cache = (fun _ => none) → prove exLoop n x H s = .fuel := by
    intro n
    induction n with
    | zero => intros; rfl
    | succ n ih =>
      intro x H s hs
      simp [prove, hs, exLoop, runAll, checkIdx, firstOk]
      have := ih (!x) (x :: H) ⟨fun _ => none, false, s.calls + 1⟩ rfl
      simp only [exLoop] at this
      rw [this]
  exact this n x [] St.init rfl

#print axioms C20_prove_iff_greatest
#print axioms C20_prove_iff_stratified
#print axioms C21_history_independent
#print axioms C21_queries_total
#print axioms C22_terminates_partial
#print axioms C22_depth_at_most_pairs
#print axioms C22_cyclic_extends_diverges

end Shex
