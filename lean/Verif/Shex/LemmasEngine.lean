import Verif.Shex.SpecEngine
import Mathlib.Data.List.Basic
import Mathlib.Order.Basic
import Mathlib.Tactic.Push
import Mathlib.Tactic.Tauto

/-!
# Helper lemmas: the recursive engine
-/

namespace Shex
variable {α : Type}

section Fix
variable {S : Sys α} {ρ : α → Nat}

theorem holds_mono (R : Ranked S ρ) {T T' : α → Prop} {x : α}
    (h1 : ∀ y, ρ y < ρ x → (T y ↔ T' y)) (h2 : ∀ y, ρ y = ρ x → T y → T' y)
    (h : Holds S T x) : Holds S T' x := by
  obtain ⟨hd, h⟩ := h
  refine ⟨hd, ?_⟩
  obtain ⟨ds, hds⟩ := Option.ne_none_iff_exists'.1 hd
  rcases h with ⟨ha, hc⟩ | ⟨d, hdm, hT⟩
  · left
    refine ⟨ha, R.mono x ds hds _ _ ?_ ?_ hc⟩
    · intro y _ hy
      simp only [decide_eq_decide]
      exact h1 y hy
    · intro y _ hy ht
      simp only [decide_eq_true_eq] at ht ⊢
      exact h2 y hy ht
  · right
    refine ⟨d, hdm, ?_⟩
    rcases Nat.lt_or_eq_of_le (R.desc x d hdm) with hlt | heq
    · exact (h1 d hlt).1 hT
    · exact h2 d heq hT

theorem holds_congr (R : Ranked S ρ) {T T' : α → Prop} {x : α}
    (h : ∀ y, ρ y ≤ ρ x → (T y ↔ T' y)) : Holds S T x ↔ Holds S T' x :=
  ⟨holds_mono R (fun y hy => h y (Nat.le_of_lt hy)) (fun y hy => (h y (Nat.le_of_eq hy)).1),
   holds_mono R (fun y hy => (h y (Nat.le_of_lt hy)).symm) (fun y hy => (h y (Nat.le_of_eq hy)).2)⟩

/-- The typing, correct for ranks below `n`. -/
def upTo (S : Sys α) (ρ : α → Nat) : Nat → α → Prop
  | 0, _ => False
  | n + 1, x => upTo S ρ n x ∨ (ρ x = n ∧ ∃ X : α → Prop, X x ∧
      ∀ y, X y → ρ y = n ∧ Holds S (fun z => (ρ z = n ∧ X z) ∨ (ρ z ≠ n ∧ upTo S ρ n z)) y)

theorem upTo_rank {n : Nat} {x : α} (h : upTo S ρ n x) : ρ x < n := by
  induction n with
  | zero => cases h
  | succ n ih =>
    rcases h with h | ⟨h, _⟩
    · exact Nat.lt_succ_of_lt (ih h)
    · omega

theorem upTo_stable {n m : Nat} {x : α} (h1 : ρ x < n) (h2 : n ≤ m) :
    upTo S ρ m x ↔ upTo S ρ n x := by
  induction m with
  | zero => omega
  | succ m ih =>
    by_cases hnm : n = m + 1
    · subst hnm; rfl
    · rw [← ih (by omega)]
      constructor
      · rintro (h | ⟨h, _⟩)
        · exact h
        · omega
      · exact Or.inl

theorem stratified_exists (R : Ranked S ρ) : ∃ W, Stratified S ρ W := by
  refine ⟨fun x => upTo S ρ (ρ x + 1) x, fun x => ?_⟩
  constructor
  · rintro (h | ⟨_, X, hx, hX⟩)
    · exact absurd (upTo_rank h) (Nat.lt_irrefl _)
    · refine ⟨X, hx, fun y hy => ⟨(hX y hy).1, ?_⟩⟩
      obtain ⟨h1, h2⟩ := hX y hy
      refine (holds_congr R ?_).1 h2
      intro z hz
      refine or_congr Iff.rfl (and_congr_right fun hne => ?_)
      have : ρ z < ρ x := by omega
      exact upTo_stable (Nat.lt_succ_self _) (by omega)
  · rintro ⟨X, hx, hX⟩
    refine Or.inr ⟨rfl, X, hx, fun y hy => ⟨(hX y hy).1, ?_⟩⟩
    obtain ⟨h1, h2⟩ := hX y hy
    refine (holds_congr R ?_).1 h2
    intro z hz
    refine or_congr Iff.rfl (and_congr_right fun hne => ?_)
    have : ρ z < ρ x := by omega
    exact (upTo_stable (Nat.lt_succ_self _) (by omega)).symm

theorem stratified_unique (R : Ranked S ρ) {W W' : α → Prop} (h : Stratified S ρ W)
    (h' : Stratified S ρ W') (x : α) : W x ↔ W' x := by
  have : ∀ n x, ρ x = n → (W x ↔ W' x) := by
    intro n
    induction n using Nat.strongRecOn with
    | _ n ih =>
      intro x hx
      rw [h x, h' x]
      refine exists_congr fun X => and_congr_right fun _ => forall_congr' fun y =>
        forall_congr' fun hy => and_congr_right fun hr => holds_congr R ?_
      intro z hz
      refine or_congr Iff.rfl (and_congr_right fun hne => ih (ρ z) (by omega) z rfl)
  exact this _ x rfl

theorem strat_fix (R : Ranked S ρ) {W : α → Prop} (h : Stratified S ρ W) (x : α) :
    W x ↔ Holds S W x := by
  have fwd : ∀ x, W x → Holds S W x := by
    intro x hx
    obtain ⟨X, hXx, hX⟩ := (h x).1 hx
    refine holds_mono R ?_ ?_ (hX x hXx).2
    · intro y hy
      constructor
      · rintro (⟨he, _⟩ | ⟨_, hw⟩)
        · omega
        · exact hw
      · intro hw; exact Or.inr ⟨by omega, hw⟩
    · rintro y hy (⟨_, hXy⟩ | ⟨hne, _⟩)
      · exact (h y).2 ⟨X, hXy, by rw [hy]; exact hX⟩
      · exact absurd hy hne
  refine ⟨fwd x, fun hx => (h x).2 ⟨fun y => ρ y = ρ x ∧ (W y ∨ y = x), ⟨rfl, Or.inr rfl⟩, ?_⟩⟩
  rintro y ⟨hr, hy⟩
  refine ⟨hr, ?_⟩
  have hWy : Holds S W y := by
    rcases hy with hy | rfl
    · exact fwd y hy
    · exact hx
  refine holds_mono R ?_ ?_ hWy
  · intro z hz
    constructor
    · intro hw; exact Or.inr ⟨by omega, hw⟩
    · rintro (⟨he, _⟩ | ⟨_, hw⟩)
      · omega
      · exact hw
  · intro z hz hw
    exact Or.inl ⟨by omega, by omega, Or.inl hw⟩

/-- The parameterised typing: pairs of rank `r` that support themselves when the pairs of `H` are
taken for granted. -/
def GH (S : Sys α) (ρ : α → Nat) (W : α → Prop) (r : Nat) (H : List α) (y : α) : Prop :=
  ∃ X : α → Prop, X y ∧ ∀ z, X z → ρ z = r ∧
    Holds S (fun w => (ρ w = r ∧ (X w ∨ w ∈ H)) ∨ (ρ w ≠ r ∧ W w)) z

theorem GH_unfold (R : Ranked S ρ) {W : α → Prop} {r : Nat} {H : List α} {y : α}
    (h : GH S ρ W r H y) : ρ y = r ∧
      Holds S (fun w => (ρ w = r ∧ (GH S ρ W r H w ∨ w ∈ H)) ∨ (ρ w ≠ r ∧ W w)) y := by
  obtain ⟨X, hy, hX⟩ := h
  obtain ⟨h1, h2⟩ := hX y hy
  refine ⟨h1, holds_mono R ?_ ?_ h2⟩
  · intro z hz
    have : ρ z ≠ r := by omega
    simp [this]
  · rintro z hz (⟨a, b | b⟩ | ⟨a, _⟩)
    · exact Or.inl ⟨a, Or.inl ⟨X, b, hX⟩⟩
    · exact Or.inl ⟨a, Or.inr b⟩
    · omega

theorem GH_acc (R : Ranked S ρ) {W : α → Prop} {r : Nat} {H : List α} {x : α} (hr : ρ x = r)
    (h : Holds S (fun w => (ρ w = r ∧ (GH S ρ W r (x :: H) w ∨ w ∈ x :: H)) ∨ (ρ w ≠ r ∧ W w)) x) :
    GH S ρ W r H x := by
  refine ⟨fun y => GH S ρ W r (x :: H) y ∨ y = x, Or.inr rfl, ?_⟩
  have key : ∀ z, ρ z = r →
      Holds S (fun w => (ρ w = r ∧ (GH S ρ W r (x :: H) w ∨ w ∈ x :: H)) ∨ (ρ w ≠ r ∧ W w)) z →
      Holds S (fun w => (ρ w = r ∧ ((GH S ρ W r (x :: H) w ∨ w = x) ∨ w ∈ H)) ∨ (ρ w ≠ r ∧ W w)) z := by
    intro z hz
    refine (holds_congr R ?_).1
    intro w _
    simp only [List.mem_cons]
    tauto
  rintro z (hz | rfl)
  · obtain ⟨h1, h2⟩ := GH_unfold R hz
    exact ⟨h1, key z h1 h2⟩
  · exact ⟨hr, key _ hr h⟩

theorem GH_exact (R : Ranked S ρ) {W : α → Prop} (hW : Stratified S ρ W) {H : List α} {y : α}
    (hH : ∀ h ∈ H, ρ h ≠ ρ y) (h : GH S ρ W (ρ y) H y) : W y := by
  obtain ⟨X, hy, hX⟩ := h
  refine (hW y).2 ⟨X, hy, fun z hz => ⟨(hX z hz).1, ?_⟩⟩
  refine (holds_congr R ?_).1 (hX z hz).2
  intro w _
  constructor
  · rintro (⟨a, b | b⟩ | h)
    · exact Or.inl ⟨a, b⟩
    · exact absurd a (hH w b)
    · exact Or.inr h
  · rintro (⟨a, b⟩ | h)
    · exact Or.inl ⟨a, Or.inl b⟩
    · exact Or.inr h

theorem GH_mono_nil (R : Ranked S ρ) {W : α → Prop} (hW : Stratified S ρ W) {H : List α} {y : α}
    (h : W y) : GH S ρ W (ρ y) H y := by
  obtain ⟨X, hy, hX⟩ := (hW y).1 h
  refine ⟨X, hy, fun z hz => ⟨(hX z hz).1, holds_mono R ?_ ?_ (hX z hz).2⟩⟩
  · intro w hw
    have h1 := (hX z hz).1
    have : ρ w ≠ ρ y := by omega
    simp [this]
  · rintro w _ (⟨a, b⟩ | h)
    · exact Or.inl ⟨a, Or.inl b⟩
    · exact Or.inr h

end Fix

/-! ## The loops -/

/-- A predicate on verdicts holds of an obligation and the touched flag it leaves. -/
def Post (Inv : (α → Option Bool) → Prop) (Q : α → Bool → Bool → Prop)
    (p : α → St α → Out (Bool × St α)) (y : α) : Prop :=
  ∀ s b s', Inv s.cache → p y s = .ok (b, s') →
    ∃ m, s'.touched = (s.touched || m) ∧ Inv s'.cache ∧ Q y b m

theorem runAll_spec {Inv : (α → Option Bool) → Prop} {Q : α → Bool → Bool → Prop}
    {p : α → St α → Out (Bool × St α)} (ys : List α) (hp : ∀ y ∈ ys, Post Inv Q p y)
    (T0 : List α) (s : St α) (T : List α) (s' : St α) (hi : Inv s.cache)
    (h : runAll p ys T0 s = .ok (T, s')) :
    ∃ m, s'.touched = (s.touched || m) ∧ Inv s'.cache ∧
      (∀ y ∈ T0, y ∈ T) ∧
      (∀ y ∈ T, y ∈ T0 ∨ (y ∈ ys ∧ ∃ m', Q y true m' ∧ (m = false → m' = false))) ∧
      (∀ y ∈ ys, y ∉ T → ∃ m', Q y false m' ∧ (m = false → m' = false)) := by
  induction ys generalizing T0 s with
  | nil =>
    simp only [runAll, Out.ok.injEq, Prod.mk.injEq] at h
    obtain ⟨rfl, rfl⟩ := h
    exact ⟨false, by simp, hi, fun _ h => h, fun _ h => Or.inl h, by simp⟩
  | cons y ys ih =>
    simp only [runAll] at h
    split at h
    · cases h
    · cases h
    · rename_i b s1 hp1
      obtain ⟨m1, ht1, hi1, hQ⟩ := hp y (by simp) s b s1 hi hp1
      obtain ⟨m2, ht2, hi2, h0, h1, h2⟩ := ih (fun z hz => hp z (by simp [hz])) _ s1 hi1 h
      refine ⟨m1 || m2, by rw [ht2, ht1, Bool.or_assoc], hi2, ?_, ?_, ?_⟩
      · intro z hz
        apply h0
        split
        · simp [hz]
        · exact hz
      · intro z hz
        rcases h1 z hz with hz0 | ⟨hz1, m', hq, hm⟩
        · split at hz0
          · rename_i hb
            rcases List.mem_cons.1 hz0 with rfl | hz0
            · right
              exact ⟨by simp, m1, by rw [← hb]; exact hQ, by simp; tauto⟩
            · exact Or.inl hz0
          · exact Or.inl hz0
        · right
          exact ⟨by simp [hz1], m', hq, fun h => hm (by simp at h; exact h.2)⟩
      · intro z hz hzT
        by_cases hzys : z ∈ ys
        · obtain ⟨m', hq, hm⟩ := h2 z hzys hzT
          exact ⟨m', hq, fun h => hm (by simp at h; exact h.2)⟩
        · rcases List.mem_cons.1 hz with rfl | hz
          · cases b with
            | true => exact absurd (h0 z (by simp)) hzT
            | false => exact ⟨m1, hQ, fun h => by simp at h; exact h.1⟩
          · exact absurd hz hzys

theorem firstOk_spec {Inv : (α → Option Bool) → Prop} {Q : α → Bool → Bool → Prop}
    {p : α → St α → Out (Bool × St α)} (ys : List α) (hp : ∀ y ∈ ys, Post Inv Q p y)
    (s : St α) (b : Bool) (s' : St α) (hi : Inv s.cache)
    (h : firstOk p ys s = .ok (b, s')) :
    ∃ m, s'.touched = (s.touched || m) ∧ Inv s'.cache ∧
      (b = true → ∃ y ∈ ys, ∃ m', Q y true m' ∧ (m = false → m' = false)) ∧
      (b = false → ∀ y ∈ ys, ∃ m', Q y false m' ∧ (m = false → m' = false)) := by
  induction ys generalizing s with
  | nil =>
    simp only [firstOk, Out.ok.injEq, Prod.mk.injEq] at h
    obtain ⟨rfl, rfl⟩ := h
    exact ⟨false, by simp, hi, by simp, by simp⟩
  | cons y ys ih =>
    simp only [firstOk] at h
    split at h
    · cases h
    · cases h
    · rename_i s1 hp1
      simp only [Out.ok.injEq, Prod.mk.injEq] at h
      obtain ⟨rfl, rfl⟩ := h
      obtain ⟨m1, ht1, hi1, hQ⟩ := hp y (by simp) s true _ hi hp1
      exact ⟨m1, ht1, hi1, fun _ => ⟨y, by simp, m1, hQ, fun h => h⟩, by simp⟩
    · rename_i s1 hp1
      obtain ⟨m1, ht1, hi1, hQ⟩ := hp y (by simp) s false s1 hi hp1
      obtain ⟨m2, ht2, hi2, h1, h2⟩ := ih (fun z hz => hp z (by simp [hz])) s1 hi1 h
      refine ⟨m1 || m2, by rw [ht2, ht1, Bool.or_assoc], hi2, ?_, ?_⟩
      · intro hb
        obtain ⟨z, hz, m', hq, hm⟩ := h1 hb
        exact ⟨z, by simp [hz], m', hq, fun h => hm (by simp at h; exact h.2)⟩
      · intro hb z hz
        rcases List.mem_cons.1 hz with rfl | hz
        · exact ⟨m1, hQ, fun h => by simp at h; exact h.1⟩
        · obtain ⟨m', hq, hm⟩ := h2 hb z hz
          exact ⟨m', hq, fun h => hm (by simp at h; exact h.2)⟩

variable [DecidableEq α]

theorem checkIdx_spec {S : Sys α} {Inv : (α → Option Bool) → Prop} {Q : α → Bool → Bool → Prop}
    {p : α → St α → Out (Bool × St α)} (x : α) (hp : ∀ y ∈ S.desc x, Post Inv Q p y)
    (T : α → Bool) (s : St α) (b : Bool) (s' : St α) (hi : Inv s.cache)
    (h : checkIdx S p x T s = .ok (b, s')) :
    ∃ m, s'.touched = (s.touched || m) ∧ Inv s'.cache ∧
      (b = true → (S.abstr x = false ∧ S.check x T = some true) ∨
        ∃ y ∈ S.desc x, ∃ m', Q y true m' ∧ (m = false → m' = false)) ∧
      (b = false → ¬ (S.abstr x = false ∧ S.check x T = some true) ∧
        ∀ y ∈ S.desc x, ∃ m', Q y false m' ∧ (m = false → m' = false)) := by
  unfold checkIdx at h
  split at h
  · rename_i ha
    split at h
    · cases h
    · obtain ⟨m, h1, h2, h3, h4⟩ := firstOk_spec _ hp s b s' hi h
      exact ⟨m, h1, h2, fun hb => Or.inr (h3 hb), fun hb => ⟨by simp [ha], h4 hb⟩⟩
  · rename_i ha
    have ha : S.abstr x = false := by simpa using ha
    split at h
    · cases h
    · rename_i hc
      simp only [Out.ok.injEq, Prod.mk.injEq] at h
      obtain ⟨rfl, rfl⟩ := h
      exact ⟨false, by simp, hi, fun _ => Or.inl ⟨ha, hc⟩, by simp⟩
    · rename_i hc
      obtain ⟨m, h1, h2, h3, h4⟩ := firstOk_spec _ hp s b s' hi h
      exact ⟨m, h1, h2, fun hb => Or.inr (h3 hb), fun hb => ⟨by simp [hc], h4 hb⟩⟩

/-! ## `prove` -/

/-- Every cached verdict is right. -/
def Exact (W : α → Prop) (c : α → Option Bool) : Prop := ∀ y b, c y = some b → (b = true ↔ W y)

/-- What a verdict under hypotheses `H` means. -/
def Verdict (S : Sys α) (ρ : α → Nat) (W : α → Prop) (H : List α) (y : α) (b m : Bool) : Prop :=
  (m = false → (b = true ↔ W y)) ∧ (b = true → GH S ρ W (ρ y) H y) ∧ (W y → b = true)

theorem prove_spec {S : Sys α} {ρ : α → Nat} {W : α → Prop} (R : Ranked S ρ)
    (ho : SameElements S) (hW : Stratified S ρ W) (n : Nat) (x : α) (H : List α)
    (hH : ∀ h ∈ H, ρ x ≤ ρ h) :
    Post (Exact W) (Verdict S ρ W H) (fun y s => prove S n y H s) x := by
  induction n generalizing x H with
  | zero => intro s b s' _ h; simp [prove] at h
  | succ n ih =>
    intro s b s' hi h
    simp only [prove] at h
    split at h
    · rename_i b' hc
      simp only [Out.ok.injEq, Prod.mk.injEq] at h
      obtain ⟨rfl, rfl⟩ := h
      have hex := hi x b' hc
      exact ⟨false, by simp, hi, fun _ => hex, fun hb => GH_mono_nil R hW (hex.1 hb), hex.2⟩
    · split at h
      · cases h
      · rename_i ds hds
        have hH' : ∀ y, ρ y ≤ ρ x → ∀ h ∈ x :: H, ρ y ≤ ρ h := by
          intro y hy h hh
          rcases List.mem_cons.1 hh with rfl | hh
          · exact hy
          · exact Nat.le_trans hy (hH h hh)
        split at h
        · cases h
        · cases h
        · rename_i T s1 hrun
          split at h
          · cases h
          · cases h
          · rename_i b2 s2 hchk
            simp only [Out.ok.injEq, Prod.mk.injEq] at h
            obtain ⟨rfl, rfl⟩ := h
            have hmemc : ∀ y, y ∈ S.order s.calls (ds.filter fun y => decide (y ∉ x :: H)) ↔
                y ∈ ds ∧ y ∉ x :: H := by
              intro y; rw [ho, List.mem_filter]; simp
            obtain ⟨m1, ht1, hi1, -, hT, hnT⟩ := runAll_spec _
              (fun y hy => ih y (x :: H) (hH' y (R.dep x ds hds y ((hmemc y).1 hy).1))) [] _ T s1
              (by simpa using hi) hrun
            obtain ⟨m2, ht2, hi2, hyes, hno⟩ := checkIdx_spec x
              (fun y hy => ih y (x :: H) (hH' y (R.desc x y hy))) _ s1 b2 s2 hi1 hchk
            simp only [List.not_mem_nil, false_or] at hT
            -- facts about the typing
            have hlow : ∀ y ∈ ds, ρ y < ρ x → ((y ∈ T ∨ y ∈ x :: H) ↔ W y) := by
              intro y hy hlt
              have hyh : y ∉ x :: H := by
                intro hm
                rcases List.mem_cons.1 hm with rfl | hm
                · omega
                · have := hH y hm; omega
              constructor
              · rintro (hyT | hm)
                · obtain ⟨_, m', hq, _⟩ := hT y hyT
                  refine GH_exact R hW ?_ (hq.2.1 rfl)
                  intro h hh
                  rcases List.mem_cons.1 hh with rfl | hh
                  · omega
                  · have := hH h hh; omega
                · exact absurd hm hyh
              · intro hw
                by_contra hc
                push Not at hc
                obtain ⟨m', hq, _⟩ := hnT y ((hmemc y).2 ⟨hy, hyh⟩) hc.1
                have := hq.2.2 hw
                cases this
            have heqr : ∀ y, ρ y = ρ x → (y ∈ T ∨ y ∈ x :: H) →
                GH S ρ W (ρ x) (x :: H) y ∨ y ∈ x :: H := by
              rintro y hy (hyT | hm)
              · obtain ⟨_, m', hq, _⟩ := hT y hyT
                left
                have := hq.2.1 rfl
                rwa [hy] at this
              · exact Or.inr hm
            have hup : ∀ y ∈ ds, W y → (y ∈ T ∨ y ∈ x :: H) := by
              intro y hy hw
              by_contra hc
              push Not at hc
              obtain ⟨m', hq, _⟩ := hnT y ((hmemc y).2 ⟨hy, hc.2⟩) hc.1
              have := hq.2.2 hw
              cases this
            have hdef : S.dep x ≠ none := by rw [hds]; simp
            -- the three parts
            have hexact : s2.touched = false → (b2 = true ↔ W x) := by
              intro hmine
              rw [ht2, ht1] at hmine
              simp only [Bool.or_eq_false_iff] at hmine
              obtain ⟨⟨ht0, hm1⟩, hm2⟩ := hmine
              have hnot : ∀ y ∈ ds, y ∉ x :: H := by
                intro y hy hm
                have := List.any_eq_false.1 ht0 y hy
                simp only [decide_eq_true_eq] at this
                exact this hm
              have hall : ∀ y ∈ ds, ((y ∈ T ∨ y ∈ x :: H) ↔ W y) := by
                intro y hy
                constructor
                · rintro (hyT | hm)
                  · obtain ⟨_, m', hq, hm'⟩ := hT y hyT
                    exact (hq.1 (hm' hm1)).1 rfl
                  · exact absurd hm (hnot y hy)
                · exact hup y hy
              constructor
              · intro hb
                rw [strat_fix R hW]
                refine ⟨hdef, ?_⟩
                rcases hyes hb with ⟨ha, hc⟩ | ⟨y, hy, m', hq, hm'⟩
                · left
                  refine ⟨ha, R.mono x ds hds _ _ ?_ ?_ hc⟩
                  · intro y hy _
                    rw [Bool.eq_iff_iff]
                    simpa using hall y hy
                  · intro y hy _ ht
                    have := (hall y hy).1 (by simpa using ht)
                    simpa using this
                · right
                  exact ⟨y, hy, (hq.1 (hm' hm2)).1 rfl⟩
              · intro hw
                cases b2 with
                | true => rfl
                | false =>
                  exfalso
                  obtain ⟨hn1, hn2⟩ := hno rfl
                  obtain ⟨_, h⟩ := (strat_fix R hW x).1 hw
                  rcases h with ⟨ha, hc⟩ | ⟨d, hd, hwd⟩
                  · apply hn1
                    refine ⟨ha, R.mono x ds hds _ _ ?_ ?_ hc⟩
                    · intro y hy _
                      rw [Bool.eq_iff_iff]
                      simpa using (hall y hy).symm
                    · intro y hy _ ht
                      have := (hall y hy).2 (by simpa using ht)
                      simpa using this
                  · obtain ⟨m', hq, _⟩ := hn2 d hd
                    have := hq.2.2 hwd
                    cases this
            refine ⟨s2.touched, rfl, ?_, hexact, ?_, ?_⟩
            · intro y b' hy
              simp only at hy
              split at hy
              · exact hi2 y b' hy
              · rename_i hnt
                beta_reduce at hy
                split at hy
                · rename_i hyx
                  rw [Option.some.injEq] at hy
                  subst hy; subst hyx
                  exact hexact (by simpa using hnt)
                · exact hi2 y b' hy
            · intro hb
              refine GH_acc R rfl ⟨hdef, ?_⟩
              rcases hyes hb with ⟨ha, hc⟩ | ⟨y, hy, m', hq, hm'⟩
              · left
                refine ⟨ha, R.mono x ds hds _ _ ?_ ?_ hc⟩
                · intro y hy hlt
                  rw [Bool.eq_iff_iff]
                  have := hlow y hy hlt
                  have hne : ρ y ≠ ρ x := by omega
                  simp [hne, ← this]
                · intro y hy heq ht
                  have := heqr y heq (by simpa using ht)
                  simp only [decide_eq_true_eq]
                  exact Or.inl ⟨heq, this⟩
              · right
                refine ⟨y, hy, ?_⟩
                rcases Nat.lt_or_eq_of_le (R.desc x y hy) with hlt | heq
                · refine Or.inr ⟨by omega, GH_exact R hW ?_ (hq.2.1 rfl)⟩
                  intro h hh
                  rcases List.mem_cons.1 hh with rfl | hh
                  · omega
                  · have := hH h hh; omega
                · have := hq.2.1 rfl
                  rw [heq] at this
                  exact Or.inl ⟨heq, Or.inl this⟩
            · intro hw
              cases b2 with
              | true => rfl
              | false =>
                exfalso
                obtain ⟨hn1, hn2⟩ := hno rfl
                obtain ⟨_, h⟩ := (strat_fix R hW x).1 hw
                rcases h with ⟨ha, hc⟩ | ⟨d, hd, hwd⟩
                · apply hn1
                  refine ⟨ha, R.mono x ds hds _ _ ?_ ?_ hc⟩
                  · intro y hy hlt
                    rw [Bool.eq_iff_iff]
                    simpa using (hlow y hy hlt).symm
                  · intro y hy _ ht
                    have := hup y hy (by simpa using ht)
                    simpa using this
                · obtain ⟨m', hq, _⟩ := hn2 d hd
                  have := hq.2.2 hwd
                  cases this

/-! ## Termination -/

theorem runAll_fuel {p : α → St α → Out (Bool × St α)} (ys : List α)
    (hp : ∀ y ∈ ys, ∀ s, p y s ≠ .fuel) (T : List α) (s : St α) : runAll p ys T s ≠ .fuel := by
  induction ys generalizing T s with
  | nil => simp [runAll]
  | cons y ys ih =>
    simp only [runAll]
    split
    · rename_i h; exact absurd h (hp y (by simp) s)
    · simp
    · exact ih (fun z hz => hp z (by simp [hz])) _ _

theorem firstOk_fuel {p : α → St α → Out (Bool × St α)} (ys : List α)
    (hp : ∀ y ∈ ys, ∀ s, p y s ≠ .fuel) (s : St α) : firstOk p ys s ≠ .fuel := by
  induction ys generalizing s with
  | nil => simp [firstOk]
  | cons y ys ih =>
    simp only [firstOk]
    split
    · rename_i h; exact absurd h (hp y (by simp) s)
    · simp
    · simp
    · exact ih (fun z hz => hp z (by simp [hz])) _

theorem checkIdx_fuel {S : Sys α} {p : α → St α → Out (Bool × St α)} (x : α)
    (hp : ∀ y ∈ S.desc x, ∀ s, p y s ≠ .fuel) (T : α → Bool) (s : St α) :
    checkIdx S p x T s ≠ .fuel := by
  unfold checkIdx
  split
  · split
    · simp
    · exact firstOk_fuel _ hp s
  · split
    · simp
    · simp
    · exact firstOk_fuel _ hp s

theorem length_filter_lt {U : List α} {p q : α → Bool} {y : α} (hy : y ∈ U)
    (hpq : ∀ z, q z = true → p z = true) (h1 : p y = true) (h2 : q y = false) :
    (U.filter q).length < (U.filter p).length := by
  induction U with
  | nil => simp at hy
  | cons z U ih =>
    have hle : ∀ V : List α, (V.filter q).length ≤ (V.filter p).length := by
      intro V
      induction V with
      | nil => simp
      | cons v V ihV =>
        by_cases hq : q v = true
        · simp [hq, hpq v hq, ihV]
        · by_cases hpv : p v = true
          · simp [hq, hpv]; omega
          · simp [hq, hpv, ihV]
    rcases List.mem_cons.1 hy with rfl | hy
    · simp only [List.filter_cons, h1, h2, if_true]
      have := hle U
      simp; omega
    · have := ih hy
      by_cases hq : q z = true
      · simp [hq, hpq z hq, this]
      · by_cases hpv : p z = true
        · simp [hq, hpv]; omega
        · simp [hq, hpv, this]

theorem prove_fuel {S : Sys α} {U : List α} (hU : Closed S U) (ho : SameElements S)
    (height : α → Nat) (h : Nat) (hb : ∀ x ∈ U, height x ≤ h)
    (hd : ∀ x ∈ U, ∀ y ∈ S.desc x, height y < height x)
    (n : Nat) (x : α) (hx : x ∈ U) (H : List α)
    (hn : (U.filter fun y => decide (y ∉ x :: H)).length * (h + 1) + height x + 1 ≤ n) (s : St α) :
    prove S n x H s ≠ .fuel := by
  induction n generalizing x H s with
  | zero => omega
  | succ n ih =>
    simp only [prove]
    split
    · simp
    · split
      · simp
      · rename_i ds hds
        have hkid : ∀ y ∈ S.order s.calls (ds.filter fun y => decide (y ∉ x :: H)),
            ∀ s, prove S n y (x :: H) s ≠ .fuel := by
          intro y hy s
          rw [ho, List.mem_filter] at hy
          have hyU := (hU x hx).1 ds hds y hy.1
          refine ih y hyU (x :: H) ?_ s
          have hlt : (U.filter fun z => decide (z ∉ y :: x :: H)).length <
              (U.filter fun z => decide (z ∉ x :: H)).length := by
            refine length_filter_lt hyU ?_ hy.2 (by simp)
            intro z hz
            simp only [decide_eq_true_eq, List.mem_cons, not_or] at hz ⊢
            exact hz.2
          have hmul := Nat.mul_le_mul_right (h + 1) (Nat.succ_le_of_lt hlt)
          have := hb y hyU
          rw [Nat.succ_mul] at hmul
          omega
        have hdesc : ∀ y ∈ S.desc x, ∀ s, prove S n y (x :: H) s ≠ .fuel := by
          intro y hy s
          have hyU := (hU x hx).2 y hy
          refine ih y hyU (x :: H) ?_ s
          have hle : (U.filter fun z => decide (z ∉ y :: x :: H)).length ≤
              (U.filter fun z => decide (z ∉ x :: H)).length := by
            refine (List.monotone_filter_right U ?_).length_le
            intro z hz
            simp only [decide_eq_true_eq, List.mem_cons, not_or] at hz ⊢
            exact hz.2
          have hmul := Nat.mul_le_mul_right (h + 1) hle
          have := hd x hx y hy
          omega
        split
        · rename_i hr; exact absurd hr (runAll_fuel _ hkid _ _)
        · simp
        · split
          · rename_i hr; exact absurd hr (checkIdx_fuel x hdesc _ _)
          · simp
          · simp

/-! ## Errors -/

theorem runAll_err {p : α → St α → Out (Bool × St α)} (ys : List α)
    (hp : ∀ y ∈ ys, ∀ s, p y s ≠ .err) (T : List α) (s : St α) : runAll p ys T s ≠ .err := by
  induction ys generalizing T s with
  | nil => simp [runAll]
  | cons y ys ih =>
    simp only [runAll]
    split
    · simp
    · rename_i h; exact absurd h (hp y (by simp) s)
    · exact ih (fun z hz => hp z (by simp [hz])) _ _

theorem firstOk_err {p : α → St α → Out (Bool × St α)} (ys : List α)
    (hp : ∀ y ∈ ys, ∀ s, p y s ≠ .err) (s : St α) : firstOk p ys s ≠ .err := by
  induction ys generalizing s with
  | nil => simp [firstOk]
  | cons y ys ih =>
    simp only [firstOk]
    split
    · simp
    · rename_i h; exact absurd h (hp y (by simp) s)
    · simp
    · exact ih (fun z hz => hp z (by simp [hz])) _

theorem prove_err {S : Sys α} {U : List α} (hU : Closed S U) (ho : SameElements S)
    (hd : Defined S U) (n : Nat) (x : α) (hx : x ∈ U) (H : List α) (s : St α) :
    prove S n x H s ≠ .err := by
  induction n generalizing x H s with
  | zero => simp [prove]
  | succ n ih =>
    simp only [prove]
    split
    · simp
    · split
      · rename_i h; exact absurd h (hd x hx).1
      · rename_i ds hds
        have hdesc : ∀ y ∈ S.desc x, ∀ s, prove S n y (x :: H) s ≠ .err :=
          fun y hy s => ih y ((hU x hx).2 y hy) _ s
        split
        · simp
        · rename_i hr
          refine absurd hr (runAll_err _ ?_ _ _)
          intro y hy s'
          rw [ho, List.mem_filter] at hy
          exact ih y ((hU x hx).1 ds hds y hy.1) _ _
        · split
          · simp
          · rename_i hr
            unfold checkIdx at hr
            split at hr
            · rename_i ha
              split at hr
              · rename_i he
                exact absurd (List.isEmpty_iff.1 he) ((hd x hx).2.2 ha)
              · exact absurd hr (firstOk_err _ hdesc _)
            · split at hr
              · rename_i hc; exact absurd hc ((hd x hx).2.1 _)
              · cases hr
              · exact absurd hr (firstOk_err _ hdesc _)
          · simp

/-! ## Sequences of queries -/

theorem exact_init {W : α → Prop} : Exact W (St.init : St α).cache := by
  intro y b h; simp [St.init] at h

theorem queries_spec {S : Sys α} {ρ : α → Nat} {W : α → Prop} (R : Ranked S ρ)
    (ho : SameElements S) (hW : Stratified S ρ W) (n : Nat) (xs : List α) (s : St α)
    (hs : Exact W s.cache) (bs : List Bool) (s' : St α) (h : queries S n xs s = .ok (bs, s')) :
    Exact W s'.cache ∧ List.Forall₂ (fun x b => b = true ↔ W x) xs bs := by
  induction xs generalizing s bs with
  | nil =>
    simp only [queries, Out.ok.injEq, Prod.mk.injEq] at h
    obtain ⟨rfl, rfl⟩ := h
    exact ⟨hs, .nil⟩
  | cons x xs ih =>
    simp only [queries] at h
    split at h
    · cases h
    · cases h
    · rename_i b s1 hp
      split at h
      · cases h
      · cases h
      · rename_i bs' s2 hq
        simp only [Out.ok.injEq, Prod.mk.injEq] at h
        obtain ⟨rfl, rfl⟩ := h
        obtain ⟨m, _, hi, hv⟩ := prove_spec R ho hW n x [] (by simp) s b s1 hs hp
        obtain ⟨h1, h2⟩ := ih s1 hi bs' hq
        exact ⟨h1, .cons ⟨fun hb => GH_exact R hW (by simp) (hv.2.1 hb), hv.2.2⟩ h2⟩

theorem ranked_zero {S : Sys α} (hm : Monotone S) : Ranked S (fun _ => 0) where
  dep := by intros; exact Nat.le_refl _
  desc := by intros; exact Nat.le_refl _
  mono := fun x ds hds T T' _ h2 => hm x ds hds T T' fun y hy => h2 y hy rfl

theorem greatest_stratified (S : Sys α) : Stratified S (fun _ => 0) (Greatest S) := by
  intro x
  simp [Greatest]

end Shex
