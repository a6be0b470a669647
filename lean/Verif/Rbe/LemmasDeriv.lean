import Verif.Rbe.Spec

/-!
# Helper lemmas: sums of bags, nullability and derivatives
-/

set_option linter.unusedSectionVars false

namespace Rbe
variable {A : Type}

/-! ## Sums of bags -/

theorem cons_eq_add {x : A} {s p q : Multiset A} (h : x ::ₘ s = p + q) :
    (∃ p', p = x ::ₘ p' ∧ s = p' + q) ∨ (∃ q', q = x ::ₘ q' ∧ s = p + q') := by
  have hx : x ∈ p + q := by rw [← h]; exact Multiset.mem_cons_self x s
  rcases Multiset.mem_add.1 hx with hp | hq
  · obtain ⟨p', rfl⟩ := Multiset.exists_cons_of_mem hp
    left
    refine ⟨p', rfl, ?_⟩
    rw [Multiset.cons_add] at h
    exact (Multiset.cons_inj_right x).1 h
  · obtain ⟨q', rfl⟩ := Multiset.exists_cons_of_mem hq
    right
    refine ⟨q', rfl, ?_⟩
    rw [Multiset.add_cons] at h
    exact (Multiset.cons_inj_right x).1 h

theorem bag_add_eq_zero {p q : Multiset A} (h : p + q = 0) : p = 0 ∧ q = 0 := by
  have := congrArg Multiset.card h
  rw [Multiset.card_add, Multiset.card_zero] at this
  exact ⟨Multiset.card_eq_zero.1 (by omega), Multiset.card_eq_zero.1 (by omega)⟩

theorem sumOf_zero {P : Multiset A → Prop} {s : Multiset A} : SumOf P 0 s ↔ s = 0 := by
  constructor
  · rintro ⟨l, hl, _, rfl⟩
    rw [List.length_eq_zero_iff] at hl
    subst hl
    rfl
  · rintro rfl
    exact ⟨[], rfl, by simp, rfl⟩

theorem sumOf_succ {P : Multiset A → Prop} {k : Nat} {s : Multiset A} :
    SumOf P (k + 1) s ↔ ∃ t u, s = t + u ∧ P t ∧ SumOf P k u := by
  constructor
  · rintro ⟨l, hl, hP, rfl⟩
    cases l with
    | nil => simp at hl
    | cons t l =>
      refine ⟨t, l.sum, by simp, hP t (by simp), l, by simpa using hl, ?_, rfl⟩
      intro u hu
      exact hP u (by simp [hu])
  · rintro ⟨t, u, rfl, hP, l, hl, hPl, rfl⟩
    refine ⟨t :: l, by simp [hl], ?_, by simp⟩
    intro v hv
    rcases List.mem_cons.1 hv with rfl | hv
    · exact hP
    · exact hPl v hv

theorem sumOf_one {P : Multiset A → Prop} {s : Multiset A} : SumOf P 1 s ↔ P s := by
  rw [show (1 : Nat) = 0 + 1 from rfl, sumOf_succ]
  constructor
  · rintro ⟨t, u, rfl, hP, hu⟩
    rw [sumOf_zero] at hu
    subst hu
    simpa using hP
  · intro h
    exact ⟨s, 0, by simp, h, sumOf_zero.2 rfl⟩

theorem sumOf_add {P : Multiset A → Prop} {a b : Nat} {s : Multiset A} :
    SumOf P (a + b) s ↔ ∃ t u, s = t + u ∧ SumOf P a t ∧ SumOf P b u := by
  induction a generalizing s with
  | zero =>
    rw [Nat.zero_add]
    constructor
    · intro h; exact ⟨0, s, by simp, sumOf_zero.2 rfl, h⟩
    · rintro ⟨t, u, rfl, ht, hu⟩
      rw [sumOf_zero] at ht
      subst ht
      simpa using hu
  | succ a ih =>
    rw [show a + 1 + b = (a + b) + 1 by omega, sumOf_succ]
    constructor
    · rintro ⟨t, u, rfl, ht, hu⟩
      obtain ⟨v, w, rfl, hv, hw⟩ := ih.1 hu
      exact ⟨t + v, w, by rw [add_assoc], sumOf_succ.2 ⟨t, v, rfl, ht, hv⟩, hw⟩
    · rintro ⟨t, u, rfl, ht, hu⟩
      obtain ⟨v, w, rfl, hv, hw⟩ := sumOf_succ.1 ht
      exact ⟨v, w + u, by rw [add_assoc], hv, ih.2 ⟨w, u, rfl, hw, hu⟩⟩

theorem sumOf_mono {P Q : Multiset A → Prop} (h : ∀ s, P s → Q s) {k : Nat} {s : Multiset A}
    (hs : SumOf P k s) : SumOf Q k s := by
  obtain ⟨l, hl, hP, rfl⟩ := hs
  exact ⟨l, hl, fun t ht => h t (hP t ht), rfl⟩

theorem sumOf_cons {P : Multiset A → Prop} {k : Nat} {x : A} {s : Multiset A} :
    SumOf P k (x ::ₘ s) ↔ ∃ j, k = j + 1 ∧ ∃ t u, s = t + u ∧ P (x ::ₘ t) ∧ SumOf P j u := by
  constructor
  · intro h
    induction k generalizing s with
    | zero => rw [sumOf_zero] at h; exact absurd h (Multiset.cons_ne_zero)
    | succ k ih =>
      obtain ⟨t, u, htu, ht, hu⟩ := sumOf_succ.1 h
      refine ⟨k, rfl, ?_⟩
      rcases cons_eq_add htu with ⟨t', rfl, rfl⟩ | ⟨u', rfl, rfl⟩
      · exact ⟨t', u, rfl, ht, hu⟩
      · obtain ⟨j, rfl, v, w, rfl, hv, hw⟩ := ih hu
        refine ⟨v, t + w, ?_, hv, sumOf_succ.2 ⟨t, w, rfl, ht, hw⟩⟩
        rw [add_left_comm]
  · rintro ⟨j, rfl, t, u, rfl, ht, hu⟩
    exact sumOf_succ.2 ⟨x ::ₘ t, u, by simp, ht, hu⟩

theorem sumOf_nil_of {P : Multiset A → Prop} (h : P 0) (k : Nat) : SumOf P k 0 := by
  induction k with
  | zero => exact sumOf_zero.2 rfl
  | succ k ih => exact sumOf_succ.2 ⟨0, 0, by simp, h, ih⟩

theorem sumOf_zero_bag {P : Multiset A → Prop} {k : Nat} (h : SumOf P (k + 1) 0) : P 0 := by
  obtain ⟨t, u, htu, ht, _⟩ := sumOf_succ.1 h
  have := (bag_add_eq_zero htu.symm).1
  subst this
  exact ht

/-! ## Lists -/

theorem wfList_iff {vs : List (Expr A)} : WFList vs ↔ ∀ v ∈ vs, WF v := by
  induction vs with
  | nil => simp [WFList]
  | cons v vs ih => simp [WFList, ih]

theorem saneList_iff {vs : List (Expr A)} : SaneList vs ↔ ∀ v ∈ vs, Sane v := by
  induction vs with
  | nil => simp [SaneList]
  | cons v vs ih => simp [SaneList, ih]

theorem sane_of_wf (e : Expr A) (h : WF e) : Sane e := by
  induction e using Expr.ind with
  | hfail => trivial
  | hempty => trivial
  | hsym v c => trivial
  | hand vs ih => exact saneList_iff.2 fun v hv => ih v hv (wfList_iff.1 h v hv)
  | hor vs ih => exact ⟨h.1, saneList_iff.2 fun v hv => ih v hv (wfList_iff.1 h.2 v hv)⟩
  | hstar v ih => exact ih h
  | hplus v ih => exact ih h
  | hrep v c ih => exact ⟨h.1, ih h.2.2⟩

theorem langSome_iff {vs : List (Expr A)} {s : Multiset A} :
    LangSome vs s ↔ ∃ v ∈ vs, Lang v s := by
  induction vs with
  | nil => simp [LangSome]
  | cons v vs ih => simp [LangSome, ih]

theorem langAll_append {vs ws : List (Expr A)} {s : Multiset A} :
    LangAll (vs ++ ws) s ↔ ∃ t u, s = t + u ∧ LangAll vs t ∧ LangAll ws u := by
  induction vs generalizing s with
  | nil =>
    constructor
    · intro h; exact ⟨0, s, by simp, rfl, h⟩
    · rintro ⟨t, u, rfl, ht, hu⟩
      have : t = 0 := ht
      subst this
      simpa using hu
  | cons v vs ih =>
    simp only [List.cons_append, LangAll]
    constructor
    · rintro ⟨t, u, rfl, ht, hu⟩
      obtain ⟨p, q, rfl, hp, hq⟩ := ih.1 hu
      exact ⟨t + p, q, by rw [add_assoc], ⟨t, p, rfl, ht, hp⟩, hq⟩
    · rintro ⟨_, u, rfl, ⟨t, p, rfl, ht, hp⟩, hu⟩
      exact ⟨t, p + u, by rw [add_assoc], ht, ih.2 ⟨p, u, rfl, hp, hu⟩⟩

theorem langAll_singleton {v : Expr A} {s : Multiset A} : LangAll [v] s ↔ Lang v s := by
  simp only [LangAll]
  constructor
  · rintro ⟨t, u, rfl, ht, rfl⟩
    simpa using ht
  · intro h
    exact ⟨s, 0, by simp, h, rfl⟩

theorem mandatoryList_eq (vs : List (Expr A)) :
    Expr.mandatoryList vs = vs.map Expr.mandatory := by
  induction vs with
  | nil => rfl
  | cons v vs ih => simp [Expr.mandatoryList, ih]

/-! ## Nullability -/

theorem langAll_zero {vs : List (Expr A)} : LangAll vs 0 ↔ ∀ v ∈ vs, Lang v 0 := by
  induction vs with
  | nil => simp [LangAll]
  | cons v vs ih =>
    simp only [LangAll, List.mem_cons, forall_eq_or_imp]
    constructor
    · rintro ⟨t, u, htu, ht, hu⟩
      obtain ⟨rfl, rfl⟩ := bag_add_eq_zero htu.symm
      exact ⟨ht, ih.1 hu⟩
    · rintro ⟨hv, hvs⟩
      exact ⟨0, 0, by simp, hv, ih.2 hvs⟩

open Expr in
/-- `isRightNil` in terms of the list of results. -/
theorem errs_eq_zero {rs : List (Mand A)} (h : ∀ n, Mand.left n ∈ rs → 0 < n) :
    Mand.errs rs = 0 ↔ ∀ r ∈ rs, ∃ l, r = .right l := by
  induction rs with
  | nil => simp [Mand.errs]
  | cons r rs ih =>
    have ih' := ih (fun n hn => h n (List.mem_cons_of_mem _ hn))
    cases r with
    | left n =>
      have := h n (by simp)
      simp only [Mand.errs]
      constructor
      · intro h0; omega
      · intro h0
        obtain ⟨l, hl⟩ := h0 (.left n) (by simp)
        cases hl
    | right l => simp [Mand.errs, ih']

open Expr in
theorem vals_eq_nil {rs : List (Mand A)} :
    Mand.vals rs = [] ↔ ∀ l, Mand.right l ∈ rs → l = [] := by
  induction rs with
  | nil => simp [Mand.vals]
  | cons r rs ih =>
    cases r with
    | left n => simp [Mand.vals, ih]
    | right l => simp [Mand.vals, ih]

open Expr in
theorem isRightNil_iff {r : Mand A} : r.isRightNil = true ↔ r = .right [] := by
  cases r with
  | left n => simp [Mand.isRightNil]
  | right l => cases l <;> simp [Mand.isRightNil]

open Expr in
/-- Nullability decides membership of the empty bag, and a `Left` result is never empty. -/
theorem mandatory_spec (e : Expr A) (hwf : Sane e) :
    ((mandatory e).isRightNil = true ↔ Lang e 0) ∧ ∀ n, mandatory e = .left n → 0 < n := by
  induction e using Expr.ind with
  | hfail => simp [mandatory, Mand.isRightNil, Lang]
  | hempty => simp [mandatory, Mand.isRightNil, Lang]
  | hsym v c =>
    constructor
    · by_cases h : c.min = 0
      · simp only [mandatory, Card.nullable, h, beq_self_eq_true, if_true, Mand.isRightNil, Lang,
          true_iff]
        exact ⟨0, ⟨by omega, fun m _ => Nat.zero_le _⟩, by simp⟩
      · simp only [mandatory, Card.nullable, beq_iff_eq, h, if_false, Mand.isRightNil, Lang,
          Bool.false_eq_true, false_iff]
        rintro ⟨n, ⟨h1, _⟩, h2⟩
        have : n = 0 := by
          have := congrArg Multiset.card h2
          simpa using this.symm
        omega
    · intro n
      simp only [mandatory]
      split <;> simp
  | hand vs ih =>
    have hvs : ∀ v ∈ vs, Sane v := saneList_iff.1 hwf
    have herr : ∀ n, Mand.left n ∈ vs.map mandatory → 0 < n := by
      intro n hn
      obtain ⟨v, hv, he⟩ := List.mem_map.1 hn
      exact (ih v hv (hvs v hv)).2 n he
    constructor
    · simp only [mandatory, mandatoryList_eq, Lang, langAll_zero]
      by_cases h0 : Mand.errs (vs.map mandatory) = 0
      · rw [if_pos h0, isRightNil_iff]
        have hr := (errs_eq_zero herr).1 h0
        constructor
        · intro h v hv
          injection h with h
          rw [vals_eq_nil] at h
          obtain ⟨l, hl⟩ := hr (mandatory v) (List.mem_map.2 ⟨v, hv, rfl⟩)
          have := h l (hl ▸ List.mem_map.2 ⟨v, hv, rfl⟩)
          subst this
          exact (ih v hv (hvs v hv)).1.1 (by rw [hl]; rfl)
        · intro h
          congr 1
          rw [vals_eq_nil]
          intro l hl
          obtain ⟨v, hv, he⟩ := List.mem_map.1 hl
          have := (ih v hv (hvs v hv)).1.2 (h v hv)
          rw [he, isRightNil_iff] at this
          injection this
      · rw [if_neg h0]
        simp only [Mand.isRightNil, Bool.false_eq_true, false_iff]
        intro h
        apply h0
        rw [errs_eq_zero herr]
        intro r hr
        obtain ⟨v, hv, rfl⟩ := List.mem_map.1 hr
        have := (ih v hv (hvs v hv)).1.2 (h v hv)
        exact ⟨[], isRightNil_iff.1 this⟩
    · intro n
      simp only [mandatory, mandatoryList_eq]
      split
      · simp
      · intro h
        injection h with h
        omega
  | hor vs ih =>
    obtain ⟨hne, hwfl⟩ := hwf
    have hvs : ∀ v ∈ vs, Sane v := saneList_iff.1 hwfl
    constructor
    · simp only [mandatory, mandatoryList_eq, Lang, langSome_iff]
      by_cases h0 : (vs.map mandatory).any Mand.isRightNil = true
      · rw [if_pos h0]
        simp only [Mand.isRightNil, true_iff]
        rw [List.any_eq_true] at h0
        obtain ⟨r, hr, hn⟩ := h0
        obtain ⟨v, hv, rfl⟩ := List.mem_map.1 hr
        exact ⟨v, hv, (ih v hv (hvs v hv)).1.1 hn⟩
      · rw [if_neg h0]
        have hno : ¬ ∃ v ∈ vs, Lang v 0 := by
          rintro ⟨v, hv, hl⟩
          apply h0
          rw [List.any_eq_true]
          exact ⟨mandatory v, List.mem_map.2 ⟨v, hv, rfl⟩, (ih v hv (hvs v hv)).1.2 hl⟩
        simp only [hno, iff_false]
        split
        · simp [Mand.isRightNil]
        · rename_i hv
          cases hvals : Mand.vals (vs.map mandatory) with
          | nil => simp [hvals] at hv
          | cons a l => simp [Mand.isRightNil]
    · intro n
      simp only [mandatory, mandatoryList_eq]
      split
      · simp
      · rename_i h0
        split
        · rename_i hv
          intro h
          injection h with h
          rw [← h]
          rw [List.isEmpty_iff, vals_eq_nil] at hv
          by_contra hz
          have hz : Mand.errs (vs.map mandatory) = 0 := by omega
          rw [errs_eq_zero] at hz
          · obtain ⟨v, hv'⟩ := List.exists_mem_of_ne_nil vs hne
            obtain ⟨l, hl⟩ := hz (mandatory v) (List.mem_map.2 ⟨v, hv', rfl⟩)
            have := hv l (hl ▸ List.mem_map.2 ⟨v, hv', rfl⟩)
            subst this
            apply h0
            rw [List.any_eq_true]
            exact ⟨_, List.mem_map.2 ⟨v, hv', rfl⟩, by rw [hl]; rfl⟩
          · intro n hn
            obtain ⟨v, hv', he⟩ := List.mem_map.1 hn
            exact (ih v hv' (hvs v hv')).2 n he
        · simp
  | hstar v ih =>
    simp only [mandatory, Mand.isRightNil, Lang, true_iff]
    exact ⟨⟨0, sumOf_zero.2 rfl⟩, by simp⟩
  | hplus v ih =>
    simp only [mandatory, Lang]
    refine ⟨(ih hwf).1.trans ⟨fun h => ⟨1, le_refl _, sumOf_one.2 h⟩, ?_⟩, (ih hwf).2⟩
    rintro ⟨k, hk, h⟩
    obtain ⟨j, rfl⟩ : ∃ j, k = j + 1 := ⟨k - 1, by omega⟩
    exact sumOf_zero_bag h
  | hrep v c ih =>
    obtain ⟨hc, hv⟩ := hwf
    by_cases h : c.min = 0
    · simp only [mandatory, h, if_true, Mand.isRightNil, Lang, true_iff]
      exact ⟨⟨0, ⟨by omega, fun _ _ => Nat.zero_le _⟩, sumOf_zero.2 rfl⟩, by simp⟩
    · simp only [mandatory, h, if_false, Lang]
      refine ⟨(ih hv).1.trans ⟨fun hl => ⟨c.min, hc, sumOf_nil_of hl _⟩, ?_⟩, (ih hv).2⟩
      rintro ⟨k, hk, hs⟩
      have := hk.1
      obtain ⟨j, rfl⟩ : ∃ j, k = j + 1 := ⟨k - 1, by omega⟩
      exact sumOf_zero_bag hs

theorem isNullable_iff (e : Expr A) (hwf : Sane e) : e.isNullable = true ↔ Lang e 0 :=
  (mandatory_spec e hwf).1

/-! ## Smart constructors -/

theorem Card.holds_of_bigger {c : Card} (h : Expr.bigger c.min c.max = false) : c.Holds c.min := by
  refine ⟨le_refl _, ?_⟩
  intro m hm
  rw [hm] at h
  simp only [Expr.bigger, gt_iff_lt, decide_eq_false_iff_not, not_lt] at h
  exact h

theorem Card.not_holds_of_bigger {c : Card} (h : Expr.bigger c.min c.max = true) (n : Nat) :
    ¬ c.Holds n := by
  rintro ⟨h1, h2⟩
  cases hm : c.max with
  | unbounded => rw [hm] at h; simp [Expr.bigger] at h
  | intMax m =>
    rw [hm] at h
    simp only [Expr.bigger, gt_iff_lt, decide_eq_true_eq] at h
    have := h2 m hm
    omega

theorem Card.holds_minus_one {c : Card} (hm : c.max ≠ .intMax 0) (n : Nat) :
    (c.minus 1).Holds n ↔ c.Holds (n + 1) := by
  obtain ⟨mn, mx⟩ := c
  simp only [Card.minus, Card.Holds]
  cases mx with
  | unbounded => simp [Mx.minus]
  | intMax m =>
    cases m with
    | zero => simp at hm
    | succ m =>
      simp only [Mx.minus, Mx.intMax.injEq, forall_eq']
      split <;> omega

theorem Card.holds_zero_zero {c : Card} (h : c.is00 = true) (n : Nat) : c.Holds n ↔ n = 0 := by
  simp only [Card.is00, Bool.and_eq_true, beq_iff_eq] at h
  simp only [Card.Holds, h.1, h.2, Mx.intMax.injEq, forall_eq']
  omega

theorem Card.holds_one_one {c : Card} (h : c.is11 = true) (n : Nat) : c.Holds n ↔ n = 1 := by
  simp only [Card.is11, Bool.and_eq_true, beq_iff_eq] at h
  simp only [Card.Holds, h.1, h.2, Mx.intMax.injEq, forall_eq']
  omega

open Expr in
theorem lang_mkAnd (e1 e2 : Expr A) (s : Multiset A) :
    Lang (mkAnd e1 e2) s ↔ LangAll [e1, e2] s := by
  have hE : ∀ (e : Expr A), Lang e s ↔ LangAll [.empty, e] s := by
    intro e
    simp only [LangAll, Lang]
    constructor
    · intro h; exact ⟨0, s, by simp, rfl, s, 0, by simp, h, rfl⟩
    · rintro ⟨_, _, rfl, rfl, t, _, rfl, ht, rfl⟩; simpa using ht
  have hE' : ∀ (e : Expr A), Lang e s ↔ LangAll [e, .empty] s := by
    intro e
    simp only [LangAll, Lang]
    constructor
    · intro h; exact ⟨s, 0, by simp, h, 0, 0, by simp, rfl, rfl⟩
    · rintro ⟨t, _, rfl, ht, _, _, rfl, rfl, rfl⟩; simpa using ht
  have hF : ∀ (e : Expr A), ¬ LangAll [.fail, e] s := by
    intro e; simp [LangAll, Lang]
  have hF' : ∀ (e : Expr A), ¬ LangAll [e, .fail] s := by
    intro e; simp [LangAll, Lang]
  have hfalse : ¬ Lang (.fail : Expr A) s := by simp [Lang]
  unfold mkAnd
  split
  · exact hE _
  · exact hE' _
  · exact ⟨fun h => absurd h hfalse, fun h => absurd h (hF _)⟩
  · exact ⟨fun h => absurd h hfalse, fun h => absurd h (hF' _)⟩
  · simp only [Lang]

open Expr in
theorem lang_mkRange (e : Expr A) (c : Card) (s : Multiset A) (he : e ≠ .fail) :
    Lang (mkRange e c) s ↔ Lang (.repeat e c) s := by
  unfold mkRange
  split
  · rename_i h
    simp only [Lang, false_iff]
    rintro ⟨k, hk, _⟩
    exact Card.not_holds_of_bigger h k hk
  · rename_i hb
    have hc := Card.holds_of_bigger (Bool.eq_false_iff.2 hb)
    split
    · rename_i h
      simp only [Lang, Card.holds_zero_zero h, exists_eq_left, sumOf_zero]
    · split
      · rename_i h
        simp only [Lang, Card.holds_one_one h, exists_eq_left, sumOf_one]
      · split
        · exact absurd rfl he
        · simp only [Lang]
          constructor
          · rintro rfl
            exact ⟨c.min, hc, sumOf_nil_of (P := fun t => t = 0) rfl _⟩
          · rintro ⟨k, _, l, _, hl, rfl⟩
            apply List.sum_eq_zero
            exact hl
        · rfl

open Expr in
theorem wf_mkRange (e : Expr A) (c : Card) (h : WF e) : WF (mkRange e c) := by
  unfold mkRange
  split
  · trivial
  · rename_i hb
    split
    · trivial
    · rename_i h00
      split
      · exact h
      · split
        · trivial
        · trivial
        · refine ⟨Card.holds_of_bigger (Bool.eq_false_iff.2 hb), ?_, h⟩
          intro hm
          apply h00
          have hb' := Bool.eq_false_iff.2 hb
          rw [hm] at hb'
          simp only [bigger, gt_iff_lt, decide_eq_false_iff_not, not_lt, Nat.le_zero_eq] at hb'
          simp [Card.is00, hb', hm]

open Expr in
theorem wf_mkAnd (e1 e2 : Expr A) (h1 : WF e1) (h2 : WF e2) : WF (mkAnd e1 e2) := by
  unfold mkAnd
  split
  · exact h2
  · exact h1
  · trivial
  · trivial
  · exact ⟨h1, h2, trivial⟩

section
variable [DecidableEq A]

mutual
theorem beq_eq : ∀ (e1 e2 : Expr A), Expr.beq e1 e2 = true → e1 = e2
  | .fail, .fail, _ => rfl
  | .empty, .empty, _ => rfl
  | .symbol v c, .symbol w d, h => by
    simp only [Expr.beq, Bool.and_eq_true, decide_eq_true_eq] at h
    rw [h.1, h.2]
  | .and vs, .and ws, h => by
    simp only [Expr.beq] at h
    rw [beqList_eq vs ws h]
  | .or vs, .or ws, h => by
    simp only [Expr.beq] at h
    rw [beqList_eq vs ws h]
  | .star v, .star w, h => by
    simp only [Expr.beq] at h
    rw [beq_eq v w h]
  | .plus v, .plus w, h => by
    simp only [Expr.beq] at h
    rw [beq_eq v w h]
  | .repeat v c, .repeat w d, h => by
    simp only [Expr.beq, Bool.and_eq_true, decide_eq_true_eq] at h
    rw [beq_eq v w h.1, h.2]
  | .fail, .empty, h | .fail, .symbol _ _, h | .fail, .and _, h | .fail, .or _, h
  | .fail, .star _, h | .fail, .plus _, h | .fail, .repeat _ _, h
  | .empty, .fail, h | .empty, .symbol _ _, h | .empty, .and _, h | .empty, .or _, h
  | .empty, .star _, h | .empty, .plus _, h | .empty, .repeat _ _, h
  | .symbol _ _, .fail, h | .symbol _ _, .empty, h | .symbol _ _, .and _, h
  | .symbol _ _, .or _, h | .symbol _ _, .star _, h | .symbol _ _, .plus _, h
  | .symbol _ _, .repeat _ _, h
  | .and _, .fail, h | .and _, .empty, h | .and _, .symbol _ _, h | .and _, .or _, h
  | .and _, .star _, h | .and _, .plus _, h | .and _, .repeat _ _, h
  | .or _, .fail, h | .or _, .empty, h | .or _, .symbol _ _, h | .or _, .and _, h
  | .or _, .star _, h | .or _, .plus _, h | .or _, .repeat _ _, h
  | .star _, .fail, h | .star _, .empty, h | .star _, .symbol _ _, h | .star _, .and _, h
  | .star _, .or _, h | .star _, .plus _, h | .star _, .repeat _ _, h
  | .plus _, .fail, h | .plus _, .empty, h | .plus _, .symbol _ _, h | .plus _, .and _, h
  | .plus _, .or _, h | .plus _, .star _, h | .plus _, .repeat _ _, h
  | .repeat _ _, .fail, h | .repeat _ _, .empty, h | .repeat _ _, .symbol _ _, h
  | .repeat _ _, .and _, h | .repeat _ _, .or _, h | .repeat _ _, .star _, h
  | .repeat _ _, .plus _, h => by simp [Expr.beq] at h
theorem beqList_eq : ∀ (vs ws : List (Expr A)), Expr.beqList vs ws = true → vs = ws
  | [], [], _ => rfl
  | v :: vs, w :: ws, h => by
    simp only [Expr.beqList, Bool.and_eq_true] at h
    rw [beq_eq v w h.1, beqList_eq vs ws h.2]
  | [], _ :: _, h | _ :: _, [], h => by simp [Expr.beqList] at h
end

open Expr in
theorem lang_mkOr (e1 e2 : Expr A) (s : Multiset A) :
    Lang (mkOr e1 e2) s ↔ Lang e1 s ∨ Lang e2 s := by
  unfold mkOr
  split
  · simp [Lang]
  · simp [Lang]
  · split
    · rename_i h
      rw [← beq_eq _ _ h]
      simp
    · simp [Lang, LangSome]

open Expr in
theorem wf_mkOr (e1 e2 : Expr A) (h1 : WF e1) (h2 : WF e2) : WF (mkOr e1 e2) := by
  unfold mkOr
  split
  · exact h2
  · exact h1
  · split
    · exact h1
    · exact ⟨by simp, h1, h2, trivial⟩

open Expr in
theorem lang_foldl_mkOr (vs : List (Expr A)) (acc : Expr A) (s : Multiset A) :
    Lang (vs.foldl mkOr acc) s ↔ Lang acc s ∨ ∃ v ∈ vs, Lang v s := by
  induction vs generalizing acc with
  | nil => simp
  | cons v vs ih =>
    simp only [List.foldl_cons, ih, lang_mkOr, List.mem_cons, exists_eq_or_imp, or_assoc]

open Expr in
theorem wf_foldl_mkOr (vs : List (Expr A)) (acc : Expr A) (ha : WF acc) (h : ∀ v ∈ vs, WF v) :
    WF (vs.foldl mkOr acc) := by
  induction vs generalizing acc with
  | nil => exact ha
  | cons v vs ih =>
    simp only [List.foldl_cons]
    exact ih _ (wf_mkOr _ _ ha (h v (by simp))) (fun w hw => h w (by simp [hw]))

/-! ## Derivatives -/

open Expr in
theorem lang_orOfAnds (vss : List (List (Expr A))) (s : Multiset A) :
    Lang (orOfAnds vss) s ↔ ∃ vs ∈ vss, LangAll vs s := by
  unfold orOfAnds
  split
  · simp [Lang]
  · simp [Lang]
  · simp only [Lang, langSome_iff, List.mem_map]
    constructor
    · rintro ⟨_, ⟨vs, hvs, rfl⟩, h⟩
      exact ⟨vs, hvs, h⟩
    · rintro ⟨vs, hvs, h⟩
      exact ⟨_, ⟨vs, hvs, rfl⟩, h⟩

open Expr in
theorem wf_orOfAnds (vss : List (List (Expr A))) (h : ∀ vs ∈ vss, WFList vs) :
    WF (orOfAnds vss) := by
  unfold orOfAnds
  split
  · trivial
  · exact h _ (by simp)
  · rename_i hne1 hne2
    refine ⟨?_, wfList_iff.2 ?_⟩
    · intro h0
      rw [List.map_eq_nil_iff] at h0
      exact hne1 h0
    · intro v hv
      obtain ⟨vs, hvs, rfl⟩ := List.mem_map.1 hv
      exact h vs hvs

theorem lang_notFail {e d : Expr A} (h : Expr.notFail e = some d) : d = e := by
  unfold Expr.notFail at h
  split at h
  · cases h
  · injection h with h; exact h.symm

theorem notFail_none {e : Expr A} (h : Expr.notFail e = none) : e = .fail := by
  unfold Expr.notFail at h
  split at h
  · rfl
  · cases h

open Expr in
theorem derivPairs_fst (op : Bool) (ctl : List A) (x : A) (n : Nat) (vs : List (Expr A)) :
    (derivPairs op ctl x n vs).map Prod.fst = vs := by
  induction vs with
  | nil => rfl
  | cons v vs ih => simp [derivPairs, ih]

open Expr in
theorem derivList_eq (op : Bool) (ctl : List A) (x : A) (n : Nat) (vs : List (Expr A)) :
    derivList op ctl x n vs = vs.map (deriv op ctl x n) := by
  induction vs with
  | nil => rfl
  | cons v vs ih => simp [derivList, ih]

open Expr in
theorem langAll_derivN (op : Bool) (ctl : List A) (x : A) (vs : List (Expr A))
    (ih : ∀ v ∈ vs, ∀ s, Lang (deriv op ctl x 1 v) s ↔ Lang v (x ::ₘ s)) :
    ∀ (pre : List (Expr A)) (s : Multiset A),
      (∃ ws ∈ derivN pre (derivPairs op ctl x 1 vs), LangAll ws s) ↔
        ∃ t u, s = t + u ∧ LangAll pre t ∧ LangAll vs (x ::ₘ u) := by
  induction vs with
  | nil => intro pre s; simp [derivPairs, derivN, LangAll]
  | cons v vs ihv =>
    intro pre s
    have hv := ih v (by simp)
    have hvs := ihv (fun w hw => ih w (by simp [hw]))
    have hsplit : (∃ t u, s = t + u ∧ LangAll pre t ∧ LangAll (v :: vs) (x ::ₘ u)) ↔
        LangAll (pre ++ deriv op ctl x 1 v :: vs) s ∨
          ∃ t u, s = t + u ∧ LangAll (pre ++ [v]) t ∧ LangAll vs (x ::ₘ u) := by
      constructor
      · rintro ⟨t, u, rfl, ht, p, q, hpq, hp, hq⟩
        rcases cons_eq_add hpq with ⟨p', rfl, rfl⟩ | ⟨q', rfl, rfl⟩
        · left
          exact langAll_append.2 ⟨t, p' + q, rfl, ht, p', q, rfl, (hv _).2 hp, hq⟩
        · right
          refine ⟨t + p, q', by rw [add_assoc], ?_, hq⟩
          exact langAll_append.2 ⟨t, p, rfl, ht, langAll_singleton.2 hp⟩
      · rintro (h | ⟨t, u, rfl, ht, hu⟩)
        · obtain ⟨t, u, rfl, ht, p, q, rfl, hp, hq⟩ := langAll_append.1 h
          exact ⟨t, p + q, rfl, ht, x ::ₘ p, q, by simp, (hv _).1 hp, hq⟩
        · obtain ⟨t1, t2, rfl, ht1, ht2⟩ := langAll_append.1 ht
          refine ⟨t1, t2 + u, by rw [add_assoc], ht1, t2, x ::ₘ u, by simp, ?_, hu⟩
          exact langAll_singleton.1 ht2
    rw [hsplit, ← hvs (pre ++ [v]) s]
    simp only [derivPairs]
    cases hn : notFail (deriv op ctl x 1 v) with
    | none =>
      simp only [derivN]
      have hf := notFail_none hn
      constructor
      · intro h; exact Or.inr h
      · rintro (h | h)
        · exfalso
          obtain ⟨_, _, _, _, p, q, _, hp, _⟩ := langAll_append.1 h
          rw [hf] at hp
          simp [Lang] at hp
        · exact h
    | some d =>
      have hd := lang_notFail hn
      subst hd
      simp only [derivN, List.mem_cons, exists_eq_or_imp, derivPairs_fst]

open Expr in
theorem wf_derivN (op : Bool) (ctl : List A) (x : A) (n : Nat) (vs : List (Expr A))
    (ih : ∀ v ∈ vs, WF v ∧ WF (deriv op ctl x n v)) :
    ∀ (pre : List (Expr A)), (∀ v ∈ pre, WF v) →
      ∀ ws ∈ derivN pre (derivPairs op ctl x n vs), WFList ws := by
  induction vs with
  | nil => intro pre _ ws h; simp [derivPairs, derivN] at h
  | cons v vs ihv =>
    intro pre hpre ws hws
    have hrec := ihv (fun w hw => ih w (by simp [hw])) (pre ++ [v]) (by
      intro w hw
      rcases List.mem_append.1 hw with hw | hw
      · exact hpre w hw
      · rw [List.mem_singleton] at hw; subst hw; exact (ih _ (by simp)).1)
    simp only [derivPairs] at hws
    cases hn : notFail (deriv op ctl x n v) with
    | none =>
      rw [hn] at hws
      simp only [derivN] at hws
      exact hrec ws hws
    | some d =>
      have hd := lang_notFail hn
      subst hd
      rw [hn] at hws
      simp only [derivN, List.mem_cons, derivPairs_fst] at hws
      rcases hws with rfl | hws
      · rw [wfList_iff]
        intro w hw
        rcases List.mem_append.1 hw with hw | hw
        · exact hpre w hw
        · rcases List.mem_cons.1 hw with rfl | hw
          · exact (ih v (by simp)).2
          · exact (ih w (by simp [hw])).1
      · exact hrec ws hws

open Expr in
/-- Derivatives of well-formed expressions are well-formed. -/
theorem wf_deriv (op : Bool) (ctl : List A) (x : A) (n : Nat) (e : Expr A) (h : WF e) :
    WF (deriv op ctl x n e) := by
  induction e using Expr.ind with
  | hfail => trivial
  | hempty => simp only [deriv]; split <;> trivial
  | hsym v c =>
    simp only [deriv, mkRangeSymbol]
    repeat' split
    all_goals trivial
  | hand vs ih =>
    have hvs : ∀ v ∈ vs, WF v := wfList_iff.1 h
    simp only [deriv]
    apply wf_orOfAnds
    exact wf_derivN op ctl x n vs (fun v hv => ⟨hvs v hv, ih v hv (hvs v hv)⟩) [] (by simp)
  | hor vs ih =>
    have hvs : ∀ v ∈ vs, WF v := wfList_iff.1 h.2
    simp only [deriv, derivList_eq, mkOrValues]
    apply wf_foldl_mkOr _ Expr.fail trivial
    intro v hv
    obtain ⟨w, hw, rfl⟩ := List.mem_map.1 hv
    exact ih w hw (hvs w hw)
  | hstar v ih =>
    simp only [deriv]
    split
    · exact h
    · exact wf_mkAnd _ _ (ih h) h
  | hplus v ih =>
    simp only [deriv]
    exact wf_mkAnd _ _ (ih h) h
  | hrep v c ih =>
    simp only [deriv]
    split
    · split <;> trivial
    · exact wf_mkAnd _ _ (ih h.2.2) (wf_mkRange _ _ h.2.2)

open Expr in
/-- Closed derivative with respect to one occurrence: the language is the left quotient. -/
theorem lang_deriv (ctl : List A) (x : A) (e : Expr A) (hwf : WF e) (s : Multiset A) :
    Lang (deriv false ctl x 1 e) s ↔ Lang e (x ::ₘ s) := by
  induction e using Expr.ind generalizing s with
  | hfail => simp [deriv, Lang]
  | hempty => simp [deriv, Lang]
  | hsym v c =>
    simp only [deriv, Bool.false_and, Bool.false_eq_true, if_false]
    split
    · rename_i hx
      subst hx
      split
      · rename_i hm
        simp only [Lang, false_iff]
        rintro ⟨n, ⟨_, h2⟩, h3⟩
        have := h2 0 hm
        have h0 : n = 0 := by omega
        subst h0
        simp at h3
      · rename_i hm
        have hrs : Lang (mkRangeSymbol x (c.minus 1)) s ↔
            ∃ n, c.Holds (n + 1) ∧ s = Multiset.replicate n x := by
          unfold mkRangeSymbol
          split
          · rename_i hb
            simp only [Lang, false_iff]
            rintro ⟨n, h, _⟩
            exact Card.not_holds_of_bigger hb n ((Card.holds_minus_one hm n).2 h)
          · simp only [Lang, Card.holds_minus_one hm]
        have hlang : (∃ n, c.Holds (n + 1) ∧ s = Multiset.replicate n x) ↔
            Lang (.symbol x c) (x ::ₘ s) := by
          simp only [Lang]
          constructor
          · rintro ⟨n, h, rfl⟩
            exact ⟨n + 1, h, by rw [Multiset.replicate_succ]⟩
          · rintro ⟨n, h, he⟩
            cases n with
            | zero => simp at he
            | succ n =>
              rw [Multiset.replicate_succ, Multiset.cons_inj_right] at he
              exact ⟨n, h, he⟩
        split
        · rw [hrs, hlang]
        · rename_i hg
          exfalso
          cases hmx : c.max with
          | unbounded => rw [hmx] at hg; simp [Mx.geq] at hg
          | intMax m =>
            rw [hmx] at hg
            simp only [Mx.geq, ge_iff_le, decide_eq_true_eq, not_le] at hg
            have : m = 0 := by omega
            subst this
            exact hm hmx
    · rename_i hx
      simp only [Lang, false_iff]
      rintro ⟨n, _, he⟩
      have : x ∈ Multiset.replicate n v := by rw [← he]; simp
      exact hx (Multiset.eq_of_mem_replicate this)
  | hand vs ih =>
    have hvs : ∀ v ∈ vs, WF v := wfList_iff.1 hwf
    simp only [deriv, lang_orOfAnds]
    rw [langAll_derivN false ctl x vs (fun v hv s => ih v hv (hvs v hv) s) [] s]
    simp only [LangAll, Lang]
    constructor
    · rintro ⟨_, u, rfl, rfl, h⟩; simpa using h
    · intro h; exact ⟨0, s, by simp, rfl, h⟩
  | hor vs ih =>
    have hvs : ∀ v ∈ vs, WF v := wfList_iff.1 hwf.2
    simp only [deriv, derivList_eq, mkOrValues, lang_foldl_mkOr, Lang, false_or, langSome_iff,
      List.mem_map]
    constructor
    · rintro ⟨_, ⟨v, hv, rfl⟩, h⟩
      exact ⟨v, hv, (ih v hv (hvs v hv) s).1 h⟩
    · rintro ⟨v, hv, h⟩
      exact ⟨_, ⟨v, hv, rfl⟩, (ih v hv (hvs v hv) s).2 h⟩
  | hstar v ih =>
    simp only [deriv, Bool.false_and, Bool.false_eq_true, if_false, lang_mkAnd, LangAll, Lang]
    constructor
    · rintro ⟨t, _, rfl, ht, u, _, rfl, ⟨k, hk⟩, rfl⟩
      refine ⟨k + 1, sumOf_cons.2 ⟨k, rfl, t, u, by simp, (ih hwf _).1 ht, hk⟩⟩
    · rintro ⟨k, hk⟩
      obtain ⟨j, rfl, t, u, rfl, ht, hu⟩ := sumOf_cons.1 hk
      exact ⟨t, u, rfl, (ih hwf _).2 ht, u, 0, by simp, ⟨j, hu⟩, rfl⟩
  | hplus v ih =>
    simp only [deriv, lang_mkAnd, LangAll, Lang]
    constructor
    · rintro ⟨t, _, rfl, ht, u, _, rfl, ⟨k, hk⟩, rfl⟩
      refine ⟨k + 1, by omega, sumOf_cons.2 ⟨k, rfl, t, u, by simp, (ih hwf _).1 ht, hk⟩⟩
    · rintro ⟨k, _, hk⟩
      obtain ⟨j, rfl, t, u, rfl, ht, hu⟩ := sumOf_cons.1 hk
      exact ⟨t, u, rfl, (ih hwf _).2 ht, u, 0, by simp, ⟨j, hu⟩, rfl⟩
  | hrep v c ih =>
    obtain ⟨hc, hm, hv⟩ := hwf
    have h00 : c.is00 = false := by
      simp only [Card.is00, Bool.and_eq_false_iff, beq_eq_false_iff_ne]
      exact Or.inr hm
    simp only [deriv, h00, Bool.false_eq_true, if_false, lang_mkAnd]
    by_cases hf : v = .fail
    · subst hf
      simp only [deriv, LangAll, Lang]
      constructor
      · rintro ⟨_, _, _, h, _⟩; exact h.elim
      · rintro ⟨k, _, hk⟩
        obtain ⟨j, rfl, t, u, rfl, ht, hu⟩ := sumOf_cons.1 hk
        exact ht.elim
    · have hmr := fun s => lang_mkRange v (c.minus 1) s hf
      simp only [LangAll, hmr]
      simp only [Lang, Card.holds_minus_one hm]
      constructor
      · rintro ⟨t, _, rfl, ht, u, _, rfl, ⟨k, hk, hs⟩, rfl⟩
        exact ⟨k + 1, hk, sumOf_cons.2 ⟨k, rfl, t, u, by simp, (ih hv _).1 ht, hs⟩⟩
      · rintro ⟨k, hk, hs⟩
        obtain ⟨j, rfl, t, u, rfl, ht, hu⟩ := sumOf_cons.1 hs
        exact ⟨t, u, rfl, (ih hv _).2 ht, u, 0, by simp, ⟨j, hk, hu⟩, rfl⟩

open Expr in
theorem derivTimes_spec (ctl : List A) (x : A) (k : Nat) (e : Expr A) (hwf : WF e) :
    WF (derivTimes false ctl x k e) ∧
      ∀ s, Lang (derivTimes false ctl x k e) s ↔ Lang e (Multiset.replicate k x + s) := by
  induction k generalizing e with
  | zero => exact ⟨hwf, by simp [derivTimes]⟩
  | succ k ih =>
    have hd := lang_deriv ctl x e hwf
    have hw := wf_deriv false ctl x 1 e hwf
    simp only [derivTimes]
    split
    · rename_i hf
      refine ⟨trivial, fun s => ?_⟩
      rw [hf] at hd
      rw [Multiset.replicate_succ, Multiset.cons_add, ← hd]
      simp [Lang]
    · refine ⟨(ih _ hw).1, fun s => ?_⟩
      rw [(ih _ hw).2, hd, Multiset.replicate_succ, Multiset.cons_add]

open Expr in
theorem derivBag_spec (ctl : List A) (bag : List (A × Nat)) (e : Expr A) (hwf : WF e) :
    WF (derivBag false ctl bag e) ∧
      ∀ s, Lang (derivBag false ctl bag e) s ↔ Lang e (bagOf bag + s) := by
  induction bag generalizing e with
  | nil => exact ⟨hwf, by simp [derivBag, bagOf]⟩
  | cons p rest ih =>
    obtain ⟨x, k⟩ := p
    obtain ⟨hw, hl⟩ := derivTimes_spec ctl x k e hwf
    have hbag : ∀ s, bagOf ((x, k) :: rest) + s = Multiset.replicate k x + (bagOf rest + s) := by
      intro s; simp [bagOf, add_assoc]
    simp only [derivBag]
    split
    · rename_i hf
      refine ⟨trivial, fun s => ?_⟩
      rw [hf] at hl
      rw [hbag, ← hl]
      simp [Lang]
    · refine ⟨(ih _ hw).1, fun s => ?_⟩
      rw [(ih _ hw).2, hl, hbag]

open Expr in
theorem matchBagDeriv_iff (e : Expr A) (bag : List (A × Nat)) (hwf : WF e) :
    matchBagDeriv e bag false = true ↔ Lang e (bagOf bag) := by
  obtain ⟨hw, hl⟩ := derivBag_spec (symbols e) bag e hwf
  have h0 := hl 0
  rw [add_zero] at h0
  unfold matchBagDeriv
  split
  · rename_i hf
    rw [hf] at h0
    rw [← h0]
    simp [Lang]
  · rw [isNullable_iff _ (sane_of_wf _ hw), h0]

end

end Rbe
