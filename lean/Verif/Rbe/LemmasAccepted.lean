import Verif.Rbe.SpecAccepted
import Verif.Rbe.LemmasDeriv

/-!
# Helper lemmas: derivatives of arbitrary expressions
-/

set_option linter.unusedSectionVars false

namespace Rbe
variable {A : Type}

/-- What an element of a sequence accepts there. -/
def Part (v : Expr A) (t : Multiset A) : Prop := Accepted v t ∨ (Hollow v ∧ t = 0)

theorem hollowAll_iff {vs : List (Expr A)} : HollowAll vs ↔ ∀ v ∈ vs, Hollow v := by
  induction vs with
  | nil => simp [HollowAll]
  | cons v vs ih => simp [HollowAll, ih]

theorem acceptedSome_iff {vs : List (Expr A)} {s : Multiset A} :
    AcceptedSome vs s ↔ ∃ v ∈ vs, Accepted v s := by
  induction vs with
  | nil => simp [AcceptedSome]
  | cons v vs ih => simp [AcceptedSome, ih]

theorem acceptedAll_append {vs ws : List (Expr A)} {s : Multiset A} :
    AcceptedAll (vs ++ ws) s ↔ ∃ t u, s = t + u ∧ AcceptedAll vs t ∧ AcceptedAll ws u := by
  induction vs generalizing s with
  | nil =>
    constructor
    · intro h; exact ⟨0, s, by simp, rfl, h⟩
    · rintro ⟨t, u, rfl, ht, hu⟩
      have : t = 0 := ht
      subst this
      simpa using hu
  | cons v vs ih =>
    simp only [List.cons_append, AcceptedAll]
    constructor
    · rintro ⟨t, u, rfl, ht, hu⟩
      obtain ⟨p, q, rfl, hp, hq⟩ := ih.1 hu
      exact ⟨t + p, q, by rw [add_assoc], ⟨t, p, rfl, ht, hp⟩, hq⟩
    · rintro ⟨_, u, rfl, ⟨t, p, rfl, ht, hp⟩, hu⟩
      exact ⟨t, p + u, by rw [add_assoc], ht, ih.2 ⟨p, u, rfl, hp, hu⟩⟩

theorem acceptedAll_singleton {v : Expr A} {s : Multiset A} : AcceptedAll [v] s ↔ Part v s := by
  simp only [AcceptedAll]
  constructor
  · rintro ⟨t, u, rfl, ht, rfl⟩
    rw [add_zero]
    exact ht
  · intro h
    exact ⟨s, 0, by simp, h, rfl⟩

theorem acceptedAll_zero {vs : List (Expr A)} : AcceptedAll vs 0 ↔ ∀ v ∈ vs, Accepted v 0 ∨ Hollow v := by
  induction vs with
  | nil => simp [AcceptedAll]
  | cons v vs ih =>
    simp only [AcceptedAll, List.mem_cons, forall_eq_or_imp]
    constructor
    · rintro ⟨t, u, htu, ht, hu⟩
      obtain ⟨rfl, rfl⟩ := bag_add_eq_zero htu.symm
      exact ⟨ht.imp id And.left, ih.1 hu⟩
    · rintro ⟨hv, hvs⟩
      exact ⟨0, 0, by simp, hv.imp id (fun h => ⟨h, rfl⟩), ih.2 hvs⟩

open Expr in
theorem errs_zero {rs : List (Mand A)} : Mand.errs rs = 0 ↔ ∀ n, Mand.left n ∈ rs → n = 0 := by
  induction rs with
  | nil => simp [Mand.errs]
  | cons r rs ih =>
    cases r with
    | left n => simp [Mand.errs, ih]
    | right l => simp [Mand.errs, ih]

open Expr in
/-- Nullability is acceptance of the empty bag, and `Left` without errors is hollowness. -/
theorem mandatory_accepted (e : Expr A) :
    ((mandatory e).isRightNil = true ↔ Accepted e 0) ∧ (mandatory e = .left 0 ↔ Hollow e) := by
  induction e using Expr.ind with
  | hfail => simp [mandatory, Mand.isRightNil, Accepted, Hollow]
  | hempty => simp [mandatory, Mand.isRightNil, Accepted, Hollow]
  | hsym v c =>
    have := (mandatory_spec (.symbol v c) trivial).1
    refine ⟨this.trans (by simp [Lang, Accepted]), ?_⟩
    simp only [mandatory, Hollow, iff_false]
    split <;> simp
  | hand vs ih =>
    constructor
    · simp only [mandatory, mandatoryList_eq, Accepted, acceptedAll_zero]
      by_cases h0 : Mand.errs (vs.map mandatory) = 0
      · rw [if_pos h0, isRightNil_iff]
        have hr := errs_zero.1 h0
        constructor
        · intro h v hv
          injection h with h
          rw [vals_eq_nil] at h
          cases hm : mandatory v with
          | left n =>
            have := hr n (hm ▸ List.mem_map.2 ⟨v, hv, rfl⟩)
            subst this
            exact Or.inr ((ih v hv).2.1 hm)
          | right l =>
            have := h l (hm ▸ List.mem_map.2 ⟨v, hv, rfl⟩)
            subst this
            exact Or.inl ((ih v hv).1.1 (by rw [hm]; rfl))
        · intro h
          congr 1
          rw [vals_eq_nil]
          intro l hl
          obtain ⟨v, hv, he⟩ := List.mem_map.1 hl
          rcases h v hv with h | h
          · have := (ih v hv).1.2 h
            rw [he, isRightNil_iff] at this
            injection this
          · have := (ih v hv).2.2 h
            rw [he] at this
            cases this
      · rw [if_neg h0]
        simp only [Mand.isRightNil, Bool.false_eq_true, false_iff]
        intro h
        apply h0
        rw [errs_zero]
        intro n hn
        obtain ⟨v, hv, he⟩ := List.mem_map.1 hn
        rcases h v hv with h | h
        · have := (ih v hv).1.2 h
          rw [he] at this
          simp [Mand.isRightNil] at this
        · have := (ih v hv).2.2 h
          rw [he] at this
          injection this
    · simp only [mandatory, mandatoryList_eq, Hollow, iff_false]
      split
      · simp
      · rename_i h0
        intro h
        injection h with h
        exact h0 h
  | hor vs ih =>
    constructor
    · simp only [mandatory, mandatoryList_eq, Accepted, acceptedSome_iff]
      by_cases h0 : (vs.map mandatory).any Mand.isRightNil = true
      · rw [if_pos h0]
        simp only [Mand.isRightNil, true_iff]
        rw [List.any_eq_true] at h0
        obtain ⟨r, hr, hn⟩ := h0
        obtain ⟨v, hv, rfl⟩ := List.mem_map.1 hr
        exact ⟨v, hv, (ih v hv).1.1 hn⟩
      · rw [if_neg h0]
        have hno : ¬ ∃ v ∈ vs, Accepted v 0 := by
          rintro ⟨v, hv, hl⟩
          apply h0
          rw [List.any_eq_true]
          exact ⟨mandatory v, List.mem_map.2 ⟨v, hv, rfl⟩, (ih v hv).1.2 hl⟩
        simp only [hno, iff_false]
        split
        · simp [Mand.isRightNil]
        · rename_i hv
          cases hvals : Mand.vals (vs.map mandatory) with
          | nil => simp [hvals] at hv
          | cons a l => simp [Mand.isRightNil]
    · simp only [mandatory, mandatoryList_eq, Hollow, hollowAll_iff]
      split
      · rename_i h0
        simp only [reduceCtorEq, false_iff, not_forall]
        rw [List.any_eq_true] at h0
        obtain ⟨r, hr, hn⟩ := h0
        obtain ⟨v, hv, rfl⟩ := List.mem_map.1 hr
        refine ⟨v, hv, fun hh => ?_⟩
        rw [(ih v hv).2.2 hh] at hn
        simp [Mand.isRightNil] at hn
      · rename_i h0
        split
        · rename_i hv
          rw [List.isEmpty_iff, vals_eq_nil] at hv
          simp only [Mand.left.injEq, errs_zero]
          constructor
          · intro h v hv'
            cases hm : mandatory v with
            | left n =>
              have := h n (hm ▸ List.mem_map.2 ⟨v, hv', rfl⟩)
              subst this
              exact (ih v hv').2.1 hm
            | right l =>
              have := hv l (hm ▸ List.mem_map.2 ⟨v, hv', rfl⟩)
              subst this
              exact absurd (List.any_eq_true.2 ⟨_, List.mem_map.2 ⟨v, hv', rfl⟩, by rw [hm]; rfl⟩) h0
          · intro h n hn
            obtain ⟨v, hv', he⟩ := List.mem_map.1 hn
            have := (ih v hv').2.2 (h v hv')
            rw [he] at this
            injection this
        · rename_i hv
          simp only [reduceCtorEq, false_iff]
          intro h
          apply hv
          rw [List.isEmpty_iff, vals_eq_nil]
          intro l hl
          obtain ⟨v, hv', he⟩ := List.mem_map.1 hl
          have := (ih v hv').2.2 (h v hv')
          rw [he] at this
          cases this
  | hstar v ih =>
    simp only [mandatory, Mand.isRightNil, Accepted, true_iff, Hollow, reduceCtorEq, and_true]
    exact ⟨0, sumOf_zero.2 rfl⟩
  | hplus v ih =>
    simp only [mandatory, Accepted, Hollow]
    refine ⟨ih.1.trans ⟨fun h => ⟨1, le_refl _, sumOf_one.2 h⟩, ?_⟩, ih.2⟩
    rintro ⟨k, hk, h⟩
    obtain ⟨j, rfl⟩ : ∃ j, k = j + 1 := ⟨k - 1, by omega⟩
    exact sumOf_zero_bag h
  | hrep v c ih =>
    obtain ⟨mn, mx⟩ := c
    by_cases h : mn = 0
    · subst h
      simp only [mandatory, if_true, Mand.isRightNil, Accepted, true_iff, Hollow, reduceCtorEq, ne_eq,
        not_true_eq_false, false_and, and_true, GroupAccepts]
      by_cases hx : mx = .intMax 0
      · subst hx; exact Or.inl ⟨rfl, Or.inl trivial⟩
      · refine Or.inr (Or.inr (Or.inr ⟨by simpa using hx, ?_, 0, ⟨le_refl _, fun _ _ => Nat.zero_le _⟩, sumOf_zero.2 rfl⟩))
        rintro ⟨m, _, hm⟩
        exact absurd hm (Nat.not_lt_zero _)
    · simp only [mandatory, h, if_false, Accepted, Hollow, ne_eq, not_false_eq_true, true_and]
      refine ⟨ih.1.trans ⟨fun hl => ?_, ?_⟩, ih.2⟩
      · unfold GroupAccepts
        by_cases hc : Card.Crossed ⟨mn, mx⟩
        · by_cases h10 : (⟨mn, mx⟩ : Card) = ⟨1, .intMax 0⟩
          · exact Or.inr (Or.inl ⟨h10, hl⟩)
          · exact Or.inr (Or.inr (Or.inl ⟨h10, hc, rfl, hl⟩))
        · refine Or.inr (Or.inr (Or.inr ⟨?_, hc, mn, ⟨le_refl _, ?_⟩, sumOf_nil_of hl _⟩))
          · intro he; injection he with h1 _; exact h h1
          · intro m hm
            by_contra hlt
            exact hc ⟨m, hm, by simpa using hlt⟩
      · rintro (⟨he, _⟩ | ⟨_, hp⟩ | ⟨_, _, _, hp⟩ | ⟨_, _, k, hk, hs⟩)
        · injection he with h1 _; exact absurd h1 h
        · exact hp
        · exact hp
        · have := hk.1
          simp only at this
          obtain ⟨j, rfl⟩ : ∃ j, k = j + 1 := ⟨k - 1, by omega⟩
          exact sumOf_zero_bag hs

theorem isNullable_accepted (e : Expr A) : e.isNullable = true ↔ Accepted e 0 := (mandatory_accepted e).1

/-! ## Smart constructors -/

open Expr in
theorem accepted_mkAnd (e1 e2 : Expr A) (s : Multiset A) (h1 : ¬ Hollow e1) (h2 : e1 = .fail ∨ ¬ Hollow e2) :
    Accepted (mkAnd e1 e2) s ↔ ∃ t u, s = t + u ∧ Accepted e1 t ∧ Accepted e2 u := by
  have hfalse : ¬ Accepted (.fail : Expr A) s := by simp [Accepted]
  unfold mkAnd
  split
  · simp only [Accepted]
    constructor
    · intro h; exact ⟨0, s, by simp, rfl, h⟩
    · rintro ⟨_, _, rfl, rfl, h⟩; simpa using h
  · simp only [Accepted]
    constructor
    · intro h; exact ⟨s, 0, by simp, h, rfl⟩
    · rintro ⟨_, _, rfl, h, rfl⟩; simpa using h
  · simp [Accepted]
  · simp [Accepted]
  · rename_i hn1 _ hf1 _
    have h2' : ¬ Hollow e2 := h2.resolve_left (fun h => by
      subst h
      simp_all)
    simp only [Accepted, AcceptedAll, h1, h2', false_and, or_false]
    constructor
    · rintro ⟨t, _, rfl, ht, u, _, rfl, hu, rfl⟩
      exact ⟨t, u, by simp, ht, hu⟩
    · rintro ⟨t, u, rfl, ht, hu⟩
      exact ⟨t, u, rfl, ht, u, 0, by simp, hu, rfl⟩

theorem not_crossed {c : Card} (h : ¬ Expr.bigger c.min c.max = true) : ¬ c.Crossed := by
  rintro ⟨m, hm, hlt⟩
  apply h
  simp [hm, Expr.bigger, hlt]

theorem crossed_bigger {c : Card} (h : Expr.bigger c.min c.max = true) : c.Crossed := by
  cases hm : c.max with
  | unbounded => rw [hm] at h; simp [Expr.bigger] at h
  | intMax m =>
    rw [hm] at h
    simp only [Expr.bigger, gt_iff_lt, decide_eq_true_eq] at h
    exact ⟨m, hm, h⟩

open Expr in
theorem accepted_mkRange (e : Expr A) (c : Card) (s : Multiset A) (he : e ≠ .fail) :
    Accepted (mkRange e c) s ↔ ∃ k, c.Holds k ∧ SumOf (fun t => Accepted e t) k s := by
  unfold mkRange
  split
  · rename_i h
    simp only [Accepted, false_iff]
    rintro ⟨k, hk, _⟩
    exact Card.not_holds_of_bigger h k hk
  · rename_i hb
    have hc := Card.holds_of_bigger (Bool.eq_false_iff.2 hb)
    split
    · rename_i h
      simp only [Accepted, Card.holds_zero_zero h, exists_eq_left, sumOf_zero]
    · rename_i h00
      split
      · rename_i h
        simp only [Card.holds_one_one h, exists_eq_left, sumOf_one]
      · split
        · exact absurd rfl he
        · simp only [Accepted]
          constructor
          · rintro rfl
            exact ⟨c.min, hc, sumOf_nil_of (P := fun t => t = 0) rfl _⟩
          · rintro ⟨k, _, l, _, hl, rfl⟩
            apply List.sum_eq_zero
            exact hl
        · simp only [Accepted, GroupAccepts]
          have hnc := not_crossed hb
          have h1 : c ≠ ⟨0, .intMax 0⟩ := by rintro rfl; exact h00 (by decide)
          have h2 : c ≠ ⟨1, .intMax 0⟩ := by rintro rfl; exact hb (by decide)
          simp [h1, h2, hnc]

section
variable [DecidableEq A]

open Expr in
theorem accepted_mkOr (e1 e2 : Expr A) (s : Multiset A) :
    Accepted (mkOr e1 e2) s ↔ Accepted e1 s ∨ Accepted e2 s := by
  unfold mkOr
  split
  · simp [Accepted]
  · simp [Accepted]
  · split
    · rename_i h
      rw [← beq_eq _ _ h]
      simp
    · simp [Accepted, AcceptedSome]

open Expr in
theorem accepted_foldl_mkOr (vs : List (Expr A)) (acc : Expr A) (s : Multiset A) :
    Accepted (vs.foldl mkOr acc) s ↔ Accepted acc s ∨ ∃ v ∈ vs, Accepted v s := by
  induction vs generalizing acc with
  | nil => simp
  | cons v vs ih =>
    simp only [List.foldl_cons, ih, accepted_mkOr, List.mem_cons, exists_eq_or_imp, or_assoc]

open Expr in
theorem hollow_mkOr (e1 e2 : Expr A) (h1 : ¬ Hollow e1) (h2 : ¬ Hollow e2) : ¬ Hollow (mkOr e1 e2) := by
  unfold mkOr
  split
  · exact h2
  · exact h1
  · split
    · exact h1
    · simp [Hollow, HollowAll, h1]

open Expr in
theorem hollow_foldl_mkOr (vs : List (Expr A)) (acc : Expr A) (ha : ¬ Hollow acc) (h : ∀ v ∈ vs, ¬ Hollow v) :
    ¬ Hollow (vs.foldl mkOr acc) := by
  induction vs generalizing acc with
  | nil => exact ha
  | cons v vs ih =>
    simp only [List.foldl_cons]
    exact ih _ (hollow_mkOr _ _ ha (h v (by simp))) (fun w hw => h w (by simp [hw]))

open Expr in
theorem accepted_orOfAnds (vss : List (List (Expr A))) (s : Multiset A) :
    Accepted (orOfAnds vss) s ↔ ∃ vs ∈ vss, AcceptedAll vs s := by
  unfold orOfAnds
  split
  · simp [Accepted]
  · simp [Accepted]
  · simp only [Accepted, acceptedSome_iff, List.mem_map]
    constructor
    · rintro ⟨_, ⟨vs, hvs, rfl⟩, h⟩
      exact ⟨vs, hvs, h⟩
    · rintro ⟨vs, hvs, h⟩
      exact ⟨_, ⟨vs, hvs, rfl⟩, h⟩

open Expr in
theorem hollow_orOfAnds (vss : List (List (Expr A))) : ¬ Hollow (orOfAnds vss) := by
  unfold orOfAnds
  split
  · simp [Hollow]
  · simp [Hollow]
  · rename_i hne _
    cases vss with
    | nil => exact absurd rfl hne
    | cons v vs => simp [Hollow, HollowAll]

/-! ## Derivatives -/

open Expr in
/-- A hollow expression has no derivative. -/
theorem deriv_hollow (ctl : List A) (x : A) (e : Expr A) (h : Hollow e) : deriv false ctl x 1 e = .fail := by
  induction e using Expr.ind with
  | hfail => rfl
  | hempty => simp [Hollow] at h
  | hsym v c => simp [Hollow] at h
  | hand vs ih => simp [Hollow] at h
  | hor vs ih =>
    replace h := hollowAll_iff.1 h
    simp only [deriv, derivList_eq, mkOrValues]
    have : vs.map (deriv false ctl x 1) = vs.map fun _ => Expr.fail :=
      List.map_congr_left fun v hv => ih v hv (h v hv)
    rw [this]
    clear this ih h
    induction vs with
    | nil => rfl
    | cons v vs ih => simpa [mkOr] using ih
  | hstar v ih => simp [Hollow] at h
  | hplus v ih =>
    have := ih h
    simp only [deriv, this]
    simp [mkAnd]
  | hrep v c ih =>
    have := ih h.2
    have h00 : c.is00 = false := by simp [Card.is00, h.1]
    simp only [deriv, h00, this, Bool.false_eq_true, if_false]
    unfold mkAnd
    split <;> simp_all

open Expr in
theorem hollow_mkAnd (e1 e2 : Expr A) (h1 : ¬ Hollow e1) (h2 : e1 = .fail ∨ ¬ Hollow e2) : ¬ Hollow (mkAnd e1 e2) := by
  unfold mkAnd
  split
  · rcases h2 with h2 | h2
    · cases h2
    · exact h2
  · exact h1
  · simp [Hollow]
  · simp [Hollow]
  · simp [Hollow]

open Expr in
theorem hollow_mkRange (e : Expr A) (c : Card) (h : ¬ Hollow e) : ¬ Hollow (mkRange e c) := by
  unfold mkRange
  split
  · simp [Hollow]
  · split
    · simp [Hollow]
    · split
      · exact h
      · split
        · simp [Hollow]
        · simp [Hollow]
        · simp [Hollow, h]

open Expr in
/-- The second part of the derivative of a group is not hollow, unless the first fails. -/
theorem rest_not_hollow (ctl : List A) (x : A) (v : Expr A) (c : Card) :
    deriv false ctl x 1 v = .fail ∨ ¬ Hollow (mkRange v c) := by
  by_cases h : Hollow v
  · exact Or.inl (deriv_hollow ctl x v h)
  · exact Or.inr (hollow_mkRange v c h)

open Expr in
/-- No derivative is hollow. -/
theorem deriv_not_hollow (ctl : List A) (x : A) (e : Expr A) : ¬ Hollow (deriv false ctl x 1 e) := by
  induction e using Expr.ind with
  | hfail => simp [deriv, Hollow]
  | hempty => simp [deriv, Hollow]
  | hsym v c =>
    simp only [deriv, mkRangeSymbol]
    repeat' split
    all_goals simp [Hollow]
  | hand vs ih =>
    simp only [deriv]
    exact hollow_orOfAnds _
  | hor vs ih =>
    simp only [deriv, derivList_eq, mkOrValues]
    refine hollow_foldl_mkOr _ _ (by simp [Hollow]) ?_
    intro v hv
    obtain ⟨w, hw, rfl⟩ := List.mem_map.1 hv
    exact ih w hw
  | hstar v ih =>
    simp only [deriv, Bool.false_and, Bool.false_eq_true, if_false]
    exact hollow_mkAnd _ _ ih (Or.inr (by simp [Hollow]))
  | hplus v ih =>
    simp only [deriv]
    exact hollow_mkAnd _ _ ih (Or.inr (by simp [Hollow]))
  | hrep v c ih =>
    simp only [deriv]
    split
    · split <;> simp [Hollow]
    · exact hollow_mkAnd _ _ ih (rest_not_hollow ctl x v _)

open Expr in
theorem acceptedAll_derivN (ctl : List A) (x : A) (vs : List (Expr A))
    (ih : ∀ v ∈ vs, ∀ s, Accepted (deriv false ctl x 1 v) s ↔ Accepted v (x ::ₘ s)) :
    ∀ (pre : List (Expr A)) (s : Multiset A),
      (∃ ws ∈ derivN pre (derivPairs false ctl x 1 vs), AcceptedAll ws s) ↔
        ∃ t u, s = t + u ∧ AcceptedAll pre t ∧ AcceptedAll vs (x ::ₘ u) := by
  induction vs with
  | nil => intro pre s; simp [derivPairs, derivN, AcceptedAll]
  | cons v vs ihv =>
    intro pre s
    have hv := ih v (by simp)
    have hnh := deriv_not_hollow ctl x v
    have hvs := ihv (fun w hw => ih w (by simp [hw]))
    have hsplit : (∃ t u, s = t + u ∧ AcceptedAll pre t ∧ AcceptedAll (v :: vs) (x ::ₘ u)) ↔
        AcceptedAll (pre ++ deriv false ctl x 1 v :: vs) s ∨
          ∃ t u, s = t + u ∧ AcceptedAll (pre ++ [v]) t ∧ AcceptedAll vs (x ::ₘ u) := by
      constructor
      · rintro ⟨t, u, rfl, ht, p, q, hpq, hp, hq⟩
        rcases cons_eq_add hpq with ⟨p', rfl, rfl⟩ | ⟨q', rfl, rfl⟩
        · left
          rcases hp with hp | ⟨_, hp⟩
          · exact acceptedAll_append.2 ⟨t, p' + q, rfl, ht, p', q, rfl, Or.inl ((hv _).2 hp), hq⟩
          · exact absurd hp (Multiset.cons_ne_zero)
        · right
          refine ⟨t + p, q', by rw [add_assoc], ?_, hq⟩
          exact acceptedAll_append.2 ⟨t, p, rfl, ht, acceptedAll_singleton.2 hp⟩
      · rintro (h | ⟨t, u, rfl, ht, hu⟩)
        · obtain ⟨t, u, rfl, ht, p, q, rfl, hp, hq⟩ := acceptedAll_append.1 h
          rcases hp with hp | ⟨hh, _⟩
          · exact ⟨t, p + q, rfl, ht, x ::ₘ p, q, by simp, Or.inl ((hv _).1 hp), hq⟩
          · exact absurd hh hnh
        · obtain ⟨t1, t2, rfl, ht1, ht2⟩ := acceptedAll_append.1 ht
          refine ⟨t1, t2 + u, by rw [add_assoc], ht1, t2, x ::ₘ u, by simp, ?_, hu⟩
          exact acceptedAll_singleton.1 ht2
    rw [hsplit, ← hvs (pre ++ [v]) s]
    simp only [derivPairs]
    cases hn : notFail (deriv false ctl x 1 v) with
    | none =>
      simp only [derivN]
      have hf := notFail_none hn
      constructor
      · intro h; exact Or.inr h
      · rintro (h | h)
        · exfalso
          obtain ⟨_, _, _, _, p, q, _, hp, _⟩ := acceptedAll_append.1 h
          rw [hf] at hp
          simp [Accepted, Hollow] at hp
        · exact h
    | some d =>
      have hd := lang_notFail hn
      subst hd
      simp only [derivN, List.mem_cons, exists_eq_or_imp, derivPairs_fst]

theorem Card.crossed_minus_one {c : Card} (hc : c.Crossed) (h10 : c ≠ ⟨1, .intMax 0⟩) (k : Nat) :
    ¬ (c.minus 1).Holds k := by
  obtain ⟨mn, mx⟩ := c
  obtain ⟨m, hm, hlt⟩ := hc
  simp only at hm hlt
  subst hm
  simp only [Card.minus, Card.Holds, Mx.minus]
  rintro ⟨h1, h2⟩
  cases m with
  | zero =>
    have := h2 0 rfl
    have : mn = 1 := by omega
    subst this
    exact h10 rfl
  | succ m =>
    simp only [Mx.intMax.injEq, forall_eq'] at h2
    split at h2 <;> omega

open Expr in
/-- The derivative of any expression accepts the rest of the bags with the symbol. -/
theorem accepted_deriv (ctl : List A) (x : A) (e : Expr A) (s : Multiset A) :
    Accepted (deriv false ctl x 1 e) s ↔ Accepted e (x ::ₘ s) := by
  induction e using Expr.ind generalizing s with
  | hfail => simp [deriv, Accepted]
  | hempty => simp [deriv, Accepted]
  | hsym v c =>
    have h := lang_deriv ctl x (.symbol v c) trivial s
    have h1 : Lang (.symbol v c) (x ::ₘ s) ↔ Accepted (.symbol v c) (x ::ₘ s) := by simp [Lang, Accepted]
    have h2 : Accepted (deriv false ctl x 1 (.symbol v c)) s ↔ Lang (deriv false ctl x 1 (.symbol v c)) s := by
      simp only [deriv, mkRangeSymbol]
      repeat' split
      all_goals simp [Lang, Accepted]
    rw [h2, h, h1]
  | hand vs ih =>
    simp only [deriv, accepted_orOfAnds]
    rw [acceptedAll_derivN ctl x vs (fun v hv s => ih v hv s) [] s]
    simp only [AcceptedAll, Accepted]
    constructor
    · rintro ⟨_, u, rfl, rfl, h⟩; simpa using h
    · intro h; exact ⟨0, s, by simp, rfl, h⟩
  | hor vs ih =>
    simp only [deriv, derivList_eq, mkOrValues, accepted_foldl_mkOr, Accepted, false_or, acceptedSome_iff,
      List.mem_map]
    constructor
    · rintro ⟨_, ⟨v, hv, rfl⟩, h⟩
      exact ⟨v, hv, (ih v hv s).1 h⟩
    · rintro ⟨v, hv, h⟩
      exact ⟨_, ⟨v, hv, rfl⟩, (ih v hv s).2 h⟩
  | hstar v ih =>
    simp only [deriv, Bool.false_and, Bool.false_eq_true, if_false]
    rw [accepted_mkAnd _ _ _ (deriv_not_hollow ctl x v) (Or.inr (by simp [Hollow]))]
    simp only [Accepted]
    constructor
    · rintro ⟨t, u, rfl, ht, k, hk⟩
      exact ⟨k + 1, sumOf_cons.2 ⟨k, rfl, t, u, rfl, (ih _).1 ht, hk⟩⟩
    · rintro ⟨k, hk⟩
      obtain ⟨j, rfl, t, u, rfl, ht, hu⟩ := sumOf_cons.1 hk
      exact ⟨t, u, rfl, (ih _).2 ht, j, hu⟩
  | hplus v ih =>
    simp only [deriv]
    rw [accepted_mkAnd _ _ _ (deriv_not_hollow ctl x v) (Or.inr (by simp [Hollow]))]
    simp only [Accepted]
    constructor
    · rintro ⟨t, u, rfl, ht, k, hk⟩
      exact ⟨k + 1, by omega, sumOf_cons.2 ⟨k, rfl, t, u, rfl, (ih _).1 ht, hk⟩⟩
    · rintro ⟨k, _, hk⟩
      obtain ⟨j, rfl, t, u, rfl, ht, hu⟩ := sumOf_cons.1 hk
      exact ⟨t, u, rfl, (ih _).2 ht, j, hu⟩
  | hrep v c ih =>
    simp only [deriv]
    split
    · rename_i h00
      have hc : c = ⟨0, .intMax 0⟩ := by
        obtain ⟨mn, mx⟩ := c
        simp only [Card.is00, Bool.and_eq_true, beq_iff_eq] at h00
        rw [h00.1, h00.2]
      subst hc
      have hcr : ¬ Card.Crossed ⟨0, .intMax 0⟩ := by rintro ⟨m, _, h⟩; exact absurd h (Nat.not_lt_zero _)
      have h01 : (⟨0, .intMax 0⟩ : Card) ≠ ⟨1, .intMax 0⟩ := by decide
      have hnull : isNullable (deriv false ctl x 1 v) = true ↔ Accepted v {x} := by
        rw [isNullable_accepted, ih]; rfl
      simp only [Accepted, GroupAccepts, h01, hcr, true_and, false_and, or_false, ne_eq, not_true_eq_false,
        not_false_eq_true, Multiset.cons_ne_zero, false_or, and_false]
      split
      · rename_i hn
        simp only [Accepted, false_iff]
        rintro ⟨y, hy, hna⟩
        have h1 : s = 0 := by
          have := congrArg Multiset.card hy
          simpa using this
        subst h1
        have h2 : x = y := by simpa using hy
        subst h2
        exact hna (hnull.1 hn)
      · rename_i hn
        simp only [Accepted]
        constructor
        · rintro rfl
          exact ⟨x, rfl, fun h => hn (hnull.2 h)⟩
        · rintro ⟨y, hy, _⟩
          have := congrArg Multiset.card hy
          simpa using this
    · rename_i h00
      have hc0 : c ≠ ⟨0, .intMax 0⟩ := by rintro rfl; exact h00 (by decide)
      rw [accepted_mkAnd _ _ _ (deriv_not_hollow ctl x v) (rest_not_hollow ctl x v _)]
      by_cases hf : v = .fail
      · subst hf
        simp only [deriv, Accepted, false_and, and_false, exists_false, false_iff, GroupAccepts, hc0, ne_eq,
          Multiset.cons_ne_zero, false_or, not_false_eq_true, true_and]
        rintro ⟨_, k, _, hk⟩
        obtain ⟨j, rfl, t, u, rfl, ht, hu⟩ := sumOf_cons.1 hk
        exact ht
      · simp only [accepted_mkRange v _ _ hf]
        simp only [Accepted, GroupAccepts, hc0, false_and, false_or, ne_eq, not_false_eq_true, true_and,
          Multiset.cons_ne_zero, and_false]
        by_cases h10 : c = ⟨1, .intMax 0⟩
        · subst h10
          have hcr : Card.Crossed ⟨1, .intMax 0⟩ := ⟨0, rfl, by simp⟩
          have hz : ∀ k, (Card.minus ⟨1, .intMax 0⟩ 1).Holds k ↔ k = 0 := fun k => Card.holds_zero_zero (by decide) k
          simp only [hz, true_and, hcr, not_true_eq_false, false_and, or_false, exists_eq_left, sumOf_zero]
          constructor
          · rintro ⟨t, _, rfl, ht, rfl⟩
            simpa using (ih _).1 ht
          · intro h
            exact ⟨s, 0, by simp, (ih _).2 h, rfl⟩
        · simp only [h10, false_and, false_or]
          by_cases hcr : c.Crossed
          · simp only [hcr, not_true_eq_false, false_and, iff_false]
            rintro ⟨t, u, _, _, k, hk, _⟩
            exact Card.crossed_minus_one hcr h10 k hk
          · have hm : c.max ≠ .intMax 0 := by
              intro hm
              obtain ⟨mn, mx⟩ := c
              simp only at hm
              subst hm
              cases mn with
              | zero => exact hc0 rfl
              | succ n => exact hcr ⟨0, rfl, by simp⟩
            simp only [hcr, not_false_eq_true, true_and, Card.holds_minus_one hm]
            constructor
            · rintro ⟨t, u, rfl, ht, k, hk, hs⟩
              exact ⟨k + 1, hk, sumOf_cons.2 ⟨k, rfl, t, u, rfl, (ih _).1 ht, hs⟩⟩
            · rintro ⟨k, hk, hs⟩
              obtain ⟨j, rfl, t, u, rfl, ht, hu⟩ := sumOf_cons.1 hs
              exact ⟨t, u, rfl, (ih _).2 ht, j, hk, hu⟩

open Expr in
theorem derivTimes_accepted (ctl : List A) (x : A) (k : Nat) (e : Expr A) (s : Multiset A) :
    Accepted (derivTimes false ctl x k e) s ↔ Accepted e (Multiset.replicate k x + s) := by
  induction k generalizing e with
  | zero => simp [derivTimes]
  | succ k ih =>
    have hd := accepted_deriv ctl x e
    simp only [derivTimes]
    split
    · rename_i hf
      rw [hf] at hd
      rw [Multiset.replicate_succ, Multiset.cons_add, ← hd]
      simp [Accepted]
    · rw [ih, hd, Multiset.replicate_succ, Multiset.cons_add]

open Expr in
theorem derivBag_accepted (ctl : List A) (bag : List (A × Nat)) (e : Expr A) (s : Multiset A) :
    Accepted (derivBag false ctl bag e) s ↔ Accepted e (bagOf bag + s) := by
  induction bag generalizing e with
  | nil => simp [derivBag, bagOf]
  | cons p rest ih =>
    obtain ⟨x, k⟩ := p
    have hl := derivTimes_accepted ctl x k e
    have hbag : ∀ s, bagOf ((x, k) :: rest) + s = Multiset.replicate k x + (bagOf rest + s) := by
      intro s; simp [bagOf, add_assoc]
    simp only [derivBag]
    split
    · rename_i hf
      rw [hf] at hl
      rw [hbag, ← hl]
      simp [Accepted]
    · rw [ih, hl, hbag]

open Expr in
theorem matchBagDeriv_accepted (e : Expr A) (bag : List (A × Nat)) :
    matchBagDeriv e bag false = true ↔ Accepted e (bagOf bag) := by
  have h0 := derivBag_accepted (symbols e) bag e 0
  rw [add_zero] at h0
  unfold matchBagDeriv
  split
  · rename_i hf
    rw [hf] at h0
    rw [← h0]
    simp [Accepted]
  · rw [isNullable_accepted, h0]

end

end Rbe
