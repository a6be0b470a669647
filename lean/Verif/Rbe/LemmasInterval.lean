import Verif.Rbe.LemmasDeriv

/-!
# Helper lemmas: intervals and single-occurrence expressions
-/

set_option linter.unusedSectionVars false
set_option linter.unusedSimpArgs false

namespace Rbe
variable {A : Type}

/-! ## Interval arithmetic -/

theorem Interval.contains_iff (i : Interval) (k : Nat) :
    i.contains k = true ↔ ∃ n, i.n = .intMax n ∧ n ≤ k ∧ ∀ m, i.m = .intMax m → k ≤ m := by
  obtain ⟨n, m⟩ := i
  cases n <;> cases m <;> simp [Interval.contains, Mx.geq]

theorem Interval.contains_inter (i j : Interval) (k : Nat) :
    (i.inter j).contains k = true ↔ i.contains k = true ∧ j.contains k = true := by
  obtain ⟨n, m⟩ := i
  obtain ⟨n', m'⟩ := j
  cases n <;> cases m <;> cases n' <;> cases m' <;>
    simp [Interval.contains, Interval.inter, Mx.geq, Mx.sup, Mx.inf] <;> omega

theorem Interval.isEmpty_iff (i : Interval) :
    i.isEmpty = true ↔ ∀ k, ¬ i.contains k = true := by
  obtain ⟨n, m⟩ := i
  cases n with
  | unbounded => simp [Interval.isEmpty, Interval.contains]
  | intMax n =>
    cases m with
    | unbounded =>
      simp only [Interval.isEmpty, Mx.gt, Interval.contains, Mx.geq, Bool.or_false, Bool.and_true,
        decide_eq_true_eq]
      constructor
      · intro h; simp at h
      · intro h; exact absurd (le_refl n) (h n)
    | intMax m =>
      simp only [Interval.isEmpty, Mx.gt, Interval.contains, Mx.geq, Bool.or_eq_true, beq_iff_eq,
        reduceCtorEq, false_or, decide_eq_true_eq, Bool.and_eq_true, not_and]
      constructor
      · intro h k hk; omega
      · intro h
        have := h n (le_refl n)
        omega

theorem Interval.not_isEmpty_iff (i : Interval) :
    ¬ i.isEmpty = true ↔ ∃ k, i.contains k = true := by
  rw [Interval.isEmpty_iff]; push Not; rfl

theorem Interval.contains_add (i j : Interval) (hi : ¬ i.isEmpty = true) (hj : ¬ j.isEmpty = true)
    (k : Nat) :
    (i.add j).contains k = true ↔
      ∃ k1 k2, k = k1 + k2 ∧ i.contains k1 = true ∧ j.contains k2 = true := by
  rw [Interval.not_isEmpty_iff] at hi hj
  obtain ⟨a, ha⟩ := hi
  obtain ⟨b, hb⟩ := hj
  obtain ⟨n, m⟩ := i
  obtain ⟨n', m'⟩ := j
  cases n with
  | unbounded => simp [Interval.contains] at ha
  | intMax n =>
    cases n' with
    | unbounded => simp [Interval.contains] at hb
    | intMax n' =>
      cases m with
      | unbounded =>
        cases m' <;> simp [Interval.contains, Interval.add, Mx.plus, Mx.geq] at * <;>
        (constructor
         · intro h; exact ⟨k - n', n', by omega, by omega, by omega⟩
         · rintro ⟨k1, k2, h⟩; omega)
      | intMax m =>
        cases m' with
        | unbounded =>
          simp [Interval.contains, Interval.add, Mx.plus, Mx.geq] at *
          constructor
          · intro h; exact ⟨n, k - n, by omega, by omega, by omega⟩
          · rintro ⟨k1, k2, h⟩; omega
        | intMax m' =>
          simp [Interval.contains, Interval.add, Mx.plus, Mx.geq] at *
          constructor
          · intro h
            by_cases hk : k ≤ n + m'
            · exact ⟨n, k - n, by omega, by omega, by omega⟩
            · exact ⟨k - m', m', by omega, by omega, by omega⟩
          · rintro ⟨k1, k2, h⟩; omega

/-! ## Sums over the constructors -/

/-- `N` is the sum of `k` numbers, each within `c`. -/
def Rng (c : Card) (k N : Nat) : Prop :=
  (k = 0 ∧ N = 0) ∨
    (1 ≤ k ∧ c.Holds c.min ∧ k * c.min ≤ N ∧ ∀ m, c.max = .intMax m → N ≤ k * m)

theorem rng_succ (c : Card) (k N : Nat) :
    Rng c (k + 1) N ↔ ∃ a b, N = a + b ∧ c.Holds a ∧ Rng c k b := by
  obtain ⟨mn, mx⟩ := c
  constructor
  · rintro (⟨h, _⟩ | ⟨_, hc, h1, h2⟩)
    · omega
    · simp only [Nat.add_mul, one_mul] at h1 h2
      cases k with
      | zero =>
        exact ⟨N, 0, by simp, ⟨by simpa using h1, fun m hm => by simpa using h2 m hm⟩,
          Or.inl ⟨rfl, rfl⟩⟩
      | succ k =>
        cases mx with
        | unbounded =>
          refine ⟨N - (k + 1) * mn, (k + 1) * mn, by omega, ⟨by simp only; omega, by simp⟩,
            Or.inr ⟨by omega, hc, le_refl _, by simp⟩⟩
        | intMax m =>
          have h2' := h2 m rfl
          have hcm : mn ≤ m := hc.2 m rfl
          have hmul : (k + 1) * mn ≤ (k + 1) * m := Nat.mul_le_mul_left _ hcm
          by_cases hN : N ≤ mn + (k + 1) * m
          · refine ⟨mn, N - mn, by omega, hc, Or.inr ⟨by omega, hc, by simp only; omega, ?_⟩⟩
            intro m' hm'
            injection hm' with hm'
            subst hm'
            omega
          · refine ⟨N - (k + 1) * m, (k + 1) * m, by omega, ⟨by simp only; omega, ?_⟩,
              Or.inr ⟨by omega, hc, by simp only; omega, ?_⟩⟩
            · intro m' hm'
              injection hm' with hm'
              subst hm'
              omega
            · intro m' hm'
              injection hm' with hm'
              subst hm'
              omega
  · rintro ⟨a, b, rfl, ha, hb⟩
    have hc : (⟨mn, mx⟩ : Card).Holds mn := ⟨le_refl _, fun m hm => le_trans ha.1 (ha.2 m hm)⟩
    right
    refine ⟨by omega, hc, ?_, ?_⟩
    · have := ha.1
      simp only [Nat.add_mul, one_mul] at *
      rcases hb with ⟨rfl, rfl⟩ | ⟨_, _, h, _⟩
      · omega
      · simp only at h; omega
    · intro m hm
      have := ha.2 m hm
      simp only [Nat.add_mul, one_mul] at *
      rcases hb with ⟨rfl, rfl⟩ | ⟨_, _, _, h⟩
      · omega
      · have := h m hm; omega

/-- A sum of `k` members of a repeated group. -/
theorem sumOf_repeat {P : Multiset A → Prop} {c : Card} {k : Nat} {s : Multiset A} :
    SumOf (fun t => ∃ n, c.Holds n ∧ SumOf P n t) k s ↔ ∃ N, Rng c k N ∧ SumOf P N s := by
  induction k generalizing s with
  | zero =>
    rw [sumOf_zero]
    constructor
    · rintro rfl
      exact ⟨0, Or.inl ⟨rfl, rfl⟩, sumOf_zero.2 rfl⟩
    · rintro ⟨N, h | h, hs⟩
      · rw [h.2, sumOf_zero] at hs; exact hs
      · omega
  | succ k ih =>
    rw [sumOf_succ]
    constructor
    · rintro ⟨t, u, rfl, ⟨n, hn, ht⟩, hu⟩
      obtain ⟨N, hN, hs⟩ := ih.1 hu
      exact ⟨n + N, (rng_succ _ _ _).2 ⟨n, N, rfl, hn, hN⟩, sumOf_add.2 ⟨t, u, rfl, ht, hs⟩⟩
    · rintro ⟨N, hN, hs⟩
      obtain ⟨a, b, rfl, ha, hb⟩ := (rng_succ _ _ _).1 hN
      obtain ⟨t, u, rfl, ht, hu⟩ := sumOf_add.1 hs
      exact ⟨t, u, rfl, ⟨a, ha, ht⟩, ih.2 ⟨b, hb, hu⟩⟩

theorem sumOf_single {v : A} {n : Nat} {s : Multiset A} :
    SumOf (fun t => t = {v}) n s ↔ s = Multiset.replicate n v := by
  induction n generalizing s with
  | zero => rw [sumOf_zero]; simp
  | succ n ih =>
    rw [sumOf_succ]
    constructor
    · rintro ⟨_, u, rfl, rfl, hu⟩
      rw [ih.1 hu, Multiset.replicate_succ, Multiset.singleton_add]
    · rintro rfl
      exact ⟨{v}, Multiset.replicate n v,
        by rw [Multiset.replicate_succ, Multiset.singleton_add], rfl, ih.2 rfl⟩

theorem sumOf_symbol {v : A} {c : Card} {k : Nat} {N : Nat} :
    SumOf (Lang (.symbol v c)) k (Multiset.replicate N v) ↔ Rng c k N := by
  have : SumOf (Lang (.symbol v c)) k (Multiset.replicate N v) ↔
      SumOf (fun t => ∃ n, c.Holds n ∧ SumOf (fun t => t = {v}) n t) k (Multiset.replicate N v) := by
    simp only [sumOf_single]
    rfl
  rw [this, sumOf_repeat]
  simp only [sumOf_single]
  constructor
  · rintro ⟨M, hM, h⟩
    have := congrArg Multiset.card h
    rw [Multiset.card_replicate, Multiset.card_replicate] at this
    rw [this]; exact hM
  · intro h; exact ⟨N, h, rfl⟩

/-- A sum of `k` members of `Star v`. -/
theorem sumOf_star {v : Expr A} {k : Nat} {s : Multiset A} :
    SumOf (Lang (.star v)) k s ↔ (k = 0 ∧ s = 0) ∨ (1 ≤ k ∧ ∃ n, SumOf (Lang v) n s) := by
  have : SumOf (Lang (.star v)) k s ↔
      SumOf (fun t => ∃ n, (⟨0, .unbounded⟩ : Card).Holds n ∧ SumOf (Lang v) n t) k s := by
    have h : Lang (.star v) = fun t => ∃ n, (⟨0, .unbounded⟩ : Card).Holds n ∧ SumOf (Lang v) n t := by
      funext t
      simp [Lang, Card.Holds]
    rw [h]
  rw [this, sumOf_repeat]
  simp only [Rng, Card.Holds]
  constructor
  · rintro ⟨N, h | h, hs⟩
    · rw [h.2, sumOf_zero] at hs; exact Or.inl ⟨h.1, hs⟩
    · exact Or.inr ⟨h.1, N, hs⟩
  · rintro (⟨h, rfl⟩ | ⟨h, n, hs⟩)
    · exact ⟨0, Or.inl ⟨h, rfl⟩, sumOf_zero.2 rfl⟩
    · exact ⟨n, Or.inr ⟨h, by simp⟩, hs⟩

/-- A sum of `k` members of `Plus v`. -/
theorem sumOf_plus {v : Expr A} {k : Nat} {s : Multiset A} :
    SumOf (Lang (.plus v)) k s ↔ (k = 0 ∧ s = 0) ∨ (1 ≤ k ∧ ∃ n, k ≤ n ∧ SumOf (Lang v) n s) := by
  have : SumOf (Lang (.plus v)) k s ↔
      SumOf (fun t => ∃ n, (⟨1, .unbounded⟩ : Card).Holds n ∧ SumOf (Lang v) n t) k s := by
    have h : Lang (.plus v) = fun t => ∃ n, (⟨1, .unbounded⟩ : Card).Holds n ∧ SumOf (Lang v) n t := by
      funext t
      simp [Lang, Card.Holds]
    rw [h]
  rw [this, sumOf_repeat]
  simp only [Rng, Card.Holds]
  constructor
  · rintro ⟨N, h | h, hs⟩
    · rw [h.2, sumOf_zero] at hs; exact Or.inl ⟨h.1, hs⟩
    · exact Or.inr ⟨h.1, N, by omega, hs⟩
  · rintro (⟨h, rfl⟩ | ⟨h, n, hn, hs⟩)
    · exact ⟨0, Or.inl ⟨h, rfl⟩, sumOf_zero.2 rfl⟩
    · exact ⟨n, Or.inr ⟨h, by simp, by omega, by simp⟩, hs⟩

theorem sumOf_rep {v : Expr A} {c : Card} {k : Nat} {s : Multiset A} :
    SumOf (Lang (.repeat v c)) k s ↔ ∃ N, Rng c k N ∧ SumOf (Lang v) N s := by
  rw [← sumOf_repeat]
  have h : Lang (.repeat v c) = fun t => ∃ n, c.Holds n ∧ SumOf (Lang v) n t := by
    funext t
    simp [Lang]
  rw [h]

/-- A sum of `k` members of a sequence. -/
theorem sumOf_langAll_cons {v : Expr A} {vs : List (Expr A)} {k : Nat} {s : Multiset A} :
    SumOf (LangAll (v :: vs)) k s ↔
      ∃ t u, s = t + u ∧ SumOf (Lang v) k t ∧ SumOf (LangAll vs) k u := by
  induction k generalizing s with
  | zero =>
    simp only [sumOf_zero]
    constructor
    · rintro rfl; exact ⟨0, 0, by simp, rfl, rfl⟩
    · rintro ⟨t, u, rfl, rfl, rfl⟩; simp
  | succ k ih =>
    rw [sumOf_succ]
    constructor
    · rintro ⟨_, _, rfl, ⟨t, u, rfl, ht, hu⟩, hs⟩
      obtain ⟨p, q, rfl, hp, hq⟩ := ih.1 hs
      exact ⟨t + p, u + q, by rw [add_add_add_comm], sumOf_succ.2 ⟨t, p, rfl, ht, hp⟩,
        sumOf_succ.2 ⟨u, q, rfl, hu, hq⟩⟩
    · rintro ⟨_, _, rfl, h1, h2⟩
      obtain ⟨t, p, rfl, ht, hp⟩ := sumOf_succ.1 h1
      obtain ⟨u, q, rfl, hu, hq⟩ := sumOf_succ.1 h2
      exact ⟨t + u, p + q, by rw [add_add_add_comm], ⟨t, u, rfl, ht, hu⟩,
        ih.2 ⟨p, q, rfl, hp, hq⟩⟩

/-- A sum of `k` members of a choice. -/
theorem sumOf_langSome_cons {v : Expr A} {vs : List (Expr A)} {k : Nat} {s : Multiset A} :
    SumOf (LangSome (v :: vs)) k s ↔
      ∃ k1 k2 t u, k = k1 + k2 ∧ s = t + u ∧ SumOf (Lang v) k1 t ∧ SumOf (LangSome vs) k2 u := by
  induction k generalizing s with
  | zero =>
    simp only [sumOf_zero]
    constructor
    · rintro rfl; exact ⟨0, 0, 0, 0, by simp, by simp, sumOf_zero.2 rfl, sumOf_zero.2 rfl⟩
    · rintro ⟨k1, k2, t, u, hk, rfl, ht, hu⟩
      obtain ⟨rfl, rfl⟩ : k1 = 0 ∧ k2 = 0 := by omega
      rw [sumOf_zero] at ht hu
      simp [ht, hu]
  | succ k ih =>
    rw [sumOf_succ]
    constructor
    · rintro ⟨t, u, rfl, ht, hu⟩
      obtain ⟨k1, k2, p, q, rfl, rfl, hp, hq⟩ := ih.1 hu
      rcases ht with ht | ht
      · exact ⟨k1 + 1, k2, t + p, q, by omega, by rw [add_assoc],
          sumOf_succ.2 ⟨t, p, rfl, ht, hp⟩, hq⟩
      · exact ⟨k1, k2 + 1, p, t + q, by omega, by rw [add_left_comm], hp,
          sumOf_succ.2 ⟨t, q, rfl, ht, hq⟩⟩
    · rintro ⟨k1, k2, t, u, hk, rfl, ht, hu⟩
      cases k1 with
      | zero =>
        cases k2 with
        | zero => omega
        | succ k2 =>
          obtain ⟨p, q, rfl, hp, hq⟩ := sumOf_succ.1 hu
          exact ⟨p, t + q, by rw [add_left_comm], Or.inr hp,
            ih.2 ⟨0, k2, t, q, by omega, rfl, ht, hq⟩⟩
      | succ k1 =>
        obtain ⟨p, q, rfl, hp, hq⟩ := sumOf_succ.1 ht
        exact ⟨p, q + u, by rw [add_assoc], Or.inl hp,
          ih.2 ⟨k1, k2, q, u, by omega, rfl, hq, hu⟩⟩

theorem sumOf_langAll_nil {k : Nat} {s : Multiset A} : SumOf (LangAll []) k s ↔ s = 0 := by
  constructor
  · rintro ⟨l, _, hl, rfl⟩
    exact List.sum_eq_zero hl
  · rintro rfl
    exact sumOf_nil_of (P := LangAll []) rfl k

theorem sumOf_langSome_nil {k : Nat} {s : Multiset A} :
    SumOf (LangSome []) k s ↔ k = 0 ∧ s = 0 := by
  constructor
  · intro h
    cases k with
    | zero => exact ⟨rfl, sumOf_zero.1 h⟩
    | succ k =>
      obtain ⟨_, _, _, h, _⟩ := sumOf_succ.1 h
      exact h.elim
  · rintro ⟨rfl, rfl⟩
    exact sumOf_zero.2 rfl

/-! ## Symbols -/

theorem mem_symbolsList {vs : List (Expr A)} {a : A} :
    a ∈ Expr.symbolsList vs ↔ ∃ v ∈ vs, a ∈ Expr.symbols v := by
  induction vs with
  | nil => simp [Expr.symbolsList]
  | cons v vs ih => simp [Expr.symbolsList, ih]

theorem sumOf_mem {P : Multiset A → Prop} {Q : A → Prop} (h : ∀ s, P s → ∀ a ∈ s, Q a) {k : Nat}
    {s : Multiset A} (hs : SumOf P k s) : ∀ a ∈ s, Q a := by
  induction k generalizing s with
  | zero => rw [sumOf_zero] at hs; subst hs; simp
  | succ k ih =>
    obtain ⟨t, u, rfl, ht, hu⟩ := sumOf_succ.1 hs
    intro a ha
    rcases Multiset.mem_add.1 ha with ha | ha
    · exact h t ht a ha
    · exact ih hu a ha

/-- Members of the language only hold symbols of the expression. -/
theorem lang_mem (e : Expr A) : ∀ s, Lang e s → ∀ a ∈ s, a ∈ Expr.symbols e := by
  induction e using Expr.ind with
  | hfail => intro s h; exact h.elim
  | hempty => intro s h; simp only [Lang] at h; subst h; simp
  | hsym v c =>
    rintro s ⟨n, _, rfl⟩ a ha
    simp [Expr.symbols, Multiset.eq_of_mem_replicate ha]
  | hand vs ih =>
    intro s h a ha
    simp only [Expr.symbols, mem_symbolsList]
    simp only [Lang] at h
    induction vs generalizing s with
    | nil => simp only [LangAll] at h; subst h; simp at ha
    | cons v vs ihv =>
      obtain ⟨t, u, rfl, ht, hu⟩ := h
      rcases Multiset.mem_add.1 ha with ha | ha
      · exact ⟨v, by simp, ih v (by simp) t ht a ha⟩
      · obtain ⟨w, hw, hm⟩ := ihv (fun w hw => ih w (by simp [hw])) u hu ha
        exact ⟨w, by simp [hw], hm⟩
  | hor vs ih =>
    intro s h a ha
    simp only [Lang, langSome_iff] at h
    obtain ⟨v, hv, h⟩ := h
    simp only [Expr.symbols, mem_symbolsList]
    exact ⟨v, hv, ih v hv s h a ha⟩
  | hstar v ih =>
    rintro s ⟨k, h⟩ a ha
    exact sumOf_mem (Q := fun a => a ∈ Expr.symbols v) ih h a ha
  | hplus v ih =>
    rintro s ⟨k, _, h⟩ a ha
    exact sumOf_mem (Q := fun a => a ∈ Expr.symbols v) ih h a ha
  | hrep v c ih =>
    rintro s ⟨k, _, h⟩ a ha
    exact sumOf_mem (Q := fun a => a ∈ Expr.symbols v) ih h a ha

section
variable [DecidableEq A]

theorem occList_pos {vs : List (Expr A)} {a : A} : 0 < occList a vs ↔ ∃ v ∈ vs, 0 < occ a v := by
  induction vs with
  | nil => simp [occList]
  | cons v vs ih =>
    simp only [occList, Nat.add_pos_iff_pos_or_pos, ih, List.mem_cons, exists_eq_or_imp]

theorem mem_symbols_iff (e : Expr A) (a : A) : a ∈ Expr.symbols e ↔ 0 < occ a e := by
  induction e using Expr.ind with
  | hfail => simp [Expr.symbols, occ]
  | hempty => simp [Expr.symbols, occ]
  | hsym v c =>
    simp only [Expr.symbols, occ, List.mem_singleton]
    split <;> simp_all [eq_comm]
  | hand vs ih =>
    simp only [Expr.symbols, occ, mem_symbolsList, occList_pos]
    exact exists_congr fun v => and_congr_right fun hv => ih v hv
  | hor vs ih =>
    simp only [Expr.symbols, occ, mem_symbolsList, occList_pos]
    exact exists_congr fun v => and_congr_right fun hv => ih v hv
  | hstar v ih => exact ih
  | hplus v ih => exact ih
  | hrep v c ih => exact ih

/-- The part of the bag made of the given symbols. -/
def proj (l : List A) (B : Multiset A) : Multiset A := B.filter (fun a => a ∈ l)

/-- `a` occurs at most once in the list of expressions. -/
def SingleOccList (vs : List (Expr A)) : Prop := ∀ a, occList a vs ≤ 1

theorem SingleOccList.cons {v : Expr A} {vs : List (Expr A)} (h : SingleOccList (v :: vs)) :
    SingleOcc v ∧ SingleOccList vs ∧
      ∀ a, a ∈ Expr.symbols v → a ∈ Expr.symbolsList vs → False := by
  refine ⟨fun a => ?_, fun a => ?_, fun a h1 h2 => ?_⟩
  · have := h a; simp only [occList] at this; omega
  · have := h a; simp only [occList] at this; omega
  · have := h a
    simp only [occList] at this
    rw [mem_symbols_iff] at h1
    rw [mem_symbolsList] at h2
    obtain ⟨w, hw, hm⟩ := h2
    rw [mem_symbols_iff] at hm
    have := occList_pos.2 ⟨w, hw, hm⟩
    omega

theorem proj_append {l1 l2 : List A} (hd : ∀ a, a ∈ l1 → a ∈ l2 → False) (B : Multiset A) :
    proj (l1 ++ l2) B = proj l1 B + proj l2 B := by
  induction B using Multiset.induction_on with
  | empty => simp [proj]
  | cons x B ih =>
    simp only [proj] at *
    by_cases h1 : x ∈ l1
    · have h2 : x ∉ l2 := fun h => hd x h1 h
      rw [Multiset.filter_cons_of_pos _ (by simp [h1]), Multiset.filter_cons_of_pos _ h1,
        Multiset.filter_cons_of_neg _ h2, ih, Multiset.cons_add]
    · by_cases h2 : x ∈ l2
      · rw [Multiset.filter_cons_of_pos _ (by simp [h2]), Multiset.filter_cons_of_neg _ h1,
          Multiset.filter_cons_of_pos _ h2, ih, Multiset.add_cons]
      · rw [Multiset.filter_cons_of_neg _ (by simp [h1, h2]), Multiset.filter_cons_of_neg _ h1,
          Multiset.filter_cons_of_neg _ h2, ih]

theorem proj_split {l1 l2 : List A} (hd : ∀ a, a ∈ l1 → a ∈ l2 → False) {B t u : Multiset A}
    (ht : ∀ a ∈ t, a ∈ l1) (hu : ∀ a ∈ u, a ∈ l2) (h : proj (l1 ++ l2) B = t + u) :
    t = proj l1 B ∧ u = proj l2 B := by
  rw [proj_append hd] at h
  have h1 := congrArg (Multiset.filter (fun a => a ∈ l1)) h
  have h2 := congrArg (Multiset.filter (fun a => a ∈ l2)) h
  rw [Multiset.filter_add, Multiset.filter_add] at h1 h2
  have e1 : Multiset.filter (fun a => a ∈ l1) (proj l1 B) = proj l1 B :=
    Multiset.filter_eq_self.2 fun a ha => (Multiset.mem_filter.1 ha).2
  have e2 : Multiset.filter (fun a => a ∈ l1) (proj l2 B) = 0 :=
    Multiset.filter_eq_nil.2 fun a ha h => hd a h (Multiset.mem_filter.1 ha).2
  have e3 : Multiset.filter (fun a => a ∈ l1) t = t := Multiset.filter_eq_self.2 ht
  have e4 : Multiset.filter (fun a => a ∈ l1) u = 0 :=
    Multiset.filter_eq_nil.2 fun a ha h => hd a h (hu a ha)
  have f1 : Multiset.filter (fun a => a ∈ l2) (proj l2 B) = proj l2 B :=
    Multiset.filter_eq_self.2 fun a ha => (Multiset.mem_filter.1 ha).2
  have f2 : Multiset.filter (fun a => a ∈ l2) (proj l1 B) = 0 :=
    Multiset.filter_eq_nil.2 fun a ha h => hd a (Multiset.mem_filter.1 ha).2 h
  have f3 : Multiset.filter (fun a => a ∈ l2) u = u := Multiset.filter_eq_self.2 hu
  have f4 : Multiset.filter (fun a => a ∈ l2) t = 0 :=
    Multiset.filter_eq_nil.2 fun a ha h => hd a (ht a ha) h
  rw [e1, e2, e3, e4, add_zero, add_zero] at h1
  rw [f1, f2, f3, f4, zero_add, zero_add] at h2
  exact ⟨h1.symm, h2.symm⟩

theorem sumOf_langAll_proj {vs : List (Expr A)} (hs : SingleOccList vs) {k : Nat}
    {B : Multiset A} :
    SumOf (LangAll vs) k (proj (Expr.symbolsList vs) B) ↔
      ∀ v ∈ vs, SumOf (Lang v) k (proj (Expr.symbols v) B) := by
  induction vs with
  | nil =>
    rw [sumOf_langAll_nil]
    simp [Expr.symbolsList, proj]
  | cons v vs ih =>
    obtain ⟨_, hvs, hd⟩ := hs.cons
    rw [sumOf_langAll_cons]
    simp only [Expr.symbolsList, List.mem_cons, forall_eq_or_imp, ← ih hvs]
    constructor
    · rintro ⟨t, u, h, ht, hu⟩
      obtain ⟨rfl, rfl⟩ := proj_split hd
        (sumOf_mem (Q := fun a => a ∈ Expr.symbols v) (lang_mem v) ht)
        (sumOf_mem (Q := fun a => a ∈ Expr.symbolsList vs) (lang_mem (.and vs)) hu) h
      exact ⟨ht, hu⟩
    · rintro ⟨ht, hu⟩
      exact ⟨_, _, proj_append hd B, ht, hu⟩

/-- `k` is a sum of one number per branch. -/
def OrSum (R : Expr A → Nat → Prop) : List (Expr A) → Nat → Prop
  | [], k => k = 0
  | v :: vs, k => ∃ k1 k2, k = k1 + k2 ∧ R v k1 ∧ OrSum R vs k2

theorem OrSum.mono {R S : Expr A → Nat → Prop} {vs : List (Expr A)} {k : Nat}
    (h : ∀ v ∈ vs, ∀ j, j ≤ k → R v j → S v j) (hr : OrSum R vs k) : OrSum S vs k := by
  induction vs generalizing k with
  | nil => exact hr
  | cons v vs ih =>
    obtain ⟨k1, k2, rfl, h1, h2⟩ := hr
    exact ⟨k1, k2, rfl, h v (by simp) k1 (by omega) h1,
      ih (fun w hw j hj => h w (by simp [hw]) j (by omega)) h2⟩

theorem sumOf_langSome_proj {vs : List (Expr A)} (hs : SingleOccList vs) {k : Nat}
    {B : Multiset A} :
    SumOf (LangSome vs) k (proj (Expr.symbolsList vs) B) ↔
      OrSum (fun v j => SumOf (Lang v) j (proj (Expr.symbols v) B)) vs k := by
  induction vs generalizing k with
  | nil =>
    rw [sumOf_langSome_nil]
    simp [Expr.symbolsList, proj, OrSum]
  | cons v vs ih =>
    obtain ⟨_, hvs, hd⟩ := hs.cons
    rw [sumOf_langSome_cons]
    simp only [Expr.symbolsList, OrSum, ← ih hvs]
    constructor
    · rintro ⟨k1, k2, t, u, rfl, h, ht, hu⟩
      obtain ⟨rfl, rfl⟩ := proj_split hd
        (sumOf_mem (Q := fun a => a ∈ Expr.symbols v) (lang_mem v) ht)
        (sumOf_mem (Q := fun a => a ∈ Expr.symbolsList vs) (lang_mem (.or vs)) hu) h
      exact ⟨k1, k2, rfl, ht, hu⟩
    · rintro ⟨k1, k2, rfl, ht, hu⟩
      exact ⟨k1, k2, _, _, rfl, proj_append hd B, ht, hu⟩

theorem intervalAnd_contains (cnt : A → Nat) (vs : List (Expr A)) (acc : Interval) (k : Nat) :
    (Expr.intervalAnd cnt acc vs).contains k = true ↔
      acc.contains k = true ∧ ∀ v ∈ vs, (Expr.interval cnt v).contains k = true := by
  induction vs generalizing acc with
  | nil => simp [Expr.intervalAnd]
  | cons v vs ih =>
    simp only [Expr.intervalAnd, ih, Interval.contains_inter, List.mem_cons, forall_eq_or_imp,
      and_assoc]

theorem intervalOr_contains (cnt : A → Nat) (vs : List (Expr A)) (acc : Interval) (k : Nat) :
    (Expr.intervalOr cnt acc vs).contains k = true ↔
      ∃ k1 k2, k = k1 + k2 ∧ acc.contains k1 = true ∧
        OrSum (fun v j => (Expr.interval cnt v).contains j = true) vs k2 := by
  induction vs generalizing acc k with
  | nil => simp [Expr.intervalOr, OrSum]
  | cons v vs ih =>
    simp only [Expr.intervalOr, ih, OrSum]
    split
    · rename_i he
      rw [Interval.isEmpty_iff] at he
      constructor
      · rintro ⟨k1, k2, _, h, _⟩; exact absurd h (he k1)
      · rintro ⟨k1, k2, _, h, _⟩; exact absurd h (he k1)
    · rename_i he
      split
      · rename_i hv
        rw [Interval.isEmpty_iff] at hv
        constructor
        · rintro ⟨k1, k2, _, h, _⟩
          simp [Interval.contains, Interval.fail, Mx.geq] at h
          omega
        · rintro ⟨_, _, _, _, k1, _, _, h, _⟩; exact absurd h (hv k1)
      · rename_i hv
        simp only [Interval.contains_add _ _ he hv]
        constructor
        · rintro ⟨_, k3, rfl, ⟨k1, k2, rfl, h1, h2⟩, h3⟩
          exact ⟨k1, k2 + k3, by omega, h1, k2, k3, rfl, h2, h3⟩
        · rintro ⟨k1, _, rfl, h1, k2, k3, rfl, h2, h3⟩
          exact ⟨k1 + k2, k3, by omega, ⟨k1, k2, rfl, h1, h2⟩, h3⟩

theorem contains_zeroAny (k : Nat) : Interval.zeroAny.contains k = true := by
  simp [Interval.zeroAny, Interval.contains, Mx.geq]

theorem contains_zeroZero (k : Nat) : Interval.zeroZero.contains k = true ↔ k = 0 := by
  simp [Interval.zeroZero, Interval.contains, Mx.geq]

theorem interval_symbol (v : A) (c : Card) (cnt : A → Nat) (k : Nat) :
    (Expr.interval cnt (.symbol v c)).contains k = true ↔ Rng c k (cnt v) := by
  obtain ⟨mn, mx⟩ := c
  simp only [Expr.interval]
  generalize cnt v = N
  simp only [Rng, Card.Holds, le_refl, true_and]
  cases N with
  | zero =>
    have hdu : mx.divUp 0 = .intMax 0 := by cases mx <;> rfl
    rw [hdu]
    cases mn with
    | zero =>
      have hl : Interval.contains ⟨.intMax 0, Mx.divDown (.intMax 0) 0⟩ k = true := by
        simp [Mx.divDown, Interval.contains, Mx.geq]
      simp only [hl, true_iff, and_true]
      by_cases hk : k = 0
      · exact Or.inl hk
      · exact Or.inr ⟨by omega, by simp⟩
    | succ mn =>
      have hl : Interval.contains ⟨.intMax 0, Mx.divDown (.intMax (mn + 1)) 0⟩ k = true ↔ k = 0 := by
        simp [Mx.divDown, Interval.contains, Mx.geq]
      simp only [hl, and_true]
      constructor
      · intro h; exact Or.inl (by omega)
      · rintro (h | ⟨h1, _, h2, _⟩)
        · omega
        · exfalso
          have : 1 * 1 ≤ k * (mn + 1) := Nat.mul_le_mul h1 (by omega)
          omega
  | succ N =>
    cases mx with
    | unbounded =>
      cases mn with
      | zero => simp [Mx.divUp, Mx.divDown, Interval.contains, Mx.geq]
      | succ mn =>
        simp only [Mx.divUp, Mx.divDown, Interval.contains, Mx.geq, Bool.and_eq_true,
          decide_eq_true_eq, Nat.le_div_iff_mul_le (Nat.succ_pos mn)]
        simp
    | intMax m =>
      cases m with
      | zero =>
        simp only [Mx.divUp, Interval.contains, Bool.false_and, Bool.false_eq_true, false_iff]
        rintro (⟨_, h⟩ | ⟨_, _, _, h⟩)
        · omega
        · have := h 0 rfl; omega
      | succ m =>
        have hceil : (N + 1 + (m + 1) - 1) / (m + 1) ≤ k ↔ N + 1 ≤ k * (m + 1) := by
          rw [← Nat.lt_succ_iff, Nat.div_lt_iff_lt_mul (Nat.succ_pos m), Nat.succ_mul]
          simp only [Nat.succ_eq_add_one]
          omega
        cases mn with
        | zero =>
          simp only [Mx.divUp, Mx.divDown, Interval.contains, Mx.geq, Bool.and_true,
            decide_eq_true_eq, ge_iff_le, hceil]
          constructor
          · intro h
            right
            refine ⟨?_, by simp, by simp, ?_⟩
            · by_contra h0
              have : k = 0 := by omega
              subst this
              omega
            · intro m' hm'; injection hm' with hm'; subst hm'; exact h
          · rintro (h | ⟨_, _, _, h⟩)
            · omega
            · exact h _ rfl
        | succ mn =>
          simp only [Mx.divUp, Mx.divDown, Interval.contains, Mx.geq, Bool.and_eq_true,
            decide_eq_true_eq, ge_iff_le, hceil, Nat.le_div_iff_mul_le (Nat.succ_pos mn)]
          constructor
          · rintro ⟨h1, h2⟩
            right
            have hk : 1 ≤ k := by
              by_contra h0
              have : k = 0 := by omega
              subst this
              omega
            refine ⟨hk, ?_, h2, ?_⟩
            · intro m' hm'; injection hm' with hm'; subst hm'
              exact Nat.le_of_mul_le_mul_left (le_trans h2 h1) hk
            · intro m' hm'; injection hm' with hm'; subst hm'; exact h1
          · rintro (h | ⟨_, _, h2, h⟩)
            · omega
            · exact ⟨h _ rfl, h2⟩

theorem proj_singleton (v : A) (B : Multiset A) :
    proj [v] B = Multiset.replicate (B.count v) v := by
  simp only [proj, List.mem_singleton]
  rw [Multiset.filter_eq']

theorem noSymbols_iff (e : Expr A) (B : Multiset A) :
    Expr.noSymbolsInBag e (fun a => B.count a) = true ↔ proj (Expr.symbols e) B = 0 := by
  simp only [Expr.noSymbolsInBag, List.all_eq_true, beq_iff_eq, proj]
  constructor
  · intro h
    apply Multiset.filter_eq_nil.2
    intro a ha hm
    have := h a hm
    exact Multiset.count_eq_zero.1 this ha
  · intro h a ha
    by_contra hc
    have : a ∈ Multiset.filter (fun a => a ∈ Expr.symbols e) B :=
      Multiset.mem_filter.2 ⟨by_contra fun hn => hc (Multiset.count_eq_zero.2 hn), ha⟩
    rw [h] at this
    simp at this

theorem noFailList_iff {vs : List (Expr A)} : NoFailList vs ↔ ∀ v ∈ vs, NoFail v := by
  induction vs with
  | nil => simp [NoFailList]
  | cons v vs ih => simp [NoFailList, ih]

theorem repeatFreeList_iff {vs : List (Expr A)} : RepeatFreeList vs ↔ ∀ v ∈ vs, RepeatFree v := by
  induction vs with
  | nil => simp [RepeatFreeList]
  | cons v vs ih => simp [RepeatFreeList, ih]

theorem repeatFlatList_iff {vs : List (Expr A)} : RepeatFlatList vs ↔ ∀ v ∈ vs, RepeatFlat v := by
  induction vs with
  | nil => simp [RepeatFlatList]
  | cons v vs ih => simp [RepeatFlatList, ih]

theorem SingleOccList.mem {vs : List (Expr A)} (h : SingleOccList vs) :
    ∀ v ∈ vs, SingleOcc v := by
  induction vs with
  | nil => simp
  | cons v vs ih =>
    intro w hw
    rcases List.mem_cons.1 hw with rfl | hw
    · exact h.cons.1
    · exact ih h.cons.2.1 w hw

/-- On expressions without repeated groups, an interval holds exactly the possible numbers of
members. -/
theorem interval_exact (B : Multiset A) (e : Expr A) (hn : NoFail e) (hs : Sane e)
    (ho : SingleOcc e) (hr : RepeatFree e) (k : Nat) :
    (Expr.interval (fun a => B.count a) e).contains k = true ↔
      SumOf (Lang e) k (proj (Expr.symbols e) B) := by
  induction e using Expr.ind generalizing k with
  | hfail => exact hn.elim
  | hempty =>
    simp only [Expr.interval, contains_zeroAny, true_iff, Expr.symbols]
    have : proj [] B = 0 := by simp [proj]
    rw [this]
    exact sumOf_nil_of (by simp [Lang]) k
  | hsym v c =>
    rw [interval_symbol, Expr.symbols, proj_singleton, sumOf_symbol]
  | hand vs ih =>
    simp only [Expr.interval, intervalAnd_contains, contains_zeroAny, true_and]
    have h1 : SumOf (Lang (.and vs)) k (proj (Expr.symbols (.and vs)) B) ↔
      SumOf (LangAll vs) k (proj (Expr.symbolsList vs) B) := Iff.rfl
    have hol : SingleOccList vs := ho
    rw [h1, sumOf_langAll_proj hol]
    refine forall_congr' fun v => forall_congr' fun hv => ?_
    exact ih v hv (noFailList_iff.1 hn v hv) (saneList_iff.1 hs v hv) (hol.mem v hv)
      (repeatFreeList_iff.1 hr v hv) k
  | hor vs ih =>
    simp only [Expr.interval, intervalOr_contains, contains_zeroZero]
    have h1 : SumOf (Lang (.or vs)) k (proj (Expr.symbols (.or vs)) B) ↔
      SumOf (LangSome vs) k (proj (Expr.symbolsList vs) B) := Iff.rfl
    have hol : SingleOccList vs := ho
    rw [h1, sumOf_langSome_proj hol]
    have ih' : ∀ v ∈ vs, ∀ j, (Expr.interval (fun a => B.count a) v).contains j = true ↔
        SumOf (Lang v) j (proj (Expr.symbols v) B) := fun v hv j =>
      ih v hv (noFailList_iff.1 hn v hv) (saneList_iff.1 hs.2 v hv) (hol.mem v hv)
        (repeatFreeList_iff.1 hr v hv) j
    constructor
    · rintro ⟨_, k2, rfl, rfl, h⟩
      rw [Nat.zero_add]
      exact OrSum.mono (fun v hv j _ => (ih' v hv j).1) h
    · intro h
      exact ⟨0, k, by omega, rfl, OrSum.mono (fun v hv j _ => (ih' v hv j).2) h⟩
  | hstar v ih =>
    have ih' := ih hn hs ho hr
    rw [sumOf_star]
    simp only [Expr.interval]
    split
    · rename_i h0
      rw [noSymbols_iff] at h0
      simp only [contains_zeroAny, true_iff, h0, and_true]
      by_cases hk : k = 0
      · exact Or.inl hk
      · exact Or.inr ⟨by omega, 0, sumOf_zero.2 rfl⟩
    · rename_i h0
      rw [noSymbols_iff] at h0
      have hsym : Expr.symbols (.star v) = Expr.symbols v := rfl
      rw [hsym] at h0
      rw [hsym]
      simp only [h0, and_false, false_or]
      split
      · rename_i he
        rw [Interval.isEmpty_iff] at he
        constructor
        · intro h; exact absurd h (he k)
        · rintro ⟨_, n, hn⟩; exact absurd ((ih' n).2 hn) (he n)
      · rename_i he
        rw [Interval.not_isEmpty_iff] at he
        obtain ⟨n, hn⟩ := he
        simp only [Interval.oneAny, Interval.contains, Mx.geq, Bool.and_true, decide_eq_true_eq]
        exact ⟨fun h => ⟨h, n, (ih' n).1 hn⟩, fun h => h.1⟩
  | hplus v ih =>
    have ih' := ih hn hs ho hr
    have hsym : Expr.symbols (.plus v) = Expr.symbols v := rfl
    rw [sumOf_plus]
    simp only [Expr.interval]
    split
    · rename_i h0
      rw [noSymbols_iff] at h0
      simp only [h0, and_true]
      split
      · rename_i hnull
        rw [isNullable_iff v hs] at hnull
        simp only [contains_zeroAny, true_iff]
        by_cases hk : k = 0
        · exact Or.inl hk
        · exact Or.inr ⟨by omega, k, le_refl _, sumOf_nil_of hnull k⟩
      · rename_i hnull
        rw [isNullable_iff v hs] at hnull
        rw [contains_zeroZero]
        constructor
        · intro h; exact Or.inl h
        · rintro (h | ⟨h1, n, h2, h3⟩)
          · exact h
          · obtain ⟨j, rfl⟩ : ∃ j, n = j + 1 := ⟨n - 1, by omega⟩
            exact absurd (sumOf_zero_bag h3) hnull
    · rename_i h0
      rw [noSymbols_iff, hsym] at h0
      rw [hsym]
      simp only [h0, and_false, false_or]
      split
      · rename_i he
        rw [Interval.isEmpty_iff] at he
        constructor
        · intro h; exact absurd h (he k)
        · rintro ⟨_, n, _, hn⟩; exact absurd ((ih' n).2 hn) (he n)
      · rename_i he
        rw [Interval.not_isEmpty_iff] at he
        obtain ⟨n, hn⟩ := he
        have hcn := hn
        rw [Interval.contains_iff] at hn
        obtain ⟨a, ha, han, hm⟩ := hn
        rw [Interval.contains_iff]
        simp only [Mx.intMax.injEq, exists_eq_left']
        constructor
        · rintro ⟨h1, h2⟩
          refine ⟨h1, Nat.max k n, Nat.le_max_left _ _, (ih' _).1 ?_⟩
          rw [Interval.contains_iff]
          refine ⟨a, ha, le_trans han (Nat.le_max_right _ _), fun m hm' => ?_⟩
          exact Nat.max_le.2 ⟨h2 m hm', hm m hm'⟩
        · rintro ⟨h1, n', h2, h3⟩
          refine ⟨h1, fun m hm' => ?_⟩
          have := (ih' n').2 h3
          rw [Interval.contains_iff] at this
          obtain ⟨_, _, _, h4⟩ := this
          exact le_trans h2 (h4 m hm')
  | hrep v c ih => exact hr.elim

/-- The interval of a repeated group over the empty part of the bag. -/
theorem sumOf_rep_zero (v : Expr A) (c : Card) (k : Nat) (hs : Sane (.repeat v c)) :
    SumOf (Lang (.repeat v c)) k 0 ↔ k = 0 ∨ c.nullable = true ∨ v.isNullable = true := by
  obtain ⟨hc, hv⟩ := hs
  rw [isNullable_iff v hv]
  simp only [Card.nullable, beq_iff_eq]
  cases k with
  | zero => simp [sumOf_zero]
  | succ k =>
    constructor
    · intro h
      have h0 := sumOf_zero_bag h
      obtain ⟨n, hn, hs⟩ := h0
      cases n with
      | zero => exact Or.inr (Or.inl (Nat.le_zero.1 hn.1))
      | succ n => exact Or.inr (Or.inr (sumOf_zero_bag hs))
    · rintro (h | h | h)
      · omega
      · exact sumOf_nil_of (P := Lang (.repeat v c)) ⟨0, ⟨by omega, fun _ _ => Nat.zero_le _⟩, sumOf_zero.2 rfl⟩ _
      · exact sumOf_nil_of (P := Lang (.repeat v c)) ⟨c.min, hc, sumOf_nil_of h _⟩ _

/-- For every single-occurrence expression, an interval only holds possible numbers of members. -/
theorem interval_sound (B : Multiset A) (e : Expr A) (hs : Sane e)
    (ho : SingleOcc e) (k : Nat)
    (h : (Expr.interval (fun a => B.count a) e).contains k = true) :
    SumOf (Lang e) k (proj (Expr.symbols e) B) := by
  induction e using Expr.ind generalizing k with
  | hfail =>
    simp [Expr.interval, Interval.fail, Interval.contains, Mx.geq] at h
    omega
  | hempty =>
    have : proj [] B = 0 := by simp [proj]
    rw [Expr.symbols, this]
    exact sumOf_nil_of (by simp [Lang]) k
  | hsym v c =>
    rw [interval_symbol] at h
    rw [Expr.symbols, proj_singleton, sumOf_symbol]
    exact h
  | hand vs ih =>
    simp only [Expr.interval, intervalAnd_contains, contains_zeroAny, true_and] at h
    have hol : SingleOccList vs := ho
    have h1 : SumOf (LangAll vs) k (proj (Expr.symbolsList vs) B) := by
      rw [sumOf_langAll_proj hol]
      intro v hv
      exact ih v hv (saneList_iff.1 hs v hv) (hol.mem v hv) k (h v hv)
    exact h1
  | hor vs ih =>
    simp only [Expr.interval, intervalOr_contains, contains_zeroZero] at h
    have hol : SingleOccList vs := ho
    have h1 : SumOf (LangSome vs) k (proj (Expr.symbolsList vs) B) := by
      rw [sumOf_langSome_proj hol]
      obtain ⟨_, k2, rfl, rfl, h⟩ := h
      rw [Nat.zero_add]
      exact OrSum.mono (fun v hv j _ => ih v hv (saneList_iff.1 hs.2 v hv) (hol.mem v hv) j) h
    exact h1
  | hstar v ih =>
    have ih' := ih hs ho
    rw [sumOf_star]
    simp only [Expr.interval] at h
    split at h
    · rename_i h0
      rw [noSymbols_iff] at h0
      rw [h0]
      by_cases hk : k = 0
      · exact Or.inl ⟨hk, rfl⟩
      · exact Or.inr ⟨by omega, 0, sumOf_zero.2 rfl⟩
    · rename_i h0
      split at h
      · rename_i he
        rw [Interval.isEmpty_iff] at he
        exact absurd h (he k)
      · rename_i he
        rw [Interval.not_isEmpty_iff] at he
        obtain ⟨n, hn⟩ := he
        simp only [Interval.oneAny, Interval.contains, Mx.geq, Bool.and_true, decide_eq_true_eq] at h
        exact Or.inr ⟨h, n, ih' n hn⟩
  | hplus v ih =>
    have ih' := ih hs ho
    rw [sumOf_plus]
    simp only [Expr.interval] at h
    split at h
    · rename_i h0
      rw [noSymbols_iff] at h0
      rw [h0]
      by_cases hk : k = 0
      · exact Or.inl ⟨hk, rfl⟩
      · split at h
        · rename_i hnull
          rw [isNullable_iff v hs] at hnull
          exact Or.inr ⟨by omega, k, le_refl _, sumOf_nil_of hnull k⟩
        · rw [contains_zeroZero] at h
          exact absurd h hk
    · rename_i h0
      split at h
      · rename_i he
        rw [Interval.isEmpty_iff] at he
        exact absurd h (he k)
      · rename_i he
        rw [Interval.not_isEmpty_iff] at he
        obtain ⟨n, hn⟩ := he
        rw [Interval.contains_iff] at hn h
        obtain ⟨a, ha, han, hm⟩ := hn
        simp only [Mx.intMax.injEq, exists_eq_left'] at h
        right
        refine ⟨h.1, Nat.max k n, Nat.le_max_left _ _, ih' _ ?_⟩
        rw [Interval.contains_iff]
        refine ⟨a, ha, le_trans han (Nat.le_max_right _ _), fun m hm' => ?_⟩
        exact Nat.max_le.2 ⟨h.2 m hm', hm m hm'⟩
  | hrep v c ih =>
    have ih' := ih hs.2 ho
    simp only [Expr.interval] at h
    split at h
    · rename_i h0
      rw [noSymbols_iff] at h0
      rw [h0, sumOf_rep_zero v c k hs]
      split at h
      · rename_i hb
        rw [Bool.or_eq_true] at hb
        exact Or.inr hb
      · rw [contains_zeroZero] at h
        exact Or.inl h
    · rename_i h0
      split at h
      · rename_i he
        rw [Interval.isEmpty_iff] at he
        exact absurd h (he k)
      · split at h
        · simp [Interval.fail, Interval.contains, Mx.geq] at h
          omega
        · rename_i he
          rw [Interval.not_isEmpty_iff] at he
          obtain ⟨n, hn⟩ := he
          rw [Interval.contains_inter] at hn
          have hk : k = 1 := by
            simp [Interval.contains, Mx.geq] at h
            omega
          subst hk
          rw [sumOf_one]
          refine ⟨n, ?_, ih' n hn.1⟩
          have h2 := hn.2
          rw [Interval.contains_iff] at h2
          obtain ⟨a, ha, h3, h4⟩ := h2
          simp only [Mx.intMax.injEq] at ha
          subst ha
          exact ⟨h3, h4⟩

/-- With repeated groups that are not nested under another repetition, the interval is exact
for at most one member. -/
theorem interval_flat (B : Multiset A) (e : Expr A) (hn : NoFail e) (hs : Sane e)
    (ho : SingleOcc e) (hr : RepeatFlat e) (k : Nat) (hk : k ≤ 1)
    (h : SumOf (Lang e) k (proj (Expr.symbols e) B)) :
    (Expr.interval (fun a => B.count a) e).contains k = true := by
  induction e using Expr.ind generalizing k with
  | hfail => exact hn.elim
  | hempty => simp only [Expr.interval, contains_zeroAny]
  | hsym v c => exact (interval_exact B (.symbol v c) hn hs ho trivial k).2 h
  | hand vs ih =>
    simp only [Expr.interval, intervalAnd_contains, contains_zeroAny, true_and]
    have hol : SingleOccList vs := ho
    have h1 : SumOf (LangAll vs) k (proj (Expr.symbolsList vs) B) := h
    rw [sumOf_langAll_proj hol] at h1
    intro v hv
    exact ih v hv (noFailList_iff.1 hn v hv) (saneList_iff.1 hs v hv) (hol.mem v hv)
      (repeatFlatList_iff.1 hr v hv) k hk (h1 v hv)
  | hor vs ih =>
    simp only [Expr.interval, intervalOr_contains, contains_zeroZero]
    have hol : SingleOccList vs := ho
    have h1 : SumOf (LangSome vs) k (proj (Expr.symbolsList vs) B) := h
    rw [sumOf_langSome_proj hol] at h1
    refine ⟨0, k, by omega, rfl, OrSum.mono (fun v hv j hj => ?_) h1⟩
    exact ih v hv (noFailList_iff.1 hn v hv) (saneList_iff.1 hs.2 v hv) (hol.mem v hv)
      (repeatFlatList_iff.1 hr v hv) j (le_trans hj hk)
  | hstar v ih => exact (interval_exact B (.star v) hn hs ho hr k).2 h
  | hplus v ih => exact (interval_exact B (.plus v) hn hs ho hr k).2 h
  | hrep v c ih =>
    have ih' := interval_exact B v hn hs.2 ho hr
    have hsym : Expr.symbols (.repeat v c) = Expr.symbols v := rfl
    simp only [Expr.interval]
    split
    · rename_i h0
      rw [noSymbols_iff] at h0
      rw [h0, sumOf_rep_zero v c k hs] at h
      split
      · exact contains_zeroAny k
      · rename_i hb
        rw [Bool.or_eq_true] at hb
        rw [contains_zeroZero]
        rcases h with h | h
        · exact h
        · exact absurd h hb
    · rename_i h0
      rw [noSymbols_iff] at h0
      have hk1 : k = 1 := by
        by_contra hne
        have : k = 0 := by omega
        subst this
        exact h0 (sumOf_zero.1 h)
      subst hk1
      rw [sumOf_one] at h
      obtain ⟨n, hcn, hns⟩ := h
      have hin := (ih' n).2 hns
      split
      · rename_i he
        rw [Interval.isEmpty_iff] at he
        exact absurd hin (he n)
      · split
        · rename_i he
          rw [Interval.isEmpty_iff] at he
          refine absurd ?_ (he n)
          rw [Interval.contains_inter]
          refine ⟨hin, ?_⟩
          rw [Interval.contains_iff]
          exact ⟨c.min, rfl, hcn.1, hcn.2⟩
        · simp [Interval.contains, Mx.geq]

end

end Rbe
