import Verif.Rbe.ModelFeas
import Verif.Rbe.LemmasStruct

/-!
# Helper lemmas: soundness of the feasibility refutation
-/

set_option linter.unusedSectionVars false
set_option linter.unusedSimpArgs false

namespace Rbe
variable {A : Type} [DecidableEq A]

theorem zero_iff (lo : A → Nat) (e : Expr A) :
    Expr.zero lo e = true ↔ ∀ a ∈ Expr.symbols e, lo a = 0 := by
  have hl : ∀ vs : List (Expr A),
      (∀ v ∈ vs, (Expr.zero lo v = true ↔ ∀ a ∈ Expr.symbols v, lo a = 0)) →
      (Expr.zeroAll lo vs = true ↔ ∀ a ∈ Expr.symbolsList vs, lo a = 0) := by
    intro vs h
    induction vs with
    | nil => simp [Expr.zeroAll, Expr.symbolsList]
    | cons v vs ih =>
      simp only [Expr.zeroAll, Bool.and_eq_true, h v (by simp), ih (fun w hw => h w (by simp [hw])),
        Expr.symbolsList, List.mem_append]
      constructor
      · rintro ⟨h1, h2⟩ a (ha | ha)
        · exact h1 a ha
        · exact h2 a ha
      · intro h
        exact ⟨fun a ha => h a (Or.inl ha), fun a ha => h a (Or.inr ha)⟩
  induction e using Expr.ind with
  | hfail => simp [Expr.zero, Expr.symbols]
  | hempty => simp [Expr.zero, Expr.symbols]
  | hsym v c => simp [Expr.zero, Expr.symbols]
  | hand vs ih => exact hl vs ih
  | hor vs ih => exact hl vs ih
  | hstar v ih => exact ih
  | hplus v ih => exact ih
  | hrep v c ih => exact ih

theorem zeroAll_iff (lo : A → Nat) (vs : List (Expr A)) :
    Expr.zeroAll lo vs = true ↔ ∀ a ∈ Expr.symbolsList vs, lo a = 0 :=
  zero_iff lo (.and vs)

/-- `s` stays below `hi`. -/
def Below (s : Multiset A) (hi : A → Nat) : Prop := ∀ a, s.count a ≤ hi a

/-- `s` reaches `lo` on the symbols of `l`. -/
def Reach (lo : A → Nat) (l : List A) (s : Multiset A) : Prop := ∀ a ∈ l, lo a ≤ s.count a

/-- Symbols with a positive lower bound occur at most once. -/
def Sep (lo : A → Nat) (e : Expr A) : Prop := ∀ a, 0 < lo a → occ a e ≤ 1

/-- `Sep` for a list. -/
def SepList (lo : A → Nat) (vs : List (Expr A)) : Prop := ∀ a, 0 < lo a → occList a vs ≤ 1

theorem Below.left {s t : Multiset A} {hi : A → Nat} (h : Below (s + t) hi) : Below s hi := by
  intro a; have := h a; rw [Multiset.count_add] at this; omega

theorem Below.right {s t : Multiset A} {hi : A → Nat} (h : Below (s + t) hi) : Below t hi := by
  intro a; have := h a; rw [Multiset.count_add] at this; omega

theorem SepList.cons {lo : A → Nat} {v : Expr A} {vs : List (Expr A)} (h : SepList lo (v :: vs)) :
    Sep lo v ∧ SepList lo vs ∧
      ∀ a, a ∈ Expr.symbols v → a ∈ Expr.symbolsList vs → lo a = 0 := by
  refine ⟨fun a ha => ?_, fun a ha => ?_, fun a h1 h2 => ?_⟩
  · have := h a ha; simp only [occList] at this; omega
  · have := h a ha; simp only [occList] at this; omega
  · by_contra hne
    have := h a (by omega)
    simp only [occList] at this
    rw [mem_symbols_iff] at h1
    rw [mem_symbolsList] at h2
    obtain ⟨w, hw, hm⟩ := h2
    rw [mem_symbols_iff] at hm
    have := occList_pos.2 ⟨w, hw, hm⟩
    omega

/-- Split of a bag over two expressions whose common symbols have no lower bound. -/
theorem reach_split {lo : A → Nat} {l1 l2 : List A} {t u : Multiset A}
    (hd : ∀ a, a ∈ l1 → a ∈ l2 → lo a = 0) (ht : ∀ a ∈ t, a ∈ l1) (hu : ∀ a ∈ u, a ∈ l2)
    (h : Reach lo (l1 ++ l2) (t + u)) : Reach lo l1 t ∧ Reach lo l2 u := by
  constructor
  · intro a ha
    have := h a (by simp [ha])
    rw [Multiset.count_add] at this
    by_cases h2 : a ∈ l2
    · rw [hd a ha h2]; omega
    · have : u.count a = 0 := Multiset.count_eq_zero.2 fun h => h2 (hu a h)
      omega
  · intro a ha
    have := h a (by simp [ha])
    rw [Multiset.count_add] at this
    by_cases h2 : a ∈ l1
    · rw [hd a h2 ha]; omega
    · have : t.count a = 0 := Multiset.count_eq_zero.2 fun h => h2 (ht a h)
      omega

theorem langAll_mem {vs : List (Expr A)} {s : Multiset A} (h : LangAll vs s) :
    ∀ a ∈ s, a ∈ Expr.symbolsList vs := lang_mem (.and vs) s h

theorem sumOf_member {P : Multiset A → Prop} {k : Nat} {s : Multiset A} (hk : 1 ≤ k)
    (h : SumOf P k s) : ∃ t u, s = t + u ∧ P t := by
  obtain ⟨j, rfl⟩ : ∃ j, k = j + 1 := ⟨k - 1, by omega⟩
  obtain ⟨t, u, h1, h2, _⟩ := sumOf_succ.1 h
  exact ⟨t, u, h1, h2⟩

/-- A member below `hi` passes `once`. -/
theorem once_of_lang (hi : A → Nat) (e : Expr A) (s : Multiset A) (h : Lang e s)
    (hb : Below s hi) : Expr.once hi e = true := by
  induction e using Expr.ind generalizing s with
  | hfail => exact h.elim
  | hempty => rfl
  | hsym v c =>
    obtain ⟨n, hn, rfl⟩ := h
    have := hb v
    rw [Multiset.count_replicate_self] at this
    simp only [Expr.once, Bool.or_eq_true, beq_iff_eq, decide_eq_true_eq]
    right
    exact le_trans hn.1 this
  | hand vs ih =>
    simp only [Expr.once, Lang] at *
    induction vs generalizing s with
    | nil => rfl
    | cons v vs ihv =>
      obtain ⟨t, u, rfl, ht, hu⟩ := h
      simp only [Expr.onceAll, Bool.and_eq_true]
      exact ⟨ih v (by simp) t ht hb.left, ihv (fun w hw => ih w (by simp [hw])) u hu hb.right⟩
  | hor vs ih =>
    simp only [Expr.once, Lang] at *
    induction vs with
    | nil => exact h.elim
    | cons v vs ihv =>
      simp only [Expr.onceAny, Bool.or_eq_true]
      rcases h with h | h
      · exact Or.inl (ih v (by simp) s h hb)
      · exact Or.inr (ihv (fun w hw => ih w (by simp [hw])) h)
  | hstar v ih => rfl
  | hplus v ih =>
    obtain ⟨k, hk, hs⟩ := h
    obtain ⟨t, u, rfl, ht⟩ := sumOf_member hk hs
    exact ih t ht hb.left
  | hrep v c ih =>
    simp only [Expr.once, Bool.or_eq_true, beq_iff_eq]
    by_cases h0 : c.min = 0
    · exact Or.inl h0
    · right
      obtain ⟨k, hk, hs⟩ := h
      obtain ⟨t, u, rfl, ht⟩ := sumOf_member (by have := hk.1; omega) hs
      exact ih t ht hb.left

theorem once_of_sum (hi : A → Nat) (e : Expr A) (k : Nat) (hk : 1 ≤ k) (s : Multiset A)
    (h : SumOf (Lang e) k s) (hb : Below s hi) : Expr.once hi e = true := by
  obtain ⟨t, u, rfl, ht⟩ := sumOf_member hk h
  exact once_of_lang hi e t ht hb.left

theorem zero_of_reach_zero {lo : A → Nat} {e : Expr A} (h : Reach lo (Expr.symbols e) 0) :
    Expr.zero lo e = true := by
  rw [zero_iff]
  intro a ha
  have := h a ha
  simpa using this

/-- A sum of at least one member passes `fi`. -/
theorem fi_of_sum (lo hi : A → Nat) (e : Expr A) (hsep : Sep lo e) (k : Nat) (hk : 1 ≤ k)
    (s : Multiset A) (h : SumOf (Lang e) k s) (hr : Reach lo (Expr.symbols e) s)
    (hb : Below s hi) : Expr.fi lo hi e = true := by
  induction e using Expr.ind generalizing s k with
  | hfail =>
    obtain ⟨t, u, _, ht⟩ := sumOf_member hk h
    exact ht.elim
  | hempty => rfl
  | hsym v c =>
    have hs : s = Multiset.replicate (s.count v) v := by
      have hm := sumOf_mem (Q := fun a => a ∈ Expr.symbols (.symbol v c)) (lang_mem (.symbol v c)) h
      rw [Multiset.eq_replicate]
      have hall : ∀ b ∈ s, b = v := fun b hb => by simpa [Expr.symbols] using hm b hb
      refine ⟨?_, hall⟩
      exact (Multiset.count_eq_card.2 fun b hb => (hall b hb).symm).symm
    rw [hs, sumOf_symbol] at h
    have hlo := hr v (by simp [Expr.symbols])
    have hhi := hb v
    rcases h with ⟨h, _⟩ | ⟨_, _, h1, h2⟩
    · omega
    · have hmul : 1 * c.min ≤ k * c.min := Nat.mul_le_mul_right _ hk
      simp only [Expr.fi, Bool.and_eq_true, Bool.or_eq_true, beq_iff_eq, decide_eq_true_eq,
        bne_iff_ne, ne_eq]
      refine ⟨Or.inr (by omega), ?_⟩
      by_cases hm : c.max = .intMax 0
      · right
        have := h2 0 hm
        omega
      · exact Or.inl hm
  | hand vs ih =>
    simp only [Expr.fi]
    have h' : SumOf (LangAll vs) k s := h
    have hr' : Reach lo (Expr.symbolsList vs) s := hr
    have hsep' : SepList lo vs := hsep
    clear h hr hsep
    induction vs generalizing s with
    | nil => rfl
    | cons v vs ihv =>
      obtain ⟨h1, h2, hd⟩ := hsep'.cons
      obtain ⟨t, u, rfl, ht, hu⟩ := sumOf_langAll_cons.1 h'
      obtain ⟨r1, r2⟩ := reach_split hd
        (sumOf_mem (Q := fun a => a ∈ Expr.symbols v) (lang_mem v) ht)
        (sumOf_mem (Q := fun a => a ∈ Expr.symbolsList vs) (lang_mem (.and vs)) hu) hr'
      simp only [Expr.fiAll, Bool.and_eq_true]
      exact ⟨ih v (by simp) h1 k hk t ht r1 hb.left,
        ihv (fun w hw => ih w (by simp [hw])) u hb.right hu r2 h2⟩
  | hor vs ih =>
    simp only [Expr.fi]
    have h' : SumOf (LangSome vs) k s := h
    have hr' : Reach lo (Expr.symbolsList vs) s := hr
    have hsep' : SepList lo vs := hsep
    clear h hr hsep hk
    induction vs generalizing s k with
    | nil => rfl
    | cons v vs ihv =>
      obtain ⟨h1, h2, hd⟩ := hsep'.cons
      obtain ⟨k1, k2, t, u, rfl, rfl, ht, hu⟩ := sumOf_langSome_cons.1 h'
      obtain ⟨r1, r2⟩ := reach_split hd
        (sumOf_mem (Q := fun a => a ∈ Expr.symbols v) (lang_mem v) ht)
        (sumOf_mem (Q := fun a => a ∈ Expr.symbolsList vs) (lang_mem (.or vs)) hu) hr'
      simp only [Expr.fiOr, Bool.and_eq_true, Bool.or_eq_true]
      refine ⟨?_, ihv (fun w hw => ih w (by simp [hw])) k2 u hb.right hu r2 h2⟩
      by_cases hk1 : k1 = 0
      · left
        subst hk1
        rw [sumOf_zero] at ht
        subst ht
        exact zero_of_reach_zero r1
      · right
        exact ih v (by simp) h1 k1 (by omega) t ht r1 hb.left
  | hstar v ih =>
    rw [sumOf_star] at h
    simp only [Expr.fi, Bool.or_eq_true]
    rcases h with ⟨h, _⟩ | ⟨_, n, hn⟩
    · omega
    · by_cases h0 : n = 0
      · left
        subst h0
        rw [sumOf_zero] at hn
        subst hn
        exact zero_of_reach_zero (e := v) hr
      · right
        exact ih hsep n (by omega) s hn hr hb
  | hplus v ih =>
    rw [sumOf_plus] at h
    simp only [Expr.fi, Bool.and_eq_true]
    rcases h with ⟨h, _⟩ | ⟨_, n, hkn, hn⟩
    · omega
    · exact ⟨ih hsep n (by omega) s hn hr hb, once_of_sum hi v n (by omega) s hn hb⟩
  | hrep v c ih =>
    rw [sumOf_rep] at h
    obtain ⟨N, hN, hs⟩ := h
    have hz : N = 0 → Expr.zero lo v = true := by
      intro h0
      subst h0
      rw [sumOf_zero] at hs
      subst hs
      exact zero_of_reach_zero (e := v) hr
    rcases hN with ⟨h, _⟩ | ⟨_, _, h1, h2⟩
    · omega
    · simp only [Expr.fi, beq_iff_eq]
      split
      · rename_i hm
        have := h2 0 hm
        exact hz (by omega)
      · split
        · rw [Bool.or_eq_true]
          by_cases h0 : N = 0
          · exact Or.inl (hz h0)
          · exact Or.inr (ih hsep N (by omega) s hs hr hb)
        · rename_i hmin
          have hmul : 1 * 1 ≤ k * c.min := Nat.mul_le_mul hk (by omega)
          rw [Bool.and_eq_true]
          exact ⟨ih hsep N (by omega) s hs hr hb, once_of_sum hi v N (by omega) s hs hb⟩

theorem symbolsList_append (l r : List (Expr A)) :
    Expr.symbolsList (l ++ r) = Expr.symbolsList l ++ Expr.symbolsList r := by
  induction l with
  | nil => rfl
  | cons v l ih => simp [Expr.symbolsList, ih]

/-- `fxOr` finds a branch that is feasible while all the others are zero. -/
theorem fxOr_of (lo hi : A → Nat) (l : List (Expr A)) (v : Expr A) (r : List (Expr A))
    (hv : Expr.fx lo hi v = true) (hr : Expr.zeroAll lo r = true) :
    ∀ pre : Bool, pre = true → Expr.zeroAll lo l = true →
      Expr.fxOr lo hi pre (l ++ v :: r) = true := by
  induction l with
  | nil =>
    rintro _ rfl _
    simp [Expr.fxOr, hv, hr]
  | cons w l ih =>
    rintro _ rfl hl
    simp only [Expr.zeroAll, Bool.and_eq_true] at hl
    simp only [List.cons_append, Expr.fxOr, Bool.or_eq_true]
    right
    exact ih _ (by simp [hl.1]) hl.2

theorem occList_append (a : A) (l r : List (Expr A)) :
    occList a (l ++ r) = occList a l + occList a r := by
  induction l with
  | nil => simp [occList]
  | cons v l ih => simp [occList, ih]; omega

/-- A member between the bounds passes `fx`. -/
theorem fx_of_lang (lo hi : A → Nat) (e : Expr A) (hsep : Sep lo e) (s : Multiset A)
    (h : Lang e s) (hr : Reach lo (Expr.symbols e) s) (hb : Below s hi) :
    Expr.fx lo hi e = true := by
  induction e using Expr.ind generalizing s with
  | hfail => exact h.elim
  | hempty => rfl
  | hsym v c =>
    obtain ⟨n, hn, rfl⟩ := h
    have hlo := hr v (by simp [Expr.symbols])
    have hhi := hb v
    rw [Multiset.count_replicate_self] at hlo hhi
    simp only [Expr.fx, Bool.and_eq_true, decide_eq_true_eq]
    refine ⟨?_, le_trans hn.1 hhi⟩
    cases hm : c.max with
    | unbounded => rfl
    | intMax m =>
      simp only [Mx.geq, decide_eq_true_eq]
      have := hn.2 m hm
      omega
  | hand vs ih =>
    simp only [Expr.fx]
    have h' : LangAll vs s := h
    have hr' : Reach lo (Expr.symbolsList vs) s := hr
    have hsep' : SepList lo vs := hsep
    clear h hr hsep
    induction vs generalizing s with
    | nil => rfl
    | cons v vs ihv =>
      obtain ⟨h1, h2, hd⟩ := hsep'.cons
      obtain ⟨t, u, rfl, ht, hu⟩ := h'
      obtain ⟨r1, r2⟩ := reach_split hd (lang_mem v t ht) (langAll_mem hu) hr'
      simp only [Expr.fxAll, Bool.and_eq_true]
      exact ⟨ih v (by simp) h1 t ht r1 hb.left,
        ihv (fun w hw => ih w (by simp [hw])) u hb.right hu r2 h2⟩
  | hor vs ih =>
    simp only [Expr.fx]
    simp only [Lang, langSome_iff] at h
    obtain ⟨v, hv, hl⟩ := h
    obtain ⟨l, r, rfl⟩ := List.append_of_mem hv
    have hsep' : SepList lo (l ++ v :: r) := hsep
    have hsv : Sep lo v := by
      intro a ha
      have := hsep' a ha
      rw [occList_append] at this
      simp only [occList] at this
      omega
    have hr' : Reach lo (Expr.symbolsList (l ++ v :: r)) s := hr
    have hrv : Reach lo (Expr.symbols v) s := fun a ha =>
      hr' a (mem_symbolsList.2 ⟨v, hv, ha⟩)
    have hzero : ∀ w, (w ∈ l ∨ w ∈ r) → ∀ a ∈ Expr.symbols w, lo a = 0 := by
      intro w hw a ha
      by_contra hne
      have h1 := hsep' a (by omega)
      rw [occList_append] at h1
      simp only [occList] at h1
      have hw0 := (mem_symbols_iff w a).1 ha
      have hpos : 0 < occList a l + occList a r := by
        rcases hw with hw | hw
        · have := occList_pos.2 ⟨w, hw, hw0⟩; omega
        · have := occList_pos.2 ⟨w, hw, hw0⟩; omega
      have hv0 : occ a v = 0 := by omega
      have hc : s.count a = 0 := Multiset.count_eq_zero.2 fun hm => by
        have := (mem_symbols_iff v a).1 (lang_mem v s hl a hm)
        omega
      have hmem : a ∈ Expr.symbolsList (l ++ v :: r) := by
        rw [mem_symbolsList]
        rcases hw with hw | hw
        · exact ⟨w, by simp [hw], ha⟩
        · exact ⟨w, by simp [hw], ha⟩
      have := hr' a hmem
      omega
    apply fxOr_of lo hi l v r (ih v hv hsv s hl hrv hb) _ true rfl
    · rw [zeroAll_iff]
      intro a ha
      obtain ⟨w, hw, hm⟩ := mem_symbolsList.1 ha
      exact hzero w (Or.inl hw) a hm
    · rw [zeroAll_iff]
      intro a ha
      obtain ⟨w, hw, hm⟩ := mem_symbolsList.1 ha
      exact hzero w (Or.inr hw) a hm
  | hstar v ih =>
    obtain ⟨n, hn⟩ := h
    simp only [Expr.fx, Bool.or_eq_true, Bool.and_eq_true]
    by_cases h0 : n = 0
    · left
      subst h0
      rw [sumOf_zero] at hn
      subst hn
      exact zero_of_reach_zero (e := v) hr
    · right
      exact ⟨fi_of_sum lo hi v hsep n (by omega) s hn hr hb, once_of_sum hi v n (by omega) s hn hb⟩
  | hplus v ih =>
    obtain ⟨n, h0, hn⟩ := h
    simp only [Expr.fx, Bool.and_eq_true]
    exact ⟨fi_of_sum lo hi v hsep n (by omega) s hn hr hb, once_of_sum hi v n (by omega) s hn hb⟩
  | hrep v c ih =>
    obtain ⟨n, hc, hn⟩ := h
    have hz : n = 0 → Expr.zero lo v = true := by
      intro h0
      subst h0
      rw [sumOf_zero] at hn
      subst hn
      exact zero_of_reach_zero (e := v) hr
    have hp : n ≠ 0 → Expr.fi lo hi v = true ∧ Expr.once hi v = true := fun h0 =>
      ⟨fi_of_sum lo hi v hsep n (by omega) s hn hr hb, once_of_sum hi v n (by omega) s hn hb⟩
    simp only [Expr.fx, beq_iff_eq, Bool.and_eq_true]
    split
    · rename_i hm
      have := hc.2 0 hm
      exact hz (by omega)
    · split
      · rename_i h01
        have := hc.2 1 h01.2
        rw [Bool.or_eq_true]
        by_cases h0 : n = 0
        · exact Or.inl (hz h0)
        · right
          have : n = 1 := by omega
          subst this
          exact ih hsep s (sumOf_one.1 hn) hr hb
      · split
        · rw [Bool.or_eq_true, Bool.and_eq_true]
          by_cases h0 : n = 0
          · exact Or.inl (hz h0)
          · exact Or.inr (hp h0)
        · rename_i hmin
          rw [Bool.and_eq_true]
          have := hc.1
          exact hp (by omega)

end Rbe
