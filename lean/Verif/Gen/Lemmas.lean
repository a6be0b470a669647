import Verif.Gen.Model
import Mathlib.Data.List.Nodup
import Mathlib.Data.List.Forall2

/-!
# Lemmas on data made from schemas
-/

namespace Gen

/-! ## Lists -/

theorem mapM_forall₂ {α β : Type} {f : α → Option β} : ∀ {l : List α} {r : List β}, l.mapM f = some r →
    List.Forall₂ (fun a b => f a = some b) l r
  | [], r, h => by
    simp only [List.mapM_nil] at h
    cases h
    exact .nil
  | a :: l, r, h => by
    rw [List.mapM_cons] at h
    cases ha : f a with
    | none => rw [ha] at h; cases h
    | some b =>
      rw [ha] at h
      cases hl : l.mapM f with
      | none => rw [hl] at h; cases h
      | some bs =>
        rw [hl] at h
        cases h
        exact .cons ha (mapM_forall₂ hl)

theorem mapM_mem {α β : Type} {f : α → Option β} {l : List α} {r : List β} (h : l.mapM f = some r) :
    (∀ b, b ∈ r ↔ ∃ a ∈ l, f a = some b) ∧ ∀ a ∈ l, ∃ b, f a = some b := by
  replace h := mapM_forall₂ h
  induction h with
  | nil => simp
  | cons hab _ ih =>
    constructor
    · intro b
      simp only [List.mem_cons, ih.1 b, exists_eq_or_imp, hab, Option.some.injEq]
      constructor
      · rintro (rfl | h)
        · exact Or.inl rfl
        · exact Or.inr h
      · rintro (h | h)
        · exact Or.inl h.symm
        · exact Or.inr h
    · intro a ha
      rcases List.mem_cons.1 ha with rfl | ha
      · exact ⟨_, hab⟩
      · exact ih.2 a ha

theorem collect_mem {α β : Type} {f : α → Option (List β)} {l : List α} {r : List β} (h : collect f l = some r) :
    (∀ b, b ∈ r ↔ ∃ a ∈ l, ∃ bs, f a = some bs ∧ b ∈ bs) ∧ ∀ a ∈ l, ∃ bs, f a = some bs := by
  rw [collect, Option.map_eq_some_iff] at h
  obtain ⟨r', h, rfl⟩ := h
  obtain ⟨h1, h2⟩ := mapM_mem h
  refine ⟨fun b => ?_, h2⟩
  simp only [List.mem_flatten, h1]
  constructor
  · rintro ⟨bs, ⟨a, ha, h⟩, hb⟩; exact ⟨a, ha, bs, h, hb⟩
  · rintro ⟨a, ha, bs, h, hb⟩; exact ⟨bs, ⟨a, ha, h⟩, hb⟩

theorem zip_mem {α : Type} {l : List α} {a : α} {k : Nat} (h : (a, k) ∈ l.zipIdx) : a ∈ l ∧ l[k]? = some a := by
  have := List.mk_mem_zipIdx_iff_getElem?.1 h
  exact ⟨List.mem_of_getElem? this, this⟩

theorem mem_zip {α : Type} {l : List α} {a : α} (h : a ∈ l) : ∃ k, (a, k) ∈ l.zipIdx := by
  obtain ⟨k, hk⟩ := List.getElem?_of_mem h
  exact ⟨k, List.mk_mem_zipIdx_iff_getElem?.2 hk⟩

/-! ## Names -/

theorem digit_ne {n : Nat} {c : Char} (h : c ∈ digits n) : c ≠ '-' := by
  have := Nat.isDigit_of_mem_toDigits (by omega) (by omega) h
  rintro rfl
  revert this
  decide

theorem digits_inj {m n : Nat} (h : digits m = digits n) : m = n := by
  have h1 := Nat.ofDigitChars_ten_toDigits (n := m)
  have h2 := Nat.ofDigitChars_ten_toDigits (n := n)
  simp only [digits] at h
  rw [h] at h1
  exact h1.symm.trans h2

theorem last_dash {a b x y : Str} (hx : '-' ∉ x) (hy : '-' ∉ y) (h : a ++ '-' :: x = b ++ '-' :: y) : a = b ∧ x = y := by
  have h' := congrArg List.reverse h
  simp only [List.reverse_append, List.reverse_cons, List.append_assoc, List.singleton_append] at h'
  have key : ∀ (u v p q : Str), '-' ∉ u → '-' ∉ v → u ++ '-' :: p = v ++ '-' :: q → u = v ∧ p = q := by
    intro u
    induction u with
    | nil =>
      intro v p q _ hv h
      cases v with
      | nil => simpa using h
      | cons c v =>
        simp only [List.nil_append, List.cons_append, List.cons.injEq] at h
        exact absurd (by rw [← h.1]; simp) hv
    | cons c u ih =>
      intro v p q hu hv h
      cases v with
      | nil =>
        simp only [List.nil_append, List.cons_append, List.cons.injEq] at h
        exact absurd (by rw [h.1]; simp) hu
      | cons d v =>
        simp only [List.cons_append, List.cons.injEq] at h
        obtain ⟨rfl, rfl⟩ := ih v p q (fun h' => hu (by simp [h'])) (fun h' => hv (by simp [h'])) h.2
        exact ⟨by rw [h.1], rfl⟩
  obtain ⟨h1, h2⟩ := key _ _ _ _ (by simpa using hx) (by simpa using hy) h'
  exact ⟨List.reverse_injective h2, List.reverse_injective h1⟩

theorem entityIri_inj {a b : Str} {i j : Nat} (h : entityIri a i = entityIri b j) : a = b ∧ i = j := by
  obtain ⟨h1, h2⟩ := last_dash (fun h => digit_ne h rfl) (fun h => digit_ne h rfl) h
  have := digits_inj h2
  exact ⟨h1, by omega⟩

theorem nested_ne (t : Str) (i j k : Nat) : nestedIri t i j ≠ entityIri t k := by
  intro h
  have h : (t ++ '-' :: digits i) ++ '-' :: digits j = t ++ '-' :: digits (k + 1) := by
    simpa [nestedIri, entityIri] using h
  obtain ⟨h1, _⟩ := last_dash (fun h => digit_ne h rfl) (fun h => digit_ne h rfl) h
  have := congrArg List.length h1
  simp at this

/-! ## Counts -/

/-- The choice is between the bounds. -/
theorem choose_within {st : Strategy} {index lo hi d k : Nat} (hd : lo ≤ hi → lo ≤ d ∧ d ≤ hi) (hle : lo ≤ hi)
    (h : choose st index lo hi d = some k) : lo ≤ k ∧ k ≤ hi := by
  cases st with
  | minimum => simp only [choose, Option.some.injEq] at h; omega
  | maximum => simp only [choose, Option.some.injEq] at h; omega
  | random =>
    have := hd hle
    simp only [choose, hle, if_true] at h
    split at h <;> (simp only [Option.some.injEq] at h; omega)
  | balanced =>
    simp only [choose, hle, if_true] at h
    split at h
    · simp only [Option.some.injEq] at h; omega
    · simp only [Option.some.injEq] at h
      have := Nat.mod_lt index (show 0 < hi - lo + 1 by omega)
      omega

theorem choose_some {st : Strategy} {index lo hi d : Nat} (hle : lo ≤ hi) : ∃ k, choose st index lo hi d = some k := by
  cases st
  · exact ⟨_, rfl⟩
  · exact ⟨_, rfl⟩
  · simp only [choose, hle, if_true]; split <;> exact ⟨_, rfl⟩
  · simp only [choose, hle, if_true]; split <;> exact ⟨_, rfl⟩

/-! ## Selection -/

section
variable {C : Type} {R : Draws C} {st : Strategy}

theorem selected_sub (hR : R.Lawful) {cfg : Config} {place : List Nat} {s : ShapeInfo C} {p : PropInfo C}
    (h : p ∈ selected R cfg place s) : p ∈ s.props ∧ p.iri ∉ cfg.excluded := by
  have hs : ∀ b, p ∈ split cfg s b → p ∈ s.props ∧ p.iri ∉ cfg.excluded := by
    intro b h
    obtain ⟨h1, h2⟩ := List.mem_filter.1 h
    exact ⟨h1, (of_decide_eq_true h2).1⟩
  have hc : p ∈ chosen R cfg place s ++ split cfg s true → p ∈ s.props ∧ p.iri ∉ cfg.excluded := by
    intro hp
    rcases List.mem_append.1 hp with hp | hp
    · have hk : p ∈ keepSome R place (split cfg s false) → p ∈ s.props ∧ p.iri ∉ cfg.excluded := by
        intro hp
        obtain ⟨pk, hpk, rfl⟩ := List.mem_map.1 hp
        exact hs _ (zip_mem (List.mem_of_mem_filter hpk)).1
      rw [chosen] at hp
      cases hsel : cfg.selection <;> rw [hsel] at hp <;> simp only at hp
      · exact hk hp
      · exact hs _ ((hR.shuffle _ _).mem_iff.1 (List.mem_of_mem_take hp))
      · exact hk hp
    · exact hs _ hp
  simp only [selected] at h
  split at h
  · exact hc ((hR.shuffle _ _).mem_iff.1 (List.mem_of_mem_take h))
  · exact hc h

theorem selected_mandatory {cfg : Config} {place : List Nat} {s : ShapeInfo C} {p : PropInfo C} (h : p ∈ s.props)
    (he : p.iri ∉ cfg.excluded) (hm : cfg.maxProps = 0) (hi : cfg.ignoreMin = false) (hp : 0 < p.min.getD 0) :
    p ∈ selected R cfg place s := by
  simp only [selected, hm, Nat.lt_irrefl, false_and, if_false]
  apply List.mem_append_right
  simp [split, isMandatory, h, he, hi, hp]

end

end Gen
