import Verif.Part.LemmasPerm

/-!
# Helper lemmas: stepping through the compositions of a class size
-/

namespace Part

/-- Compositions of `n` into `e` parts, lexicographically decreasing. -/
def comps : Nat → Nat → List (List Nat)
  | 0, n => if n = 0 then [[]] else []
  | e + 1, n => (List.range (n + 1)).reverse.flatMap fun a => (comps e (n - a)).map (a :: ·)

theorem mem_comps (e n : Nat) (c : List Nat) : c ∈ comps e n ↔ c.length = e ∧ c.sum = n := by
  induction e generalizing n c with
  | zero =>
    simp only [comps]
    split
    · rename_i h; subst h
      simp only [List.mem_singleton, List.length_eq_zero_iff]
      constructor
      · rintro rfl; simp
      · exact fun h => h.1
    · rename_i h
      simp only [List.not_mem_nil, List.length_eq_zero_iff, false_iff]
      rintro ⟨rfl, h2⟩
      simp at h2; omega
  | succ e ih =>
    simp only [comps, List.mem_flatMap, List.mem_reverse, List.mem_range, List.mem_map, ih]
    constructor
    · rintro ⟨a, ha, c, ⟨h1, h2⟩, rfl⟩
      simp [h1, h2]; omega
    · rintro ⟨h1, h2⟩
      cases c with
      | nil => simp at h1
      | cons a c =>
        simp only [List.length_cons, Nat.add_right_cancel_iff, List.sum_cons] at h1 h2
        exact ⟨a, by omega, c, ⟨h1, by omega⟩, rfl⟩

theorem nodup_comps (e n : Nat) : (comps e n).Nodup := by
  induction e generalizing n with
  | zero => simp only [comps]; split <;> simp
  | succ e ih =>
    simp only [comps]
    rw [List.nodup_flatMap]
    constructor
    · intro a _; exact (ih _).map (fun x y h => by simpa using h)
    · refine (List.nodup_reverse.2 List.nodup_range).imp ?_
      intro a b hab x hx hy
      obtain ⟨u, _, rfl⟩ := List.mem_map.1 hx
      obtain ⟨v, _, h⟩ := List.mem_map.1 hy
      simp only [List.cons.injEq] at h
      exact hab h.1.symm

theorem nextCompositionAt_cons (a : Nat) (c : List Nat) (i : Nat) :
    nextCompositionAt (a :: c) (i + 1) =
      match nextCompositionAt c i with
      | some c' => some (a :: c')
      | none => if a > 0 then some ((a - 1) :: firstComposition (c.sum + 1) c.length) else none := by
  induction i with
  | zero => simp [nextCompositionAt, firstComposition]
  | succ i ih =>
    rw [nextCompositionAt, ih]
    conv_rhs => rw [nextCompositionAt]
    simp only [List.getD_cons_succ]
    by_cases h : c.getD i 0 > 0
    · simp only [h, if_true]
      simp
    · simp only [h, if_false]

theorem nextComposition_cons (a : Nat) (c : List Nat) (hc : c ≠ []) :
    nextComposition (a :: c) =
      match nextComposition c with
      | some c' => some (a :: c')
      | none => if a > 0 then some ((a - 1) :: firstComposition (c.sum + 1) c.length) else none := by
  unfold nextComposition
  obtain ⟨m, hm⟩ : ∃ m, c.length = m + 1 := ⟨c.length - 1, by
    have := List.length_pos_of_ne_nil hc; omega⟩
  have : (a :: c).length - 1 = (c.length - 1) + 1 := by simp [hm]
  rw [this, nextCompositionAt_cons]

theorem firstComposition_succ (n e : Nat) :
    firstComposition n (e + 1) = n :: List.replicate e 0 := by
  simp [firstComposition, List.replicate_succ]

theorem orbit_block {e m a : Nat} (he : 0 < e) {x : List Nat} {l rest : List (List Nat)}
    (ho : Orbit nextComposition x l) (hl : ∀ c ∈ l, c.length = e ∧ c.sum = m)
    (hrest : (a = 0 ∧ rest = []) ∨
      ∃ b, a = b + 1 ∧ Orbit nextComposition (b :: firstComposition (m + 1) e) rest) :
    Orbit nextComposition (a :: x) (l.map (a :: ·) ++ rest) := by
  induction ho with
  | last h =>
    rename_i y
    obtain ⟨h1, h2⟩ := hl y (by simp)
    have hne : y ≠ [] := by rintro rfl; simp at h1; omega
    rcases hrest with ⟨rfl, rfl⟩ | ⟨b, rfl, hr⟩
    · refine .last ?_
      rw [nextComposition_cons _ _ hne, h]; simp
    · refine .next ?_ hr
      rw [nextComposition_cons _ _ hne, h]
      simp [h1, h2]
  | next h _ ih =>
    rename_i y y' l' _
    obtain ⟨h1, h2⟩ := hl y (by simp)
    have hne : y ≠ [] := by rintro rfl; simp at h1; omega
    refine .next ?_ (ih (fun c hc => hl c (by simp [hc])))
    rw [nextComposition_cons _ _ hne, h]

theorem orbit_comps (e n : Nat) (he : 0 < e) :
    Orbit nextComposition (firstComposition n e) (comps e n) := by
  obtain ⟨e, rfl⟩ : ∃ d, e = d + 1 := ⟨e - 1, by omega⟩
  clear he
  induction e generalizing n with
  | zero =>
    have h1 : comps 1 n = [[n]] := by
      simp only [comps]
      rw [List.range_succ, List.reverse_append]
      simp only [List.reverse_cons, List.reverse_nil, List.nil_append, List.cons_append,
        List.flatMap_cons, Nat.sub_self, if_true, List.map_cons, List.map_nil]
      have : ((List.range n).reverse.flatMap fun a =>
          List.map (fun x => a :: x) (if n - a = 0 then [[]] else [])) = [] := by
        rw [List.flatMap_eq_nil_iff]
        intro a ha
        simp only [List.mem_reverse, List.mem_range] at ha
        rw [if_neg (by omega)]; rfl
      rw [this]
    rw [h1, firstComposition_succ]
    exact .last rfl
  | succ e ih =>
    have gen : ∀ a, a ≤ n → Orbit nextComposition (a :: firstComposition (n - a) (e + 1))
        ((List.range (a + 1)).reverse.flatMap fun a => (comps (e + 1) (n - a)).map (a :: ·)) := by
      intro a
      induction a with
      | zero =>
        intro _
        have := orbit_block (a := 0) (rest := []) (by omega : 0 < e + 1) (ih (n - 0))
          (fun c hc => (mem_comps _ _ c).1 hc) (Or.inl ⟨rfl, rfl⟩)
        simpa [List.range_succ] using this
      | succ a iha =>
        intro ha
        have := orbit_block (a := a + 1) (by omega : 0 < e + 1) (ih (n - (a + 1)))
          (fun c hc => (mem_comps _ _ c).1 hc) (Or.inr ⟨a, rfl, by
            have := iha (by omega)
            rwa [show n - (a + 1) + 1 = n - a by omega]⟩)
        rw [List.range_succ, List.reverse_append]
        simpa using this
    have := gen n le_rfl
    rw [Nat.sub_self] at this
    have h0 : firstComposition 0 (e + 1) = List.replicate (e + 1) 0 := by
      simp [firstComposition, List.replicate_succ]
    rw [h0, ← firstComposition_succ] at this
    exact this

end Part
