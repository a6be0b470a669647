import Verif.Shex.SpecExtends
import Verif.Part.LemmasIter

/-!
# Lemmas: alternatives and selections
-/

namespace Shex
open Rbe Part

/-! ## Merging -/

theorem mem_pushUnique (v : List Nat) (x y : Nat) : y ∈ pushUnique v x ↔ y ∈ v ∨ y = x := by
  unfold pushUnique
  split
  · rename_i h
    constructor
    · exact Or.inl
    · rintro (h' | rfl)
      · exact h'
      · exact h
  · simp

theorem nodup_pushUnique {v : List Nat} (h : v.Nodup) (x : Nat) : (pushUnique v x).Nodup := by
  unfold pushUnique
  split
  · exact h
  · rename_i hx
    rw [List.nodup_append]
    refine ⟨h, by simp, ?_⟩
    intro a ha b hb
    rw [List.mem_singleton] at hb
    subst hb
    rintro rfl
    exact hx ha

theorem mem_foldl_pushUnique (l v : List Nat) (y : Nat) :
    y ∈ l.foldl pushUnique v ↔ y ∈ v ∨ y ∈ l := by
  induction l generalizing v with
  | nil => simp
  | cons x l ih =>
    simp only [List.foldl_cons, ih, mem_pushUnique, List.mem_cons]
    tauto

theorem nodup_foldl_pushUnique (l : List Nat) {v : List Nat} (h : v.Nodup) :
    (l.foldl pushUnique v).Nodup := by
  induction l generalizing v with
  | nil => exact h
  | cons x l ih => exact ih (nodup_pushUnique h x)

/-- The scopes of a constraint. -/
def ScopeIn (cs : List (Nat × List Nat)) (c s : Nat) : Prop := ∃ scope, (c, scope) ∈ cs ∧ s ∈ scope

theorem pushConstraint_keys (cs : List (Nat × List Nat)) (c : Nat × List Nat) :
    (pushConstraint cs c).map Prod.fst = pushUnique (cs.map Prod.fst) c.1 := by
  induction cs with
  | nil => simp [pushConstraint, pushUnique]
  | cons e es ih =>
    simp only [pushConstraint]
    by_cases h : e.1 = c.1
    · simp [h, pushUnique]
    · rw [if_neg h]
      simp only [List.map_cons, ih, pushUnique]
      by_cases h' : c.1 ∈ es.map Prod.fst
      · rw [if_pos h', if_pos (by simp only [List.mem_cons]; exact Or.inr h')]
      · rw [if_neg h', if_neg (by simp only [List.mem_cons, not_or]; exact ⟨fun hc => h hc.symm, h'⟩)]
        rfl

theorem pushConstraint_scope (cs : List (Nat × List Nat)) (c : Nat × List Nat) (x s : Nat) :
    ScopeIn (pushConstraint cs c) x s ↔ ScopeIn cs x s ∨ (x = c.1 ∧ s ∈ c.2) := by
  induction cs with
  | nil =>
    obtain ⟨k, sc⟩ := c
    simp only [pushConstraint, ScopeIn, List.mem_singleton, Prod.mk.injEq, List.not_mem_nil,
      false_and, exists_false, false_or]
    constructor
    · rintro ⟨sc', ⟨rfl, rfl⟩, h⟩; exact ⟨rfl, h⟩
    · rintro ⟨rfl, h⟩; exact ⟨sc, ⟨rfl, rfl⟩, h⟩
  | cons e es ih =>
    obtain ⟨k, sc⟩ := c
    obtain ⟨k', sc'⟩ := e
    simp only [pushConstraint]
    have hcons : ∀ (a : Nat × List Nat) (l : List (Nat × List Nat)), ScopeIn (a :: l) x s ↔
        (x = a.1 ∧ s ∈ a.2) ∨ ScopeIn l x s := by
      intro a l
      obtain ⟨a1, a2⟩ := a
      simp only [ScopeIn, List.mem_cons, Prod.mk.injEq]
      constructor
      · rintro ⟨scope, ⟨rfl, rfl⟩ | h, hs⟩
        · exact Or.inl ⟨rfl, hs⟩
        · exact Or.inr ⟨scope, h, hs⟩
      · rintro (⟨rfl, hs⟩ | ⟨scope, h, hs⟩)
        · exact ⟨a2, Or.inl ⟨rfl, rfl⟩, hs⟩
        · exact ⟨scope, Or.inr h, hs⟩
    by_cases h : k' = k
    · subst h
      rw [if_pos rfl, hcons, hcons]
      simp only [mem_foldl_pushUnique]
      tauto
    · rw [if_neg h, hcons, hcons, ih]
      tauto

theorem foldl_pushConstraint_keys (l cs : List (Nat × List Nat)) :
    (l.foldl pushConstraint cs).map Prod.fst = (l.map Prod.fst).foldl pushUnique (cs.map Prod.fst) := by
  induction l generalizing cs with
  | nil => rfl
  | cons c l ih => simp only [List.foldl_cons, List.map_cons, ih, pushConstraint_keys]

theorem foldl_pushConstraint_scope (l cs : List (Nat × List Nat)) (x s : Nat) :
    ScopeIn (l.foldl pushConstraint cs) x s ↔ ScopeIn cs x s ∨ ScopeIn l x s := by
  induction l generalizing cs with
  | nil => simp [ScopeIn]
  | cons c l ih =>
    obtain ⟨k, sc⟩ := c
    simp only [List.foldl_cons, ih, pushConstraint_scope]
    have : ScopeIn ((k, sc) :: l) x s ↔ (x = k ∧ s ∈ sc) ∨ ScopeIn l x s := by
      simp only [ScopeIn, List.mem_cons, Prod.mk.injEq]
      constructor
      · rintro ⟨scope, ⟨rfl, rfl⟩ | h, hs⟩
        · exact Or.inl ⟨rfl, hs⟩
        · exact Or.inr ⟨scope, h, hs⟩
      · rintro (⟨rfl, hs⟩ | ⟨scope, h, hs⟩)
        · exact ⟨sc, Or.inl ⟨rfl, rfl⟩, hs⟩
        · exact ⟨scope, Or.inr h, hs⟩
    rw [this]
    tauto

theorem mem_merge (a b : Alt) (x : Nat) : x ∈ (a.merge b).buckets ↔ x ∈ a.buckets ∨ x ∈ b.buckets :=
  mem_foldl_pushUnique _ _ _

theorem mergeAll_spec (as : List Alt) (a0 : Alt) :
    let m := as.foldl Alt.merge a0
    (∀ b, b ∈ m.buckets ↔ b ∈ a0.buckets ∨ ∃ a ∈ as, b ∈ a.buckets) ∧
    (a0.buckets.Nodup → m.buckets.Nodup) ∧
    (∀ c, c ∈ m.constraints.map Prod.fst ↔
      c ∈ a0.constraints.map Prod.fst ∨ ∃ a ∈ as, c ∈ a.constraints.map Prod.fst) ∧
    ((a0.constraints.map Prod.fst).Nodup → (m.constraints.map Prod.fst).Nodup) ∧
    ∀ c s, ScopeIn m.constraints c s ↔
      ScopeIn a0.constraints c s ∨ ∃ a ∈ as, ScopeIn a.constraints c s := by
  induction as generalizing a0 with
  | nil => simp
  | cons a as ih =>
    simp only [List.foldl_cons]
    obtain ⟨h1, h2, h3, h4, h5⟩ := ih (a0.merge a)
    refine ⟨fun b => ?_, fun h => h2 ?_, fun c => ?_, fun h => h4 ?_, fun c s => ?_⟩
    · rw [h1, mem_merge]
      simp only [List.mem_cons, exists_eq_or_imp]
      tauto
    · exact nodup_foldl_pushUnique _ h
    · rw [h3]
      simp only [Alt.merge, foldl_pushConstraint_keys, mem_foldl_pushUnique, List.mem_cons,
        exists_eq_or_imp]
      tauto
    · simp only [Alt.merge, foldl_pushConstraint_keys]
      exact nodup_foldl_pushUnique _ h
    · rw [h5]
      simp only [Alt.merge, foldl_pushConstraint_scope, List.mem_cons, exists_eq_or_imp]
      tauto

/-! ## The odometer over selections -/

/-- One wheel: number of alternatives and position. -/
def wheel (s : Nat × Nat) : Option (Nat × Nat) :=
  if s.2 + 1 < s.1 then some (s.1, s.2 + 1) else none

/-- Back to the first alternative. -/
def rewind (s : Nat × Nat) : Nat × Nat := (s.1, 0)

theorem orbit_wheel (k : Nat) (hk : 0 < k) :
    Orbit wheel (k, 0) ((List.range k).map fun d => (k, d)) := by
  have gen : ∀ j d, d + j + 1 = k → Orbit wheel (k, d) ((List.range' d (j + 1)).map fun d => (k, d)) := by
    intro j
    induction j with
    | zero => intro d hd; exact .last (by simp [wheel]; omega)
    | succ j ih =>
      intro d hd
      rw [List.range'_succ]
      refine .next (s' := (k, d + 1)) ?_ (ih (d + 1) (by omega))
      have : d + 1 < k := by omega
      simp [wheel, this]
  obtain ⟨j, rfl⟩ : ∃ j, k = j + 1 := ⟨k - 1, by omega⟩
  have := gen j 0 (by omega)
  rwa [← List.range_eq_range'] at this

theorem advanceSelector_eq {A : Type} (parents : List (List A)) (st : List (Nat × Nat))
    (h : st.map Prod.fst = parents.map List.length) :
    advanceSelector parents (st.map Prod.snd) =
      (adv wheel rewind st).map fun s => s.map Prod.snd := by
  induction parents generalizing st with
  | nil =>
    cases st with
    | nil => rfl
    | cons s st => simp at h
  | cons alts ps ih =>
    cases st with
    | nil => simp at h
    | cons s st =>
      obtain ⟨k, d⟩ := s
      simp only [List.map_cons, List.cons.injEq] at h
      obtain ⟨rfl, h⟩ := h
      simp only [List.map_cons, advanceSelector, adv, wheel]
      by_cases hd : d + 1 < alts.length
      · simp [hd]
      · simp only [hd, if_false]
        rw [ih st h]
        cases adv wheel rewind st with
        | none => rfl
        | some s' => rfl

theorem selected_mem {A : Type} (parents : List (List A)) (sel : List Nat) (as : List A)
    (hl : sel.length = parents.length) (h : selected parents sel = some as) : Choice parents as := by
  induction parents generalizing sel as with
  | nil =>
    cases sel with
    | nil => simp only [selected, Option.some.injEq] at h; subst h; exact .nil
    | cons d ds => simp at hl
  | cons alts ps ih =>
    cases sel with
    | nil => simp at hl
    | cons d ds =>
      simp only [selected, Option.bind_eq_bind, Option.bind_eq_some_iff, Option.pure_def,
        Option.some.injEq] at h
      obtain ⟨a, ha, as', has, rfl⟩ := h
      exact .cons (List.mem_of_getElem? ha) (ih ds as' (by simpa using hl) has)

/-- The positions of all selections. -/
def positions {A : Type} (parents : List (List A)) : List (List (Nat × Nat)) :=
  prodLE (parents.map fun alts => (List.range alts.length).map fun d => (alts.length, d))

theorem positions_spec {A : Type} (parents : List (List A)) (st : List (Nat × Nat))
    (h : st ∈ positions parents) :
    st.map Prod.fst = parents.map List.length ∧ ∃ as, selected parents (st.map Prod.snd) = some as := by
  unfold positions at h
  rw [mem_prodLE] at h
  induction parents generalizing st with
  | nil => cases h; exact ⟨rfl, [], rfl⟩
  | cons alts ps ih =>
    simp only [List.map_cons] at h
    cases h with
    | cons hs hr =>
      rename_i s st'
      obtain ⟨d, hd, rfl⟩ := List.mem_map.1 hs
      rw [List.mem_range] at hd
      obtain ⟨h1, as, h2⟩ := ih st' hr
      refine ⟨by simp [h1], alts[d] :: as, ?_⟩
      simp [selected, hd, h2]

theorem positions_complete {A : Type} (parents : List (List A)) (as : List A) (h : Choice parents as) :
    ∃ st ∈ positions parents, selected parents (st.map Prod.snd) = some as := by
  unfold positions
  induction h with
  | nil => exact ⟨[], by simp [prodLE], rfl⟩
  | @cons alts a ps as' ha _ ih =>
    obtain ⟨st, hst, hsel⟩ := ih
    obtain ⟨d, hd⟩ := List.mem_iff_getElem?.1 ha
    have hlt := (List.getElem?_eq_some_iff.1 hd).1
    refine ⟨(alts.length, d) :: st, ?_, ?_⟩
    · rw [mem_prodLE] at hst ⊢
      simp only [List.map_cons]
      exact .cons (List.mem_map.2 ⟨d, List.mem_range.2 hlt, rfl⟩) hst
    · simp [selected, hd, hsel]

theorem length_prodLE {A : Type} (ls : List (List A)) :
    (prodLE ls).length = (ls.map List.length).prod := by
  induction ls with
  | nil => rfl
  | cons l ls ih =>
    simp only [prodLE, List.length_flatMap, List.length_map, List.map_cons, List.prod_cons,
      ih]
    rw [show (fun t : List A => l.length) = (fun _ => l.length) from rfl, List.map_const', List.sum_replicate_nat, ih]
    exact Nat.mul_comm _ _

theorem length_positions {A : Type} (parents : List (List A)) :
    (positions parents).length = (parents.map List.length).prod := by
  unfold positions
  rw [length_prodLE, List.map_map]
  congr 1
  apply List.map_congr_left
  intro l _
  simp

theorem orbit_positions {A : Type} (parents : List (List A)) (h : ∀ alts ∈ parents, alts ≠ []) :
    Orbit (adv wheel rewind) (parents.map fun alts => (alts.length, 0)) (positions parents) := by
  have := orbit_adv wheel rewind
    (parents.map fun alts => ((alts.length, 0), (List.range alts.length).map fun d => (alts.length, d)))
    (by
      intro w hw
      obtain ⟨alts, ha, rfl⟩ := List.mem_map.1 hw
      refine ⟨orbit_wheel _ (List.length_pos_of_ne_nil (h alts ha)), ?_⟩
      intro x hx
      obtain ⟨d, _, rfl⟩ := List.mem_map.1 hx
      rfl)
  simpa [List.map_map, Function.comp_def, positions] using this

theorem trySelections_spec (check : Alt → Bool) (parents : List (List Alt))
    {st : List (Nat × Nat)} {L : List (List (Nat × Nat))} (ho : Orbit (adv wheel rewind) st L)
    (hL : ∀ s ∈ L, s.map Prod.fst = parents.map List.length ∧
      ∃ as, selected parents (s.map Prod.snd) = some as)
    (n : Nat) (hn : L.length ≤ n) :
    ∃ v tried, trySelections check parents n (st.map Prod.snd) = some (v, tried) ∧
      tried <+: L.filterMap (fun s => selected parents (s.map Prod.snd)) ∧
      (v = true → ∃ as ∈ tried, check (mergeAll as) = true) ∧
      (v = false → tried = L.filterMap (fun s => selected parents (s.map Prod.snd)) ∧
        ∀ as ∈ tried, check (mergeAll as) = false) := by
  induction ho generalizing n with
  | last hlast =>
    rename_i s
    obtain ⟨h1, as, h2⟩ := hL s (by simp)
    obtain ⟨m, rfl⟩ : ∃ m, n = m + 1 := ⟨n - 1, by simp at hn; omega⟩
    have hadv : advanceSelector parents (s.map Prod.snd) = none := by
      rw [advanceSelector_eq parents s h1, hlast]; rfl
    simp only [trySelections, h2, Option.bind_eq_bind, Option.bind_some, hadv, Option.pure_def,
      List.filterMap_cons, List.filterMap_nil]
    by_cases hc : check (mergeAll as) = true
    · exact ⟨true, [as], by simp [hc], List.prefix_refl _, fun _ => ⟨as, by simp, hc⟩, by simp⟩
    · refine ⟨false, [as], by simp [hc], List.prefix_refl _, by simp, fun _ => ⟨rfl, ?_⟩⟩
      intro a ha
      rw [List.mem_singleton] at ha
      subst ha
      simpa using hc
  | @next s s' L' hnext _ ih =>
    obtain ⟨h1, as, h2⟩ := hL s (by simp)
    obtain ⟨m, rfl⟩ : ∃ m, n = m + 1 := ⟨n - 1, by simp at hn; omega⟩
    have hadv : advanceSelector parents (s.map Prod.snd) = some (s'.map Prod.snd) := by
      rw [advanceSelector_eq parents s h1, hnext]; rfl
    obtain ⟨v, tried, g1, g2, g3, g4⟩ := ih (fun x hx => hL x (by simp [hx])) m (by simp at hn; omega)
    simp only [trySelections, h2, Option.bind_eq_bind, Option.bind_some, hadv, Option.pure_def, g1,
      List.filterMap_cons]
    by_cases hc : check (mergeAll as) = true
    · refine ⟨true, [as], by simp [hc], ?_, fun _ => ⟨as, by simp, hc⟩, by simp⟩
      exact List.prefix_cons_inj as |>.2 List.nil_prefix
    · refine ⟨v, as :: tried, by simp [hc], List.prefix_cons_inj as |>.2 g2, ?_, ?_⟩
      · intro hv
        obtain ⟨a, ha, hca⟩ := g3 hv
        exact ⟨a, by simp [ha], hca⟩
      · intro hv
        obtain ⟨e, hall⟩ := g4 hv
        refine ⟨by rw [e], ?_⟩
        intro a ha
        rcases List.mem_cons.1 ha with rfl | ha
        · simpa using hc
        · exact hall a ha

end Shex
