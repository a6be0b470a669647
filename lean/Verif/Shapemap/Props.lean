import Verif.Shapemap.Spec
import Mathlib.Data.List.Induction
import Mathlib.Data.List.Nodup

/-!
# Properties: result shape maps (C50)
-/

namespace Shapemap
open Lit

/-! ## Cells -/

/-- What happens to a cell when a status is recorded. -/
def cell (old : Option Status) (st : Status) : Option (Option Status) :=
  match old with
  | none => some (some st)
  | some o => (o.merge st).map some

theorem conf_append (l : List Status) (x : Status) : conformants (l ++ [x]) = conformants l ++ conformants [x] := by
  induction l with
  | nil => rfl
  | cons y l ih => cases y <;> simp [conformants, ih]

theorem non_append (l : List Status) (x : Status) :
    nonConformants (l ++ [x]) = nonConformants l ++ nonConformants [x] := by
  induction l with
  | nil => rfl
  | cons y l ih => cases y <;> simp [nonConformants, ih]

theorem inc_append (l : List Status) (x : Status) : inconsistents (l ++ [x]) = inconsistents l + inconsistents [x] := by
  induction l with
  | nil => simp [inconsistents]
  | cons y l ih => cases y <;> simp [inconsistents, ih] <;> omega

theorem clash_append {l : List Status} (x : Status) (h : Clash l) : Clash (l ++ [x]) := by
  rcases h with ⟨h1, h2⟩ | ⟨h1, h2⟩ | ⟨i, j, r, t, h1, h2⟩
  · exact Or.inl ⟨by simp [conf_append, h1], by simp [non_append, h2]⟩
  · exact Or.inr (Or.inl ⟨by rw [inc_append]; omega, by simp; omega⟩)
  · exact Or.inr (Or.inr ⟨i, j, r ++ conformants [x], t, by simp [conf_append, h1], h2⟩)

theorem reasons_append (l : List Info) (i : Info) (h : l ≠ []) :
    reasons (l ++ [i]) = reasons l ++ ['\n'] ++ i.reason := by
  induction l with
  | nil => exact absurd rfl h
  | cons a l ih =>
    cases l with
    | nil => rfl
    | cons b l =>
      have := ih (by simp)
      simp only [List.cons_append, reasons] at this ⊢
      rw [this]; simp

theorem all_pending {l : List Status} (h : ∀ x ∈ l, x = .pending) :
    conformants l = [] ∧ nonConformants l = [] ∧ inconsistents l = 0 := by
  induction l with
  | nil => exact ⟨rfl, rfl, rfl⟩
  | cons y l ih =>
    have := h y (by simp)
    subst this
    exact ih fun x hx => h x (List.mem_cons_of_mem _ hx)

theorem single {l : List Status} (h : 0 < inconsistents l) (hl : l.length < 2) : ∃ i j, l = [.inconsistent i j] := by
  rcases l with _ | ⟨x, _ | ⟨y, l⟩⟩
  · simp [inconsistents] at h
  · cases x <;> simp [inconsistents] at h
    exact ⟨_, _, rfl⟩
  · simp at hl; omega

theorem merge_app {a b c : Info} (h : a.merge b = some c) :
    c.reason = a.reason ++ ['\n'] ++ b.reason ∧ c.app = .arr (values a.app ++ values b.app) ∧ ∃ l, a.app = .arr l := by
  unfold Info.merge at h
  cases ha : a.app with
  | other t => rw [ha] at h; simp at h
  | arr vs =>
    rw [ha] at h
    simp only [Option.some.injEq] at h
    subst h
    refine ⟨rfl, ?_, vs, rfl⟩
    cases b.app <;> rfl

theorem merge_none {a b : Info} : a.merge b = none ↔ ∃ t, a.app = .other t := by
  unfold Info.merge
  cases a.app <;> simp

/-- One more record. -/
theorem verdict_step {l : List Status} {v : Option Status} (hc : ¬ Clash l) (hv : Verdict l v) (x : Status) :
    (cell v x = none → Clash (l ++ [x])) ∧
      ∀ w, cell v x = some w → ¬ Clash (l ++ [x]) ∧ Verdict (l ++ [x]) w := by
  have notclash : (conformants (l ++ [x]) = [] ∨ nonConformants (l ++ [x]) = []) →
      (inconsistents (l ++ [x]) = 0 ∨ l = []) →
      (∀ i j r t, conformants (l ++ [x]) = i :: j :: r → i.app ≠ .other t) → ¬ Clash (l ++ [x]) := by
    rintro h1 h2 h3 (⟨a, b⟩ | ⟨a, b⟩ | ⟨i, j, r, t, a, b⟩)
    · rcases h1 with h1 | h1
      · exact a h1
      · exact b h1
    · rcases h2 with h2 | rfl
      · omega
      · simp at b
    · exact h3 i j r t a b
  rcases v with _ | (i | i | _ | ⟨i, j⟩)
  · -- nothing recorded yet
    have hl : l = [] := hv
    subst hl
    simp only [cell, reduceCtorEq, false_imp_iff, Option.some.injEq, true_and]
    rintro w rfl
    refine ⟨notclash ?_ (Or.inr rfl) ?_, ?_⟩
    · cases x <;> simp [conformants, nonConformants]
    · intro i j r t h; cases x <;> simp [conformants] at h
    · cases x <;> simp [Verdict, conformants, nonConformants]
  · -- conformant
    have hne : conformants l ≠ [] := by
      rcases hv with h | ⟨h, _⟩
      · simp [h]
      · intro e; rw [e] at h; simp at h
    have hnon : nonConformants l = [] := by
      by_contra h; exact hc (Or.inl ⟨hne, h⟩)
    have hinc : inconsistents l = 0 := by
      by_contra h
      by_cases hlen : 2 ≤ l.length
      · exact hc (Or.inr (Or.inl ⟨Nat.pos_of_ne_zero h, hlen⟩))
      · obtain ⟨a, b, rfl⟩ := single (Nat.pos_of_ne_zero h) (by omega)
        simp [conformants] at hne
    have hlen : 1 ≤ l.length := by
      cases l with
      | nil => simp [conformants] at hne
      | cons => simp
    cases x with
    | conformant j =>
      simp only [cell, Status.merge, Option.map_map]
      have hi : (∃ t, i.app = .other t) ↔ ∃ a t, conformants l = [a] ∧ a.app = .other t := by
        rcases hv with h | ⟨h, _, h3⟩
        · simp [h]
        · constructor
          · rintro ⟨t, ht⟩; rw [h3] at ht; cases ht
          · rintro ⟨a, t, h', _⟩; rw [h'] at h; simp at h
      constructor
      · intro h
        simp only [Option.map_eq_none_iff, merge_none, hi] at h
        obtain ⟨a, t, h1, h2⟩ := h
        exact Or.inr (Or.inr ⟨a, j, [], t, by simp [conf_append, h1, conformants], h2⟩)
      · intro w h
        simp only [Option.map_eq_some_iff, Function.comp] at h
        obtain ⟨c, hm, rfl⟩ := h
        obtain ⟨m1, m2, m3⟩ := merge_app hm
        refine ⟨notclash ?_ (Or.inl ?_) ?_, Or.inr ⟨?_, ?_, ?_⟩⟩
        · right; rw [non_append, hnon]; rfl
        · rw [inc_append, hinc]; rfl
        · intro a b r t e ht
          rcases hv with h | ⟨h, h2, h3⟩
          · rw [conf_append, h] at e
            simp only [List.singleton_append, List.cons.injEq] at e
            rw [← e.1] at ht
            obtain ⟨l', m3⟩ := m3
            rw [ht] at m3; cases m3
          · apply hc
            rcases hcl : conformants l with _ | ⟨a', _ | ⟨b', r'⟩⟩
            · rw [hcl] at h; simp at h
            · rw [hcl] at h; simp at h
            · rw [conf_append, hcl] at e
              simp only [List.cons_append, List.cons.injEq] at e
              exact Or.inr (Or.inr ⟨a', b', r', t, hcl, by rw [e.1]; exact ht⟩)
        · rw [conf_append]
          have := List.length_pos_of_ne_nil hne
          simp [conformants]; omega
        · rw [conf_append, show conformants [Status.conformant j] = [j] from rfl, reasons_append _ _ hne, m1]
          rcases hv with h | ⟨_, h2, _⟩
          · rw [h]; rfl
          · rw [h2]
        · rw [conf_append, show conformants [Status.conformant j] = [j] from rfl, m2]
          rcases hv with h | ⟨_, _, h3⟩
          · rw [h]; simp
          · rw [h3]; simp [values]
    | nonConformant j =>
      simp only [cell, Status.merge, Option.map_none, reduceCtorEq, false_imp_iff, implies_true, and_true,
        true_imp_iff]
      exact Or.inl ⟨by simp [conf_append, hne], by simp [non_append, nonConformants]⟩
    | pending =>
      simp only [cell, Status.merge, Option.map_some, reduceCtorEq, false_imp_iff, Option.some.injEq, true_and]
      rintro w rfl
      have e1 : conformants (l ++ [.pending]) = conformants l := by rw [conf_append]; simp [conformants]
      refine ⟨notclash ?_ (Or.inl ?_) ?_, ?_⟩
      · right; rw [non_append, hnon]; rfl
      · rw [inc_append, hinc]; rfl
      · intro a b r t e ht
        rw [e1] at e
        exact hc (Or.inr (Or.inr ⟨a, b, r, t, e, ht⟩))
      · simp only [Verdict, e1]; exact hv
    | inconsistent j k =>
      simp only [cell, Status.merge, Option.map_none, reduceCtorEq, false_imp_iff, implies_true, and_true,
        true_imp_iff]
      exact Or.inr (Or.inl ⟨by rw [inc_append]; simp [inconsistents], by simp; omega⟩)
  · -- nonconformant
    have hne : nonConformants l ≠ [] := by
      intro e; rw [Verdict, e] at hv; cases hv
    have hcon : conformants l = [] := by
      by_contra h; exact hc (Or.inl ⟨h, hne⟩)
    have hinc : inconsistents l = 0 := by
      by_contra h
      by_cases hlen : 2 ≤ l.length
      · exact hc (Or.inr (Or.inl ⟨Nat.pos_of_ne_zero h, hlen⟩))
      · obtain ⟨a, b, rfl⟩ := single (Nat.pos_of_ne_zero h) (by omega)
        simp [nonConformants] at hne
    have hlen : 1 ≤ l.length := by
      cases l with
      | nil => simp [nonConformants] at hne
      | cons => simp
    have hkeep : ∀ y, conformants [y] = [] → inconsistents [y] = 0 →
        ¬ Clash (l ++ [y]) ∧ Verdict (l ++ [y]) (some (.nonConformant i)) := by
      intro y hy1 hy2
      have e1 : conformants (l ++ [y]) = [] := by rw [conf_append, hcon, hy1]; rfl
      refine ⟨?_, ?_⟩
      · rintro (⟨a, b⟩ | ⟨a, b⟩ | ⟨i, j, r, t, a, b⟩)
        · exact a e1
        · rw [inc_append, hinc, hy2] at a; omega
        · rw [e1] at a; cases a
      · simp only [Verdict, non_append] at hv ⊢
        cases h : nonConformants l with
        | nil => exact absurd h hne
        | cons a r => rw [h] at hv; simpa using hv
    cases x with
    | conformant j =>
      simp only [cell, Status.merge, Option.map_none, reduceCtorEq, false_imp_iff, implies_true, and_true,
        true_imp_iff]
      exact Or.inl ⟨by simp [conf_append, conformants], by simp [non_append, hne]⟩
    | nonConformant j =>
      simp only [cell, Status.merge, Option.map_some, reduceCtorEq, false_imp_iff, Option.some.injEq, true_and]
      rintro w rfl
      exact hkeep _ rfl rfl
    | pending =>
      simp only [cell, Status.merge, Option.map_some, reduceCtorEq, false_imp_iff, Option.some.injEq, true_and]
      rintro w rfl
      exact hkeep _ rfl rfl
    | inconsistent j k =>
      simp only [cell, Status.merge, Option.map_none, reduceCtorEq, false_imp_iff, implies_true, and_true,
        true_imp_iff]
      exact Or.inr (Or.inl ⟨by rw [inc_append]; simp [inconsistents], by simp; omega⟩)
  · -- pending
    obtain ⟨hne, hall⟩ := hv
    obtain ⟨p1, p2, p3⟩ := all_pending hall
    have hlen := List.length_pos_of_ne_nil hne
    have hn : ∀ y, inconsistents [y] = 0 → ¬ Clash (l ++ [y]) := by
      rintro y hy (⟨a, b⟩ | ⟨a, b⟩ | ⟨i, j, r, t, a, b⟩)
      · rw [conf_append, p1] at a; rw [non_append, p2] at b
        cases y <;> simp [conformants, nonConformants] at a b
      · rw [inc_append, p3, hy] at a; omega
      · rw [conf_append, p1] at a
        cases y <;> simp [conformants] at a
    cases x with
    | conformant j =>
      simp only [cell, Status.merge, Option.map_some, reduceCtorEq, false_imp_iff, Option.some.injEq, true_and]
      rintro w rfl
      exact ⟨hn _ rfl, Or.inl (by rw [conf_append, p1]; rfl)⟩
    | nonConformant j =>
      simp only [cell, Status.merge, Option.map_some, reduceCtorEq, false_imp_iff, Option.some.injEq, true_and]
      rintro w rfl
      exact ⟨hn _ rfl, by simp only [Verdict]; rw [non_append, p2]; rfl⟩
    | pending =>
      simp only [cell, Status.merge, Option.map_some, reduceCtorEq, false_imp_iff, Option.some.injEq, true_and]
      rintro w rfl
      refine ⟨hn _ rfl, by simp, ?_⟩
      intro x hx
      rcases List.mem_append.1 hx with hx | hx
      · exact hall x hx
      · simpa using hx
    | inconsistent j k =>
      simp only [cell, Status.merge, Option.map_none, reduceCtorEq, false_imp_iff, implies_true, and_true,
        true_imp_iff]
      exact Or.inr (Or.inl ⟨by rw [inc_append]; simp [inconsistents], by simp; omega⟩)
  · -- inconsistent
    have hl : l = [.inconsistent i j] := hv
    have : cell (some (.inconsistent i j)) x = none := by cases x <;> rfl
    rw [this]
    simp only [reduceCtorEq, false_imp_iff, implies_true, and_true, true_imp_iff]
    subst hl
    exact Or.inr (Or.inl ⟨by rw [inc_append]; simp [inconsistents], by simp⟩)

/-! ## Maps -/

section
variable {K V : Type} [DecidableEq K]

theorem get_put (k k' : K) (v : V) (m : List (K × V)) :
    get k' (put k v m) = if k = k' then some v else get k' m := by
  induction m with
  | nil => simp [put, get]
  | cons e m ih =>
    obtain ⟨k'', v''⟩ := e
    simp only [put]
    by_cases h : k'' = k
    · subst h
      simp only [if_true, get]
      by_cases h' : k'' = k' <;> simp [h']
    · simp only [if_neg h, get, ih]
      by_cases h' : k'' = k'
      · subst h'; simp [Ne.symm h]
      · simp [h']

theorem get_some_mem {k : K} {v : V} {m : List (K × V)} (h : get k m = some v) : (k, v) ∈ m := by
  induction m with
  | nil => cases h
  | cons e m ih =>
    obtain ⟨k', v'⟩ := e
    simp only [get] at h
    split at h
    · rename_i hk; subst hk; cases h; simp
    · exact List.mem_cons_of_mem _ (ih h)

theorem mem_get {k : K} {v : V} {m : List (K × V)} (hn : (m.map Prod.fst).Nodup) (h : (k, v) ∈ m) :
    get k m = some v := by
  induction m with
  | nil => cases h
  | cons e m ih =>
    obtain ⟨k', v'⟩ := e
    simp only [List.map_cons, List.nodup_cons] at hn
    simp only [get]
    rcases List.mem_cons.1 h with h | h
    · cases h; simp
    · rw [if_neg, ih hn.2 h]
      rintro rfl
      exact hn.1 (List.mem_map_of_mem h)

theorem put_keys (k : K) (v : V) (m : List (K × V)) (k' : K) :
    k' ∈ (put k v m).map Prod.fst ↔ k' = k ∨ k' ∈ m.map Prod.fst := by
  induction m with
  | nil => simp [put]
  | cons e m ih =>
    obtain ⟨k'', v''⟩ := e
    simp only [put]
    split
    · rename_i h; subst h; simp
    · simp only [List.map_cons, List.mem_cons, ih]; tauto

theorem put_nodup (k : K) (v : V) (m : List (K × V)) (h : (m.map Prod.fst).Nodup) :
    ((put k v m).map Prod.fst).Nodup := by
  induction m with
  | nil => simp [put]
  | cons e m ih =>
    obtain ⟨k', v'⟩ := e
    simp only [List.map_cons, List.nodup_cons] at h
    simp only [put]
    split
    · rename_i hk; subst hk; simpa using h
    · rename_i hk
      simp only [List.map_cons, List.nodup_cons, put_keys, not_or]
      exact ⟨⟨hk, h.1⟩, ih h.2⟩

end

section
variable {N S : Type} [DecidableEq N] [DecidableEq S]

/-- Keys are not repeated. -/
def WF (m : Map N S) : Prop :=
  (m.map Prod.fst).Nodup ∧ ∀ e ∈ m, (e.2.map Prod.fst).Nodup

theorem wf_put {m : Map N S} (h : WF m) (n : N) (row : List (S × Status)) (hr : (row.map Prod.fst).Nodup) :
    WF (put n row m) := by
  refine ⟨put_nodup _ _ _ h.1, ?_⟩
  have : ∀ (m : Map N S), (∀ e ∈ m, (e.2.map Prod.fst).Nodup) → ∀ e ∈ put n row m, (e.2.map Prod.fst).Nodup := by
    intro m
    induction m with
    | nil => intro _ e he; simp [put] at he; subst he; exact hr
    | cons a m ih =>
      intro h e he
      obtain ⟨k, v⟩ := a
      simp only [put] at he
      split at he
      · rcases List.mem_cons.1 he with rfl | he
        · exact hr
        · exact h e (List.mem_cons_of_mem _ he)
      · rcases List.mem_cons.1 he with rfl | he
        · exact h _ (by simp)
        · exact ih (fun e he => h e (List.mem_cons_of_mem _ he)) e he
  exact this m h.2

theorem add_spec {m : Map N S} (h : WF m) (n : N) (s : S) (st : Status) :
    (m.add n s st = none ↔ cell (m.getInfo n s) st = none) ∧
      ∀ m', m.add n s st = some m' → WF m' ∧
        cell (m.getInfo n s) st = some (m'.getInfo n s) ∧
        ∀ n' s', (n', s') ≠ (n, s) → m'.getInfo n' s' = m.getInfo n' s' := by
  have hput : ∀ row row' : List (S × Status), (get n m = some row ∨ (get n m = none ∧ row = [])) →
      ∀ w, row' = put s w row → (row.map Prod.fst).Nodup →
      WF (put n row' m) ∧ Map.getInfo (put n row' m) n s = some w ∧
        ∀ n' s', (n', s') ≠ (n, s) → Map.getInfo (put n row' m) n' s' = m.getInfo n' s' := by
    rintro row row' hrow w rfl hnd
    refine ⟨wf_put h _ _ (put_nodup _ _ _ hnd), ?_, ?_⟩
    · simp [Map.getInfo, get_put]
    · intro n' s' hne
      simp only [Map.getInfo, get_put]
      by_cases hn : n = n'
      · subst hn
        simp only [if_true, get_put]
        rw [if_neg (fun e => hne (by rw [e]))]
        rcases hrow with hrow | ⟨hrow, rfl⟩ <;> rw [hrow]
        rfl
      · simp [hn]
  cases hrow : get n m with
  | none =>
    have hg : m.getInfo n s = none := by simp [Map.getInfo, hrow]
    simp only [Map.add, hrow, hg, cell, reduceCtorEq, false_iff, not_false_eq_true, Option.some.injEq, true_and]
    rintro m' rfl
    obtain ⟨h1, h2, h3⟩ := hput [] [(s, st)] (Or.inr ⟨hrow, rfl⟩) st rfl (by simp)
    exact ⟨h1, by rw [h2], h3⟩
  | some row =>
    have hnd := h.2 _ (get_some_mem hrow)
    cases hs : get s row with
    | none =>
      have hg : m.getInfo n s = none := by simp [Map.getInfo, hrow, hs]
      simp only [Map.add, hrow, hs, hg, cell, reduceCtorEq, false_iff, not_false_eq_true, Option.some.injEq, true_and]
      rintro m' rfl
      obtain ⟨h1, h2, h3⟩ := hput row _ (Or.inl hrow) st rfl hnd
      exact ⟨h1, by rw [h2], h3⟩
    | some old =>
      have hg : m.getInfo n s = some old := by simp [Map.getInfo, hrow, hs]
      simp only [Map.add, hrow, hs, hg, cell, Option.map_eq_none_iff, true_and]
      intro m' hm
      rw [Option.map_eq_some_iff] at hm
      obtain ⟨w, hw, rfl⟩ := hm
      obtain ⟨h1, h2, h3⟩ := hput row _ (Or.inl hrow) w rfl hnd
      exact ⟨h1, by rw [h2, hw]; rfl, h3⟩

theorem recorded_append (h : List (N × S × Status)) (n : N) (s : S) (n' : N) (s' : S) (st : Status) :
    recorded (h ++ [(n', s', st)]) n s = if n' = n ∧ s' = s then recorded h n s ++ [st] else recorded h n s := by
  by_cases hk : n' = n ∧ s' = s
  · rw [if_pos hk]; simp [recorded, hk]
  · rw [if_neg hk]; simp [recorded, hk]

theorem run_append (h : List (N × S × Status)) (n : N) (s : S) (st : Status) :
    run (h ++ [(n, s, st)]) = (run h).bind fun m => m.add n s st := by
  unfold run
  rw [List.foldlM_append]
  simp only [List.foldlM_cons, List.foldlM_nil, bind_pure]
  rfl

theorem run_spec (h : List (N × S × Status)) :
    (run h = none → ∃ n s, Clash (recorded h n s)) ∧
      ∀ m, run h = some m → WF m ∧ ∀ n s, ¬ Clash (recorded h n s) ∧ Verdict (recorded h n s) (m.getInfo n s) := by
  induction h using List.reverseRecOn with
  | nil =>
    refine ⟨fun h => by simp [run] at h, fun m hm => ?_⟩
    simp only [run, List.foldlM_nil, Option.pure_def, Option.some.injEq] at hm
    subst hm
    refine ⟨⟨by simp, by simp⟩, fun n s => ⟨?_, rfl⟩⟩
    rintro (⟨a, _⟩ | ⟨a, _⟩ | ⟨i, j, r, t, a, _⟩) <;> simp [recorded, conformants, inconsistents] at a
  | append_singleton h x ih =>
    obtain ⟨n, s, st⟩ := x
    rw [run_append]
    cases hr : run h with
    | none =>
      refine ⟨fun _ => ?_, fun m hm => by simp at hm⟩
      obtain ⟨n', s', hc⟩ := ih.1 hr
      refine ⟨n', s', ?_⟩
      rw [recorded_append]
      split
      · exact clash_append _ hc
      · exact hc
    | some m =>
      obtain ⟨hwf, hv⟩ := ih.2 m hr
      obtain ⟨a1, a2⟩ := add_spec hwf n s st
      obtain ⟨s1, s2⟩ := verdict_step (hv n s).1 (hv n s).2 st
      simp only [Option.bind_some]
      refine ⟨fun hn => ⟨n, s, ?_⟩, fun m' hm' => ?_⟩
      · rw [recorded_append, if_pos ⟨rfl, rfl⟩]
        exact s1 (a1.1 hn)
      · obtain ⟨b1, b2, b3⟩ := a2 m' hm'
        refine ⟨b1, fun n' s' => ?_⟩
        rw [recorded_append]
        by_cases hk : n = n' ∧ s = s'
        · obtain ⟨rfl, rfl⟩ := hk
          rw [if_pos ⟨rfl, rfl⟩]
          exact s2 _ b2
        · rw [if_neg hk, b3 n' s' (fun e => hk (by cases e; exact ⟨rfl, rfl⟩))]
          exact hv n' s'

theorem mem_iter {m : Map N S} (h : WF m) (n : N) (s : S) (st : Status) :
    (n, s, st) ∈ m.iter ↔ m.getInfo n s = some st := by
  simp only [Map.iter, List.mem_flatMap, List.mem_map, Map.getInfo]
  constructor
  · rintro ⟨⟨n', row⟩, h1, ⟨s', st'⟩, h2, h3⟩
    simp only [Prod.mk.injEq] at h3
    obtain ⟨rfl, rfl, rfl⟩ := h3
    rw [mem_get h.1 h1]
    exact mem_get (h.2 _ h1) h2
  · intro hg
    cases hrow : get n m with
    | none => rw [hrow] at hg; cases hg
    | some row =>
      rw [hrow] at hg
      exact ⟨(n, row), get_some_mem hrow, (s, st), get_some_mem hg, rfl⟩

theorem iter_nodup {m : Map N S} (h : WF m) : (m.iter.map fun x => (x.1, x.2.1)).Nodup := by
  induction m with
  | nil => simp [Map.iter]
  | cons e m ih =>
    obtain ⟨n, row⟩ := e
    obtain ⟨h1, h2⟩ := h
    simp only [List.map_cons, List.nodup_cons] at h1
    have ih := ih ⟨h1.2, fun e he => h2 e (List.mem_cons_of_mem _ he)⟩
    have hrow := h2 (n, row) (by simp)
    rw [show Map.iter ((n, row) :: m) = (row.map fun x => (n, x.1, x.2)) ++ Map.iter m from rfl, List.map_append]
    rw [List.nodup_append]
    refine ⟨?_, ih, ?_⟩
    · rw [List.map_map]
      have : row.map ((fun x : N × S × Status => (x.1, x.2.1)) ∘ fun x => (n, x.1, x.2)) =
          (row.map Prod.fst).map fun s => (n, s) := by simp [List.map_map]
      rw [this]
      exact hrow.map (fun a b h => by simpa using h)
    · intro a ha b hb e
      subst e
      simp only [List.map_map, List.mem_map, Function.comp] at ha
      obtain ⟨x, hx, rfl⟩ := ha
      simp only [Map.iter, List.mem_map, List.mem_flatMap] at hb
      obtain ⟨y, ⟨⟨n', row'⟩, hr, z, hz, rfl⟩, e⟩ := hb
      simp only [Prod.mk.injEq] at e
      exact h1.1 (by rw [← e.1]; exact List.mem_map_of_mem hr)

theorem recorded_ne_nil (h : List (N × S × Status)) (n : N) (s : S) :
    recorded h n s ≠ [] ↔ (n, s) ∈ h.map fun x => (x.1, x.2.1) := by
  simp only [recorded, ne_eq, List.map_eq_nil_iff, List.filter_eq_nil_iff, decide_eq_true_eq, List.mem_map]
  push Not
  constructor
  · rintro ⟨x, h1, rfl, rfl⟩; exact ⟨x, h1, rfl⟩
  · rintro ⟨x, h1, e⟩; cases e; exact ⟨x, h1, rfl, rfl⟩

/-- **C50**, the part that holds: when no pair has records that clash, recording succeeds, the map
gives for each pair what its records amount to — the first nonconformant one, all conformant ones
together, pending if that was all —, the listing has each pair once with that status, and the number
of conformant (nonconformant) entries is the number of pairs with a conformant (nonconformant)
record. It fails exactly when some pair has records that clash. Missing: those (`C50_refuted`). -/
theorem C50_result_map_partial (h : List (N × S × Status)) :
    (run h = none ↔ ∃ n s, Clash (recorded h n s)) ∧
    ∀ m, run h = some m →
      (∀ n s, Verdict (recorded h n s) (m.getInfo n s)) ∧
      (m.iter.map fun x => (x.1, x.2.1)).Nodup ∧
      (∀ n s st, (n, s, st) ∈ m.iter ↔ m.getInfo n s = some st) ∧
      (m.iter.filter fun x => x.2.2 matches .conformant _).length =
        ((h.map fun x => (x.1, x.2.1)).toFinset.filter
          fun p => conformants (recorded h p.1 p.2) ≠ []).card ∧
      (m.iter.filter fun x => x.2.2 matches .nonConformant _).length =
        ((h.map fun x => (x.1, x.2.1)).toFinset.filter
          fun p => nonConformants (recorded h p.1 p.2) ≠ []).card := by
  obtain ⟨r1, r2⟩ := run_spec h
  refine ⟨⟨r1, ?_⟩, fun m hm => ?_⟩
  · rintro ⟨n, s, hc⟩
    cases hr : run h with
    | none => rfl
    | some m => exact absurd hc ((r2 m hr).2 n s).1
  · obtain ⟨hwf, hv⟩ := r2 m hm
    have hcount : ∀ (q : Status → Bool) (Q : List Status → Prop) [DecidablePred Q],
        (∀ n s, (∃ st, m.getInfo n s = some st ∧ q st = true) ↔ Q (recorded h n s)) → (¬ Q []) →
        (m.iter.filter fun x => q x.2.2).length =
          ((h.map fun x => (x.1, x.2.1)).toFinset.filter fun p => Q (recorded h p.1 p.2)).card := by
      intro q Q _ hq hnil
      have hnd : ((m.iter.filter fun x => q x.2.2).map fun x => (x.1, x.2.1)).Nodup :=
        (iter_nodup hwf).sublist (List.filter_sublist.map _)
      rw [← List.length_map (f := fun x : N × S × Status => (x.1, x.2.1)), ← List.toFinset_card_of_nodup hnd]
      congr 1
      ext ⟨n, s⟩
      simp only [List.mem_toFinset, List.mem_map, List.mem_filter, Finset.mem_filter, Prod.mk.injEq]
      rw [← hq n s]
      constructor
      · rintro ⟨⟨n', s', st⟩, ⟨h1, h2⟩, rfl, rfl⟩
        rw [mem_iter hwf] at h1
        refine ⟨?_, st, h1, h2⟩
        have hQ : Q (recorded h n' s') := (hq n' s').1 ⟨st, h1, h2⟩
        have : recorded h n' s' ≠ [] := fun e => hnil (by rw [← e]; exact hQ)
        rw [recorded_ne_nil] at this
        simpa using this
      · rintro ⟨_, st, h1, h2⟩
        exact ⟨(n, s, st), ⟨(mem_iter hwf _ _ _).2 h1, h2⟩, rfl, rfl⟩
    refine ⟨fun n s => (hv n s).2, iter_nodup hwf, mem_iter hwf, ?_, ?_⟩
    · refine hcount (fun st => st matches .conformant _) (fun l => conformants l ≠ []) ?_ (by simp [conformants])
      intro n s
      obtain ⟨hc, hv⟩ := hv n s
      generalize recorded h n s = l at hc hv
      generalize m.getInfo n s = v at hv
      rcases v with _ | (i | i | _ | ⟨i, j⟩)
      · have hl : l = [] := hv
        simp [hl, conformants]
      · have : conformants l ≠ [] := by
          rcases hv with h | ⟨h, _⟩
          · simp [h]
          · intro e; rw [e] at h; simp at h
        simp [this]
      · have : conformants l = [] := by
          by_contra h
          refine hc (Or.inl ⟨h, ?_⟩)
          intro e; rw [Verdict, e] at hv; cases hv
        simp [this]
      · simp [(all_pending hv.2).1]
      · have hl : l = [.inconsistent i j] := hv
        simp [hl, conformants]
    · refine hcount (fun st => st matches .nonConformant _) (fun l => nonConformants l ≠ []) ?_
        (by simp [nonConformants])
      intro n s
      obtain ⟨hc, hv⟩ := hv n s
      generalize recorded h n s = l at hc hv
      generalize m.getInfo n s = v at hv
      rcases v with _ | (i | i | _ | ⟨i, j⟩)
      · have hl : l = [] := hv
        simp [hl, nonConformants]
      · have : nonConformants l = [] := by
          by_contra h
          refine hc (Or.inl ⟨?_, h⟩)
          rcases hv with h | ⟨h, _⟩
          · simp [h]
          · intro e; rw [e] at h; simp at h
        simp [this]
      · have : nonConformants l ≠ [] := by
          intro e; rw [Verdict, e] at hv; cases hv
        simp [this]
      · simp [(all_pending hv.2).2.1]
      · have hl : l = [.inconsistent i j] := hv
        simp [hl, nonConformants]

end

/-- **C50** is false of the code when the two verdicts are recorded for one pair, or two conformant ones
with information that is not a list: recording panics. -/
theorem C50_refuted (i j : Info) (t : Str) :
    run [((0 : Nat), (0 : Nat), Status.conformant i), (0, 0, .nonConformant j)] = none ∧
      run [((0 : Nat), (0 : Nat), Status.conformant ⟨i.reason, .other t⟩), (0, 0, .conformant j)] = none :=
  ⟨rfl, rfl⟩

/-- C50 applies: a pending record and then a verdict, beside another pair. -/
example (i j : Info) :
    ∃ m, run [((0 : Nat), (0 : Nat), Status.pending), (1, 0, .conformant j), (0, 0, .nonConformant i)] = some m ∧
      m.getInfo 0 0 = some (.nonConformant i) ∧ m.getInfo 1 0 = some (.conformant j) := ⟨_, rfl, rfl, rfl⟩

#print axioms C50_result_map_partial
#print axioms C50_refuted

end Shapemap
