import Verif.Mcp.LoadingSpec
import Verif.Load.LemmasLoad

/-!
# Lemmas on loading through the MCP server
-/

namespace Mcp.Loading

open Load Prefix

variable {G P : Type}

theorem specs_map (l : List Input) : specs (l.map some) = some l := by
  induction l with
  | nil => rfl
  | cons i l ih => simp [specs, ih]

theorem trim_head {ws : Char → Bool} {c : Char} {r : Str} (h : ws c = false) : ∃ x, trim ws (c :: r) = c :: x := by
  unfold trim
  rw [List.dropWhile_cons_of_neg (by simp [h]), List.reverse_cons, List.dropWhile_append]
  split
  · exact ⟨[], by simp [List.dropWhile_cons, h]⟩
  · exact ⟨_, by rw [List.reverse_append]; rfl⟩

theorem trim_nil (ws : Char → Bool) : trim ws [] = [] := rfl

theorem count_ended (ws : Char → Bool) (ls : List Str) (h : TripleLines ws ls) : count ws (ended ls) = ls.length := by
  induction ls with
  | nil => simp [count, ended, splitLines, trim_nil]
  | cons l ls ih =>
    obtain ⟨hn, c, hc, hw, hh⟩ := h l List.mem_cons_self
    have ih := ih fun x hx => h x (List.mem_cons_of_mem _ hx)
    have e : ended (l :: ls) = l ++ '\n' :: ended ls := by simp [ended]
    cases l with
    | nil => simp at hc
    | cons d r =>
      simp at hc
      subst hc
      obtain ⟨x, hx⟩ := trim_head (r := r) hw
      unfold count at ih ⊢
      rw [e, splitLines_append _ _ hn, List.filter_cons, if_pos (by rw [hx]; simp [hh]), List.length_cons, ih, List.length_cons]

theorem locked_endpoint (e : Env G P) (ser : Option (Data G P) → Option Str) (r : Request) (he : r.endpoint ≠ none)
    (st : Option (Data G P)) : (locked e ser r st).1 = st ∧ ((locked e ser r st).2 = .toolError ∨ (locked e ser r st).2 = .protocolError) := by
  obtain ⟨x, hx⟩ := Option.ne_none_iff_exists'.1 he
  have hl : ∀ l f, loadData e ⟨some l, some f, r.base, r.endpoint, none, none, none⟩ st = (st, .err) := by
    intro l f
    unfold loadData
    rw [hx]
    cases getBase e r.base <;> rfl
  unfold locked
  simp only
  split
  · exact ⟨rfl, .inl rfl⟩
  · split
    · exact ⟨rfl, .inl rfl⟩
    · split
      · exact ⟨rfl, .inl rfl⟩
      · rw [hl]
        exact ⟨rfl, .inr rfl⟩

theorem locked_loaded (e : Env G P) (ser : Option (Data G P) → Option Str) (r : Request) (st : Option (Data G P)) (t : Str)
    (h : (locked e ser r st).2 = .loaded t) : ser (locked e ser r st).1 = some t := by
  unfold locked at h ⊢
  simp only at h ⊢
  split at h
  · cases h
  · rename_i h0
    rw [if_neg h0]
    cases hs : specs (r.data.getD []) with
    | none => rw [hs] at h; cases h
    | some l =>
      rw [hs] at h
      simp only at h ⊢
      cases hf : r.format.getD (some .turtle) with
      | none => rw [hf] at h; cases h
      | some f =>
        rw [hf] at h
        simp only at h ⊢
        generalize loadData e ⟨some l, some f, r.base, r.endpoint, none, none, none⟩ st = x at h ⊢
        obtain ⟨m, o⟩ := x
        cases o with
        | err => cases h
        | panic => cases h
        | ok =>
          simp only at h ⊢
          cases ht : ser m with
          | none => rw [ht] at h; cases h
          | some u => rw [ht] at h; cases h; exact ht

/-- One call, from beginning to end. -/
theorem call_step (e : Env G P) (ser : Option (Data G P) → Option Str) (s : Server G P) (k : Nat) (r : Request) (hp : s.pending = fun _ => none) :
    (run e ser s [.lock k r, .persist k]).mem = (locked e ser r s.mem).1 ∧ (run e ser s [.lock k r, .persist k]).pending = (fun _ => none) ∧
    (∀ t, (locked e ser r s.mem).2 = .loaded t → (run e ser s [.lock k r, .persist k]).disk = some t) ∧
    ((∀ t, (locked e ser r s.mem).2 ≠ .loaded t) → (run e ser s [.lock k r, .persist k]).disk = s.disk) := by
  obtain ⟨mem, disk, pending⟩ := s
  simp only at hp
  subst hp
  cases h : locked e ser r mem with
  | mk m a =>
    cases a <;> simp [run, step, h]
    funext i
    split <;> simp_all

end Mcp.Loading
