import Verif.Mcp.StateSpec

/-!
# Lemmas on the state
-/

namespace Mcp.State

theorem whole_eq (ps : List (List Char)) : whole ps = ps.flatten := by
  induction ps with
  | nil => rfl
  | cons p ps ih => simp [whole] at ih ⊢; exact ih

theorem rest_nil {cap : Nat} {buf p : List Char} (hb : buf.length ≤ cap) (hf : ¬ p.length > cap - buf.length) (hp : p.length ≥ cap) :
    buf = [] := List.eq_nil_of_length_eq_zero (by omega)

/-- With enough room everything is written. -/
theorem write_room (cap room : Nat) (buf : List Char) (ps : List (List Char)) (hb : buf.length ≤ cap)
    (hr : buf.length + ps.flatten.length ≤ room) : (write cap room buf ps).2 = true ∧ (write cap room buf ps).1.flatten = buf ++ ps.flatten := by
  induction ps generalizing room buf with
  | nil =>
    simp only [List.flatten_nil, List.length_nil, Nat.add_zero] at hr
    simp [write, List.take_of_length_le hr]
  | cons p ps ih =>
    simp only [List.flatten_cons, List.length_append] at hr
    by_cases hf : p.length > cap - buf.length
    · simp only [write, hf, decide_true, if_true]
      rw [if_pos (by omega)]
      by_cases hp : p.length ≥ cap
      · rw [if_pos hp, if_pos (by omega)]
        obtain ⟨a, b⟩ := ih (room - buf.length - p.length) [] (by simp) (by simp only [List.length_nil]; omega)
        exact ⟨a, by simp [b]⟩
      · rw [if_neg hp]
        obtain ⟨a, b⟩ := ih (room - buf.length) ([] ++ p) (by simp; omega) (by simp only [List.nil_append]; omega)
        exact ⟨a, by simp only [List.flatten_cons, b]; simp⟩
    · simp only [write, hf, decide_false, Bool.false_eq_true, if_false]
      rw [if_pos (by simp)]
      by_cases hp : p.length ≥ cap
      · have := rest_nil hb hf hp
        subst this
        rw [if_pos hp, if_pos (by simp; omega)]
        obtain ⟨a, b⟩ := ih (room - ([] : List Char).length - p.length) [] (by simp) (by simp only [List.length_nil] at hr ⊢; omega)
        exact ⟨a, by simp only [List.flatten_cons, b]; simp⟩
      · rw [if_neg hp]
        obtain ⟨a, b⟩ := ih (room - ([] : List Char).length) (buf ++ p) (by simp; omega) (by simp only [List.length_append, List.length_nil]; omega)
        exact ⟨a, by simp only [List.flatten_cons, b]; simp⟩

/-- What is written is never anything but a beginning of the text. -/
theorem write_prefix (cap room : Nat) (buf : List Char) (ps : List (List Char)) (hb : buf.length ≤ cap) :
    (write cap room buf ps).1.flatten <+: buf ++ ps.flatten := by
  induction ps generalizing room buf with
  | nil => simp [write, List.take_prefix]
  | cons p ps ih =>
    by_cases hf : p.length > cap - buf.length
    · simp only [write, hf, decide_true, if_true]
      split
      · split
        · split
          · have := ih (room - buf.length - p.length) [] (by simp)
            simpa [List.prefix_append_right_inj] using this
          · simp only [List.flatten_cons, List.flatten_nil, List.append_nil, List.prefix_append_right_inj]
            exact (List.take_prefix _ _).trans (List.prefix_append _ _)
        · rename_i hp
          have := ih (room - buf.length) ([] ++ p) (by simp; omega)
          simpa [List.prefix_append_right_inj] using this
      · simp only [List.flatten_cons, List.flatten_nil, List.append_nil]
        exact (List.take_prefix _ _).trans (List.prefix_append _ _)
    · simp only [write, hf, decide_false, Bool.false_eq_true, if_false]
      rw [if_pos (by simp)]
      split
      · rename_i hp
        have := rest_nil hb hf hp
        subst this
        split
        · have := ih (room - ([] : List Char).length - p.length) [] (by simp)
          simpa [List.prefix_append_right_inj] using this
        · simp only [List.flatten_cons, List.flatten_nil, List.append_nil, List.nil_append]
          exact (List.take_prefix _ _).trans (List.prefix_append _ _)
      · rename_i hp
        have := ih (room - ([] : List Char).length) (buf ++ p) (by simp; omega)
        simpa using this

/-- What fits into the buffer is never seen to fail. -/
theorem write_small (cap room : Nat) (buf : List Char) (ps : List (List Char)) (h : buf.length + ps.flatten.length < cap) :
    (write cap room buf ps).2 = true := by
  induction ps generalizing room buf with
  | nil => rfl
  | cons p ps ih =>
    simp only [List.flatten_cons, List.length_append] at h
    have hf : ¬ p.length > cap - buf.length := by omega
    simp only [write, hf, decide_false, Bool.false_eq_true, if_false]
    rw [if_pos (by simp), if_neg (by omega)]
    exact ih _ _ (by simp only [List.length_append]; omega)

theorem states_other (fs : Fs) (t q : Path) (hq : q ≠ t) (done : List Char) (cs : List (List Char)) (x : Fs)
    (hx : x ∈ states fs t done cs) : x q = fs q := by
  induction cs generalizing done with
  | nil => simp [states] at hx
  | cons c cs ih =>
    rcases List.mem_cons.1 hx with rfl | hx
    · simp [Fs.set, hq]
    · exact ih _ hx

/-- Without an error that is seen, no more than the buffer is missing. -/
theorem write_lost (cap room : Nat) (buf : List Char) (ps : List (List Char)) (hb : buf.length ≤ cap)
    (h : (write cap room buf ps).2 = true) : (buf ++ ps.flatten).length ≤ (write cap room buf ps).1.flatten.length + cap := by
  induction ps generalizing room buf with
  | nil => simp [write]; omega
  | cons p ps ih =>
    unfold write at h ⊢
    by_cases hf : p.length > cap - buf.length
    · simp only [hf, decide_true, if_true] at h ⊢
      split at h
      · rename_i h1
        rw [if_pos h1]
        split at h
        · rename_i h2
          rw [if_pos h2]
          split at h
          · rename_i h3
            rw [if_pos h3]
            have := ih _ [] (by simp) h
            simp only [List.nil_append, List.flatten_cons, List.length_append] at this ⊢
            omega
          · cases h
        · rename_i h2
          rw [if_neg h2]
          have := ih _ ([] ++ p) (by simp; omega) h
          simp only [List.nil_append, List.flatten_cons, List.length_append] at this ⊢
          omega
      · cases h
    · simp only [hf, decide_false, Bool.false_eq_true, if_false] at h ⊢
      split at h
      · rename_i h1
        rw [if_pos h1]
        split at h
        · rename_i h2
          rw [if_pos h2]
          split at h
          · rename_i h3
            rw [if_pos h3]
            have := ih _ buf hb h
            simp only [List.flatten_cons, List.length_append] at this ⊢
            omega
          · cases h
        · rename_i h2
          rw [if_neg h2]
          have := ih _ (buf ++ p) (by simp; omega) h
          simp only [List.flatten_cons, List.length_append, List.length_nil] at this ⊢
          omega
      · cases h

end Mcp.State
