import Verif.Mcp.OriginSpec

/-!
# Lemmas on origins
-/

namespace Mcp

variable {Ip : Type}

theorem find_none {c : Char} {l : List Char} (h : ∀ x ∈ l, x ≠ c) : find c l = none := by
  unfold find
  rw [List.findIdx?_eq_none_iff]
  intro x hx
  simpa using h x hx

theorem find_append {c : Char} {l : List Char} (h : ∀ x ∈ l, x ≠ c) (r : List Char) :
    find c (l ++ r) = (find c r).map (· + l.length) := by
  have := find_none h
  unfold find at this ⊢
  rw [List.findIdx?_append, this]
  simp

theorem find_head (c : Char) (l : List Char) : find c (c :: l) = some 0 := by
  simp [find, List.findIdx?_cons]

theorem find_ne {c d : Char} (h : d ≠ c) (l : List Char) : find c (d :: l) = (find c l).map (· + 1) := by
  simp [find, List.findIdx?_cons, h]

theorem digit_ne {d : Char} (h : d.isDigit = true) : d ≠ ':' ∧ d ≠ '/' ∧ d ≠ '[' ∧ d ≠ ']' := by
  refine ⟨?_, ?_, ?_, ?_⟩ <;> (rintro rfl; revert h; decide)

theorem without_http (r : List Char) : withoutProtocol ("http://".toList ++ r) = r := by
  simp [withoutProtocol]

theorem without_https (r : List Char) : withoutProtocol ("https://".toList ++ r) = r := by
  simp [withoutProtocol]

/-- The host of an origin is what the code takes for it. -/
theorem extract_origin {o h : List Char} (ho : IsOrigin o h) : extractHost o = some h := by
  obtain ⟨s, p, hs, hp, hb⟩ := ho
  have hw : ∀ r, withoutProtocol (s ++ r) = r := by
    rcases hs with rfl | rfl
    · exact without_http
    · exact without_https
  have hbp : ∀ x ∈ p, x ≠ '[' ∧ x ≠ ']' ∧ x ≠ '/' := by
    rcases hp with rfl | ⟨ds, rfl, hd⟩
    · simp
    · intro x hx
      rcases List.mem_cons.1 hx with rfl | hx
      · decide
      · exact ⟨(digit_ne (hd x hx)).2.2.1, (digit_ne (hd x hx)).2.2.2, (digit_ne (hd x hx)).2.1⟩
  rcases hb with ⟨rfl, hh⟩ | ⟨rfl, hh⟩
  · have h1 : find '[' (h ++ p) = none := find_none fun x hx => by
      rcases List.mem_append.1 hx with hx | hx
      · exact (hh x hx).2.2.1
      · exact (hbp x hx).1
    have h2 : find ':' (h ++ p) = (find ':' p).map (· + h.length) := find_append (fun x hx => (hh x hx).1) p
    have h3 : find '/' (h ++ p) = none := find_none fun x hx => by
      rcases List.mem_append.1 hx with hx | hx
      · exact (hh x hx).2.1
      · exact (hbp x hx).2.2
    unfold extractHost
    simp only [hw, h1, h2, h3]
    rcases hp with rfl | ⟨ds, rfl, _⟩
    · simp [find]
    · simp [find_head]
  · have h1 : find '[' ('[' :: (h ++ ']' :: p)) = some 0 := find_head _ _
    have h2 : find ']' ('[' :: (h ++ ']' :: p)) = some (h.length + 1) := by
      rw [find_ne (by decide), find_append (fun x hx => (hh x hx).2), find_head]
      simp
    unfold extractHost
    simp only [hw, h1, h2]
    simp

theorem allowed_host (L : Lib Ip) (c : OriginConfig Ip) (hl : L.parse "localhost".toList = none) {o h : List Char}
    (he : extractHost o = some h) : ∃ b, isAllowedOrigin L c o = some b ∧ (b = true ↔ HostAllowed L c h) := by
  unfold isAllowedOrigin
  rw [he]
  dsimp only
  cases hp : L.parse h with
  | some ip =>
    refine ⟨_, rfl, ?_⟩
    have hn : h ≠ "localhost".toList := by
      rintro rfl
      rw [hl] at hp; cases hp
    simp [ipAllowed, HostAllowed, hp, hn, -String.reduceToList]
  | none =>
    dsimp only
    split
    · next hh =>
      refine ⟨_, rfl, ?_⟩
      simp only [ipAllowed, HostAllowed, hp, Bool.or_eq_true, List.any_eq_true]
      constructor
      · rintro (⟨n, h1, h2⟩ | ⟨n, h1, h2⟩)
        · exact .inr ⟨hh, n, h1, .inl h2⟩
        · exact .inr ⟨hh, n, h1, .inr h2⟩
      · rintro (⟨ip, h1, _⟩ | ⟨_, n, h1, h2 | h2⟩)
        · cases h1
        · exact .inl ⟨n, h1, h2⟩
        · exact .inr ⟨n, h1, h2⟩
    · next hh =>
      exact ⟨_, rfl, by simp [HostAllowed, hp, hh, -String.reduceToList]⟩

end Mcp
