import Verif.Mcp.OriginLemmas

/-!
# Properties of the guards of the MCP server (C162)
-/

namespace Mcp

variable {Ip : Type}

/-- C162: of the origins that browsers write, those are allowed whose host is. -/
theorem C162_origin (L : Lib Ip) (c : OriginConfig Ip) (hl : L.parse "localhost".toList = none) {o h : List Char} (ho : IsOrigin o h) :
    ∃ b, isAllowedOrigin L c o = some b ∧ (b = true ↔ HostAllowed L c h) :=
  allowed_host L c hl (extract_origin ho)

/-- C162: what is done with a request, when its origin is absent, no text, or one that browsers write. It is given to the service
exactly when the origin is allowed, or absent and this is allowed, and the version is absent or supported; wrong origins are answered
with 403, and otherwise wrong versions with 400. -/
theorem C162_guards (L : Lib Ip) (c : OriginConfig Ip) (hl : L.parse "localhost".toList = none) (origin version : Header)
    (ho : ∀ o, origin = .text o → ∃ h, IsOrigin o h) :
    let goodOrigin := (origin = .absent ∧ c.allowMissing = true) ∨ ∃ o h, origin = .text o ∧ IsOrigin o h ∧ HostAllowed L c h
    let goodVersion := version = .absent ∨ version = .text "2025-11-25".toList ∨ version = .text "2025-06-18".toList ∨
      version = .text "2025-03-26".toList
    (withGuards L c origin version = .service ↔ goodOrigin ∧ goodVersion) ∧
    (withGuards L c origin version = .status 403 ↔ ¬ goodOrigin) ∧
    (withGuards L c origin version = .status 400 ↔ goodOrigin ∧ ¬ goodVersion) := by
  intro goodOrigin goodVersion
  have hv : (goodVersion ∧ versionGuard version .service = .service) ∨ (¬ goodVersion ∧ versionGuard version .service = .status 400) := by
    cases version with
    | absent => exact .inl ⟨.inl rfl, rfl⟩
    | «opaque» => exact .inr ⟨by simp [goodVersion], rfl⟩
    | text v =>
      unfold versionGuard
      dsimp only
      split
      · next h =>
        refine .inl ⟨?_, rfl⟩
        simp only [versions, List.mem_cons, List.not_mem_nil, or_false] at h
        rcases h with rfl | rfl | rfl
        · exact .inr (.inl rfl)
        · exact .inr (.inr (.inl rfl))
        · exact .inr (.inr (.inr rfl))
      · next h =>
        refine .inr ⟨fun hg => h ?_, rfl⟩
        simp only [goodVersion, reduceCtorEq, Header.text.injEq, false_or] at hg
        simp only [versions, List.mem_cons, List.not_mem_nil, or_false]
        exact hg
  have hO : (goodOrigin ∧ ∀ x, originGuard L c origin x = x) ∨ (¬ goodOrigin ∧ ∀ x, originGuard L c origin x = .status 403) := by
    cases origin with
    | absent =>
      cases hm : c.allowMissing with
      | true => exact .inl ⟨.inl ⟨rfl, hm⟩, fun x => by simp [originGuard, hm]⟩
      | false =>
        refine .inr ⟨?_, fun x => by simp [originGuard, hm]⟩
        rintro (⟨_, h⟩ | ⟨_, _, h, _⟩)
        · rw [hm] at h; cases h
        · cases h
    | «opaque» =>
      refine .inr ⟨?_, fun x => rfl⟩
      rintro (⟨h, _⟩ | ⟨_, _, h, _⟩) <;> cases h
    | text o =>
      obtain ⟨h, hh⟩ := ho o rfl
      obtain ⟨b, h1, h2⟩ := C162_origin L c hl hh
      cases b with
      | true => exact .inl ⟨.inr ⟨o, h, rfl, hh, h2.1 rfl⟩, fun x => by simp [originGuard, h1]⟩
      | false =>
        refine .inr ⟨?_, fun x => by simp [originGuard, h1]⟩
        rintro (⟨h, _⟩ | ⟨o', h', he, hi, ha⟩)
        · cases h
        · cases he
          have e : h' = h := Option.some.inj ((extract_origin hi).symm.trans (extract_origin hh))
          subst e
          exact absurd (h2.2 ha) (by simp)
  unfold withGuards
  rcases hO with ⟨a, ea⟩ | ⟨a, ea⟩ <;> rcases hv with ⟨b, eb⟩ | ⟨b, eb⟩ <;> rw [ea] <;> (try rw [eb]) <;> simp [a, b]

/-- Addresses that are texts; `127.0.0.1` and `::1` are addresses, names are not. -/
def sampleLib : Lib (List Char) :=
  ⟨fun l => if l = "127.0.0.1".toList ∨ l = "::1".toList then some l else none, "127.0.0.1".toList, "::1".toList⟩

/-- `localhost_only` (MW 52-60). -/
def localOnly : OriginConfig (List Char) := ⟨[fun l => l = "127.0.0.1".toList, fun l => l = "::1".toList], true⟩

example : sampleLib.parse "localhost".toList = none ∧ IsOrigin "https://[::1]:8080".toList "::1".toList ∧
    IsOrigin "http://example.org".toList "example.org".toList ∧
    withGuards sampleLib localOnly (.text "https://[::1]:8080".toList) .absent = .service ∧
    withGuards sampleLib localOnly (.text "http://example.org".toList) .absent = .status 403 ∧
    withGuards sampleLib localOnly .absent (.text "1.0".toList) = .status 400 := by
  refine ⟨by decide, ?_, ?_, by decide, by decide, by decide⟩
  · exact ⟨"https://".toList, ":8080".toList, .inr rfl, .inr ⟨"8080".toList, rfl, by decide⟩, .inr ⟨rfl, by decide⟩⟩
  · exact ⟨"http://".toList, [], .inl rfl, .inl rfl, .inl ⟨by simp, by decide⟩⟩

/-- C162: exactly those origins make the handler panic in which, after the scheme, a closing bracket comes before the first opening
one. -/
theorem C162_panics (L : Lib Ip) (c : OriginConfig Ip) (o : List Char) : isAllowedOrigin L c o = none ↔
    ∃ a b, withoutProtocol o = a ++ ']' :: b ∧ (∀ x ∈ a, x ≠ ']' ∧ x ≠ '[') ∧ '[' ∈ b := by
  have he : isAllowedOrigin L c o = none ↔ extractHost o = none := by
    unfold isAllowedOrigin
    cases extractHost o with
    | none => simp
    | some h =>
      dsimp only
      cases L.parse h with
      | some ip => simp
      | none => dsimp only; split <;> simp
  rw [he]
  unfold extractHost
  dsimp only
  generalize withoutProtocol o = w
  constructor
  · intro h
    split at h
    · next s e hs hc =>
      split at h
      · next hlt =>
        unfold find at hs hc
        rw [List.findIdx?_eq_some_iff_getElem] at hs hc
        obtain ⟨hsl, hs1, hs2⟩ := hs
        obtain ⟨hel, he1, he2⟩ := hc
        have hne : e ≠ s := by
          rintro rfl
          simp only [beq_iff_eq] at hs1 he1
          rw [hs1] at he1
          exact absurd he1 (by decide)
        simp only [beq_iff_eq] at hs1 he1
        refine ⟨w.take e, w.drop (e + 1), ?_, ?_, ?_⟩
        · rw [← he1, ← List.drop_eq_getElem_cons hel, List.take_append_drop]
        · intro x hx
          obtain ⟨i, hi, rfl⟩ := List.mem_iff_getElem.1 hx
          rw [List.length_take] at hi
          rw [List.getElem_take]
          have a1 := he2 i (by omega)
          have a2 := hs2 i (by omega)
          exact ⟨by simpa using a1, by simpa using a2⟩
        · rw [List.mem_iff_getElem]
          refine ⟨s - (e + 1), by rw [List.length_drop]; omega, ?_⟩
          rw [List.getElem_drop]
          have : e + 1 + (s - (e + 1)) = s := by omega
          simp only [this, hs1]
      · cases h
    · cases h
  · rintro ⟨a, b, rfl, ha, hb⟩
    have h1 : find ']' (a ++ ']' :: b) = some a.length := by
      rw [find_append (fun x hx => (ha x hx).1), find_head]; simp
    have h2 : ∃ s, find '[' (a ++ ']' :: b) = some s ∧ a.length < s := by
      rw [find_append (fun x hx => (ha x hx).2), find_ne (by decide)]
      cases hf : find '[' b with
      | none =>
        unfold find at hf
        rw [List.findIdx?_eq_none_iff] at hf
        exact absurd (hf _ hb) (by simp)
      | some j => exact ⟨j + 1 + a.length, by simp, by omega⟩
    obtain ⟨s, h2, h3⟩ := h2
    rw [h1, h2]
    simp only
    rw [if_pos (by omega)]

/-- C162, as a whole, fails: there are origins that are answered with a panic. -/
theorem C162_panic_refuted : ¬ ∀ o : List Char, withGuards sampleLib localOnly (.text o) .absent ≠ .panic := fun h =>
  h "][".toList (by decide)

/-- C162, as a whole, fails for URLs in general: one of another host is let through if its user or its path looks like a host that is
allowed. -/
theorem C162_host_refuted : (¬ ∀ o : List Char, isAllowedOrigin sampleLib localOnly o = some true →
      '@' ∉ o → HostAllowed sampleLib localOnly (urlHost o)) ∧
    ¬ ∀ o : List Char, isAllowedOrigin sampleLib localOnly o = some true →
      '[' ∉ o → HostAllowed sampleLib localOnly (urlHost o) := by
  have hn : ∀ h : List Char, sampleLib.parse h = none → h ≠ "localhost".toList → ¬ HostAllowed sampleLib localOnly h := by
    rintro h h1 h2 (⟨ip, h3, _⟩ | ⟨h3, _⟩)
    · rw [h1] at h3; cases h3
    · exact h2 h3
  constructor
  · intro h
    exact hn _ (by decide +kernel) (by decide +kernel) (h "http://example.org/[::1]".toList (by decide +kernel) (by decide))
  · intro h
    exact hn _ (by decide +kernel) (by decide +kernel) (h "http://localhost:80@example.org".toList (by decide +kernel) (by decide))

end Mcp
