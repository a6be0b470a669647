import Verif.Mcp.MappingSpec
import Verif.Mcp.AskingLemmas

/-!
# Lemmas on terms of shape maps
-/

namespace Mcp.Mapping

open Prefix (Str)
open Mcp.Asking (Lib Ascii)

theorem hasSep_iff (s : Str) : hasSep s = true ↔ ∃ a b, s = a ++ "://".toList ++ b := by
  induction s with
  | nil =>
    simp only [hasSep, Bool.false_eq_true, false_iff, not_exists]
    intro a b h
    have := congrArg List.length h
    simp at this
  | cons c s ih =>
    simp only [hasSep, Bool.or_eq_true, ih, List.isPrefixOf_iff_prefix]
    constructor
    · rintro (⟨b, hb⟩ | ⟨a, b, rfl⟩)
      · exact ⟨[], b, by simpa using hb.symm⟩
      · exact ⟨c :: a, b, by simp⟩
    · rintro ⟨a, b, h⟩
      cases a with
      | nil => exact .inl ⟨b, by simpa using h.symm⟩
      | cons x a =>
        simp only [List.cons_append, List.cons.injEq] at h
        exact .inr ⟨a, b, h.2⟩

theorem dropWhile_blank (L : Lib) (a s : Str) (ha : Blank L a) (hs : ∀ c, s.head? = some c → L.ws c = false) :
    (a ++ s).dropWhile L.ws = s := by
  induction a with
  | nil =>
    cases s with
    | nil => rfl
    | cons c s => simp [hs c rfl]
  | cons c a ih =>
    have hc := ha c (by simp)
    simp only [List.cons_append, List.dropWhile_cons, hc, if_true]
    exact ih fun d hd => ha d (by simp [hd])

theorem trim_blank (L : Lib) (a s b : Str) (ha : Blank L a) (hb : Blank L b) (hs : Trimmed L s) :
    Prefix.trim L.ws (a ++ s ++ b) = s := by
  unfold Prefix.trim
  by_cases h0 : s = []
  · subst h0
    have : (a ++ [] ++ b).dropWhile L.ws = [] := by
      have := dropWhile_blank L (a ++ b) [] (by
        intro c hc
        rcases List.mem_append.1 hc with h | h
        · exact ha c h
        · exact hb c h) (by simp)
      simpa using this
    rw [this]
    rfl
  · rw [List.append_assoc, dropWhile_blank L a (s ++ b) ha, List.reverse_append, dropWhile_blank L b.reverse s.reverse]
    · simp
    · intro c hc
      exact hb c (by simpa using hc)
    · intro c hc
      apply hs.2 c
      simpa using hc
    · intro c hc
      apply hs.1 c
      cases s with
      | nil => exact absurd rfl h0
      | cons x s => simpa using hc

theorem alpha_graphic (c : Char) (h : c.isAlpha = true) : 33 ≤ c.toNat ∧ c.toNat < 127 := by
  simp only [Char.isAlpha, Char.isUpper, Char.isLower, Bool.or_eq_true, Bool.and_eq_true, decide_eq_true_eq, ge_iff_le] at h
  rcases h with ⟨h1, h2⟩ | ⟨h1, h2⟩
  · have h1 : 65 ≤ c.val.toNat := h1
    have h2 : c.val.toNat ≤ 90 := h2
    show 33 ≤ c.val.toNat ∧ c.val.toNat < 127
    omega
  · have h1 : 97 ≤ c.val.toNat := h1
    have h2 : c.val.toNat ≤ 122 := h2
    show 33 ≤ c.val.toNat ∧ c.val.toNat < 127
    omega

theorem absolute_head {L : Lib} {i : Str} (h : Absolute L i) : ∃ c s, i = c :: s ∧ c.isAlpha = true := by
  obtain ⟨scheme, rest, rfl, hne, ha, -⟩ := h
  cases scheme with
  | nil => exact absurd rfl hne
  | cons c s => exact ⟨c, s ++ "://".toList ++ rest, by simp, ha c (by simp)⟩

theorem absolute_ws {L : Lib} (hL : Ascii L) {i : Str} (h : Absolute L i) : ∀ c ∈ i, L.ws c = false := by
  obtain ⟨scheme, rest, rfl, -, ha, hr⟩ := h
  intro c hc
  rcases List.mem_append.1 hc with hc | hc
  · rcases List.mem_append.1 hc with hc | hc
    · have := alpha_graphic c (ha c hc)
      exact hL.graphic c this.1 this.2
    · have : ∀ c ∈ "://".toList, 33 ≤ c.toNat ∧ c.toNat < 127 := by decide
      exact hL.graphic c (this c hc).1 (this c hc).2
  · exact (hr c hc).1

theorem trimmed_of_ws {L : Lib} {s : Str} (h : ∀ c ∈ s, L.ws c = false) : Trimmed L s :=
  ⟨fun c hc => h c (List.mem_of_head? hc), fun c hc => h c (List.mem_of_getLast? hc)⟩

theorem absolute_sep {L : Lib} {i : Str} (h : Absolute L i) : hasSep i = true := by
  obtain ⟨scheme, rest, rfl, -⟩ := h
  exact (hasSep_iff _).2 ⟨scheme, rest, rfl⟩

theorem bracketed_ws {L : Lib} (hL : Ascii L) {i : Str} (h : Absolute L i) : ∀ c ∈ '<' :: i ++ ['>'], L.ws c = false := by
  intro c hc
  simp only [List.cons_append, List.mem_cons, List.mem_append, List.not_mem_nil, or_false] at hc
  rcases hc with rfl | hc | rfl
  · exact hL.graphic _ (by decide) (by decide)
  · exact absolute_ws hL h c hc
  · exact hL.graphic _ (by decide) (by decide)

theorem normalize_term {L : Lib} (hL : Ascii L) (a s b t : Str) (ha : Blank L a) (hb : Blank L b) (h : Term L s t) :
    normalize L (a ++ s ++ b) false = t := by
  unfold normalize
  cases h with
  | bare hi =>
    rw [trim_blank L a _ b ha hb (trimmed_of_ws (absolute_ws hL hi))]
    obtain ⟨c, r, rfl, hc⟩ := absolute_head hi
    have h1 : c ≠ '<' := by rintro rfl; exact absurd hc (by decide)
    have h2 : c ≠ '_' := by rintro rfl; exact absurd hc (by decide)
    have h3 : c ≠ '{' := by rintro rfl; exact absurd hc (by decide)
    simp [absolute_sep hi, h1, h2, h3]
  | bracketed hi =>
    rw [trim_blank L a _ b ha hb (trimmed_of_ws (bracketed_ws hL hi))]
    simp
  | other ht hn =>
    rw [trim_blank L a _ b ha hb ht]
    have : hasSep s = false := by
      rw [Bool.eq_false_iff]
      intro h
      exact hn ((hasSep_iff s).1 h)
    simp [this]

theorem normalize_strict {L : Lib} (a s b : Str) (ha : Blank L a) (hb : Blank L b) (hs : Trimmed L s) :
    normalize L (a ++ s ++ b) true = s := by
  unfold normalize
  rw [trim_blank L a s b ha hb hs]
  rfl

/-- A text with `@` that does not begin like a URL is read as it is. -/
theorem fromStr_at (W : Load.World) (t u : Str) (h1 : ¬"http://".toList <+: t ++ '@' :: u) (h2 : ¬"https://".toList <+: t ++ '@' :: u) :
    Load.fromStr W (t ++ '@' :: u) = some (.str (t ++ '@' :: u)) := by
  have hp : Load.pathLike (t ++ '@' :: u) = false := by
    have hat : Load.pathRest '@' = false := by decide
    have hat' : Load.pathFirst '@' = false := by decide
    unfold Load.pathLike
    cases t with
    | nil => simp [hat, hat']
    | cons c t => simp [hat]
  have h0 : ¬(t ++ '@' :: u).isEmpty = true := by simp
  have h3 : t ++ '@' :: u ≠ ['-'] := by
    cases t with
    | nil => simp
    | cons c t => simp
  unfold Load.fromStr
  rw [if_neg h0, if_neg h3, if_neg (by rwa [List.isPrefixOf_iff_prefix]), if_neg (by rwa [List.isPrefixOf_iff_prefix]), hp]
  simp

/-- A prefix that has a part without the sign is a prefix of what is before the sign. -/
theorem prefix_before (p t u : Str) (hp : '@' ∉ p) (h : p <+: t ++ '@' :: u) : p <+: t := by
  induction p generalizing t with
  | nil => exact List.nil_prefix
  | cons c p ih =>
    cases t with
    | nil =>
      obtain ⟨r, hr⟩ := h
      simp only [List.cons_append, List.nil_append, List.cons.injEq] at hr
      exact absurd (by simp [hr.1]) hp
    | cons x t =>
      rw [List.cons_append, List.cons_prefix_cons] at h
      rw [List.cons_prefix_cons]
      exact ⟨h.1, ih t (fun hm => hp (by simp [hm])) h.2⟩

end Mcp.Mapping
