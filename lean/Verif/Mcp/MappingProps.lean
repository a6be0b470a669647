import Verif.Mcp.MappingLemmas
import Verif.Mcp.AskingProps

/-!
# Properties of the shape map that the tool uses (C171)
-/

namespace Mcp.Mapping

open Prefix (Str)
open Mcp.Asking (Lib Ascii asciiLib asciiLib_ascii)

/-- C171 (part): of a node and a shape, each perhaps with white space around, the shape map is made that is meant: IRIs are in brackets,
given so or not. It is read as it is, never taken for a file or a URL. What is missing: literals that have an IRI in them
(`C171_literal_refuted`), strict IRIs (`C171_strict_refuted`). -/
theorem C171_shape_partial (L : Lib) (hL : Ascii L) (W : Load.World) (a n b a' s b' n' s' : Str) (ha : Blank L a) (hb : Blank L b)
    (ha' : Blank L a') (hb' : Blank L b') (hn : Term L n n') (hs : Term L s s') (strict : Option Bool) (hst : strict ≠ some true) :
    loaded L W ⟨none, some (a ++ n ++ b), some (a' ++ s ++ b'), strict⟩ = some (.str (n' ++ '@' :: s')) := by
  have h0 : strict.getD false = false := by
    cases strict with
    | none => rfl
    | some x => cases x with
      | false => rfl
      | true => exact absurd rfl hst
  unfold loaded effective
  simp only [h0, normalize_term hL a n b n' ha hb hn, normalize_term hL a' s b' s' ha' hb' hs]
  have hsep : ∀ p : Str, '@' ∉ p → (∃ x y, p = x ++ "://".toList ++ y) → p.head? ≠ some '<' → ¬p <+: n' ++ '@' :: s' := by
    rintro p hp ⟨x, y, rfl⟩ hlt h
    have h := prefix_before _ _ _ hp h
    obtain ⟨z, hz⟩ := h
    have hne : ∀ i : Str, x ++ "://".toList ++ y ++ z ≠ '<' :: i := by
      intro i hi
      apply hlt
      have : (x ++ "://".toList ++ y) ≠ [] := by simp
      cases hq : x ++ "://".toList ++ y with
      | nil => exact absurd hq this
      | cons c q =>
        rw [hq] at hi
        simp only [List.cons_append, List.cons.injEq] at hi
        rw [hi.1]; rfl
    cases hn with
    | bare hi => exact hne _ hz
    | bracketed hi => exact hne _ hz
    | other _ hno => exact hno ⟨x, y ++ z, by rw [← hz]; simp⟩
  exact fromStr_at W n' s' (hsep _ (by decide) ⟨"http".toList, [], by decide⟩ (by decide))
    (hsep _ (by decide) ⟨"https".toList, [], by decide⟩ (by decide))

/-- C171 (part): of a node alone, the shape is the start of the schema. -/
theorem C171_start_partial (L : Lib) (hL : Ascii L) (W : Load.World) (a n b n' : Str) (ha : Blank L a) (hb : Blank L b) (hn : Term L n n')
    (strict : Option Bool) (hst : strict ≠ some true) :
    loaded L W ⟨none, some (a ++ n ++ b), none, strict⟩ = some (.str (n' ++ '@' :: "START".toList)) := by
  have hs : Term L "START".toList "START".toList := by
    have hg : ∀ c ∈ "START".toList, 33 ≤ c.toNat ∧ c.toNat < 127 := by decide
    refine .other (trimmed_of_ws fun c hc => hL.graphic c (hg c hc).1 (hg c hc).2) ?_
    rw [← hasSep_iff]
    decide
  have h := C171_shape_partial L hL W a n b [] "START".toList [] n' "START".toList ha hb (by simp [Blank]) (by simp [Blank]) hn hs strict hst
  have hm : normalize L ([] ++ "START".toList ++ []) (strict.getD false) = "START".toList := by
    have h0 : strict.getD false = false := by
      cases strict with
      | none => rfl
      | some x => cases x with
        | false => rfl
        | true => exact absurd rfl hst
    rw [h0]
    exact normalize_term hL [] _ [] _ (by simp [Blank]) (by simp [Blank]) hs
  unfold loaded effective at h ⊢
  simp only [hm] at h
  exact h

theorem absolute_alice : Absolute asciiLib "http://e/alice".toList :=
  ⟨"http".toList, "e/alice".toList, by decide, by decide, by decide, by decide⟩

example : loaded asciiLib ⟨fun _ => true, fun _ => false, fun _ => true⟩ ⟨none, some " http://e/alice\n".toList, some ":Person".toList, none⟩ =
    some (.str "<http://e/alice>@:Person".toList) := by rfl

example : Term asciiLib "http://e/alice".toList "<http://e/alice>".toList ∧ Term asciiLib ":Person".toList ":Person".toList ∧
    Blank asciiLib " ".toList := by
  refine ⟨.bare absolute_alice, .other (trimmed_of_ws (by decide)) ?_, ?_⟩
  · rw [← hasSep_iff]; decide
  · unfold Blank; decide

/-- C171: a shape map that is given is used, whatever node and shape are; without one and without a node there is an error. -/
theorem C171_given (L : Lib) (W : Load.World) (r : Request) :
    (∀ m, r.shapemap = some m → loaded L W r = Load.fromStr W m) ∧ (r.shapemap = none → r.node = none → loaded L W r = none) := by
  obtain ⟨m, n, s, x⟩ := r
  refine ⟨?_, ?_⟩
  · rintro m' rfl
    rfl
  · rintro rfl rfl
    rfl

/-- C171, as a whole, fails: with strict IRIs, of a node without brackets there is no error of syntax; the shape map is read from the
network, at the address of the node with the sign and the shape at its end. -/
theorem C171_strict_refuted (L : Lib) (hL : Ascii L) (W : Load.World) (i s : Str) (h : Absolute L ("http://".toList ++ i))
    (hu : W.urlOk ("http://".toList ++ i ++ '@' :: Prefix.trim L.ws s) = true) :
    loaded L W ⟨none, some ("http://".toList ++ i), some s, some true⟩ =
      some (.url ("http://".toList ++ i ++ '@' :: Prefix.trim L.ws s)) := by
  have hn := normalize_strict (L := L) [] ("http://".toList ++ i) [] (by simp [Blank]) (by simp [Blank])
    (trimmed_of_ws (absolute_ws hL h))
  have hs : normalize L s true = Prefix.trim L.ws s := rfl
  have hp : "http://".toList.isPrefixOf ("http://".toList ++ i ++ '@' :: Prefix.trim L.ws s) = true := by
    rw [List.isPrefixOf_iff_prefix, List.append_assoc]
    exact List.prefix_append _ _
  rw [List.nil_append, List.append_nil] at hn
  unfold loaded effective
  simp only [Option.getD_some, hn, hs]
  unfold Load.fromStr
  have h0 : ¬("http://".toList ++ i ++ '@' :: Prefix.trim L.ws s).isEmpty = true := by simp
  have h1 : "http://".toList ++ i ++ '@' :: Prefix.trim L.ws s ≠ ['-'] := by
    intro h
    have := congrArg List.length h
    simp at this
  rw [if_neg h0, if_neg h1, if_pos hp, if_pos hu]

example : loaded asciiLib ⟨fun _ => false, fun _ => false, fun _ => true⟩ ⟨none, some "http://e/alice".toList, some ":S".toList, some true⟩ =
    some (.url "http://e/alice@:S".toList) := by rfl

/-- C171, as a whole, fails: a literal that has an IRI in it is taken for an IRI. -/
theorem C171_literal_refuted (L : Lib) (hL : Ascii L) (W : Load.World) :
    loaded L W ⟨none, some "\"http://e/\"".toList, none, none⟩ = some (.str "<\"http://e/\">@START".toList) := by
  have hg : ∀ c ∈ "\"http://e/\"".toList, 33 ≤ c.toNat ∧ c.toNat < 127 := by decide
  have ht : Prefix.trim L.ws "\"http://e/\"".toList = "\"http://e/\"".toList := by
    have := trim_blank L [] "\"http://e/\"".toList [] (by simp [Blank]) (by simp [Blank])
      (trimmed_of_ws fun c hc => hL.graphic c (hg c hc).1 (hg c hc).2)
    rwa [List.nil_append, List.append_nil] at this
  have he : normalize L "\"http://e/\"".toList false = "<\"http://e/\">".toList := by
    unfold normalize
    rw [ht]
    decide
  have h2 : "<\"http://e/\">@START".toList = "<\"http://e/\">".toList ++ '@' :: "START".toList := by decide
  have h3 : "@START".toList = '@' :: "START".toList := by decide
  unfold loaded effective
  simp only [Option.getD_none, he]
  rw [h2, h3]
  exact fromStr_at W _ _ (by decide) (by decide)

/-- C171 (part): of a shape map that was made of a node, the summary says what it is. What is missing: maps that were given
(`C171_summary_refuted`). -/
theorem C171_summary_partial (L : Lib) (W : Load.World) (r : Request) (h : r.shapemap = none) (t : Str) (ht : loaded L W r = some (.str t)) :
    saysGenerated L r = some t := by
  have hf : ∀ m, Load.fromStr W m = some (.str t) → m = t := by
    intro m hm
    unfold Load.fromStr at hm
    repeat' split at hm
    all_goals cases hm
    rfl
  obtain ⟨m, n, s, x⟩ := r
  cases h
  cases n with
  | none => exact absurd ht (by simp [loaded, effective])
  | some n =>
    unfold saysGenerated
    rw [if_pos (by simp)]
    unfold loaded at ht
    split at ht
    · cases ht
    · rename_i m hm
      rw [hm, hf m ht]

example : saysGenerated asciiLib ⟨none, some "_:b".toList, none, none⟩ = some "_:b@START".toList := by rfl

/-- C171, as a whole, fails: the summary says of a shape map that was given that it was generated, if there is also a node. -/
theorem C171_summary_refuted (L : Lib) (m n : Str) (s : Option Str) (x : Option Bool) : saysGenerated L ⟨some m, some n, s, x⟩ = some m := by
  rfl

end Mcp.Mapping
