import Verif.Mcp.ArcsLemmas
import Verif.Mcp.AskingProps

/-!
# Properties of reading the arcs of a node (C172)
-/

namespace Mcp.Arcs

open Prefix (Str)
open Mcp.Asking (Lib linesFrom linesFrom_unlines unlines asciiLib)
open Mcp.Mapping (Trimmed)

/-- C172 (part): of the text of the arcs of a node, each arc is read, out and in, in order, with its predicate and its other node, and
nothing else is. What is missing: texts of more than one line (`C172_lines_refuted`), and the depth (`C172_depth_partial`). -/
theorem C172_arcs_partial (L : Lib) (hS : Signs L) (root : Str) (outs ins : List Shown) (ho : ∀ a ∈ outs, a.Plain L)
    (hi : ∀ a ∈ ins, a.Plain L) (hr : ∀ c ∈ root, c ≠ '─' ∧ c ≠ '\n') (hc : ':' ∈ root) (hw : L.ws ':' = false) :
    (parse L.ws (text root outs ins)).1.map (fun a => (a.predicate, a.target)) = outs.map (fun a => (a.predicate, a.target)) ∧
    (parse L.ws (text root outs ins)).2.map (fun a => (a.predicate, a.target)) = ins.map (fun a => (a.predicate, a.target)) := by
  rw [parse_text L hS root outs ins ho hi hr hc hw]
  simp

/-- C172 (part): the depth that is read is the number of the levels above, if none of these is the last of its siblings. What is missing:
those that are (`C172_depth_refuted`). -/
theorem C172_depth_partial (L : Lib) (hS : Signs L) (root : Str) (outs ins : List Shown) (ho : ∀ a ∈ outs, a.Plain L)
    (hi : ∀ a ∈ ins, a.Plain L) (hr : ∀ c ∈ root, c ≠ '─' ∧ c ≠ '\n') (hc : ':' ∈ root) (hw : L.ws ':' = false)
    (hao : ∀ a ∈ outs, ∀ b ∈ a.above, b = true) (hai : ∀ a ∈ ins, ∀ b ∈ a.above, b = true) :
    (parse L.ws (text root outs ins)).1.map (·.depth) = outs.map (·.above.length) ∧
    (parse L.ws (text root outs ins)).2.map (·.depth) = ins.map (·.above.length) := by
  rw [parse_text L hS root outs ins ho hi hr hc hw]
  simp only [List.map_map]
  exact ⟨List.map_congr_left fun a ha => depth_line a _ (hao a ha), List.map_congr_left fun a ha => depth_line a _ (hai a ha)⟩

/-- White space of ASCII, and upper case. -/
theorem asciiLib_signs : Signs asciiLib := ⟨rfl, by decide⟩

/-- C172, as a whole, fails: an arc below one that is the last of its siblings is read as an arc of the node itself, whatever its texts,
since three blanks are written and four are looked for. -/
theorem C172_depth_refuted (L : Lib) (hS : Signs L) (root : Str) (p t q u : Str) (h1 : Shown.Plain L ⟨[], true, p, t⟩)
    (h2 : Shown.Plain L ⟨[false], true, q, u⟩) (hr : ∀ c ∈ root, c ≠ '─' ∧ c ≠ '\n') (hc : ':' ∈ root) (hw : L.ws ':' = false) :
    (parse L.ws (text root [⟨[], true, p, t⟩, ⟨[false], true, q, u⟩] [])).1 = [⟨p, t, 0⟩, ⟨q, u, 0⟩] := by
  rw [parse_text L hS root _ [] (by simp [h1, h2]) (by simp) hr hc hw]
  rfl

/-- C172, as a whole, fails: of a literal with two lines only the first is read. -/
theorem C172_lines_refuted : parse asciiLib.ws (text ":a".toList [⟨[], true, ":p".toList, "\"one\ntwo\"".toList⟩] []) =
    ([⟨":p".toList, "\"one".toList, 0⟩], []) := by rfl

/-- C172: what is counted is the number of different texts. -/
theorem C172_distinct (l : List Str) : ∃ s : List Str, s.Nodup ∧ (∀ x, x ∈ s ↔ x ∈ l) ∧ distinct l = s.length := by
  induction l with
  | nil => exact ⟨[], by simp, by simp, rfl⟩
  | cons x l ih =>
    obtain ⟨s, h1, h2, h3⟩ := ih
    by_cases hx : x ∈ l
    · refine ⟨s, h1, fun y => ?_, by simp [distinct, hx, h3]⟩
      rw [h2, List.mem_cons]
      constructor
      · exact .inr
      · rintro (rfl | h)
        · exact hx
        · exact h
    · refine ⟨x :: s, ?_, fun y => by simp [h2], by simp [distinct, hx, h3]⟩
      rw [List.nodup_cons]
      exact ⟨fun h => hx ((h2 x).1 h), h1⟩

example : distinct [":p".toList, ":q".toList, ":p".toList] = 2 := by decide

example : parse asciiLib.ws (text ":a".toList
    [⟨[], false, ":p".toList, ":b".toList⟩, ⟨[true], true, ":q".toList, "\"c d\"".toList⟩, ⟨[], true, ":r".toList, ":b".toList⟩]
    [⟨[], true, ":s".toList, ":e".toList⟩]) =
    ([⟨":p".toList, ":b".toList, 0⟩, ⟨":q".toList, "\"c d\"".toList, 1⟩, ⟨":r".toList, ":b".toList, 0⟩], [⟨":s".toList, ":e".toList, 0⟩]) := by
  rfl

example : Shown.Plain asciiLib ⟨[true], true, ":q".toList, "\"c d\"".toList⟩ where
  pred := by decide
  predTrimmed := Mapping.trimmed_of_ws (by decide)
  predSigns := by decide
  target := by decide
  targetTrimmed := by
    have h1 : "\"c d\"".toList.head? = some '"' := by decide
    have h2 : "\"c d\"".toList.getLast? = some '"' := by decide
    exact ⟨fun c h => by rw [h1] at h; cases h; rfl, fun c h => by rw [h2] at h; cases h; rfl⟩
  targetLine := by decide

end Mcp.Arcs
