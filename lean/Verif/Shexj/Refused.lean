import Verif.Shexj.Whole

/-!
# Lemmas: schemas that are written but not read
-/

namespace Shexj

open Shexc
open Shexc.Pp (showInt)

/-! ## Two facets of a kind -/

/-- The field that the facets of a kind are written to. -/
def rankKey : Nat → String
  | 0 => "pattern"
  | 1 => "length"
  | 2 => "minlength"
  | 3 => "maxlength"
  | 4 => "mininclusive"
  | 5 => "maxinclusive"
  | 6 => "minexclusive"
  | 7 => "maxexclusive"
  | 8 => "totaldigits"
  | _ => "fractiondigits"

theorem vals_own (X : Ext) (f : Facet) : 1 ≤ (vals (rankKey (Facet.rank f)) (facetFields X f)).length := by
  cases f <;> simp [facetFields, vals_cons, vals_nil, vals_field, vals_append, Facet.rank, rankKey]

theorem vals_count (X : Ext) (i : Nat) (fs : List Facet) :
    (fs.map Facet.rank).count i ≤ (vals (rankKey i) (fs.flatMap (facetFields X))).length := by
  induction fs with
  | nil => simp
  | cons f fs ih =>
    rw [List.map_cons, List.count_cons, List.flatMap_cons, vals_append, List.length_append]
    by_cases h : Facet.rank f = i
    · have := vals_own X f
      rw [h] at this
      simp only [h, beq_self_eq_true, if_true]
      omega
    · simp only [beq_iff_eq, h, if_false]
      omega

theorem may_none {α : Type} {k : String} {fs : Fields} {f : Json → Option α} (h : 2 ≤ (vals k fs).length) : may k fs f = none := by
  have : one k fs = none := by
    unfold one
    match hv : vals k fs with
    | [] => rw [hv] at h; simp at h
    | [j] => rw [hv] at h; simp at h
    | _ :: _ :: _ => rfl
  rw [may, this]
  rfl

theorem readNC_keys {X : Ext} {gs : Fields} {c : NC} (h : readNC X gs = some c) (i : Nat) : (vals (rankKey i) gs).length < 2 := by
  by_contra hc
  have hc : 2 ≤ (vals (rankKey i) gs).length := by omega
  unfold readNC at h
  split at h
  · simp only [Option.bind_eq_bind, Option.bind_eq_some_iff] at h
    obtain ⟨_, -, _, -, _, -, _, p, _, -, _, l, _, ml, _, xl, _, mi, _, xi, _, me, _, xe, _, td, _, fd, -⟩ := h
    unfold rankKey at hc
    split at hc
    · rw [may_none hc] at p; cases p
    · rw [may_none hc] at l; cases l
    · rw [may_none hc] at ml; cases ml
    · rw [may_none hc] at xl; cases xl
    · rw [may_none hc] at mi; cases mi
    · rw [may_none hc] at xi; cases xi
    · rw [may_none hc] at me; cases me
    · rw [may_none hc] at xe; cases xe
    · rw [may_none hc] at td; cases td
    · rw [may_none hc] at fd; cases fd
  · cases h

theorem rankKey_ne (i : Nat) : rankKey i ≠ "type" ∧ rankKey i ≠ "nodeKind" ∧ rankKey i ≠ "datatype" ∧ rankKey i ≠ "values" := by
  unfold rankKey
  split <;> decide

theorem readNC_twice {X : Ext} {c : NC} {fs : List Facet} (hf : c.facets = some fs) (hd : ¬ (fs.map Facet.rank).Nodup)
    {gs : Fields} (hg : ∀ k, k ≠ "type" → vals k gs = vals k (ncFields X c)) : readNC X gs = none := by
  cases h : readNC X gs with
  | none => rfl
  | some r =>
    exfalso
    rw [List.nodup_iff_count_le_one] at hd
    simp only [not_forall, Nat.not_le] at hd
    obtain ⟨i, hi⟩ := hd
    obtain ⟨a, b, d, e⟩ := rankKey_ne i
    have h1 := readNC_keys h i
    rw [hg _ a, ncFields, hf] at h1
    have h2 := vals_count X i fs
    simp only [vals_append, vals_field, Ne.symm b, Ne.symm d, Ne.symm e, if_false, List.nil_append, Option.getD_some] at h1
    omega

theorem readSE_nc {X : Ext} {c : NC} (n : Nat) : readSE X (n + 1) (writeSE X (.nc c)) =
    (readNC X (untag (("type", .lit "NodeConstraint") :: ncFields X c))).map .nc := by
  rw [writeSE, tagged, readSE, req_type (vals_type_nc X c)]
  simp only [Option.bind_eq_bind, Option.bind_some]
  rw [if_neg (by decide), if_neg (by decide), if_neg (by decide), if_pos trivial]

/-! ## Ranges without exclusions -/

theorem readValue_null {X : Ext} {t : String} {j : Json} :
    readValue X (.obj [("type", .lit t), ("stem", j), ("exclusions", .null)]) = none := by
  have h : may "exclusions" [("type", Json.lit t), ("stem", j), ("exclusions", .null)] (readVec (readExcl X)) = none := by
    rw [may, one_of (o := some .null) (by simp [vals_cons, vals_nil])]
    rfl
  rw [readValue]
  split
  · rw [h]
    simp
  · rfl

/-! ## Nesting -/

/-- An expression negated some times. -/
def nots (e : SE) : Nat → SE
  | 0 => e
  | n + 1 => .not (nots e n)

theorem nots_depth (X : Ext) (e : SE) (n : Nat) : n ≤ (writeSE X (nots e n)).depth := by
  induction n with
  | zero => exact Nat.zero_le _
  | succ n ih =>
    have hd := depth_lt_obj (fs := [("type", .lit "ShapeNot"), ("shapeExpr", writeSE X (nots e n))])
      (k := "shapeExpr") (j := writeSE X (nots e n)) (by simp [vals_cons, vals_nil])
    rw [nots, writeSE, tagged]
    omega

theorem start_depth {X : Ext} {s : Sch} {e : SE} (h : s.start = some e) : (writeSE X e).depth < (writeSch X s).depth := by
  rw [writeSch]
  refine depth_lt_obj (k := "start") ?_
  rw [h]
  simp [vals_append, vals_field, vals_cons, vals_nil, writeSEO]

/-! ## Blank nodes in IRIs -/

theorem blank_first {a b : Str} (h : NoBlank (a ++ ['_'])) : blank (a ++ '_' :: ':' :: b) = some (line b) := by
  induction a with
  | nil => rw [List.nil_append, blank, if_pos ⟨rfl, rfl⟩]; rfl
  | cons c a ih =>
    have h' : NoBlank (a ++ ['_']) := by
      intro hc
      exact h (hc.trans (List.suffix_cons c (a ++ ['_'])).isInfix)
    rw [List.cons_append, blank, if_neg, ih h']
    rintro ⟨h1, h2⟩
    apply h
    subst h1
    cases a with
    | nil => simp at h2
    | cons d a =>
      simp only [List.cons_append, List.head?_cons, Option.some.injEq] at h2
      subst h2
      exact ⟨[], a ++ ['_'], by simp⟩

end Shexj
