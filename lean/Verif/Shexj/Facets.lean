import Verif.Shexj.Values
import Mathlib.Data.List.Perm.Basic

/-!
# Lemmas: facets and node constraints written and read back
-/

namespace Shexj

open Shexc

/-! ## Facets in the order of their kinds -/

theorem filter_below_perm (fs : List Facet) (n : Nat) :
    ((List.range n).flatMap fun i => fs.filter fun f => Facet.rank f == i).Perm
      (fs.filter fun f => decide (Facet.rank f < n)) := by
  induction n with
  | zero => simp
  | succ n ih =>
    rw [List.range_succ, List.flatMap_append]
    simp only [List.flatMap_cons, List.flatMap_nil, List.append_nil]
    refine (ih.append_right _).trans ?_
    have key := List.filter_append_perm (fun f => decide (Facet.rank f < n))
      (fs.filter fun f => decide (Facet.rank f < n + 1))
    rw [List.filter_filter, List.filter_filter] at key
    have e1 : (fs.filter fun f => decide (Facet.rank f < n) && decide (Facet.rank f < n + 1)) =
        fs.filter fun f => decide (Facet.rank f < n) := by
      apply List.filter_congr
      intro f _
      by_cases h : Facet.rank f < n
      · have : Facet.rank f < n + 1 := by omega
        simp [h, this]
      · simp [h]
    have e2 : (fs.filter fun f => (!decide (Facet.rank f < n)) && decide (Facet.rank f < n + 1)) =
        fs.filter fun f => Facet.rank f == n := by
      apply List.filter_congr
      intro f _
      by_cases h : Facet.rank f = n
      · simp [h]
      · by_cases h1 : Facet.rank f < n
        · simp [h, h1]
        · have : ¬ Facet.rank f < n + 1 := by omega
          simp [h, this]
    rw [e1, e2] at key
    exact key

theorem rank_lt (f : Facet) : Facet.rank f < 10 := by
  cases f <;> simp [Facet.rank]

/-- No facet is lost and none is added. -/
theorem sortFacets_perm (fs : List Facet) : (sortFacets fs).Perm fs := by
  have h := filter_below_perm fs 10
  rw [List.filter_eq_self.2 (by intro f _; simp [rank_lt f])] at h
  exact h

theorem sortFacets_parts (fs : List Facet) : sortFacets fs = (fs.filter fun f => Facet.rank f == 0) ++
    (fs.filter fun f => Facet.rank f == 1) ++ (fs.filter fun f => Facet.rank f == 2) ++
    (fs.filter fun f => Facet.rank f == 3) ++ (fs.filter fun f => Facet.rank f == 4) ++
    (fs.filter fun f => Facet.rank f == 5) ++ (fs.filter fun f => Facet.rank f == 6) ++
    (fs.filter fun f => Facet.rank f == 7) ++ (fs.filter fun f => Facet.rank f == 8) ++
    (fs.filter fun f => Facet.rank f == 9) := by
  have : List.range 10 = [0, 1, 2, 3, 4, 5, 6, 7, 8, 9] := by decide
  rw [sortFacets, this]
  simp only [List.flatMap_cons, List.flatMap_nil, List.append_nil, List.append_assoc]

/-! ## The facet of a kind -/

/-- The first facet of a kind. -/
def pick {α : Type} (get : Facet → Option α) (fs : List Facet) : Option α := (fs.filterMap get).head?

/-- `get` picks the facets made by `mk`, which are those of kind `i`. -/
structure Picks {α : Type} (mk : α → Facet) (get : Facet → Option α) (i : Nat) : Prop where
  made : ∀ f a, get f = some a → f = mk a
  kind : ∀ f, Facet.rank f = i ↔ (get f).isSome = true

theorem filterMap_nil {α : Type} {mk : α → Facet} {get : Facet → Option α} {i : Nat} (h : Picks mk get i) {fs : List Facet}
    (hn : i ∉ fs.map Facet.rank) : fs.filterMap get = [] := by
  rw [List.filterMap_eq_nil_iff]
  intro f hf
  cases hg : get f with
  | none => rfl
  | some a =>
    exact (hn (List.mem_map.2 ⟨f, hf, (h.kind f).2 (by simp [hg])⟩)).elim

theorem filterMap_pick {α : Type} {mk : α → Facet} {get : Facet → Option α} {i : Nat} (h : Picks mk get i) {fs : List Facet}
    (hd : (fs.map Facet.rank).Nodup) : fs.filterMap get = (pick get fs).toList := by
  induction fs with
  | nil => rfl
  | cons f fs ih =>
    rw [List.map_cons, List.nodup_cons] at hd
    cases hg : get f with
    | none =>
      rw [pick, List.filterMap_cons_none hg]
      exact ih hd.2
    | some a =>
      have hr : Facet.rank f = i := (h.kind f).2 (by simp [hg])
      have := filterMap_nil h (fs := fs) (hr ▸ hd.1)
      rw [pick, List.filterMap_cons_some hg, this]
      rfl

theorem pick_mem {α : Type} {mk : α → Facet} {get : Facet → Option α} {i : Nat} (h : Picks mk get i) {fs : List Facet} {a : α}
    (hp : pick get fs = some a) : mk a ∈ fs := by
  have : a ∈ fs.filterMap get := List.mem_of_mem_head? (by rw [pick] at hp; simp [hp])
  obtain ⟨f, hf, hg⟩ := List.mem_filterMap.1 this
  rw [← h.made f a hg]
  exact hf

theorem facetOf_pick {α : Type} {mk : α → Facet} {get : Facet → Option α} {i : Nat} (h : Picks mk get i) {fs : List Facet}
    (hd : (fs.map Facet.rank).Nodup) : facetOf mk (pick get fs) = fs.filter fun f => Facet.rank f == i := by
  rw [facetOf, ← filterMap_pick h hd]
  clear hd
  induction fs with
  | nil => rfl
  | cons f fs ih =>
    rw [List.filter_cons]
    cases hg : get f with
    | none =>
      have : ¬ Facet.rank f = i := by rw [h.kind f]; simp [hg]
      rw [List.filterMap_cons_none hg, ih]
      simp [this]
    | some a =>
      have : Facet.rank f = i := (h.kind f).2 (by simp [hg])
      rw [List.filterMap_cons_some hg, List.map_cons, ih, h.made f a hg]
      rw [h.made f a hg] at this
      simp [this]

theorem vals_facets {X : Ext} {α : Type} {mk : α → Facet} {get : Facet → Option α} {i : Nat} (h : Picks mk get i)
    {k : String} {w : α → Option Json} (hv : ∀ f, vals k (facetFields X f) = ((get f).bind w).toList) {fs : List Facet}
    (hd : (fs.map Facet.rank).Nodup) : vals k (fs.flatMap (facetFields X)) = ((pick get fs).bind w).toList := by
  have e : vals k (fs.flatMap (facetFields X)) = (fs.filterMap get).flatMap fun a => (w a).toList := by
    clear hd
    induction fs with
    | nil => rfl
    | cons f fs ih =>
      rw [List.flatMap_cons, vals_append, ih, hv]
      cases hg : get f with
      | none => rw [List.filterMap_cons_none hg]; rfl
      | some a => rw [List.filterMap_cons_some hg]; rfl
  rw [e, filterMap_pick h hd]
  cases pick get fs <;> simp

theorem vals_other {X : Ext} {k : String} (hv : ∀ f, vals k (facetFields X f) = []) (fs : List Facet) :
    vals k (fs.flatMap (facetFields X)) = [] := by
  induction fs with
  | nil => rfl
  | cons f fs ih => rw [List.flatMap_cons, vals_append, ih, hv]; rfl

theorem known_facets (X : Ext) (fs : List Facet) : known ncKeys (fs.flatMap (facetFields X)) = true := by
  induction fs with
  | nil => rfl
  | cons f fs ih =>
    rw [List.flatMap_cons, known_append, ih, Bool.and_true]
    cases f with
    | pattern s fl =>
      rw [facetFields, known_append, known_field _ (by decide)]
      rfl
    | _ => rfl

def getPattern : Facet → Option (Str × Option Str)
  | .pattern s fl => some (s, fl)
  | _ => none
def getLength : Facet → Option Nat
  | .length n => some n
  | _ => none
def getMinLength : Facet → Option Nat
  | .minLength n => some n
  | _ => none
def getMaxLength : Facet → Option Nat
  | .maxLength n => some n
  | _ => none
def getMinInc : Facet → Option Num
  | .minInc n => some n
  | _ => none
def getMaxInc : Facet → Option Num
  | .maxInc n => some n
  | _ => none
def getMinExc : Facet → Option Num
  | .minExc n => some n
  | _ => none
def getMaxExc : Facet → Option Num
  | .maxExc n => some n
  | _ => none
def getTotal : Facet → Option Nat
  | .totalDigits n => some n
  | _ => none
def getFraction : Facet → Option Nat
  | .fractionDigits n => some n
  | _ => none

theorem picksPattern : Picks (fun p : Str × Option Str => .pattern p.1 p.2) getPattern 0 :=
  ⟨by intro f a h; cases f <;> simp_all [getPattern]; rw [← h]; exact ⟨rfl, rfl⟩, by intro f; cases f <;> simp [getPattern, Facet.rank]⟩
theorem picksLength : Picks .length getLength 1 :=
  ⟨by intro f a h; cases f <;> simp_all [getLength], by intro f; cases f <;> simp [getLength, Facet.rank]⟩
theorem picksMinLength : Picks .minLength getMinLength 2 :=
  ⟨by intro f a h; cases f <;> simp_all [getMinLength], by intro f; cases f <;> simp [getMinLength, Facet.rank]⟩
theorem picksMaxLength : Picks .maxLength getMaxLength 3 :=
  ⟨by intro f a h; cases f <;> simp_all [getMaxLength], by intro f; cases f <;> simp [getMaxLength, Facet.rank]⟩
theorem picksMinInc : Picks .minInc getMinInc 4 :=
  ⟨by intro f a h; cases f <;> simp_all [getMinInc], by intro f; cases f <;> simp [getMinInc, Facet.rank]⟩
theorem picksMaxInc : Picks .maxInc getMaxInc 5 :=
  ⟨by intro f a h; cases f <;> simp_all [getMaxInc], by intro f; cases f <;> simp [getMaxInc, Facet.rank]⟩
theorem picksMinExc : Picks .minExc getMinExc 6 :=
  ⟨by intro f a h; cases f <;> simp_all [getMinExc], by intro f; cases f <;> simp [getMinExc, Facet.rank]⟩
theorem picksMaxExc : Picks .maxExc getMaxExc 7 :=
  ⟨by intro f a h; cases f <;> simp_all [getMaxExc], by intro f; cases f <;> simp [getMaxExc, Facet.rank]⟩
theorem picksTotal : Picks .totalDigits getTotal 8 :=
  ⟨by intro f a h; cases f <;> simp_all [getTotal], by intro f; cases f <;> simp [getTotal, Facet.rank]⟩
theorem picksFraction : Picks .fractionDigits getFraction 9 :=
  ⟨by intro f a h; cases f <;> simp_all [getFraction], by intro f; cases f <;> simp [getFraction, Facet.rank]⟩

/-! ## Node constraints -/

theorem readKind_ok (k : Kind) : readKind (.lit (kindText k)) = some k := by
  cases k <;> decide

/-- A facet is read from the fields of a node constraint. -/
theorem may_facet {X : Ext} {α : Type} {mk : α → Facet} {get : Facet → Option α} {i : Nat} (h : Picks mk get i) {k : String}
    {w : α → Json} {rd : Json → Option α} (hv : ∀ f, vals k (facetFields X f) = ((get f).map w).toList) {fs : List Facet}
    {gs : Fields} (hg : vals k gs = vals k (fs.flatMap (facetFields X))) (hd : (fs.map Facet.rank).Nodup)
    (hr : ∀ a, mk a ∈ fs → rd (w a) = some a) : may k gs rd = some (pick get fs) := by
  have := may_of (c := fun a => a) (o := pick get fs) (w := w) (f := rd) (k := k) (fs := gs)
    (by rw [hg, vals_facets h (w := fun a => some (w a)) (by intro f; rw [hv]; cases get f <;> rfl) hd]
        cases pick get fs <;> rfl)
    (fun a ha => hr a (pick_mem h ha))
  rw [this]
  simp

theorem readNC_ok {X : Ext} {c : NC} (h : NCOk X c) {gs : Fields} (hk : known ncKeys gs = true)
    (hg : ∀ k, k ≠ "type" → vals k gs = vals k (ncFields X c)) : readNC X gs = some (NC.back c) := by
  obtain ⟨h1, h2, h3⟩ := h
  have hd : ((c.facets.getD []).map Facet.rank).Nodup := by
    cases hf : c.facets with
    | none => simp
    | some fs => exact (h3 fs hf).1
  have ho : ∀ f ∈ c.facets.getD [], FacetOk X f := by
    cases hf : c.facets with
    | none => simp
    | some fs => exact (h3 fs hf).2
  have hfs : ∀ k, k ≠ "type" → k ≠ "nodeKind" → k ≠ "datatype" → k ≠ "values" →
      vals k gs = vals k ((c.facets.getD []).flatMap (facetFields X)) := by
    intro k a b d e
    rw [hg k a, ncFields]
    simp [vals_append, vals_field, Ne.symm b, Ne.symm d, Ne.symm e]
  have e1 : may "nodeKind" gs readKind = some (c.kind.map id) := by
    refine may_of (w := fun k => .lit (kindText k)) ?_ fun a _ => readKind_ok a
    rw [hg _ (by decide), ncFields, vals_append, vals_other (by
      intro f; cases f <;> simp [facetFields, vals_cons, vals_nil, vals_field])]
    simp [vals_append, vals_field]
  have e2 : may "datatype" gs (readRef X) = some (c.datatype.map id) := by
    refine may_of (w := writeRef) ?_ fun a ha => readRef_ok (h1 a ha)
    rw [hg _ (by decide), ncFields, vals_append, vals_other (by
      intro f; cases f <;> simp [facetFields, vals_cons, vals_nil, vals_field])]
    simp [vals_append, vals_field]
  have e3 : may "values" gs (readVec (readValue X)) = some (c.values.map id) := by
    refine may_of (w := writeVec writeValue) ?_ fun a ha => readVec_id fun v hv => readValue_ok (h2 a ha v hv)
    rw [hg _ (by decide), ncFields, vals_append, vals_other (by
      intro f; cases f <;> simp [facetFields, vals_cons, vals_nil, vals_field])]
    simp [vals_append, vals_field]
  have hback : NC.back c = NC.mk c.kind c.datatype
      (if sortFacets (c.facets.getD []) = [] then none else some (sortFacets (c.facets.getD []))) c.values := by
    rw [NC.back]
    cases hf : c.facets with
    | none => rfl
    | some fs =>
      cases fs with
      | nil => rfl
      | cons f fs =>
        rw [Option.getD_some, if_neg]
        intro he
        have := (sortFacets_perm (f :: fs)).length_eq
        rw [he] at this
        simp at this
  generalize c.facets.getD [] = fs at hd ho hfs hback
  have e4 : may "pattern" gs readStr = some ((pick getPattern fs).map fun p => p.1) := by
    refine may_of (w := fun p : Str × Option Str => .str p.1) ?_ fun a _ => rfl
    rw [hfs _ (by decide) (by decide) (by decide) (by decide), vals_facets picksPattern (w := fun p => some (.str p.1)) (by
      intro f; cases f <;> simp [facetFields, vals_cons, vals_nil, vals_field, vals_append, getPattern]) hd]
    cases pick getPattern fs <;> rfl
  have e5 : may "flags" gs readStr = some (((pick getPattern fs).bind fun p => p.2).map id) := by
    refine may_of (w := .str) ?_ fun a _ => rfl
    rw [hfs _ (by decide) (by decide) (by decide) (by decide), vals_facets picksPattern (w := fun p => p.2.map .str) (by
      intro f; cases f <;> simp [facetFields, vals_cons, vals_nil, vals_field, vals_append, getPattern]) hd]
    cases pick getPattern fs <;> rfl
  have e6 : may "length" gs readUsize = some (pick getLength fs) :=
    may_facet picksLength (w := fun n => .int n) (by
      intro f; cases f <;> simp [facetFields, vals_cons, vals_nil, vals_field, vals_append, getLength])
      (hfs _ (by decide) (by decide) (by decide) (by decide)) hd fun a ha => readUsize_ok (facet_u64.1 (ho _ ha))
  have e7 : may "minlength" gs readUsize = some (pick getMinLength fs) :=
    may_facet picksMinLength (w := fun n => .int n) (by
      intro f; cases f <;> simp [facetFields, vals_cons, vals_nil, vals_field, vals_append, getMinLength])
      (hfs _ (by decide) (by decide) (by decide) (by decide)) hd fun a ha => readUsize_ok (facet_u64.2.1 (ho _ ha))
  have e8 : may "maxlength" gs readUsize = some (pick getMaxLength fs) :=
    may_facet picksMaxLength (w := fun n => .int n) (by
      intro f; cases f <;> simp [facetFields, vals_cons, vals_nil, vals_field, vals_append, getMaxLength])
      (hfs _ (by decide) (by decide) (by decide) (by decide)) hd fun a ha => readUsize_ok (facet_u64.2.2.1 (ho _ ha))
  have e9 : may "mininclusive" gs X.numR = some (pick getMinInc fs) :=
    may_facet picksMinInc (w := X.numW) (by
      intro f; cases f <;> simp [facetFields, vals_cons, vals_nil, vals_field, vals_append, getMinInc])
      (hfs _ (by decide) (by decide) (by decide) (by decide)) hd fun a ha => ho _ ha
  have e10 : may "maxinclusive" gs X.numR = some (pick getMaxInc fs) :=
    may_facet picksMaxInc (w := X.numW) (by
      intro f; cases f <;> simp [facetFields, vals_cons, vals_nil, vals_field, vals_append, getMaxInc])
      (hfs _ (by decide) (by decide) (by decide) (by decide)) hd fun a ha => ho _ ha
  have e11 : may "minexclusive" gs X.numR = some (pick getMinExc fs) :=
    may_facet picksMinExc (w := X.numW) (by
      intro f; cases f <;> simp [facetFields, vals_cons, vals_nil, vals_field, vals_append, getMinExc])
      (hfs _ (by decide) (by decide) (by decide) (by decide)) hd fun a ha => ho _ ha
  have e12 : may "maxexclusive" gs X.numR = some (pick getMaxExc fs) :=
    may_facet picksMaxExc (w := X.numW) (by
      intro f; cases f <;> simp [facetFields, vals_cons, vals_nil, vals_field, vals_append, getMaxExc])
      (hfs _ (by decide) (by decide) (by decide) (by decide)) hd fun a ha => ho _ ha
  have e13 : may "totaldigits" gs readUsize = some (pick getTotal fs) :=
    may_facet picksTotal (w := fun n => .int n) (by
      intro f; cases f <;> simp [facetFields, vals_cons, vals_nil, vals_field, vals_append, getTotal])
      (hfs _ (by decide) (by decide) (by decide) (by decide)) hd fun a ha => readUsize_ok (facet_u64.2.2.2.1 (ho _ ha))
  have e14 : may "fractiondigits" gs readUsize = some (pick getFraction fs) :=
    may_facet picksFraction (w := fun n => .int n) (by
      intro f; cases f <;> simp [facetFields, vals_cons, vals_nil, vals_field, vals_append, getFraction])
      (hfs _ (by decide) (by decide) (by decide) (by decide)) hd fun a ha => readUsize_ok (facet_u64.2.2.2.2 (ho _ ha))
  have ep : facetOf (fun p => .pattern p (((pick getPattern fs).bind fun p => p.2).map id))
      ((pick getPattern fs).map fun p => p.1) = fs.filter fun f => Facet.rank f == 0 := by
    rw [← facetOf_pick picksPattern hd]
    cases pick getPattern fs <;> simp [facetOf]
  rw [readNC, if_pos hk, e1, e2, e3, e4, e5, e6, e7, e8, e9, e10, e11, e12, e13, e14]
  simp only [Option.bind_eq_bind, Option.bind_some]
  rw [ep, facetOf_pick picksLength hd, facetOf_pick picksMinLength hd, facetOf_pick picksMaxLength hd,
    facetOf_pick picksMinInc hd, facetOf_pick picksMaxInc hd, facetOf_pick picksMinExc hd, facetOf_pick picksMaxExc hd,
    facetOf_pick picksTotal hd, facetOf_pick picksFraction hd, ← sortFacets_parts, hback]
  simp

end Shexj
