import Verif.Shex.LemmasDeps

/-!
# Property C24: negative cycles
-/

namespace Shex
open Rbe Relation

/-- **C24**, no false alarms: a reported schema has a shape that depends on itself through a
negated reference. -/
theorem C24_reported_is_cycle (sch : DepSchema) (hk : (sch.map Prod.fst).Nodup)
    (scc : List (List Nat)) (hs : IsScc (buildDeps sch) scc)
    (h : hasNegCycle (buildDeps sch) scc = true) : NegRefCycle sch := by
  obtain ⟨a, b, he, hr⟩ := (hasNegCycle_iff hs).1 h
  refine ⟨a, b, buildDeps_sound sch hk a b true he, ReflTransGen.mono ?_ _ _ hr⟩
  rintro x y ⟨w, hw⟩
  exact ⟨w, buildDeps_sound sch hk x y w hw⟩

/-- **C24**, no false alarms, for the schemas of the engine: a reported schema has a shape that
depends on itself through a negation. -/
theorem C24_reported_schema {N P : Type} [DecidableEq N] [DecidableEq P] (sch : Schema N P)
    (hk : (sch.shapes.map Prod.fst).Nodup) (hm : ∀ i s, sch.At i (.shape s) → s.expr.Made)
    (rest : ShapeExpr N P → Nat) (refsOf : Shape N P → List Nat) (scc : List (List Nat))
    (hs : IsScc (buildDeps (sch.skel rest refsOf)) scc)
    (h : hasNegCycle (buildDeps (sch.skel rest refsOf)) scc = true) : ¬ NoNegCycle sch := by
  have hk' : ((sch.skel rest refsOf).map Prod.fst).Nodup := by
    simpa [Schema.skel, Function.comp_def] using hk
  obtain ⟨i, r, hr, hc⟩ := C24_reported_is_cycle _ hk' scc hs h
  have hback : DependsOn sch r i := by
    clear hr
    induction hc with
    | refl => exact ReflTransGen.refl
    | tail _ hs ih =>
      obtain ⟨w, hw⟩ := hs
      exact ih.trans (refers_depends hm rest refsOf _ w _ hw).1
  obtain ⟨a, b, h1, h2, h3⟩ := (refers_depends hm rest refsOf i true r hr).2 rfl
  intro hno
  exact hno a b h2 (h3.trans (hback.trans h1))

/-- **C24**, exactness, as far as it holds: when no shape contains references of both polarities to
the same shape, a schema is reported exactly when some shape depends on itself through a negated
plain reference. Missing from the full statement: shapes with references of both polarities
(`C24_refuted_both_polarities`, `C24_refuted_equal_contents`), references that carry semantic actions
(`C24_refuted_reference_with_action`) and dependencies through EXTENDS (`C24_refuted_extends`). -/
theorem C24_negative_cycle_iff_partial (sch : DepSchema) (hk : (sch.map Prod.fst).Nodup)
    (hp : OnePolarity sch) (scc : List (List Nat)) (hs : IsScc (buildDeps sch) scc) :
    hasNegCycle (buildDeps sch) scc = true ↔ NegRefCycle sch := by
  refine ⟨C24_reported_is_cycle sch hk scc hs, ?_⟩
  rintro ⟨i, r, hr, hc⟩
  refine (hasNegCycle_iff hs).2 ⟨i, r, ?_, ReflTransGen.mono ?_ _ _ hc⟩
  · obtain ⟨w, hw⟩ := buildDeps_complete sch i r true hr
    cases w with
    | true => exact hw
    | false => exact (hp i r ⟨buildDeps_sound sch hk i r false hw, hr⟩).elim
  · rintro x y ⟨w, hw⟩
    exact buildDeps_complete sch x y w hw

/-! ## Cases -/

/-- `<0> @<1> AND NOT { :p @<2> }`, `<2> { :q @<0> }`: operands have the indices 3, 4, 5. -/
def exNeg : DepSchema :=
  [(0, .and [3, 4]), (1, .other 0), (2, .shape [0] [] [] 1), (3, .ref 1), (4, .not 5),
    (5, .shape [2] [] [] 2)]

theorem exNeg_deps : buildDeps exNeg =
    [((0, 1), false), ((0, 2), true), ((2, 0), false), ((3, 1), false), ((4, 2), true),
      ((5, 2), false)] := by decide

/-- The hypotheses are met, and the cycle through the negation is reported. -/
example : (exNeg.map Prod.fst).Nodup ∧ OnePolarity exNeg ∧
    IsScc (buildDeps exNeg) [[1], [0, 2], [3], [4], [5]] ∧
    hasNegCycle (buildDeps exNeg) [[1], [0, 2], [3], [4], [5]] = true := by
  refine ⟨by decide, ?_, ?_, by decide⟩
  · rintro i r ⟨h1, h2⟩
    obtain ⟨w, hw⟩ := buildDeps_complete exNeg i r false h1
    -- every walk is checked through the edges it leaves
    have hall : ∀ i neg r, Refers exNeg i neg r → ((i, r), neg) ∈ buildDeps exNeg := by
      rintro i neg r ⟨c0, c, hi, hw, hr⟩
      have hstep : ∀ x : Bool × Skel, ReflTransGen (SkelStep exNeg) (false, c0) x →
          x = (false, c0) ∨ (c0 = .and [3, 4] ∧ (x = (false, .ref 1) ∨ x = (false, .not 5) ∨
            x = (true, .shape [2] [] [] 2))) ∨ (c0 = .not 5 ∧ x = (true, .shape [2] [] [] 2)) := by
        intro x hx
        induction hx with
        | refl => exact Or.inl rfl
        | tail _ hs ih =>
          rename_i y z _
          rcases ih with rfl | ⟨h0, rfl | rfl | rfl⟩ | ⟨h0, rfl⟩
          · have hm := mem_of_alookup hi
            simp only [exNeg, List.mem_cons, Prod.mk.injEq, List.not_mem_nil, or_false] at hm
            rcases hm with ⟨_, rfl⟩ | ⟨_, rfl⟩ | ⟨_, rfl⟩ | ⟨_, rfl⟩ | ⟨_, rfl⟩ | ⟨_, rfl⟩
            · cases hs with
              | and he hc =>
                simp only [List.mem_cons, List.not_mem_nil, or_false] at he
                rcases he with rfl | rfl <;> cases hc <;> simp
            · cases hs
            · cases hs
            · cases hs
            · cases hs with
              | not hc => cases hc; simp
            · cases hs
          · cases hs
          · cases hs with
            | not hc => cases hc; simp [h0]
          · cases hs
          · cases hs
      have hm := mem_of_alookup hi
      rw [exNeg_deps]
      simp only [exNeg, List.mem_cons, Prod.mk.injEq, List.not_mem_nil, or_false] at hm
      rcases hm with ⟨rfl, rfl⟩ | ⟨rfl, rfl⟩ | ⟨rfl, rfl⟩ | ⟨rfl, rfl⟩ | ⟨rfl, rfl⟩ | ⟨rfl, rfl⟩ <;>
        rcases hstep _ hw with h | ⟨_, h | h | h⟩ | ⟨_, h⟩ <;> cases h <;>
        simp_all [Skel.Refers]
    have a := alookup_mem (buildDeps_nodup exNeg) (hall i false r h1)
    have b := alookup_mem (buildDeps_nodup exNeg) (hall i true r h2)
    rw [a] at b
    cases b
  · have hsucc : ∀ a b, (buildDeps exNeg).succ a b ↔
        (a, b) ∈ [(0, 1), (0, 2), (2, 0), (3, 1), (4, 2), (5, 2)] := by
      intro a b
      simp only [DepGraph.succ, exNeg_deps, List.mem_cons, Prod.mk.injEq, List.not_mem_nil, or_false]
      constructor
      · rintro ⟨w, h⟩; tauto
      · rintro (h | h | h | h | h | h)
        · exact ⟨false, by simp [h]⟩
        · exact ⟨true, by simp [h]⟩
        · exact ⟨false, by simp [h]⟩
        · exact ⟨false, by simp [h]⟩
        · exact ⟨true, by simp [h]⟩
        · exact ⟨false, by simp [h]⟩
    have hinv : ∀ (S : List Nat), (∀ p ∈ [(0, 1), (0, 2), (2, 0), (3, 1), (4, 2), (5, 2)],
        p.1 ∈ S → p.2 ∈ S) → ∀ a b, ReflTransGen (buildDeps exNeg).succ a b → a ∈ S → b ∈ S := by
      intro S hS a b h ha
      induction h with
      | refl => exact ha
      | tail _ h ih => exact hS _ ((hsucc _ _).1 h) ih
    constructor
    · intro comp hc a ha b hb
      simp only [List.mem_cons, List.not_mem_nil, or_false] at hc
      rcases hc with rfl | rfl | rfl | rfl | rfl <;>
        simp only [List.mem_cons, List.not_mem_nil, or_false] at ha hb
      · subst ha; subst hb; exact ReflTransGen.refl
      · rcases ha with rfl | rfl <;> rcases hb with rfl | rfl
        · exact ReflTransGen.refl
        · exact ReflTransGen.single ((hsucc _ _).2 (by simp))
        · exact ReflTransGen.single ((hsucc _ _).2 (by simp))
        · exact ReflTransGen.refl
      · subst ha; subst hb; exact ReflTransGen.refl
      · subst ha; subst hb; exact ReflTransGen.refl
      · subst ha; subst hb; exact ReflTransGen.refl
    · intro a b hab
      have := (hsucc a b).1 hab
      simp only [List.mem_cons, Prod.mk.injEq, List.not_mem_nil, or_false] at this
      have h02 : ∀ c, ReflTransGen (buildDeps exNeg).succ 0 c →
          ReflTransGen (buildDeps exNeg).succ c 0 → c ∈ [0, 2] := by
        intro c h1 h2
        have h3 := hinv [0, 1, 2] (by decide) 0 c h1 (by simp)
        simp only [List.mem_cons, List.not_mem_nil, or_false] at h3 ⊢
        rcases h3 with rfl | rfl | rfl
        · simp
        · have := hinv [1] (by decide) 1 0 h2 (by simp)
          simp at this
        · simp
      have h20 : ∀ c, ReflTransGen (buildDeps exNeg).succ 2 c →
          ReflTransGen (buildDeps exNeg).succ c 2 → c ∈ [0, 2] := fun c h1 h2 =>
        h02 c (ReflTransGen.head ((hsucc 0 2).2 (by simp)) h1) (h2.tail ((hsucc 2 0).2 (by simp)))
      rcases this with ⟨rfl, _⟩ | ⟨rfl, _⟩ | ⟨rfl, _⟩ | ⟨rfl, _⟩ | ⟨rfl, _⟩ | ⟨rfl, _⟩
      · exact ⟨[0, 2], by simp, by simp, h02⟩
      · exact ⟨[0, 2], by simp, by simp, h02⟩
      · exact ⟨[0, 2], by simp, by simp, h20⟩
      · refine ⟨[3], by simp, by simp, fun c _ h2 => ?_⟩
        by_contra hc
        have := hinv [0, 1, 2, 4, 5] (by decide) c 3 h2
        rcases ReflTransGen.cases_tail h2 with h | ⟨d, _, hd⟩
        · exact hc (by simp [h])
        · have := (hsucc _ _).1 hd; simp at this
      · refine ⟨[4], by simp, by simp, fun c _ h2 => ?_⟩
        rcases ReflTransGen.cases_tail h2 with h | ⟨d, _, hd⟩
        · simp [h]
        · have := (hsucc _ _).1 hd; simp at this
      · refine ⟨[5], by simp, by simp, fun c _ h2 => ?_⟩
        rcases ReflTransGen.cases_tail h2 with h | ⟨d, _, hd⟩
        · simp [h]
        · have := (hsucc _ _).1 hd; simp at this

/-- `<0> NOT { :q @<0> } AND { :p @<0> }`. -/
def exBoth : DepSchema :=
  [(0, .and [1, 3]), (1, .not 2), (2, .shape [0] [] [] 1), (3, .shape [0] [] [] 2)]

/-- **C24** is false of the code: the positive reference replaces the negative one in the graph, and
the negative cycle is not reported, whatever the components. -/
theorem C24_refuted_both_polarities : NegRefCycle exBoth ∧
    ∀ scc, hasNegCycle (buildDeps exBoth) scc = true →
      ∃ comp ∈ scc, 1 ∈ comp ∧ 0 ∈ comp := by
  have hg : buildDeps exBoth = [((0, 0), false), ((1, 0), true), ((2, 0), false), ((3, 0), false)] := by
    decide
  constructor
  · refine ⟨0, 0, ⟨_, .shape [0] [] [] 1, rfl, ?_, by simp [Skel.Refers]⟩, ReflTransGen.refl⟩
    exact (ReflTransGen.single (.and (e := 1) (c := .not 2) (by simp) rfl)).tail (.not rfl)
  · intro scc h
    simp only [hasNegCycle, Bool.not_eq_true', List.isEmpty_eq_false_iff, ne_eq, negCycles, hg] at h
    by_contra hc
    push Not at hc
    apply h
    rw [List.filter_eq_nil_iff]
    intro l hl
    obtain ⟨comp, hcm, rfl⟩ := List.mem_map.1 hl
    simp only [Bool.not_eq_true, Bool.not_eq_false', List.isEmpty_iff]
    rw [List.filterMap_eq_nil_iff]
    intro a ha
    rw [Option.map_eq_none_iff, List.find?_eq_none]
    intro e he hcond
    simp only [Bool.and_eq_true, decide_eq_true_eq] at hcond
    simp only [List.mem_cons, List.not_mem_nil, or_false] at he
    rcases he with rfl | rfl | rfl | rfl <;> simp at hcond
    exact hc comp hcm (by rw [hcond.1]; exact ha) hcond.2

/-- No component holds 0 and 1 in the graph of `exBoth`: 1 is an anonymous operand and nothing
refers to it. -/
theorem C24_refuted_not_reported (scc : List (List Nat)) (hs : IsScc (buildDeps exBoth) scc) :
    NegRefCycle exBoth ∧ hasNegCycle (buildDeps exBoth) scc = false := by
  refine ⟨C24_refuted_both_polarities.1, ?_⟩
  by_contra hc
  have hg : buildDeps exBoth = [((0, 0), false), ((1, 0), true), ((2, 0), false), ((3, 0), false)] := by
    decide
  obtain ⟨comp, hcm, h1, h0⟩ := C24_refuted_both_polarities.2 scc (by simpa using hc)
  have := hs.linked comp hcm 0 h0 1 h1
  rcases ReflTransGen.cases_tail this with h | ⟨d, _, ⟨w, hw⟩⟩
  · cases h
  · rw [hg] at hw; simp at hw

/-- `<0> { :p @<0> } AND NOT { :p @<0> }`: the two shapes are equal, and the second is skipped. -/
def exEqual : DepSchema :=
  [(0, .and [1, 2]), (1, .shape [0] [] [] 1), (2, .not 3), (3, .shape [0] [] [] 1)]

/-- **C24** is false of the code also because `visited` compares shapes by value and ignores the
polarity: here the negative edge from 0 is never added. -/
theorem C24_refuted_equal_contents : NegRefCycle exEqual ∧
    edgesFrom exEqual (0, .and [1, 2]) = [(0, 0, false)] := by
  refine ⟨⟨0, 0, ⟨_, .shape [0] [] [] 1, rfl, ?_, by simp [Skel.Refers]⟩, ReflTransGen.refl⟩, by decide⟩
  exact (ReflTransGen.single (.and (e := 2) (c := .not 3) (by simp) rfl)).tail (.not rfl)

/-- **C24** is false for references that carry a semantic action, `<0> NOT { :p @<0> %act% }`, and
for negated dependencies through EXTENDS, `<0> NOT @<1>`, `<1> EXTENDS @<2> {}`, `<2> { :p @<0> }`:
no edge leads back. -/
theorem C24_refuted_reference_with_action :
    buildDeps [(0, .not 1), (1, .shape [] [0] [] 1)] = [] := by decide

/-- See `C24_refuted_reference_with_action`; 3 is the operand `@<1>`. -/
theorem C24_refuted_extends :
    buildDeps [(0, .not 3), (3, .ref 1), (1, .shape [] [] [2] 1), (2, .shape [0] [] [] 2)] =
      [((0, 1), true), ((3, 1), false), ((2, 0), false)] := by decide

#print axioms C24_reported_is_cycle
#print axioms C24_reported_schema
#print axioms C24_negative_cycle_iff_partial
#print axioms C24_refuted_both_polarities
#print axioms C24_refuted_not_reported
#print axioms C24_refuted_equal_contents
#print axioms C24_refuted_reference_with_action
#print axioms C24_refuted_extends

end Shex
