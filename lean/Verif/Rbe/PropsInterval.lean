import Verif.Rbe.LemmasStruct

/-!
# Properties C04 to C08: interval matching and the single-occurrence flag
-/

namespace Rbe
variable {A : Type} [DecidableEq A]

/-- C04: closed interval matching decides the language of a single-occurrence expression
without repeated groups, for every struct a caller can build. -/
theorem C04_interval_matches_iff_lang (s : Struct A) (hb : Built s) (bag : List (A × Nat))
    (hv : ValidBag bag) (ho : SingleOcc s.rbe) (hs : Sane s.rbe) (hr : RepeatFree s.rbe) :
    s.matchBag bag false .interval = true ↔ Lang s.rbe (bagOf bag) := by
  have ht := truthful_of_built hb
  simp only [Struct.matchBag]
  rw [matchBagInterval_iff s ht ho bag hv, interval_exact _ _ ht.2.2 hs ho hr, sumOf_one]
  constructor
  · rintro ⟨h1, h2⟩; rwa [h1] at h2
  · intro h
    have := lang_proj_self _ _ h
    exact ⟨this, by rwa [this]⟩

/-- `a{1,2} ; (b | c+)` -/
def exS : Struct Nat :=
  .and [.symbol 0 1 (.intMax 2), .or [.symbol 1 1 (.intMax 1), .plus (.symbol 2 1 (.intMax 1))]]

theorem exS_built : Built exS := by
  refine .and _ ?_
  simp only [List.mem_cons, List.not_mem_nil, or_false, forall_eq_or_imp, forall_eq]
  refine ⟨.symbol _ _ _, .or _ ?_⟩
  simp only [List.mem_cons, List.not_mem_nil, or_false, forall_eq_or_imp, forall_eq]
  exact ⟨.symbol _ _ _, .plus _ (.symbol _ _ _)⟩

theorem exS_single : SingleOcc exS.rbe := by
  rw [← (truthful_of_built exS_built).2.1]
  decide

example : Built exS ∧ ValidBag [(0, 2), (2, 5)] ∧ SingleOcc exS.rbe ∧ Sane exS.rbe ∧
    RepeatFree exS.rbe ∧ exS.matchBag [(0, 2), (2, 5)] false .interval = true ∧
    exS.matchBag [(0, 2), (1, 1), (2, 5)] false .interval = false :=
  ⟨exS_built, by simp [ValidBag], exS_single,
    by simp [exS, Struct.and, Struct.or, Struct.symbol, Struct.plus, Sane, SaneList],
    by simp [exS, Struct.and, Struct.or, Struct.symbol, Struct.plus, RepeatFree, RepeatFreeList],
    by decide, by decide⟩

/-- C05: interval matching accepts only members of the language, for every single-occurrence
expression; repeated groups may be nested anywhere. -/
theorem C05_interval_sound (s : Struct A) (hb : Built s) (bag : List (A × Nat))
    (hv : ValidBag bag) (ho : SingleOcc s.rbe) (hs : Sane s.rbe)
    (h : s.matchBag bag false .interval = true) : Lang s.rbe (bagOf bag) := by
  have ht := truthful_of_built hb
  simp only [Struct.matchBag] at h
  rw [matchBagInterval_iff s ht ho bag hv] at h
  have := interval_sound _ _ hs ho 1 h.2
  rw [h.1] at this
  exact sumOf_one.1 this

/-- `((a){2,3})*`, a repeated group inside a star. -/
def exNested : Struct Nat := .star (.repeat (.symbol 0 1 (.intMax 1)) 2 (.intMax 3))

theorem exNested_built : Built exNested := .star _ (.repeat _ _ _ (.symbol _ _ _))

theorem exNested_single : SingleOcc exNested.rbe := by
  rw [← (truthful_of_built exNested_built).2.1]
  decide

theorem exNested_sane : Sane exNested.rbe := by
  simp [exNested, Struct.star, Struct.repeat, Struct.symbol, Sane, Card.Holds]

example : Built exNested ∧ ValidBag [(0, 3)] ∧ SingleOcc exNested.rbe ∧ Sane exNested.rbe ∧
    exNested.matchBag [(0, 3)] false .interval = true :=
  ⟨exNested_built, by simp [ValidBag], exNested_single, exNested_sane, by decide⟩

/-- The statement of C06. -/
def C06_statement : Prop :=
  ∀ (s : Struct Nat), Built s → ∀ bag, ValidBag bag → SingleOcc s.rbe → Sane s.rbe →
    Lang s.rbe (bagOf bag) → s.matchBag bag false .interval = true

/-- C06 is false: `((a){2,3})*` rejects four occurrences of `a`, which are two groups of two. -/
theorem C06_refuted : ¬ C06_statement := by
  intro h
  have hl : Lang exNested.rbe (bagOf [(0, 4)]) := by
    rw [← matchBagDeriv_iff]
    · decide
    · simp [exNested, Struct.star, Struct.repeat, Struct.symbol, WF, Card.Holds]
  have := h exNested exNested_built [(0, 4)] (by simp [ValidBag]) exNested_single exNested_sane hl
  revert this
  decide

/-- C06 when no repeated group is nested in another repetition. Missing: nested repeated
groups, where the claim is false. -/
theorem C06_interval_complete_partial (s : Struct A) (hb : Built s) (bag : List (A × Nat))
    (hv : ValidBag bag) (ho : SingleOcc s.rbe) (hs : Sane s.rbe) (hr : RepeatFlat s.rbe)
    (h : Lang s.rbe (bagOf bag)) : s.matchBag bag false .interval = true := by
  have ht := truthful_of_built hb
  simp only [Struct.matchBag]
  rw [matchBagInterval_iff s ht ho bag hv]
  have hp := lang_proj_self _ _ h
  refine ⟨hp, interval_flat _ _ ht.2.2 hs ho hr 1 (le_refl _) ?_⟩
  rw [hp]
  exact sumOf_one.2 h

/-- `(a ; b){2,3} | c` -/
def exFlat : Struct Nat :=
  .or [.repeat (.and [.symbol 0 1 (.intMax 1), .symbol 1 1 (.intMax 1)]) 2 (.intMax 3),
    .symbol 2 1 (.intMax 1)]

theorem exFlat_built : Built exFlat := by
  refine .or _ ?_
  simp only [List.mem_cons, List.not_mem_nil, or_false, forall_eq_or_imp, forall_eq]
  refine ⟨.repeat _ _ _ (.and _ ?_), .symbol _ _ _⟩
  simp only [List.mem_cons, List.not_mem_nil, or_false, forall_eq_or_imp, forall_eq]
  exact ⟨.symbol _ _ _, .symbol _ _ _⟩

theorem exFlat_wf : WF exFlat.rbe ∧ RepeatFlat exFlat.rbe := by
  simp [exFlat, Struct.or, Struct.and, Struct.repeat, Struct.symbol, WF, WFList, Card.Holds,
    RepeatFlat, RepeatFlatList, RepeatFree, RepeatFreeList]

example : Built exFlat ∧ ValidBag [(0, 2), (1, 2)] ∧ SingleOcc exFlat.rbe ∧ WF exFlat.rbe ∧
    RepeatFlat exFlat.rbe ∧ Lang exFlat.rbe (bagOf [(0, 2), (1, 2)]) :=
  ⟨exFlat_built, by simp [ValidBag],
    (truthful_of_built exFlat_built).2.1.1 (by decide), exFlat_wf.1, exFlat_wf.2,
    (matchBagDeriv_iff _ _ exFlat_wf.1).1 (by decide)⟩

/-- C07: the two algorithms give the same verdict on every buildable expression without nested
repeated groups (symbols may occur any number of times). -/
theorem C07_algorithms_agree (s : Struct A) (hb : Built s) (bag : List (A × Nat))
    (hv : ValidBag bag) (hwf : WF s.rbe) (hr : RepeatFlat s.rbe) :
    s.matchBag bag false .interval = s.matchBag bag false .derivatives := by
  have ht := truthful_of_built hb
  by_cases ho : SingleOcc s.rbe
  · rw [Bool.eq_iff_iff]
    constructor
    · intro h
      exact (matchBagDeriv_iff _ _ hwf).2
        (C05_interval_sound s hb bag hv ho (sane_of_wf _ hwf) h)
    · intro h
      exact C06_interval_complete_partial s hb bag hv ho (sane_of_wf _ hwf) hr
        ((matchBagDeriv_iff _ _ hwf).1 h)
  · have : s.hasRepeats = true := by
      by_contra h
      exact ho (ht.2.1.1 (Bool.eq_false_iff.2 h))
    simp [Struct.matchBag, Struct.matchBagInterval, this, Struct.matchBagDeriv]

example : Built exFlat ∧ ValidBag [(0, 2), (1, 2)] ∧ WF exFlat.rbe ∧ RepeatFlat exFlat.rbe :=
  ⟨exFlat_built, by simp [ValidBag], exFlat_wf.1, exFlat_wf.2⟩

/-- C08: the symbol set and the has-repeats flag are truthful for every buildable struct. -/
theorem C08_flag_truthful (s : Struct A) (hb : Built s) :
    (∀ a, a ∈ s.symbols ↔ 0 < occ a s.rbe) ∧ (s.hasRepeats = false ↔ ∀ a, occ a s.rbe ≤ 1) :=
  ⟨(truthful_of_built hb).1, (truthful_of_built hb).2.1⟩

example : Built exFlat ∧ exFlat.hasRepeats = false ∧
    (Struct.and [exFlat, Struct.symbol 1 0 .unbounded]).hasRepeats = true :=
  ⟨exFlat_built, by decide, by decide⟩

#print axioms C04_interval_matches_iff_lang
#print axioms C05_interval_sound
#print axioms C06_refuted
#print axioms C06_interval_complete_partial
#print axioms C07_algorithms_agree
#print axioms C08_flag_truthful

end Rbe
