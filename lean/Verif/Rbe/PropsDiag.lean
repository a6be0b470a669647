import Verif.Rbe.LemmasUnloop
import Verif.Rbe.PropsTable

/-!
# Properties C15 and C16: cardinality diagnoses, conditioned derivatives
-/

namespace Rbe

section
variable {A : Type} [DecidableEq A]

/-- The report agrees with the verdict: a diagnosis is produced exactly for rejected bags. -/
theorem C15_report_iff_rejected (s : Struct A) (bag : List (A × Nat)) (op : Bool) :
    s.matchReport bag op = none ↔ s.matchBag bag op .interval = true := by
  simp only [Struct.matchReport, Struct.matchBag, Struct.matchBagInterval]
  split
  · split <;> simp_all
  · split
    · simp
    · split <;> simp_all

/-- C15: every cardinality violation named in the report of a failed interval match is real: the
reported count is the number of occurrences of the symbol in the bag, it lies outside the
reported cardinality, and the expression declares that cardinality for that symbol. -/
theorem C15_violations_true (s : Struct A) (bag : List (A × Nat)) (op : Bool) (d : Diag A)
    (h : s.matchReport bag op = some d) (a : A) (c : Card) (n : Nat) (hn : d.Names a c n) :
    n = (bagOf bag).count a ∧ ¬ c.Holds n ∧ Declares s.rbe a c := by
  have hd : d = s.diagnose (Expr.bagCount bag) := by
    simp only [Struct.matchReport] at h
    have no : ∀ e : Diag A, e = .other ∨ e = .extra → ¬ e.Names a c n := by
      rintro e (rfl | rfl) <;> simp [Diag.Names]
    split at h
    · split at h
      · cases h
      · cases h; exact absurd hn (no _ (Or.inl rfl))
    · split at h
      · cases h; exact absurd hn (no _ (Or.inr rfl))
      · split at h
        · cases h
        · cases h; rfl
  rw [hd, diagnose_names, mem_violations, mem_symbolCards, bagCount_eq] at hn
  exact ⟨hn.2.1, hn.2.2, hn.1⟩

/-- Nothing is left out: when a single-occurrence match fails without foreign symbols, every
declared cardinality that the bag violates is named. -/
theorem C15_violations_complete (s : Struct A) (hb : Built s) (ho : SingleOcc s.rbe)
    (bag : List (A × Nat)) (op : Bool) (d : Diag A)
    (h : s.matchReport bag op = some d) (hx : d ≠ .extra) (a : A) (c : Card)
    (hc : Declares s.rbe a c) (hv : ¬ c.Holds ((bagOf bag).count a)) :
    d.Names a c ((bagOf bag).count a) := by
  have hr : s.hasRepeats = false := (truthful_of_built hb).2.1.2 ho
  have hd : d = s.diagnose (Expr.bagCount bag) := by
    simp only [Struct.matchReport, hr, Bool.false_eq_true, if_false] at h
    split at h
    · cases h; exact absurd rfl hx
    · split at h
      · cases h
      · cases h; rfl
  rw [hd, diagnose_names, mem_violations, mem_symbolCards, bagCount_eq]
  exact ⟨hc, rfl, hv⟩

/-- For a conjunction of distinct symbols, the common case, a rejected bag always gets an
attributed explanation: foreign symbols, or at least one named violation. -/
theorem C15_conjunction_explained (s : Struct A) (hb : Built s) (ho : SingleOcc s.rbe)
    (hj : Conj s.rbe) (bag : List (A × Nat)) (hv : ValidBag bag) (d : Diag A)
    (h : s.matchReport bag false = some d) :
    (∃ a ∈ bagOf bag, ∀ c, ¬ Declares s.rbe a c) ∨ ∃ a c n, d.Names a c n := by
  by_contra hcon
  push Not at hcon
  obtain ⟨h1, h2⟩ := hcon
  have ht := truthful_of_built hb
  have hdecl : ∀ a c, Declares s.rbe a c → a ∈ s.symbols := by
    intro a c hd
    rw [ht.1, ← mem_symbols_iff]
    clear h h1 h2 ht ho hj hb
    generalize s.rbe = e at hd
    induction hd with
    | symbol a c => simp [Expr.symbols]
    | and hv _ ih => simp only [Expr.symbols]; rw [mem_symbolsList]; exact ⟨_, hv, ih⟩
    | or hv _ ih => simp only [Expr.symbols]; rw [mem_symbolsList]; exact ⟨_, hv, ih⟩
    | star _ ih => exact ih
    | plus _ ih => exact ih
    | «repeat» _ ih => exact ih
  have hno : s.noExtraSymbols bag = true := by
    simp only [Struct.noExtraSymbols, List.all_eq_true, decide_eq_true_eq]
    rintro ⟨a, k⟩ hp
    obtain ⟨c, hc⟩ := h1 a ((mem_bagOf bag hv.1 a).2 ⟨k, hp⟩)
    exact hdecl a c hc
  have hx : d ≠ .extra := by
    rintro rfl
    simp only [Struct.matchReport, hno] at h
    unfold Struct.diagnose at h
    repeat' split at h
    all_goals simp_all
  have hall : ∀ a c, Declares s.rbe a c → c.Holds ((bagOf bag).count a) := by
    intro a c hc
    by_contra hh
    exact h2 a c _ (C15_violations_complete s hb ho bag false d h hx a c hc hh)
  have hl := conj_lang s.rbe hj ho (bagOf bag) hall
  rw [(noExtra_iff s ht bag hv).1 hno] at hl
  obtain ⟨hs, hr⟩ := conj_sane _ hj
  have := (C04_interval_matches_iff_lang s hb bag hv ho hs hr).2 hl
  rw [← C15_report_iff_rejected, h] at this
  cases this

end

/-- `a{1,2} ; b{1,1} ; c{0,1}` -/
def exConj : Struct Nat :=
  .and [.symbol 0 1 (.intMax 2), .symbol 1 1 (.intMax 1), .symbol 2 0 (.intMax 1)]

theorem exConj_built : Built exConj := by
  refine .and _ ?_
  simp only [List.mem_cons, List.not_mem_nil, or_false, forall_eq_or_imp, forall_eq]
  exact ⟨.symbol _ _ _, .symbol _ _ _, .symbol _ _ _⟩

/-- Three `a` and no `b`: both violations are named. -/
example : Built exConj ∧ SingleOcc exConj.rbe ∧ Conj exConj.rbe ∧ ValidBag [(0, 3), (2, 1)] ∧
    exConj.matchReport [(0, 3), (2, 1)] false =
      some (.multi [(0, ⟨1, .intMax 2⟩, 3), (1, ⟨1, .intMax 1⟩, 0)]) ∧
    exConj.matchReport [(0, 2), (1, 1)] false = none := by
  refine ⟨exConj_built, ?_, ?_, by simp [ValidBag], ?_, ?_⟩
  · rw [← (truthful_of_built exConj_built).2.1]; decide
  · simp [exConj, Struct.and, Struct.symbol, Conj, ConjList]
  · simp [exConj, Struct.and, Struct.symbol, Struct.matchReport, Struct.overlap, Struct.overlapItem,
      Struct.noExtraSymbols, Struct.diagnose, Struct.violations, Expr.symbolCards,
      Expr.symbolCardsList, Expr.bagCount, Card.contains, Mx.geq, Expr.interval, Expr.intervalAnd,
      Interval.contains, Interval.inter, Interval.zeroAny, Mx.divUp, Mx.divDown, Mx.sup, Mx.inf]
  · simp [exConj, Struct.and, Struct.symbol, Struct.matchReport, Struct.overlap, Struct.overlapItem,
      Struct.noExtraSymbols, Expr.bagCount, Mx.geq, Expr.interval, Expr.intervalAnd,
      Interval.contains, Interval.inter, Interval.zeroAny, Mx.divUp, Mx.divDown, Mx.sup, Mx.inf]

section
variable {K V C R : Type}

/-- At table level: every key listed with a violation is the key registered for a component whose
declared cardinality the bag of components violates. -/
theorem C15_table_violations_true (t : Table K V C R) (bag : List (Nat × Nat)) (d : Diag Nat)
    (h : t.rbe.matchReport bag t.open = some d) (l : List (K × Card × Nat))
    (hl : t.cardinalityViolations d = some l) (k : K) (c : Card) (n : Nat) (hm : (k, c, n) ∈ l) :
    ∃ comp, t.getKey comp = some k ∧ Declares t.rbe.rbe comp c ∧
      n = (bagOf bag).count comp ∧ ¬ c.Holds n := by
  have hof : ∀ f l', t.violationOf f = some l' → (k, c, n) ∈ l' →
      t.getKey f.1 = some k ∧ f.2.1 = c ∧ f.2.2 = n := by
    intro f l' hf hm
    simp only [Table.violationOf] at hf
    split at hf
    · rename_i k' hk
      cases hf
      simp only [List.mem_singleton, Prod.mk.injEq] at hm
      obtain ⟨rfl, rfl, rfl⟩ := hm
      exact ⟨hk, rfl, rfl⟩
    · cases hf
  obtain ⟨comp, hk, hn⟩ : ∃ comp, t.getKey comp = some k ∧ d.Names comp c n := by
    cases d with
    | extra => cases hl
    | other => cases hl
    | card a c' n' =>
      obtain ⟨h1, h2, h3⟩ := hof _ _ hl hm
      simp only at h1 h2 h3
      subst h2; subst h3
      exact ⟨a, h1, Or.inl rfl⟩
    | multi fs =>
      simp only [Table.cardinalityViolations] at hl
      split at hl
      · cases hl
      · cases hl
        rw [List.mem_flatten] at hm
        obtain ⟨l', hl', hm⟩ := hm
        obtain ⟨⟨a, c', n'⟩, hf, hl'⟩ := List.mem_filterMap.1 hl'
        obtain ⟨h1, h2, h3⟩ := hof _ _ hl' hm
        simp only at h1 h2 h3
        subst h2; subst h3
        exact ⟨a, h1, Or.inr ⟨fs, rfl, hf⟩⟩
  have := C15_violations_true t.rbe bag t.open d h comp c n hn
  exact ⟨comp, hk, this.2.2, this.1, this.2.1⟩

end

/-- A table with key `7` registered for component `0`, required once, given two triples. -/
example : (((Table.new : Table Nat Nat Unit Nat).addComponent 7 (.ref 3)).withRbe
    (.symbol 0 1 (.intMax 1))).cardinalityViolations (.card 0 ⟨1, .intMax 1⟩ 2) =
      some [(7, ⟨1, .intMax 1⟩, 2)] ∧
    ((Struct.symbol 0 1 (.intMax 1)).matchReport [(0, 2)] false) =
      some (.card 0 ⟨1, .intMax 1⟩ 2) := by
  refine ⟨by decide, ?_⟩
  simp [Struct.symbol, Struct.matchReport, Struct.noExtraSymbols, Struct.diagnose,
    Struct.violations, Expr.symbolCards, Expr.bagCount, Card.contains, Mx.geq, Expr.interval,
    Interval.contains, Mx.divUp, Mx.divDown]

/-! ## C16 -/

section
variable {K Q W : Type} [DecidableEq K] [DecidableEq Q]

/-- The full claim: closed conditioned matching of a starred expression accepts exactly the
sequences of values that split into any number of matches of the body. -/
def C16_statement : Prop :=
  ∀ (sat : Nat → Nat → Bool) (ctl : List Nat) (v : Expr (Nat × Nat)) (l : List (Nat × Nat)),
    WF v → LoopFree v → (Expr.matchesC sat false ctl (.star v) l = true ↔ LangC sat (.star v) l)

/-- C16 is false of the code: `(a{1,1})*` rejects a single `a`, since the derivative of the star is
followed by one more mandatory copy of the body instead of the star. -/
theorem C16_refuted : ¬ C16_statement := by
  intro h
  have h1 := (h (fun _ _ => true) [0] (.symbol (0, 0) ⟨1, .intMax 1⟩) [(0, 5)] (by simp [WF])
    (by simp [LoopFree])).2
    ⟨[(0, 0)], .cons ⟨rfl, rfl⟩ .nil, 1, sumOf_one.2 ⟨1, by simp [Card.Holds], rfl⟩⟩
  revert h1
  decide

/-- What the code does accept for a starred loop-free body: nothing at all, or exactly two copies
of the body. -/
theorem C16_star_means_zero_or_two (sat : Q → W → Bool) (ctl : List K) (v : Expr (K × Q))
    (hwf : WF v) (hlf : LoopFree v) (l : List (K × W)) :
    Expr.matchesC sat false ctl (.star v) l = true ↔ l = [] ∨ LangC sat (.and [v, v]) l := by
  cases l with
  | nil => simp [Expr.matchesC, Expr.derivAllC, Expr.condNullable]
  | cons x l =>
    obtain ⟨k, w⟩ := x
    rw [matchesC_cons]
    have hd : Expr.derivC sat false ctl k w 1 (.star v) =
        Expr.mkAnd (Expr.derivC sat false ctl k w 1 v) v := by simp [Expr.derivC]
    rw [hd, matchesC_iff sat ctl l _ (wf_mkAnd _ _ (wf_derivC _ _ _ _ _ _ _ hwf) hwf)
      (loopFree_mkAnd _ _ (loopFree_derivC _ _ _ _ _ _ _ hlf) hlf)]
    simp only [reduceCtorEq, false_or, LangC, lang_mkAnd]
    constructor
    · rintro ⟨as, hf, t, u, htu, ht, p, q, hpq, hp, hq⟩
      obtain ⟨a, ha, ht⟩ := (lang_derivC sat ctl k w v hwf hlf t).1 ht
      refine ⟨a :: as, .cons ha hf, a ::ₘ t, u, ?_, ht, p, q, hpq, hp, hq⟩
      rw [← Multiset.cons_coe, htu, Multiset.cons_add]
    · rintro ⟨as, hf, t, u, htu, ht, p, q, hpq, hp, hq⟩
      match as, hf with
      | a :: as, .cons ha hf =>
        simp only [LangAll] at hq
        subst hq
        rw [add_zero] at hpq
        subst hpq
        rw [← Multiset.cons_coe] at htu
        rcases cons_eq_add htu with ⟨t', rfl, h⟩ | ⟨u', rfl, h⟩
        · exact ⟨as, hf, t', u, h, (lang_derivC sat ctl k w v hwf hlf t').2 ⟨a, ha, ht⟩, u, 0,
            by simp, hp, rfl⟩
        · exact ⟨as, hf, u', t, by rw [h, add_comm],
            (lang_derivC sat ctl k w v hwf hlf u').2 ⟨a, ha, hp⟩, t, 0, by simp, ht, rfl⟩

/-- C16, the surviving part: without `Star` and `Plus`, closed conditioned matching accepts exactly
the sequences whose values can be read as conditioned symbols with a bag in the language. What is
missing: expressions with `Star` or `Plus`, where the code is wrong. -/
theorem C16_conditioned_match_partial (sat : Q → W → Bool) (ctl : List K) (e : Expr (K × Q))
    (hwf : WF e) (hlf : LoopFree e) (l : List (K × W)) :
    Expr.matchesC sat false ctl e l = true ↔ LangC sat e l :=
  matchesC_iff sat ctl l e hwf hlf

/-- C16, for all well-formed expressions: what the code accepts is exactly the language in which a star means nothing or
two copies of its body and a plus one copy or three copies. -/
theorem C16_code_language (sat : Q → W → Bool) (ctl : List K) (e : Expr (K × Q)) (hwf : WF e) (l : List (K × W)) :
    Expr.matchesC sat false ctl e l = true ↔ LangC sat (unloop e) l :=
  matchesC_unloop sat ctl l e hwf

end

/-- `a` with value at least 3, once or twice, or `a` equal to 0 once. -/
def exC : Expr (Nat × Nat) := .or [.symbol (0, 3) ⟨1, .intMax 2⟩, .symbol (0, 0) ⟨1, .intMax 1⟩]

example : WF exC ∧ LoopFree exC ∧
    Expr.matchesC (fun q w => decide (q ≤ w)) false [0] exC [(0, 5), (0, 4)] = true ∧
    Expr.matchesC (fun q w => decide (q ≤ w)) false [0] exC [(0, 5), (0, 1)] = false := by
  refine ⟨by simp [exC, WF, WFList], by simp [exC, LoopFree, LoopFreeList], by decide, by decide⟩

example : WF (.and [.plus exC, .star exC]) ∧
    Expr.matchesC (fun q w => decide (q ≤ w)) false [0] (.plus (.symbol (0, 3) ⟨1, .intMax 1⟩))
      [(0, 5), (0, 4), (0, 7)] = true ∧
    Expr.matchesC (fun q w => decide (q ≤ w)) false [0] (.plus (.symbol (0, 3) ⟨1, .intMax 1⟩))
      [(0, 5), (0, 4)] = false := by
  refine ⟨by simp [exC, WF, WFList], by decide, by decide⟩

example : Expr.matchesC (fun q w => decide (q ≤ w)) false [0] (.star exC) [(0, 5), (0, 4)] = true ∧
    Expr.matchesC (fun q w => decide (q ≤ w)) false [0]
      (.star (.symbol (0, 3) ⟨1, .intMax 1⟩)) [(0, 5), (0, 4), (0, 7)] = false := by
  refine ⟨by decide, by decide⟩

#print axioms C15_report_iff_rejected
#print axioms C15_violations_true
#print axioms C15_violations_complete
#print axioms C15_conjunction_explained
#print axioms C15_table_violations_true
#print axioms C16_code_language
#print axioms C16_refuted
#print axioms C16_star_means_zero_or_two
#print axioms C16_conditioned_match_partial

end Rbe
