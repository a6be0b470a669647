import Verif.Shacl.Report
import Verif.Shacl.TargetProps
import Verif.Lit.PropsNum
import Mathlib.Data.List.Perm.Subperm
import Mathlib.Data.Setoid.Basic

/-!
# Properties: reports

C39: equality of reports. C77: reports that are equal.
-/

namespace Shacl
open Lit

section
variable {D Pa : Type} {E : Env D} [DecidableEq Pa]

/-- The equality of times is an equivalence. -/
structure TimeEq (X : Ext D) : Prop where
  refl : ∀ d, X.eqDT d d = true
  symm : ∀ d e, X.eqDT d e = true → X.eqDT e d = true
  trans : ∀ d e f, X.eqDT d e = true → X.eqDT e f = true → X.eqDT d f = true

theorem same_equivalence (h : TimeEq E.X) : Equivalence fun a b : Ob D => E.same a b = true := by
  obtain ⟨n1, n2, n3, _⟩ := C47_equivalence_and_hash E.X
  refine ⟨?_, ?_, ?_⟩
  · intro a
    cases a with
    | lit l => cases l <;> simp [Env.same, Literal.eq, n1, h.refl]
    | _ => simp [Env.same]
  · intro a b hab
    cases a with
    | lit l =>
      cases b with
      | lit l' =>
        cases l <;> cases l' <;> simp_all [Env.same, Literal.eq]
        all_goals first | exact n2 _ _ hab | exact h.symm _ _ hab
      | _ => simp [Env.same] at hab
    | _ => cases b <;> simp_all [Env.same]
  · intro a b c hab hbc
    cases a with
    | lit l =>
      cases b with
      | lit l' =>
        cases c with
        | lit l'' =>
          cases l <;> cases l' <;> simp_all [Env.same, Literal.eq] <;> cases l'' <;> simp_all [Env.same, Literal.eq]
          all_goals first | exact n3 _ _ _ hab hbc | exact h.trans _ _ _ hab hbc
        | _ => simp [Env.same] at hbc
      | _ => simp [Env.same] at hab
    | _ => cases b <;> cases c <;> simp_all [Env.same]

theorem sameOpt_equivalence (h : TimeEq E.X) : Equivalence fun a b : Option (Ob D) => E.sameOpt a b = true := by
  obtain ⟨h1, h2, h3⟩ := same_equivalence h
  refine ⟨?_, ?_, ?_⟩
  · intro a; cases a <;> simp [Env.sameOpt, h1]
  · intro a b hab
    cases a <;> cases b <;> simp_all [Env.sameOpt]
  · intro a b c hab hbc
    cases a <;> cases b <;> cases c <;> simp_all [Env.sameOpt]
    exact h3 hab hbc

theorem sameList_equivalence (h : TimeEq E.X) : Equivalence fun a b : List (Ob D) => E.sameList a b = true := by
  obtain ⟨h1, h2, h3⟩ := same_equivalence h
  refine ⟨?_, ?_, ?_⟩
  · intro a
    induction a with
    | nil => rfl
    | cons a as ih => simp [Env.sameList, h1, ih]
  · intro a
    induction a with
    | nil => intro b hab; cases b <;> simp_all [Env.sameList]
    | cons a as ih =>
      intro b hab
      cases b with
      | nil => simp [Env.sameList] at hab
      | cons b bs =>
        simp only [Env.sameList, Bool.and_eq_true] at hab ⊢
        exact ⟨h2 hab.1, ih hab.2⟩
  · intro a
    induction a with
    | nil => intro b c hab hbc; cases b <;> cases c <;> simp_all [Env.sameList]
    | cons a as ih =>
      intro b c hab hbc
      cases b with
      | nil => simp [Env.sameList] at hab
      | cons b bs =>
        cases c with
        | nil => simp [Env.sameList] at hbc
        | cons c cs =>
          simp only [Env.sameList, Bool.and_eq_true] at hab hbc ⊢
          exact ⟨h3 hab.1 hbc.1, ih hab.2 hbc.2⟩

theorem sameDetails_equivalence (h : TimeEq E.X) : Equivalence fun a b : Option (List (Ob D)) => E.sameDetails a b = true := by
  obtain ⟨h1, h2, h3⟩ := sameList_equivalence h
  refine ⟨?_, ?_, ?_⟩
  · intro a; cases a <;> simp [Env.sameDetails, h1]
  · intro a b hab
    cases a <;> cases b <;> simp_all [Env.sameDetails]
  · intro a b c hab hbc
    cases a <;> cases b <;> cases c <;> simp_all [Env.sameDetails]
    exact h3 hab hbc

/-- Equality of results is an equivalence. -/
theorem sameResult_equivalence (h : TimeEq E.X) : Equivalence fun a b : Result D Pa => E.sameResult a b = true := by
  have h1 := same_equivalence h
  have h2 := sameOpt_equivalence h
  have h3 := sameDetails_equivalence h
  simp only [Env.sameResult, Bool.and_eq_true, decide_eq_true_eq]
  refine ⟨?_, ?_, ?_⟩
  · intro a
    exact ⟨⟨⟨⟨⟨⟨h1.1 _, h1.1 _⟩, rfl⟩, rfl⟩, h2.1 _⟩, h2.1 _⟩, h3.1 _⟩
  · rintro a b ⟨⟨⟨⟨⟨⟨a1, a2⟩, a3⟩, a4⟩, a5⟩, a6⟩, a7⟩
    exact ⟨⟨⟨⟨⟨⟨h1.2 a1, h1.2 a2⟩, a3.symm⟩, a4.symm⟩, h2.2 a5⟩, h2.2 a6⟩, h3.2 a7⟩
  · rintro a b c ⟨⟨⟨⟨⟨⟨a1, a2⟩, a3⟩, a4⟩, a5⟩, a6⟩, a7⟩ ⟨⟨⟨⟨⟨⟨b1, b2⟩, b3⟩, b4⟩, b5⟩, b6⟩, b7⟩
    exact ⟨⟨⟨⟨⟨⟨h1.3 a1 b1, h1.3 a2 b2⟩, a3.trans b3⟩, a4.trans b4⟩, h2.3 a5 b5⟩, h2.3 a6 b6⟩, h3.3 a7 b7⟩

/-- Results as they are compared. -/
def resultSetoid (h : TimeEq E.X) : Setoid (Result D Pa) := ⟨fun a b => E.sameResult a b = true, sameResult_equivalence h⟩

theorem perm_lift {A B : Type} (f : A → B) {l m : List B} (hl : l.Perm m) :
    ∀ c : List A, m = c.map f → ∃ c' : List A, c'.Perm c ∧ c'.map f = l := by
  induction hl with
  | nil =>
    intro c e
    cases c with
    | nil => exact ⟨[], .nil, rfl⟩
    | cons _ _ => simp at e
  | cons x _ ih =>
    intro c e
    cases c with
    | nil => simp at e
    | cons r c =>
      simp only [List.map_cons, List.cons.injEq] at e
      obtain ⟨c', h1, h2⟩ := ih c e.2
      exact ⟨r :: c', h1.cons r, by simp [h2, e.1]⟩
  | swap x y _ =>
    intro c e
    match c, e with
    | r :: r' :: c, e =>
      simp only [List.map_cons, List.cons.injEq] at e
      exact ⟨r' :: r :: c, .swap _ _ _, by simp [e]⟩
  | trans _ _ ih1 ih2 =>
    intro c e
    obtain ⟨c', h1, h2⟩ := ih2 c e
    obtain ⟨c'', h3, h4⟩ := ih1 c' h2.symm
    exact ⟨c'', h3.trans h1, h4⟩

/-- **C39** (partial). Equality of reports is reflexive and transitive. It is symmetric between reports of which one has no
result twice; it then says that the reports are the same up to the order of the results and their messages.

Missing: symmetry when results are repeated (`C39_refuted`). -/
theorem C39_report_equality_partial (h : TimeEq E.X) :
    (∀ a : List (Result D Pa), E.sameReport a a = true) ∧
    (∀ a b c : List (Result D Pa), E.sameReport a b = true → E.sameReport b c = true → E.sameReport a c = true) ∧
    ∀ a b : List (Result D Pa), a.Pairwise (fun r r' => E.sameResult r r' = false) → E.sameReport a b = true →
      E.sameReport b a = true ∧ ∃ b' : List (Result D Pa), b'.Perm b ∧ List.Forall₂ (fun r r' => E.sameResult r r' = true) a b' := by
  have he := sameResult_equivalence (Pa := Pa) h
  have hmem : ∀ a b : List (Result D Pa), E.sameReport a b = true ↔
      a.length = b.length ∧ ∀ r ∈ a, ∃ r' ∈ b, E.sameResult r r' = true := by
    intro a b
    simp [Env.sameReport]
  refine ⟨?_, ?_, ?_⟩
  · intro a
    rw [hmem]
    exact ⟨rfl, fun r hr => ⟨r, hr, he.1 r⟩⟩
  · intro a b c hab hbc
    rw [hmem] at hab hbc ⊢
    refine ⟨hab.1.trans hbc.1, fun r hr => ?_⟩
    obtain ⟨r', hr', h1⟩ := hab.2 r hr
    obtain ⟨r'', hr'', h2⟩ := hbc.2 r' hr'
    exact ⟨r'', hr'', he.3 h1 h2⟩
  · intro a b hp hab
    rw [hmem] at hab
    obtain ⟨hlen, hsub⟩ := hab
    have key : ∃ b' : List (Result D Pa), b'.Perm b ∧ List.Forall₂ (fun r r' => E.sameResult r r' = true) a b' := by
      let q := resultSetoid (E := E) (Pa := Pa) h
      let f : Result D Pa → Quotient q := Quotient.mk q
      have hf : ∀ r r', f r = f r' ↔ E.sameResult r r' = true := fun r r' => Quotient.eq (r := q)
      have hnd : (a.map f).Nodup := by
        rw [List.nodup_iff_pairwise_ne, List.pairwise_map]
        refine hp.imp ?_
        intro r r' hrr e
        rw [(hf r r').1 e] at hrr
        cases hrr
      have hss : a.map f ⊆ b.map f := by
        intro z hz
        obtain ⟨r, hr, rfl⟩ := List.mem_map.1 hz
        obtain ⟨r', hr', h1⟩ := hsub r hr
        exact List.mem_map.2 ⟨r', hr', ((hf r r').2 h1).symm⟩
      have hperm : (a.map f).Perm (b.map f) :=
        (hnd.subperm hss).perm_of_length_le (by simp [hlen])
      have hlift : ∀ (l : List (Quotient q)) (c : List (Result D Pa)), l.Perm (c.map f) →
          ∃ c' : List (Result D Pa), c'.Perm c ∧ c'.map f = l := by
        intro l c hl
        exact perm_lift f hl c rfl
      obtain ⟨b', hb', e⟩ := hlift _ _ hperm
      refine ⟨b', hb', ?_⟩
      have : List.Forall₂ (fun r r' => f r = f r') a b' := by
        clear hb' hperm hss hnd hsub hlen hp
        induction a generalizing b' with
        | nil => cases b' with
          | nil => exact .nil
          | cons _ _ => simp at e
        | cons r rs ih =>
          cases b' with
          | nil => simp at e
          | cons r' rs' =>
            simp only [List.map_cons, List.cons.injEq] at e
            exact .cons e.1.symm (ih rs' e.2)
      exact this.imp fun r r' e => (hf r r').1 e
    refine ⟨?_, key⟩
    obtain ⟨b', hb', hall⟩ := key
    rw [hmem]
    refine ⟨hlen.symm, fun r hr => ?_⟩
    have hr' := hb'.mem_iff.2 hr
    clear hb' hsub hlen hp
    induction hall with
    | nil => cases hr'
    | cons h1 _ ih =>
      rcases List.mem_cons.1 hr' with rfl | hr'
      · exact ⟨_, List.mem_cons_self, he.2 h1⟩
      · obtain ⟨r', h2, h3⟩ := ih hr'
        exact ⟨r', List.mem_cons_of_mem _ h2, h3⟩

/-- **C77** (partial). Reports that are equal agree on conformance; if one has no result twice, they also have as many
results of each severity.

Missing: the number of results of a severity when results are repeated (`C39_refuted`). -/
theorem C77_equal_reports_partial (h : TimeEq E.X) (a b : List (Result D Pa)) (hab : E.sameReport a b = true) :
    conforms a = conforms b ∧
    (a.Pairwise (fun r r' => E.sameResult r r' = false) → ∀ s, countOf a s = countOf b s) := by
  constructor
  · simp only [Env.sameReport, Bool.and_eq_true, decide_eq_true_eq] at hab
    have := hab.1
    cases a <;> cases b <;> simp_all [conforms]
  · intro hp s
    obtain ⟨-, b', hb', hall⟩ := (C39_report_equality_partial h).2.2 a b hp hab
    have h1 : countOf b' s = countOf b s := by
      unfold countOf
      exact (hb'.filter _).length_eq
    rw [← h1]
    clear hb' h1 hab hp
    unfold countOf
    induction hall with
    | nil => rfl
    | cons hr _ ih =>
      simp only [Env.sameResult, Bool.and_eq_true, decide_eq_true_eq] at hr
      rw [List.filter_cons, List.filter_cons, hr.1.1.1.1.2]
      split
      · simpa using ih
      · exact ih

omit [DecidableEq Pa] in
/-- **C77**, what is agreed on. Data conform exactly when no severity is counted, which is when no result is reported;
each result counts once for its own severity and not at all for others, wherever it stands. -/
theorem C77_counts (a b : List (Result D Pa)) (r : Result D Pa) (s : Severity) :
    (conforms a = true ↔ ∀ s, countOf a s = 0) ∧ (conforms a = true ↔ ∀ r, r ∉ a) ∧
    countOf (a ++ r :: b) r.severity = countOf (a ++ b) r.severity + 1 ∧
    (s ≠ r.severity → countOf (a ++ r :: b) s = countOf (a ++ b) s) := by
  refine ⟨?_, ?_, ?_, fun hs => ?_⟩
  · constructor
    · intro h s
      rw [conforms, List.isEmpty_iff] at h
      rw [h]
      rfl
    · intro h
      cases a with
      | nil => rfl
      | cons r a =>
        have := h r.severity
        simp [countOf] at this
  · rw [conforms, List.isEmpty_iff, List.eq_nil_iff_forall_not_mem]
  · simp [countOf, List.filter_append]
    omega
  · have : ¬ r.severity = s := fun e => hs e.symm
    simp [countOf, List.filter_append, this]

end

/-- A result about a focus node. -/
def aResult (s : String) (v : Severity) : Result Unit Unit :=
  ⟨.iri s.toList, .iri [], v, none, none, none, none, s.toList⟩

/-- **C39** is false of the code: a report with a result twice is equal to one with two results, which is not equal to it.
The number of results of a severity also differs. -/
theorem C39_refuted : ∃ a b : List (Result Unit Unit), exEnv.sameReport a b = true ∧ exEnv.sameReport b a = false ∧
    countOf a .warning ≠ countOf b .warning :=
  ⟨[aResult "x" .warning, aResult "x" .warning], [aResult "x" .warning, aResult "y" .violation], by decide⟩

/-- The hypotheses of C39 and C77 are met. -/
example : TimeEq exEnv.X := ⟨fun _ => rfl, fun _ _ _ => rfl, fun _ _ _ _ _ => rfl⟩

/-- Reports that are equal, without repeated results. -/
example : exEnv.sameReport [aResult "x" .warning, aResult "y" .info] [aResult "y" .info, aResult "x" .warning] = true ∧
    exEnv.sameResult (aResult "x" .warning) (aResult "y" .info) = false := by decide

#print axioms C39_report_equality_partial
#print axioms C39_refuted
#print axioms C77_equal_reports_partial

/-- Two severities are told apart. -/
example : countOf [aResult "x" .warning, aResult "y" .info] .warning = 1 := by decide

end Shacl
