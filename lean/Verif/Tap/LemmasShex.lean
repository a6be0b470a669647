import Verif.Tap.SpecShex
import Mathlib.Data.List.Forall2
import Mathlib.Tactic.ByContra
import Mathlib.Tactic.SplitIfs

/-! # Lemmas about the conversion of DCTAP tables to ShEx -/

namespace Tap

theorem rsplitOnce_none {c : Char} : ∀ {s : Str}, Prefix.rsplitOnce c s = none ↔ c ∉ s
  | [] => by simp [Prefix.rsplitOnce]
  | x :: xs => by
    have ih := rsplitOnce_none (c := c) (s := xs)
    rw [Prefix.rsplitOnce]
    cases h : Prefix.rsplitOnce c xs with
    | some p =>
      rw [h] at ih
      have : c ∈ xs := by by_contra hc; simp [hc] at ih
      simp [this]
    | none =>
      have hc : c ∉ xs := ih.mp h
      by_cases hx : x = c
      · simp [hx]
      · simp [hx, hc, Ne.symm hx]

theorem rsplitOnce_some {c : Char} : ∀ {s a b : Str},
    Prefix.rsplitOnce c s = some (a, b) ↔ s = a ++ c :: b ∧ c ∉ b
  | [], a, b => by simp [Prefix.rsplitOnce]
  | x :: xs, a, b => by
    rw [Prefix.rsplitOnce]
    cases h : Prefix.rsplitOnce c xs with
    | some p =>
      obtain ⟨a', b'⟩ := p
      have h1 := rsplitOnce_some.mp h
      simp only [Option.some.injEq, Prod.mk.injEq]
      constructor
      · rintro ⟨rfl, rfl⟩
        exact ⟨by rw [h1.1]; rfl, h1.2⟩
      · rintro ⟨he, hb⟩
        cases a with
        | nil =>
          simp only [List.nil_append, List.cons.injEq] at he
          rw [← he.2] at hb
          exact absurd (by rw [h1.1]; simp) hb
        | cons y ys =>
          simp only [List.cons_append, List.cons.injEq] at he
          have := rsplitOnce_some.mpr ⟨he.2, hb⟩
          rw [h] at this
          simp only [Option.some.injEq, Prod.mk.injEq] at this
          rw [he.1, this.1, this.2]
          simp
    | none =>
      have hc := rsplitOnce_none.mp h
      constructor
      · split_ifs with hx
        · rintro h; simp only [Option.some.injEq, Prod.mk.injEq] at h
          obtain ⟨rfl, rfl⟩ := h
          exact ⟨by simp [hx], hc⟩
        · simp
      · rintro ⟨he, hb⟩
        cases a with
        | nil =>
          simp only [List.nil_append, List.cons.injEq] at he
          simp [he.1, he.2]
        | cons y ys =>
          simp only [List.cons_append, List.cons.injEq] at he
          exact absurd (by rw [he.2]; simp) hc

variable (T : Text) (cfg : ShexConfig) (valid : Str → Bool)

theorem extend_some {base s i : Str} :
    Prefix.iriExtend valid base s = some i ↔ i = Spec.joined base s ∧ valid i = true := by
  unfold Prefix.iriExtend Prefix.iriFromStr
  rw [← Spec.joined]
  by_cases h : valid (Spec.joined base s)
  · simp only [h, if_true, Option.some.injEq]
    exact ⟨fun h' => ⟨h'.symm, h' ▸ h⟩, fun h' => h'.1.symm⟩
  · simp only [h]
    constructor
    · intro h'; cases h'
    · rintro ⟨rfl, h'⟩; exact absurd h' h

theorem extendBase_ok {base s i : Str} :
    extendBase valid base s = .ok i ↔ i = Spec.joined base s ∧ valid i = true := by
  rw [← extend_some, extendBase]
  cases Prefix.iriExtend valid base s <;> simp

theorem inNamespace_iff {p l i : Str} :
    cfg.prefixmap.resolvePrefixLocal valid p l = some i ↔ Spec.InNamespace cfg valid p l i := by
  unfold Prefix.PrefixMap.resolvePrefixLocal Spec.InNamespace
  cases cfg.prefixmap.find p with
  | none => simp
  | some ns =>
    simp only [Option.some.injEq, exists_eq_left']
    by_cases hl : l = []
    · simp only [hl, if_true, Option.some.injEq, true_and, ne_eq, not_true, false_and, or_false]
      exact eq_comm
    · simp [hl, extend_some]

theorem resolveIri_ok {s iri : Str} {line : Nat} :
    resolveIri cfg valid s line = .ok iri ↔ Spec.Names cfg valid s iri := by
  unfold resolveIri prefixLocalName Spec.Names
  have hbase : ∀ (x l : Str), atBase cfg valid x l line = .ok iri ↔ Spec.AtBase cfg valid l iri := by
    intro x l
    unfold Spec.AtBase atBase
    cases cfg.baseIri with
    | none => simp
    | some b => simp [extendBase_ok]
  cases h : Prefix.rsplitOnce ':' s with
  | none =>
    have hc := rsplitOnce_none.mp h
    simp only
    rw [hbase]
    constructor
    · exact fun h => Or.inl ⟨hc, h⟩
    · rintro (h | ⟨p, l, rfl, _⟩)
      · exact h.2
      · simp at hc
  | some pl =>
    obtain ⟨p, l⟩ := pl
    obtain ⟨hs, hl⟩ := rsplitOnce_some.mp h
    have huniq : ∀ p' l', s = p' ++ ':' :: l' → ':' ∉ l' → p' = p ∧ l' = l := by
      intro p' l' h1 h2
      have := rsplitOnce_some.mpr ⟨h1, h2⟩
      rw [h] at this
      simp only [Option.some.injEq, Prod.mk.injEq] at this
      exact ⟨this.1.symm, this.2.symm⟩
    have hrhs : ((':' ∉ s ∧ Spec.AtBase cfg valid s iri) ∨ ∃ p l, s = p ++ ':' :: l ∧ ':' ∉ l ∧
        (Spec.InNamespace cfg valid p l iri ∨
          (p = [] ∧ (¬ ∃ j, Spec.InNamespace cfg valid [] l j) ∧ Spec.AtBase cfg valid l iri)))
        ↔ (Spec.InNamespace cfg valid p l iri ∨
          (p = [] ∧ (¬ ∃ j, Spec.InNamespace cfg valid [] l j) ∧ Spec.AtBase cfg valid l iri)) := by
      constructor
      · rintro (h | ⟨p', l', h1, h2, h3⟩)
        · exact absurd (by rw [hs]; simp) h.1
        · obtain ⟨rfl, rfl⟩ := huniq p' l' h1 h2
          exact h3
      · exact fun h => Or.inr ⟨p, l, hs, hl, h⟩
    rw [hrhs]
    simp only
    cases hr : cfg.prefixmap.resolvePrefixLocal valid p l with
    | some i =>
      have hi := (inNamespace_iff cfg valid).mp hr
      simp only [Except.ok.injEq]
      constructor
      · rintro rfl; exact Or.inl hi
      · rintro (h | ⟨rfl, h, _⟩)
        · have := (inNamespace_iff cfg valid).mpr h
          rw [hr] at this
          simpa using this
        · exact absurd ⟨i, hi⟩ h
    | none =>
      have hn : ∀ j, ¬ Spec.InNamespace cfg valid p l j := by
        intro j hj
        have := (inNamespace_iff cfg valid).mpr hj
        rw [hr] at this; cases this
      simp only
      by_cases hp : p = []
      · subst hp
        simp only [if_true]
        rw [hbase]
        simp [hn]
      · simp [hp, hn]

theorem names_unique {s i j : Str} (h1 : Spec.Names cfg valid s i) (h2 : Spec.Names cfg valid s j) : i = j := by
  have a := (resolveIri_ok cfg valid (line := 0)).mpr h1
  have b := (resolveIri_ok cfg valid (line := 0)).mpr h2
  rw [a] at b
  simpa using b

theorem resolveIri_error {s : Str} {line : Nat} :
    (∃ e, resolveIri cfg valid s line = .error e) ↔ ¬ ∃ i, Spec.Names cfg valid s i := by
  simp only [← resolveIri_ok cfg valid (line := line)]
  cases resolveIri cfg valid s line <;> simp

/-- Does the result say so when it succeeds? -/
def Ok {ε α : Type} (x : Except ε α) (possible : Prop) (P : α → Prop) : Prop :=
  match x with
  | .ok a => possible ∧ P a
  | .error _ => ¬ possible

theorem Ok.imp {ε α : Type} {x : Except ε α} {p q : Prop} {P Q : α → Prop} (h : Ok x p P) (hp : p ↔ q)
    (hPQ : ∀ a, p → P a → Q a) : Ok x q Q := by
  unfold Ok at *
  cases x with
  | ok a => exact ⟨hp.mp h.1, hPQ a h.1 h.2⟩
  | error e => exact fun hq => h (hp.mpr hq)

theorem resolve_spec (s : Str) (line : Nat) :
    Ok (resolveIri cfg valid s line) (∃ i, Spec.Names cfg valid s i) (Spec.Names cfg valid s) := by
  unfold Ok
  cases h : resolveIri cfg valid s line with
  | ok i => exact ⟨⟨i, (resolveIri_ok cfg valid).mp h⟩, (resolveIri_ok cfg valid).mp h⟩
  | error e => exact (resolveIri_error cfg valid).mp ⟨e, h⟩

theorem parseValue_spec (line : Nat) (v : Val) :
    Ok (parseValue cfg valid line v) (∃ i, Spec.Choice cfg valid v i) (Spec.Choice cfg valid v) := by
  cases v with
  | str s => exact resolve_spec cfg valid s line
  | iri i => simp [parseValue, Ok, Spec.Choice]

theorem parseValuesLoop_spec (line : Nat) : ∀ vs : List Val,
    Ok (parseValuesLoop cfg valid line vs) (∀ v ∈ vs, ∃ i, Spec.Choice cfg valid v i)
      (List.Forall₂ (Spec.Choice cfg valid) vs)
  | [] => by simp [parseValuesLoop, Ok]
  | v :: vs => by
    have h := parseValue_spec cfg valid line v
    have ih := parseValuesLoop_spec line vs
    unfold Ok at *
    rw [parseValuesLoop]
    cases hv : parseValue cfg valid line v with
    | error e => rw [hv] at h; simp only at h ⊢; exact fun h' => h (h' v (by simp))
    | ok i =>
      rw [hv] at h
      cases hvs : parseValuesLoop cfg valid line vs with
      | error e =>
        rw [hvs] at ih; simp only at ih ⊢
        exact fun h' => ih fun x hx => h' x (by simp [hx])
      | ok is =>
        rw [hvs] at ih
        simp only at ih h ⊢
        refine ⟨?_, List.Forall₂.cons h.2 ih.2⟩
        intro x hx
        rcases List.mem_cons.mp hx with rfl | hx
        · exact h.1
        · exact ih.1 x hx

/-- What a constraint must be. -/
def ConstraintOk (c : Option Constraint) : Prop :=
  ∀ x, c = some x → ∃ vs, x = .picklist vs ∧ ∀ v ∈ vs, ∃ i, Spec.Choice cfg valid v i

/-- The values of a constraint. -/
def Values (c : Option Constraint) (xs : Option (List Str)) : Prop :=
  match c, xs with
  | none, none => True
  | some (.picklist vs), some is => List.Forall₂ (Spec.Choice cfg valid) vs is
  | _, _ => False

theorem parseConstraintOpt_spec (line : Nat) (c : Option Constraint) :
    Ok (parseConstraintOpt cfg valid line c) (ConstraintOk cfg valid c) (Values cfg valid c) := by
  cases c with
  | none => simp [parseConstraintOpt, Ok, ConstraintOk, Values]
  | some c =>
    cases c with
    | picklist vs =>
      have h := parseValuesLoop_spec cfg valid line vs
      unfold Ok at *
      rw [parseConstraintOpt, parseConstraint]
      cases hv : parseValuesLoop cfg valid line vs with
      | error e =>
        rw [hv] at h
        simp only at h ⊢
        intro h'
        obtain ⟨vs', h1, h2⟩ := h' _ rfl
        cases h1
        exact h h2
      | ok is =>
        rw [hv] at h
        simp only at h ⊢
        exact ⟨fun x hx => ⟨vs, by cases hx; rfl, h.1⟩, h.2⟩
    | pattern s =>
      simp only [parseConstraintOpt, parseConstraint, Ok]
      intro h; obtain ⟨vs, h1, _⟩ := h _ rfl; cases h1
    | other =>
      simp only [parseConstraintOpt, parseConstraint, Ok]
      intro h; obtain ⟨vs, h1, _⟩ := h _ rfl; cases h1

section
variable {N : Type} (w : World N)

theorem acceptsAll_iff (n : N) : ∀ es : List ValueExpr,
    ValueExpr.AcceptsAll w n es ↔ ∀ e ∈ es, e.Accepts w n
  | [] => by simp [ValueExpr.AcceptsAll]
  | e :: es => by simp [ValueExpr.AcceptsAll, acceptsAll_iff n es]

theorem acceptsSome_iff (n : N) : ∀ es : List ValueExpr,
    ValueExpr.AcceptsSome w n es ↔ ∃ e ∈ es, e.Accepts w n
  | [] => by simp [ValueExpr.AcceptsSome]
  | e :: es => by simp [ValueExpr.AcceptsSome, acceptsSome_iff n es]

theorem forall₂_exists {α β : Type} {R : α → β → Prop} {P : β → Prop} (hu : ∀ a b b', R a b → R a b' → b = b') :
    ∀ {xs : List α} {ys : List β}, List.Forall₂ R xs ys → ((∃ y ∈ ys, P y) ↔ ∃ x ∈ xs, ∃ y, R x y ∧ P y)
  | _, _, .nil => by simp
  | _, _, .cons (a := x) (b := y) h hs => by
    have ih := forall₂_exists (P := P) hu hs
    simp only [List.mem_cons, exists_eq_or_imp, ih]
    constructor
    · rintro (hy | h')
      · exact Or.inl ⟨y, h, hy⟩
      · exact Or.inr h'
    · rintro (⟨y', hy', hp⟩ | h')
      · rw [hu _ _ _ h hy']; exact Or.inl hp
      · exact Or.inr h'

theorem choice_unique {v : Val} {i j : Str} (h1 : Spec.Choice cfg valid v i) (h2 : Spec.Choice cfg valid v j) :
    i = j := by
  cases v with
  | str s => exact names_unique cfg valid h1 h2
  | iri k => exact Eq.trans h1 (Eq.symm h2)

/-- The values of a constraint, read on a node. -/
theorem values_iff {c : Option Constraint} {xs : Option (List Str)} (h : Values cfg valid c xs) (n : N) :
    (∀ is ∈ xs, ∃ i ∈ is, w.iri n = some i) ↔
      ∀ vs, c = some (.picklist vs) → ∃ v ∈ vs, ∃ i, Spec.Choice cfg valid v i ∧ w.iri n = some i := by
  match c, xs, h with
  | none, none, _ => simp
  | some (.picklist vs), some is, h =>
    have h : List.Forall₂ (Spec.Choice cfg valid) vs is := h
    have := forall₂_exists (R := Spec.Choice cfg valid) (P := fun i => w.iri n = some i)
      (fun a b b' h1 h2 => choice_unique cfg valid h1 h2) h
    simp [this]

theorem datatypesLoop_spec (line : Nat) (c : Option Constraint) : ∀ ds : List Id,
    Ok (datatypesLoop cfg valid line c ds)
      ((∀ d ∈ ds, ∃ i, Spec.Names cfg valid d.str i) ∧ (ds ≠ [] → ConstraintOk cfg valid c))
      (fun es => List.Forall₂ (fun (d : Id) e => ∃ i xs, Spec.Names cfg valid d.str i ∧ Values cfg valid c xs ∧
        e = ValueExpr.nodeConstraint (some i) xs) ds es)
  | [] => by simp [datatypesLoop, Ok]
  | d :: ds => by
    have h1 := resolve_spec cfg valid d.str d.line
    have h2 := parseConstraintOpt_spec cfg valid line c
    have ih := datatypesLoop_spec line c ds
    unfold Ok at *
    rw [datatypesLoop]
    cases hd : resolveIri cfg valid d.str d.line with
    | error e => rw [hd] at h1; simp only at h1 ⊢; exact fun h' => h1 (h'.1 d (by simp))
    | ok i =>
      rw [hd] at h1
      simp only at h1 ⊢
      cases hc : parseConstraintOpt cfg valid line c with
      | error e => rw [hc] at h2; simp only at h2 ⊢; exact fun h' => h2 (h'.2 (by simp))
      | ok xs =>
        rw [hc] at h2
        simp only at h2 ⊢
        cases hl : datatypesLoop cfg valid line c ds with
        | error e =>
          rw [hl] at ih; simp only at ih ⊢
          exact fun h' => ih ⟨fun x hx => h'.1 x (by simp [hx]), fun _ => h'.2 (by simp)⟩
        | ok es =>
          rw [hl] at ih
          simp only at ih ⊢
          refine ⟨⟨?_, fun _ => h2.1⟩, List.Forall₂.cons ⟨i, xs, h1.2, h2.2, rfl⟩ ih.2⟩
          intro x hx
          rcases List.mem_cons.mp hx with rfl | hx
          · exact h1.1
          · exact ih.1.1 x hx

/-- What is kept of the datatypes and the constraint: nothing when there is exactly one datatype. -/
def Kept (st : Statement) (n : N) : Prop :=
  st.datatypes.length = 1 ∨ (Spec.DatatypeOk cfg valid w st n ∧ Spec.ChoiceOk cfg valid w st n)

theorem parseNodeConstraint_spec (st : Statement) :
    Ok (parseNodeConstraint cfg valid st)
      ((∀ d ∈ st.datatypes, ∃ i, Spec.Names cfg valid d.str i) ∧ ConstraintOk cfg valid st.constraint)
      (fun se => ∀ n : N, (∀ e ∈ se, e.Accepts w n) ↔ Kept cfg valid w st n) := by
  have hc := parseConstraintOpt_spec cfg valid (st.line.getD 0) st.constraint
  unfold parseNodeConstraint Kept Spec.DatatypeOk Spec.ChoiceOk
  match hds : st.datatypes with
  | [] =>
    simp only [List.length_nil, List.not_mem_nil, false_imp_iff, implies_true, true_and, true_or]
    cases hcon : st.constraint with
    | none =>
      simp [Ok, ConstraintOk]
    | some c =>
      rw [hcon, parseConstraintOpt] at hc
      simp only
      cases hp : parseConstraint cfg valid (st.line.getD 0) c with
      | error e => rw [hp] at hc; exact hc
      | ok vs =>
        rw [hp] at hc
        refine ⟨hc.1, ?_⟩
        intro n
        have := values_iff cfg valid w hc.2 n
        simp only [Option.mem_def, Option.some.injEq, forall_eq', ValueExpr.Accepts, reduceCtorEq,
          false_imp_iff, implies_true, true_and, Nat.zero_ne_one, false_or] at this ⊢
        exact this
  | [d] =>
    have h1 := resolve_spec cfg valid d.str d.line
    simp only [List.length_singleton, true_or, List.mem_singleton, forall_eq]
    cases hd : resolveIri cfg valid d.str d.line with
    | error e => rw [hd] at h1; exact fun h' => h1 h'.1
    | ok i =>
      rw [hd] at h1
      simp only
      cases hp : parseConstraintOpt cfg valid (st.line.getD 0) st.constraint with
      | error e => rw [hp] at hc; exact fun h' => hc h'.2
      | ok xs =>
        rw [hp] at hc
        exact ⟨⟨h1.1, hc.1⟩, by simp⟩
  | d :: d' :: ds =>
    have h := datatypesLoop_spec cfg valid (st.line.getD 0) st.constraint (d :: d' :: ds)
    simp only
    cases hl : datatypesLoop cfg valid (st.line.getD 0) st.constraint (d :: d' :: ds) with
    | error e =>
      rw [hl] at h
      exact fun h' => h ⟨h'.1, fun _ => h'.2⟩
    | ok es =>
      rw [hl] at h
      obtain ⟨⟨h1, h2⟩, h3⟩ := h
      have h2 := h2 (by simp)
      refine ⟨⟨h1, h2⟩, ?_⟩
      intro n
      simp only [Option.mem_def, Option.some.injEq, forall_eq', ValueExpr.Accepts, acceptsSome_iff,
        List.length_cons, reduceCtorEq, false_or]
      have hlen : ¬ (ds.length + 1 + 1 = 1) := by omega
      simp only [hlen, false_or]
      have hP : ∀ xs, Values cfg valid st.constraint xs →
          ((∀ is ∈ xs, ∃ i ∈ is, w.iri n = some i) ↔
            ∀ vs, st.constraint = some (.picklist vs) →
              ∃ v ∈ vs, ∃ i, Spec.Choice cfg valid v i ∧ w.iri n = some i) :=
        fun xs hx => values_iff cfg valid w hx n
      generalize (∀ vs, st.constraint = some (.picklist vs) →
              ∃ v ∈ vs, ∃ i, Spec.Choice cfg valid v i ∧ w.iri n = some i) = Q at hP
      clear hl h1
      generalize d :: d' :: ds = dl at h3
      induction h3 with
      | nil => simp
      | cons hx _ ih =>
        obtain ⟨i, xs, hn, hv, rfl⟩ := hx
        simp only [List.mem_cons, exists_eq_or_imp, ih, ValueExpr.Accepts, Option.mem_def, Option.some.injEq,
          forall_eq']
        have hP' := hP xs hv
        simp only [Option.mem_def] at hP'
        rw [hP', or_and_right]
        refine or_congr ?_ Iff.rfl
        constructor
        · rintro ⟨h1, h2⟩; exact ⟨⟨i, hn, h1⟩, h2⟩
        · rintro ⟨⟨j, hj, h1⟩, h2⟩; rw [names_unique cfg valid hn hj]; exact ⟨h1, h2⟩

theorem splitWhitespace_eq : ∀ s : Str,
    splitWhitespace T s = (s.splitOnP T.ws).filter fun w => w ≠ []
  | [] => by simp [splitWhitespace, List.splitOnP_nil]
  | c :: cs => by
    have ih := splitWhitespace_eq cs
    rw [splitWhitespace.eq_def]
    simp only
    rw [List.splitOnP_cons]
    by_cases hc : T.ws c
    · simp [hc, ih]
    · simp only [hc, Bool.false_eq_true, if_false]
      cases cs with
      | nil => simp [List.splitOnP_nil]
      | cons d ds =>
        by_cases hd : T.ws d
        · simp only [hd, if_true, ih]
          rw [List.splitOnP_cons]
          simp [hd]
        · simp only [hd, Bool.false_eq_true, if_false]
          rw [ih, List.splitOnP_cons]
          simp only [hd, Bool.false_eq_true, if_false]
          cases hsp : ds.splitOnP T.ws with
          | nil => exact absurd hsp (List.splitOnP_ne_nil _ _)
          | cons p ps => simp

theorem shapeRefsLoop_spec (line : Nat) : ∀ ws : List Str,
    Ok (shapeRefsLoop cfg valid line ws)
      (∀ s ∈ ws.filter (fun x => x ≠ [cfg.valueShapeDelimiter]), ∃ i, Spec.Names cfg valid s i)
      (fun es => List.Forall₂ (fun s e => ∃ i, Spec.Names cfg valid s i ∧ e = ValueExpr.ref i)
        (ws.filter (fun x => x ≠ [cfg.valueShapeDelimiter])) es)
  | [] => by simp [shapeRefsLoop, Ok]
  | s :: ws => by
    have ih := shapeRefsLoop_spec line ws
    rw [shapeRefsLoop]
    by_cases hs : s = [cfg.valueShapeDelimiter]
    · simpa [hs] using ih
    · have h1 := resolve_spec cfg valid s line
      rw [List.filter_cons_of_pos (by simpa using hs)]
      simp only [hs, if_false]
      unfold Ok at *
      cases hd : resolveIri cfg valid s line with
      | error e => rw [hd] at h1; simp only at h1 ⊢; exact fun h' => h1 (h' s (by simp))
      | ok i =>
        rw [hd] at h1
        simp only at h1 ⊢
        cases hl : shapeRefsLoop cfg valid line ws with
        | error e =>
          rw [hl] at ih; simp only at ih ⊢
          exact fun h' => ih fun x hx => h' x (List.mem_cons_of_mem _ hx)
        | ok es =>
          rw [hl] at ih
          simp only at ih ⊢
          refine ⟨?_, List.Forall₂.cons ⟨i, h1.2, rfl⟩ ih.2⟩
          intro x hx
          rcases List.mem_cons.mp hx with rfl | hx
          · exact h1.1
          · exact ih.1 x hx

theorem addShapes_iff (se : Option ValueExpr) (es : List ValueExpr) (n : N) :
    (∀ e ∈ addShapes se es, e.Accepts w n) ↔
      (∀ e ∈ se, e.Accepts w n) ∧ (es = [] ∨ ∃ e ∈ es, e.Accepts w n) := by
  match es with
  | [] => simp [addShapes]
  | [e] => cases se <;> simp [addShapes, ValueExpr.Accepts, ValueExpr.AcceptsAll]
  | e :: e' :: es =>
    cases se <;> simp [addShapes, ValueExpr.Accepts, ValueExpr.AcceptsAll, acceptsSome_iff]

theorem valueExpr_spec (st : Statement) :
    Ok (valueExpr T cfg valid st)
      ((∀ d ∈ st.datatypes, ∃ i, Spec.Names cfg valid d.str i) ∧ ConstraintOk cfg valid st.constraint ∧
        ∀ s ∈ Spec.shapeNames T cfg st, ∃ i, Spec.Names cfg valid s i)
      (fun se => ∀ n : N, (∀ e ∈ se, e.Accepts w n) ↔
        Kept cfg valid w st n ∧ Spec.ShapesOk T cfg valid w st n) := by
  have h1 := parseNodeConstraint_spec cfg valid w st
  rw [valueExpr]
  cases hp : parseNodeConstraint cfg valid st with
  | error e => rw [hp] at h1; exact fun h' => h1 ⟨h'.1, h'.2.1⟩
  | ok se =>
    rw [hp] at h1
    simp only
    rw [parseShapeRef]
    unfold Spec.ShapesOk Spec.shapeNames
    cases hs : st.shape with
    | none =>
      simp only [Ok, List.not_mem_nil, false_imp_iff, implies_true, and_true, true_or]
      exact ⟨h1.1, h1.2⟩
    | some r =>
      simp only
      have h2 := shapeRefsLoop_spec cfg valid r.line (splitWhitespace T r.str)
      rw [splitWhitespace_eq] at h2 ⊢
      cases hl : shapeRefsLoop cfg valid r.line ((r.str.splitOnP T.ws).filter fun w => w ≠ []) with
      | error e => rw [hl] at h2; exact fun h' => h2 h'.2.2
      | ok es =>
        rw [hl] at h2
        refine ⟨⟨h1.1.1, h1.1.2, h2.1⟩, ?_⟩
        intro n
        rw [addShapes_iff, h1.2 n]
        refine and_congr Iff.rfl ?_
        have h3 := h2.2
        simp only at h3
        clear h2 hl
        generalize ((r.str.splitOnP T.ws).filter fun w => decide (w ≠ [])).filter
          (fun x => decide (x ≠ [cfg.valueShapeDelimiter])) = ws at h3
        refine or_congr ?_ ?_
        · cases h3 <;> simp
        · induction h3 with
          | nil => simp
          | cons hx _ ih =>
            obtain ⟨i, hn, rfl⟩ := hx
            simp only [List.mem_cons, exists_eq_or_imp, ih, ValueExpr.Accepts]
            refine or_congr ?_ Iff.rfl
            constructor
            · exact fun h => ⟨i, hn, h⟩
            · rintro ⟨j, hj, h⟩; rw [names_unique cfg valid hn hj]; exact h

end

/-- What the triple constraint of a statement is. -/
structure Converted (st : Statement) (t : TripleConstraint) : Prop where
  predicate : Spec.Names cfg valid st.property.str t.predicate
  label : t.annotations = st.label.map fun l => [l]
  min : t.min = getMin st.mandatory
  max : t.max = getMax st.repeatable
  value : ∀ (N : Type) (w : World N) (n : N), t.AcceptsValue w n ↔
    Kept cfg valid w st n ∧ Spec.ShapesOk T cfg valid w st n

theorem tripleConstraint_spec (st : Statement) :
    Ok (tripleConstraint T cfg valid st) (Spec.StatementOk T cfg valid st) (Converted T cfg valid st) := by
  have h1 := resolve_spec cfg valid st.property.str st.property.line
  rw [tripleConstraint]
  cases hr : resolveIri cfg valid st.property.str st.property.line with
  | error e => rw [hr] at h1; exact fun h' => h1 h'.1
  | ok p =>
    rw [hr] at h1
    simp only
    cases hv : valueExpr T cfg valid st with
    | error e =>
      have h2 := valueExpr_spec T cfg valid (⟨fun _ => none, fun _ => none, fun _ => .iri, fun _ _ => True⟩ : World Unit) st
      rw [hv] at h2
      exact fun h' => h2 ⟨h'.2.1, h'.2.2.1, h'.2.2.2⟩
    | ok se =>
      have hok : Spec.StatementOk T cfg valid st := by
        have h2 := valueExpr_spec T cfg valid (⟨fun _ => none, fun _ => none, fun _ => .iri, fun _ _ => True⟩ : World Unit) st
        rw [hv] at h2
        exact ⟨h1.1, h2.1.1, h2.1.2.1, h2.1.2.2⟩
      have hval : ∀ (N : Type) (w : World N) (n : N), (∀ e ∈ se, e.Accepts w n) ↔
          Kept cfg valid w st n ∧ Spec.ShapesOk T cfg valid w st n := by
        intro N w n
        have h2 := valueExpr_spec T cfg valid w st
        rw [hv] at h2
        exact h2.2 n
      cases hl : st.label with
      | none => exact ⟨hok, ⟨h1.2, by simp [hl], rfl, rfl, hval⟩⟩
      | some l => exact ⟨hok, ⟨h1.2, by simp [hl, TripleConstraint.addAnnotation], rfl, rfl, hval⟩⟩

theorem statementsLoop_spec : ∀ sts : List Statement,
    Ok (statementsLoop T cfg valid sts) (∀ st ∈ sts, Spec.StatementOk T cfg valid st)
      (List.Forall₂ (Converted T cfg valid) sts)
  | [] => by simp [statementsLoop, Ok]
  | st :: sts => by
    have h := tripleConstraint_spec T cfg valid st
    have ih := statementsLoop_spec sts
    unfold Ok at *
    rw [statementsLoop]
    cases hv : tripleConstraint T cfg valid st with
    | error e => rw [hv] at h; simp only at h ⊢; exact fun h' => h (h' st (by simp))
    | ok t =>
      rw [hv] at h
      cases hvs : statementsLoop T cfg valid sts with
      | error e =>
        rw [hvs] at ih; simp only at ih ⊢
        exact fun h' => ih fun x hx => h' x (by simp [hx])
      | ok ts =>
        rw [hvs] at ih
        simp only at ih h ⊢
        refine ⟨?_, List.Forall₂.cons h.2 ih.2⟩
        intro x hx
        rcases List.mem_cons.mp hx with rfl | hx
        · exact h.1
        · exact ih.1 x hx

theorem extendsLoop_spec : ∀ (es : List ExtendsId) (s : ShexShape),
    Ok (extendsLoop cfg valid s es) (∀ e ∈ es, ∃ i, Spec.Names cfg valid e.str i)
      (fun s' => s'.expression = s.expression ∧ s'.annotations = s.annotations ∧
        ∃ is, List.Forall₂ (fun (e : ExtendsId) i => Spec.Names cfg valid e.str i) es is ∧
          s'.extends_.getD [] = s.extends_.getD [] ++ is)
  | [], s => by simp [extendsLoop, Ok]
  | e :: es, s => by
    have h := resolve_spec cfg valid e.str e.line
    rw [extendsLoop]
    cases hv : resolveIri cfg valid e.str e.line with
    | error _ => rw [hv] at h; exact fun h' => h (h' e (by simp))
    | ok i =>
      rw [hv] at h
      have ih := extendsLoop_spec es (s.addExtend i)
      refine ih.imp ?_ ?_
      · constructor
        · intro h' x hx
          rcases List.mem_cons.mp hx with rfl | hx
          · exact h.1
          · exact h' x hx
        · exact fun h' x hx => h' x (by simp [hx])
      · rintro s' _ ⟨h1, h2, is, h3, h4⟩
        have ha : (s.addExtend i).expression = s.expression ∧ (s.addExtend i).annotations = s.annotations
            ∧ (s.addExtend i).extends_.getD [] = s.extends_.getD [] ++ [i] := by
          unfold ShexShape.addExtend
          cases s.extends_ <;> simp
        exact ⟨h1.trans ha.1, h2.trans ha.2.1, i :: is, List.Forall₂.cons h.2 h3, by rw [h4, ha.2.2]; simp⟩

/-- What the declaration of a shape is. -/
structure Declared (s : Shape) (d : ShexDecl) : Prop where
  id : ∃ i, s.id = some i ∧ Spec.Names cfg valid i.str d.id
  label : d.shape.annotations = s.label.map fun l => [l]
  extends_ : List.Forall₂ (fun (e : ExtendsId) i => Spec.Names cfg valid e.str i) s.extends_
    (d.shape.extends_.getD [])
  statements : List.Forall₂ (Converted T cfg valid) s.statements (d.shape.expression.getD [])

theorem shapeExpr_spec (s : Shape) :
    Ok (shapeExpr T cfg valid s)
      ((∀ st ∈ s.statements, Spec.StatementOk T cfg valid st) ∧
        ∀ e ∈ s.extends_, ∃ i, Spec.Names cfg valid e.str i)
      (fun sh => sh.annotations = none ∧
        List.Forall₂ (fun (e : ExtendsId) i => Spec.Names cfg valid e.str i) s.extends_ (sh.extends_.getD []) ∧
        List.Forall₂ (Converted T cfg valid) s.statements (sh.expression.getD [])) := by
  have h1 := statementsLoop_spec T cfg valid s.statements
  rw [shapeExpr]
  cases hs : statementsLoop T cfg valid s.statements with
  | error e => rw [hs] at h1; exact fun h' => h1 h'.1
  | ok ts =>
    rw [hs] at h1
    simp only
    refine (extendsLoop_spec cfg valid s.extends_ _).imp ?_ ?_
    · exact ⟨fun h => ⟨h1.1, h⟩, fun h => h.2⟩
    · rintro sh _ ⟨h2, h3, is, h4, h5⟩
      refine ⟨h3, ?_, ?_⟩
      · rw [h5]; simpa using h4
      · rw [h2]
        have : (if ts.isEmpty then none else some ts).getD [] = ts := by
          cases ts <;> simp
        simp only
        rw [this]
        exact h1.2

theorem shapeDecl_spec (s : Shape) :
    Ok (shapeDecl T cfg valid s) (Spec.ShapeOk T cfg valid s) (Declared T cfg valid s) := by
  rw [shapeDecl]
  cases hi : s.id with
  | none => rintro ⟨⟨i, h, _⟩, _⟩; rw [hi] at h; cases h
  | some i =>
    have h1 := resolve_spec cfg valid i.str i.line
    simp only
    cases hr : resolveIri cfg valid i.str i.line with
    | error e =>
      rw [hr] at h1
      rintro ⟨⟨j, hj, h⟩, _⟩
      rw [hi] at hj
      cases hj
      exact h1 h
    | ok id =>
      rw [hr] at h1
      simp only
      have h2 := shapeExpr_spec T cfg valid s
      cases hs : shapeExpr T cfg valid s with
      | error e => rw [hs] at h2; exact fun h' => h2 ⟨h'.2.2, h'.2.1⟩
      | ok sh =>
        rw [hs] at h2
        obtain ⟨⟨h3, h4⟩, h5, h6, h7⟩ := h2
        have hok : Spec.ShapeOk T cfg valid s := ⟨⟨i, hi, h1.1⟩, h4, h3⟩
        cases hl : s.label with
        | none => exact ⟨hok, ⟨⟨i, hi, h1.2⟩, by simp [hl, h5], h6, h7⟩⟩
        | some l =>
          have ha : (⟨id, sh⟩ : ShexDecl).addAnnotation l = ⟨id, { sh with annotations := some [l] }⟩ := by
            unfold ShexDecl.addAnnotation
            simp only [h5]
          simp only
          rw [ha]
          exact ⟨hok, ⟨⟨i, hi, h1.2⟩, by simp [hl], h6, h7⟩⟩

theorem convertLoop_spec : ∀ (ss : List Shape) (ds : List ShexDecl),
    Ok (convertLoop T cfg valid ds ss) (∀ s ∈ ss, Spec.ShapeOk T cfg valid s)
      (fun ds' => ∃ es, ds' = ds ++ es ∧ List.Forall₂ (Declared T cfg valid) ss es)
  | [], ds => by simp [convertLoop, Ok]
  | s :: ss, ds => by
    have h := shapeDecl_spec T cfg valid s
    rw [convertLoop]
    cases hv : shapeDecl T cfg valid s with
    | error _ => rw [hv] at h; exact fun h' => h (h' s (by simp))
    | ok d =>
      rw [hv] at h
      refine (convertLoop_spec ss (ds ++ [d])).imp ?_ ?_
      · constructor
        · intro h' x hx
          rcases List.mem_cons.mp hx with rfl | hx
          · exact h.1
          · exact h' x hx
        · exact fun h' x hx => h' x (by simp [hx])
      · rintro ds' _ ⟨es, rfl, h1⟩
        exact ⟨d :: es, by simp, List.Forall₂.cons h.2 h1⟩

end Tap
