import Verif.Pg.BaseLemmas

/-!
# Lemmas on the semantics of specifications
-/

namespace Pg

theorem semantics_mono (S : Schema) (n : Nat) (s : Spec) (x : Except Err BaseType)
    (h : Spec.semantics S n s = some x) : Spec.semantics S (n + 1) s = some x := by
  induction n generalizing s x with
  | zero => cases h
  | succ n ih =>
    cases s with
    | empty => exact h
    | label l => exact h
    | ref name =>
      rw [Spec.semantics] at h ⊢
      cases hn : S.getNodeSemantics name with
      | error e => rw [hn] at h; exact h
      | ok s' => rw [hn] at h; exact ih _ _ h
    | optional s =>
      rw [Spec.semantics] at h ⊢
      cases hs : Spec.semantics S n s with
      | none => rw [hs] at h; cases h
      | some y => rw [hs] at h; rw [ih _ _ hs]; exact h
    | opened s =>
      rw [Spec.semantics] at h ⊢
      cases hs : Spec.semantics S n s with
      | none => rw [hs] at h; cases h
      | some y => rw [hs] at h; rw [ih _ _ hs]; exact h
    | content s p =>
      rw [Spec.semantics] at h ⊢
      cases hs : Spec.semantics S n s with
      | none => rw [hs] at h; cases h
      | some y => rw [hs] at h; rw [ih _ _ hs]; exact h
    | and a b =>
      rw [Spec.semantics] at h ⊢
      cases ha : Spec.semantics S n a with
      | none => rw [ha] at h; cases h
      | some y =>
        rw [ha] at h
        rw [ih _ _ ha]
        cases y with
        | error e => exact h
        | ok t =>
          simp only at h ⊢
          cases hb : Spec.semantics S n b with
          | none => rw [hb] at h; cases h
          | some z => rw [hb] at h; rw [ih _ _ hb]; exact h
    | or a b =>
      rw [Spec.semantics] at h ⊢
      cases ha : Spec.semantics S n a with
      | none => rw [ha] at h; cases h
      | some y =>
        rw [ha] at h
        rw [ih _ _ ha]
        cases y with
        | error e => exact h
        | ok t =>
          simp only at h ⊢
          cases hb : Spec.semantics S n b with
          | none => rw [hb] at h; cases h
          | some z => rw [hb] at h; rw [ih _ _ hb]; exact h

theorem semantics_le (S : Schema) {n m : Nat} (hnm : n ≤ m) (s : Spec) (x : Except Err BaseType)
    (h : Spec.semantics S n s = some x) : Spec.semantics S m s = some x := by
  induction hnm with
  | refl => exact h
  | step _ ih => exact semantics_mono S _ s x ih

/-- What a successful computation of the semantics has computed. -/
def SemInv (S : Schema) (n : Nat) (t : BaseType) : Spec → Prop
  | .empty => t = BaseType.type0
  | .label l => t = BaseType.fromLabel l
  | .ref name => ∃ id s', S.nodeNames.lookup name = some id ∧ S.nodeTypes.lookup id = some s' ∧
      Spec.semantics S n s' = some (.ok t)
  | .optional s => ∃ u, Spec.semantics S n s = some (.ok u) ∧ t = u.union BaseType.type0
  | .and a b => ∃ u v, Spec.semantics S n a = some (.ok u) ∧ Spec.semantics S n b = some (.ok v) ∧ t = u.combine v
  | .or a b => ∃ u v, Spec.semantics S n a = some (.ok u) ∧ Spec.semantics S n b = some (.ok v) ∧ t = u.union v
  | .opened s => ∃ u, Spec.semantics S n s = some (.ok u) ∧ t = u.withOpen
  | .content s p => ∃ u, Spec.semantics S n s = some (.ok u) ∧ t = u.combine p.semantics

theorem semantics_inv (S : Schema) (n : Nat) (s : Spec) (t : BaseType) (h : Spec.semantics S (n + 1) s = some (.ok t)) :
    SemInv S n t s := by
  cases s with
  | empty =>
    rw [Spec.semantics] at h
    simp only [Option.some.injEq, Except.ok.injEq] at h
    exact h.symm
  | label l =>
    rw [Spec.semantics] at h
    simp only [Option.some.injEq, Except.ok.injEq] at h
    exact h.symm
  | ref name =>
    rw [Spec.semantics] at h
    simp only [Schema.getNodeSemantics] at h
    cases h1 : S.nodeNames.lookup name with
    | none => rw [h1] at h; cases h
    | some id =>
      rw [h1] at h
      simp only at h
      cases h2 : S.nodeTypes.lookup id with
      | none => rw [h2] at h; cases h
      | some s' => rw [h2] at h; exact ⟨id, s', h1, h2, h⟩
  | optional s =>
    rw [Spec.semantics] at h
    cases hs : Spec.semantics S n s with
    | none => rw [hs] at h; cases h
    | some y =>
      rw [hs] at h
      cases y with
      | error e => cases h
      | ok u => cases h; exact ⟨u, hs, rfl⟩
  | opened s =>
    rw [Spec.semantics] at h
    cases hs : Spec.semantics S n s with
    | none => rw [hs] at h; cases h
    | some y =>
      rw [hs] at h
      cases y with
      | error e => cases h
      | ok u => cases h; exact ⟨u, hs, rfl⟩
  | content s p =>
    rw [Spec.semantics] at h
    cases hs : Spec.semantics S n s with
    | none => rw [hs] at h; cases h
    | some y =>
      rw [hs] at h
      cases y with
      | error e => cases h
      | ok u => cases h; exact ⟨u, hs, rfl⟩
  | and a b =>
    rw [Spec.semantics] at h
    cases ha : Spec.semantics S n a with
    | none => rw [ha] at h; cases h
    | some y =>
      rw [ha] at h
      cases y with
      | error e => cases h
      | ok u =>
        simp only at h
        cases hb : Spec.semantics S n b with
        | none => rw [hb] at h; cases h
        | some z =>
          rw [hb] at h
          cases z with
          | error e => cases h
          | ok v => cases h; exact ⟨u, v, ha, hb, rfl⟩
  | or a b =>
    rw [Spec.semantics] at h
    cases ha : Spec.semantics S n a with
    | none => rw [ha] at h; cases h
    | some y =>
      rw [ha] at h
      cases y with
      | error e => cases h
      | ok u =>
        simp only at h
        cases hb : Spec.semantics S n b with
        | none => rw [hb] at h; cases h
        | some z =>
          rw [hb] at h
          cases z with
          | error e => cases h
          | ok v => cases h; exact ⟨u, v, ha, hb, rfl⟩

theorem semantics_resolves (S : Schema) (s : Spec) (hs : Resolves S s) :
    ∃ n0 t, ∀ n, n0 ≤ n → Spec.semantics S n s = some (.ok t) := by
  have key : ∃ n t, Spec.semantics S n s = some (.ok t) := by
    induction hs with
    | empty => exact ⟨1, _, rfl⟩
    | label l => exact ⟨1, _, rfl⟩
    | @ref name id s h1 h2 _ ih =>
      obtain ⟨n, t, h⟩ := ih
      exact ⟨n + 1, t, by simp [Spec.semantics, Schema.getNodeSemantics, h1, h2, h]⟩
    | optional _ ih =>
      obtain ⟨n, t, h⟩ := ih
      exact ⟨n + 1, _, by simp only [Spec.semantics, h]; rfl⟩
    | opened _ ih =>
      obtain ⟨n, t, h⟩ := ih
      exact ⟨n + 1, _, by simp only [Spec.semantics, h]; rfl⟩
    | content _ ih =>
      obtain ⟨n, t, h⟩ := ih
      exact ⟨n + 1, _, by simp only [Spec.semantics, h]; rfl⟩
    | and _ _ iha ihb =>
      obtain ⟨n, t, h⟩ := iha
      obtain ⟨m, u, h'⟩ := ihb
      refine ⟨max n m + 1, t.combine u, ?_⟩
      simp only [Spec.semantics, semantics_le S (le_max_left n m) _ _ h, semantics_le S (le_max_right n m) _ _ h']
    | or _ _ iha ihb =>
      obtain ⟨n, t, h⟩ := iha
      obtain ⟨m, u, h'⟩ := ihb
      refine ⟨max n m + 1, t.union u, ?_⟩
      simp only [Spec.semantics, semantics_le S (le_max_left n m) _ _ h, semantics_le S (le_max_right n m) _ _ h']
  obtain ⟨n0, t, h⟩ := key
  exact ⟨n0, t, fun n hn => semantics_le S hn s _ h⟩

/-- No record type of a specification is open, and there is at least one. -/
theorem semantics_never_open (S : Schema) (n : Nat) (s : Spec) (t : BaseType)
    (h : Spec.semantics S n s = some (.ok t)) : t.content ≠ [] ∧ ∀ rt ∈ t.content, rt.isOpen = false := by
  have comb : ∀ a b : List RecordType, a ≠ [] → (∀ rt ∈ a, rt.isOpen = false) →
      combineSetRecords a b ≠ [] ∧ ∀ rt ∈ combineSetRecords a b, rt.isOpen = false := by
    intro a b ha hc
    by_cases hb : b = []
    · subst hb
      simp only [combineSetRecords, List.isEmpty_iff, ha, if_false, if_true]
      exact ⟨ha, hc⟩
    · rw [combineSetRecords_eq a b ha hb]
      obtain ⟨x, hx⟩ := List.exists_mem_of_ne_nil _ ha
      obtain ⟨y, hy⟩ := List.exists_mem_of_ne_nil _ hb
      constructor
      · intro hn
        have : x.combine y ∈ (a.flatMap fun x => b.map fun y => x.combine y) :=
          List.mem_flatMap.2 ⟨x, hx, List.mem_map.2 ⟨y, hy, rfl⟩⟩
        rw [hn] at this
        cases this
      · intro rt hrt
        rw [List.mem_flatMap] at hrt
        obtain ⟨u, _, hu⟩ := hrt
        rw [List.mem_map] at hu
        obtain ⟨v, _, rfl⟩ := hu
        rfl
  induction n generalizing s t with
  | zero => cases h
  | succ n ih =>
    have hi := semantics_inv S n s t h
    clear h
    cases s with
    | empty => simp only [SemInv] at hi; subst hi; simp [BaseType.type0, RecordType.empty]
    | label l => simp only [SemInv] at hi; subst hi; simp [BaseType.fromLabel, RecordType.empty]
    | ref name =>
      obtain ⟨_, s', _, _, hs⟩ := hi
      exact ih s' t hs
    | optional s =>
      obtain ⟨u, hu, rfl⟩ := hi
      obtain ⟨h1, h2⟩ := ih s u hu
      refine ⟨by simp [BaseType.union, h1], ?_⟩
      intro rt hrt
      simp only [BaseType.union, BaseType.type0, List.mem_append, List.mem_singleton] at hrt
      rcases hrt with hrt | rfl
      exacts [h2 rt hrt, rfl]
    | opened s =>
      obtain ⟨u, hu, rfl⟩ := hi
      exact ih s u hu
    | content s p =>
      obtain ⟨u, hu, rfl⟩ := hi
      obtain ⟨h1, h2⟩ := ih s u hu
      exact comb _ _ h1 h2
    | and a b =>
      obtain ⟨u, v, hu, hv, rfl⟩ := hi
      obtain ⟨h1, h2⟩ := ih a u hu
      exact comb _ _ h1 h2
    | or a b =>
      obtain ⟨u, v, hu, hv, rfl⟩ := hi
      obtain ⟨h1, h2⟩ := ih a u hu
      obtain ⟨_, h4⟩ := ih b v hv
      refine ⟨by simp [BaseType.union, h1], ?_⟩
      intro rt hrt
      simp only [BaseType.union, List.mem_append] at hrt
      exact hrt.elim (h2 rt) (h4 rt)

theorem some_append (X : Ext) (r : Record) (a b : List RecordType) (K : Finset String) :
    Some' X r (a ++ b) K ↔ Some' X r a K ∨ Some' X r b K := by
  simp only [Some', List.mem_append]
  constructor
  · rintro ⟨t, h | h, hk⟩
    exacts [Or.inl ⟨t, h, hk⟩, Or.inr ⟨t, h, hk⟩]
  · rintro (⟨t, h, hk⟩ | ⟨t, h, hk⟩)
    exacts [⟨t, Or.inl h, hk⟩, ⟨t, Or.inr h, hk⟩]

/-- The labels and the record types of a specification with labels. -/
theorem semantics_labelled (X : Ext) (S : Schema) (hS : LabelledSchema S) (r : Record) (n : Nat) (s : Spec)
    (hs : Labelled s) (t : BaseType) (h : Spec.semantics S n s = some (.ok t)) :
    t.labels ≠ [] ∧ (∀ L, L ∈ t.labels ↔ LabelsOf S s L) ∧ ∀ K, Some' X r t.content K ↔ KeysOf X S r s K := by
  induction n generalizing s t with
  | zero => cases h
  | succ n ih =>
    have hi := semantics_inv S n s t h
    cases hs with
    | label l =>
      simp only [SemInv] at hi
      subst hi
      refine ⟨by simp [BaseType.fromLabel], fun L => ?_, fun K => ?_⟩
      · simp only [BaseType.fromLabel, List.mem_singleton]
        constructor
        · rintro rfl
          exact .label l
        · rintro ⟨⟩
          rfl
      · simp only [BaseType.fromLabel, Some', List.mem_singleton, exists_eq_left, empty_keySet]
        constructor
        · rintro ⟨rfl, _⟩
          exact .label l
        · rintro ⟨⟩
          exact ⟨rfl, empty_declared X r⟩
    | ref name =>
      obtain ⟨id, s', h1, h2, hs'⟩ := hi
      obtain ⟨a, b, c⟩ := ih s' (hS id s' h2) t hs'
      refine ⟨a, fun L => ?_, fun K => ?_⟩
      · rw [b]
        constructor
        · exact .ref h1 h2
        · rintro (⟨⟩ | ⟨h1', h2', hl⟩)
          rw [h1] at h1'
          cases h1'
          rw [h2] at h2'
          cases h2'
          exact hl
      · rw [c]
        constructor
        · exact .ref h1 h2
        · rintro (⟨⟩ | ⟨h1', h2', hl⟩)
          rw [h1] at h1'
          cases h1'
          rw [h2] at h2'
          cases h2'
          exact hl
    | @and a b ha hb =>
      obtain ⟨u, v, hu, hv, rfl⟩ := hi
      obtain ⟨a1, a2, a3⟩ := ih a ha u hu
      obtain ⟨b1, b2, b3⟩ := ih b hb v hv
      have hmem : ∀ L, L ∈ (u.combine v).labels ↔ ∃ x ∈ u.labels, ∃ y ∈ v.labels, x ∪ y = L :=
        mem_combineLabelSets _ _ a1 b1
      refine ⟨?_, fun L => ?_, fun K => ?_⟩
      · obtain ⟨x, hx⟩ := List.exists_mem_of_ne_nil _ a1
        obtain ⟨y, hy⟩ := List.exists_mem_of_ne_nil _ b1
        have := (hmem _).2 ⟨x, hx, y, hy, rfl⟩
        intro hn
        rw [hn] at this
        cases this
      · rw [hmem]
        constructor
        · rintro ⟨x, hx, y, hy, rfl⟩
          exact .and ((a2 x).1 hx) ((b2 y).1 hy)
        · rintro (⟨⟩ | ⟨⟩ | ⟨h1, h2⟩)
          exact ⟨_, (a2 _).2 h1, _, (b2 _).2 h2, rfl⟩
      · have hu' := (semantics_never_open S n a u hu).1
        have hv' := (semantics_never_open S n b v hv).1
        rw [show (u.combine v).content = combineSetRecords u.content v.content from rfl,
          combineSetRecords_eq _ _ hu' hv', some_combine]
        constructor
        · rintro ⟨K1, K2, rfl, h1, h2⟩
          exact .and ((a3 _).1 h1) ((b3 _).1 h2)
        · rintro (⟨⟩ | ⟨⟩ | ⟨h1, h2⟩)
          exact ⟨_, _, rfl, (a3 _).2 h1, (b3 _).2 h2⟩
    | @or a b ha hb =>
      obtain ⟨u, v, hu, hv, rfl⟩ := hi
      obtain ⟨a1, a2, a3⟩ := ih a ha u hu
      obtain ⟨b1, b2, b3⟩ := ih b hb v hv
      refine ⟨by simp [BaseType.union, a1], fun L => ?_, fun K => ?_⟩
      · simp only [BaseType.union, List.mem_append, a2, b2]
        constructor
        · rintro (h | h)
          exacts [.left h, .right h]
        · intro h
          cases h with
          | left h => exact Or.inl h
          | right h => exact Or.inr h
      · simp only [BaseType.union, some_append, a3, b3]
        constructor
        · rintro (h | h)
          exacts [.left h, .right h]
        · intro h
          cases h with
          | left h => exact Or.inl h
          | right h => exact Or.inr h
    | @content s p hs hp =>
      obtain ⟨u, hu, rfl⟩ := hi
      obtain ⟨a1, a2, a3⟩ := ih s hs u hu
      have hl : (u.combine (PropSpec.closed p).semantics).labels = u.labels := by
        simp [BaseType.combine, combineLabelSets, PropSpec.semantics, BaseType.new, a1]
      refine ⟨by rw [hl]; exact a1, fun L => ?_, fun K => ?_⟩
      · rw [hl, a2]
        constructor
        · exact .content
        · intro h
          cases h with
          | content h => exact h
      · have hu' := (semantics_never_open S n s u hu).1
        rw [show (u.combine (PropSpec.closed p).semantics).content = combineSetRecords u.content p.semantics from rfl,
          combineSetRecords_eq _ _ hu' (semantics_nonempty p hp), some_combine]
        simp only [semantics_choice X r p hp, a3]
        constructor
        · rintro ⟨K1, K2, rfl, h1, h2⟩
          exact .content h1 h2
        · intro h
          cases h with
          | content h1 h2 => exact ⟨_, _, rfl, h1, h2⟩

theorem base_closed_conforms (X : Ext) (t : BaseType) (hc : ∀ rt ∈ t.content, rt.isOpen = false) (L : LabelSet)
    (r : Record) : Positively (t.conforms X L r) ↔ L ∈ t.labels ∧ Some' X r t.content (keysOf r) := by
  rw [base_conforms]
  refine and_congr_right fun _ => ?_
  constructor
  · rintro ⟨rt, hrt, h⟩
    obtain ⟨hd, hk⟩ := (closed_conforms X rt r (hc rt hrt)).1 h
    exact ⟨rt, hrt, hk.symm, hd⟩
  · rintro ⟨rt, hrt, hk, hd⟩
    exact ⟨rt, hrt, (closed_conforms X rt r (hc rt hrt)).2 ⟨hd, hk.symm⟩⟩

theorem describes_both (X : Ext) (S : Schema) (r : Record) (s : Spec) (L : LabelSet) (K : Finset String)
    (h : Describes X S r s L K) : LabelsOf S s L ∧ KeysOf X S r s K := by
  induction h with
  | label l => exact ⟨.label l, .label l⟩
  | ref h1 h2 _ ih => exact ⟨.ref h1 h2 ih.1, .ref h1 h2 ih.2⟩
  | and _ _ iha ihb => exact ⟨.and iha.1 ihb.1, .and iha.2 ihb.2⟩
  | left _ ih => exact ⟨.left ih.1, .left ih.2⟩
  | right _ ih => exact ⟨.right ih.1, .right ih.2⟩
  | content _ hc ih => exact ⟨.content ih.1, .content ih.2 hc⟩

theorem both_describes (X : Ext) (S : Schema) (hS : ∀ id s, S.nodeTypes.lookup id = some s → NoOr s) (r : Record)
    (s : Spec) (hs : NoOr s) (L : LabelSet) (K : Finset String) (hL : LabelsOf S s L) (hK : KeysOf X S r s K) :
    Describes X S r s L K := by
  induction hL generalizing K with
  | label l => cases hK; exact .label l
  | ref h1 h2 _ ih =>
    cases hK with
    | ref h1' h2' hk =>
      rw [h1] at h1'
      cases h1'
      rw [h2] at h2'
      cases h2'
      exact .ref h1 h2 (ih (hS _ _ h2) _ hk)
  | and _ _ iha ihb =>
    cases hK with
    | and ha hb => exact .and (iha hs.1 _ ha) (ihb hs.2 _ hb)
  | left _ _ => exact hs.elim
  | right _ _ => exact hs.elim
  | content _ ih =>
    cases hK with
    | content h1 h2 => exact .content (ih hs _ h1) h2

end Pg
