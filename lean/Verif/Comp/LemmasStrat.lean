import Verif.Comp.LemmasTyping
import Verif.Comp.LemmasTotal

/-!
# Stratified negation
-/

namespace Comp
open Shex Rbe

variable {N P NC : Type}

/-! ## The meaning depends on the labels referred to -/

/-- The expression has a reference to the label. -/
def Core.Refers (c : Core N P) (l : SLabel P) : Prop := Relation.ReflTransGen Child (.ref l) c

theorem Core.Refers.uses {c : Core N P} {l : SLabel P} (h : c.Refers l) : c.Uses l :=
  ⟨_, h, .inl rfl⟩

/-- Two typings agree on the labels the expression refers to. -/
def SameOn (c : Core N P) (T T' : N → SLabel P → Prop) : Prop :=
  ∀ l, c.Refers l → ∀ n, T n l ↔ T' n l

theorem SameOn.child {c d : Core N P} {T T' : N → SLabel P → Prop} (h : SameOn c T T') (hd : Child d c) :
    SameOn d T T' := fun l hl => h l (Relation.ReflTransGen.tail hl hd)

mutual
theorem sat_congr {g : Graph N P} {ext : Option (SLabel P) → N → Prop} {T T' : N → SLabel P → Prop} :
    ∀ (c : Core N P) (l : Option (SLabel P)) (n : N), SameOn c T T' → (Sat g ext T c l n ↔ Sat g ext T' c l n)
  | .ref l, _, n, h => h l .refl n
  | .or cs, _, n, h => satSome_congr cs n fun d hd => h.child hd
  | .and cs, _, n, h => satAll_congr cs n fun d hd => h.child hd
  | .not c, _, n, h => not_congr (sat_congr c none n (h.child rfl))
  | .shape cl ex e xs, _, n, h => by
    simp only [Sat]
    have key := fun (vs : List (Pred P × N)) =>
      matches_congr e n (vs : Multiset (Pred P × N)) (fun p acts v hv => h.child ⟨p, acts, hv⟩)
        (g := g) (ext := ext)
    simp only [key]
  | .test ok, _, n, _ => Iff.rfl
  | .external, _, n, _ => Iff.rfl
theorem satAll_congr {g : Graph N P} {ext : Option (SLabel P) → N → Prop} {T T' : N → SLabel P → Prop} :
    ∀ (cs : List (Core N P)) (n : N), (∀ d ∈ cs, SameOn d T T') → (SatAll g ext T cs n ↔ SatAll g ext T' cs n)
  | [], n, _ => Iff.rfl
  | c :: cs, n, h => and_congr (sat_congr c none n (h c (by simp)))
      (satAll_congr cs n fun d hd => h d (by simp [hd]))
theorem satSome_congr {g : Graph N P} {ext : Option (SLabel P) → N → Prop} {T T' : N → SLabel P → Prop} :
    ∀ (cs : List (Core N P)) (n : N), (∀ d ∈ cs, SameOn d T T') →
      (SatSome g ext T cs n ↔ SatSome g ext T' cs n)
  | [], n, _ => Iff.rfl
  | c :: cs, n, h => or_congr (sat_congr c none n (h c (by simp)))
      (satSome_congr cs n fun d hd => h d (by simp [hd]))
theorem matches_congr {g : Graph N P} {ext : Option (SLabel P) → N → Prop} {T T' : N → SLabel P → Prop} :
    ∀ (e : CTE N P) (n : N) (s : Multiset (Pred P × N)),
      (∀ p acts v, (p, acts, v) ∈ e.constraints → SameOn v T T') →
        (Matches g ext T e n s ↔ Matches g ext T' e n s)
  | .nothing, n, s, _ => Iff.rfl
  | .eachOf es c, n, s, h => by
    have key := fun t => matchesAll_congr es n t h (g := g) (ext := ext)
    simp only [Matches, key]
  | .oneOf es c, n, s, h => by
    have key := fun t => matchesSome_congr es n t h (g := g) (ext := ext)
    simp only [Matches, key]
  | .tc p acts v c, n, s, h => by
    have hv : SameOn v T T' := h p acts v (by simp [CTE.constraints])
    have key := fun m => sat_congr v none m hv (g := g) (ext := ext)
    simp only [Matches, key]
  | .incl e, n, s, h => by
    simp only [Matches]
    exact matches_congr e n s h
theorem matchesAll_congr {g : Graph N P} {ext : Option (SLabel P) → N → Prop} {T T' : N → SLabel P → Prop} :
    ∀ (es : List (CTE N P)) (n : N) (s : Multiset (Pred P × N)),
      (∀ p acts v, (p, acts, v) ∈ constraintsAll es → SameOn v T T') →
        (MatchesAll g ext T es n s ↔ MatchesAll g ext T' es n s)
  | [], n, s, _ => Iff.rfl
  | e :: es, n, s, h => by
    have k1 := fun t => matches_congr e n t (fun p acts v hv => h p acts v
      (by simp only [constraintsAll]; exact List.mem_append_left _ hv)) (g := g) (ext := ext)
    have k2 := fun t => matchesAll_congr es n t (fun p acts v hv => h p acts v
      (by simp only [constraintsAll]; exact List.mem_append_right _ hv)) (g := g) (ext := ext)
    simp only [MatchesAll, k1, k2]
theorem matchesSome_congr {g : Graph N P} {ext : Option (SLabel P) → N → Prop} {T T' : N → SLabel P → Prop} :
    ∀ (es : List (CTE N P)) (n : N) (s : Multiset (Pred P × N)),
      (∀ p acts v, (p, acts, v) ∈ constraintsAll es → SameOn v T T') →
        (MatchesSome g ext T es n s ↔ MatchesSome g ext T' es n s)
  | [], n, s, _ => Iff.rfl
  | e :: es, n, s, h => by
    have k1 := matches_congr e n s (fun p acts v hv => h p acts v
      (by simp only [constraintsAll]; exact List.mem_append_left _ hv)) (g := g) (ext := ext)
    have k2 := matchesSome_congr es n s (fun p acts v hv => h p acts v
      (by simp only [constraintsAll]; exact List.mem_append_right _ hv)) (g := g) (ext := ext)
    simp only [MatchesSome, k1, k2]
end

/-! ## Ranks of parts -/

mutual
/-- The rank of a part: that of the labels it refers to, and one more at each negation. -/
def Core.rk (M : Nat) (rank : SLabel P → Nat) : Core N P → Nat
  | .ref l => M * rank l + (M - 1)
  | .or cs => rkAll M rank cs
  | .and cs => rkAll M rank cs
  | .not c => c.rk M rank + 1
  | .shape _ _ e _ => e.rk M rank
  | .test _ => 0
  | .external => 0
/-- The greatest rank. -/
def rkAll (M : Nat) (rank : SLabel P → Nat) : List (Core N P) → Nat
  | [] => 0
  | c :: cs => max (c.rk M rank) (rkAll M rank cs)
/-- The greatest rank of the values. -/
def CTE.rk (M : Nat) (rank : SLabel P → Nat) : CTE N P → Nat
  | .nothing => 0
  | .eachOf es _ => rkTs M rank es
  | .oneOf es _ => rkTs M rank es
  | .tc _ _ v _ => v.rk M rank
  | .incl e => e.rk M rank
/-- The greatest rank. -/
def rkTs (M : Nat) (rank : SLabel P → Nat) : List (CTE N P) → Nat
  | [] => 0
  | e :: es => max (e.rk M rank) (rkTs M rank es)
end

variable {M : Nat} {rank : SLabel P → Nat}

theorem rkAll_mem {d : Core N P} {cs : List (Core N P)} (h : d ∈ cs) : d.rk M rank ≤ rkAll M rank cs := by
  induction cs with
  | nil => simp at h
  | cons c cs ih =>
    simp only [rkAll]
    rcases List.mem_cons.1 h with rfl | h
    · exact le_max_left _ _
    · exact le_trans (ih h) (le_max_right _ _)

theorem rkAll_le {B : Nat} {cs : List (Core N P)} (h : ∀ d ∈ cs, d.rk M rank ≤ B) : rkAll M rank cs ≤ B := by
  induction cs with
  | nil => simp [rkAll]
  | cons c cs ih =>
    simp only [rkAll]
    exact max_le (h c (by simp)) (ih fun d hd => h d (by simp [hd]))

mutual
theorem rk_constraints : ∀ (e : CTE N P) {p acts d}, (p, acts, d) ∈ e.constraints → d.rk M rank ≤ e.rk M rank
  | .nothing, _, _, _, h => by simp [CTE.constraints] at h
  | .eachOf es c, _, _, _, h => by simp only [CTE.rk]; exact rk_constraintsAll es h
  | .oneOf es c, _, _, _, h => by simp only [CTE.rk]; exact rk_constraintsAll es h
  | .tc p acts v c, _, _, _, h => by
    simp only [CTE.constraints, List.mem_singleton, Prod.mk.injEq] at h
    obtain ⟨_, _, rfl⟩ := h
    simp only [CTE.rk]
    exact le_refl _
  | .incl e, _, _, _, h => by simp only [CTE.rk]; exact rk_constraints e h
theorem rk_constraintsAll : ∀ (es : List (CTE N P)) {p acts d}, (p, acts, d) ∈ constraintsAll es →
    d.rk M rank ≤ rkTs M rank es
  | [], _, _, _, h => by simp [constraintsAll] at h
  | e :: es, _, _, _, h => by
    simp only [constraintsAll, List.mem_append] at h
    simp only [rkTs]
    rcases h with h | h
    · exact le_trans (rk_constraints e h) (le_max_left _ _)
    · exact le_trans (rk_constraintsAll es h) (le_max_right _ _)
end

mutual
theorem rk_le_constraints {B : Nat} : ∀ (e : CTE N P), (∀ p acts d, (p, acts, d) ∈ e.constraints →
    d.rk M rank ≤ B) → e.rk M rank ≤ B
  | .nothing, _ => by simp [CTE.rk]
  | .eachOf es c, h => by simp only [CTE.rk]; exact rk_le_constraintsAll es h
  | .oneOf es c, h => by simp only [CTE.rk]; exact rk_le_constraintsAll es h
  | .tc p acts v c, h => by
    simp only [CTE.rk]
    exact h p acts v (by simp [CTE.constraints])
  | .incl e, h => by simp only [CTE.rk]; exact rk_le_constraints e h
theorem rk_le_constraintsAll {B : Nat} : ∀ (es : List (CTE N P)), (∀ p acts d, (p, acts, d) ∈ constraintsAll es →
    d.rk M rank ≤ B) → rkTs M rank es ≤ B
  | [], _ => by simp [rkTs]
  | e :: es, h => by
    simp only [constraintsAll, List.mem_append] at h
    simp only [rkTs]
    exact max_le (rk_le_constraints e fun p acts d hd => h p acts d (.inl hd))
      (rk_le_constraintsAll es fun p acts d hd => h p acts d (.inr hd))
end

theorem rk_child {c d : Core N P} (h : Child d c) : d.rk M rank ≤ c.rk M rank := by
  cases c with
  | or cs => simp only [Core.rk]; exact rkAll_mem h
  | and cs => simp only [Core.rk]; exact rkAll_mem h
  | not c =>
    have h' : d = c := h
    subst h'
    simp only [Core.rk]
    omega
  | shape cl ex e xs =>
    obtain ⟨p, acts, hm⟩ := h
    simp only [Core.rk]
    exact rk_constraints e hm
  | ref l => exact h.elim
  | test ok => exact h.elim
  | external => exact h.elim

theorem rk_refers {c : Core N P} {l : SLabel P} (h : c.Refers l) : M * rank l + (M - 1) ≤ c.rk M rank := by
  have : ∀ d : Core N P, Relation.ReflTransGen Child d c → d.rk M rank ≤ c.rk M rank := by
    clear h
    intro d hd
    induction hd with
    | refl => exact le_refl _
    | tail _ h ih => exact le_trans ih (rk_child h)
  have := this _ h
  simpa only [Core.rk] using this

theorem rk_le_of_children {B : Nat} {c : Core N P} (h1 : ∀ l, c ≠ .ref l) (h2 : ∀ d, c ≠ .not d)
    (h : ∀ d, Child d c → d.rk M rank ≤ B) : c.rk M rank ≤ B := by
  cases c with
  | or cs => simp only [Core.rk]; exact rkAll_le h
  | and cs => simp only [Core.rk]; exact rkAll_le h
  | not c => exact (h2 c rfl).elim
  | shape cl ex e xs =>
    simp only [Core.rk]
    exact rk_le_constraints e fun p acts d hd => h d ⟨p, acts, hd⟩
  | ref l => exact (h1 l rfl).elim
  | test ok => simp [Core.rk]
  | external => simp [Core.rk]

theorem rk_below {a : Nat} (m : Nat) : ∀ c : Core N P, sizeOf c < m → (∀ k, c.Refers k → rank k < a) →
    c.rk M rank ≤ M * a + sizeOf c := by
  induction m with
  | zero => intro c h; omega
  | succ m ih =>
    intro c hm h
    have hchild : ∀ d, Child d c → d.rk M rank ≤ M * a + sizeOf d := fun d hd =>
      ih d (by have := hd.size; omega) fun k hk => h k (Relation.ReflTransGen.tail hk hd)
    by_cases h1 : ∃ l, c = .ref l
    · obtain ⟨l, rfl⟩ := h1
      have hl : rank l + 1 ≤ a := h l .refl
      have := Nat.mul_le_mul_left M hl
      simp only [Core.rk]
      rw [Nat.mul_succ] at this
      omega
    · by_cases h2 : ∃ d, c = .not d
      · obtain ⟨d, rfl⟩ := h2
        have := hchild d rfl
        simp only [Core.rk]
        have hs : sizeOf (Core.not d) = 1 + sizeOf d := rfl
        omega
      · push Not at h1 h2
        exact rk_le_of_children h1 h2 fun d hd => by
          have := hchild d hd
          have := hd.size
          omega

theorem rk_declared {a : Nat} (m : Nat) : ∀ c : Core N P, sizeOf c < m → sizeOf c < M →
    (∀ k, c.Refers k → rank k ≤ a) →
    (∀ d, Relation.ReflTransGen Child (.not d) c → ∀ k, d.Refers k → rank k < a) →
    c.rk M rank ≤ M * a + (M - 1) := by
  induction m with
  | zero => intro c h; omega
  | succ m ih =>
    intro c hm hM h hn
    have hchild : ∀ d, Child d c → d.rk M rank ≤ M * a + (M - 1) := fun d hd =>
      ih d (by have := hd.size; omega) (by have := hd.size; omega)
        (fun k hk => h k (Relation.ReflTransGen.tail hk hd))
        (fun d' hd' => hn d' (hd'.tail hd))
    by_cases h1 : ∃ l, c = .ref l
    · obtain ⟨l, rfl⟩ := h1
      have := Nat.mul_le_mul_left M (h l .refl)
      simp only [Core.rk]
      omega
    · by_cases h2 : ∃ d, c = .not d
      · obtain ⟨d, rfl⟩ := h2
        have := rk_below (M := M) (rank := rank) (a := a) (sizeOf d + 1) d (Nat.lt_succ_self _)
          (hn d .refl)
        simp only [Core.rk]
        have hs : sizeOf (Core.not d) = 1 + sizeOf d := rfl
        omega
      · push Not at h1 h2
        exact rk_le_of_children h1 h2 hchild

/-! ## Ranks of indices -/

section
variable [DecidableEq P] {Q : Core N P → Prop} {st : St N P} {own : Nat → Option (Core N P)}
  {D : Decls N P} {E : Env N P} {ext : Option (SLabel P) → N → Prop}

/-- The rank of an index: that of its label, or of the part which owns it. -/
def rankIdx (st : St N P) (own : Nat → Option (Core N P)) (M : Nat) (rank : SLabel P → Nat) (i : Nat) : Nat :=
  match st.name i with
  | some l => M * rank l + (M - 1)
  | none => match own i with
    | some d => d.rk M rank
    | none => 0

theorem rankIdx_label (h : Compiled Q st own D) {l : SLabel P} {i : Nat} (hi : st.idx l = some i) :
    rankIdx st own M rank i = M * rank l + (M - 1) := by
  unfold rankIdx
  rw [(h.label l i hi).1]

theorem rankIdx_part (h : Compiled Q st own D) {d : Core N P} {i : Nat} (hi : own i = some d) :
    rankIdx st own M rank i = d.rk M rank := by
  unfold rankIdx
  rw [(h.part i d hi).1, hi]

theorem rankIdx_declared (h : Compiled Q st own D) (hr : Ranks D rank)
    (hM : ∀ l c, D l = some c → sizeOf c < M) {l : SLabel P} {i : Nat} (hi : st.idx l = some i)
    {c : Core N P} (hc : D l = some c) : c.rk M rank ≤ rankIdx st own M rank i := by
  rw [rankIdx_label h hi]
  exact rk_declared (sizeOf c + 1) c (Nat.lt_succ_self _) (hM l c hc)
    (fun k hk => (hr l c hc).1 k hk.uses) (fun d hd k hk => (hr l c hc).2 k ⟨d, hd, hk.uses⟩)

theorem forall₂_owner {cs : List (Core N P)} {is : List Nat}
    (h : List.Forall₂ (fun c j => own j = some c) cs is) {j : Nat} (hj : j ∈ is) :
    ∃ d ∈ cs, own j = some d := by
  induction h with
  | nil => simp at hj
  | @cons a b _ _ h _ ih =>
    rcases List.mem_cons.1 hj with rfl | hj
    · exact ⟨a, by simp, h⟩
    · obtain ⟨d, h1, h2⟩ := ih hj
      exact ⟨d, by simp [h1], h2⟩

theorem respects_of_ranks (h : Compiled Q st own D) (hni : NoInheritance st.schema) (hr : Ranks D rank)
    (hM : ∀ l c, D l = some c → sizeOf c < M) : Respects st.schema (rankIdx st own M rank) := by
  -- what an expression refers to is not ranked above it
  have hval : ∀ (v : Core N P) (c0 : VCond N P) (j : Nat), ValRep st.idx own v c0 → RefIn j c0 →
      rankIdx st own M rank j ≤ v.rk M rank := by
    intro v c0 j hv hj
    have howned : (∃ i, c0 = .ref i ∧ own i = some v) → rankIdx st own M rank j ≤ v.rk M rank := by
      rintro ⟨i, rfl, hi⟩
      have hj' : j = i := hj
      subst hj'
      rw [rankIdx_part h hi]
    cases v with
    | ref l =>
      obtain ⟨i, hi, rfl⟩ := hv
      have hj' : j = i := hj
      subst hj'
      rw [rankIdx_label h hi]
      simp only [Core.rk]
      exact le_refl _
    | test ok => have hv' : c0 = testCond ok := hv; subst hv'; exact hj.elim
    | or cs => exact howned hv
    | and cs => exact howned hv
    | not c => exact howned hv
    | shape _ _ _ _ => exact howned hv
    | external => exact howned hv
  have key : ∀ i c r, st.find i = some r → Loc st.idx own c r → c.rk M rank ≤ rankIdx st own M rank i →
      (∀ j, Uses st.schema i j → rankIdx st own M rank j ≤ rankIdx st own M rank i) ∧
        ∀ j, Negates st.schema i j → rankIdx st own M rank j < rankIdx st own M rank i := by
    intro i c r hf hl hle
    refine ⟨?_, ?_⟩
    · intro j hu
      refine le_trans ?_ hle
      cases hu with
      | or h1 he =>
        have h1' : st.find i = some _ := h1
        rw [hf] at h1'; cases h1'
        cases c with
        | or cs =>
          obtain ⟨is, h2, h3⟩ := hl
          cases h2
          obtain ⟨d, hd, ho⟩ := forall₂_owner h3 he
          rw [rankIdx_part h ho]
          exact rk_child hd
        | ref l => obtain ⟨_, _, h3⟩ := hl; cases h3
        | and cs => obtain ⟨_, h3, _⟩ := hl; cases h3
        | not c => obtain ⟨_, h3, _⟩ := hl; cases h3
        | shape _ _ _ _ => obtain ⟨_, h3, _⟩ := hl; cases h3
        | test ok => cases hl
        | external => cases hl
      | and h1 he =>
        have h1' : st.find i = some _ := h1
        rw [hf] at h1'; cases h1'
        cases c with
        | and cs =>
          obtain ⟨is, h2, h3⟩ := hl
          cases h2
          obtain ⟨d, hd, ho⟩ := forall₂_owner h3 he
          rw [rankIdx_part h ho]
          exact rk_child hd
        | ref l => obtain ⟨_, _, h3⟩ := hl; cases h3
        | or cs => obtain ⟨_, h3, _⟩ := hl; cases h3
        | not c => obtain ⟨_, h3, _⟩ := hl; cases h3
        | shape _ _ _ _ => obtain ⟨_, h3, _⟩ := hl; cases h3
        | test ok => cases hl
        | external => cases hl
      | ref h1 =>
        have h1' : st.find i = some _ := h1
        rw [hf] at h1'; cases h1'
        cases c with
        | ref l =>
          obtain ⟨k, h2, h3⟩ := hl
          cases h3
          rw [rankIdx_label h h2]
          simp only [Core.rk]
          exact le_refl _
        | or cs => obtain ⟨_, h3, _⟩ := hl; cases h3
        | and cs => obtain ⟨_, h3, _⟩ := hl; cases h3
        | not c => obtain ⟨_, h3, _⟩ := hl; cases h3
        | shape _ _ _ _ => obtain ⟨_, h3, _⟩ := hl; cases h3
        | test ok => cases hl
        | external => cases hl
      | value h1 hc hr' =>
        have h1' : st.find i = some _ := h1
        rw [hf] at h1'; cases h1'
        cases c with
        | shape cl ex e xs =>
          obtain ⟨s, h2, h3⟩ := hl
          cases h2
          obtain ⟨k, x, hk, _, _, c0, hv, rfl⟩ := (h3.hasConstraint _ _).1 hc
          rw [withActs_refIn] at hr'
          refine le_trans (hval _ _ _ hv hr') (rk_child ⟨x.1, x.2.1, List.mem_of_getElem? hk⟩)
        | ref l => obtain ⟨_, _, h3⟩ := hl; cases h3
        | or cs => obtain ⟨_, h3, _⟩ := hl; cases h3
        | and cs => obtain ⟨_, h3, _⟩ := hl; cases h3
        | not c => obtain ⟨_, h3, _⟩ := hl; cases h3
        | test ok => cases hl
        | external => cases hl
      | parent h1 he => rw [hni.noExtends _ _ h1] at he; simp at he
      | child h1 he => rw [hni.noExtends _ _ h1] at he; simp at he
    · intro j hn
      have h1' : st.find i = some _ := hn
      rw [hf] at h1'; cases h1'
      cases c with
      | not c =>
        obtain ⟨k, h2, h3⟩ := hl
        cases h2
        rw [rankIdx_part h h3]
        refine lt_of_lt_of_le ?_ hle
        simp only [Core.rk]
        exact Nat.lt_succ_self _
      | ref l => obtain ⟨_, _, h3⟩ := hl; cases h3
      | or cs => obtain ⟨_, h3, _⟩ := hl; cases h3
      | and cs => obtain ⟨_, h3, _⟩ := hl; cases h3
      | shape _ _ _ _ => obtain ⟨_, h3, _⟩ := hl; cases h3
      | test ok => cases hl
      | external => cases hl
  have hat : ∀ i j, Uses st.schema i j ∨ Negates st.schema i j → ∃ r, st.find i = some r ∧ r ≠ .empty := by
    rintro i j (hu | hn)
    · cases hu with
      | or h1 _ => exact ⟨_, h1, by simp⟩
      | and h1 _ => exact ⟨_, h1, by simp⟩
      | ref h1 => exact ⟨_, h1, by simp⟩
      | value h1 _ _ => exact ⟨_, h1, by simp⟩
      | parent h1 _ => exact ⟨_, h1, by simp⟩
      | child h1 he => rw [hni.noExtends _ _ h1] at he; simp at he
    · exact ⟨_, hn, by simp⟩
  have hall : ∀ i j, Uses st.schema i j ∨ Negates st.schema i j → ∃ c r, st.find i = some r ∧
      Loc st.idx own c r ∧ c.rk M rank ≤ rankIdx st own M rank i := by
    intro i j huj
    obtain ⟨r, hf, hne⟩ := hat i j huj
    rcases h.cover i r hf with ⟨l, hl⟩ | ⟨d, hd⟩ | h1
    · obtain ⟨_, c, r', hc, hf', hloc⟩ := h.label l i hl
      exact ⟨c, r', hf', hloc, rankIdx_declared h hr hM hl hc⟩
    · obtain ⟨_, r', hf', hloc⟩ := h.part i d hd
      exact ⟨d, r', hf', hloc, le_of_eq (rankIdx_part h hd).symm⟩
    · exact (hne h1).elim
  refine ⟨?_, ?_⟩
  · intro i j hu
    obtain ⟨c, r, h1, h2, h3⟩ := hall i j (.inl hu)
    exact (key i c r h1 h2 h3).1 j hu
  · intro i j hn
    obtain ⟨c, r, h1, h2, h3⟩ := hall i j (.inr hn)
    exact (key i c r h1 h2 h3).2 j hn

theorem noNegCycle_of_respects [DecidableEq N] {sch : Schema N P} {r : Nat → Nat} (hr : Respects sch r) : NoNegCycle sch := by
  intro i j hn hd
  have := respects_dependsOn hr hd
  have := hr.negates i j hn
  omega

/-! ## Stratified typings -/

/-- Read off the labels, the stratified typing of the compiled schema is that of the source. -/
theorem stratified_labels (h : Compiled Q st own D) (hE : E.schema = st.schema)
    (hx : ∀ n i, E.external n i = true ↔ ext (st.name i) n) (hr : Ranks D rank)
    (hM : ∀ l c, D l = some c → sizeOf c < M) {W : N × Nat → Prop} (hF : Fixed E W)
    (hresp : Respects st.schema (rankIdx st own M rank))
    (hW : StratifiedTyping E (rankIdx st own M rank) W) :
    StratifiedOf E.graph ext D rank (onLabels st W) := by
  have hT := typing_of_fixed h hE hx hF
  have hA := agree_of_fixed h hE hx hF
  by_cases hM0 : M = 0
  · -- nothing is declared
    have hno : ∀ l, D l = none := by
      intro l
      cases hl : D l with
      | none => rfl
      | some c => have := hM l c hl; omega
    intro n l
    constructor
    · intro h1
      obtain ⟨c, hc, _⟩ := (hT n l).1 h1
      rw [hno] at hc; cases hc
    · rintro ⟨X, h1, h2⟩
      obtain ⟨_, c, hc, _⟩ := h2 n l h1
      rw [hno] at hc; cases hc
  have hinj : ∀ a b : Nat, M * a + (M - 1) = M * b + (M - 1) ↔ a = b := by
    intro a b
    constructor
    · intro he
      exact Nat.eq_of_mul_eq_mul_left (Nat.pos_of_ne_zero hM0) (by omega)
    · rintro rfl; rfl
  intro n l
  constructor
  · intro h1
    refine ⟨fun m k => rank k = rank l ∧ onLabels st W m k, ⟨rfl, h1⟩, ?_⟩
    rintro m k ⟨hk, h2⟩
    refine ⟨hk, ?_⟩
    obtain ⟨c, hc, h3⟩ := (hT m k).1 h2
    refine ⟨c, hc, ?_⟩
    refine (sat_congr c (some k) m ?_).1 h3
    intro k' _ m'
    constructor
    · intro h4
      by_cases hk' : rank k' = rank l
      · exact .inl ⟨hk', hk', h4⟩
      · exact .inr ⟨hk', h4⟩
    · rintro (⟨_, _, h4⟩ | ⟨_, h4⟩) <;> exact h4
  · rintro ⟨X, hX, hpost⟩
    -- the mixed typing of labels
    let J : N → SLabel P → Prop := fun m k => (rank k = rank l ∧ X m k) ∨ (rank k ≠ rank l ∧ onLabels st W m k)
    let X' : N × Nat → Prop := fun y => rankIdx st own M rank y.2 = M * rank l + (M - 1) ∧
      ((∃ k, st.idx k = some y.2 ∧ X y.1 k) ∨ ∃ d, own y.2 = some d ∧ Sat E.graph ext J d none y.1)
    obtain ⟨_, c, hc, _⟩ := hpost n l hX
    obtain ⟨i, hi⟩ := Option.isSome_iff_exists.1 (show (st.idx l).isSome = true by
      rw [h.known, hc]; rfl)
    have hri : rankIdx st own M rank i = M * rank l + (M - 1) := rankIdx_label h hi
    refine ⟨i, hi, (hW (n, i)).2 ⟨X', ⟨hri, .inl ⟨l, hi, hX⟩⟩, ?_⟩⟩
    rintro ⟨m, j⟩ ⟨hrj, hy⟩
    dsimp only at hrj hy ⊢
    refine ⟨hrj.trans hri.symm, ?_⟩
    rw [hri]
    -- the two mixed typings agree
    have hlab : ∀ m' k j', st.idx k = some j' →
        (((rankIdx st own M rank j' = M * rank l + (M - 1) ∧ X' (m', j')) ∨
          (rankIdx st own M rank j' ≠ M * rank l + (M - 1) ∧ W (m', j'))) ↔ J m' k) := by
      intro m' k j' hk
      have hrk : rankIdx st own M rank j' = M * rank k + (M - 1) := rankIdx_label h hk
      rw [hrk, ne_eq, hinj]
      by_cases he : rank k = rank l
      · constructor
        · rintro (⟨_, _, h1⟩ | ⟨h1, _⟩)
          · rcases h1 with ⟨k', h2, h3⟩ | ⟨d, h2, _⟩
            · rw [h.inj hk h2]; exact .inl ⟨by rw [← h.inj hk h2]; exact he, h3⟩
            · rw [h.unowned hk] at h2; cases h2
          · exact (h1 he).elim
        · rintro (⟨_, h1⟩ | ⟨h1, _⟩)
          · exact .inl ⟨he, by rw [hrk, he], .inl ⟨k, hk, h1⟩⟩
          · exact (h1 he).elim
      · constructor
        · rintro (⟨h1, _⟩ | ⟨_, h1⟩)
          · exact (he h1).elim
          · exact .inr ⟨he, j', hk, h1⟩
        · rintro (⟨h1, _⟩ | ⟨_, h1⟩)
          · exact (he h1).elim
          · exact .inr ⟨he, (hA.label m' k j' hk).2 h1⟩
    have hpart : ∀ c : Core N P, c.rk M rank ≤ M * rank l + (M - 1) → ∀ m' j' d, Child d c → own j' = some d →
        (((rankIdx st own M rank j' = M * rank l + (M - 1) ∧ X' (m', j')) ∨
          (rankIdx st own M rank j' ≠ M * rank l + (M - 1) ∧ W (m', j'))) ↔ Sat E.graph ext J d none m') := by
      intro c hcr m' j' d hd ho
      have hrj' : rankIdx st own M rank j' = d.rk M rank := rankIdx_part h ho
      have hle : d.rk M rank ≤ M * rank l + (M - 1) := le_trans (rk_child hd) hcr
      by_cases he : rankIdx st own M rank j' = M * rank l + (M - 1)
      · constructor
        · rintro (⟨_, _, h1⟩ | ⟨h1, _⟩)
          · rcases h1 with ⟨k', h2, h3⟩ | ⟨d', h2, h3⟩
            · rw [h.unowned h2] at ho; cases ho
            · dsimp only at h2
              rw [ho] at h2; cases h2; exact h3
          · exact (h1 he).elim
        · intro h1
          exact .inl ⟨he, he, .inr ⟨d, ho, h1⟩⟩
      · have hsame : Sat E.graph ext J d none m' ↔ Sat E.graph ext (onLabels st W) d none m' := by
          refine sat_congr d none m' ?_
          intro k hk m''
          have h1 := rk_refers (M := M) (rank := rank) hk
          have hne : rank k ≠ rank l := by
            intro h2
            rw [h2] at h1
            omega
          constructor
          · rintro (⟨h2, _⟩ | ⟨_, h2⟩)
            · exact (hne h2).elim
            · exact h2
          · intro h2; exact .inr ⟨hne, h2⟩
        rw [hsame, ← hA.part m' j' d trivial ho]
        constructor
        · rintro (⟨h1, _⟩ | ⟨_, h1⟩)
          · exact (he h1).elim
          · exact h1
        · intro h1; exact .inr ⟨he, h1⟩
    rcases hy with ⟨k, hk, hXk⟩ | ⟨d, hd, hs⟩
    · obtain ⟨hrk, c', hc', hs⟩ := hpost m k hXk
      obtain ⟨hn, c'', r, hc'', hf, hloc⟩ := h.label k j hk
      rw [hc'] at hc''; cases hc''
      refine ⟨r, by rw [hE]; exact hf, ?_⟩
      refine (loc_iff (l := some k) (by rw [hx, hn]) ⟨hlab, hpart c' ?_⟩ hloc).2 hs
      have := rankIdx_declared h hr hM hk hc'
      omega
    · obtain ⟨hn, r, hf, hloc⟩ := h.part j d hd
      refine ⟨r, by rw [hE]; exact hf, ?_⟩
      refine (loc_iff (l := none) (by rw [hx, hn]) ⟨hlab, hpart d ?_⟩ hloc).2 hs
      have := rankIdx_part (M := M) (rank := rank) h hd
      omega

omit [DecidableEq P] in
/-- There is at most one stratified typing. -/
theorem stratifiedOf_unique {g : Graph N P} (hr : Ranks D rank) {T T' : N → SLabel P → Prop}
    (hT : StratifiedOf g ext D rank T) (hT' : StratifiedOf g ext D rank T') (n : N) (l : SLabel P) :
    T n l ↔ T' n l := by
  have key : ∀ a, ∀ l, rank l = a → ∀ n, T n l ↔ T' n l := by
    intro a
    induction a using Nat.strong_induction_on with
    | _ a ih =>
      have half : ∀ {T T' : N → SLabel P → Prop}, StratifiedOf g ext D rank T → StratifiedOf g ext D rank T' →
          (∀ b < a, ∀ l, rank l = b → ∀ n, T n l ↔ T' n l) → ∀ l, rank l = a → ∀ n, T n l → T' n l := by
        intro T T' hT hT' ih l hl n h1
        obtain ⟨X, hX, hpost⟩ := (hT n l).1 h1
        refine (hT' n l).2 ⟨X, hX, fun m k hk => ?_⟩
        obtain ⟨hrk, c, hc, hs⟩ := hpost m k hk
        refine ⟨hrk, c, hc, (sat_congr c (some k) m ?_).1 hs⟩
        intro k' hk' m'
        have hle := (hr k c hc).1 k' hk'.uses
        by_cases he : rank k' = rank l
        · simp [he]
        · have := ih (rank k') (by omega) k' rfl m'
          simp [he, this]
      intro l hl n
      exact ⟨half hT hT' ih l hl n, half hT' hT (fun b hb l hl n => (ih b hb l hl n).symm) l hl n⟩
  exact key _ l rfl n

end

end Comp
