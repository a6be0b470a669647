import Verif.Comp.LemmasDecls
import Verif.Rbe.LemmasInterval

/-!
# Helper lemmas: the meaning of the compiled expressions
-/

namespace Comp
open Shex Rbe

variable {N P NC : Type}

/-! ## Tables -/

section
variable [DecidableEq P]

/-- The table has exactly the components of the list. -/
def Exactly (t : TExpr N P) (l : List (Pred P × VCond N P)) : Prop :=
  t.counter = l.length ∧ (∀ k, t.getKey k = l[k]?.map Prod.fst) ∧
    ∀ k, t.getCondition k = l[k]?.map Prod.snd

theorem Exactly.add {t : TExpr N P} {l : List (Pred P × VCond N P)} (h : Exactly t l)
    (x : Pred P × VCond N P) : Exactly (t.addComponent x.1 x.2) (l ++ [x]) := by
  obtain ⟨h1, h2, h3⟩ := h
  refine ⟨by simp [Table.addComponent, h1], ?_, ?_⟩
  · intro k
    have : (t.addComponent x.1 x.2).getKey k = if k = t.counter then some x.1 else t.getKey k := by
      simp only [Table.getKey, Table.addComponent, alookup_upsert]
    rw [this, h2, getElem?_snoc, h1]
    split <;> rfl
  · intro k
    have : (t.addComponent x.1 x.2).getCondition k =
        if k = t.counter then some x.2 else t.getCondition k := by
      simp only [Table.getCondition, Table.addComponent, alookup_upsert]
    rw [this, h3, getElem?_snoc, h1]
    split <;> rfl

theorem Exactly.addAll {t : TExpr N P} {l : List (Pred P × VCond N P)} (h : Exactly t l)
    (l' : List (Pred P × VCond N P)) : Exactly (addAll t l') (l ++ l') := by
  induction l' generalizing t l with
  | nil => simpa [Comp.addAll] using h
  | cons x l' ih =>
    have := ih (h.add x)
    simpa [Comp.addAll] using this

theorem exactly_new : Exactly (Table.new : TExpr N P) [] :=
  ⟨rfl, fun k => by simp [Table.getKey, Table.new, alookup],
    fun k => by simp [Table.getCondition, Table.new, alookup]⟩

theorem addAll_made {t : TExpr N P} (h : t.Made) (l : List (Pred P × VCond N P)) :
    (addAll t l).Made := by
  induction l generalizing t with
  | nil => exact h
  | cons x l ih => exact ih (.add t x.1 x.2 h)

end

/-! ## Groups -/

theorem lang_groupE (e : Expr Nat) (c : Card) (s : Multiset Nat) :
    Lang (groupE e c) s ↔ ∃ k, c.Holds k ∧ SumOf (Lang e) k s := by
  unfold groupE
  split
  · rename_i h
    constructor
    · intro hl
      exact ⟨1, (Card.holds_one_one h 1).2 rfl, sumOf_one.2 hl⟩
    · rintro ⟨k, hk, hs⟩
      rw [(Card.holds_one_one h k).1 hk] at hs
      exact sumOf_one.1 hs
  · split
    · rename_i h
      simp only [Lang]
      constructor
      · rintro ⟨k, hk⟩
        exact ⟨k, ⟨by omega, by rw [h.2]; simp⟩, hk⟩
      · rintro ⟨k, _, hk⟩; exact ⟨k, hk⟩
    · split
      · rename_i h
        simp only [Lang]
        constructor
        · rintro ⟨k, h1, hk⟩
          exact ⟨k, ⟨by omega, by rw [h.2]; simp⟩, hk⟩
        · rintro ⟨k, h1, hk⟩
          exact ⟨k, by have := h1.1; omega, hk⟩
      · simp only [Lang]

/-! ## Bags of arcs with the numbers of their constraints -/

/-- `s` can be numbered so that the numbers satisfy `L` and each fits its arc. -/
def Numbered {A : Type} (L : Multiset Nat → Prop) (fit : Nat → A → Prop) (s : Multiset A) : Prop :=
  ∃ m : Multiset (A × Nat), m.map Prod.fst = s ∧ L (m.map Prod.snd) ∧ ∀ y ∈ m, fit y.2 y.1

theorem map_eq_add {A B : Type} {f : A → B} {m : Multiset A} {t u : Multiset B}
    (h : m.map f = t + u) : ∃ m1 m2, m = m1 + m2 ∧ m1.map f = t ∧ m2.map f = u := by
  classical
  induction t using Multiset.induction_on generalizing m with
  | empty => exact ⟨0, m, by simp, rfl, by simpa using h⟩
  | cons b t ih =>
    rw [Multiset.cons_add] at h
    obtain ⟨a, ha, rfl, h'⟩ := (Multiset.map_eq_cons f m (t + u) b).2 h
    obtain ⟨m1, m2, h1, rfl, rfl⟩ := ih h'
    refine ⟨a ::ₘ m1, m2, ?_, by simp, rfl⟩
    rw [Multiset.cons_add, ← h1, Multiset.cons_erase ha]

section
variable {A : Type} {fit : Nat → A → Prop}

theorem Numbered.congr {L L' : Multiset Nat → Prop} (h : ∀ t, L t ↔ L' t) (s : Multiset A) :
    Numbered L fit s ↔ Numbered L' fit s := by
  simp only [Numbered, h]

theorem numbered_zero (s : Multiset A) : Numbered (fun t => t = 0) fit s ↔ s = 0 := by
  constructor
  · rintro ⟨m, rfl, h, _⟩
    rw [Multiset.map_eq_zero] at h
    rw [h]; rfl
  · rintro rfl
    exact ⟨0, rfl, rfl, by simp⟩

theorem numbered_add {L L' : Multiset Nat → Prop} (s : Multiset A) :
    Numbered (fun t => ∃ a b, t = a + b ∧ L a ∧ L' b) fit s ↔
      ∃ t u, s = t + u ∧ Numbered L fit t ∧ Numbered L' fit u := by
  constructor
  · rintro ⟨m, rfl, ⟨a, b, h1, h2, h3⟩, h4⟩
    obtain ⟨m1, m2, rfl, rfl, rfl⟩ := map_eq_add h1
    exact ⟨_, _, Multiset.map_add _ _ _, ⟨m1, rfl, h2, fun y hy => h4 y (Multiset.mem_add.2 (.inl hy))⟩,
      ⟨m2, rfl, h3, fun y hy => h4 y (Multiset.mem_add.2 (.inr hy))⟩⟩
  · rintro ⟨_, _, rfl, ⟨m1, rfl, h1, h2⟩, ⟨m2, rfl, h3, h4⟩⟩
    refine ⟨m1 + m2, Multiset.map_add _ _ _, ⟨_, _, Multiset.map_add _ _ _, h1, h3⟩, ?_⟩
    intro y hy
    rcases Multiset.mem_add.1 hy with hy | hy
    · exact h2 y hy
    · exact h4 y hy

theorem numbered_false (s : Multiset A) : ¬ Numbered (fun _ => False) fit s := by
  rintro ⟨_, _, h, _⟩; exact h

theorem numbered_or {L L' : Multiset Nat → Prop} (s : Multiset A) :
    Numbered (fun t => L t ∨ L' t) fit s ↔ Numbered L fit s ∨ Numbered L' fit s := by
  constructor
  · rintro ⟨m, h1, h2 | h2, h3⟩
    · exact .inl ⟨m, h1, h2, h3⟩
    · exact .inr ⟨m, h1, h2, h3⟩
  · rintro (⟨m, h1, h2, h3⟩ | ⟨m, h1, h2, h3⟩)
    · exact ⟨m, h1, .inl h2, h3⟩
    · exact ⟨m, h1, .inr h2, h3⟩

theorem numbered_sumOf {L : Multiset Nat → Prop} (k : Nat) (s : Multiset A) :
    Numbered (SumOf L k) fit s ↔ SumOf (Numbered L fit) k s := by
  induction k generalizing s with
  | zero =>
    rw [Numbered.congr (fun t => sumOf_zero), numbered_zero, sumOf_zero]
  | succ k ih =>
    rw [Numbered.congr (fun t => sumOf_succ), numbered_add, sumOf_succ]
    simp only [ih]

theorem numbered_group {L : Multiset Nat → Prop} (c : Card) (s : Multiset A) :
    Numbered (fun t => ∃ k, c.Holds k ∧ SumOf L k t) fit s ↔
      ∃ k, c.Holds k ∧ SumOf (Numbered L fit) k s := by
  simp only [← numbered_sumOf]
  constructor
  · rintro ⟨m, h1, ⟨k, h2, h3⟩, h4⟩
    exact ⟨k, h2, m, h1, h3, h4⟩
  · rintro ⟨k, h2, m, h1, h3, h4⟩
    exact ⟨m, h1, ⟨k, h2, h3⟩, h4⟩

theorem sumOf_congr {Q Q' : Multiset A → Prop} (h : ∀ t, Q t ↔ Q' t) (k : Nat) (s : Multiset A) :
    SumOf Q k s ↔ SumOf Q' k s := by
  have : Q = Q' := by funext t; exact propext (h t)
  rw [this]

theorem numbered_symbol (a : Nat) (c : Card) (s : Multiset A) :
    Numbered (Lang (.symbol a c)) fit s ↔ c.Holds (Multiset.card s) ∧ ∀ x ∈ s, fit a x := by
  constructor
  · rintro ⟨m, rfl, ⟨n, h1, h2⟩, h3⟩
    have hn : Multiset.card m = n := by
      have := congrArg Multiset.card h2
      simpa using this
    refine ⟨by simpa [hn] using h1, ?_⟩
    intro x hx
    obtain ⟨y, hy, rfl⟩ := Multiset.mem_map.1 hx
    have : y.2 = a := Multiset.eq_of_mem_replicate (h2 ▸ Multiset.mem_map_of_mem Prod.snd hy)
    rw [← this]
    exact h3 y hy
  · rintro ⟨h1, h2⟩
    refine ⟨s.map fun x => (x, a), by simp, ⟨Multiset.card s, h1, ?_⟩, ?_⟩
    · rw [Multiset.map_map]
      simp [Function.comp_def]
    · intro y hy
      obtain ⟨x, hx, rfl⟩ := Multiset.mem_map.1 hy
      exact h2 x hx

end

/-! ## Triple expressions -/

/-- The arc satisfies the constraint. -/
def Fits (g : Graph N P) (ext : Option (SLabel P) → N → Prop) (T : N → SLabel P → Prop) (n : N)
    (x : Pred P × List (Ctx N P → Bool) × Core N P) (arc : Pred P × N) : Prop :=
  arc.1 = x.1 ∧ (∀ f ∈ x.2.1, f (n, some arc) = true) ∧ Sat g ext T x.2.2 none arc.2

mutual
theorem matches_iff {g : Graph N P} {ext : Option (SLabel P) → N → Prop} {T : N → SLabel P → Prop}
    {n : N} {fit : Nat → Pred P × N → Prop} : ∀ (e : CTE N P) (a : Nat),
    (∀ k x, e.constraints[k]? = some x → ∀ arc, fit (a + k) arc ↔ Fits g ext T n x arc) →
    ∀ s, Matches g ext T e n s ↔ Numbered (Lang (e.rbe a)) fit s
  | .nothing, a, _, s => by
    simp only [Matches, CTE.rbe]
    rw [← numbered_zero (fit := fit)]
    exact Numbered.congr (fun t => by simp [Lang]) s
  | .eachOf es c, a, h, s => by
    simp only [Matches, CTE.rbe]
    rw [Numbered.congr (lang_groupE _ c), numbered_group]
    refine exists_congr fun k => and_congr Iff.rfl (sumOf_congr (fun t => ?_) k s)
    rw [matchesAll_iff es a h t]
    exact Numbered.congr (fun t => by simp [Lang]) t
  | .oneOf es c, a, h, s => by
    simp only [Matches, CTE.rbe]
    rw [Numbered.congr (lang_groupE _ c), numbered_group]
    refine exists_congr fun k => and_congr Iff.rfl (sumOf_congr (fun t => ?_) k s)
    rw [matchesSome_iff es a h t]
    exact Numbered.congr (fun t => by simp [Lang]) t
  | .tc p acts v c, a, h, s => by
    have h0 := h 0 (p, acts, v) (by simp [CTE.constraints])
    simp only [Matches, CTE.rbe]
    rw [numbered_symbol]
    simp only [Nat.add_zero] at h0
    simp only [h0, Fits]
  | .incl e, a, h, s => by
    simp only [Matches, CTE.rbe]
    exact matches_iff e a (by simpa [CTE.constraints] using h) s
theorem matchesAll_iff {g : Graph N P} {ext : Option (SLabel P) → N → Prop} {T : N → SLabel P → Prop}
    {n : N} {fit : Nat → Pred P × N → Prop} : ∀ (es : List (CTE N P)) (a : Nat),
    (∀ k x, (constraintsAll es)[k]? = some x → ∀ arc, fit (a + k) arc ↔ Fits g ext T n x arc) →
    ∀ s, MatchesAll g ext T es n s ↔ Numbered (LangAll (rbes es a)) fit s
  | [], a, _, s => by
    simp only [MatchesAll, rbes]
    rw [← numbered_zero (fit := fit)]
    exact Numbered.congr (fun t => by simp [LangAll]) s
  | e :: es, a, h, s => by
    simp only [MatchesAll, rbes]
    rw [Numbered.congr (L' := fun t => ∃ x y, t = x + y ∧ Lang (e.rbe a) x ∧
      LangAll (rbes es (a + e.constraints.length)) y) (fun t => by simp [LangAll]), numbered_add]
    have h1 : ∀ k x, e.constraints[k]? = some x → ∀ arc, fit (a + k) arc ↔ Fits g ext T n x arc := by
      intro k x hk
      refine h k x ?_
      rw [constraintsAll, List.getElem?_append_left]
      · exact hk
      · exact (List.getElem?_eq_some_iff.1 hk).1
    have h2 : ∀ k x, (constraintsAll es)[k]? = some x → ∀ arc,
        fit (a + e.constraints.length + k) arc ↔ Fits g ext T n x arc := by
      intro k x hk
      have := h (e.constraints.length + k) x (by
        rw [constraintsAll, List.getElem?_append_right (by omega)]
        simpa using hk)
      rwa [← Nat.add_assoc] at this
    simp only [matches_iff e a h1, matchesAll_iff es _ h2]
theorem matchesSome_iff {g : Graph N P} {ext : Option (SLabel P) → N → Prop} {T : N → SLabel P → Prop}
    {n : N} {fit : Nat → Pred P × N → Prop} : ∀ (es : List (CTE N P)) (a : Nat),
    (∀ k x, (constraintsAll es)[k]? = some x → ∀ arc, fit (a + k) arc ↔ Fits g ext T n x arc) →
    ∀ s, MatchesSome g ext T es n s ↔ Numbered (LangSome (rbes es a)) fit s
  | [], a, _, s => by
    simp only [MatchesSome, rbes, false_iff]
    rw [Numbered.congr (L' := fun _ => False) (fun t => by simp [LangSome])]
    exact numbered_false s
  | e :: es, a, h, s => by
    simp only [MatchesSome, rbes]
    rw [Numbered.congr (L' := fun t => Lang (e.rbe a) t ∨
      LangSome (rbes es (a + e.constraints.length)) t) (fun t => by simp [LangSome]), numbered_or]
    have h1 : ∀ k x, e.constraints[k]? = some x → ∀ arc, fit (a + k) arc ↔ Fits g ext T n x arc := by
      intro k x hk
      refine h k x ?_
      rw [constraintsAll, List.getElem?_append_left]
      · exact hk
      · exact (List.getElem?_eq_some_iff.1 hk).1
    have h2 : ∀ k x, (constraintsAll es)[k]? = some x → ∀ arc,
        fit (a + e.constraints.length + k) arc ↔ Fits g ext T n x arc := by
      intro k x hk
      have := h (e.constraints.length + k) x (by
        rw [constraintsAll, List.getElem?_append_right (by omega)]
        simpa using hk)
      rwa [← Nat.add_assoc] at this
    rw [matches_iff e a h1, matchesSome_iff es _ h2]
end

/-! ## Conditions -/

theorem testCond_sat (ok : N → Bool) (v : N) (c : Ctx N P) :
    (testCond ok : VCond N P).Sat v c ↔ ok v = true := by
  simp only [testCond, Cond.Sat]
  split <;> simp_all

theorem actCond_sat (f : Ctx N P → Bool) (v : N) (c : Ctx N P) :
    (actCond f : VCond N P).Sat v c ↔ f c = true := by
  simp only [actCond, Cond.Sat]
  split <;> simp_all

theorem satAll_append (v : N) (c : Ctx N P) (l l' : List (VCond N P)) :
    Cond.SatAll v c (l ++ l') ↔ Cond.SatAll v c l ∧ Cond.SatAll v c l' := by
  induction l with
  | nil => simp [Cond.SatAll]
  | cons d l ih => simp only [List.cons_append, Cond.SatAll, ih]; tauto

theorem satAll_acts (v : N) (c : Ctx N P) (fs : List (Ctx N P → Bool)) :
    Cond.SatAll v c (fs.map actCond : List (VCond N P)) ↔ ∀ f ∈ fs, f c = true := by
  induction fs with
  | nil => simp [Cond.SatAll]
  | cons f fs ih => simp [Cond.SatAll, ih, actCond_sat]

theorem withActs_sat (fs : List (Ctx N P → Bool)) (c0 : VCond N P) (v : N) (c : Ctx N P) :
    (withActs (fs.map actCond) c0).Sat v c ↔ (∀ f ∈ fs, f c = true) ∧ c0.Sat v c := by
  unfold withActs
  split
  · rename_i h
    have : fs = [] := by simpa using h
    simp [this]
  · simp only [Cond.Sat, satAll_append, satAll_acts, Cond.SatAll, and_true]

theorem testCond_deps (ok : N → Bool) (v : N) (c : Ctx N P) (w : N) (r : Nat) :
    ¬ (testCond ok : VCond N P).Deps v c w r := by
  simp only [testCond, Cond.Deps]
  rintro ⟨p, h, rs, ks, h1, _⟩
  split at h
  · cases h; cases h1
  · cases h

theorem actCond_deps (f : Ctx N P → Bool) (v : N) (c : Ctx N P) (w : N) (r : Nat) :
    ¬ (actCond f : VCond N P).Deps v c w r := by
  simp only [actCond, Cond.Deps]
  rintro ⟨p, h, rs, ks, h1, _⟩
  split at h
  · cases h; cases h1
  · cases h

theorem depsAny_acts (fs : List (Ctx N P → Bool)) (c0 : VCond N P) (v : N) (c : Ctx N P) (w : N)
    (r : Nat) : Cond.DepsAny v c w r (fs.map actCond ++ [c0]) ↔ c0.Deps v c w r := by
  induction fs with
  | nil => simp [Cond.DepsAny]
  | cons f fs ih => simp [Cond.DepsAny, ih, actCond_deps]

theorem withActs_deps (fs : List (Ctx N P → Bool)) (c0 : VCond N P) (v : N) (c : Ctx N P) (w : N)
    (r : Nat) : (withActs (fs.map actCond) c0).Deps v c w r ↔ c0.Deps v c w r := by
  unfold withActs
  split
  · rfl
  · simp only [Cond.Deps, depsAny_acts]

theorem refInSome_acts (fs : List (Ctx N P → Bool)) (c0 : VCond N P) (r : Nat) :
    RefInSome r (fs.map actCond ++ [c0]) ↔ RefIn r c0 := by
  induction fs with
  | nil => simp [RefInSome]
  | cons f fs ih => simp [RefInSome, ih, actCond, RefIn]

theorem withActs_refIn (fs : List (Ctx N P → Bool)) (c0 : VCond N P) (r : Nat) :
    RefIn r (withActs (fs.map actCond) c0) ↔ RefIn r c0 := by
  unfold withActs
  split
  · rfl
  · simp only [RefIn, refInSome_acts]

/-! ## Shapes -/

/-- The typing of indices and the typing of labels agree. -/
structure Agree (R : Core N P → Prop) (g : Graph N P) (ext : Option (SLabel P) → N → Prop) (idx : SLabel P → Option Nat)
    (own : Nat → Option (Core N P)) (I : N × Nat → Prop) (T : N → SLabel P → Prop) : Prop where
  label : ∀ n l j, idx l = some j → (I (n, j) ↔ T n l)
  part : ∀ n j d, R d → own j = some d → (I (n, j) ↔ Sat g ext T d none n)

variable {R : Core N P → Prop} {g : Graph N P} {ext : Option (SLabel P) → N → Prop} {idx : SLabel P → Option Nat}
  {own : Nat → Option (Core N P)} {I : N × Nat → Prop} {T : N → SLabel P → Prop}

theorem valRep_iff (h : Agree R g ext idx own I T) {v : Core N P} (hR : R v)
    {c0 : VCond N P} (hv : ValRep idx own v c0) (w : N) (c : Ctx N P) :
    (c0.Sat w c ∧ ∀ u r, c0.Deps w c u r → I (u, r)) ↔ Sat g ext T v none w := by
  have hown : ∀ d j, R d → own j = some d → (((Cond.ref j : VCond N P).Sat w c ∧
      ∀ u r, (Cond.ref j : VCond N P).Deps w c u r → I (u, r)) ↔ Sat g ext T d none w) := by
    intro d j hR hj
    rw [← h.part w j d hR hj]
    simp only [Cond.Sat, Cond.Deps, true_and]
    constructor
    · intro h1; exact h1 w j ⟨rfl, rfl⟩
    · rintro h1 u r ⟨rfl, rfl⟩; exact h1
  cases v with
  | ref l =>
    obtain ⟨j, hj, rfl⟩ := hv
    simp only [Cond.Sat, Cond.Deps, true_and, Sat]
    rw [← h.label w l j hj]
    constructor
    · intro h1; exact h1 w j ⟨rfl, rfl⟩
    · rintro h1 u r ⟨rfl, rfl⟩; exact h1
  | test ok =>
    cases hv
    simp only [testCond_sat, testCond_deps, Sat, false_implies, implies_true, and_true]
  | or cs => obtain ⟨j, rfl, hj⟩ := hv; exact hown _ j hR hj
  | and cs => obtain ⟨j, rfl, hj⟩ := hv; exact hown _ j hR hj
  | not d => obtain ⟨j, rfl, hj⟩ := hv; exact hown _ j hR hj
  | shape cl ex e xs => obtain ⟨j, rfl, hj⟩ := hv; exact hown _ j hR hj
  | external => obtain ⟨j, rfl, hj⟩ := hv; exact hown _ j hR hj

theorem condRep_iff (h : Agree R g ext idx own I T) {x : Pred P × List (Ctx N P → Bool) × Core N P}
    (hR : R x.2.2) {cond : VCond N P} (hc : CondRep idx own x cond) (n : N) (arc : Pred P × N) :
    (arc.1 = x.1 ∧ cond.Sat arc.2 (n, some arc) ∧
      ∀ u r, cond.Deps arc.2 (n, some arc) u r → I (u, r)) ↔ Fits g ext T n x arc := by
  obtain ⟨c0, hv, rfl⟩ := hc
  unfold Fits
  rw [← valRep_iff h hR hv arc.2 (n, some arc)]
  simp only [withActs_sat, withActs_deps]
  tauto

theorem condRep_mayMatch {x : Pred P × List (Ctx N P → Bool) × Core N P} {cond : VCond N P}
    (hc : CondRep idx own x cond) (v : N) (c : Ctx N P) :
    ((∃ r, RefIn r cond) ∨ cond.Sat v c) ↔
      ∀ ok, x.2.2 = .test ok → (∀ a ∈ x.2.1, a c = true) ∧ ok v = true := by
  obtain ⟨p, acts, val⟩ := x
  obtain ⟨c0, hv, rfl⟩ := hc
  simp only [withActs_refIn, withActs_sat]
  have hyes : ∀ j, c0 = .ref j → (∀ ok, val ≠ .test ok) →
      (((∃ r, RefIn r c0) ∨ (∀ f ∈ acts, f c = true) ∧ c0.Sat v c) ↔
        ∀ ok, val = .test ok → (∀ a ∈ acts, a c = true) ∧ ok v = true) := by
    rintro j rfl hn
    constructor
    · intro _ ok hok; exact (hn ok hok).elim
    · intro _; exact .inl ⟨j, rfl⟩
  cases val with
  | ref l => obtain ⟨j, _, h⟩ := hv; exact hyes j h (by simp)
  | test ok =>
    have hv' : c0 = testCond ok := hv
    subst hv'
    simp [testCond_sat]
    simp [testCond, RefIn]
  | or cs => obtain ⟨j, h, _⟩ := hv; exact hyes j h (by simp)
  | and cs => obtain ⟨j, h, _⟩ := hv; exact hyes j h (by simp)
  | not d => obtain ⟨j, h, _⟩ := hv; exact hyes j h (by simp)
  | shape cl ex e xs => obtain ⟨j, h, _⟩ := hv; exact hyes j h (by simp)
  | external => obtain ⟨j, h, _⟩ := hv; exact hyes j h (by simp)

theorem numbered_coe {A : Type} {L : Multiset Nat → Prop} {fit : Nat → A → Prop} (as : List A) :
    Numbered L fit (as : Multiset A) ↔
      ∃ cs : List Nat, List.Forall₂ (fun a c => fit c a) as cs ∧ L (cs : Multiset Nat) := by
  constructor
  · rintro ⟨m, h1, h2, h3⟩
    have key : ∀ (as : List A) (m : Multiset (A × Nat)), m.map Prod.fst = (as : Multiset A) →
        ∃ l : List (A × Nat), m = (l : Multiset (A × Nat)) ∧ l.map Prod.fst = as := by
      classical
      intro as
      induction as with
      | nil =>
        intro m hm
        rw [Multiset.coe_nil, Multiset.map_eq_zero] at hm
        exact ⟨[], hm, rfl⟩
      | cons a as ih =>
        intro m hm
        rw [← Multiset.cons_coe] at hm
        obtain ⟨y, hy, rfl, hm'⟩ := (Multiset.map_eq_cons Prod.fst m _ _).2 hm
        obtain ⟨l, hl, rfl⟩ := ih _ hm'
        refine ⟨y :: l, ?_, rfl⟩
        rw [← Multiset.cons_coe, ← hl, Multiset.cons_erase hy]
    obtain ⟨l, rfl, rfl⟩ := key as m h1
    refine ⟨l.map Prod.snd, ?_, by simpa using h2⟩
    rw [List.forall₂_map_left_iff, List.forall₂_map_right_iff]
    have h3' : ∀ y ∈ l, fit y.2 y.1 := fun y hy => h3 y (by simpa using hy)
    clear * - h3'
    induction l with
    | nil => exact .nil
    | cons y l ih => exact .cons (h3' y (by simp)) (ih fun z hz => h3' z (by simp [hz]))
  · rintro ⟨cs, h1, h2⟩
    have hlen := h1.length_eq
    refine ⟨(as.zip cs : List (A × Nat)), ?_, ?_, ?_⟩
    · rw [Multiset.map_coe, List.map_fst_zip (by omega)]
    · rw [Multiset.map_coe, List.map_snd_zip (by omega)]; exact h2
    · intro y hy
      exact (List.forall₂_iff_zip.1 h1).2 (by simpa using hy)

section
variable [DecidableEq P]

/-- Component `k` takes the arc, and what it leaves pending is in the typing. -/
def FitsAt (t : TExpr N P) (I : N × Nat → Prop) (n : N) (k : Nat) (arc : Pred P × N) : Prop :=
  t.getKey k = some arc.1 ∧ ∃ cond, t.getCondition k = some cond ∧ cond.Sat arc.2 (n, some arc) ∧
    ∀ u r, cond.Deps arc.2 (n, some arc) u r → I (u, r)

/-- The arc with its context. -/
def toNeigh (n : N) (x : Pred P × N) : Neigh N P := (x.1, x.2, (n, some x))

omit [DecidableEq P] in
theorem toNeigh_injective (n : N) : Function.Injective (toNeigh n : Pred P × N → Neigh N P) := by
  rintro ⟨p, v⟩ ⟨q, w⟩ h
  simp only [toNeigh, Prod.mk.injEq] at h
  rw [h.1, h.2.1]

omit [DecidableEq P] in
theorem assignment_iff (t : TExpr N P) (n : N) (arcs : List (Pred P × N)) (cs : List Nat) :
    (t.Assignment (arcs.map (toNeigh n)) cs ∧
      ∀ w r, t.Requires (arcs.map (toNeigh n)) cs w r → I (w, r)) ↔
    List.Forall₂ (fun a c => FitsAt t I n c a) arcs cs ∧ Lang t.rbe.rbe (cs : Multiset Nat) := by
  unfold Table.Assignment
  rw [and_right_comm]
  refine and_congr ?_ Iff.rfl
  rw [List.forall₂_map_left_iff]
  constructor
  · rintro ⟨h1, h2⟩
    have hz : ∀ x c, (x, c) ∈ arcs.zip cs → ∀ cond, t.getCondition c = some cond →
        ∀ w r, cond.Deps x.2 (n, some x) w r → I (w, r) := by
      intro x c hm cond hc w r hd
      refine h2 w r ⟨toNeigh n x, c, ?_, cond, hc, hd⟩
      rw [List.zip_map_left]
      exact List.mem_map.2 ⟨(x, c), hm, rfl⟩
    clear h2
    induction h1 with
    | nil => exact .nil
    | @cons a c as cs h _ ih =>
      obtain ⟨hk, cond, hc, hs⟩ := h
      refine .cons ⟨hk, cond, hc, hs, fun u r hd => hz a c (by simp) cond hc u r hd⟩ (ih ?_)
      intro x c hm
      exact hz x c (by simp [hm])
  · intro h
    refine ⟨h.imp fun a c hf => ⟨hf.1, hf.2.imp fun cond hc => ⟨hc.1, hc.2.1⟩⟩, ?_⟩
    rintro w r ⟨x, c, hm, cond, hc, hd⟩
    rw [List.zip_map_left] at hm
    obtain ⟨⟨y, c'⟩, hm', he⟩ := List.mem_map.1 hm
    simp only [Prod.map_apply, id, Prod.mk.injEq] at he
    obtain ⟨rfl, rfl⟩ := he
    obtain ⟨_, cond', hc', _, h4⟩ := (List.forall₂_iff_zip.1 h).2 hm'
    rw [hc] at hc'
    cases hc'
    exact h4 w r hd

/-- What the table of the shape has at a number. -/
theorem ShapeRep.component {cl : Bool} {ex : List P} {e : CTE N P} {xs : List (SLabel P)}
    {s : Shape N P} (h : ShapeRep idx own cl ex e xs s) (k : Nat) :
    (e.constraints[k]? = none ∧ s.expr.getKey k = none ∧ s.expr.getCondition k = none) ∨
      ∃ x cond, e.constraints[k]? = some x ∧ s.expr.getKey k = some x.1 ∧
        s.expr.getCondition k = some cond ∧ CondRep idx own x cond := by
  obtain ⟨conds, r, h1, _, _, h4⟩ := h.table
  have hex : Exactly (s.expr) ((e.constraints.map Prod.fst).zip conds) := by
    rw [h4]
    have := (exactly_new (N := N) (P := P)).addAll ((e.constraints.map Prod.fst).zip conds)
    rw [List.nil_append] at this
    exact ⟨this.1, this.2.1, this.2.2⟩
  rw [hex.2.1, hex.2.2]
  have hlen := h1.length_eq
  by_cases hk : k < e.constraints.length
  · right
    have hk' : k < conds.length := by omega
    refine ⟨e.constraints[k], conds[k], by simp [hk], ?_, ?_, ?_⟩
    · simp [List.getElem?_zip_eq_some, List.zip, hk, hk']
    · simp [List.zip, hk, hk']
    · exact List.forall₂_iff_get.1 h1 |>.2 k hk hk'
  · left
    refine ⟨List.getElem?_eq_none (by omega), ?_, ?_⟩
    · rw [List.getElem?_eq_none (by simp; omega)]; rfl
    · rw [List.getElem?_eq_none (by simp; omega)]; rfl

theorem ShapeRep.hasConstraint {cl : Bool} {ex : List P} {e : CTE N P} {xs : List (SLabel P)}
    {s : Shape N P} (h : ShapeRep idx own cl ex e xs s) (p : Pred P) (cond : VCond N P) :
    HasConstraint s.expr p cond ↔
      ∃ k x, e.constraints[k]? = some x ∧ x.1 = p ∧ s.expr.getCondition k = some cond ∧
        CondRep idx own x cond := by
  constructor
  · rintro ⟨k, h1, h2⟩
    rcases h.component k with ⟨_, h3, _⟩ | ⟨x, cond', h3, h4, h5, h6⟩
    · rw [h1] at h3; cases h3
    · rw [h1] at h4; rw [h2] at h5
      cases h4; cases h5
      exact ⟨k, x, h3, rfl, h2, h6⟩
  · rintro ⟨k, x, h1, rfl, h2, h3⟩
    rcases h.component k with ⟨h4, _⟩ | ⟨x', cond', h4, h5, h6, _⟩
    · rw [h1] at h4; cases h4
    · rw [h1] at h4; cases h4
      exact ⟨k, h5, h2⟩

theorem ShapeRep.mayMatch {cl : Bool} {ex : List P} {e : CTE N P} {xs : List (SLabel P)}
    {s : Shape N P} (h : ShapeRep idx own cl ex e xs s) (n : N) (p : Pred P) (v : N) :
    s.MayMatch n p v ↔ e.MayMatch n (p, v) := by
  constructor
  · rintro ⟨cond, h1, h2⟩
    obtain ⟨k, x, h3, rfl, h4, h5⟩ := (h.hasConstraint p cond).1 h1
    refine ⟨x.2.1, x.2.2, ?_, ?_⟩
    · exact List.mem_of_getElem? h3
    · exact (condRep_mayMatch h5 v _).1 h2
  · rintro ⟨acts, val, h1, h2⟩
    obtain ⟨k, hk⟩ := List.mem_iff_getElem?.1 h1
    rcases h.component k with ⟨h3, _⟩ | ⟨x, cond, h3, h4, h5, h6⟩
    · rw [hk] at h3; cases h3
    · rw [hk] at h3; cases h3
      exact ⟨cond, ⟨k, h4, h5⟩, (condRep_mayMatch h6 v _).2 h2⟩

theorem ShapeRep.mentions {cl : Bool} {ex : List P} {e : CTE N P} {xs : List (SLabel P)}
    {s : Shape N P} (h : ShapeRep idx own cl ex e xs s) (p : Pred P) :
    s.Mentions p ↔ e.Mentions p ∨ (p.direct = true ∧ p.iri ∈ ex) := by
  unfold Shape.Mentions CTE.Mentions
  rw [h.preds, h.extra]
  refine or_congr ?_ ?_
  · simp [List.mem_map, Prod.exists]
  · rw [List.mem_map]
    obtain ⟨i, d⟩ := p
    constructor
    · rintro ⟨j, hj, he⟩; cases he; exact ⟨rfl, hj⟩
    · rintro ⟨h1, h2⟩; cases h1; exact ⟨i, h2, rfl⟩

theorem ShapeRep.bound {cl : Bool} {ex : List P} {e : CTE N P} {xs : List (SLabel P)}
    {s : Shape N P} (h : ShapeRep idx own cl ex e xs s) (g : Graph N P) (n : N) (x : Pred P × N) :
    s.Bound g n x.1 x.2 ↔ BoundArc g ex e n x := by
  unfold Shape.Bound BoundArc
  rw [h.mentions, h.mayMatch, h.extra, List.mem_map]
  refine and_congr Iff.rfl (and_congr Iff.rfl ?_)
  obtain ⟨⟨i, d⟩, v⟩ := x
  simp only [Pred.mk.injEq]
  constructor
  · rintro h1 ⟨rfl, h2⟩; exact h1 ⟨i, h2, rfl, rfl⟩
  · rintro h1 ⟨j, h2, rfl, rfl⟩; exact h1 ⟨rfl, h2⟩

theorem shapeRep_iff (hA : Agree R g ext idx own I T) {cl : Bool} {ex : List P} {e : CTE N P}
    {xs : List (SLabel P)} (hR : ∀ d, Child d (.shape cl ex e xs) → R d) {s : Shape N P} (h : ShapeRep idx own cl ex e xs s) (n : N)
    (l : Option (SLabel P)) :
    ShapeSat g I n s ↔ Sat g ext T (.shape cl ex e xs) l n := by
  simp only [ShapeSat, Sat, h.closed]
  refine and_congr ?_ ?_
  · simp only [h.mentions, true_and]
  · have hrbe : s.expr.rbe.rbe = e.rbe 0 := by
      obtain ⟨conds, r, _, _, h3, h4⟩ := h.table
      rw [h4]; exact h3
    have hm : ∀ arcs : List (Pred P × N),
        (∃ cs, s.expr.Assignment (arcs.map (toNeigh n)) cs ∧
          ∀ w r, s.expr.Requires (arcs.map (toNeigh n)) cs w r → I (w, r)) ↔
        Matches g ext T e n (arcs : Multiset (Pred P × N)) := by
      intro arcs
      simp only [assignment_iff]
      rw [hrbe, ← numbered_coe, matches_iff e 0 _ (arcs : Multiset (Pred P × N))]
      intro k x hk arc
      rw [Nat.zero_add]
      rcases h.component k with ⟨h1, _⟩ | ⟨x', cond, h1, h2, h3, h4⟩
      · rw [hk] at h1; cases h1
      · rw [hk] at h1; cases h1
        rw [← condRep_iff hA (hR _ ⟨x.1, x.2.1, List.mem_of_getElem? hk⟩) h4 n arc]
        unfold FitsAt
        rw [h2, h3]
        constructor
        · rintro ⟨h5, cond', h6, h7⟩
          cases h6
          exact ⟨(Option.some.inj h5).symm, h7⟩
        · rintro ⟨h5, h6⟩
          exact ⟨by rw [h5], cond, rfl, h6⟩
    constructor
    · rintro ⟨vs, cs, h1, h2, h3⟩
      have hvs : vs = (vs.map fun x => (x.1, x.2.1)).map (toNeigh n) := by
        rw [List.map_map]
        conv_lhs => rw [← List.map_id vs]
        apply List.map_congr_left
        rintro ⟨p, v, c⟩ hx
        have := ((h1.2 _).1 hx).1
        dsimp only at this
        subst this
        rfl
      refine ⟨vs.map fun x => (x.1, x.2.1), ?_, ?_, ?_⟩
      · have := h1.1
        rw [hvs] at this
        exact List.Nodup.of_map _ this
      · rintro ⟨p, v⟩
        rw [← h.bound g n (p, v)]
        constructor
        · intro hx
          obtain ⟨⟨q, w, c⟩, hy, he⟩ := List.mem_map.1 hx
          simp only [Prod.mk.injEq] at he
          obtain ⟨rfl, rfl⟩ := he
          exact ((h1.2 _).1 hy).2
        · intro hb
          exact List.mem_map.2 ⟨(p, v, (n, some (p, v))), (h1.2 _).2 ⟨rfl, hb⟩, rfl⟩
      · rw [← hm, ← hvs]
        exact ⟨cs, h2, h3⟩
    · rintro ⟨arcs, h1, h2, h3⟩
      rw [← hm] at h3
      obtain ⟨cs, h4, h5⟩ := h3
      refine ⟨arcs.map (toNeigh n), cs, ⟨h1.map (toNeigh_injective n), ?_⟩, h4, h5⟩
      rintro ⟨p, v, c⟩
      constructor
      · intro hx
        obtain ⟨⟨q, w⟩, hy, he⟩ := List.mem_map.1 hx
        simp only [toNeigh, Prod.mk.injEq] at he
        obtain ⟨rfl, rfl, rfl⟩ := he
        exact ⟨rfl, (h.bound g n (q, w)).2 ((h2 _).1 hy)⟩
      · rintro ⟨he, hb⟩
        dsimp only at he
        subst he
        exact List.mem_map.2 ⟨(p, v), (h2 _).2 ((h.bound g n (p, v)).1 hb), rfl⟩

omit [DecidableEq P] in
theorem satAll_iff (hA : Agree R g ext idx own I T) {cs : List (Core N P)} {is : List Nat}
    (hR : ∀ d ∈ cs, R d) (h : List.Forall₂ (fun c j => own j = some c) cs is) (n : N) :
    (∀ e ∈ is, I (n, e)) ↔ SatAll g ext T cs n := by
  induction h with
  | nil => simp [SatAll]
  | cons h _ ih =>
    rw [List.forall_mem_cons] at hR
    simp [SatAll, ← ih hR.2, ← hA.part n _ _ hR.1 h]

omit [DecidableEq P] in
theorem satSome_iff (hA : Agree R g ext idx own I T) {cs : List (Core N P)} {is : List Nat}
    (hR : ∀ d ∈ cs, R d) (h : List.Forall₂ (fun c j => own j = some c) cs is) (n : N) :
    (∃ e ∈ is, I (n, e)) ↔ SatSome g ext T cs n := by
  induction h with
  | nil => simp [SatSome]
  | cons h _ ih =>
    rw [List.forall_mem_cons] at hR
    simp [SatSome, ← ih hR.2, ← hA.part n _ _ hR.1 h]

/-- The stored expression means what the core expression means. -/
theorem loc_iff {E : Env N P} {l : Option (SLabel P)} {i : Nat} {n : N}
    (hE : E.external n i = true ↔ ext l n) {c : Core N P}
    (hA : Agree (fun d => Child d c) E.graph ext idx own I T) {r : ShapeExpr N P} (h : Loc idx own c r) :
    ExprSat E I n i r ↔ Sat E.graph ext T c l n := by
  cases c with
  | ref k =>
    obtain ⟨j, hj, rfl⟩ := h
    simp only [ExprSat, Sat]
    exact hA.label n k j hj
  | or cs =>
    obtain ⟨is, rfl, hj⟩ := h
    simp only [ExprSat, Sat]
    exact satSome_iff hA (fun d hd => hd) hj n
  | and cs =>
    obtain ⟨is, rfl, hj⟩ := h
    simp only [ExprSat, Sat]
    exact satAll_iff hA (fun d hd => hd) hj n
  | not c =>
    obtain ⟨j, rfl, hj⟩ := h
    simp only [ExprSat, Sat]
    exact not_congr (hA.part n j c rfl hj)
  | shape cl ex e xs =>
    obtain ⟨s, rfl, hs⟩ := h
    exact shapeRep_iff hA (fun d hd => hd) hs n l
  | test ok =>
    cases h
    simp only [ExprSat, Sat]
    exact testCond_sat ok n (n, none)
  | external =>
    cases h
    exact hE

end

end Comp
