import Verif.Comp.LemmasImports
import Verif.Comp.LemmasMeaning
import Verif.Shex.PropsShape

/-!
# Helper lemmas: typings of the compiled schema and of the source
-/

namespace Comp
open Shex Rbe

variable {N P NC : Type}

/-! ## Parts are smaller -/

mutual
theorem CTE.constraints_size : ∀ (e : CTE N P) (x : Pred P × List (Ctx N P → Bool) × Core N P),
    x ∈ e.constraints → sizeOf x.2.2 < sizeOf e
  | .nothing, x, h => by simp [CTE.constraints] at h
  | .eachOf es c, x, h => by
    have := constraintsAll_size es x (by simpa [CTE.constraints] using h)
    simp only [CTE.eachOf.sizeOf_spec]; omega
  | .oneOf es c, x, h => by
    have := constraintsAll_size es x (by simpa [CTE.constraints] using h)
    simp only [CTE.oneOf.sizeOf_spec]; omega
  | .tc p acts v c, x, h => by
    simp only [CTE.constraints, List.mem_singleton] at h
    subst h
    simp only [CTE.tc.sizeOf_spec]; omega
  | .incl e, x, h => by
    have := CTE.constraints_size e x (by simpa [CTE.constraints] using h)
    simp only [CTE.incl.sizeOf_spec]; omega
theorem constraintsAll_size : ∀ (es : List (CTE N P)) (x : Pred P × List (Ctx N P → Bool) × Core N P),
    x ∈ constraintsAll es → sizeOf x.2.2 < sizeOf es
  | [], x, h => by simp [constraintsAll] at h
  | e :: es, x, h => by
    simp only [constraintsAll, List.mem_append] at h
    simp only [List.cons.sizeOf_spec]
    rcases h with h | h
    · have := CTE.constraints_size e x h; omega
    · have := constraintsAll_size es x h; omega
end

theorem Child.size {d c : Core N P} (h : Child d c) : sizeOf d < sizeOf c := by
  cases c with
  | ref l => exact h.elim
  | or cs =>
    have := List.sizeOf_lt_of_mem (show d ∈ cs from h)
    simp only [Core.or.sizeOf_spec]; omega
  | and cs =>
    have := List.sizeOf_lt_of_mem (show d ∈ cs from h)
    simp only [Core.and.sizeOf_spec]; omega
  | not c =>
    cases (show d = c from h)
    simp only [Core.not.sizeOf_spec]; omega
  | shape cl ex e xs =>
    obtain ⟨p, acts, h⟩ := h
    have h1 : sizeOf d < sizeOf e := CTE.constraints_size e _ h
    simp only [Core.shape.sizeOf_spec]
    omega
  | test ok => exact h.elim
  | external => exact h.elim

section
variable [DecidableEq P]

/-! ## Fixed points -/

/-- The typing of labels read off a typing of indices. -/
def onLabels (st : St N P) (I : N × Nat → Prop) : N → SLabel P → Prop :=
  fun n l => ∃ j, st.idx l = some j ∧ I (n, j)

/-- The typing of indices given by a typing of labels. -/
def onIndices (g : Graph N P) (ext : Option (SLabel P) → N → Prop) (st : St N P)
    (own : Nat → Option (Core N P)) (T : N → SLabel P → Prop) : N × Nat → Prop :=
  fun x => (∃ l, st.idx l = some x.2 ∧ T x.1 l) ∨ (∃ d, own x.2 = some d ∧ Sat g ext T d none x.1) ∨
    (st.find x.2 = some .empty ∧ (∀ l, st.idx l ≠ some x.2) ∧ own x.2 = none)

variable {Q : Core N P → Prop} {st : St N P} {own : Nat → Option (Core N P)} {D : Decls N P}
  {E : Env N P} {ext : Option (SLabel P) → N → Prop}

theorem Compiled.inj (h : Compiled Q st own D) {l k : SLabel P} {i : Nat} (h1 : st.idx l = some i)
    (h2 : st.idx k = some i) : l = k := by
  have := (h.label l i h1).1
  rw [(h.label k i h2).1] at this
  exact (Option.some.inj this).symm

theorem Compiled.unowned (h : Compiled Q st own D) {l : SLabel P} {i : Nat} (h1 : st.idx l = some i) :
    own i = none := by
  cases ho : own i with
  | none => rfl
  | some d =>
    have := (h.part i d ho).1
    rw [(h.label l i h1).1] at this
    cases this

theorem agree_of_fixed (h : Compiled Q st own D) (hE : E.schema = st.schema)
    (hx : ∀ n i, E.external n i = true ↔ ext (st.name i) n) {I : N × Nat → Prop} (hI : Fixed E I) :
    Agree (fun _ => True) E.graph ext st.idx own I (onLabels st I) := by
  have hlab : ∀ n l j, st.idx l = some j → (I (n, j) ↔ onLabels st I n l) := by
    intro n l j hj
    constructor
    · intro h1; exact ⟨j, hj, h1⟩
    · rintro ⟨j', h1, h2⟩
      rw [hj] at h1; cases h1; exact h2
  have key : ∀ m, ∀ n j d, sizeOf d < m → own j = some d → (I (n, j) ↔ Sat E.graph ext (onLabels st I) d none n) := by
    intro m
    induction m with
    | zero => intro n j d hd; omega
    | succ m ih =>
      intro n j d hd hj
      obtain ⟨hn, r, hf, hl⟩ := h.part j d hj
      have hA : Agree (fun d' => Child d' d) E.graph ext st.idx own I (onLabels st I) :=
        ⟨hlab, fun n j d' hc ho => ih n j d' (by have := hc.size; omega) ho⟩
      rw [hI n j, ← loc_iff (l := none) (i := j) (by rw [hx, hn]) hA hl]
      constructor
      · rintro ⟨se, h1, h2⟩
        rw [hE] at h1
        have : st.find j = some se := h1
        rw [hf] at this; cases this
        exact h2
      · intro h2
        exact ⟨r, by rw [hE]; exact hf, h2⟩
  exact ⟨hlab, fun n j d _ hj => key _ n j d (Nat.lt_succ_self _) hj⟩

/-- Read off the labels, a fixed point is a typing of the source. -/
theorem typing_of_fixed (h : Compiled Q st own D) (hE : E.schema = st.schema)
    (hx : ∀ n i, E.external n i = true ↔ ext (st.name i) n) {I : N × Nat → Prop} (hI : Fixed E I) :
    Typing E.graph ext D (onLabels st I) := by
  have hA := agree_of_fixed h hE hx hI
  intro n l
  constructor
  · rintro ⟨j, hj, h1⟩
    obtain ⟨hn, c, r, hc, hf, hl⟩ := h.label l j hj
    obtain ⟨se, h2, h3⟩ := (hI n j).1 h1
    rw [hE] at h2
    have : st.find j = some se := h2
    rw [hf] at this; cases this
    exact ⟨c, hc, (loc_iff (l := some l) (by rw [hx, hn])
      ⟨hA.label, fun n j d _ ho => hA.part n j d trivial ho⟩ hl).1 h3⟩
  · rintro ⟨c, hc, h1⟩
    have hs := h.known l
    rw [hc] at hs
    obtain ⟨j, hj⟩ := Option.isSome_iff_exists.1 hs
    obtain ⟨hn, c', r, hc', hf, hl⟩ := h.label l j hj
    rw [hc] at hc'; cases hc'
    refine ⟨j, hj, (hI n j).2 ⟨r, by rw [hE]; exact hf, ?_⟩⟩
    exact (loc_iff (l := some l) (by rw [hx, hn])
      ⟨hA.label, fun n j d _ ho => hA.part n j d trivial ho⟩ hl).2 h1

theorem agree_onIndices (g : Graph N P) (h : Compiled Q st own D) (T : N → SLabel P → Prop) :
    Agree (fun _ => True) g ext st.idx own (onIndices g ext st own T) T := by
  refine ⟨?_, ?_⟩
  · intro n l j hj
    constructor
    · rintro (⟨k, h1, h2⟩ | ⟨d, h1, _⟩ | ⟨_, h1, _⟩)
      · rw [h.inj hj h1]; exact h2
      · rw [h.unowned hj] at h1; cases h1
      · exact (h1 l hj).elim
    · intro h1; exact .inl ⟨l, hj, h1⟩
  · intro n j d _ hj
    constructor
    · rintro (⟨k, h1, h2⟩ | ⟨d', h1, h2⟩ | ⟨_, _, h1⟩)
      · rw [h.unowned h1] at hj; cases hj
      · dsimp only at h1
        rw [hj] at h1; cases h1; exact h2
      · dsimp only at h1
        rw [hj] at h1; cases h1
    · intro h1; exact .inr (.inl ⟨d, hj, h1⟩)

/-- Where a typing of labels is justified, so is the typing of indices it gives. -/
theorem onIndices_post (h : Compiled Q st own D) (hE : E.schema = st.schema)
    (hx : ∀ n i, E.external n i = true ↔ ext (st.name i) n) {T : N → SLabel P → Prop} {n : N} {i : Nat}
    (hT : ∀ l, T n l → ∃ c, D l = some c ∧ Sat E.graph ext T c (some l) n)
    (hi : onIndices E.graph ext st own T (n, i)) :
    ∃ se, E.schema.At i se ∧ ExprSat E (onIndices E.graph ext st own T) n i se := by
  have hA := agree_onIndices (ext := ext) E.graph h T
  rcases hi with ⟨l, hl, h1⟩ | ⟨d, hd, h1⟩ | ⟨h1, _⟩
  · obtain ⟨hn, c, r, hc, hf, hloc⟩ := h.label l i hl
    obtain ⟨c', hc', h2⟩ := hT l h1
    rw [hc] at hc'; cases hc'
    exact ⟨r, by rw [hE]; exact hf, (loc_iff (l := some l) (by rw [hx, hn])
      ⟨hA.label, fun n j d _ ho => hA.part n j d trivial ho⟩ hloc).2 h2⟩
  · obtain ⟨hn, r, hf, hloc⟩ := h.part i d hd
    exact ⟨r, by rw [hE]; exact hf, (loc_iff (l := none) (by rw [hx, hn])
      ⟨hA.label, fun n j d _ ho => hA.part n j d trivial ho⟩ hloc).2 h1⟩
  · exact ⟨.empty, by rw [hE]; exact h1, trivial⟩

/-- A typing of the source gives a fixed point. -/
theorem fixed_of_typing (h : Compiled Q st own D) (hE : E.schema = st.schema)
    (hx : ∀ n i, E.external n i = true ↔ ext (st.name i) n) {T : N → SLabel P → Prop}
    (hT : Typing E.graph ext D T) : Fixed E (onIndices E.graph ext st own T) := by
  have hA := agree_onIndices (ext := ext) E.graph h T
  intro n i
  constructor
  · exact onIndices_post h hE hx fun l hl => (hT n l).1 hl
  · rintro ⟨se, h1, h2⟩
    rw [hE] at h1
    have hf : st.find i = some se := h1
    by_cases hlab : ∃ l, st.idx l = some i
    · obtain ⟨l, hl⟩ := hlab
      obtain ⟨hn, c, r, hc, hf', hloc⟩ := h.label l i hl
      rw [hf] at hf'; cases hf'
      refine .inl ⟨l, hl, (hT n l).2 ⟨c, hc, ?_⟩⟩
      exact (loc_iff (l := some l) (by rw [hx, hn])
        ⟨hA.label, fun n j d _ ho => hA.part n j d trivial ho⟩ hloc).1 h2
    · cases hown : own i with
      | some d =>
        obtain ⟨hn, r, hf', hloc⟩ := h.part i d hown
        rw [hf] at hf'; cases hf'
        exact .inr (.inl ⟨d, hown, (loc_iff (l := none) (by rw [hx, hn])
          ⟨hA.label, fun n j d _ ho => hA.part n j d trivial ho⟩ hloc).1 h2⟩)
      | none =>
        rcases h.cover i se hf with h3 | ⟨d, h3⟩ | rfl
        · exact (hlab h3).elim
        · rw [hown] at h3; cases h3
        · exact .inr (.inr ⟨hf, fun l hl => hlab ⟨l, hl⟩, hown⟩)

/-! ## Greatest typings -/

/-- Without negation the meaning of a stored expression grows with the typing of what it refers to. -/
theorem loc_mono {idx : SLabel P → Option Nat} {X Y : N × Nat → Prop} {c : Core N P}
    {r : ShapeExpr N P} (h : Loc idx own c r) (hp : ∀ d, c ≠ .not d)
    (hlab : ∀ n l j, idx l = some j → X (n, j) → Y (n, j))
    (hpart : ∀ n j d, Child d c → own j = some d → X (n, j) → Y (n, j)) {n : N} {i : Nat}
    (hs : ExprSat E X n i r) : ExprSat E Y n i r := by
  cases c with
  | ref k =>
    obtain ⟨j, hj, rfl⟩ := h
    exact hlab n k j hj hs
  | or cs =>
    obtain ⟨is, rfl, hj⟩ := h
    obtain ⟨j, h1, h2⟩ := hs
    refine ⟨j, h1, ?_⟩
    obtain ⟨d, hd, ho⟩ : ∃ d ∈ cs, own j = some d := by
      clear * - hj h1
      induction hj with
      | nil => simp at h1
      | @cons a b _ _ h _ ih =>
        rcases List.mem_cons.1 h1 with rfl | h1
        · exact ⟨a, by simp, h⟩
        · obtain ⟨d, h2, h3⟩ := ih h1
          exact ⟨d, by simp [h2], h3⟩
    exact hpart n j d hd ho h2
  | and cs =>
    obtain ⟨is, rfl, hj⟩ := h
    intro j h1
    obtain ⟨d, hd, ho⟩ : ∃ d ∈ cs, own j = some d := by
      clear * - hj h1
      induction hj with
      | nil => simp at h1
      | @cons a b _ _ h _ ih =>
        rcases List.mem_cons.1 h1 with rfl | h1
        · exact ⟨a, by simp, h⟩
        · obtain ⟨d, h2, h3⟩ := ih h1
          exact ⟨d, by simp [h2], h3⟩
    exact hpart n j d hd ho (hs j h1)
  | not c => exact (hp c rfl).elim
  | shape cl ex e xs =>
    obtain ⟨s, rfl, hr⟩ := h
    obtain ⟨h1, vs, cs, h2, h3, h4⟩ := hs
    refine ⟨h1, vs, cs, h2, h3, fun w r hwr => ?_⟩
    have hX := h4 w r hwr
    obtain ⟨x, k, hm, cond, hc, hd⟩ := hwr
    rcases hr.component k with ⟨_, _, h5⟩ | ⟨y, cond', h5, _, h6, h7⟩
    · rw [hc] at h5; cases h5
    · rw [hc] at h6; cases h6
      obtain ⟨c0, hv, rfl⟩ := h7
      rw [withActs_deps] at hd
      obtain ⟨p, acts, v⟩ := y
      have hch : Child v (.shape cl ex e xs) := ⟨p, acts, List.mem_of_getElem? h5⟩
      cases v with
      | ref l =>
        obtain ⟨j, hj, rfl⟩ := hv
        obtain ⟨rfl, rfl⟩ := hd
        exact hlab _ l _ hj hX
      | test ok =>
        have hv' : c0 = testCond ok := hv
        subst hv'
        exact (testCond_deps _ _ _ _ _ hd).elim
      | or cs => obtain ⟨j, rfl, hj⟩ := hv; obtain ⟨rfl, rfl⟩ := hd; exact hpart _ _ _ hch hj hX
      | and cs => obtain ⟨j, rfl, hj⟩ := hv; obtain ⟨rfl, rfl⟩ := hd; exact hpart _ _ _ hch hj hX
      | not c => obtain ⟨j, rfl, hj⟩ := hv; obtain ⟨rfl, rfl⟩ := hd; exact hpart _ _ _ hch hj hX
      | shape _ _ _ _ => obtain ⟨j, rfl, hj⟩ := hv; obtain ⟨rfl, rfl⟩ := hd; exact hpart _ _ _ hch hj hX
      | external => obtain ⟨j, rfl, hj⟩ := hv; obtain ⟨rfl, rfl⟩ := hd; exact hpart _ _ _ hch hj hX
  | test ok => cases h; exact hs
  | external => cases h; exact hs

/-- The greatest typing of the source is that of the compiled schema. -/
theorem greatest_iff (h : Compiled Q st own D) (hE : E.schema = st.schema)
    (hx : ∀ n i, E.external n i = true ↔ ext (st.name i) n)
    (hp : ∀ l c, D l = some c → c.Positive) {n : N} {l : SLabel P} {i : Nat} (hi : st.idx l = some i) :
    GreatestTyping E (n, i) ↔ GreatestOf E.graph ext D n l := by
  constructor
  · rintro ⟨X, hX, hpost⟩
    have hA := agree_onIndices (ext := ext) E.graph h (onLabels st X)
    have hlab : ∀ n l j, st.idx l = some j → X (n, j) →
        onIndices E.graph ext st own (onLabels st X) (n, j) :=
      fun n l j hj hx => .inl ⟨l, hj, j, hj, hx⟩
    have step : ∀ c r n i, Loc st.idx own c r → (∀ d, c ≠ .not d) →
        (∀ n j d, Child d c → own j = some d → X (n, j) →
          onIndices E.graph ext st own (onLabels st X) (n, j)) → st.find i = some r → X (n, i) →
        ExprSat E (onIndices E.graph ext st own (onLabels st X)) n i r := by
      intro c r n i hl hc hpart hf hXi
      obtain ⟨se, h1, h2⟩ := hpost _ hXi
      rw [hE] at h1
      have : st.find i = some se := h1
      rw [hf] at this; cases this
      exact loc_mono hl hc hlab hpart h2
    have hpart : ∀ m n j d, sizeOf d < m → d.Positive → own j = some d → X (n, j) →
        onIndices E.graph ext st own (onLabels st X) (n, j) := by
      intro m
      induction m with
      | zero => intro n j d hd; omega
      | succ m ih =>
        intro n j d hd hpd hj hXj
        obtain ⟨hn, r, hf, hl⟩ := h.part j d hj
        have h1 := step d r n j hl (hpd d .refl) (fun n j d' hc ho hX' =>
          ih n j d' (by have := hc.size; omega) (fun d'' hr => hpd d'' (hr.tail hc)) ho hX') hf hXj
        exact .inr (.inl ⟨d, hj, (loc_iff (l := none) (by rw [hx, hn])
          ⟨hA.label, fun n j d _ ho => hA.part n j d trivial ho⟩ hl).1 h1⟩)
    refine ⟨onLabels st X, ⟨i, hi, hX⟩, ?_⟩
    rintro m k ⟨j, hj, hXj⟩
    obtain ⟨hn, c, r, hc, hf, hl⟩ := h.label k j hj
    have hpc := hp k c hc
    refine ⟨c, hc, (loc_iff (l := some k) (by rw [hx, hn])
      ⟨hA.label, fun n j d _ ho => hA.part n j d trivial ho⟩ hl).1
        (step c r m j hl (hpc c .refl) (fun n j d hd ho hX' =>
          hpart _ n j d (Nat.lt_succ_self _) (fun d' hr => hpc d' (hr.tail hd)) ho hX') hf hXj)⟩
  · rintro ⟨X, hX, hpost⟩
    exact ⟨onIndices E.graph ext st own X, .inl ⟨l, hi, hX⟩,
      fun y hy => onIndices_post h hE hx (fun k hk => hpost _ k hk) hy⟩

/-! ## The conditions of the engine -/

omit [DecidableEq P] in
theorem simpleCard_group {c : Card} (h : SimpleCard c) {e : Expr Nat} (he : RepeatFree e) :
    RepeatFree (groupE e c) := by
  unfold groupE
  split
  · exact he
  · split
    · simpa [RepeatFree] using he
    · split
      · simpa [RepeatFree] using he
      · rename_i h1 h2 h3
        exfalso
        obtain ⟨mn, mx⟩ := c
        rcases h with ⟨ha, hb⟩ | ⟨ha, hb⟩
        · dsimp only at ha hb; subst ha hb; exact h1 rfl
        · dsimp only at ha hb; subst hb
          rcases Nat.le_one_iff_eq_zero_or_eq_one.1 ha with h | h
          · exact h2 ⟨h, rfl⟩
          · exact h3 ⟨h, rfl⟩

mutual
theorem CTE.rbe_free : ∀ (e : CTE N P) (a : Nat), e.Simple → RepeatFree (e.rbe a)
  | .nothing, a, _ => by simp [CTE.rbe, RepeatFree]
  | .eachOf es c, a, h => by
    simp only [CTE.Simple] at h
    exact simpleCard_group h.1 (by simpa only [RepeatFree] using rbes_free es a h.2)
  | .oneOf es c, a, h => by
    simp only [CTE.Simple] at h
    exact simpleCard_group h.1 (by simpa only [RepeatFree] using rbes_free es a h.2)
  | .tc p acts v c, a, _ => by simp [CTE.rbe, RepeatFree]
  | .incl e, a, h => CTE.rbe_free e a (by simpa only [CTE.Simple] using h)
theorem rbes_free : ∀ (es : List (CTE N P)) (a : Nat), SimpleAll es → RepeatFreeList (rbes es a)
  | [], a, _ => by simp [rbes, RepeatFreeList]
  | e :: es, a, h => by
    simp only [SimpleAll] at h
    simp only [rbes, RepeatFreeList]
    exact ⟨CTE.rbe_free e a h.1, rbes_free es _ h.2⟩
end

omit [DecidableEq P] in
theorem group_wf {c : Card} {e : Expr Nat} (h1 : c.Holds c.min) (h2 : c.max ≠ .intMax 0) (he : WF e) :
    WF (groupE e c) := by
  unfold groupE
  split
  · exact he
  · split
    · simpa [WF] using he
    · split
      · simpa [WF] using he
      · simp only [WF]; exact ⟨h1, h2, he⟩

omit [DecidableEq P] in
theorem group_flat {c : Card} {e : Expr Nat} (he : RepeatFlat e)
    (h : (c.min = 1 ∧ c.max = .intMax 1) ∨ RepeatFree e) : RepeatFlat (groupE e c) := by
  unfold groupE
  split
  · exact he
  · rename_i h1
    have hf : RepeatFree e := by
      rcases h with ⟨ha, hb⟩ | h
      · exfalso
        obtain ⟨mn, mx⟩ := c
        dsimp only at ha hb; subst ha hb; exact h1 rfl
      · exact h
    split
    · simpa [RepeatFlat] using hf
    · split
      · simpa [RepeatFlat] using hf
      · simpa [RepeatFlat] using hf

omit [DecidableEq P] in
theorem rbes_ne_nil {es : List (CTE N P)} (h : es ≠ []) (a : Nat) : rbes es a ≠ [] := by
  cases es with
  | nil => exact (h rfl).elim
  | cons e es => simp [rbes]

mutual
theorem CTE.rbe_regular : ∀ (e : CTE N P) (a : Nat), e.Regular → WF (e.rbe a) ∧ RepeatFlat (e.rbe a)
  | .nothing, a, _ => by simp [CTE.rbe, WF, RepeatFlat]
  | .eachOf es c, a, h => by
    simp only [CTE.Regular] at h
    obtain ⟨h1, h2, h3, h4⟩ := h
    obtain ⟨h5, h6⟩ := rbes_regular es a h3
    exact ⟨group_wf h1 h2 (by simpa only [WF] using h5), group_flat (by simpa only [RepeatFlat] using h6)
      (h4.imp_right fun h => by simpa only [RepeatFree] using rbes_free es a h)⟩
  | .oneOf es c, a, h => by
    simp only [CTE.Regular] at h
    obtain ⟨h0, h1, h2, h3, h4⟩ := h
    obtain ⟨h5, h6⟩ := rbes_regular es a h3
    exact ⟨group_wf h1 h2 (by simp only [WF]; exact ⟨rbes_ne_nil h0 a, h5⟩),
      group_flat (by simpa only [RepeatFlat] using h6)
      (h4.imp_right fun h => by simpa only [RepeatFree] using rbes_free es a h)⟩
  | .tc p acts v c, a, _ => by simp [CTE.rbe, WF, RepeatFlat]
  | .incl e, a, h => CTE.rbe_regular e a (by simpa only [CTE.Regular] using h)
theorem rbes_regular : ∀ (es : List (CTE N P)) (a : Nat), RegularAll es →
    WFList (rbes es a) ∧ RepeatFlatList (rbes es a)
  | [], a, _ => by simp [rbes, WFList, RepeatFlatList]
  | e :: es, a, h => by
    simp only [RegularAll] at h
    obtain ⟨h1, h2⟩ := CTE.rbe_regular e a h.1
    obtain ⟨h3, h4⟩ := rbes_regular es (a + e.constraints.length) h.2
    simp only [rbes, WFList, RepeatFlatList]
    exact ⟨⟨h1, h3⟩, h2, h4⟩
end

omit [DecidableEq P] in
theorem sumOf_zero {L : Multiset Nat → Prop} {k : Nat} (h : SumOf L k 0) : k = 0 ∨ L 0 := by
  obtain ⟨l, h1, h2, h3⟩ := h
  cases l with
  | nil => exact .inl h1.symm
  | cons t l =>
    right
    rw [List.sum_cons] at h3
    have : t = 0 := by
      have h4 : t ≤ 0 := by rw [← h3]; exact Multiset.le_add_right _ _
      exact Multiset.le_zero.1 h4
    rw [← this]
    exact h2 t (by simp)

omit [DecidableEq P] in
theorem group_null {c : Card} {e : Expr Nat} (h : Lang (groupE e c) 0) : c.min = 0 ∨ Lang e 0 := by
  rw [lang_groupE] at h
  obtain ⟨k, hk, hs⟩ := h
  rcases sumOf_zero hs with rfl | h
  · left
    have := hk.1
    omega
  · exact .inr h

mutual
theorem CTE.rbe_null : ∀ (e : CTE N P) (a : Nat), Lang (e.rbe a) 0 → e.Nullable
  | .nothing, a, _ => by simp [CTE.Nullable]
  | .eachOf es c, a, h => by
    simp only [CTE.Nullable]
    refine (group_null h).imp_right fun h => ?_
    exact rbes_null_all es a (by simpa only [Lang] using h)
  | .oneOf es c, a, h => by
    simp only [CTE.Nullable]
    refine (group_null h).imp_right fun h => ?_
    exact rbes_null_some es a (by simpa only [Lang] using h)
  | .tc p acts v c, a, h => by
    simp only [CTE.Nullable]
    simp only [CTE.rbe, Lang] at h
    obtain ⟨n, h1, h2⟩ := h
    have h3 := congrArg Multiset.card h2
    rw [Multiset.card_zero, Multiset.card_replicate] at h3
    have := h1.1
    omega
  | .incl e, a, h => by
    simp only [CTE.Nullable]
    exact CTE.rbe_null e a h
theorem rbes_null_all : ∀ (es : List (CTE N P)) (a : Nat), LangAll (rbes es a) 0 → NullableAll es
  | [], a, _ => by simp [NullableAll]
  | e :: es, a, h => by
    simp only [rbes, LangAll] at h
    simp only [NullableAll]
    obtain ⟨t, u, h1, h2, h3⟩ := h
    have ht : t = 0 := Multiset.le_zero.1 (by rw [h1]; exact Multiset.le_add_right _ _)
    have hu : u = 0 := Multiset.le_zero.1 (by rw [h1]; exact Multiset.le_add_left _ _)
    subst ht hu
    exact ⟨CTE.rbe_null e a h2, rbes_null_all es _ h3⟩
theorem rbes_null_some : ∀ (es : List (CTE N P)) (a : Nat), LangSome (rbes es a) 0 → NullableSome es
  | [], a, h => by simp [rbes, LangSome] at h
  | e :: es, a, h => by
    simp only [rbes, LangSome] at h
    simp only [NullableSome]
    exact h.imp (CTE.rbe_null e a) (rbes_null_some es _)
end

theorem ShapeRep.exact {idx : SLabel P → Option Nat} {cl : Bool} {ex : List P} {e : CTE N P}
    {xs : List (SLabel P)} {s : Shape N P} (h : ShapeRep idx own cl ex e xs s) (hr : e.Regular)
    (hn : e.Nullable → (e.constraints.map Prod.fst).Nodup) : s.Exact := by
  obtain ⟨conds, r, h1, hb, h3, h4⟩ := h.table
  have hrbe : s.expr.rbe.rbe = e.rbe 0 := by rw [h4]; exact h3
  have hreg := CTE.rbe_regular e 0 hr
  refine ⟨?_, ?_, ?_, ?_, ?_⟩
  · rw [h4]
    exact .withRbe _ r hb (addAll_made .new _)
  · rw [hrbe]; exact hreg.1
  · intro _; rw [hrbe]; exact hreg.2
  · intro h0 p c d hc hd
    rw [hrbe] at h0
    have hnd := hn (CTE.rbe_null e 0 h0)
    rcases h.component c with ⟨_, h5, _⟩ | ⟨x, _, h5, h6, _⟩
    · rw [hc] at h5; cases h5
    · rcases h.component d with ⟨_, h7, _⟩ | ⟨y, _, h7, h8, _⟩
      · rw [hd] at h7; cases h7
      · rw [hc] at h6; rw [hd] at h8
        have hx : (e.constraints.map Prod.fst)[c]? = some p := by
          rw [List.getElem?_map, h5, Option.map_some, ← Option.some.inj h6]
        have hy : (e.constraints.map Prod.fst)[d]? = some p := by
          rw [List.getElem?_map, h7, Option.map_some, ← Option.some.inj h8]
        obtain ⟨hlt, _⟩ := List.getElem?_eq_some_iff.1 hx
        exact (List.getElem?_inj hlt hnd).1 (hx.trans hy.symm)
  · intro _ p hp
    rw [h.preds] at hp
    obtain ⟨x, hx, rfl⟩ := List.mem_map.1 hp
    obtain ⟨k, hk⟩ := List.mem_iff_getElem?.1 hx
    rcases h.component k with ⟨h5, _⟩ | ⟨y, _, h5, h6, _⟩
    · rw [hk] at h5; cases h5
    · rw [hk] at h5; cases h5
      exact ⟨k, h6⟩

omit [DecidableEq P] in
theorem valRep_plain {idx : SLabel P → Option Nat} {v : Core N P} {c0 : VCond N P}
    (h : ValRep idx own v c0) : (∃ ok, v = .test ok ∧ c0 = testCond ok) ∨ ∃ j, c0 = .ref j := by
  cases v with
  | ref l => obtain ⟨j, _, h⟩ := h; exact .inr ⟨j, h⟩
  | test ok => exact .inl ⟨ok, rfl, h⟩
  | or cs => obtain ⟨j, h, _⟩ := h; exact .inr ⟨j, h⟩
  | and cs => obtain ⟨j, h, _⟩ := h; exact .inr ⟨j, h⟩
  | not d => obtain ⟨j, h, _⟩ := h; exact .inr ⟨j, h⟩
  | shape _ _ _ _ => obtain ⟨j, h, _⟩ := h; exact .inr ⟨j, h⟩
  | external => obtain ⟨j, h, _⟩ := h; exact .inr ⟨j, h⟩

omit [DecidableEq P] in
theorem testCond_settled (ok : N → Bool) : Settled (testCond ok : VCond N P) := by
  intro v c p h
  dsimp only at h
  split at h
  · cases h; rfl
  · cases h

omit [DecidableEq P] in
theorem withActs_settled (fs : List (Ctx N P → Bool)) {c0 : VCond N P} (h : Settled c0) :
    Settled (withActs (fs.map actCond) c0) := by
  have h1 : ∀ f : Ctx N P → Bool, Settled (actCond f : VCond N P) := by
    intro f v c p h
    dsimp only at h
    split at h
    · cases h; rfl
    · cases h
  have h2 : SettledAll (fs.map actCond ++ [c0]) := by
    clear * - h1 h
    induction fs with
    | nil => exact ⟨h, trivial⟩
    | cons f fs ih => exact ⟨h1 f, ih⟩
  unfold withActs
  split
  · exact h
  · exact h2

/-- Every stored expression represents a decided one. -/
theorem Compiled.decided {G : Ctxt N P NC} {tes : TLabel P → Option (TE P NC)}
    {ds : List (Label P × SE P NC)} (h : Compiled (PartOf G tes ds) st own D) (hD : CoreOf G tes ds D)
    (hp : ∀ x ∈ ds, ∀ c, Stands G tes c x.2 → c.Plain) {i : Nat} {r : ShapeExpr N P}
    (hf : st.find i = some r) : r = .empty ∨ ∃ c, c.Decided ∧ Loc st.idx own c r := by
  rcases h.cover i r hf with ⟨l, hl⟩ | ⟨d, hd⟩ | rfl
  · obtain ⟨_, c, r', hc, hf', hloc⟩ := h.label l i hl
    rw [hf] at hf'; cases hf'
    obtain ⟨e, ⟨pre, post, id, rfl, _, _⟩, hs⟩ := (hD l).1 c hc
    exact .inr ⟨c, hp (id, e) (by simp) c hs c .refl, hloc⟩
  · obtain ⟨_, r', hf', hloc⟩ := h.part i d hd
    rw [hf] at hf'; cases hf'
    obtain ⟨x, hx, c, hs, hin⟩ := h.sub i d hd
    exact .inr ⟨d, hp x hx c hs d hin.within, hloc⟩
  · exact .inl rfl

/-- The compiled schema meets the conditions of the engine. -/
theorem Compiled.engine {G : Ctxt N P NC} {tes : TLabel P → Option (TE P NC)}
    {ds : List (Label P × SE P NC)} (h : Compiled (PartOf G tes ds) st own D) (hD : CoreOf G tes ds D)
    (hp : ∀ x ∈ ds, ∀ c, Stands G tes c x.2 → c.Plain) (ha : st.abstr = []) :
    PlainRefs st.schema ∧ Regular st.schema ∧ NoInheritance st.schema := by
  have hshape : ∀ i s, st.schema.At i (.shape s) → ∃ cl ex e,
      (e.Regular ∧ (e.Nullable → (e.constraints.map Prod.fst).Nodup) ∧
        ∀ p acts v, (p, acts, v) ∈ e.constraints → acts = [] ∨ ∃ ok, v = .test ok) ∧
      ShapeRep st.idx own cl ex e [] s := by
    intro i s hs
    rcases h.decided hD hp (show st.find i = some _ from hs) with h1 | ⟨c, h1, h2⟩
    · cases h1
    · cases c with
      | shape cl ex e xs =>
        obtain ⟨s', h3, h4⟩ := h2
        cases h3
        obtain ⟨rfl, h5⟩ := h1
        exact ⟨cl, ex, e, h5, h4⟩
      | ref l => obtain ⟨_, _, h3⟩ := h2; cases h3
      | or cs => obtain ⟨_, h3, _⟩ := h2; cases h3
      | and cs => obtain ⟨_, h3, _⟩ := h2; cases h3
      | not c => obtain ⟨_, h3, _⟩ := h2; cases h3
      | test ok => cases h2
      | external => cases h2
  refine ⟨⟨?_, ?_, ?_⟩, ?_, ⟨?_, ha⟩⟩
  · intro i s hs
    obtain ⟨cl, ex, e, h1, h2⟩ := hshape i s hs
    exact (h2.exact h1.1 h1.2.1).made
  · intro i s hs p cond hc
    obtain ⟨cl, ex, e, h1, h2⟩ := hshape i s hs
    obtain ⟨k, x, _, _, _, c0, hv, rfl⟩ := (h2.hasConstraint p cond).1 hc
    apply withActs_settled
    rcases valRep_plain hv with ⟨ok, _, rfl⟩ | ⟨j, rfl⟩
    · exact testCond_settled ok
    · trivial
  · intro i s hs p cond hc r hr
    obtain ⟨cl, ex, e, h1, h2⟩ := hshape i s hs
    obtain ⟨k, ⟨p', acts, v⟩, hk, _, _, c0, hv, rfl⟩ := (h2.hasConstraint p cond).1 hc
    rw [withActs_refIn] at hr
    rcases valRep_plain hv with ⟨ok, _, rfl⟩ | ⟨j, rfl⟩
    · exact hr.elim
    · have hr' : r = j := hr
      subst hr'
      rcases h1.2.2 p' acts v (List.mem_of_getElem? hk) with rfl | ⟨ok, rfl⟩
      · rfl
      · have : (Cond.ref r : VCond N P) = testCond ok := hv
        cases this
  · intro i s hs
    obtain ⟨cl, ex, e, h1, h2⟩ := hshape i s hs
    exact h2.exact h1.1 h1.2.1
  · intro i s hs
    obtain ⟨cl, ex, e, h1, h2⟩ := hshape i s hs
    have := h2.exts
    cases hx : s.extends with
    | nil => rfl
    | cons a as => rw [hx] at this; cases this

/-- A schema without negation is compiled to one without. -/
theorem Compiled.positive {G : Ctxt N P NC} {tes : TLabel P → Option (TE P NC)}
    {ds : List (Label P × SE P NC)} (h : Compiled (PartOf G tes ds) st own D) (hD : CoreOf G tes ds D)
    (hp : ∀ x ∈ ds, ∀ c, Stands G tes c x.2 → c.Positive) : Shex.Positive st.schema := by
  intro i j hn
  have hf : st.find i = some (.not j) := hn
  have key : ∀ c : Core N P, (∀ d', c ≠ .not d') → ¬ Loc st.idx own c (.not j) := by
    intro c hc h2
    cases c with
    | shape cl ex e xs => obtain ⟨_, h3, _⟩ := h2; cases h3
    | ref l => obtain ⟨_, _, h3⟩ := h2; cases h3
    | or cs => obtain ⟨_, h3, _⟩ := h2; cases h3
    | and cs => obtain ⟨_, h3, _⟩ := h2; cases h3
    | not c => exact hc c rfl
    | test ok => cases h2
    | external => cases h2
  rcases h.cover i _ hf with ⟨l, hl⟩ | ⟨d, hd⟩ | h1
  · obtain ⟨_, c, r', hc, hf', hloc⟩ := h.label l i hl
    rw [hf] at hf'; cases hf'
    obtain ⟨e, ⟨pre, post, id, rfl, _, _⟩, hs⟩ := (hD l).1 c hc
    exact key c (hp (id, e) (by simp) c hs c .refl) hloc
  · obtain ⟨_, r', hf', hloc⟩ := h.part i d hd
    rw [hf] at hf'; cases hf'
    obtain ⟨x, hx, c, hs, hin⟩ := h.sub i d hd
    exact key d (hp x hx c hs d hin.within) hloc
  · cases h1

end

end Comp
