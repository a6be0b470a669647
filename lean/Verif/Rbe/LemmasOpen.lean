import Verif.Rbe.LemmasStruct

/-!
# Helper lemmas: open matching

`Stable e` are the expressions whose derivative with respect to a foreign symbol has the same
language; `Weak e` those for which it is included. A repeated group with `min = 0` over a
non-nullable body is only weak, and such groups appear inside sequences while matching.
-/

set_option linter.unusedSectionVars false
set_option linter.unusedSimpArgs false

namespace Rbe
variable {A : Type} [DecidableEq A]

mutual
/-- Foreign symbols leave the language unchanged. -/
def Stable : Expr A → Prop
  | .fail => True
  | .empty => True
  | .symbol _ _ => True
  | .and vs => WeakList vs ∧ StableSome vs
  | .or vs => vs ≠ [] ∧ StableList vs
  | .star v => Stable v
  | .plus v => Stable v
  | .repeat v c => c.Holds c.min ∧ c.max ≠ .intMax 0 ∧ Stable v ∧ (1 ≤ c.min ∨ Lang v 0)
/-- Foreign symbols do not enlarge the language. -/
def Weak : Expr A → Prop
  | .fail => True
  | .empty => True
  | .symbol _ _ => True
  | .and vs => WeakList vs ∧ StableSome vs
  | .or vs => vs ≠ [] ∧ StableList vs
  | .star v => Stable v
  | .plus v => Stable v
  | .repeat v c => c.Holds c.min ∧ c.max ≠ .intMax 0 ∧ Stable v
/-- All elements are stable. -/
def StableList : List (Expr A) → Prop
  | [] => True
  | v :: vs => Stable v ∧ StableList vs
/-- All elements are weak. -/
def WeakList : List (Expr A) → Prop
  | [] => True
  | v :: vs => Weak v ∧ WeakList vs
/-- Some element is stable. -/
def StableSome : List (Expr A) → Prop
  | [] => False
  | v :: vs => Stable v ∨ StableSome vs
end

theorem stableList_iff {vs : List (Expr A)} : StableList vs ↔ ∀ v ∈ vs, Stable v := by
  induction vs with
  | nil => simp [StableList]
  | cons v vs ih => simp [StableList, ih]

theorem weakList_iff {vs : List (Expr A)} : WeakList vs ↔ ∀ v ∈ vs, Weak v := by
  induction vs with
  | nil => simp [WeakList]
  | cons v vs ih => simp [WeakList, ih]

theorem stableSome_iff {vs : List (Expr A)} : StableSome vs ↔ ∃ v ∈ vs, Stable v := by
  induction vs with
  | nil => simp [StableSome]
  | cons v vs ih => simp [StableSome, ih]

theorem weak_of_stable {e : Expr A} (h : Stable e) : Weak e := by
  cases e <;> first | trivial | exact h | exact ⟨h.1, h.2.1, h.2.2.1⟩

theorem wf_of_stable_weak (e : Expr A) : (Stable e → WF e) ∧ (Weak e → WF e) := by
  induction e using Expr.ind with
  | hfail => exact ⟨fun _ => trivial, fun _ => trivial⟩
  | hempty => exact ⟨fun _ => trivial, fun _ => trivial⟩
  | hsym v c => exact ⟨fun _ => trivial, fun _ => trivial⟩
  | hand vs ih =>
    have : ∀ h : WeakList vs, WFList vs := fun h =>
      wfList_iff.2 fun v hv => (ih v hv).2 (weakList_iff.1 h v hv)
    exact ⟨fun h => this h.1, fun h => this h.1⟩
  | hor vs ih =>
    have : ∀ h : StableList vs, WFList vs := fun h =>
      wfList_iff.2 fun v hv => (ih v hv).1 (stableList_iff.1 h v hv)
    exact ⟨fun h => ⟨h.1, this h.2⟩, fun h => ⟨h.1, this h.2⟩⟩
  | hstar v ih => exact ⟨ih.1, ih.1⟩
  | hplus v ih => exact ⟨ih.1, ih.1⟩
  | hrep v c ih =>
    exact ⟨fun h => ⟨h.1, h.2.1, ih.1 h.2.2.1⟩, fun h => ⟨h.1, h.2.1, ih.1 h.2.2⟩⟩

/-! ## Smart constructors -/

theorem stable_mkOr (e1 e2 : Expr A) (h1 : Stable e1) (h2 : Stable e2) :
    Stable (Expr.mkOr e1 e2) := by
  unfold Expr.mkOr
  split
  · exact h2
  · exact h1
  · split
    · exact h1
    · exact ⟨by simp, h1, h2, trivial⟩

theorem stable_foldl_mkOr (vs : List (Expr A)) (acc : Expr A) (ha : Stable acc)
    (h : ∀ v ∈ vs, Stable v) : Stable (vs.foldl Expr.mkOr acc) := by
  induction vs generalizing acc with
  | nil => exact ha
  | cons v vs ih =>
    exact ih _ (stable_mkOr _ _ ha (h v (by simp))) (fun w hw => h w (by simp [hw]))

theorem weak_mkRange (e : Expr A) (c : Card) (h : Stable e) : Weak (Expr.mkRange e c) := by
  unfold Expr.mkRange
  split
  · trivial
  · rename_i hb
    split
    · trivial
    · rename_i h00
      split
      · exact weak_of_stable h
      · split
        · trivial
        · trivial
        · refine ⟨Card.holds_of_bigger (Bool.eq_false_iff.2 hb), ?_, h⟩
          intro hm
          apply h00
          have hb' := Bool.eq_false_iff.2 hb
          rw [hm] at hb'
          simp only [Expr.bigger, gt_iff_lt, decide_eq_false_iff_not, not_lt,
            Nat.le_zero_eq] at hb'
          simp [Card.is00, hb', hm]

/-- Repeating a nullable stable body is stable. -/
theorem stable_mkRange (e : Expr A) (c : Card) (h : Stable e) (h0 : Lang e 0) :
    Stable (Expr.mkRange e c) := by
  have hw := weak_mkRange e c h
  revert hw
  unfold Expr.mkRange
  split
  · intro _; trivial
  · split
    · intro _; trivial
    · split
      · intro _; exact h
      · split
        · intro _; trivial
        · intro _; trivial
        · intro hw; exact ⟨hw.1, hw.2.1, hw.2.2, Or.inr h0⟩

/-- A sequence of a stable and a weak expression is stable, unless the first is `Empty`. -/
theorem stable_mkAnd (d e : Expr A) (hd : Stable d) (he : Weak e) (hne : d = .empty → Stable e) :
    Stable (Expr.mkAnd d e) := by
  unfold Expr.mkAnd
  split
  · exact hne rfl
  · exact hd
  · trivial
  · trivial
  · exact ⟨⟨weak_of_stable hd, he, trivial⟩, Or.inl hd⟩

theorem weak_mkAnd (d e : Expr A) (hd : Stable d) (he : Weak e) : Weak (Expr.mkAnd d e) := by
  unfold Expr.mkAnd
  split
  · exact he
  · exact weak_of_stable hd
  · trivial
  · trivial
  · exact ⟨⟨weak_of_stable hd, he, trivial⟩, Or.inl hd⟩

theorem stable_orOfAnds (vss : List (List (Expr A)))
    (h : ∀ vs ∈ vss, WeakList vs ∧ StableSome vs) : Stable (Expr.orOfAnds vss) := by
  unfold Expr.orOfAnds
  split
  · trivial
  · exact h _ (by simp)
  · rename_i hne1 hne2
    refine ⟨?_, stableList_iff.2 ?_⟩
    · intro h0
      rw [List.map_eq_nil_iff] at h0
      exact hne1 h0
    · intro v hv
      obtain ⟨vs, hvs, rfl⟩ := List.mem_map.1 hv
      exact h vs hvs

/-- Elements of `derivN` over derivative pairs. -/
theorem mem_derivN (op : Bool) (ctl : List A) (x : A) (n : Nat) (vs : List (Expr A)) :
    ∀ (pre ws : List (Expr A)), ws ∈ Expr.derivN pre (Expr.derivPairs op ctl x n vs) ↔
      ∃ l v r, vs = l ++ v :: r ∧ Expr.deriv op ctl x n v ≠ .fail ∧
        ws = pre ++ l ++ Expr.deriv op ctl x n v :: r := by
  induction vs with
  | nil => intro pre ws; simp [Expr.derivPairs, Expr.derivN]
  | cons v vs ih =>
    intro pre ws
    have key : (∃ l w r, v :: vs = l ++ w :: r ∧ Expr.deriv op ctl x n w ≠ .fail ∧
        ws = pre ++ l ++ Expr.deriv op ctl x n w :: r) ↔
        (Expr.deriv op ctl x n v ≠ .fail ∧ ws = pre ++ Expr.deriv op ctl x n v :: vs) ∨
        ∃ l w r, vs = l ++ w :: r ∧ Expr.deriv op ctl x n w ≠ .fail ∧
          ws = pre ++ [v] ++ l ++ Expr.deriv op ctl x n w :: r := by
      constructor
      · rintro ⟨l, w, r, h, hf, rfl⟩
        cases l with
        | nil =>
          simp only [List.nil_append, List.cons.injEq] at h
          obtain ⟨rfl, rfl⟩ := h
          left; exact ⟨hf, by simp⟩
        | cons a l =>
          simp only [List.cons_append, List.cons.injEq] at h
          obtain ⟨rfl, rfl⟩ := h
          right; exact ⟨l, w, r, rfl, hf, by simp⟩
      · rintro (⟨hf, rfl⟩ | ⟨l, w, r, rfl, hf, rfl⟩)
        · exact ⟨[], v, vs, rfl, hf, by simp⟩
        · exact ⟨v :: l, w, r, rfl, hf, by simp⟩
    rw [key, ← ih (pre ++ [v]) ws]
    simp only [Expr.derivPairs]
    cases hn : Expr.notFail (Expr.deriv op ctl x n v) with
    | none =>
      have hf := notFail_none hn
      simp only [Expr.derivN, hf]
      simp
    | some d =>
      have hd := lang_notFail hn
      subst hd
      have hf : Expr.deriv op ctl x n v ≠ .fail := by
        intro h; rw [h] at hn; simp [Expr.notFail] at hn
      simp only [Expr.derivN, List.mem_cons, derivPairs_fst]
      simp [hf]

/-! ## Known symbols -/

/-- On a controlled symbol the open derivative is the closed one. -/
theorem deriv_open_known (ctl : List A) (x : A) (n : Nat) (hx : x ∈ ctl) (e : Expr A) :
    Expr.deriv true ctl x n e = Expr.deriv false ctl x n e := by
  have hb : (true && !decide (x ∈ ctl)) = false := by simp [hx]
  induction e using Expr.ind with
  | hfail => rfl
  | hempty => simp [Expr.deriv, hx]
  | hsym v c => simp [Expr.deriv, hx]
  | hand vs ih =>
    simp only [Expr.deriv]
    have : Expr.derivPairs true ctl x n vs = Expr.derivPairs false ctl x n vs := by
      induction vs with
      | nil => rfl
      | cons v vs ihv =>
        simp only [Expr.derivPairs, ih v (by simp), ihv (fun w hw => ih w (by simp [hw]))]
    rw [this]
  | hor vs ih =>
    simp only [Expr.deriv, derivList_eq]
    congr 1
    exact List.map_congr_left ih
  | hstar v ih => simp [Expr.deriv, hx, ih]
  | hplus v ih => simp [Expr.deriv, ih]
  | hrep v c ih => simp [Expr.deriv, ih]

theorem mkAnd_ne_empty {d e : Expr A} (hd : d ≠ .empty) : Expr.mkAnd d e ≠ .empty := by
  unfold Expr.mkAnd
  split
  · exact absurd rfl hd
  · exact hd
  · simp
  · simp
  · simp

theorem mkOr_ne_empty {d e : Expr A} (hd : d ≠ .empty) (he : e ≠ .empty) :
    Expr.mkOr d e ≠ .empty := by
  unfold Expr.mkOr
  split
  · exact he
  · exact hd
  · split
    · exact hd
    · simp

theorem foldl_mkOr_ne_empty (vs : List (Expr A)) (acc : Expr A) (ha : acc ≠ .empty)
    (h : ∀ v ∈ vs, v ≠ .empty) : vs.foldl Expr.mkOr acc ≠ .empty := by
  induction vs generalizing acc with
  | nil => exact ha
  | cons v vs ih =>
    exact ih _ (mkOr_ne_empty ha (h v (by simp))) (fun w hw => h w (by simp [hw]))

/-- The closed derivative of a well-formed expression is never literally `Empty`. -/
theorem deriv_ne_empty (ctl : List A) (x : A) (e : Expr A) (hwf : WF e) :
    Expr.deriv false ctl x 1 e ≠ .empty := by
  induction e using Expr.ind with
  | hfail => simp [Expr.deriv]
  | hempty => simp [Expr.deriv]
  | hsym v c =>
    simp only [Expr.deriv, Expr.mkRangeSymbol]
    repeat' split
    all_goals simp
  | hand vs ih =>
    simp only [Expr.deriv, Expr.orOfAnds]
    split <;> simp
  | hor vs ih =>
    simp only [Expr.deriv, derivList_eq, Expr.mkOrValues]
    apply foldl_mkOr_ne_empty _ _ (by simp)
    intro v hv
    obtain ⟨w, hw, rfl⟩ := List.mem_map.1 hv
    exact ih w hw (wfList_iff.1 hwf.2 w hw)
  | hstar v ih =>
    simp only [Expr.deriv, Bool.false_and, Bool.false_eq_true, if_false]
    exact mkAnd_ne_empty (ih hwf)
  | hplus v ih =>
    simp only [Expr.deriv]
    exact mkAnd_ne_empty (ih hwf)
  | hrep v c ih =>
    have h00 : c.is00 = false := by
      simp only [Card.is00, Bool.and_eq_false_iff, beq_eq_false_iff_ne]
      exact Or.inr hwf.2.1
    simp only [Expr.deriv, h00, Bool.false_eq_true, if_false]
    exact mkAnd_ne_empty (ih hwf.2.2)

/-- Closed derivatives of weak expressions are stable. -/
theorem stable_deriv_known (ctl : List A) (x : A) (e : Expr A) (h : Weak e) :
    Stable (Expr.deriv false ctl x 1 e) := by
  induction e using Expr.ind with
  | hfail => trivial
  | hempty => simp [Expr.deriv, Stable]
  | hsym v c =>
    simp only [Expr.deriv, Expr.mkRangeSymbol]
    repeat' split
    all_goals trivial
  | hand vs ih =>
    simp only [Expr.deriv]
    apply stable_orOfAnds
    intro ws hws
    rw [mem_derivN] at hws
    obtain ⟨l, v, r, rfl, hf, rfl⟩ := hws
    have hall := weakList_iff.1 h.1
    have hv := ih v (by simp) (hall v (by simp))
    refine ⟨weakList_iff.2 ?_, stableSome_iff.2 ⟨_, by simp, hv⟩⟩
    intro w hw
    simp only [List.nil_append, List.mem_append, List.mem_cons] at hw
    rcases hw with hw | rfl | hw
    · exact hall w (by simp [hw])
    · exact weak_of_stable hv
    · exact hall w (by simp [hw])
  | hor vs ih =>
    simp only [Expr.deriv, derivList_eq, Expr.mkOrValues]
    apply stable_foldl_mkOr _ Expr.fail trivial
    intro v hv
    obtain ⟨w, hw, rfl⟩ := List.mem_map.1 hv
    exact ih w hw (weak_of_stable (stableList_iff.1 h.2 w hw))
  | hstar v ih =>
    have hwf := (wf_of_stable_weak v).1 h
    simp only [Expr.deriv, Bool.false_and, Bool.false_eq_true, if_false]
    exact stable_mkAnd _ _ (ih (weak_of_stable h)) h
      (fun he => absurd he (deriv_ne_empty ctl x v hwf))
  | hplus v ih =>
    have hwf := (wf_of_stable_weak v).1 h
    simp only [Expr.deriv]
    exact stable_mkAnd _ _ (ih (weak_of_stable h)) h
      (fun he => absurd he (deriv_ne_empty ctl x v hwf))
  | hrep v c ih =>
    have hwf := (wf_of_stable_weak v).1 h.2.2
    have h00 : c.is00 = false := by
      simp only [Card.is00, Bool.and_eq_false_iff, beq_eq_false_iff_ne]
      exact Or.inr h.2.1
    simp only [Expr.deriv, h00, Bool.false_eq_true, if_false]
    exact stable_mkAnd _ _ (ih (weak_of_stable h.2.2)) (weak_mkRange _ _ h.2.2)
      (fun he => absurd he (deriv_ne_empty ctl x v hwf))

/-! ## Foreign symbols -/

theorem langAll_mono {l r : List (Expr A)} {v w : Expr A} (h : ∀ s, Lang v s → Lang w s)
    {s : Multiset A} (hs : LangAll (l ++ v :: r) s) : LangAll (l ++ w :: r) s := by
  obtain ⟨t, u, rfl, ht, p, q, rfl, hp, hq⟩ := langAll_append.1 hs
  exact langAll_append.2 ⟨t, p + q, rfl, ht, p, q, rfl, h p hp, hq⟩

/-- What a foreign symbol does to weak and stable expressions. -/
theorem deriv_foreign (ctl : List A) (x : A) (hx : x ∉ ctl) (e : Expr A) (hsym : x ∉ Expr.symbols e) :
    (Weak e → Weak (Expr.deriv true ctl x 1 e) ∧
      ∀ s, Lang (Expr.deriv true ctl x 1 e) s → Lang e s) ∧
    (Stable e → Stable (Expr.deriv true ctl x 1 e) ∧
      ∀ s, Lang (Expr.deriv true ctl x 1 e) s ↔ Lang e s) := by
  have hb : (true && !decide (x ∈ ctl)) = true := by simp [hx]
  induction e using Expr.ind with
  | hfail => simp [Expr.deriv, Lang, Weak, Stable]
  | hempty => simp [Expr.deriv, hx, Weak, Stable]
  | hsym v c =>
    have hne : x ≠ v := by simpa [Expr.symbols] using hsym
    simp [Expr.deriv, hx, hne, Weak, Stable]
  | hand vs ih =>
    have hs' : ∀ v ∈ vs, x ∉ Expr.symbols v := fun v hv hm =>
      hsym (by simpa [Expr.symbols, mem_symbolsList] using ⟨v, hv, hm⟩)
    have main : WeakList vs ∧ StableSome vs →
        Stable (Expr.deriv true ctl x 1 (.and vs)) ∧
          ∀ s, Lang (Expr.deriv true ctl x 1 (.and vs)) s ↔ Lang (.and vs) s := by
      rintro ⟨hw, hst⟩
      rw [weakList_iff] at hw
      rw [stableSome_iff] at hst
      simp only [Expr.deriv]
      constructor
      · apply stable_orOfAnds
        intro ws hws
        rw [mem_derivN] at hws
        obtain ⟨l, v, r, rfl, hf, rfl⟩ := hws
        constructor
        · rw [weakList_iff]
          intro w hw'
          simp only [List.nil_append, List.mem_append, List.mem_cons] at hw'
          rcases hw' with hw' | rfl | hw'
          · exact hw w (by simp [hw'])
          · exact ((ih v (by simp) (hs' v (by simp))).1 (hw v (by simp))).1
          · exact hw w (by simp [hw'])
        · rw [stableSome_iff]
          obtain ⟨w, hwm, hws⟩ := hst
          simp only [List.mem_append, List.mem_cons] at hwm
          rcases hwm with h | rfl | h
          · exact ⟨w, by simp [h], hws⟩
          · exact ⟨Expr.deriv true ctl x 1 w, by simp, ((ih w (by simp) (hs' w (by simp))).2 hws).1⟩
          · exact ⟨w, by simp [h], hws⟩
      · intro s
        rw [lang_orOfAnds]
        simp only [Lang]
        constructor
        · rintro ⟨ws, hws, hl⟩
          rw [mem_derivN] at hws
          obtain ⟨l, v, r, rfl, hf, rfl⟩ := hws
          rw [List.nil_append] at hl
          exact langAll_mono ((ih v (by simp) (hs' v (by simp))).1 (hw v (by simp))).2 hl
        · intro hl
          obtain ⟨w, hwm, hws⟩ := hst
          obtain ⟨l, r, rfl⟩ := List.append_of_mem hwm
          have hw' := (ih w (by simp) (hs' w (by simp))).2 hws
          refine ⟨[] ++ l ++ Expr.deriv true ctl x 1 w :: r, ?_, ?_⟩
          · rw [mem_derivN]
            refine ⟨l, w, r, rfl, ?_, rfl⟩
            intro hf
            obtain ⟨_, _, _, _, p, q, _, hp, _⟩ := langAll_append.1 hl
            have := (hw'.2 p).2 hp
            rw [hf] at this
            exact this
          · rw [List.nil_append]
            exact langAll_mono (fun s h => (hw'.2 s).2 h) hl
    constructor
    · intro h
      obtain ⟨h1, h2⟩ := main h
      exact ⟨weak_of_stable h1, fun s => (h2 s).1⟩
    · exact main
  | hor vs ih =>
    have hs' : ∀ v ∈ vs, x ∉ Expr.symbols v := fun v hv hm =>
      hsym (by simpa [Expr.symbols, mem_symbolsList] using ⟨v, hv, hm⟩)
    have main : vs ≠ [] ∧ StableList vs →
        Stable (Expr.deriv true ctl x 1 (.or vs)) ∧
          ∀ s, Lang (Expr.deriv true ctl x 1 (.or vs)) s ↔ Lang (.or vs) s := by
      rintro ⟨_, hst⟩
      rw [stableList_iff] at hst
      simp only [Expr.deriv, derivList_eq, Expr.mkOrValues]
      constructor
      · apply stable_foldl_mkOr _ Expr.fail trivial
        intro v hv
        obtain ⟨w, hw, rfl⟩ := List.mem_map.1 hv
        exact ((ih w hw (hs' w hw)).2 (hst w hw)).1
      · intro s
        simp only [lang_foldl_mkOr, Lang, false_or, langSome_iff, List.mem_map]
        constructor
        · rintro ⟨_, ⟨v, hv, rfl⟩, h⟩
          exact ⟨v, hv, (((ih v hv (hs' v hv)).2 (hst v hv)).2 s).1 h⟩
        · rintro ⟨v, hv, h⟩
          exact ⟨_, ⟨v, hv, rfl⟩, (((ih v hv (hs' v hv)).2 (hst v hv)).2 s).2 h⟩
    constructor
    · intro h
      obtain ⟨h1, h2⟩ := main h
      exact ⟨weak_of_stable h1, fun s => (h2 s).1⟩
    · exact main
  | hstar v ih =>
    simp only [Expr.deriv, hb, if_true]
    exact ⟨fun h => ⟨h, fun s h => h⟩, fun h => ⟨h, by simp⟩⟩
  | hplus v ih =>
    have main : Stable v →
        Stable (Expr.deriv true ctl x 1 (.plus v)) ∧
          ∀ s, Lang (Expr.deriv true ctl x 1 (.plus v)) s ↔ Lang (.plus v) s := by
      intro hst
      obtain ⟨h1, h2⟩ := (ih hsym).2 hst
      simp only [Expr.deriv]
      refine ⟨stable_mkAnd _ _ h1 hst (fun _ => hst), fun s => ?_⟩
      rw [lang_mkAnd]
      simp only [LangAll, Lang, h2]
      constructor
      · rintro ⟨t, _, rfl, ht, u, _, rfl, ⟨k, hk⟩, rfl⟩
        exact ⟨k + 1, by omega, sumOf_succ.2 ⟨t, u, by simp, ht, hk⟩⟩
      · rintro ⟨k, hk, hs⟩
        obtain ⟨j, rfl⟩ : ∃ j, k = j + 1 := ⟨k - 1, by omega⟩
        obtain ⟨t, u, rfl, ht, hu⟩ := sumOf_succ.1 hs
        exact ⟨t, u, rfl, ht, u, 0, by simp, ⟨j, hu⟩, rfl⟩
    constructor
    · intro h
      obtain ⟨h1, h2⟩ := main h
      exact ⟨weak_of_stable h1, fun s => (h2 s).1⟩
    · exact main
  | hrep v c ih =>
    have ihv := ih hsym
    have lang1 : ∀ (_ : c.max ≠ .intMax 0) (hst : Stable v) (s : Multiset A),
        Lang (Expr.mkAnd (Expr.deriv true ctl x 1 v) (Expr.mkRange v (c.minus 1))) s ↔
          ∃ k, c.Holds (k + 1) ∧ SumOf (Lang v) (k + 1) s := by
      intro hm hst s
      obtain ⟨h1, h2⟩ := ihv.2 hst
      rw [lang_mkAnd]
      by_cases hf : v = .fail
      · subst hf
        simp only [LangAll, Expr.deriv, Lang]
        constructor
        · rintro ⟨_, _, _, h, _⟩; exact h.elim
        · rintro ⟨k, _, hk⟩
          obtain ⟨_, _, _, h, _⟩ := sumOf_succ.1 hk
          exact h.elim
      · have hmr := fun s => lang_mkRange v (c.minus 1) s hf
        simp only [LangAll, hmr, h2]
        simp only [Lang, Card.holds_minus_one hm]
        constructor
        · rintro ⟨t, _, rfl, ht, u, _, rfl, ⟨k, hk, hs⟩, rfl⟩
          exact ⟨k, hk, sumOf_succ.2 ⟨t, u, by simp, ht, hs⟩⟩
        · rintro ⟨k, hk, hs⟩
          obtain ⟨t, u, rfl, ht, hu⟩ := sumOf_succ.1 hs
          exact ⟨t, u, rfl, ht, u, 0, by simp, ⟨k, hk, hu⟩, rfl⟩
    have h00 : c.max ≠ .intMax 0 → c.is00 = false := by
      intro hm
      simp only [Card.is00, Bool.and_eq_false_iff, beq_eq_false_iff_ne]
      exact Or.inr hm
    constructor
    · rintro ⟨hc, hm, hst⟩
      simp only [Expr.deriv, h00 hm, Bool.false_eq_true, if_false]
      refine ⟨weak_mkAnd _ _ (ihv.2 hst).1 (weak_mkRange _ _ hst), fun s h => ?_⟩
      rw [lang1 hm hst] at h
      obtain ⟨k, hk, hs⟩ := h
      exact ⟨k + 1, hk, hs⟩
    · rintro ⟨hc, hm, hst, hor⟩
      obtain ⟨h1, h2⟩ := ihv.2 hst
      simp only [Expr.deriv, h00 hm, Bool.false_eq_true, if_false]
      constructor
      · refine stable_mkAnd _ _ h1 (weak_mkRange _ _ hst) (fun he => ?_)
        apply stable_mkRange _ _ hst
        rw [← h2, he]
        simp [Lang]
      · intro s
        rw [lang1 hm hst]
        simp only [Lang]
        constructor
        · rintro ⟨k, hk, hs⟩; exact ⟨k + 1, hk, hs⟩
        · rintro ⟨k, hk, hs⟩
          cases k with
          | succ k => exact ⟨k, hk, hs⟩
          | zero =>
            rcases hor with h | h
            · have := hk.1; omega
            · rw [sumOf_zero] at hs
              subst hs
              refine ⟨0, ⟨?_, ?_⟩, sumOf_nil_of h _⟩
              · have := hk.1; omega
              · intro m hm'
                cases m with
                | zero => exact absurd hm' hm
                | succ m => omega

/-! ## Symbols of derivatives -/

theorem symbols_mkAnd (d e : Expr A) (a : A) (h : a ∈ Expr.symbols (Expr.mkAnd d e)) :
    a ∈ Expr.symbols d ∨ a ∈ Expr.symbols e := by
  unfold Expr.mkAnd at h
  split at h
  · exact Or.inr h
  · exact Or.inl h
  · simp [Expr.symbols] at h
  · simp [Expr.symbols] at h
  · simpa [Expr.symbols, Expr.symbolsList] using h

theorem symbols_mkOr (d e : Expr A) (a : A) (h : a ∈ Expr.symbols (Expr.mkOr d e)) :
    a ∈ Expr.symbols d ∨ a ∈ Expr.symbols e := by
  unfold Expr.mkOr at h
  split at h
  · exact Or.inr h
  · exact Or.inl h
  · split at h
    · exact Or.inl h
    · simpa [Expr.symbols, Expr.symbolsList] using h

theorem symbols_foldl_mkOr (vs : List (Expr A)) (acc : Expr A) (a : A)
    (h : a ∈ Expr.symbols (vs.foldl Expr.mkOr acc)) :
    a ∈ Expr.symbols acc ∨ ∃ v ∈ vs, a ∈ Expr.symbols v := by
  induction vs generalizing acc with
  | nil => exact Or.inl h
  | cons v vs ih =>
    rcases ih _ h with h | ⟨w, hw, h⟩
    · rcases symbols_mkOr _ _ _ h with h | h
      · exact Or.inl h
      · exact Or.inr ⟨v, by simp, h⟩
    · exact Or.inr ⟨w, by simp [hw], h⟩

theorem symbols_mkRange (e : Expr A) (c : Card) (a : A)
    (h : a ∈ Expr.symbols (Expr.mkRange e c)) : a ∈ Expr.symbols e := by
  unfold Expr.mkRange at h
  repeat' split at h
  all_goals first | exact h | simp [Expr.symbols] at h

theorem symbols_deriv (op : Bool) (ctl : List A) (x : A) (n : Nat) (e : Expr A) (a : A)
    (h : a ∈ Expr.symbols (Expr.deriv op ctl x n e)) : a ∈ Expr.symbols e := by
  induction e using Expr.ind with
  | hfail => simp [Expr.deriv, Expr.symbols] at h
  | hempty =>
    simp only [Expr.deriv] at h
    split at h <;> simp [Expr.symbols] at h
  | hsym v c =>
    simp only [Expr.deriv, Expr.mkRangeSymbol] at h
    repeat' split at h
    all_goals first | exact h | (simp [Expr.symbols] at h; done) | simp_all [Expr.symbols]
  | hand vs ih =>
    simp only [Expr.deriv] at h
    have : ∃ ws ∈ Expr.derivN [] (Expr.derivPairs op ctl x n vs), a ∈ Expr.symbolsList ws := by
      unfold Expr.orOfAnds at h
      split at h
      · simp [Expr.symbols] at h
      · rename_i vs' heq
        exact ⟨vs', by rw [heq]; simp, h⟩
      · simp only [Expr.symbols, mem_symbolsList, List.mem_map] at h
        obtain ⟨_, ⟨ws, hws, rfl⟩, h⟩ := h
        exact ⟨ws, hws, h⟩
    obtain ⟨ws, hws, ha⟩ := this
    rw [mem_derivN] at hws
    obtain ⟨l, v, r, rfl, _, rfl⟩ := hws
    simp only [Expr.symbols, mem_symbolsList] at ha ⊢
    obtain ⟨w, hw, ha⟩ := ha
    simp only [List.nil_append, List.mem_append, List.mem_cons] at hw
    rcases hw with hw | rfl | hw
    · exact ⟨w, by simp [hw], ha⟩
    · exact ⟨v, by simp, ih v (by simp) ha⟩
    · exact ⟨w, by simp [hw], ha⟩
  | hor vs ih =>
    simp only [Expr.deriv, derivList_eq, Expr.mkOrValues] at h
    rcases symbols_foldl_mkOr _ _ _ h with h | ⟨w, hw, h⟩
    · simp [Expr.symbols] at h
    · obtain ⟨v, hv, rfl⟩ := List.mem_map.1 hw
      simp only [Expr.symbols, mem_symbolsList]
      exact ⟨v, hv, ih v hv h⟩
  | hstar v ih =>
    simp only [Expr.deriv] at h
    split at h
    · exact h
    · rcases symbols_mkAnd _ _ _ h with h | h
      · exact ih h
      · exact h
  | hplus v ih =>
    simp only [Expr.deriv] at h
    rcases symbols_mkAnd _ _ _ h with h | h
    · exact ih h
    · exact h
  | hrep v c ih =>
    simp only [Expr.deriv] at h
    split at h
    · split at h <;> simp [Expr.symbols] at h
    · rcases symbols_mkAnd _ _ _ h with h | h
      · exact ih h
      · exact symbols_mkRange v _ _ h

/-- An interval only depends on the counts of the symbols of the expression. -/
theorem interval_congr (c1 c2 : A → Nat) (e : Expr A) (h : ∀ a ∈ Expr.symbols e, c1 a = c2 a) :
    Expr.interval c1 e = Expr.interval c2 e := by
  have hno : ∀ e : Expr A, (∀ a ∈ Expr.symbols e, c1 a = c2 a) →
      Expr.noSymbolsInBag e c1 = Expr.noSymbolsInBag e c2 := by
    intro e h
    rw [Bool.eq_iff_iff]
    simp only [Expr.noSymbolsInBag, List.all_eq_true, beq_iff_eq]
    exact forall_congr' fun a => forall_congr' fun ha => by rw [h a ha]
  induction e using Expr.ind with
  | hfail => rfl
  | hempty => rfl
  | hsym v c => simp [Expr.interval, h v (by simp [Expr.symbols])]
  | hand vs ih =>
    have ih' : ∀ v ∈ vs, Expr.interval c1 v = Expr.interval c2 v := fun v hv =>
      ih v hv fun a ha => h a (by simpa [Expr.symbols, mem_symbolsList] using ⟨v, hv, ha⟩)
    simp only [Expr.interval]
    generalize Interval.zeroAny = acc
    clear ih h
    induction vs generalizing acc with
    | nil => rfl
    | cons v vs ihv =>
      simp only [Expr.intervalAnd, ih' v (by simp)]
      exact ihv (fun w hw => ih' w (by simp [hw])) _
  | hor vs ih =>
    have ih' : ∀ v ∈ vs, Expr.interval c1 v = Expr.interval c2 v := fun v hv =>
      ih v hv fun a ha => h a (by simpa [Expr.symbols, mem_symbolsList] using ⟨v, hv, ha⟩)
    simp only [Expr.interval]
    generalize Interval.zeroZero = acc
    clear ih h
    induction vs generalizing acc with
    | nil => rfl
    | cons v vs ihv =>
      simp only [Expr.intervalOr, ih' v (by simp)]
      exact ihv (fun w hw => ih' w (by simp [hw])) _
  | hstar v ih => simp only [Expr.interval, ih h, hno (.star v) h]
  | hplus v ih => simp only [Expr.interval, ih h, hno (.plus v) h]
  | hrep v c ih => simp only [Expr.interval, ih h, hno (.repeat v c) h]

/-! ## Open matching of bags -/

theorem deriv_open (ctl : List A) (x : A) (e : Expr A) (hst : Stable e)
    (hsub : ∀ a ∈ Expr.symbols e, a ∈ ctl) :
    Stable (Expr.deriv true ctl x 1 e) ∧ (∀ a ∈ Expr.symbols (Expr.deriv true ctl x 1 e), a ∈ ctl) ∧
      ∀ s, Lang (Expr.deriv true ctl x 1 e) s ↔ Lang e (proj ctl {x} + s) := by
  have h2 : ∀ a ∈ Expr.symbols (Expr.deriv true ctl x 1 e), a ∈ ctl := fun a ha =>
    hsub a (symbols_deriv _ _ _ _ _ _ ha)
  by_cases hx : x ∈ ctl
  · have hp : proj ctl {x} = {x} := by
      simp only [proj]
      rw [Multiset.filter_singleton, if_pos hx]
    refine ⟨?_, h2, fun s => ?_⟩
    · rw [deriv_open_known ctl x 1 hx]
      exact stable_deriv_known ctl x e (weak_of_stable hst)
    · rw [deriv_open_known ctl x 1 hx, lang_deriv ctl x e ((wf_of_stable_weak e).1 hst), hp,
        Multiset.singleton_add]
  · have hp : proj ctl {x} = 0 := by
      simp only [proj]
      rw [Multiset.filter_singleton, if_neg hx]; rfl
    obtain ⟨h1, h3⟩ := (deriv_foreign ctl x hx e (fun h => hx (hsub x h))).2 hst
    refine ⟨h1, h2, fun s => ?_⟩
    rw [h3, hp, zero_add]

theorem proj_add (l : List A) (B C : Multiset A) : proj l (B + C) = proj l B + proj l C := by
  simp [proj, Multiset.filter_add]

theorem derivTimes_open (ctl : List A) (x : A) (k : Nat) (e : Expr A) (hst : Stable e)
    (hsub : ∀ a ∈ Expr.symbols e, a ∈ ctl) :
    Stable (Expr.derivTimes true ctl x k e) ∧
      (∀ a ∈ Expr.symbols (Expr.derivTimes true ctl x k e), a ∈ ctl) ∧
      ∀ s, Lang (Expr.derivTimes true ctl x k e) s ↔
        Lang e (proj ctl (Multiset.replicate k x) + s) := by
  induction k generalizing e with
  | zero => exact ⟨hst, hsub, by simp [Expr.derivTimes, proj]⟩
  | succ k ih =>
    obtain ⟨h1, h2, h3⟩ := deriv_open ctl x e hst hsub
    have hp : ∀ s, proj ctl (Multiset.replicate (k + 1) x) + s =
        proj ctl {x} + (proj ctl (Multiset.replicate k x) + s) := by
      intro s
      rw [Multiset.replicate_succ, ← Multiset.singleton_add, proj_add, add_assoc]
    simp only [Expr.derivTimes]
    split
    · rename_i hf
      rw [hf] at h3
      refine ⟨trivial, by simp [Expr.symbols], fun s => ?_⟩
      rw [hp, ← h3]
      simp [Lang]
    · obtain ⟨i1, i2, i3⟩ := ih _ h1 h2
      refine ⟨i1, i2, fun s => ?_⟩
      rw [i3, h3, hp]

theorem derivBag_open (ctl : List A) (bag : List (A × Nat)) (e : Expr A) (hst : Stable e)
    (hsub : ∀ a ∈ Expr.symbols e, a ∈ ctl) :
    Stable (Expr.derivBag true ctl bag e) ∧
      ∀ s, Lang (Expr.derivBag true ctl bag e) s ↔ Lang e (proj ctl (bagOf bag) + s) := by
  induction bag generalizing e with
  | nil => exact ⟨hst, by simp [Expr.derivBag, bagOf, proj]⟩
  | cons p rest ih =>
    obtain ⟨x, k⟩ := p
    obtain ⟨h1, h2, h3⟩ := derivTimes_open ctl x k e hst hsub
    have hp : ∀ s, proj ctl (bagOf ((x, k) :: rest)) + s =
        proj ctl (Multiset.replicate k x) + (proj ctl (bagOf rest) + s) := by
      intro s
      have : bagOf ((x, k) :: rest) = Multiset.replicate k x + bagOf rest := by simp [bagOf]
      rw [this, proj_add, add_assoc]
    simp only [Expr.derivBag]
    split
    · rename_i hf
      rw [hf] at h3
      refine ⟨trivial, fun s => ?_⟩
      rw [hp, ← h3]
      simp [Lang]
    · obtain ⟨i1, i2⟩ := ih _ h1 h2
      refine ⟨i1, fun s => ?_⟩
      rw [i2, h3, hp]

theorem matchBagDeriv_open (e : Expr A) (bag : List (A × Nat)) (hst : Stable e) :
    Expr.matchBagDeriv e bag true = true ↔ Lang e (proj (Expr.symbols e) (bagOf bag)) := by
  obtain ⟨h1, h2⟩ := derivBag_open (Expr.symbols e) bag e hst (fun a h => h)
  have h0 := h2 0
  rw [add_zero] at h0
  unfold Expr.matchBagDeriv
  split
  · rename_i hf
    rw [hf] at h0
    rw [← h0]
    simp [Lang]
  · rw [isNullable_iff _ (sane_of_wf _ ((wf_of_stable_weak _).1 h1)), h0]

theorem openList_iff {vs : List (Expr A)} : OpenOKList vs ↔ ∀ v ∈ vs, OpenOK v := by
  induction vs with
  | nil => simp [OpenOKList]
  | cons v vs ih => simp [OpenOKList, ih]

theorem stable_of_openOK (e : Expr A) (h : OpenOK e) : Stable e := by
  induction e using Expr.ind with
  | hfail => trivial
  | hempty => trivial
  | hsym v c => trivial
  | hand vs ih =>
    have hall := openList_iff.1 h.2
    obtain ⟨v, hv⟩ := List.exists_mem_of_ne_nil vs h.1
    exact ⟨weakList_iff.2 fun w hw => weak_of_stable (ih w hw (hall w hw)),
      stableSome_iff.2 ⟨v, hv, ih v hv (hall v hv)⟩⟩
  | hor vs ih =>
    exact ⟨h.1, stableList_iff.2 fun w hw => ih w hw (openList_iff.1 h.2 w hw)⟩
  | hstar v ih => exact ih h
  | hplus v ih => exact ih h
  | hrep v c ih => exact ⟨h.1, h.2.1, ih h.2.2.2, h.2.2.1⟩

end Rbe
