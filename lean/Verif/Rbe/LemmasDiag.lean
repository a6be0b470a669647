import Verif.Rbe.LemmasTable
import Verif.Rbe.SpecDiag

/-!
# Helper lemmas: diagnoses and conditioned derivatives
-/

set_option linter.unusedSectionVars false

namespace Rbe

section Diag
variable {A : Type} [DecidableEq A]

theorem contains_iff (c : Card) (n : Nat) : c.contains n = true ↔ c.Holds n := by
  simp only [Card.contains, Bool.and_eq_true, decide_eq_true_eq, Card.Holds, ge_iff_le]
  refine and_congr Iff.rfl ?_
  cases h : c.max with
  | unbounded => simp [Mx.geq]
  | intMax m => simp [Mx.geq]

theorem mem_symbolCardsList (vs : List (Expr A)) (p : A × Card) :
    p ∈ Expr.symbolCardsList vs ↔ ∃ v ∈ vs, p ∈ Expr.symbolCards v := by
  induction vs with
  | nil => simp [Expr.symbolCardsList]
  | cons v vs ih => simp [Expr.symbolCardsList, ih]

theorem mem_symbolCards (e : Expr A) (a : A) (c : Card) :
    (a, c) ∈ Expr.symbolCards e ↔ Declares e a c := by
  induction e using Expr.ind with
  | hfail => simp only [Expr.symbolCards, List.not_mem_nil, false_iff]; rintro ⟨⟩
  | hempty => simp only [Expr.symbolCards, List.not_mem_nil, false_iff]; rintro ⟨⟩
  | hsym v d =>
    simp only [Expr.symbolCards, List.mem_singleton, Prod.mk.injEq]
    constructor
    · rintro ⟨rfl, rfl⟩; exact .symbol _ _
    · intro h; cases h; exact ⟨rfl, rfl⟩
  | hand vs ih =>
    simp only [Expr.symbolCards, mem_symbolCardsList]
    constructor
    · rintro ⟨v, hv, h⟩; exact .and hv ((ih v hv).1 h)
    · intro h; cases h with | and hv h => exact ⟨_, hv, (ih _ hv).2 h⟩
  | hor vs ih =>
    simp only [Expr.symbolCards, mem_symbolCardsList]
    constructor
    · rintro ⟨v, hv, h⟩; exact .or hv ((ih v hv).1 h)
    · intro h; cases h with | or hv h => exact ⟨_, hv, (ih _ hv).2 h⟩
  | hstar v ih =>
    simp only [Expr.symbolCards, ih]
    constructor
    · exact .star
    · intro h; cases h with | star h => exact h
  | hplus v ih =>
    simp only [Expr.symbolCards, ih]
    constructor
    · exact .plus
    · intro h; cases h with | plus h => exact h
  | hrep v d ih =>
    simp only [Expr.symbolCards, ih]
    constructor
    · exact .repeat
    · intro h; cases h with | «repeat» h => exact h

theorem mem_violations (cnt : A → Nat) (cards : List (A × Card)) (a : A) (c : Card) (n : Nat) :
    (a, c, n) ∈ Struct.violations cnt cards ↔ (a, c) ∈ cards ∧ n = cnt a ∧ ¬ c.Holds n := by
  simp only [Struct.violations, List.mem_filterMap]
  constructor
  · rintro ⟨⟨b, d⟩, hp, h⟩
    split at h
    · cases h
    · rename_i hc
      simp only [Option.some.injEq, Prod.mk.injEq] at h
      obtain ⟨rfl, rfl, rfl⟩ := h
      exact ⟨hp, rfl, fun hh => hc ((contains_iff _ _).2 hh)⟩
  · rintro ⟨hp, rfl, hh⟩
    refine ⟨(a, c), hp, ?_⟩
    rw [if_neg (fun h => hh ((contains_iff _ _).1 h))]

theorem diagnose_names (s : Struct A) (cnt : A → Nat) (a : A) (c : Card) (n : Nat) :
    (s.diagnose cnt).Names a c n ↔ (a, c, n) ∈ Struct.violations cnt s.rbe.symbolCards := by
  unfold Struct.diagnose
  split
  · rename_i h; rw [h]; simp [Diag.Names]
  · rename_i b d m h
    rw [h]
    simp only [Diag.Names, Diag.card.injEq, List.mem_singleton, Prod.mk.injEq]
    constructor
    · rintro (⟨rfl, rfl, rfl⟩ | ⟨_, h, _⟩)
      · exact ⟨rfl, rfl, rfl⟩
      · cases h
    · rintro ⟨rfl, rfl, rfl⟩; exact Or.inl ⟨rfl, rfl, rfl⟩
  · simp [Diag.Names]

theorem conjList_iff (vs : List (Expr A)) : ConjList vs ↔ ∀ v ∈ vs, Conj v := by
  induction vs with
  | nil => simp [ConjList]
  | cons v vs ih => simp [ConjList, ih]

theorem conj_sane (e : Expr A) (h : Conj e) : Sane e ∧ RepeatFree e := by
  induction e using Expr.ind with
  | hfail => cases h
  | hempty => exact ⟨trivial, trivial⟩
  | hsym v c => exact ⟨trivial, trivial⟩
  | hand vs ih =>
    simp only [Conj, Sane, RepeatFree] at *
    induction vs with
    | nil => simp [SaneList, RepeatFreeList]
    | cons v vs ihv =>
      have h1 := ih v (by simp) h.1
      have h2 := ihv (fun w hw => ih w (by simp [hw])) h.2
      exact ⟨⟨h1.1, h2.1⟩, h1.2, h2.2⟩
  | hor vs ih => cases h
  | hstar v ih => cases h
  | hplus v ih => cases h
  | hrep v c ih => cases h

theorem conj_lang (e : Expr A) (h : Conj e) (ho : SingleOcc e) (B : Multiset A)
    (hd : ∀ a c, Declares e a c → c.Holds (B.count a)) : Lang e (proj (Expr.symbols e) B) := by
  induction e using Expr.ind with
  | hfail => cases h
  | hempty => simp [Expr.symbols, proj, Lang]
  | hsym v c =>
    rw [Expr.symbols, proj_singleton]
    exact ⟨_, hd _ _ (.symbol _ _), rfl⟩
  | hand vs ih =>
    have hol : SingleOccList vs := ho
    have hc := (conjList_iff vs).1 h
    have := (sumOf_langAll_proj hol (k := 1) (B := B)).2 (fun v hv => sumOf_one.2
      (ih v hv (hc v hv) (hol.mem v hv) (fun a c hx => hd a c (.and hv hx))))
    exact sumOf_one.1 this
  | hor vs ih => cases h
  | hstar v ih => cases h
  | hplus v ih => cases h
  | hrep v c ih => cases h

/-- In a conjunction every declared cardinality is necessary. -/
theorem conj_necessary (e : Expr A) (h : Conj e) (ho : SingleOcc e) (B : Multiset A)
    (hl : Lang e (proj (Expr.symbols e) B)) : ∀ a c, Declares e a c → c.Holds (B.count a) := by
  induction e using Expr.ind with
  | hfail => cases h
  | hempty => intro a c h; cases h
  | hsym v d =>
    intro a c hx
    cases hx
    rw [Expr.symbols, proj_singleton] at hl
    obtain ⟨n, hn, he⟩ := hl
    have := congrArg Multiset.card he
    simp only [Multiset.card_replicate] at this
    rwa [this]
  | hand vs ih =>
    intro a c hx
    have hol : SingleOccList vs := ho
    have hc := (conjList_iff vs).1 h
    have hh := (sumOf_langAll_proj hol (k := 1) (B := B)).1 (sumOf_one.2 hl)
    cases hx with
    | and hv hx => exact ih _ hv (hc _ hv) (hol.mem _ hv) (sumOf_one.1 (hh _ hv)) a c hx
  | hor vs ih => cases h
  | hstar v ih => cases h
  | hplus v ih => cases h
  | hrep v c ih => cases h

end Diag

section Cond
variable {K Q W : Type} [DecidableEq K] [DecidableEq Q]

open Expr

theorem derivPairsC_eq (sat : Q → W → Bool) (op : Bool) (ctl : List K) (k : K) (w : W) (n : Nat)
    (vs : List (Expr (K × Q))) :
    derivPairsC sat op ctl k w n vs = vs.map fun v => (v, notFail (derivC sat op ctl k w n v)) := by
  induction vs with
  | nil => rfl
  | cons v vs ih => simp [derivPairsC, ih]

theorem derivListC_eq (sat : Q → W → Bool) (op : Bool) (ctl : List K) (k : K) (w : W) (n : Nat)
    (vs : List (Expr (K × Q))) :
    derivListC sat op ctl k w n vs = vs.map (derivC sat op ctl k w n) := by
  induction vs with
  | nil => rfl
  | cons v vs ih => simp [derivListC, ih]

/-- The quotient lemma for sequences, for any derivative function. -/
theorem langAll_derivN_gen {A : Type} [DecidableEq A] (ok : A → Prop) (d : Expr A → Expr A)
    (vs : List (Expr A))
    (ih : ∀ v ∈ vs, ∀ s, Lang (d v) s ↔ ∃ a, ok a ∧ Lang v (a ::ₘ s)) :
    ∀ (pre : List (Expr A)) (s : Multiset A),
      (∃ ws ∈ derivN pre (vs.map fun v => (v, notFail (d v))), LangAll ws s) ↔
        ∃ a, ok a ∧ ∃ t u, s = t + u ∧ LangAll pre t ∧ LangAll vs (a ::ₘ u) := by
  induction vs with
  | nil => intro pre s; simp [derivN, LangAll]
  | cons v vs ihv =>
    intro pre s
    have hv := ih v (by simp)
    have hvs := ihv (fun w hw => ih w (by simp [hw]))
    have hsplit : (∃ a, ok a ∧ ∃ t u, s = t + u ∧ LangAll pre t ∧ LangAll (v :: vs) (a ::ₘ u)) ↔
        LangAll (pre ++ d v :: vs) s ∨
          ∃ a, ok a ∧ ∃ t u, s = t + u ∧ LangAll (pre ++ [v]) t ∧ LangAll vs (a ::ₘ u) := by
      constructor
      · rintro ⟨a, ha, t, u, rfl, ht, p, q, hpq, hp, hq⟩
        rcases cons_eq_add hpq with ⟨p', rfl, rfl⟩ | ⟨q', rfl, rfl⟩
        · left
          exact langAll_append.2 ⟨t, p' + q, rfl, ht, p', q, rfl, (hv _).2 ⟨a, ha, hp⟩, hq⟩
        · right
          refine ⟨a, ha, t + p, q', by rw [add_assoc], ?_, hq⟩
          exact langAll_append.2 ⟨t, p, rfl, ht, langAll_singleton.2 hp⟩
      · rintro (h | ⟨a, ha, t, u, rfl, ht, hu⟩)
        · obtain ⟨t, u, rfl, ht, p, q, rfl, hp, hq⟩ := langAll_append.1 h
          obtain ⟨a, ha, hp⟩ := (hv _).1 hp
          exact ⟨a, ha, t, p + q, rfl, ht, a ::ₘ p, q, by simp, hp, hq⟩
        · obtain ⟨t1, t2, rfl, ht1, ht2⟩ := langAll_append.1 ht
          refine ⟨a, ha, t1, t2 + u, by rw [add_assoc], ht1, t2, a ::ₘ u, by simp, ?_, hu⟩
          exact langAll_singleton.1 ht2
    rw [hsplit, ← hvs (pre ++ [v]) s]
    simp only [List.map_cons]
    cases hn : notFail (d v) with
    | none =>
      simp only [derivN]
      have hf := notFail_none hn
      constructor
      · intro h; exact Or.inr h
      · rintro (h | h)
        · exfalso
          obtain ⟨_, _, _, _, p, q, _, hp, _⟩ := langAll_append.1 h
          rw [hf] at hp
          simp [Lang] at hp
        · exact h
    | some d' =>
      have hd := lang_notFail hn
      subst hd
      simp only [derivN, List.mem_cons, exists_eq_or_imp, List.map_map, Function.comp_def,
        List.map_id']

theorem loopFreeList_iff {A : Type} (vs : List (Expr A)) :
    LoopFreeList vs ↔ ∀ v ∈ vs, LoopFree v := by
  induction vs with
  | nil => simp [LoopFreeList]
  | cons v vs ih => simp [LoopFreeList, ih]

theorem closed_derivN {P : Expr (K × Q) → Prop} (d : Expr (K × Q) → Expr (K × Q))
    (vs : List (Expr (K × Q))) (ih : ∀ v ∈ vs, P v ∧ P (d v)) :
    ∀ (pre : List (Expr (K × Q))), (∀ v ∈ pre, P v) →
      ∀ ws ∈ derivN pre (vs.map fun v => (v, notFail (d v))), ∀ w ∈ ws, P w := by
  induction vs with
  | nil => intro pre _ ws h; simp [derivN] at h
  | cons v vs ihv =>
    intro pre hpre ws hws
    have hrec := ihv (fun w hw => ih w (by simp [hw])) (pre ++ [v]) (by
      intro w hw
      rcases List.mem_append.1 hw with hw | hw
      · exact hpre w hw
      · rw [List.mem_singleton] at hw; subst hw; exact (ih _ (by simp)).1)
    simp only [List.map_cons] at hws
    cases hn : notFail (d v) with
    | none =>
      rw [hn] at hws
      simp only [derivN] at hws
      exact hrec ws hws
    | some d' =>
      have hd := lang_notFail hn
      subst hd
      rw [hn] at hws
      simp only [derivN, List.mem_cons, List.map_map, Function.comp_def, List.map_id'] at hws
      rcases hws with rfl | hws
      · intro w hw
        rcases List.mem_append.1 hw with hw | hw
        · exact hpre w hw
        · rcases List.mem_cons.1 hw with rfl | hw
          · exact (ih v (by simp)).2
          · exact (ih w (by simp [hw])).1
      · exact hrec ws hws

theorem wf_derivC (sat : Q → W → Bool) (op : Bool) (ctl : List K) (k : K) (w : W) (n : Nat)
    (e : Expr (K × Q)) (h : WF e) : WF (derivC sat op ctl k w n e) := by
  induction e using Expr.ind with
  | hfail => trivial
  | hempty => simp only [derivC]; split <;> trivial
  | hsym v c =>
    simp only [derivC, mkRangeSymbol]
    repeat' split
    all_goals trivial
  | hand vs ih =>
    have hvs : ∀ v ∈ vs, WF v := wfList_iff.1 h
    simp only [derivC, derivPairsC_eq]
    apply wf_orOfAnds
    intro ws hws
    rw [wfList_iff]
    exact closed_derivN _ vs (fun v hv => ⟨hvs v hv, ih v hv (hvs v hv)⟩) [] (by simp) ws hws
  | hor vs ih =>
    have hvs : ∀ v ∈ vs, WF v := wfList_iff.1 h.2
    simp only [derivC, derivListC_eq, mkOrValues]
    apply wf_foldl_mkOr _ Expr.fail trivial
    intro v hv
    obtain ⟨w, hw, rfl⟩ := List.mem_map.1 hv
    exact ih w hw (hvs w hw)
  | hstar v ih => exact wf_mkAnd _ _ (ih h) h
  | hplus v ih => exact wf_mkAnd _ _ (ih h) h
  | hrep v c ih =>
    simp only [derivC]
    split
    · split <;> trivial
    · exact wf_mkAnd _ _ (ih h.2.2) (wf_mkRange _ _ h.2.2)

theorem loopFree_mkAnd (e1 e2 : Expr (K × Q)) (h1 : LoopFree e1) (h2 : LoopFree e2) :
    LoopFree (mkAnd e1 e2) := by
  unfold mkAnd
  split <;> first | assumption | trivial | exact ⟨h1, h2, trivial⟩

theorem loopFree_mkRange (e : Expr (K × Q)) (c : Card) (h : LoopFree e) :
    LoopFree (mkRange e c) := by
  unfold mkRange
  repeat' split
  all_goals first | trivial | exact h

theorem loopFree_foldl (vs : List (Expr (K × Q))) (acc : Expr (K × Q)) (ha : LoopFree acc)
    (h : ∀ v ∈ vs, LoopFree v) : LoopFree (vs.foldl mkOr acc) := by
  induction vs generalizing acc with
  | nil => exact ha
  | cons v vs ih =>
    refine ih _ ?_ (fun w hw => h w (by simp [hw]))
    have hv := h v (by simp)
    unfold mkOr
    split
    · exact hv
    · exact ha
    · split
      · exact ha
      · exact ⟨ha, hv, trivial⟩

theorem loopFree_orOfAnds (vss : List (List (Expr (K × Q)))) (h : ∀ vs ∈ vss, LoopFreeList vs) :
    LoopFree (orOfAnds vss) := by
  unfold orOfAnds
  split
  · trivial
  · exact h _ (by simp)
  · simp only [LoopFree, loopFreeList_iff, List.mem_map]
    rintro _ ⟨vs, hvs, rfl⟩
    exact h vs hvs

theorem loopFree_derivC (sat : Q → W → Bool) (op : Bool) (ctl : List K) (k : K) (w : W) (n : Nat)
    (e : Expr (K × Q)) (h : LoopFree e) : LoopFree (derivC sat op ctl k w n e) := by
  induction e using Expr.ind with
  | hfail => trivial
  | hempty => simp only [derivC]; split <;> trivial
  | hsym v c =>
    simp only [derivC, mkRangeSymbol]
    repeat' split
    all_goals trivial
  | hand vs ih =>
    have hvs : ∀ v ∈ vs, LoopFree v := (loopFreeList_iff vs).1 h
    simp only [derivC, derivPairsC_eq]
    apply loopFree_orOfAnds
    intro ws hws
    rw [loopFreeList_iff]
    exact closed_derivN _ vs (fun v hv => ⟨hvs v hv, ih v hv (hvs v hv)⟩) [] (by simp) ws hws
  | hor vs ih =>
    have hvs : ∀ v ∈ vs, LoopFree v := (loopFreeList_iff vs).1 h
    simp only [derivC, derivListC_eq, mkOrValues]
    apply loopFree_foldl _ Expr.fail trivial
    intro v hv
    obtain ⟨w, hw, rfl⟩ := List.mem_map.1 hv
    exact ih w hw (hvs w hw)
  | hstar v ih => cases h
  | hplus v ih => cases h
  | hrep v c ih =>
    simp only [derivC]
    split
    · split <;> trivial
    · exact loopFree_mkAnd _ _ (ih h) (loopFree_mkRange _ _ h)

/-- Closed conditioned derivative of a loop-free expression: the language is the union of the
quotients by the conditioned symbols the value fits. -/
theorem lang_derivC (sat : Q → W → Bool) (ctl : List K) (k : K) (w : W) (e : Expr (K × Q))
    (hwf : WF e) (hlf : LoopFree e) (s : Multiset (K × Q)) :
    Lang (derivC sat false ctl k w 1 e) s ↔ ∃ a, Fits sat (k, w) a ∧ Lang e (a ::ₘ s) := by
  induction e using Expr.ind generalizing s with
  | hfail => simp [derivC, Lang]
  | hempty => simp [derivC, Lang]
  | hsym v c =>
    simp only [derivC, Bool.false_and, Bool.false_eq_true, if_false]
    have hne : ∀ a, Lang (.symbol v c) (a ::ₘ s) → a = v := by
      rintro a ⟨n, _, he⟩
      have : a ∈ Multiset.replicate n v := by rw [← he]; simp
      exact Multiset.eq_of_mem_replicate this
    split
    · rename_i hk
      split
      · rename_i hs
        have hfit : Fits sat (k, w) v := ⟨hk, hs⟩
        have hex : (∃ a, Fits sat (k, w) a ∧ Lang (.symbol v c) (a ::ₘ s)) ↔
            Lang (.symbol v c) (v ::ₘ s) := by
          constructor
          · rintro ⟨a, _, h⟩
            have := hne a h
            subst this; exact h
          · intro h; exact ⟨v, hfit, h⟩
        rw [hex]
        split
        · rename_i hm
          simp only [Lang, false_iff]
          rintro ⟨n, ⟨_, h2⟩, h3⟩
          have := h2 0 hm
          have h0 : n = 0 := by omega
          subst h0
          simp at h3
        · rename_i hm
          have hrs : Lang (mkRangeSymbol v (c.minus 1)) s ↔
              ∃ n, c.Holds (n + 1) ∧ s = Multiset.replicate n v := by
            unfold mkRangeSymbol
            split
            · rename_i hb
              simp only [Lang, false_iff]
              rintro ⟨n, h, _⟩
              exact Card.not_holds_of_bigger hb n ((Card.holds_minus_one hm n).2 h)
            · simp only [Lang, Card.holds_minus_one hm]
          rw [hrs]
          simp only [Lang]
          constructor
          · rintro ⟨n, h, rfl⟩
            exact ⟨n + 1, h, by rw [Multiset.replicate_succ]⟩
          · rintro ⟨n, h, he⟩
            cases n with
            | zero => simp at he
            | succ n =>
              rw [Multiset.replicate_succ, Multiset.cons_inj_right] at he
              exact ⟨n, h, he⟩
      · rename_i hs
        rw [show Lang (Expr.fail : Expr (K × Q)) s ↔ False from Iff.rfl, false_iff]
        rintro ⟨a, ⟨_, ha⟩, h⟩
        have := hne a h
        subst this
        exact hs ha
    · rename_i hk
      rw [show Lang (Expr.fail : Expr (K × Q)) s ↔ False from Iff.rfl, false_iff]
      rintro ⟨a, ⟨ha, _⟩, h⟩
      have := hne a h
      subst this
      exact hk ha
  | hand vs ih =>
    have hvs : ∀ v ∈ vs, WF v := wfList_iff.1 hwf
    have hls : ∀ v ∈ vs, LoopFree v := (loopFreeList_iff vs).1 hlf
    simp only [derivC, derivPairsC_eq, lang_orOfAnds]
    rw [langAll_derivN_gen (Fits sat (k, w)) _ vs
      (fun v hv s => ih v hv (hvs v hv) (hls v hv) s) [] s]
    simp only [LangAll, Lang]
    constructor
    · rintro ⟨a, ha, _, u, rfl, rfl, h⟩; exact ⟨a, ha, by simpa using h⟩
    · rintro ⟨a, ha, h⟩; exact ⟨a, ha, 0, s, by simp, rfl, h⟩
  | hor vs ih =>
    have hvs : ∀ v ∈ vs, WF v := wfList_iff.1 hwf.2
    have hls : ∀ v ∈ vs, LoopFree v := (loopFreeList_iff vs).1 hlf
    simp only [derivC, derivListC_eq, mkOrValues, lang_foldl_mkOr, Lang, false_or, langSome_iff,
      List.mem_map]
    constructor
    · rintro ⟨_, ⟨v, hv, rfl⟩, h⟩
      obtain ⟨a, ha, h⟩ := (ih v hv (hvs v hv) (hls v hv) s).1 h
      exact ⟨a, ha, v, hv, h⟩
    · rintro ⟨a, ha, v, hv, h⟩
      exact ⟨_, ⟨v, hv, rfl⟩, (ih v hv (hvs v hv) (hls v hv) s).2 ⟨a, ha, h⟩⟩
  | hstar v ih => cases hlf
  | hplus v ih => cases hlf
  | hrep v c ih =>
    obtain ⟨hc, hm, hv⟩ := hwf
    have h00 : c.is00 = false := by
      simp only [Card.is00, Bool.and_eq_false_iff, beq_eq_false_iff_ne]
      exact Or.inr hm
    simp only [derivC, h00, Bool.false_eq_true, if_false, lang_mkAnd]
    by_cases hf : v = .fail
    · subst hf
      simp only [derivC, LangAll, Lang]
      constructor
      · rintro ⟨_, _, _, h, _⟩; exact h.elim
      · rintro ⟨a, _, k, _, hk⟩
        obtain ⟨j, rfl, t, u, rfl, ht, hu⟩ := sumOf_cons.1 hk
        exact ht.elim
    · have hmr := fun s => lang_mkRange v (c.minus 1) s hf
      simp only [LangAll, hmr]
      simp only [Lang, Card.holds_minus_one hm]
      constructor
      · rintro ⟨t, _, rfl, ht, u, _, rfl, ⟨k, hk, hs⟩, rfl⟩
        obtain ⟨a, ha, ht⟩ := (ih hv hlf _).1 ht
        exact ⟨a, ha, k + 1, hk, sumOf_cons.2 ⟨k, rfl, t, u, by simp, ht, hs⟩⟩
      · rintro ⟨a, ha, k, hk, hs⟩
        obtain ⟨j, rfl, t, u, rfl, ht, hu⟩ := sumOf_cons.1 hs
        exact ⟨t, u, rfl, (ih hv hlf _).2 ⟨a, ha, ht⟩, u, 0, by simp, ⟨j, hk, hu⟩, rfl⟩

theorem derivAllC_spec (sat : Q → W → Bool) (ctl : List K) (l : List (K × W)) (e : Expr (K × Q))
    (hwf : WF e) (hlf : LoopFree e) :
    WF (derivAllC sat false ctl l e) ∧
      ∀ s, Lang (derivAllC sat false ctl l e) s ↔
        ∃ as : List (K × Q), List.Forall₂ (Fits sat) l as ∧ Lang e ((as : Multiset (K × Q)) + s) := by
  induction l generalizing e with
  | nil => exact ⟨hwf, by simp [derivAllC]⟩
  | cons x l ih =>
    obtain ⟨k, w⟩ := x
    have hd := lang_derivC sat ctl k w e hwf hlf
    have hw := wf_derivC sat false ctl k w 1 e hwf
    have hl := loopFree_derivC sat false ctl k w 1 e hlf
    have key : ∀ s, (∃ as : List (K × Q), List.Forall₂ (Fits sat) l as ∧
        Lang (derivC sat false ctl k w 1 e) ((as : Multiset (K × Q)) + s)) ↔
        ∃ as : List (K × Q), List.Forall₂ (Fits sat) ((k, w) :: l) as ∧
          Lang e ((as : Multiset (K × Q)) + s) := by
      intro s
      constructor
      · rintro ⟨as, h1, h2⟩
        obtain ⟨a, ha, h⟩ := (hd _).1 h2
        exact ⟨a :: as, .cons ha h1, by rwa [← Multiset.cons_coe, Multiset.cons_add]⟩
      · rintro ⟨as, h1, h2⟩
        match as, h1 with
        | a :: as, .cons ha h1 =>
          exact ⟨as, h1, (hd _).2 ⟨a, ha, by rwa [← Multiset.cons_coe, Multiset.cons_add] at h2⟩⟩
    simp only [derivAllC]
    split
    · rename_i hf
      refine ⟨trivial, fun s => ?_⟩
      rw [← key, hf]
      simp [Lang]
    · refine ⟨(ih _ hw hl).1, fun s => ?_⟩
      rw [(ih _ hw hl).2, key]

theorem derivAllC_fail (sat : Q → W → Bool) (op : Bool) (ctl : List K) (l : List (K × W)) :
    derivAllC sat op ctl l (.fail : Expr (K × Q)) = .fail := by
  cases l with
  | nil => rfl
  | cons x l => simp [derivAllC, derivC]

theorem matchesC_nullable (sat : Q → W → Bool) (op : Bool) (ctl : List K) (l : List (K × W))
    (e : Expr (K × Q)) :
    matchesC sat op ctl e l = condNullable (derivAllC sat op ctl l e) := by
  unfold matchesC
  split
  · rename_i hf; rw [hf]; rfl
  · rfl

theorem matchesC_cons (sat : Q → W → Bool) (op : Bool) (ctl : List K) (k : K) (w : W)
    (l : List (K × W)) (e : Expr (K × Q)) :
    matchesC sat op ctl e ((k, w) :: l) = matchesC sat op ctl (derivC sat op ctl k w 1 e) l := by
  rw [matchesC_nullable, matchesC_nullable]
  simp only [derivAllC]
  split
  · rename_i hf; rw [hf, derivAllC_fail]
  · rfl

theorem matchesC_iff (sat : Q → W → Bool) (ctl : List K) (l : List (K × W)) (e : Expr (K × Q))
    (hwf : WF e) (hlf : LoopFree e) :
    matchesC sat false ctl e l = true ↔ LangC sat e l := by
  obtain ⟨hw, hl⟩ := derivAllC_spec sat ctl l e hwf hlf
  rw [matchesC_nullable, condNullable_iff _ (minMax_of_sane _ (sane_of_wf _ hw)), hl]
  simp [LangC]

end Cond

end Rbe
