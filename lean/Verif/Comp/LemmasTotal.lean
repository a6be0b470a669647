import Verif.Comp.LemmasTyping

/-!
# Helper lemmas: when the compiler succeeds
-/

namespace Comp
open Shex Rbe

variable {N P NC : Type}

/-! ## An expression stands for at most one core expression -/

theorem Label.Names.unique {l : Label P} {a b : SLabel P} (h1 : l.Names a) (h2 : l.Names b) : a = b := by
  have := toLabel_eq_ok.2 h1
  rw [toLabel_eq_ok.2 h2] at this
  cases this; rfl

theorem IRef.Means.unique {ex : String → String → Option P} {r : IRef P} {a b : P} (h1 : r.Means ex a)
    (h2 : r.Means ex b) : a = b := by
  rcases h1 with rfl | ⟨p, l, rfl, h1⟩
  · rcases h2 with h2 | ⟨p, l, h2, _⟩
    · cases h2; rfl
    · cases h2
  · rcases h2 with h2 | ⟨p', l', h2, h3⟩
    · cases h2
    · cases h2; rw [h1] at h3; cases h3; rfl

theorem CardOf.unique {mn mx : Option Int} {a b : Card} (h1 : CardOf mn mx a) (h2 : CardOf mn mx b) :
    a = b := by
  have := cnvMinMax_eq_ok.2 h1
  rw [cnvMinMax_eq_ok.2 h2] at this
  cases this; rfl

theorem Act.Runs.unique {G : Ctxt N P NC} {a : Act P} {f g : Ctx N P → Bool} (h1 : a.Runs G f)
    (h2 : a.Runs G g) : f = g := by
  obtain ⟨i, h3, _, rfl⟩ := h1
  obtain ⟨j, h4, _, rfl⟩ := h2
  rw [h3.unique h4]

theorem forall₂_unique {A B : Type} {R : A → B → Prop} {as : List A} {bs cs : List B}
    (h1 : List.Forall₂ R as bs) (h2 : List.Forall₂ R as cs) (hR : ∀ a b c, R a b → R a c → b = c) :
    bs = cs := by
  induction h1 generalizing cs with
  | nil => cases h2; rfl
  | cons h _ ih =>
    cases h2 with
    | cons h' h2 => rw [hR _ _ _ h h', ih h2]

mutual
theorem Stands.unique {G : Ctxt N P NC} {tes : TLabel P → Option (TE P NC)} :
    ∀ {c c' : Core N P} {e : SE P NC}, Stands G tes c e → Stands G tes c' e → c = c'
  | .ref l, c', _, h, h' => by
    obtain ⟨r, rfl, h1⟩ := h
    cases c' with
    | ref k => obtain ⟨r', h2, h3⟩ := h'; cases h2; rw [h1.unique h3]
    | or _ => obtain ⟨_, h2, _⟩ := h'; cases h2
    | and _ => obtain ⟨_, h2, _⟩ := h'; cases h2
    | not _ => obtain ⟨_, h2, _⟩ := h'; cases h2
    | shape _ _ _ _ => obtain ⟨_, _, _, _, _, h2, _⟩ := h'; cases h2
    | test _ => obtain ⟨_, h2, _⟩ := h'; cases h2
    | external => cases h'
  | .or cs, c', _, h, h' => by
    obtain ⟨es, rfl, h1⟩ := h
    cases c' with
    | or cs' => obtain ⟨_, h2, h3⟩ := h'; cases h2; rw [StandsAll.unique h1 h3]
    | ref _ => obtain ⟨_, h2, _⟩ := h'; cases h2
    | and _ => obtain ⟨_, h2, _⟩ := h'; cases h2
    | not _ => obtain ⟨_, h2, _⟩ := h'; cases h2
    | shape _ _ _ _ => obtain ⟨_, _, _, _, _, h2, _⟩ := h'; cases h2
    | test _ => obtain ⟨_, h2, _⟩ := h'; cases h2
    | external => cases h'
  | .and cs, c', _, h, h' => by
    obtain ⟨es, rfl, h1⟩ := h
    cases c' with
    | and cs' => obtain ⟨_, h2, h3⟩ := h'; cases h2; rw [StandsAll.unique h1 h3]
    | ref _ => obtain ⟨_, h2, _⟩ := h'; cases h2
    | or _ => obtain ⟨_, h2, _⟩ := h'; cases h2
    | not _ => obtain ⟨_, h2, _⟩ := h'; cases h2
    | shape _ _ _ _ => obtain ⟨_, _, _, _, _, h2, _⟩ := h'; cases h2
    | test _ => obtain ⟨_, h2, _⟩ := h'; cases h2
    | external => cases h'
  | .not c, c', _, h, h' => by
    obtain ⟨es, rfl, h1⟩ := h
    cases c' with
    | not cs' => obtain ⟨_, h2, h3⟩ := h'; cases h2; rw [Stands.unique h1 h3]
    | ref _ => obtain ⟨_, h2, _⟩ := h'; cases h2
    | or _ => obtain ⟨_, h2, _⟩ := h'; cases h2
    | and _ => obtain ⟨_, h2, _⟩ := h'; cases h2
    | shape _ _ _ _ => obtain ⟨_, _, _, _, _, h2, _⟩ := h'; cases h2
    | test _ => obtain ⟨_, h2, _⟩ := h'; cases h2
    | external => cases h'
  | .shape cl ex e xs, c', _, h, h' => by
    obtain ⟨cl', ex', te, xs', acts, rfl, rfl, h1, h2, h3, _⟩ := h
    cases c' with
    | shape cl2 ex2 e2 xs2 =>
      obtain ⟨_, _, _, _, _, h4, rfl, h5, h6, h7, _⟩ := h'
      cases h4
      rw [forall₂_unique h1 h5 fun _ _ _ => IRef.Means.unique, StandsO.unique h2 h6,
        forall₂_unique h3 h7 fun _ _ _ => Label.Names.unique]
    | ref _ => obtain ⟨_, h2, _⟩ := h'; cases h2
    | or _ => obtain ⟨_, h2, _⟩ := h'; cases h2
    | and _ => obtain ⟨_, h2, _⟩ := h'; cases h2
    | not _ => obtain ⟨_, h2, _⟩ := h'; cases h2
    | test _ => obtain ⟨_, h2, _⟩ := h'; cases h2
    | external => cases h'
  | .test ok, c', _, h, h' => by
    obtain ⟨c, rfl, h1⟩ := h
    cases c' with
    | test ok' => obtain ⟨_, h2, h3⟩ := h'; cases h2; rw [h1] at h3; cases h3; rfl
    | ref _ => obtain ⟨_, h2, _⟩ := h'; cases h2
    | or _ => obtain ⟨_, h2, _⟩ := h'; cases h2
    | and _ => obtain ⟨_, h2, _⟩ := h'; cases h2
    | not _ => obtain ⟨_, h2, _⟩ := h'; cases h2
    | shape _ _ _ _ => obtain ⟨_, _, _, _, _, h2, _⟩ := h'; cases h2
    | external => cases h'
  | .external, c', _, h, h' => by
    cases (show _ = SE.external from h)
    cases c' with
    | external => rfl
    | ref _ => obtain ⟨_, h2, _⟩ := h'; cases h2
    | or _ => obtain ⟨_, h2, _⟩ := h'; cases h2
    | and _ => obtain ⟨_, h2, _⟩ := h'; cases h2
    | not _ => obtain ⟨_, h2, _⟩ := h'; cases h2
    | shape _ _ _ _ => obtain ⟨_, _, _, _, _, h2, _⟩ := h'; cases h2
    | test _ => obtain ⟨_, h2, _⟩ := h'; cases h2
theorem StandsAll.unique {G : Ctxt N P NC} {tes : TLabel P → Option (TE P NC)} :
    ∀ {cs cs' : List (Core N P)} {es : List (SE P NC)}, StandsAll G tes cs es → StandsAll G tes cs' es →
      cs = cs'
  | [], cs', _, h, h' => by
    cases (show _ = [] from h)
    cases cs' with
    | nil => rfl
    | cons _ _ => obtain ⟨_, _, h2, _⟩ := h'; cases h2
  | c :: cs, cs', _, h, h' => by
    obtain ⟨e, es, rfl, h1, h2⟩ := h
    cases cs' with
    | nil => cases (show _ :: _ = [] from h')
    | cons c' cs' =>
      obtain ⟨_, _, h3, h4, h5⟩ := h'
      cases h3
      rw [Stands.unique h1 h4, StandsAll.unique h2 h5]
theorem StandsO.unique {G : Ctxt N P NC} {tes : TLabel P → Option (TE P NC)} :
    ∀ {e e' : CTE N P} {te : Option (TE P NC)}, StandsO G tes e te → StandsO G tes e' te → e = e'
  | .nothing, e', _, h, h' => by
    cases (show _ = none from h)
    cases e' with
    | nothing => rfl
    | eachOf _ _ => obtain ⟨_, h2, _⟩ := h'; cases h2
    | oneOf _ _ => obtain ⟨_, h2, _⟩ := h'; cases h2
    | tc _ _ _ _ => obtain ⟨_, h2, _⟩ := h'; cases h2
    | incl _ => obtain ⟨_, _, h2, _⟩ := h'; cases h2
  | .eachOf es c, e', _, h, h' => by
    obtain ⟨_, rfl, id, ts, mn, mx, acts, rfl, h1, h2, _⟩ := h
    cases e' with
    | nothing => cases (show some _ = none from h')
    | eachOf es' c' =>
      obtain ⟨_, h3, _, _, _, _, _, rfl, h4, h5, _⟩ := h'
      cases h3
      rw [StandsTs.unique h1 h4, h2.unique h5]
    | oneOf _ _ => obtain ⟨_, h2, _, _, _, _, _, rfl, _⟩ := h'; cases h2
    | tc _ _ _ _ => obtain ⟨_, h2, _, _, _, _, _, _, _, rfl, _⟩ := h'; cases h2
    | incl _ => obtain ⟨_, _, h2, _⟩ := h'; cases h2
  | .oneOf es c, e', _, h, h' => by
    obtain ⟨_, rfl, id, ts, mn, mx, acts, rfl, h1, h2⟩ := h
    cases e' with
    | nothing => cases (show some _ = none from h')
    | oneOf es' c' =>
      obtain ⟨_, h3, _, _, _, _, _, rfl, h4, h5⟩ := h'
      cases h3
      rw [StandsTs.unique h1 h4, h2.unique h5]
    | eachOf _ _ => obtain ⟨_, h2, _, _, _, _, _, rfl, _⟩ := h'; cases h2
    | tc _ _ _ _ => obtain ⟨_, h2, _, _, _, _, _, _, _, rfl, _⟩ := h'; cases h2
    | incl _ => obtain ⟨_, _, h2, _⟩ := h'; cases h2
  | .tc p acts v c, e', _, h, h' => by
    obtain ⟨_, rfl, id, ng, iv, val, mn, mx, as, rfl, h1, h2, h3, h4⟩ := h
    cases e' with
    | nothing => cases (show some _ = none from h')
    | eachOf _ _ => obtain ⟨_, h2, _, _, _, _, _, rfl, _⟩ := h'; cases h2
    | oneOf _ _ => obtain ⟨_, h2, _, _, _, _, _, rfl, _⟩ := h'; cases h2
    | incl _ => obtain ⟨_, _, h2, _⟩ := h'; cases h2
    | tc p' acts' v' c' =>
      obtain ⟨_, h5, _, _, _, _, _, _, _, rfl, h6, h7, h8, h9⟩ := h'
      obtain ⟨i, d⟩ := p
      obtain ⟨i', d'⟩ := p'
      dsimp only at *
      cases h5
      subst h1 h6
      have hv : v = v' := by
        rcases h4 with ⟨rfl, rfl⟩ | ⟨se, rfl, h4⟩
        · rcases h9 with ⟨_, rfl⟩ | ⟨_, h9, _⟩
          · rfl
          · cases h9
        · rcases h9 with ⟨h9, _⟩ | ⟨_, h9, h10⟩
          · cases h9
          · cases h9; exact Stands.unique h4 h10
      rw [hv, forall₂_unique h2 h7 fun _ _ _ => Act.Runs.unique, h3.unique h8]
  | .incl e, e', _, h, h' => by
    obtain ⟨l, t, rfl, h1, h2⟩ := h
    cases e' with
    | nothing => cases (show some _ = none from h')
    | eachOf _ _ => obtain ⟨_, h2, _, _, _, _, _, rfl, _⟩ := h'; cases h2
    | oneOf _ _ => obtain ⟨_, h2, _, _, _, _, _, rfl, _⟩ := h'; cases h2
    | tc _ _ _ _ => obtain ⟨_, h2, _, _, _, _, _, _, _, rfl, _⟩ := h'; cases h2
    | incl e'' =>
      obtain ⟨_, _, h3, h4, h5⟩ := h'
      cases h3
      rw [h1] at h4
      cases h4
      rw [StandsO.unique h2 h5]
theorem StandsTs.unique {G : Ctxt N P NC} {tes : TLabel P → Option (TE P NC)} :
    ∀ {es es' : List (CTE N P)} {ts : List (TE P NC)}, StandsTs G tes es ts → StandsTs G tes es' ts →
      es = es'
  | [], es', _, h, h' => by
    cases (show _ = [] from h)
    cases es' with
    | nil => rfl
    | cons _ _ => obtain ⟨_, _, h2, _⟩ := h'; cases h2
  | e :: es, es', _, h, h' => by
    obtain ⟨t, ts, rfl, h1, h2⟩ := h
    cases es' with
    | nil => cases (show _ :: _ = [] from h')
    | cons e' es' =>
      obtain ⟨_, _, h3, h4, h5⟩ := h'
      cases h3
      rw [StandsO.unique h1 h4, StandsTs.unique h2 h5]
end

theorem LastOf.unique {ds : List (Label P × SE P NC)} {l : SLabel P} {e e' : SE P NC}
    (h : LastOf ds l e) (h' : LastOf ds l e') : e = e' := by
  obtain ⟨pre, post, id, rfl, h1, h2⟩ := h
  obtain ⟨pre', post', id', h3, h4, h5⟩ := h'
  rcases List.append_eq_append_iff.1 h3 with ⟨as, rfl, h6⟩ | ⟨as, rfl, h6⟩
  · cases as with
    | nil => simp only [List.nil_append, List.cons.injEq, Prod.mk.injEq] at h6; exact h6.1.2
    | cons a as =>
      rw [List.cons_append, List.cons.injEq] at h6
      exact (h2 (id', e') (by rw [h6.2]; simp) h4).elim
  · cases as with
    | nil => simp only [List.nil_append, List.cons.injEq, Prod.mk.injEq] at h6; exact h6.1.2.symm
    | cons a as =>
      rw [List.cons_append, List.cons.injEq] at h6
      exact (h5 (id, e) (by rw [h6.2]; simp) h1).elim

theorem CoreOf.unique {G : Ctxt N P NC} {tes : TLabel P → Option (TE P NC)}
    {ds : List (Label P × SE P NC)} {D D' : Decls N P} (h : CoreOf G tes ds D) (h' : CoreOf G tes ds D') :
    D = D' := by
  funext l
  have hnone : ∀ {D D' : Decls N P}, CoreOf G tes ds D → CoreOf G tes ds D' → D l = none → D' l = none := by
    intro D D' h h' hn
    cases hd : D' l with
    | none => rfl
    | some c =>
      obtain ⟨e, ⟨pre, post, id, rfl, h1, _⟩, _⟩ := (h' l).1 c hd
      exact ((h l).2 hn (id, e) (by simp) h1).elim
  cases hd : D l with
  | none => exact (hnone h h' hd).symm
  | some c =>
    cases hd' : D' l with
    | none => rw [hnone h' h hd'] at hd; cases hd
    | some c' =>
      obtain ⟨e, h1, h2⟩ := (h l).1 c hd
      obtain ⟨e', h3, h4⟩ := (h' l).1 c' hd'
      rw [h1.unique h3] at h2
      rw [h2.unique h4]

theorem Labelled.unique {ss : List (Source P NC)} {tes tes' : TLabel P → Option (TE P NC)}
    (h : Labelled ss tes) (h' : Labelled ss tes') : tes = tes' := by
  funext l
  cases hd : tes l with
  | none =>
    cases hd' : tes' l with
    | none => rfl
    | some t => rw [(h l t).2 ((h' l t).1 hd')] at hd; cases hd
  | some t => exact ((h' l t).2 ((h l t).1 hd)).symm

/-! ## Compiling what stands for something -/

section
variable [DecidableEq P]

/-- The labels the expression refers to are known. -/
def Core.Known (idx : SLabel P → Option Nat) (c : Core N P) : Prop :=
  ∀ l, c.Uses l → (idx l).isSome = true

omit [DecidableEq P] in
theorem Core.Known.child {idx : SLabel P → Option Nat} {c d : Core N P} (h : c.Known idx)
    (hd : Child d c) : d.Known idx := by
  rintro l ⟨x, h1, h2⟩
  exact h l ⟨x, h1.tail hd, h2⟩

/-- The triple expression is not larger than those it is part of. -/
def Fresh (G : Ctxt N P NC) (tes : TLabel P → Option (TE P NC)) (vis : List (TLabel P)) (e : CTE N P) :
    Prop :=
  ∀ l ∈ vis, ∀ t, tes l = some t → ∀ e', StandsO G tes e' (some t) → sizeOf e ≤ sizeOf e'

omit [DecidableEq P] in
theorem Fresh.smaller {G : Ctxt N P NC} {tes : TLabel P → Option (TE P NC)} {vis : List (TLabel P)}
    {e e' : CTE N P} (h : Fresh G tes vis e) (hs : sizeOf e' ≤ sizeOf e) : Fresh G tes vis e' :=
  fun l hl t ht x hx => le_trans hs (h l hl t ht x hx)

theorem refIdx_total {st : St N P} {l : Label P} {s : SLabel P} (hn : l.Names s)
    (hk : (st.idx s).isSome = true) : ∃ j, refIdx st l = .ok j := by
  obtain ⟨j, hj⟩ := Option.isSome_iff_exists.1 hk
  exact ⟨j, refIdx_eq_ok.2 ⟨s, hn, hj⟩⟩

/-- `go` compiles every expression standing for one of size at most `n`. -/
def Total (G : Ctxt N P NC) (tes : TLabel P → Option (TE P NC)) (n : Nat)
    (go : SE P NC → Nat → St N P → Res (ShapeExpr N P × St N P)) : Prop :=
  ∀ c se i st own, sizeOf c ≤ n → Stands G tes c se → c.Known st.idx → Ready st own → i < st.counter →
    ∃ r st', go se i st = .ok (r, st')

theorem alloc_total {G : Ctxt N P NC} {tes : TLabel P → Option (TE P NC)} {n : Nat}
    {go : SE P NC → Nat → St N P → Res (ShapeExpr N P × St N P)} (hgo : GoSE G tes go)
    (ht : Total G tes n go) {c : Core N P} {e : SE P NC} {st : St N P} {own : Nat → Option (Core N P)}
    (hc : sizeOf c ≤ n) (hs : Stands G tes c e) (hk : c.Known st.idx) (hr : Ready st own) :
    ∃ r st' own', go e st.newIndex.1 st.newIndex.2 = .ok (r, st') ∧
      Ready (st'.replace st.newIndex.1 r) own' ∧ (st'.replace st.newIndex.1 r).idx = st.idx := by
  obtain ⟨r, st', h⟩ := ht c e st.newIndex.1 st.newIndex.2 own hc hs hk hr.newIndex
    (by simp [St.newIndex])
  obtain ⟨_, own', _, hg, _⟩ := alloc_step (X := fun _ => False) hgo hr h
  exact ⟨r, st', own', h, hg.ready, hg.idx⟩

theorem operands_total {G : Ctxt N P NC} {tes : TLabel P → Option (TE P NC)} {n : Nat}
    {go : SE P NC → Nat → St N P → Res (ShapeExpr N P × St N P)} (hgo : GoSE G tes go)
    (ht : Total G tes n go) : ∀ {cs : List (Core N P)} {es : List (SE P NC)} {st : St N P}
      {own : Nat → Option (Core N P)}, (∀ c ∈ cs, sizeOf c ≤ n) → StandsAll G tes cs es →
      (∀ c ∈ cs, c.Known st.idx) → Ready st own → ∃ is st', operands go es st = .ok (is, st')
  | [], _, st, own, _, hs, _, _ => by
    cases (show _ = [] from hs)
    exact ⟨[], st, rfl⟩
  | c :: cs, _, st, own, hc, hs, hk, hr => by
    obtain ⟨e, es, rfl, h1, h2⟩ := hs
    obtain ⟨r, st1, own1, h3, h4, h5⟩ := alloc_total hgo ht (hc c (by simp)) h1 (hk c (by simp)) hr
    obtain ⟨is, st2, h6⟩ := operands_total hgo ht (fun c h => hc c (by simp [h])) h2
      (fun c h => by rw [h5]; exact hk c (by simp [h])) h4
    simp only [operands, h3, Res.bind, h6]
    exact ⟨_, _, rfl⟩

omit [DecidableEq P] in
theorem mem_size {c : Core N P} {cs : List (Core N P)} (h : c ∈ cs) : sizeOf c < sizeOf cs :=
  List.sizeOf_lt_of_mem h

theorem valueCond_total {G : Ctxt N P NC} {tes : TLabel P → Option (TE P NC)} {n : Nat}
    {go : SE P NC → Nat → St N P → Res (ShapeExpr N P × St N P)} (hgo : GoSE G tes go)
    (ht : Total G tes n go) {v : Core N P} {val : Option (SE P NC)} {st : St N P}
    {own : Nat → Option (Core N P)} (hv : sizeOf v ≤ n)
    (hs : (val = none ∧ v = .test fun _ => true) ∨ ∃ se, val = some se ∧ Stands G tes v se)
    (hk : v.Known st.idx) (hr : Ready st own) : ∃ cond st', valueCond G go val st = .ok (cond, st') := by
  rcases hs with ⟨rfl, rfl⟩ | ⟨se, rfl, hs⟩
  · exact ⟨_, st, rfl⟩
  · cases v with
    | ref l =>
      obtain ⟨r, rfl, hn⟩ := hs
      obtain ⟨j, hj⟩ := refIdx_total hn (hk l ⟨_, .refl, .inl rfl⟩)
      simp only [valueCond, hj, Res.bind]
      exact ⟨_, _, rfl⟩
    | test ok =>
      obtain ⟨c, rfl, hc⟩ := hs
      simp only [valueCond, hc, Res.of, Res.bind]
      exact ⟨_, _, rfl⟩
    | or cs =>
      obtain ⟨es, rfl, hs⟩ := hs
      simp only [Core.or.sizeOf_spec] at hv
      obtain ⟨is, st', h⟩ := operands_total hgo ht (fun c h => by have := mem_size h; omega) hs
        (fun c h => hk.child h) hr
      simp only [valueCond, h, Res.bind]
      exact ⟨_, _, rfl⟩
    | and cs =>
      obtain ⟨es, rfl, hs⟩ := hs
      simp only [Core.and.sizeOf_spec] at hv
      obtain ⟨is, st', h⟩ := operands_total hgo ht (fun c h => by have := mem_size h; omega) hs
        (fun c h => hk.child h) hr
      simp only [valueCond, h, Res.bind]
      exact ⟨_, _, rfl⟩
    | not c =>
      obtain ⟨e, rfl, hs⟩ := hs
      simp only [Core.not.sizeOf_spec] at hv
      obtain ⟨r, st', _, h, _⟩ := alloc_total hgo ht (c := c) (by omega) hs (hk.child rfl) hr
      simp only [valueCond, h, Res.bind]
      exact ⟨_, _, rfl⟩
    | shape cl ex e xs =>
      have hs' := hs
      obtain ⟨cl', ex', te, xs', acts, rfl, _⟩ := hs
      obtain ⟨r, st', _, h, _⟩ := alloc_total hgo ht hv hs' hk hr
      simp only [valueCond, h, Res.bind]
      exact ⟨_, _, rfl⟩
    | external =>
      cases (show _ = SE.external from hs)
      exact ⟨(store st .external).1, (store st .external).2, rfl⟩

theorem parts_total {G : Ctxt N P NC} {tes : TLabel P → Option (TE P NC)} {n : Nat}
    {vis : List (TLabel P)} {go : TE P NC → TExpr N P → St N P → Res (Struct Nat × TExpr N P × St N P)}
    (hgo : ∀ te t st own s t' st', Ready st own → go te t st = .ok (s, t', st') →
      ∃ own', Ready st' own' ∧ st'.idx = st.idx)
    (ht : ∀ e te t st own, sizeOf e ≤ n → StandsO G tes e (some te) →
      (∀ x ∈ e.constraints, x.2.2.Known st.idx) → Ready st own → Fresh G tes vis e →
      ∃ s t' st', go te t st = .ok (s, t', st')) :
    ∀ {es : List (CTE N P)} {ts : List (TE P NC)} {t : TExpr N P} {st : St N P}
      {own : Nat → Option (Core N P)}, (∀ e ∈ es, sizeOf e ≤ n) → StandsTs G tes es ts →
      (∀ x ∈ constraintsAll es, x.2.2.Known st.idx) → Ready st own → (∀ e ∈ es, Fresh G tes vis e) →
      ∃ ss t' st', parts go ts t st = .ok (ss, t', st')
  | [], _, t, st, own, _, hs, _, _, _ => by
    cases (show _ = [] from hs)
    exact ⟨[], t, st, rfl⟩
  | e :: es, _, t, st, own, hn, hs, hk, hr, hf => by
    obtain ⟨te, ts, rfl, h1, h2⟩ := hs
    simp only [constraintsAll, List.mem_append] at hk
    obtain ⟨s, t1, st1, h3⟩ := ht e te t st own (hn e (by simp)) h1 (fun x hx => hk x (.inl hx)) hr
      (hf e (by simp))
    obtain ⟨own1, h4, h5⟩ := hgo _ _ _ _ _ _ _ hr h3
    obtain ⟨ss, t2, st2, h6⟩ := parts_total hgo ht (t := t1) (fun e h => hn e (by simp [h])) h2
      (fun x hx => by rw [h5]; exact hk x (.inr hx)) h4 (fun e h => hf e (by simp [h]))
    simp only [parts, h3, Res.bind, h6]
    exact ⟨_, _, _, rfl⟩

omit [DecidableEq P] in
theorem mapRes_total {A B : Type} {f : A → Res B} {as : List A} (h : ∀ a ∈ as, ∃ b, f a = .ok b) :
    ∃ bs, mapRes f as = .ok bs := by
  induction as with
  | nil => exact ⟨[], rfl⟩
  | cons a as ih =>
    obtain ⟨b, hb⟩ := h a (by simp)
    obtain ⟨bs, hbs⟩ := ih fun a ha => h a (by simp [ha])
    simp only [mapRes, hb, Res.bind, hbs]
    exact ⟨_, rfl⟩

theorem compile_total (G : Ctxt N P NC) (tes : TLabel P → Option (TE P NC)) (n : Nat) :
    Total G tes n (compileSE G tes n) ∧
      ∀ (e : CTE N P) te vis t st own, sizeOf e ≤ n → StandsO G tes e (some te) →
        (∀ x ∈ e.constraints, x.2.2.Known st.idx) → Ready st own → Fresh G tes vis e →
        ∃ s t' st', compileTE G tes n te vis t st = .ok (s, t', st') := by
  induction n with
  | zero =>
    refine ⟨?_, ?_⟩
    · intro c se i st own hc
      exfalso
      cases c <;> simp at hc
    · intro e te vis t st own he
      exfalso
      cases e <;> simp at he
  | succ n ih =>
    obtain ⟨ihS, ihT⟩ := ih
    obtain ⟨hgo, hgoT⟩ := compile_post G tes n
    have hready : ∀ vis te t st own s t' st', Ready st own → compileTE G tes n te vis t st = .ok (s, t', st') →
        ∃ own', Ready st' own' ∧ st'.idx = st.idx := by
      intro vis te t st own s t' st' hr h
      obtain ⟨_, _, own', _, hg, _⟩ := hgoT te vis t st own s t' st' hr h
      exact ⟨own', hg.ready, hg.idx⟩
    refine ⟨?_, ?_⟩
    · intro c se i st own hc hs hk hr hi
      cases c with
      | ref l =>
        obtain ⟨r, rfl, hn⟩ := hs
        obtain ⟨j, hj⟩ := refIdx_total hn (hk l ⟨_, .refl, .inl rfl⟩)
        simp only [compileSE, hj, Res.bind]
        exact ⟨_, _, rfl⟩
      | test ok =>
        obtain ⟨c, rfl, hc⟩ := hs
        simp only [compileSE, hc, Res.of, Res.bind]
        exact ⟨_, _, rfl⟩
      | external =>
        cases (show _ = SE.external from hs)
        exact ⟨_, st, rfl⟩
      | or cs =>
        obtain ⟨es, rfl, hs⟩ := hs
        simp only [Core.or.sizeOf_spec] at hc
        obtain ⟨is, st', h⟩ := operands_total hgo ihS (fun c h => by have := mem_size h; omega) hs
          (fun c h => hk.child h) hr
        simp only [compileSE, h, Res.bind]
        exact ⟨_, _, rfl⟩
      | and cs =>
        obtain ⟨es, rfl, hs⟩ := hs
        simp only [Core.and.sizeOf_spec] at hc
        obtain ⟨is, st', h⟩ := operands_total hgo ihS (fun c h => by have := mem_size h; omega) hs
          (fun c h => hk.child h) hr
        simp only [compileSE, h, Res.bind]
        exact ⟨_, _, rfl⟩
      | not c =>
        obtain ⟨e, rfl, hs⟩ := hs
        simp only [Core.not.sizeOf_spec] at hc
        obtain ⟨r, st', _, h, _⟩ := alloc_total hgo ihS (c := c) (by omega) hs (hk.child rfl) hr
        simp only [compileSE, h, Res.bind]
        exact ⟨_, _, rfl⟩
      | shape cl ex e xs =>
        obtain ⟨cl', ex', te, xs', acts, rfl, rfl, h1, h2, h3, h4⟩ := hs
        simp only [Core.shape.sizeOf_spec] at hc
        have hex : cnvExtra G ex' = .ok (ex.map fun i => ⟨i, true⟩) := cnvExtra_eq_ok.2 ⟨ex, h1, rfl⟩
        obtain ⟨as', has⟩ : ∃ as', mapRes (cnvAct G) acts = .ok as' := mapRes_total fun a ha => by
          obtain ⟨i, hi⟩ := h4 a ha
          exact ⟨(i, a.code), cnvAct_eq_ok.2 ⟨hi, rfl⟩⟩
        have hxs : ∀ st' : St N P, st'.idx = st.idx → ∃ js, mapRes (refIdx st') xs' = .ok js := by
          intro st' hst
          refine mapRes_total fun a ha => ?_
          obtain ⟨l, hl, hn⟩ : ∃ l ∈ xs, a.Names l := by
            clear * - h3 ha
            induction h3 with
            | nil => simp at ha
            | @cons x y _ _ h _ ih =>
              rcases List.mem_cons.1 ha with rfl | ha
              · exact ⟨y, by simp, h⟩
              · obtain ⟨l, h1, h2⟩ := ih ha
                exact ⟨l, by simp [h1], h2⟩
          exact refIdx_total hn (by
            rw [hst]
            exact hk l ⟨_, .refl, .inr ⟨_, _, _, _, rfl, hl⟩⟩)
        cases te with
        | none =>
          obtain ⟨js, hjs⟩ := hxs st rfl
          simp only [compileSE, hex, Res.bind, shapeTable, shapePreds, hjs, has]
          exact ⟨_, _, rfl⟩
        | some te =>
          obtain ⟨s, t', st', h5⟩ := ihT e te [] Table.new st own (by omega) h2
            (fun x hx => hk.child ⟨x.1, x.2.1, hx⟩) hr (fun l hl => by simp at hl)
          obtain ⟨own', _, hidx⟩ := hready _ _ _ _ _ _ _ _ hr h5
          obtain ⟨_, _, _, _, _, _, _, _, _, hp⟩ := hgoT te [] _ _ own _ _ _ hr h5
          obtain ⟨js, hjs⟩ := hxs st' hidx
          simp only [compileSE, hex, Res.bind, shapeTable, h5, shapePreds, hp, hjs, has]
          exact ⟨_, _, rfl⟩
    · intro e te vis t st own he hs hk hr hf
      cases e with
      | nothing => cases (show some te = none from hs)
      | eachOf es c =>
        obtain ⟨_, h0, id, ts, mn, mx, acts, rfl, h1, h2, h3⟩ := hs
        cases h0
        simp only [CTE.eachOf.sizeOf_spec] at he
        obtain ⟨ss, t', st', h4⟩ := parts_total (vis := vis) (go := fun e => compileTE G tes n e vis)
          (hready vis) (fun e te t st own => ihT e te vis t st own)
          (t := t) (fun e h => by have := List.sizeOf_lt_of_mem h; omega) h1
          (by simpa [CTE.constraints] using hk) hr

                     (fun e h => hf.smaller (by have := List.sizeOf_lt_of_mem h; simp only [CTE.eachOf.sizeOf_spec]; omega))
        obtain ⟨as', has⟩ : ∃ as', actConds G acts = .ok as' := by
          have : ∃ fs, List.Forall₂ (Act.Runs G) acts fs := by
            clear * - h3
            induction acts with
            | nil => exact ⟨[], .nil⟩
            | cons a as ih =>
              obtain ⟨f, hf⟩ := h3 a (by simp)
              obtain ⟨fs, hfs⟩ := ih fun a ha => h3 a (by simp [ha])
              exact ⟨f :: fs, .cons hf hfs⟩
          obtain ⟨fs, hfs⟩ := this
          exact ⟨_, actConds_eq_ok.2 ⟨fs, hfs, rfl⟩⟩
        simp only [compileTE, h4, Res.bind, cnvMinMax_eq_ok.2 h2, has]
        exact ⟨_, _, _, rfl⟩
      | oneOf es c =>
        obtain ⟨_, h0, id, ts, mn, mx, acts, rfl, h1, h2⟩ := hs
        cases h0
        simp only [CTE.oneOf.sizeOf_spec] at he
        obtain ⟨ss, t', st', h4⟩ := parts_total (vis := vis) (go := fun e => compileTE G tes n e vis)
          (hready vis) (fun e te t st own => ihT e te vis t st own)
          (t := t) (fun e h => by have := List.sizeOf_lt_of_mem h; omega) h1
          (by simpa [CTE.constraints] using hk) hr

                     (fun e h => hf.smaller (by have := List.sizeOf_lt_of_mem h; simp only [CTE.oneOf.sizeOf_spec]; omega))
        simp only [compileTE, h4, Res.bind, cnvMinMax_eq_ok.2 h2]
        exact ⟨_, _, _, rfl⟩
      | tc p acts v c =>
        obtain ⟨_, h0, id, ng, iv, val, mn, mx, as, rfl, h1, h2, h3, h4⟩ := hs
        cases h0
        simp only [CTE.tc.sizeOf_spec] at he
        obtain ⟨cond, st', h5⟩ := valueCond_total hgo ihS (v := v) (by omega) h4
          (hk (p, acts, v) (by simp [CTE.constraints])) hr
        have h6 := cnvMinMax_eq_ok.2 h3
        simp only [cnvMinMax, Res.bind_eq_ok] at h6
        obtain ⟨a, ha, b, hb, _⟩ := h6
        simp only [compileTE, ha, hb, Res.bind, cnvPredicate_eq_ok.2 ⟨rfl, h1⟩,
          actConds_eq_ok.2 ⟨acts, h2, rfl⟩, h5]
        exact ⟨_, _, _, rfl⟩
      | incl e =>
        obtain ⟨l, t1, h0, h1, h2⟩ := hs
        cases h0
        simp only [CTE.incl.sizeOf_spec] at he
        have hl : l ∉ vis := by
          intro hl
          have := hf l hl t1 h1 e h2
          simp only [CTE.incl.sizeOf_spec] at this
          omega
        have hf' : Fresh G tes (l :: vis) e := by
          intro k hk' t2 ht2 e' he'
          rcases List.mem_cons.1 hk' with rfl | hk'
          · rw [h1] at ht2; cases ht2
            rw [StandsO.unique h2 he']
          · have := hf k hk' t2 ht2 e' he'
            simp only [CTE.incl.sizeOf_spec] at this
            omega
        obtain ⟨s, t', st', h5⟩ := ihT e t1 (l :: vis) t st own (by omega) h2
          (by simpa [CTE.constraints] using hk) hr hf'
        simp only [compileTE, if_neg hl, h1, Res.of, Res.bind, h5]
        exact ⟨_, _, _, rfl⟩

/-! ## Labels of triple expressions -/

/-- Adding the labels `ls` to the map. -/
structure Adds (ls : List (TLabel P)) (m : List (TLabel P × TE P NC))
    (r : Res (List (TLabel P × TE P NC))) : Prop where
  sound : ∀ m', r = .ok m' → m'.map Prod.fst = m.map Prod.fst ++ ls ∧
    ((m.map Prod.fst).Nodup → (m'.map Prod.fst).Nodup)
  total : (m.map Prod.fst ++ ls).Nodup → ∃ m', r = .ok m'

omit [DecidableEq P] in
theorem Adds.nil (m : List (TLabel P × TE P NC)) : Adds [] m (.ok m) :=
  ⟨fun m' h => by cases h; simp, fun _ => ⟨m, rfl⟩⟩

omit [DecidableEq P] in
theorem Adds.bind {ls ls' : List (TLabel P)} {m : List (TLabel P × TE P NC)}
    {r : Res (List (TLabel P × TE P NC))} (h : Adds ls m r)
    {f : List (TLabel P × TE P NC) → Res (List (TLabel P × TE P NC))} (hf : ∀ m', Adds ls' m' (f m')) :
    Adds (ls ++ ls') m (r.bind f) := by
  refine ⟨?_, ?_⟩
  · intro m' h1
    rw [Res.bind_eq_ok] at h1
    obtain ⟨m1, h2, h3⟩ := h1
    obtain ⟨h4, h5⟩ := h.sound m1 h2
    obtain ⟨h6, h7⟩ := (hf m1).sound m' h3
    exact ⟨by rw [h6, h4, List.append_assoc], fun h8 => h7 (h5 h8)⟩
  · intro h1
    rw [← List.append_assoc] at h1
    obtain ⟨m1, h2⟩ := h.total (List.nodup_append.1 h1).1
    obtain ⟨m2, h3⟩ := (hf m1).total (by rw [(h.sound m1 h2).1]; exact h1)
    exact ⟨m2, by rw [h2]; exact h3⟩

theorem registerT_adds (id : Option (TLabel P)) (e : TE P NC) (m : List (TLabel P × TE P NC)) :
    Adds id.toList m (registerT id e m) := by
  cases id with
  | none => exact Adds.nil m
  | some l =>
    refine ⟨?_, ?_⟩
    · intro m' h
      simp only [registerT] at h
      split at h
      · cases h
      · rename_i hn
        cases h
        refine ⟨by simp, fun hd => ?_⟩
        rw [List.map_append, List.nodup_append]
        refine ⟨hd, by simp, ?_⟩
        intro x hx y hy
        simp only [List.map_cons, List.map_nil, List.mem_singleton] at hy
        subst hy
        rintro rfl
        exact hn ((alookup_isSome_iff _ _).2 hx)
    · intro hd
      simp only [Option.toList_some] at hd
      refine ⟨m ++ [(l, e)], ?_⟩
      simp only [registerT]
      rw [if_neg]
      rw [alookup_isSome_iff]
      intro hl
      exact (List.nodup_append.1 hd).2.2 l hl l (by simp) rfl

mutual
theorem collectT_adds : ∀ (e : TE P NC) (m : List (TLabel P × TE P NC)), Adds e.labels m (collectT e m)
  | .eachOf id es mn mx as, m => by
    simp only [TE.labels, collectT]
    exact (registerT_adds id _ m).bind fun m' => collectTs_adds es m'
  | .oneOf id es mn mx as, m => by
    simp only [TE.labels, collectT]
    exact (registerT_adds id _ m).bind fun m' => collectTs_adds es m'
  | .tc id ng iv p v mn mx as, m => by
    simp only [TE.labels, collectT]
    exact registerT_adds id _ m
  | .ref l, m => by
    simp only [TE.labels, collectT]
    exact Adds.nil m
theorem collectTs_adds : ∀ (es : List (TE P NC)) (m : List (TLabel P × TE P NC)),
    Adds (teLabels es) m (collectTs es m)
  | [], m => by
    simp only [teLabels, collectTs]
    exact Adds.nil m
  | e :: es, m => by
    simp only [teLabels, collectTs]
    exact (collectT_adds e m).bind fun m' => collectTs_adds es m'
end

mutual
theorem collectS_adds : ∀ (e : SE P NC) (m : List (TLabel P × TE P NC)), Adds e.labels m (collectS e m)
  | .or es, m => by simp only [SE.labels, collectS]; exact collectSs_adds es m
  | .and es, m => by simp only [SE.labels, collectS]; exact collectSs_adds es m
  | .not e, m => by simp only [SE.labels, collectS]; exact collectS_adds e m
  | .shape cl ex none xs as, m => by simp only [SE.labels, collectS]; exact Adds.nil m
  | .shape cl ex (some te) xs as, m => by simp only [SE.labels, collectS]; exact collectT_adds te m
  | .nc c, m => by simp only [SE.labels, collectS]; exact Adds.nil m
  | .external, m => by simp only [SE.labels, collectS]; exact Adds.nil m
  | .ref l, m => by simp only [SE.labels, collectS]; exact Adds.nil m
theorem collectSs_adds : ∀ (es : List (SE P NC)) (m : List (TLabel P × TE P NC)),
    Adds (seLabels es) m (collectSs es m)
  | [], m => by
    simp only [seLabels, collectSs]
    exact Adds.nil m
  | e :: es, m => by
    simp only [seLabels, collectSs]
    exact (collectS_adds e m).bind fun m' => collectSs_adds es m'
end

theorem collectDecls_adds (ds : List (Decl P NC)) (m : List (TLabel P × TE P NC)) :
    Adds (ds.flatMap fun d => d.expr.labels) m (collectDecls ds m) := by
  induction ds generalizing m with
  | nil => exact Adds.nil m
  | cons d ds ih =>
    simp only [collectDecls, List.flatMap_cons]
    exact (collectS_adds d.expr m).bind ih

theorem collectSource_adds (s : Source P NC) (m : List (TLabel P × TE P NC)) :
    Adds s.labels m (collectSource s m) := by
  unfold Source.labels collectSource
  refine Adds.bind ?_ fun m' => collectDecls_adds s.shapes m'
  cases s.start with
  | none => exact Adds.nil m
  | some e => simpa [collectStart] using collectS_adds e m

theorem collectSources_adds (ss : List (Source P NC)) (m : List (TLabel P × TE P NC)) :
    Adds (ss.flatMap Source.labels) m (collectSources ss m) := by
  induction ss generalizing m with
  | nil => exact Adds.nil m
  | cons s ss ih =>
    simp only [collectSources, List.flatMap_cons]
    exact (collectSource_adds s m).bind ih

/-! ## Labels of shapes -/

theorem addDecls_total {ds : List (Decl P NC)} (h : ∀ d ∈ ds, ∃ l, d.id.Names l) (st : St N P) :
    ∃ st', addDecls ds st = .ok st' := by
  induction ds generalizing st with
  | nil => exact ⟨st, rfl⟩
  | cons d ds ih =>
    obtain ⟨l, hl⟩ := h d (by simp)
    simp only [addDecls, toLabel_eq_ok.2 hl, Res.bind]
    exact ih (fun d hd => h d (by simp [hd])) _

/-! ## Declarations -/

theorem Phase.known_loc {Q : Core N P → Prop} {K : Nat} {st : St N P} {own : Nat → Option (Core N P)}
    {D : Decls N P} (h : Phase Q K st own D) {c : Core N P} {r : ShapeExpr N P}
    (hl : Loc st.idx own c r) : c.Known st.idx := by
  have hpart : ∀ j d, own j = some d → ∃ r, Loc st.idx own d r := by
    intro j d hj
    have hK : K ≤ j := by
      by_contra hc
      rw [h.low j (by omega)] at hj
      cases hj
    have hlt : j < st.counter := by
      by_contra hc
      rw [h.ready.fresh j (by omega)] at hj
      cases hj
    obtain ⟨d', r, ho, _, hl⟩ := h.high j hK hlt
    rw [hj] at ho; cases ho
    exact ⟨r, hl⟩
  have key : ∀ m, ∀ c r, sizeOf c < m → Loc st.idx own c r → c.Known st.idx := by
    intro m
    induction m with
    | zero => intro c r hc; omega
    | succ m ih =>
      intro c r hc hl
      -- direct parts
      have hchild : ∀ d, Child d c → d.Known st.idx := by
        intro d hd
        have hsz := hd.size
        have howned : (∃ j, own j = some d) → d.Known st.idx := by
          rintro ⟨j, hj⟩
          obtain ⟨r', hr'⟩ := hpart j d hj
          exact ih d r' (by omega) hr'
        cases c with
        | ref l => exact hd.elim
        | or cs =>
          obtain ⟨is, _, hj⟩ := hl
          apply howned
          have hd' : d ∈ cs := hd
          clear * - hj hd'
          induction hj with
          | nil => simp at hd'
          | @cons a b _ _ h _ ih =>
            rcases List.mem_cons.1 hd' with rfl | hd'
            · exact ⟨b, h⟩
            · exact ih hd'
        | and cs =>
          obtain ⟨is, _, hj⟩ := hl
          apply howned
          have hd' : d ∈ cs := hd
          clear * - hj hd'
          induction hj with
          | nil => simp at hd'
          | @cons a b _ _ h _ ih =>
            rcases List.mem_cons.1 hd' with rfl | hd'
            · exact ⟨b, h⟩
            · exact ih hd'
        | not c =>
          obtain ⟨j, _, hj⟩ := hl
          cases (show d = c from hd)
          exact howned ⟨j, hj⟩
        | shape cl ex e xs =>
          obtain ⟨s, _, hs⟩ := hl
          obtain ⟨p, acts, hmem⟩ := hd
          obtain ⟨k, hk⟩ := List.mem_iff_getElem?.1 hmem
          rcases hs.component k with ⟨h1, _⟩ | ⟨x, cond, h1, _, _, c0, hv, _⟩
          · rw [hk] at h1; cases h1
          · rw [hk] at h1; cases h1
            dsimp only at hv
            cases d with
            | ref l =>
              obtain ⟨j, hj, _⟩ := hv
              rintro l' ⟨x, hx, hx'⟩
              have hxd : x = .ref l := by
                rcases Relation.ReflTransGen.cases_tail hx with h | ⟨y, _, h⟩
                · exact h.symm
                · exact h.elim
              subst hxd
              rcases hx' with hx' | ⟨_, _, _, _, hx', _⟩
              · cases hx'; rw [hj]; rfl
              · cases hx'
            | test ok =>
              rintro l' ⟨x, hx, hx'⟩
              have hxd : x = .test ok := by
                rcases Relation.ReflTransGen.cases_tail hx with h | ⟨y, _, h⟩
                · exact h.symm
                · exact h.elim
              subst hxd
              rcases hx' with hx' | ⟨_, _, _, _, hx', _⟩ <;> cases hx'
            | or cs => obtain ⟨j, _, hj⟩ := hv; exact howned ⟨j, hj⟩
            | and cs => obtain ⟨j, _, hj⟩ := hv; exact howned ⟨j, hj⟩
            | not cs => obtain ⟨j, _, hj⟩ := hv; exact howned ⟨j, hj⟩
            | shape _ _ _ _ => obtain ⟨j, _, hj⟩ := hv; exact howned ⟨j, hj⟩
            | external => obtain ⟨j, _, hj⟩ := hv; exact howned ⟨j, hj⟩
        | test ok => exact hd.elim
        | external => exact hd.elim
      rintro l ⟨d, h1, h2⟩
      rcases Relation.ReflTransGen.cases_tail h1 with h3 | ⟨y, h3, h4⟩
      · subst h3
        rcases h2 with rfl | ⟨cl, ex, e, xs, rfl, hx⟩
        · obtain ⟨j, hj, _⟩ := hl
          rw [hj]; rfl
        · obtain ⟨s, _, hs⟩ := hl
          have := hs.exts
          revert this
          generalize s.extends = js
          intro this
          clear * - this hx
          induction this with
          | nil => simp at hx
          | cons h _ ih =>
            rcases List.mem_cons.1 hx with rfl | hx
            · rw [h]; rfl
            · exact ih hx
      · exact hchild y h4 l ⟨d, h3, h2⟩
  exact key _ c r (Nat.lt_succ_self _) hl

theorem compileDecls_resolved {G : Ctxt N P NC} {tes : TLabel P → Option (TE P NC)} {n K : Nat}
    {Q : Core N P → Prop} (ds : List (Decl P NC)) {st st' : St N P} {own : Nat → Option (Core N P)}
    {D : Decls N P} (h : Phase Q K st own D) (hc : compileDecls G tes n ds st = .ok st') :
    (∀ d ∈ ds, ∃ c, Stands G tes c d.expr ∧ c.Known st.idx) ∧
      ∃ Q' own' D', Phase Q' K st' own' D' ∧ st'.idx = st.idx := by
  induction ds generalizing Q st own D with
  | nil =>
    simp only [compileDecls, Res.ok.injEq] at hc
    subst hc
    exact ⟨by simp, Q, own, D, h, rfl⟩
  | cons d ds ih =>
    simp only [compileDecls, Res.bind_eq_ok, refIdx_eq_ok] at hc
    obtain ⟨i, ⟨l, hl, hi⟩, ⟨r, st1⟩, h1, h2⟩ := hc
    obtain ⟨c, own1, hs, hp, e1, e2, e3⟩ := h.step hi h1
    have hidx : (st1.replace i r).idx = st.idx := by funext l; simp only [St.idx, e1]
    obtain ⟨h3, Q', own', D', h4, h5⟩ := ih hp h2
    refine ⟨?_, Q', own', D', h4, h5.trans hidx⟩
    intro d' hd'
    rcases List.mem_cons.1 hd' with rfl | hd'
    · obtain ⟨r', _, hloc⟩ := hp.done l i c (by rw [hidx]; exact hi) (by simp)
      refine ⟨c, hs, ?_⟩
      have := hp.known_loc hloc
      rw [hidx] at this
      exact this
    · rw [hidx] at h3
      exact h3 d' hd'

theorem compileDecls_total {G : Ctxt N P NC} {tes : TLabel P → Option (TE P NC)} {n K : Nat}
    {Q : Core N P → Prop} (ds : List (Decl P NC)) {st : St N P} {own : Nat → Option (Core N P)}
    {D : Decls N P} (h : Phase Q K st own D)
    (hd : ∀ d ∈ ds, (∃ l, d.id.Names l ∧ (st.idx l).isSome = true) ∧
      ∃ c, Stands G tes c d.expr ∧ c.Known st.idx ∧ sizeOf c ≤ n) :
    ∃ st', compileDecls G tes n ds st = .ok st' := by
  induction ds generalizing Q st own D with
  | nil => exact ⟨st, rfl⟩
  | cons d ds ih =>
    obtain ⟨⟨l, hl, hk⟩, c, hs, hkn, hsz⟩ := hd d (by simp)
    obtain ⟨i, hi⟩ := Option.isSome_iff_exists.1 hk
    have hiK := (h.idx l i hi).1
    obtain ⟨r, st1, h1⟩ := (compile_total G tes n).1 c d.expr i st own hsz hs hkn h.ready
      (lt_of_lt_of_le hiK h.le)
    obtain ⟨_, own1, _, hp, e1, _, _⟩ := h.step hi h1
    have hidx : (st1.replace i r).idx = st.idx := by funext l; simp only [St.idx, e1]
    obtain ⟨st2, h2⟩ := ih hp (fun d' hd' => by rw [hidx]; exact hd d' (by simp [hd']))
    exact ⟨st2, by simp only [compileDecls, refIdx_eq_ok.2 ⟨l, hl, hi⟩, Res.bind, h1, h2]⟩

theorem compileSources_eq {G : Ctxt N P NC} {tes : TLabel P → Option (TE P NC)} {n : Nat}
    (ss : List (Source P NC)) (st : St N P) :
    compileSources G tes n ss st = compileDecls G tes n (ss.flatMap Source.shapes) st := by
  have happ : ∀ (ds ds' : List (Decl P NC)) (st : St N P), compileDecls G tes n (ds ++ ds') st =
      (compileDecls G tes n ds st).bind (compileDecls G tes n ds') := by
    intro ds
    induction ds with
    | nil => intro ds' st; rfl
    | cons d ds ih =>
      intro ds' st
      simp only [List.cons_append, compileDecls]
      cases refIdx st d.id with
      | ok i =>
        simp only [Res.bind]
        cases compileSE G tes n d.expr i st with
        | ok r => simp only [ih]; rfl
        | err => rfl
        | more => rfl
      | err => rfl
      | more => rfl
  induction ss generalizing st with
  | nil => rfl
  | cons s ss ih =>
    simp only [compileSources, List.flatMap_cons, happ]
    congr 1
    funext st
    exact ih st

/-! ## Imports -/

theorem importLoop_resolve {W : World N P NC} {src : P}
    {go : Source P NC → P → Option P → Acc N P NC → Res (Acc N P NC)}
    (hgo : ∀ s i a a', go s i (some i) a = .ok a' → ImportsResolve W s (some i) ∧
      ((∀ x ∈ a.asts, ImportsResolve W x.1 (some x.2)) → ∀ x ∈ a'.asts, ImportsResolve W x.1 (some x.2)))
    (is : List P) {a a' : Acc N P NC} (h : ∀ x ∈ a.asts, ImportsResolve W x.1 (some x.2))
    (hl : importLoop W src go is a = .ok a') : ∀ x ∈ a'.asts, ImportsResolve W x.1 (some x.2) := by
  induction is generalizing a with
  | nil =>
    simp only [importLoop, Res.ok.injEq] at hl
    subst hl; exact h
  | cons i is ih =>
    simp only [importLoop] at hl
    split at hl
    · exact ih h hl
    · simp only [Res.bind_eq_ok, Res.of_eq_ok] at hl
      obtain ⟨s, _, b, hb, st, _, hl⟩ := hl
      obtain ⟨h1, h2⟩ := hgo _ _ _ _ hb
      refine ih ?_ hl
      intro x hx
      rcases List.mem_append.1 hx with hx | hx
      · exact h2 h x hx
      · rw [List.mem_singleton.1 hx]; exact h1

theorem collectImports_resolve {W : World N P NC} (n : Nat) {s : Source P NC} {src : P}
    {base : Option P} {a a' : Acc N P NC} (hl : collectImports W n s src base a = .ok a') :
    ImportsResolve W s base ∧ ((∀ x ∈ a.asts, ImportsResolve W x.1 (some x.2)) →
      ∀ x ∈ a'.asts, ImportsResolve W x.1 (some x.2)) := by
  induction n generalizing s src base a a' with
  | zero => simp [collectImports] at hl
  | succ n ih =>
    simp only [collectImports, Res.bind_eq_ok, mapRes_eq_ok, Res.of_eq_ok] at hl
    obtain ⟨is, h1, hl⟩ := hl
    refine ⟨?_, fun h => importLoop_resolve (fun s i a a' h => ih h) is h hl⟩
    unfold ImportsResolve
    generalize s.imports = ts at h1
    intro t ht
    clear * - h1 ht
    induction h1 with
    | nil => simp at ht
    | @cons a b _ _ h _ ih =>
      rcases List.mem_cons.1 ht with rfl | ht
      · exact ⟨b, h⟩
      · exact ih ht

/-- The IRIs of the list are retrieved, and import IRIs of the list. -/
def ClosedList (W : World N P NC) (src : P) (L : List P) : Prop :=
  ∀ i ∈ L, ∀ f, f = src ∨ f ∈ L → ∃ s, W.fetch i f = some s ∧
    (∀ d ∈ (W.rewrite s).shapes, ∃ l, d.id.Names l) ∧
    ∀ t ∈ (W.rewrite s).imports, ∃ j ∈ L, W.resolve (some i) t = some j

/-- The IRIs of the list not visited yet. -/
def remaining (L visited : List P) : List P := L.filter fun i => decide (i ∉ visited)

theorem remaining_mono (L : List P) {v v' : List P} (h : ∀ i ∈ v, i ∈ v') :
    (remaining L v').length ≤ (remaining L v).length := by
  unfold remaining
  rw [← List.countP_eq_length_filter, ← List.countP_eq_length_filter]
  apply List.countP_mono_left
  intro i _ hi
  simp only [decide_eq_true_eq] at *
  exact fun hv => hi (h i hv)

theorem remaining_lt {L : List P} {i : P} (hi : i ∈ L) {v : List P} (hv : i ∉ v) :
    (remaining L (v ++ [i])).length < (remaining L v).length := by
  unfold remaining
  induction L with
  | nil => simp at hi
  | cons x L ih =>
    rcases List.mem_cons.1 hi with rfl | hi'
    · have h1 := remaining_mono L (v := v) (v' := v ++ [i]) (fun j hj => by simp [hj])
      unfold remaining at h1
      rw [List.filter_cons_of_neg (by simp), List.filter_cons_of_pos (by simpa using hv)]
      simp only [List.length_cons]
      omega
    · have h1 := ih hi'
      by_cases hx : x ∈ v
      · rw [List.filter_cons_of_neg (by simp [hx]), List.filter_cons_of_neg (by simp [hx])]
        exact h1
      · by_cases hxi : x = i
        · subst hxi
          rw [List.filter_cons_of_neg (by simp), List.filter_cons_of_pos (by simpa using hx)]
          simp only [List.length_cons]
          omega
        · rw [List.filter_cons_of_pos (by simp [hx, hxi]), List.filter_cons_of_pos (by simpa using hx)]
          simp only [List.length_cons]
          omega

theorem importLoop_visited {W : World N P NC} {src : P}
    {go : Source P NC → P → Option P → Acc N P NC → Res (Acc N P NC)}
    (hgo : ∀ s i a a', go s i (some i) a = .ok a' → ∀ j ∈ a.visited, j ∈ a'.visited)
    (is : List P) {a a' : Acc N P NC} (hl : importLoop W src go is a = .ok a') :
    ∀ j ∈ a.visited, j ∈ a'.visited := by
  induction is generalizing a with
  | nil =>
    simp only [importLoop, Res.ok.injEq] at hl
    subst hl; exact fun _ h => h
  | cons i is ih =>
    simp only [importLoop] at hl
    split at hl
    · exact ih hl
    · simp only [Res.bind_eq_ok, Res.of_eq_ok] at hl
      obtain ⟨s, _, b, hb, st, _, hl⟩ := hl
      intro j hj
      exact ih hl j (hgo _ _ _ _ hb j (by simp [hj]))

theorem collectImports_visited {W : World N P NC} (n : Nat) {s : Source P NC} {src : P}
    {base : Option P} {a a' : Acc N P NC} (hl : collectImports W n s src base a = .ok a') :
    ∀ j ∈ a.visited, j ∈ a'.visited := by
  induction n generalizing s src base a a' with
  | zero => simp [collectImports] at hl
  | succ n ih =>
    simp only [collectImports, Res.bind_eq_ok] at hl
    obtain ⟨is, _, hl⟩ := hl
    exact importLoop_visited (fun s i a a' h => ih h) is hl

theorem collectImports_total {W : World N P NC} {src : P} {L : List P} (hL : ClosedList W src L)
    (n : Nat) : ∀ (s : Source P NC) (f : P) (base : Option P) (a : Acc N P NC), (f = src ∨ f ∈ L) →
      (∀ t ∈ s.imports, ∃ j ∈ L, W.resolve base t = some j) → (remaining L a.visited).length < n →
      ∃ a', collectImports W n s f base a = .ok a' := by
  induction n with
  | zero => intro s f base a _ _ h; omega
  | succ n ih =>
    intro s f base a hf himp hn
    obtain ⟨is, his, hisL⟩ : ∃ is, mapRes (fun i => Res.of (W.resolve base i)) s.imports = .ok is ∧
        ∀ i ∈ is, i ∈ L := by
      clear * - himp
      generalize s.imports = ts at himp
      induction ts with
      | nil => exact ⟨[], rfl, by simp⟩
      | cons t ts ih =>
        obtain ⟨j, hj, hr⟩ := himp t (by simp)
        obtain ⟨is, h1, h2⟩ := ih fun t ht => himp t (by simp [ht])
        refine ⟨j :: is, by simp only [mapRes, h1, hr]; rfl, ?_⟩
        intro i hi
        rcases List.mem_cons.1 hi with rfl | hi
        · exact hj
        · exact h2 i hi
    simp only [collectImports, his, Res.bind]
    clear his himp
    induction is generalizing a with
    | nil => exact ⟨a, rfl⟩
    | cons i is ihl =>
      simp only [importLoop]
      split
      · exact ihl a hn fun j hj => hisL j (by simp [hj])
      · rename_i hv
        have hiL := hisL i (by simp)
        obtain ⟨s', hs', hlab, himp'⟩ := hL i hiL f hf
        have hlt := remaining_lt hiL hv
        obtain ⟨b, hb⟩ := ih (W.rewrite s') i (some i) { a with visited := a.visited ++ [i] } (.inr hiL)
          himp' (by simp only; omega)
        obtain ⟨st, hst⟩ := addDecls_total hlab b.st
        have hvis := collectImports_visited n hb
        simp only [hs', Res.of, Res.bind, hb, hst]
        refine ihl _ ?_ fun j hj => hisL j (by simp [hj])
        have := remaining_mono L (v := a.visited) (v' := b.visited) (fun j hj => hvis j (by simp [hj]))
        simp only
        omega

omit [DecidableEq P] in
/-- When retrieval does not depend on the importing schema, the imported schemas are determined. -/
theorem Imported.mem {W : World N P NC} (hf : ∀ i f f', W.fetch i f = W.fetch i f')
    {root : Source P NC} {src : P} {base : Option P} {l l' : List (Source P NC × P)}
    (h : Imported W root src base l) (h' : Imported W root src base l') {x : Source P NC × P}
    (hx : x ∈ l) : x ∈ l' := by
  have hsame : ∀ x ∈ l, ∀ y ∈ l', x.2 = y.2 → x = y := by
    intro x hx y hy hxy
    obtain ⟨f, s, _, h1, h2⟩ := h.fetched x hx
    obtain ⟨f', s', _, h3, h4⟩ := h'.fetched y hy
    rw [← hxy, hf _ f' f, h1] at h3
    cases h3
    exact Prod.ext (h2.trans h4.symm) hxy
  have hreach : ∀ i, Reaches W root base l i → Reaches W root base l' i := by
    intro i hr
    induction hr with
    | first h1 => exact .first h1
    | @next x j h1 _ h3 ih =>
      obtain ⟨y, hy, hyx⟩ := List.mem_map.1 ((h'.reached x.2).2 ih)
      rw [hsame x h1 y hy hyx.symm] at h3
      exact .next hy ((h'.reached y.2).1 (List.mem_map.2 ⟨y, hy, rfl⟩)) h3
  obtain ⟨y, hy, hyx⟩ := List.mem_map.1 ((h'.reached x.2).2
    (hreach x.2 ((h.reached x.2).1 (List.mem_map.2 ⟨x, hx, rfl⟩))))
  rw [hsame x hx y hy hyx.symm]
  exact hy

omit [DecidableEq P] in
theorem Imported.perm {W : World N P NC} (hf : ∀ i f f', W.fetch i f = W.fetch i f')
    {root : Source P NC} {src : P} {base : Option P} {l l' : List (Source P NC × P)}
    (h : Imported W root src base l) (h' : Imported W root src base l') : l.Perm l' :=
  (List.perm_ext_iff_of_nodup (List.Nodup.of_map _ h.once) (List.Nodup.of_map _ h'.once)).2
    fun _ => ⟨h.mem hf h', h'.mem hf h⟩

end

end Comp
