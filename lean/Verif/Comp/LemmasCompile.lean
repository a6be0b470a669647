import Verif.Comp.LemmasState
import Mathlib.Logic.Relation

/-!
# Helper lemmas: what a successful compilation leaves behind
-/

namespace Comp
open Shex Rbe

variable {N P NC : Type} [DecidableEq P]

/-- The expression or one of its parts. -/
def Within (c d : Core N P) : Prop := Relation.ReflTransGen Child d c

/-- A part of the expression. -/
def Inside (c d : Core N P) : Prop := ∃ c', Child c' c ∧ Within c' d

/-- A part of the constraints. -/
def Beneath (cs : List (Pred P × List (Ctx N P → Bool) × Core N P)) (d : Core N P) : Prop :=
  ∃ x ∈ cs, Within x.2.2 d

omit [DecidableEq P] in
theorem Inside.within {c d : Core N P} (h : Inside c d) : Within c d := by
  obtain ⟨c', h1, h2⟩ := h
  exact h2.tail h1

omit [DecidableEq P] in
theorem Within.refl (c : Core N P) : Within c c := Relation.ReflTransGen.refl

/-- After compiling a shape expression for index `i`. -/
def PostSE (G : Ctxt N P NC) (tes : TLabel P → Option (TE P NC)) (se : SE P NC) (i : Nat)
    (st : St N P) (own : Nat → Option (Core N P)) (r : ShapeExpr N P) (st' : St N P) : Prop :=
  ∃ c own', Stands G tes c se ∧ Grow (Inside c) (fun j => j = i) st st' own own' ∧ Loc st.idx own' c r

/-- `go` compiles shape expressions. -/
def GoSE (G : Ctxt N P NC) (tes : TLabel P → Option (TE P NC))
    (go : SE P NC → Nat → St N P → Res (ShapeExpr N P × St N P)) : Prop :=
  ∀ se i st own r st', Ready st own → i < st.counter → go se i st = .ok (r, st') →
    PostSE G tes se i st own r st'

/-- After compiling a triple expression. -/
def PostTE (G : Ctxt N P NC) (tes : TLabel P → Option (TE P NC)) (te : TE P NC) (t : TExpr N P)
    (st : St N P) (own : Nat → Option (Core N P)) (s : Struct Nat) (t' : TExpr N P) (st' : St N P)
    (preds : Res (List (Pred P))) : Prop :=
  ∃ e conds own', StandsO G tes e (some te) ∧ Grow (Beneath e.constraints) (fun _ => False) st st' own own' ∧
    List.Forall₂ (CondRep st.idx own') e.constraints conds ∧
    t' = addAll t ((e.constraints.map Prod.fst).zip conds) ∧ Built s ∧ s.rbe = e.rbe t.counter ∧
    preds = .ok (e.constraints.map Prod.fst)

omit [DecidableEq P] in
theorem nodup_false {X : Nat → Prop} {n : Nat} (i : Nat) (h : (fun _ : Nat => False) i) : i < n :=
  h.elim

theorem alloc_step {G : Ctxt N P NC} {tes : TLabel P → Option (TE P NC)}
    {go : SE P NC → Nat → St N P → Res (ShapeExpr N P × St N P)} (hgo : GoSE G tes go)
    {X : Nat → Prop} {e : SE P NC} {st : St N P} {own : Nat → Option (Core N P)}
    {r : ShapeExpr N P} {st' : St N P} (hr : Ready st own)
    (h : go e st.newIndex.1 st.newIndex.2 = .ok (r, st')) :
    ∃ c own', Stands G tes c e ∧ Grow (Within c) X st (st'.replace st.newIndex.1 r) own own' ∧
      own' st.newIndex.1 = some c := by
  obtain ⟨c, own', hs, hg, hl⟩ := hgo e _ _ own r st' hr.newIndex (by simp [St.newIndex]) h
  exact ⟨c, _, hs, Grow.alloc hr (hg.weaken (fun _ => Inside.within) fun _ h => h) hl (.refl c),
    by simp [St.newIndex]⟩

theorem operands_post {G : Ctxt N P NC} {tes : TLabel P → Option (TE P NC)}
    {go : SE P NC → Nat → St N P → Res (ShapeExpr N P × St N P)} (hgo : GoSE G tes go)
    (es : List (SE P NC)) {st : St N P} {own : Nat → Option (Core N P)} {is : List Nat}
    {st' : St N P} (hr : Ready st own) (h : operands go es st = .ok (is, st')) :
    ∃ cs own', StandsAll G tes cs es ∧ Grow (fun d => ∃ c ∈ cs, Within c d) (fun _ => False) st st' own own' ∧
      List.Forall₂ (fun c j => own' j = some c) cs is := by
  induction es generalizing st own is st' with
  | nil =>
    simp only [operands, Res.ok.injEq, Prod.mk.injEq] at h
    obtain ⟨rfl, rfl⟩ := h
    exact ⟨[], own, rfl, Grow.refl hr, .nil⟩
  | cons e es ih =>
    simp only [operands, Res.bind_eq_ok] at h
    obtain ⟨⟨r, st1⟩, h1, ⟨is', st2⟩, h2, h3⟩ := h
    simp only [Res.ok.injEq, Prod.mk.injEq] at h3
    obtain ⟨rfl, rfl⟩ := h3
    obtain ⟨c, own1, hs, hg, ho⟩ := alloc_step (X := fun _ => False) hgo hr h1
    obtain ⟨cs, own2, hss, hg2, hos⟩ := ih hg.ready h2
    refine ⟨c :: cs, own2, ⟨e, es, rfl, hs, hss⟩, (hg.weaken (fun d hd => ?_) fun _ h => h).trans
      (fun i h => h.elim) (hg2.weaken (fun d hd => ?_) fun _ h => h),
      .cons (hg2.own_le hg.ready _ _ ho) hos⟩
    · exact ⟨c, List.mem_cons_self, hd⟩
    · obtain ⟨c', h4, h5⟩ := hd
      exact ⟨c', List.mem_cons_of_mem _ h4, h5⟩

theorem refIdx_eq_ok {st : St N P} {l : Label P} {j : Nat} :
    refIdx st l = .ok j ↔ ∃ s, l.Names s ∧ st.idx s = some j := by
  simp only [refIdx, Res.bind_eq_ok, toLabel_eq_ok, Res.of_eq_ok]

theorem valueCond_post {G : Ctxt N P NC} {tes : TLabel P → Option (TE P NC)}
    {go : SE P NC → Nat → St N P → Res (ShapeExpr N P × St N P)} (hgo : GoSE G tes go)
    {val : Option (SE P NC)} {st : St N P} {own : Nat → Option (Core N P)} {cond : VCond N P}
    {st' : St N P} (hr : Ready st own) (h : valueCond G go val st = .ok (cond, st')) :
    ∃ v own', ((val = none ∧ v = .test fun _ => true) ∨ ∃ se, val = some se ∧ Stands G tes v se) ∧
      Grow (Within v) (fun _ => False) st st' own own' ∧ ValRep st.idx own' v cond := by
  cases val with
  | none =>
    simp only [valueCond, Res.ok.injEq, Prod.mk.injEq] at h
    obtain ⟨rfl, rfl⟩ := h
    exact ⟨_, own, .inl ⟨rfl, rfl⟩, Grow.refl hr, rfl⟩
  | some se =>
    cases se with
    | ref l =>
      simp only [valueCond, Res.bind_eq_ok, refIdx_eq_ok, Res.ok.injEq, Prod.mk.injEq] at h
      obtain ⟨j, ⟨s, hn, hj⟩, rfl, rfl⟩ := h
      exact ⟨.ref s, own, .inr ⟨_, rfl, l, rfl, hn⟩, Grow.refl hr, j, hj, rfl⟩
    | nc c =>
      simp only [valueCond, Res.bind_eq_ok, Res.of_eq_ok, Res.ok.injEq, Prod.mk.injEq] at h
      obtain ⟨f, hf, rfl, rfl⟩ := h
      exact ⟨.test f, own, .inr ⟨_, rfl, c, rfl, hf⟩, Grow.refl hr, rfl⟩
    | shape cl ex te xs as =>
      simp only [valueCond, Res.bind_eq_ok] at h
      obtain ⟨⟨r, st1⟩, h1, h2⟩ := h
      simp only [Res.ok.injEq, Prod.mk.injEq] at h2
      obtain ⟨rfl, rfl⟩ := h2
      obtain ⟨c, own1, hs, hg, ho⟩ := alloc_step (X := fun _ => False) hgo hr h1
      refine ⟨c, own1, .inr ⟨_, rfl, hs⟩, hg, ?_⟩
      cases c with
      | shape cl ex e xs => exact ⟨_, rfl, ho⟩
      | ref l => obtain ⟨_, h, _⟩ := hs; cases h
      | or cs => obtain ⟨_, h, _⟩ := hs; cases h
      | and cs => obtain ⟨_, h, _⟩ := hs; cases h
      | not c => obtain ⟨_, h, _⟩ := hs; cases h
      | test ok => obtain ⟨_, h, _⟩ := hs; cases h
      | external => cases hs
    | and es =>
      simp only [valueCond, Res.bind_eq_ok, store] at h
      obtain ⟨⟨is, st1⟩, h1, h2⟩ := h
      simp only [Res.ok.injEq, Prod.mk.injEq] at h2
      obtain ⟨rfl, rfl⟩ := h2
      obtain ⟨cs, own1, hs, hg, ho⟩ := operands_post hgo es hr h1
      refine ⟨.and cs, _, .inr ⟨_, rfl, es, rfl, hs⟩,
        (hg.weaken (fun d hd => ?_) fun _ h => h).trans (fun i h => h.elim)
        (Grow.store (c := .and cs) hg.ready ⟨is, rfl, ho⟩ (.refl _)), _, rfl, by simp [St.newIndex]⟩
      obtain ⟨c, h3, h4⟩ := hd
      exact h4.tail h3
    | or es =>
      simp only [valueCond, Res.bind_eq_ok, store] at h
      obtain ⟨⟨is, st1⟩, h1, h2⟩ := h
      simp only [Res.ok.injEq, Prod.mk.injEq] at h2
      obtain ⟨rfl, rfl⟩ := h2
      obtain ⟨cs, own1, hs, hg, ho⟩ := operands_post hgo es hr h1
      refine ⟨.or cs, _, .inr ⟨_, rfl, es, rfl, hs⟩,
        (hg.weaken (fun d hd => ?_) fun _ h => h).trans (fun i h => h.elim)
        (Grow.store (c := .or cs) hg.ready ⟨is, rfl, ho⟩ (.refl _)), _, rfl, by simp [St.newIndex]⟩
      obtain ⟨c, h3, h4⟩ := hd
      exact h4.tail h3
    | not e =>
      simp only [valueCond, Res.bind_eq_ok, store] at h
      obtain ⟨⟨r, st1⟩, h1, h2⟩ := h
      simp only [Res.ok.injEq, Prod.mk.injEq] at h2
      obtain ⟨rfl, rfl⟩ := h2
      obtain ⟨c, own1, hs, hg, ho⟩ := alloc_step (X := fun _ => False) hgo hr h1
      refine ⟨.not c, _, .inr ⟨_, rfl, e, rfl, hs⟩,
        (hg.weaken (fun d hd => ?_) fun _ h => h).trans (fun i h => h.elim)
        (Grow.store (c := .not c) hg.ready ⟨_, rfl, ho⟩ (.refl _)), _, rfl, by simp [St.newIndex]⟩
      exact Relation.ReflTransGen.tail hd rfl
    | external =>
      simp only [valueCond, store, Res.ok.injEq, Prod.mk.injEq] at h
      obtain ⟨rfl, rfl⟩ := h
      exact ⟨.external, _, .inr ⟨_, rfl, rfl⟩, Grow.store (c := .external) hr rfl (.refl _), _, rfl,
        by simp [St.newIndex]⟩

/-! ## Tables -/

theorem addAll_append (t : TExpr N P) (l l' : List (Pred P × VCond N P)) :
    addAll t (l ++ l') = addAll (addAll t l) l' := by
  simp [addAll]

theorem addAll_counter (t : TExpr N P) (l : List (Pred P × VCond N P)) :
    (addAll t l).counter = t.counter + l.length := by
  induction l generalizing t with
  | nil => rfl
  | cons x l ih =>
    show (addAll (t.addComponent x.1 x.2) l).counter = _
    rw [ih]
    simp only [Table.addComponent, List.length_cons]
    omega

omit [DecidableEq P] in
theorem zip_append_of {A B : Type} {a a' : List A} {b b' : List B} (h : a.length = b.length) :
    (a ++ a').zip (b ++ b') = a.zip b ++ a'.zip b' := List.zip_append h

omit [DecidableEq P] in
theorem mkCardGroup_rbe (s : Struct Nat) (c : Card) : (mkCardGroup s c).rbe = groupE s.rbe c := by
  unfold mkCardGroup groupE
  split
  · rfl
  · split
    · rfl
    · split <;> rfl

omit [DecidableEq P] in
theorem mkCardGroup_built {s : Struct Nat} (h : Built s) (c : Card) : Built (mkCardGroup s c) := by
  unfold mkCardGroup
  split
  · exact h
  · split
    · exact .star s h
    · split
      · exact .plus s h
      · exact .repeat s _ _ h

/-- What is known after the parts of a group. -/
def PostTs (G : Ctxt N P NC) (tes : TLabel P → Option (TE P NC)) (ts : List (TE P NC))
    (t : TExpr N P) (st : St N P) (own : Nat → Option (Core N P)) (ss : List (Struct Nat))
    (t' : TExpr N P) (st' : St N P) (preds : Res (List (Pred P))) : Prop :=
  ∃ es conds own', StandsTs G tes es ts ∧ Grow (Beneath (constraintsAll es)) (fun _ => False) st st' own own' ∧
    List.Forall₂ (CondRep st.idx own') (constraintsAll es) conds ∧
    t' = addAll t (((constraintsAll es).map Prod.fst).zip conds) ∧ (∀ s ∈ ss, Built s) ∧
    ss.map Struct.rbe = rbes es t.counter ∧
    preds = .ok ((constraintsAll es).map Prod.fst)

theorem parts_post {G : Ctxt N P NC} {tes : TLabel P → Option (TE P NC)}
    {go : TE P NC → TExpr N P → St N P → Res (Struct Nat × TExpr N P × St N P)}
    {gp : TE P NC → Res (List (Pred P))}
    (hgo : ∀ te t st own s t' st', Ready st own → go te t st = .ok (s, t', st') →
      PostTE G tes te t st own s t' st' (gp te))
    (ts : List (TE P NC)) {t : TExpr N P} {st : St N P} {own : Nat → Option (Core N P)}
    {ss : List (Struct Nat)} {t' : TExpr N P} {st' : St N P} (hr : Ready st own)
    (h : parts go ts t st = .ok (ss, t', st')) :
    PostTs G tes ts t st own ss t' st' (predsOver gp ts) := by
  induction ts generalizing t st own ss t' st' with
  | nil =>
    simp only [parts, Res.ok.injEq, Prod.mk.injEq] at h
    obtain ⟨rfl, rfl, rfl⟩ := h
    exact ⟨[], [], own, rfl, Grow.refl hr, .nil, rfl, by simp, rfl, rfl⟩
  | cons te ts ih =>
    simp only [parts, Res.bind_eq_ok] at h
    obtain ⟨⟨s, t1, st1⟩, h1, ⟨ss', t2, st2⟩, h2, h3⟩ := h
    simp only [Res.ok.injEq, Prod.mk.injEq] at h3
    obtain ⟨rfl, rfl, rfl⟩ := h3
    obtain ⟨e, conds1, own1, hs1, hg1, hc1, ht1, hb1, hrb1, hp1⟩ := hgo te t st own s t1 st1 hr h1
    obtain ⟨es, conds2, own2, hs2, hg2, hc2, ht2, hb2, hrb2, hp2⟩ := ih hg1.ready h2
    have hlen : e.constraints.length = conds1.length := hc1.length_eq
    refine ⟨e :: es, conds1 ++ conds2, own2, ⟨te, ts, rfl, hs1, hs2⟩,
      (hg1.weaken (fun d hd => ?_) fun _ h => h).trans (fun i h => h.elim)
        (hg2.weaken (fun d hd => ?_) fun _ h => h), ?_, ?_, ?_, ?_, ?_⟩
    · obtain ⟨x, h4, h5⟩ := hd
      exact ⟨x, by simp only [constraintsAll]; exact List.mem_append_left _ h4, h5⟩
    · obtain ⟨x, h4, h5⟩ := hd
      exact ⟨x, by simp only [constraintsAll]; exact List.mem_append_right _ h4, h5⟩
    · simp only [constraintsAll]
      refine List.rel_append (hc1.imp fun _ _ => .mono (hg2.own_le hg1.ready)) ?_
      rw [← hg1.idx]; exact hc2
    · simp only [constraintsAll, List.map_append]
      rw [List.zip_append (by simpa using hlen), addAll_append, ← ht1]
      exact ht2
    · intro x hx
      rcases List.mem_cons.1 hx with rfl | hx
      · exact hb1
      · exact hb2 x hx
    · simp only [List.map_cons, rbes, hrb1, hrb2, ht1, addAll_counter, List.length_zip, List.length_map]
      rw [← hlen, Nat.min_self]
    · simp only [predsOver, hp1, hp2, Res.bind, constraintsAll, List.map_append]

/-! ## The compiler -/

theorem compile_post (G : Ctxt N P NC) (tes : TLabel P → Option (TE P NC)) (n : Nat) :
    GoSE G tes (compileSE G tes n) ∧
      ∀ te vis t st own s t' st', Ready st own → compileTE G tes n te vis t st = .ok (s, t', st') →
        PostTE G tes te t st own s t' st' (getPreds tes n te vis) := by
  induction n with
  | zero =>
    refine ⟨?_, ?_⟩
    · intro se i st own r st' _ _ h
      simp [compileSE] at h
    · intro te vis t st own s t' st' _ h
      simp [compileTE] at h
  | succ n ih =>
    obtain ⟨ihS, ihT⟩ := ih
    refine ⟨?_, ?_⟩
    · intro se i st own r st' hr hi h
      cases se with
      | ref l =>
        simp only [compileSE, Res.bind_eq_ok, refIdx_eq_ok, Res.ok.injEq, Prod.mk.injEq] at h
        obtain ⟨j, ⟨s, hn, hj⟩, rfl, rfl⟩ := h
        exact ⟨.ref s, own, ⟨l, rfl, hn⟩, Grow.refl hr, j, hj, rfl⟩
      | or es =>
        simp only [compileSE, Res.bind_eq_ok] at h
        obtain ⟨⟨is, st1⟩, h1, h2⟩ := h
        simp only [Res.ok.injEq, Prod.mk.injEq] at h2
        obtain ⟨rfl, rfl⟩ := h2
        obtain ⟨cs, own1, hs, hg, ho⟩ := operands_post ihS es hr h1
        exact ⟨.or cs, own1, ⟨es, rfl, hs⟩,
          (hg.weaken (Q' := Inside (.or cs)) (Y := fun j => j = i) (fun _ h => h) fun _ h => h.elim).replace i hi rfl _, is, rfl, ho⟩
      | and es =>
        simp only [compileSE, Res.bind_eq_ok] at h
        obtain ⟨⟨is, st1⟩, h1, h2⟩ := h
        simp only [Res.ok.injEq, Prod.mk.injEq] at h2
        obtain ⟨rfl, rfl⟩ := h2
        obtain ⟨cs, own1, hs, hg, ho⟩ := operands_post ihS es hr h1
        exact ⟨.and cs, own1, ⟨es, rfl, hs⟩,
          (hg.weaken (Q' := Inside (.and cs)) (Y := fun j => j = i) (fun _ h => h) fun _ h => h.elim).replace i hi rfl _, is, rfl, ho⟩
      | not e =>
        simp only [compileSE, Res.bind_eq_ok] at h
        obtain ⟨⟨r1, st1⟩, h1, h2⟩ := h
        simp only [Res.ok.injEq, Prod.mk.injEq] at h2
        obtain ⟨rfl, rfl⟩ := h2
        obtain ⟨c, own1, hs, hg, ho⟩ := alloc_step (X := fun j => j = i) ihS hr h1
        exact ⟨.not c, own1, ⟨e, rfl, hs⟩,
          (hg.weaken (Q' := Inside (.not c)) (fun d hd => ⟨c, rfl, hd⟩) fun _ h => h).replace i hi rfl _,
          _, rfl, ho⟩
      | shape cl ex te xs as =>
        simp only [compileSE, Res.bind_eq_ok, cnvExtra_eq_ok] at h
        obtain ⟨ps, ⟨is, hex, rfl⟩, ⟨tb, st1⟩, htb, preds, hpr, js, hjs, acts, hacts, h⟩ := h
        simp only [Res.ok.injEq, Prod.mk.injEq] at h
        obtain ⟨rfl, rfl⟩ := h
        simp only [mapRes_eq_ok, refIdx_eq_ok] at hjs
        have hacts' : ∀ a ∈ as, ∃ j, a.name.Means G.expand j := by
          rw [mapRes_eq_ok] at hacts
          clear * - hacts
          induction hacts with
          | nil => simp
          | @cons a b as bs h _ ih =>
            intro x hx
            rcases List.mem_cons.1 hx with rfl | hx
            · exact ⟨_, (cnvAct_eq_ok.1 h).1⟩
            · exact ih x hx
        have hlab : ∃ ls, List.Forall₂ Label.Names xs ls ∧
            List.Forall₂ (fun l j => st1.idx l = some j) ls js := by
          clear * - hjs
          induction hjs with
          | nil => exact ⟨[], .nil, .nil⟩
          | cons h _ ih =>
            obtain ⟨l, h1, h2⟩ := h
            obtain ⟨ls, h3, h4⟩ := ih
            exact ⟨l :: ls, .cons h1 h3, .cons h2 h4⟩
        obtain ⟨ls, hls, hls'⟩ := hlab
        cases te with
        | none =>
          simp only [shapeTable, Res.ok.injEq, Prod.mk.injEq] at htb
          obtain ⟨rfl, rfl⟩ := htb
          simp only [shapePreds, Res.ok.injEq] at hpr
          subst hpr
          refine ⟨.shape (cl.getD false) is .nothing ls, own,
            ⟨cl, ex, none, xs, as, rfl, rfl, hex, rfl, hls, hacts'⟩, Grow.refl hr, _, rfl, ?_⟩
          exact ⟨rfl, rfl, rfl, hls', [], Struct.empty, .nil, .empty, rfl, rfl⟩
        | some te =>
          simp only [shapeTable, Res.bind_eq_ok] at htb
          obtain ⟨⟨s, t1, st2⟩, h1, h2⟩ := htb
          simp only [Res.ok.injEq, Prod.mk.injEq] at h2
          obtain ⟨rfl, rfl⟩ := h2
          obtain ⟨e, conds, own1, hs, hg, hc, ht, hb, hrb, hp⟩ := ihT te [] _ _ own _ _ _ hr h1
          simp only [shapePreds] at hpr
          rw [hp] at hpr
          simp only [Res.ok.injEq] at hpr
          subst hpr
          refine ⟨.shape (cl.getD false) is e ls, own1,
            ⟨cl, ex, some te, xs, as, rfl, rfl, hex, hs, hls, hacts'⟩,
            hg.weaken (fun d hd => ?_) fun _ h => h.elim, _, rfl, ?_⟩
          · obtain ⟨⟨p, acts, v⟩, h4, h5⟩ := hd
            exact ⟨v, ⟨p, acts, h4⟩, h5⟩
          rw [hg.idx] at hls'
          exact ⟨rfl, rfl, rfl, hls', conds, s, hc, hb, hrb, by rw [← ht]⟩
      | nc c =>
        simp only [compileSE, Res.bind_eq_ok, Res.of_eq_ok, Res.ok.injEq, Prod.mk.injEq] at h
        obtain ⟨f, hf, rfl, rfl⟩ := h
        exact ⟨.test f, own, ⟨c, rfl, hf⟩, Grow.refl hr, rfl⟩
      | external =>
        simp only [compileSE, Res.ok.injEq, Prod.mk.injEq] at h
        obtain ⟨rfl, rfl⟩ := h
        exact ⟨.external, own, rfl, Grow.refl hr, rfl⟩
    · intro te vis t st own s t' st' hr h
      cases te with
      | eachOf id ts mn mx as =>
        simp only [compileTE, Res.bind_eq_ok, cnvMinMax_eq_ok, actConds_eq_ok] at h
        obtain ⟨⟨ss, t1, st1⟩, h1, c, hc, cs, ⟨fs, hfs, rfl⟩, h2⟩ := h
        simp only [Res.ok.injEq, Prod.mk.injEq] at h2
        obtain ⟨rfl, rfl, rfl⟩ := h2
        obtain ⟨es, conds, own1, hs, hg, hcs, ht, hb, hrb, hp⟩ := parts_post
          (gp := fun e => getPreds tes n e vis) (fun te t st own s t' st' => ihT te vis t st own s t' st') ts hr h1
        refine ⟨.eachOf es c, conds, own1, ⟨_, rfl, id, ts, mn, mx, as, rfl, hs, hc, ?_⟩, hg, hcs, ht,
          mkCardGroup_built (.and _ hb) c, ?_, hp⟩
        · clear * - hfs
          induction hfs with
          | nil => simp
          | @cons a b as bs h _ ih =>
            intro x hx
            rcases List.mem_cons.1 hx with rfl | hx
            · exact ⟨_, h⟩
            · exact ih x hx
        · rw [mkCardGroup_rbe]
          simp only [Struct.and, CTE.rbe, hrb]
      | oneOf id ts mn mx as =>
        simp only [compileTE, Res.bind_eq_ok, cnvMinMax_eq_ok] at h
        obtain ⟨⟨ss, t1, st1⟩, h1, c, hc, h2⟩ := h
        simp only [Res.ok.injEq, Prod.mk.injEq] at h2
        obtain ⟨rfl, rfl, rfl⟩ := h2
        obtain ⟨es, conds, own1, hs, hg, hcs, ht, hb, hrb, hp⟩ := parts_post
          (gp := fun e => getPreds tes n e vis) (fun te t st own s t' st' => ihT te vis t st own s t' st') ts hr h1
        refine ⟨.oneOf es c, conds, own1, ⟨_, rfl, id, ts, mn, mx, as, rfl, hs, hc⟩, hg, hcs, ht,
          mkCardGroup_built (.or _ hb) c, ?_, hp⟩
        rw [mkCardGroup_rbe]
        simp only [Struct.or, CTE.rbe, hrb]
      | tc id ng iv pr val mn mx as =>
        simp only [compileTE, Res.bind_eq_ok, cnvMin_eq_ok, cnvMax_eq_ok, cnvPredicate_eq_ok,
          actConds_eq_ok] at h
        obtain ⟨a, ha, b, hb, p, ⟨rfl, hp⟩, cs, ⟨fs, hfs, rfl⟩, ⟨cond, st1⟩, h1, h2⟩ := h
        simp only [Res.ok.injEq, Prod.mk.injEq] at h2
        obtain ⟨rfl, rfl, rfl⟩ := h2
        obtain ⟨v, own1, hv, hg, hvr⟩ := valueCond_post ihS hr h1
        refine ⟨.tc p fs v ⟨a, b⟩, [withActs (fs.map actCond) cond], own1,
          ⟨_, rfl, id, ng, iv, val, mn, mx, as, rfl, hp, hfs, ⟨ha, hb⟩, hv⟩,
          hg.weaken (fun d hd => ⟨_, List.mem_singleton.2 rfl, hd⟩) fun _ h => h,
          .cons ⟨cond, hvr, rfl⟩ .nil, rfl, .symbol _ _ _, rfl, ?_⟩
        simp only [getPreds, Res.bind_eq_ok, Res.ok.injEq]
        exact ⟨p, cnvPredicate_eq_ok.2 ⟨rfl, hp⟩, rfl⟩
      | ref l =>
        simp only [compileTE] at h
        split at h
        · cases h
        · rename_i hv
          simp only [Res.bind_eq_ok, Res.of_eq_ok] at h
          obtain ⟨te, hte, h⟩ := h
          obtain ⟨e, conds, own1, hs, hg, hc, ht, hb, hrb, hp⟩ := ihT te (l :: vis) t st own s t' st' hr h
          refine ⟨.incl e, conds, own1, ⟨l, te, rfl, hte, hs⟩, hg, hc, ht, hb, hrb, ?_⟩
          simp only [getPreds, if_neg hv, Res.bind_eq_ok, Res.of_eq_ok]
          exact ⟨te, hte, hp⟩

end Comp
