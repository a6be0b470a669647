import Verif.Comp.LemmasCompile

/-!
# Helper lemmas: declarations
-/

namespace Comp
open Shex Rbe

variable {N P NC : Type} [DecidableEq P]

/-! ## Adding labels -/

/-- The state after labels `ls` with flags `bs` have been added. -/
structure Added (st : St N P) (ls : List (SLabel P)) (bs : List Bool) : Prop where
  keys : st.Keys
  counter : st.counter = ls.length
  flags : bs.length = ls.length
  name : ∀ i, st.name i = ls[i]?
  find : ∀ i, i < st.counter → st.find i = some .empty
  idx : ∀ l i, st.idx l = some i ↔ ls[i]? = some l ∧ ∀ j, i < j → ls[j]? ≠ some l
  abstr : ∀ i, i ∈ st.abstr ↔ bs[i]? = some true
  mem : ∀ l, (st.idx l).isSome = true ↔ l ∈ ls

theorem Added.init : Added (St.init : St N P) [] [] :=
  ⟨St.keys_init, rfl, rfl, fun i => by simp [St.name, St.init, alookup],
    fun i h => absurd h (by simp [St.init]), fun l i => by simp [St.idx, St.init, alookup],
    fun i => by simp [St.init], fun l => by simp [St.idx, St.init, alookup]⟩

omit [DecidableEq P] in
theorem getElem?_snoc {A : Type} (ls : List A) (l : A) (i : Nat) :
    (ls ++ [l])[i]? = if i = ls.length then some l else ls[i]? := by
  by_cases h : i = ls.length
  · subst h; simp
  · rw [if_neg h]
    by_cases h' : i < ls.length
    · rw [List.getElem?_append_left h']
    · rw [List.getElem?_eq_none (by simp; omega), List.getElem?_eq_none (by omega)]

theorem Added.snoc {st : St N P} {ls : List (SLabel P)} {bs : List Bool} (h : Added st ls bs)
    (l : SLabel P) (b : Bool) {st' : St N P}
    (hs : st' = if b then (st.addShape l).2.addAbstract (st.addShape l).1 else (st.addShape l).2) :
    Added st' (ls ++ [l]) (bs ++ [b]) := by
  have key : st'.labels = (st.addShape l).2.labels ∧ st'.names = (st.addShape l).2.names ∧
      st'.shapes = (st.addShape l).2.shapes ∧ st'.counter = (st.addShape l).2.counter ∧
      (∀ i, i ∈ st'.abstr ↔ i ∈ st.abstr ∨ (i = st.counter ∧ b = true)) := by
    subst hs
    cases b with
    | false => refine ⟨rfl, rfl, rfl, rfl, fun i => ?_⟩; simp [St.addShape]
    | true =>
      refine ⟨rfl, rfl, rfl, rfl, fun i => ?_⟩
      simp [St.addAbstract, mem_sinsert, St.addShape, or_comm]
  obtain ⟨h1, h2, h3, h4, h5⟩ := key
  have hidx : ∀ k, st'.idx k = if k = l then some st.counter else st.idx k := by
    intro k
    rw [← St.idx_addShape st l k]
    simp only [St.idx, h1]
  have hmem : ∀ k, (st'.idx k).isSome = true ↔ k ∈ ls ++ [l] := by
    intro k
    rw [hidx, List.mem_append, List.mem_singleton, ← h.mem]
    by_cases hk : k = l <;> simp [hk]
  have hc : st'.counter = st.counter + 1 := by rw [h4]; rfl
  refine ⟨?_, ?_, ?_, ?_, ?_, ?_, ?_, hmem⟩
  · have := h.keys.addShape l
    unfold St.Keys at *
    rw [h3, h4]; exact this
  · rw [hc, h.counter]; simp
  · simp [h.flags]
  · intro i
    have : st'.name i = (st.addShape l).2.name i := by simp only [St.name, h2]
    rw [this, St.name_addShape, getElem?_snoc, h.counter, h.name]
  · intro i hi
    have : st'.find i = (st.addShape l).2.find i := by simp only [St.find, h3]
    rw [this, St.find_addShape]
    split
    · rfl
    · exact h.find i (by omega)
  · intro k i
    rw [hidx]
    simp only [getElem?_snoc, ← h.counter]
    by_cases hk : k = l
    · subst hk
      rw [if_pos rfl]
      constructor
      · rintro ⟨⟩
        refine ⟨by simp, fun j hj => ?_⟩
        rw [if_neg (by omega), List.getElem?_eq_none (by rw [← h.counter]; omega)]
        simp
      · rintro ⟨h6, h7⟩
        by_cases hi : i = st.counter
        · rw [hi]
        · exfalso
          rw [if_neg hi] at h6
          have hlt : i < ls.length := by
            by_contra hcon
            rw [List.getElem?_eq_none (by omega)] at h6
            cases h6
          exact h7 st.counter (by rw [h.counter]; exact hlt) (by simp)
    · rw [if_neg hk, h.idx]
      constructor
      · rintro ⟨h6, h7⟩
        have hi : i ≠ st.counter := by
          rintro rfl
          rw [List.getElem?_eq_none (by rw [h.counter])] at h6
          cases h6
        refine ⟨by rw [if_neg hi]; exact h6, fun j hj => ?_⟩
        split
        · intro he; cases he; exact hk rfl
        · exact h7 j hj
      · rintro ⟨h6, h7⟩
        split at h6
        · cases h6; exact (hk rfl).elim
        · refine ⟨h6, fun j hj hl => ?_⟩
          refine h7 j hj ?_
          split
          · rename_i hj'
            rw [hj', List.getElem?_eq_none (by rw [h.counter])] at hl
            cases hl
          · exact hl
  · intro i
    have hbc : bs.length = st.counter := by rw [h.flags, h.counter]
    rw [h5, h.abstr, getElem?_snoc, hbc]
    by_cases hi : i = st.counter
    · subst hi
      rw [List.getElem?_eq_none (by rw [hbc])]
      simp
    · simp [hi]

theorem addDecls_added {ds : List (Decl P NC)} {st st' : St N P} {ls : List (SLabel P)}
    {bs : List Bool} (h : Added st ls bs) (hd : addDecls ds st = .ok st') :
    ∃ ls', List.Forall₂ Label.Names (ds.map Decl.id) ls' ∧
      Added st' (ls ++ ls') (bs ++ ds.map Decl.abstr) := by
  induction ds generalizing st ls bs with
  | nil =>
    simp only [addDecls, Res.ok.injEq] at hd
    subst hd
    exact ⟨[], .nil, by simpa using h⟩
  | cons d ds ih =>
    simp only [addDecls, Res.bind_eq_ok, toLabel_eq_ok] at hd
    obtain ⟨l, hl, hd⟩ := hd
    obtain ⟨ls', h1, h2⟩ := ih (h.snoc l d.abstr rfl) hd
    exact ⟨l :: ls', .cons hl h1, by simpa using h2⟩

/-! ## Compiling declarations -/

/-- While declarations are compiled: the labels have indices below `K`; `D` is what has been compiled
for them. -/
structure Phase (Q : Core N P → Prop) (K : Nat) (st : St N P) (own : Nat → Option (Core N P)) (D : Decls N P) : Prop where
  ready : Ready st own
  le : K ≤ st.counter
  idx : ∀ l i, st.idx l = some i → i < K ∧ st.name i = some l
  names : ∀ i, K ≤ i → st.name i = none
  low : ∀ j, j < K → own j = none
  high : ∀ j, K ≤ j → j < st.counter → Cons st own j
  todo : ∀ l i, st.idx l = some i → D l = none → st.find i = some .empty
  done : ∀ l i c, st.idx l = some i → D l = some c → ∃ r, st.find i = some r ∧ Loc st.idx own c r
  known : ∀ l c, D l = some c → (st.idx l).isSome = true
  dead : ∀ i, i < K → (∀ l, st.idx l ≠ some i) → st.find i = some .empty
  sub : ∀ j d, own j = some d → Q d

theorem Added.phase (Q : Core N P → Prop) {st : St N P} {ls : List (SLabel P)} {bs : List Bool} (h : Added st ls bs) :
    Phase Q st.counter st (fun _ => none) (fun _ => none) := by
  refine ⟨⟨h.keys, fun _ _ => rfl⟩, le_refl _, ?_, ?_, fun _ _ => rfl, ?_, ?_, ?_, ?_, ?_, ?_⟩
  · intro l i hi
    have := (h.idx l i).1 hi
    refine ⟨?_, by rw [h.name]; exact this.1⟩
    rw [h.counter]
    by_contra hc
    rw [List.getElem?_eq_none (by omega)] at this
    cases this.1
  · intro i hi
    rw [h.name, List.getElem?_eq_none (by rw [← h.counter]; exact hi)]
  · intro j h1 h2; omega
  · intro l i hi _
    refine h.find i ?_
    have := (h.idx l i).1 hi
    rw [h.counter]
    by_contra hc
    rw [List.getElem?_eq_none (by omega)] at this
    cases this.1
  · intro l i c _ hc; cases hc
  · intro l c hc; cases hc
  · intro i hi _; exact h.find i hi
  · intro j d hj; cases hj

theorem Phase.step {Q : Core N P → Prop} {K : Nat} {st : St N P} {own : Nat → Option (Core N P)} {D : Decls N P}
    (h : Phase Q K st own D) {G : Ctxt N P NC} {tes : TLabel P → Option (TE P NC)} {n : Nat}
    {e : SE P NC} {l : SLabel P} {i : Nat} (hi : st.idx l = some i) {r : ShapeExpr N P} {st' : St N P}
    (hc : compileSE G tes n e i st = .ok (r, st')) :
    ∃ c own', Stands G tes c e ∧ Phase (fun d => Q d ∨ Inside c d) K (st'.replace i r) own' (Function.update D l (some c)) ∧
      (st'.replace i r).labels = st.labels ∧ (st'.replace i r).names = st.names ∧
      (st'.replace i r).abstr = st.abstr := by
  have hiK := (h.idx l i hi).1
  have hil : i < st.counter := lt_of_lt_of_le hiK h.le
  obtain ⟨c, own', hs, hg, hl⟩ := (compile_post G tes n).1 e i st own r st' h.ready hil hc
  have hg' : Grow (Inside c) (fun j => j = i) st (st'.replace i r) own own' := hg.replace i hil rfl r
  have hidx := hg'.idx
  have hname := hg'.name
  have hle := hg'.own_le h.ready
  have hfi : (st'.replace i r).find i = some r := by
    rw [St.find_replace, if_pos rfl]
    have := (hg.keys.find_isSome i).2 (lt_of_lt_of_le hil hg.counter)
    obtain ⟨x, hx⟩ := Option.isSome_iff_exists.1 this
    rw [hx]; rfl
  refine ⟨c, own', hs, ⟨hg'.ready, le_trans h.le hg'.counter, ?_, ?_, ?_, ?_, ?_, ?_, ?_, ?_, ?_⟩,
    hg'.labels, hg'.names, hg'.abstr⟩
  · intro k j hj
    rw [hidx] at hj
    rw [hname]
    exact h.idx k j hj
  · intro j hj
    rw [hname]
    exact h.names j hj
  · intro j hj
    rw [hg'.old j (lt_of_lt_of_le hj h.le)]
    exact h.low j hj
  · intro j h1 h2
    by_cases hj : j < st.counter
    · obtain ⟨d, r', ho, hf, hl'⟩ := h.high j h1 hj
      refine ⟨d, r', hle _ _ ho, ?_, ?_⟩
      · rw [hg'.find j hj (by omega)]; exact hf
      · rw [hidx]; exact hl'.mono hle
    · exact hg'.cons j (by omega) h2
  · intro k j hj hD
    rw [hidx] at hj
    have hkl : k ≠ l := by rintro rfl; simp at hD
    rw [Function.update_of_ne hkl] at hD
    have hji : j ≠ i := by
      rintro rfl
      have h1 := (h.idx k j hj).2
      rw [(h.idx l j hi).2] at h1
      exact hkl (Option.some.inj h1).symm
    rw [hg'.find j (lt_of_lt_of_le (h.idx k j hj).1 h.le) hji]
    exact h.todo k j hj hD
  · intro k j d hj hD
    rw [hidx] at hj ⊢
    by_cases hkl : k = l
    · subst hkl
      rw [hi] at hj
      cases hj
      rw [Function.update_self] at hD
      cases hD
      exact ⟨r, hfi, hl⟩
    · rw [Function.update_of_ne hkl] at hD
      have hji : j ≠ i := by
        rintro rfl
        have h1 := (h.idx k j hj).2
        rw [(h.idx l j hi).2] at h1
        exact hkl (Option.some.inj h1).symm
      obtain ⟨r', h1, h2⟩ := h.done k j d hj hD
      exact ⟨r', by rw [hg'.find j (lt_of_lt_of_le (h.idx k j hj).1 h.le) hji]; exact h1, h2.mono hle⟩
  · intro k d hD
    rw [hidx]
    by_cases hkl : k = l
    · subst hkl; rw [hi]; rfl
    · rw [Function.update_of_ne hkl] at hD
      exact h.known k d hD
  · intro j hj hno
    rw [hidx] at hno
    have hji : j ≠ i := by rintro rfl; exact hno l hi
    rw [hg'.find j (lt_of_lt_of_le hj h.le) hji]
    exact h.dead j hj hno
  · intro j d hj
    by_cases hlt : j < st.counter
    · rw [hg'.old j hlt] at hj
      exact .inl (h.sub j d hj)
    · exact .inr (hg'.sub j d (by omega) hj)

theorem Phase.weaken {Q Q' : Core N P → Prop} (hQ : ∀ d, Q d → Q' d) {K : Nat} {st : St N P}
    {own : Nat → Option (Core N P)} {D : Decls N P} (h : Phase Q K st own D) : Phase Q' K st own D :=
  { h with sub := fun j d hj => hQ d (h.sub j d hj) }

/-- A part of what one of the expressions stands for. -/
def PartOf (G : Ctxt N P NC) (tes : TLabel P → Option (TE P NC)) (ds : List (Label P × SE P NC))
    (d : Core N P) : Prop :=
  ∃ x ∈ ds, ∃ c, Stands G tes c x.2 ∧ Inside c d

omit [DecidableEq P] in
theorem PartOf.append [DecidableEq P] {G : Ctxt N P NC} {tes : TLabel P → Option (TE P NC)}
    {ds : List (Label P × SE P NC)} (ds' : List (Label P × SE P NC)) {d : Core N P}
    (h : PartOf G tes ds d) : PartOf G tes (ds ++ ds') d := by
  obtain ⟨x, h1, h2⟩ := h
  exact ⟨x, List.mem_append_left _ h1, h2⟩

omit [DecidableEq P] in
theorem CoreOf.snoc [DecidableEq P] {G : Ctxt N P NC} {tes : TLabel P → Option (TE P NC)}
    {ds : List (Label P × SE P NC)} {D : Decls N P} (h : CoreOf G tes ds D) {id : Label P}
    {e : SE P NC} {l : SLabel P} (hl : id.Names l) {c : Core N P} (hc : Stands G tes c e) :
    CoreOf G tes (ds ++ [(id, e)]) (Function.update D l (some c)) := by
  have huniq : ∀ k, id.Names k → k = l := by
    intro k hk
    have h1 := toLabel_eq_ok.2 hk
    rw [toLabel_eq_ok.2 hl] at h1
    cases h1; rfl
  intro k
  by_cases hkl : k = l
  · subst hkl
    refine ⟨?_, ?_⟩
    · intro d hd
      rw [Function.update_self] at hd
      cases hd
      exact ⟨e, ⟨ds, [], id, rfl, hl, by simp⟩, hc⟩
    · intro hn
      simp at hn
  · rw [Function.update_of_ne hkl]
    obtain ⟨h1, h2⟩ := h k
    refine ⟨?_, ?_⟩
    · intro d hd
      obtain ⟨e', ⟨pre, post, id', rfl, h4, h5⟩, h6⟩ := h1 d hd
      refine ⟨e', ⟨pre, post ++ [(id, e)], id', by simp, h4, ?_⟩, h6⟩
      intro x hx
      rcases List.mem_append.1 hx with hx | hx
      · exact h5 x hx
      · rw [List.mem_singleton.1 hx]
        intro h7
        exact hkl (huniq k h7)
    · intro hn x hx
      rcases List.mem_append.1 hx with hx | hx
      · exact h2 hn x hx
      · rw [List.mem_singleton.1 hx]
        intro h7
        exact hkl (huniq k h7)

/-- The pair of a declaration. -/
def Decl.pair (d : Decl P NC) : Label P × SE P NC := (d.id, d.expr)

theorem compileDecls_phase {G : Ctxt N P NC} {tes : TLabel P → Option (TE P NC)} {n K : Nat}
    (ds : List (Decl P NC)) {st st' : St N P} {own : Nat → Option (Core N P)} {D : Decls N P}
    {pre : List (Label P × SE P NC)} (h : Phase (PartOf G tes pre) K st own D) (hD : CoreOf G tes pre D)
    (hc : compileDecls G tes n ds st = .ok st') :
    ∃ own' D', Phase (PartOf G tes (pre ++ ds.map Decl.pair)) K st' own' D' ∧
      CoreOf G tes (pre ++ ds.map Decl.pair) D' ∧
      st'.labels = st.labels ∧ st'.names = st.names ∧ st'.abstr = st.abstr := by
  induction ds generalizing st own D pre with
  | nil =>
    simp only [compileDecls, Res.ok.injEq] at hc
    subst hc
    exact ⟨own, D, by simpa using h, by simpa using hD, rfl, rfl, rfl⟩
  | cons d ds ih =>
    simp only [compileDecls, Res.bind_eq_ok, refIdx_eq_ok] at hc
    obtain ⟨i, ⟨l, hl, hi⟩, ⟨r, st1⟩, h1, h2⟩ := hc
    obtain ⟨c, own1, hs, hp, e1, e2, e3⟩ := h.step hi h1
    have hp' : Phase (PartOf G tes (pre ++ [(d.id, d.expr)])) K _ own1 _ := hp.weaken fun x hx => by
      rcases hx with hx | hx
      · exact hx.append _
      · exact ⟨_, List.mem_append_right _ (List.mem_singleton.2 rfl), c, hs, hx⟩
    obtain ⟨own2, D2, hp2, hD2, f1, f2, f3⟩ := ih hp' (hD.snoc hl hs) h2
    exact ⟨own2, D2, by simpa [Decl.pair] using hp2, by simpa [Decl.pair] using hD2, f1.trans e1, f2.trans e2, f3.trans e3⟩

theorem compileSources_phase {G : Ctxt N P NC} {tes : TLabel P → Option (TE P NC)} {n K : Nat}
    (ss : List (Source P NC)) {st st' : St N P} {own : Nat → Option (Core N P)} {D : Decls N P}
    {pre : List (Label P × SE P NC)} (h : Phase (PartOf G tes pre) K st own D) (hD : CoreOf G tes pre D)
    (hc : compileSources G tes n ss st = .ok st') :
    ∃ own' D', Phase (PartOf G tes (pre ++ (ss.flatMap Source.shapes).map Decl.pair)) K st' own' D' ∧
      CoreOf G tes (pre ++ (ss.flatMap Source.shapes).map Decl.pair) D' ∧
      st'.labels = st.labels ∧ st'.names = st.names ∧ st'.abstr = st.abstr := by
  induction ss generalizing st own D pre with
  | nil =>
    simp only [compileSources, Res.ok.injEq] at hc
    subst hc
    exact ⟨own, D, by simpa using h, by simpa using hD, rfl, rfl, rfl⟩
  | cons s ss ih =>
    simp only [compileSources, Res.bind_eq_ok] at hc
    obtain ⟨st1, h1, h2⟩ := hc
    obtain ⟨own1, D1, hp, hD1, e1, e2, e3⟩ := compileDecls_phase s.shapes h hD h1
    obtain ⟨own2, D2, hp2, hD2, f1, f2, f3⟩ := ih hp hD1 h2
    exact ⟨own2, D2, by simpa using hp2, by simpa using hD2, f1.trans e1, f2.trans e2, f3.trans e3⟩

/-! ## More labels of triple expressions -/

mutual
theorem Stands.mono {G : Ctxt N P NC} {tes tes' : TLabel P → Option (TE P NC)}
    (h : ∀ l t, tes l = some t → tes' l = some t) :
    ∀ {c : Core N P} {e : SE P NC}, Stands G tes c e → Stands G tes' c e
  | .ref _, _, hs => hs
  | .or cs, _, hs => by
    obtain ⟨es, rfl, hs⟩ := hs
    exact ⟨es, rfl, StandsAll.mono h hs⟩
  | .and cs, _, hs => by
    obtain ⟨es, rfl, hs⟩ := hs
    exact ⟨es, rfl, StandsAll.mono h hs⟩
  | .not c, _, hs => by
    obtain ⟨e, rfl, hs⟩ := hs
    exact ⟨e, rfl, Stands.mono h hs⟩
  | .shape _ _ _ _, _, hs => by
    obtain ⟨cl, ex, te, xs, acts, rfl, h1, h2, h3, h4, h5⟩ := hs
    exact ⟨cl, ex, te, xs, acts, rfl, h1, h2, StandsO.mono h h3, h4, h5⟩
  | .test _, _, hs => hs
  | .external, _, hs => hs
theorem StandsAll.mono {G : Ctxt N P NC} {tes tes' : TLabel P → Option (TE P NC)}
    (h : ∀ l t, tes l = some t → tes' l = some t) :
    ∀ {cs : List (Core N P)} {es : List (SE P NC)}, StandsAll G tes cs es → StandsAll G tes' cs es
  | [], _, hs => hs
  | c :: cs, _, hs => by
    obtain ⟨e, es', rfl, h1, h2⟩ := hs
    exact ⟨e, es', rfl, Stands.mono h h1, StandsAll.mono h h2⟩
theorem StandsO.mono {G : Ctxt N P NC} {tes tes' : TLabel P → Option (TE P NC)}
    (h : ∀ l t, tes l = some t → tes' l = some t) :
    ∀ {e : CTE N P} {te : Option (TE P NC)}, StandsO G tes e te → StandsO G tes' e te
  | .nothing, _, hs => hs
  | .eachOf _ _, _, hs => by
    obtain ⟨t, rfl, id, ts, mn, mx, acts, rfl, h1, h2⟩ := hs
    exact ⟨_, rfl, id, ts, mn, mx, acts, rfl, StandsTs.mono h h1, h2⟩
  | .oneOf _ _, _, hs => by
    obtain ⟨t, rfl, id, ts, mn, mx, acts, rfl, h1, h2⟩ := hs
    exact ⟨_, rfl, id, ts, mn, mx, acts, rfl, StandsTs.mono h h1, h2⟩
  | .tc _ _ v _, _, hs => by
    obtain ⟨t, rfl, id, ng, iv, val, mn, mx, as, rfl, h1, h2, h3, h4⟩ := hs
    refine ⟨_, rfl, id, ng, iv, val, mn, mx, as, rfl, h1, h2, h3, ?_⟩
    rcases h4 with h4 | ⟨se, hse, h4⟩
    · exact .inl h4
    · exact .inr ⟨se, hse, Stands.mono h h4⟩
  | .incl e, _, hs => by
    obtain ⟨l, t, rfl, h1, h2⟩ := hs
    exact ⟨l, t, rfl, h l t h1, StandsO.mono h h2⟩
theorem StandsTs.mono {G : Ctxt N P NC} {tes tes' : TLabel P → Option (TE P NC)}
    (h : ∀ l t, tes l = some t → tes' l = some t) :
    ∀ {es : List (CTE N P)} {ts : List (TE P NC)}, StandsTs G tes es ts → StandsTs G tes' es ts
  | [], _, hs => hs
  | e :: es, _, hs => by
    obtain ⟨t, ts', rfl, h1, h2⟩ := hs
    exact ⟨t, ts', rfl, StandsO.mono h h1, StandsTs.mono h h2⟩
end

/-! ## The result -/

/-- What a successful compilation leaves: every index is that of a label, or owned by a part of an
expression, or left over from a label declared again. -/
structure Compiled (Q : Core N P → Prop) (st : St N P) (own : Nat → Option (Core N P)) (D : Decls N P) : Prop where
  keys : st.Keys
  known : ∀ l, (st.idx l).isSome = (D l).isSome
  label : ∀ l i, st.idx l = some i → st.name i = some l ∧
    ∃ c r, D l = some c ∧ st.find i = some r ∧ Loc st.idx own c r
  part : ∀ j d, own j = some d → st.name j = none ∧ ∃ r, st.find j = some r ∧ Loc st.idx own d r
  cover : ∀ i r, st.find i = some r → (∃ l, st.idx l = some i) ∨ (∃ d, own i = some d) ∨ r = .empty
  sub : ∀ j d, own j = some d → Q d

theorem Phase.compiled {Q : Core N P → Prop} {K : Nat} {st : St N P} {own : Nat → Option (Core N P)} {D : Decls N P}
    (h : Phase Q K st own D) (hD : ∀ l, (st.idx l).isSome = true → (D l).isSome = true) :
    Compiled Q st own D := by
  refine ⟨h.ready.keys, ?_, ?_, ?_, ?_, h.sub⟩
  · intro l
    rw [Bool.eq_iff_iff]
    constructor
    · exact hD l
    · intro hd
      obtain ⟨c, hc⟩ := Option.isSome_iff_exists.1 hd
      exact h.known l c hc
  · intro l i hi
    obtain ⟨c, hc⟩ := Option.isSome_iff_exists.1 (hD l (by rw [hi]; rfl))
    obtain ⟨r, h1, h2⟩ := h.done l i c hi hc
    exact ⟨(h.idx l i hi).2, c, r, hc, h1, h2⟩
  · intro j d hj
    have hK : K ≤ j := by
      by_contra hc
      rw [h.low j (by omega)] at hj
      cases hj
    have hlt : j < st.counter := by
      by_contra hc
      rw [h.ready.fresh j (by omega)] at hj
      cases hj
    obtain ⟨d', r, ho, hf, hl⟩ := h.high j hK hlt
    rw [hj] at ho
    cases ho
    exact ⟨h.names j hK, r, hf, hl⟩
  · intro i r hf
    have hlt := (h.ready.keys.find_isSome i).1 (by rw [hf]; rfl)
    by_cases hiK : i < K
    · by_cases hl : ∃ l, st.idx l = some i
      · exact .inl hl
      · push Not at hl
        have := h.dead i hiK hl
        rw [hf] at this
        cases this
        exact .inr (.inr rfl)
    · obtain ⟨d, _, ho, _⟩ := h.high i (by omega) hlt
      exact .inr (.inl ⟨d, ho⟩)

end Comp
