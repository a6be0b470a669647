import Verif.Comp.LemmasDecls

/-!
# Helper lemmas: imports, labels of triple expressions, and the whole compiler
-/

namespace Comp
open Shex Rbe

variable {N P NC : Type} [DecidableEq P]

/-! ## Labels added by imports -/

/-- The labels of the imported schemas have been added. -/
def AddedAsts (a : Acc N P NC) : Prop :=
  ∃ ls, List.Forall₂ Label.Names ((a.asts.flatMap fun x => x.1.shapes).map Decl.id) ls ∧
    Added a.st ls ((a.asts.flatMap fun x => x.1.shapes).map Decl.abstr)

theorem importLoop_added {W : World N P NC} {src : P}
    {go : Source P NC → P → Option P → Acc N P NC → Res (Acc N P NC)}
    (hgo : ∀ s i b a a', AddedAsts a → go s i b a = .ok a' → AddedAsts a') (is : List P)
    {a a' : Acc N P NC} (h : AddedAsts a) (hl : importLoop W src go is a = .ok a') : AddedAsts a' := by
  induction is generalizing a with
  | nil =>
    simp only [importLoop, Res.ok.injEq] at hl
    subst hl; exact h
  | cons i is ih =>
    simp only [importLoop] at hl
    split at hl
    · exact ih h hl
    · simp only [Res.bind_eq_ok, Res.of_eq_ok] at hl
      obtain ⟨s, _, b, hb, st, hst, hl⟩ := hl
      have h1 : AddedAsts { a with visited := a.visited ++ [i] } := h
      obtain ⟨ls, h2, h3⟩ := hgo _ _ _ _ _ h1 hb
      obtain ⟨ls', h4, h5⟩ := addDecls_added h3 hst
      refine ih ⟨ls ++ ls', ?_, ?_⟩ hl
      · simpa using List.rel_append h2 h4
      · simpa using h5

theorem collectImports_added {W : World N P NC} (n : Nat) {s : Source P NC} {src : P} {base : Option P}
    {a a' : Acc N P NC} (h : AddedAsts a) (hl : collectImports W n s src base a = .ok a') :
    AddedAsts a' := by
  induction n generalizing s src base a a' with
  | zero => simp [collectImports] at hl
  | succ n ih =>
    simp only [collectImports, Res.bind_eq_ok] at hl
    obtain ⟨is, _, hl⟩ := hl
    exact importLoop_added (fun s i b a a' h hl => ih h hl) is h hl

/-! ## The schemas imported -/

omit [DecidableEq P] in
theorem Reaches.mono {W : World N P NC} {root : Source P NC} {base : Option P}
    {l l' : List (Source P NC × P)} (h : ∀ x ∈ l, x ∈ l') {i : P} (hr : Reaches W root base l i) :
    Reaches W root base l' i := by
  induction hr with
  | first h1 => exact .first h1
  | next h1 _ h3 ih => exact .next (h _ h1) ih h3

omit [DecidableEq P] in
theorem Link.mono {W : World N P NC} {root : Source P NC} {src : P} {base : Option P}
    {l l' : List (Source P NC × P)} (h : ∀ x ∈ l, x ∈ l') {i f : P}
    (hr : Link W root src base l i f) : Link W root src base l' i f := by
  rcases hr with hr | ⟨x, h1, h2⟩
  · exact .inl hr
  · exact .inr ⟨x, h _ h1, h2⟩

/-- During the search: `pend` are the schemas being looked at. -/
structure Search (W : World N P NC) (root : Source P NC) (src : P) (base : Option P)
    (pend : List (Source P NC × P)) (a : Acc N P NC) : Prop where
  nodup : a.visited.Nodup
  perm : a.visited.Perm ((pend ++ a.asts).map Prod.snd)
  closed : ∀ x ∈ a.asts, ∀ j, Imports W x.1 (some x.2) j → j ∈ a.visited
  reach : ∀ x ∈ pend ++ a.asts, Reaches W root base (pend ++ a.asts) x.2
  fetched : ∀ x ∈ pend ++ a.asts, ∃ f s, Link W root src base (pend ++ a.asts) x.2 f ∧
    W.fetch x.2 f = some s ∧ x.1 = W.rewrite s

/-- What the search keeps. -/
def Later (a b : Acc N P NC) : Prop :=
  (∀ i ∈ a.visited, i ∈ b.visited) ∧ ∀ x ∈ a.asts, x ∈ b.asts

theorem importLoop_search {W : World N P NC} {root : Source P NC} {rsrc : P} {rbase : Option P}
    {src : P} {go : Source P NC → P → Option P → Acc N P NC → Res (Acc N P NC)}
    (hgo : ∀ s i pend a a', Search W root rsrc rbase ((s, i) :: pend) a → go s i (some i) a = .ok a' →
      Search W root rsrc rbase ((s, i) :: pend) a' ∧ Later a a' ∧
        ∀ j, Imports W s (some i) j → j ∈ a'.visited)
    (is : List P) {pend : List (Source P NC × P)} {a a' : Acc N P NC}
    (hcur : ∀ i ∈ is, Link W root rsrc rbase (pend ++ a.asts) i src ∧
      Reaches W root rbase (pend ++ a.asts) i)
    (h : Search W root rsrc rbase pend a) (hl : importLoop W src go is a = .ok a') :
    Search W root rsrc rbase pend a' ∧ Later a a' ∧ ∀ i ∈ is, i ∈ a'.visited := by
  induction is generalizing a with
  | nil =>
    simp only [importLoop, Res.ok.injEq] at hl
    subst hl
    exact ⟨h, ⟨fun _ h => h, fun _ h => h⟩, by simp⟩
  | cons i is ih =>
    have hcur' := fun j hj => hcur j (List.mem_cons_of_mem _ hj)
    simp only [importLoop] at hl
    split at hl
    · rename_i hv
      obtain ⟨h1, h2, h3⟩ := ih hcur' h hl
      refine ⟨h1, h2, ?_⟩
      intro j hj
      rcases List.mem_cons.1 hj with rfl | hj
      · exact h2.1 _ hv
      · exact h3 j hj
    · rename_i hv
      simp only [Res.bind_eq_ok, Res.of_eq_ok] at hl
      obtain ⟨s, hs, b, hb, st, hst, hl⟩ := hl
      obtain ⟨hlink, hreach⟩ := hcur i (by simp)
      have hmem' : ∀ x ∈ pend ++ a.asts, x ∈ ((W.rewrite s, i) :: pend) ++ a.asts := by
        intro x hx; rcases List.mem_append.1 hx with hx | hx <;> simp [hx]
      have hstart : Search W root rsrc rbase ((W.rewrite s, i) :: pend)
          { a with visited := a.visited ++ [i] } := by
        refine ⟨?_, ?_, ?_, ?_, ?_⟩
        · simp only
          rw [List.nodup_append]
          refine ⟨h.nodup, by simp, ?_⟩
          intro x hx y hy
          rw [List.mem_singleton.1 hy]
          rintro rfl; exact hv hx
        · simp only [List.cons_append, List.map_cons]
          exact (List.perm_append_comm).trans (List.Perm.cons i h.perm)
        · intro x hx j hj
          exact List.mem_append_left _ (h.closed x hx j hj)
        · intro x hx
          rcases List.mem_cons.1 hx with rfl | hx
          · exact hreach.mono hmem'
          · exact (h.reach x hx).mono hmem'
        · intro x hx
          rcases List.mem_cons.1 hx with rfl | hx
          · exact ⟨src, s, hlink.mono hmem', hs, rfl⟩
          · obtain ⟨f, s', h1, h2⟩ := h.fetched x hx
            exact ⟨f, s', h1.mono hmem', h2⟩
      obtain ⟨hb1, hb2, hb3⟩ := hgo _ _ _ _ _ hstart hb
      have hswap : ∀ x, x ∈ ((W.rewrite s, i) :: pend) ++ b.asts ↔
          x ∈ pend ++ (b.asts ++ [(W.rewrite s, i)]) := by
        intro x; simp only [List.cons_append, List.mem_cons, List.mem_append, List.mem_nil_iff]; tauto
      have hnext : Search W root rsrc rbase pend
          { b with asts := b.asts ++ [(W.rewrite s, i)], st := st } := by
        refine ⟨hb1.nodup, ?_, ?_, ?_, ?_⟩
        · refine hb1.perm.trans (List.Perm.map _ ?_)
          rw [← List.append_assoc]
          exact (List.perm_append_comm (l₁ := [(W.rewrite s, i)]) (l₂ := pend ++ b.asts))
        · intro x hx j hj
          rcases List.mem_append.1 hx with hx | hx
          · exact hb1.closed x hx j hj
          · rw [List.mem_singleton.1 hx] at hj
            exact hb3 j hj
        · intro x hx
          exact (hb1.reach x ((hswap x).2 hx)).mono fun y hy => (hswap y).1 hy
        · intro x hx
          obtain ⟨f, s', h1, h2⟩ := hb1.fetched x ((hswap x).2 hx)
          exact ⟨f, s', h1.mono fun y hy => (hswap y).1 hy, h2⟩
      have hle : ∀ x ∈ pend ++ a.asts, x ∈ pend ++ (b.asts ++ [(W.rewrite s, i)]) := by
        intro x hx
        rcases List.mem_append.1 hx with hx | hx
        · exact List.mem_append_left _ hx
        · exact List.mem_append_right _ (List.mem_append_left _ (hb2.2 x hx))
      obtain ⟨h1, h2, h3⟩ := ih (fun j hj => ⟨(hcur' j hj).1.mono hle, (hcur' j hj).2.mono hle⟩) hnext hl
      refine ⟨h1, ⟨?_, ?_⟩, ?_⟩
      · intro j hj
        exact h2.1 _ (hb2.1 _ (List.mem_append_left _ hj))
      · intro x hx
        exact h2.2 _ (List.mem_append_left _ (hb2.2 x hx))
      · intro j hj
        rcases List.mem_cons.1 hj with rfl | hj
        · exact h2.1 _ (hb2.1 _ (by simp))
        · exact h3 j hj

theorem mem_resolved {W : World N P NC} {base : Option P} {ts : List String} {is : List P}
    (h : mapRes (fun i => Res.of (W.resolve base i)) ts = .ok is) (i : P) :
    i ∈ is ↔ ∃ t ∈ ts, W.resolve base t = some i := by
  rw [mapRes_eq_ok] at h
  induction h with
  | nil => simp
  | @cons t j _ _ h _ ih =>
    rw [Res.of_eq_ok] at h
    simp only [List.mem_cons, ih]
    constructor
    · rintro (rfl | ⟨t', h1, h2⟩)
      · exact ⟨t, .inl rfl, h⟩
      · exact ⟨t', .inr h1, h2⟩
    · rintro ⟨t', rfl | h1, h2⟩
      · rw [h] at h2; cases h2; exact .inl rfl
      · exact .inr ⟨t', h1, h2⟩

theorem collectImports_search {W : World N P NC} {root : Source P NC} {rsrc : P} {rbase : Option P}
    (n : Nat) {s : Source P NC} {src : P} {base : Option P} {pend : List (Source P NC × P)}
    {a a' : Acc N P NC}
    (hcur : ∀ i, Imports W s base i → Link W root rsrc rbase (pend ++ a.asts) i src ∧
      Reaches W root rbase (pend ++ a.asts) i)
    (h : Search W root rsrc rbase pend a) (hl : collectImports W n s src base a = .ok a') :
    Search W root rsrc rbase pend a' ∧ Later a a' ∧ ∀ i, Imports W s base i → i ∈ a'.visited := by
  induction n generalizing s src base pend a a' with
  | zero => simp [collectImports] at hl
  | succ n ih =>
    simp only [collectImports, Res.bind_eq_ok] at hl
    obtain ⟨is, his, hl⟩ := hl
    have hm := mem_resolved his
    have hgo : ∀ s i pend a a', Search W root rsrc rbase ((s, i) :: pend) a →
        collectImports W n s i (some i) a = .ok a' →
        Search W root rsrc rbase ((s, i) :: pend) a' ∧ Later a a' ∧
          ∀ j, Imports W s (some i) j → j ∈ a'.visited := by
      intro s i pend a a' hS hgo
      refine ih ?_ hS hgo
      intro j hj
      exact ⟨.inr ⟨(s, i), by simp, rfl, hj⟩, .next (x := (s, i)) (by simp)
        (hS.reach (s, i) (by simp)) hj⟩
    obtain ⟨h1, h2, h3⟩ := importLoop_search hgo is (fun i hi => hcur i ((hm i).1 hi)) h hl
    exact ⟨h1, h2, fun i hi => h3 i ((hm i).2 hi)⟩

theorem collectImports_imported {W : World N P NC} (n : Nat) {s : Source P NC} {src : P}
    {base : Option P} {a : Acc N P NC}
    (hl : collectImports W n s src base ⟨[], [], St.init⟩ = .ok a) :
    Imported W s src base a.asts ∧ a.visited.Perm (a.asts.map Prod.snd) := by
  have h0 : Search W s src base [] (⟨[], [], St.init⟩ : Acc N P NC) :=
    ⟨List.nodup_nil, List.Perm.refl _, by simp, by simp, by simp⟩
  obtain ⟨h1, _, h3⟩ := collectImports_search n (root := s) (rsrc := src) (rbase := base) (pend := [])
    (fun i hi => ⟨.inl ⟨rfl, hi⟩, .first hi⟩) h0 hl
  have hp : a.visited.Perm (a.asts.map Prod.snd) := by simpa using h1.perm
  refine ⟨⟨hp.nodup_iff.1 h1.nodup, fun i => ⟨?_, ?_⟩, by simpa using h1.fetched⟩, hp⟩
  · intro hi
    obtain ⟨x, hx, rfl⟩ := List.mem_map.1 hi
    simpa using h1.reach x (by simpa using hx)
  · intro hi
    refine hp.subset ?_
    induction hi with
    | first h => exact h3 _ h
    | next h _ h' _ => exact h1.closed _ h _ h'

/-! ## Labels of triple expressions -/

/-- The map after the expressions of `Q` have been added to `m`. -/
def Collected (Q : TE P NC → Prop) (m m' : List (TLabel P × TE P NC)) : Prop :=
  ∀ l t, alookup l m' = some t ↔ alookup l m = some t ∨ (t.label = some l ∧ Q t)

theorem Collected.refl (m : List (TLabel P × TE P NC)) : Collected (fun _ => False) m m := by
  intro l t; simp

theorem Collected.trans {Q R S : TE P NC → Prop} {m m' m'' : List (TLabel P × TE P NC)}
    (h1 : Collected Q m m') (h2 : Collected R m' m'') (h : ∀ t, S t ↔ Q t ∨ R t) :
    Collected S m m'' := by
  intro l t
  rw [h2, h1, h]
  tauto

theorem Collected.congr {Q S : TE P NC → Prop} {m m' : List (TLabel P × TE P NC)}
    (h1 : Collected Q m m') (h : ∀ t, t.label.isSome = true → (S t ↔ Q t)) : Collected S m m' := by
  intro l t
  rw [h1]
  constructor
  · rintro (h2 | ⟨h2, h3⟩)
    · exact .inl h2
    · exact .inr ⟨h2, (h t (by rw [h2]; rfl)).2 h3⟩
  · rintro (h2 | ⟨h2, h3⟩)
    · exact .inl h2
    · exact .inr ⟨h2, (h t (by rw [h2]; rfl)).1 h3⟩

theorem alookup_append_single {X Y : Type} [DecidableEq X] (x k : X) (y : Y) (l : List (X × Y)) :
    alookup k (l ++ [(x, y)]) = (alookup k l).or (if x = k then some y else none) := by
  induction l with
  | nil => simp [alookup]
  | cons e l ih =>
    obtain ⟨z, v⟩ := e
    simp only [List.cons_append, alookup]
    by_cases h : z = k
    · simp [h]
    · simp [h, ih]

theorem registerT_collected {id : Option (TLabel P)} {e : TE P NC} (hid : e.label = id)
    {m m' : List (TLabel P × TE P NC)} (h : registerT id e m = .ok m') :
    Collected (fun t => t = e) m m' := by
  cases id with
  | none =>
    simp only [registerT, Res.ok.injEq] at h
    subst h
    intro l t
    constructor
    · exact .inl
    · rintro (h | ⟨h1, rfl⟩)
      · exact h
      · rw [hid] at h1; cases h1
  | some l =>
    simp only [registerT] at h
    split at h
    · cases h
    · rename_i hn
      simp only [Res.ok.injEq] at h
      subst h
      intro k t
      rw [alookup_append_single]
      by_cases hk : l = k
      · subst hk
        simp only [Option.not_isSome_iff_eq_none] at hn
        rw [hn]
        simp only [if_true, Option.none_or, Option.some.injEq, reduceCtorEq, false_or]
        constructor
        · rintro rfl; exact ⟨hid, rfl⟩
        · rintro ⟨_, rfl⟩; rfl
      · simp only [if_neg hk, Option.or_none]
        constructor
        · exact .inl
        · rintro (h | ⟨h1, rfl⟩)
          · exact h
          · rw [hid] at h1; cases h1; exact (hk rfl).elim

mutual
theorem collectT_collected : ∀ (e : TE P NC) {m m' : List (TLabel P × TE P NC)},
    collectT e m = .ok m' → Collected (fun t => TE.Part t e) m m'
  | .eachOf id es mn mx as, m, m', h => by
    simp only [collectT, Res.bind_eq_ok] at h
    obtain ⟨m1, h1, h2⟩ := h
    refine (registerT_collected (by rfl) h1 : Collected (fun t => t = _) m m1).trans (collectTs_collected es h2) ?_
    intro t
    constructor
    · intro h
      cases h with
      | self => exact .inl rfl
      | each h1 h2 => exact .inr ⟨_, h1, h2⟩
    · rintro (rfl | ⟨e, h1, h2⟩)
      · exact .self
      · exact .each h1 h2
  | .oneOf id es mn mx as, m, m', h => by
    simp only [collectT, Res.bind_eq_ok] at h
    obtain ⟨m1, h1, h2⟩ := h
    refine (registerT_collected (by rfl) h1 : Collected (fun t => t = _) m m1).trans (collectTs_collected es h2) ?_
    intro t
    constructor
    · intro h
      cases h with
      | self => exact .inl rfl
      | one h1 h2 => exact .inr ⟨_, h1, h2⟩
    · rintro (rfl | ⟨e, h1, h2⟩)
      · exact .self
      · exact .one h1 h2
  | .tc id ng iv p v mn mx as, m, m', h => by
    simp only [collectT] at h
    refine (registerT_collected (by rfl) h : Collected (fun t => t = _) m m').congr ?_
    intro t _
    constructor
    · intro h; cases h; rfl
    · rintro rfl; exact .self
  | .ref l, m, m', h => by
    simp only [collectT, Res.ok.injEq] at h
    subst h
    refine (Collected.refl m).congr ?_
    intro t ht
    constructor
    · intro h; cases h; simp [TE.label] at ht
    · exact False.elim
theorem collectTs_collected : ∀ (es : List (TE P NC)) {m m' : List (TLabel P × TE P NC)},
    collectTs es m = .ok m' → Collected (fun t => ∃ e ∈ es, TE.Part t e) m m'
  | [], m, m', h => by
    simp only [collectTs, Res.ok.injEq] at h
    subst h
    exact (Collected.refl m).congr (by simp)
  | e :: es, m, m', h => by
    simp only [collectTs, Res.bind_eq_ok] at h
    obtain ⟨m1, h1, h2⟩ := h
    exact (collectT_collected e h1).trans (collectTs_collected es h2) (by simp)
end

mutual
theorem collectS_collected : ∀ (e : SE P NC) {m m' : List (TLabel P × TE P NC)},
    collectS e m = .ok m' → Collected (fun t => SE.Part t e) m m'
  | .or es, m, m', h => by
    simp only [collectS] at h
    refine (collectSs_collected es h).congr fun t _ => ⟨?_, ?_⟩
    · rintro ⟨h1, h2⟩; exact ⟨_, by assumption, by assumption⟩
    · rintro ⟨e, h1, h2⟩; exact .or h1 h2
  | .and es, m, m', h => by
    simp only [collectS] at h
    refine (collectSs_collected es h).congr fun t _ => ⟨?_, ?_⟩
    · rintro ⟨h1, h2⟩; exact ⟨_, by assumption, by assumption⟩
    · rintro ⟨e, h1, h2⟩; exact .and h1 h2
  | .not e, m, m', h => by
    simp only [collectS] at h
    refine (collectS_collected e h).congr fun t _ => ⟨?_, ?_⟩
    · intro h; cases h; assumption
    · exact .not
  | .shape cl ex none xs as, m, m', h => by
    simp only [collectS, Res.ok.injEq] at h
    subst h
    refine (Collected.refl m).congr fun t _ => ⟨?_, False.elim⟩
    intro h; cases h
  | .shape cl ex (some te) xs as, m, m', h => by
    simp only [collectS] at h
    refine (collectT_collected te h).congr fun t _ => ⟨?_, .shape⟩
    intro h; cases h; assumption
  | .nc c, m, m', h => by
    simp only [collectS, Res.ok.injEq] at h
    subst h
    refine (Collected.refl m).congr fun t _ => ⟨?_, False.elim⟩
    intro h; cases h
  | .external, m, m', h => by
    simp only [collectS, Res.ok.injEq] at h
    subst h
    refine (Collected.refl m).congr fun t _ => ⟨?_, False.elim⟩
    intro h; cases h
  | .ref l, m, m', h => by
    simp only [collectS, Res.ok.injEq] at h
    subst h
    refine (Collected.refl m).congr fun t _ => ⟨?_, False.elim⟩
    intro h; cases h
theorem collectSs_collected : ∀ (es : List (SE P NC)) {m m' : List (TLabel P × TE P NC)},
    collectSs es m = .ok m' → Collected (fun t => ∃ e ∈ es, SE.Part t e) m m'
  | [], m, m', h => by
    simp only [collectSs, Res.ok.injEq] at h
    subst h
    exact (Collected.refl m).congr (by simp)
  | e :: es, m, m', h => by
    simp only [collectSs, Res.bind_eq_ok] at h
    obtain ⟨m1, h1, h2⟩ := h
    exact (collectS_collected e h1).trans (collectSs_collected es h2) (by simp)
end

theorem collectDecls_collected (ds : List (Decl P NC)) {m m' : List (TLabel P × TE P NC)}
    (h : collectDecls ds m = .ok m') : Collected (fun t => ∃ d ∈ ds, SE.Part t d.expr) m m' := by
  induction ds generalizing m with
  | nil =>
    simp only [collectDecls, Res.ok.injEq] at h
    subst h
    exact (Collected.refl m).congr (by simp)
  | cons d ds ih =>
    simp only [collectDecls, Res.bind_eq_ok] at h
    obtain ⟨m1, h1, h2⟩ := h
    exact (collectS_collected _ h1).trans (ih h2) (by simp)

theorem collectSource_collected {s : Source P NC} {m m' : List (TLabel P × TE P NC)}
    (h : collectSource s m = .ok m') : Collected (fun t => s.Part t) m m' := by
  simp only [collectSource, Res.bind_eq_ok] at h
  obtain ⟨m1, h1, h2⟩ := h
  refine Collected.trans (Q := fun t => ∃ e, s.start = some e ∧ SE.Part t e) ?_
    (collectDecls_collected _ h2) fun t => Iff.rfl
  cases hs : s.start with
  | none =>
    rw [hs] at h1
    simp only [collectStart, Res.ok.injEq] at h1
    subst h1
    exact (Collected.refl m).congr (by simp)
  | some e =>
    rw [hs] at h1
    simp only [collectStart] at h1
    exact (collectS_collected _ h1).congr (by simp)

theorem collectSources_collected (ss : List (Source P NC)) {m m' : List (TLabel P × TE P NC)}
    (h : collectSources ss m = .ok m') : Collected (fun t => ∃ s ∈ ss, s.Part t) m m' := by
  induction ss generalizing m with
  | nil =>
    simp only [collectSources, Res.ok.injEq] at h
    subst h
    exact (Collected.refl m).congr (by simp)
  | cons s ss ih =>
    simp only [collectSources, Res.bind_eq_ok] at h
    obtain ⟨m1, h1, h2⟩ := h
    exact (collectSource_collected h1).trans (ih h2) (by simp)

theorem collectSources_labelled {ss : List (Source P NC)} {m : List (TLabel P × TE P NC)}
    (h : collectSources ss [] = .ok m) : Labelled ss (fun l => alookup l m) := by
  intro l t
  rw [collectSources_collected ss h l t]
  simp [alookup]

/-! ## The compiler -/

/-- Labels of the declarations in the order in which they are added. -/
def startLabels (root : Source P NC) : List (SLabel P) :=
  match root.start with
  | none => []
  | some _ => [.start]

/-- Whatever the compiler returns is a compiled core schema. -/
theorem compile_compiled {W : World N P NC} {n : Nat} {s : Source P NC} {src : P} {base : Option P}
    {st : St N P} {vis : List P} (h : compile W n s src base = .ok (st, vis)) :
    ∃ asts tes own D ls, Imported W (W.rewrite s) src base asts ∧ vis.Perm (asts.map Prod.snd) ∧
      Labelled (asts.map Prod.fst ++ [W.rewrite s]) tes ∧
      CoreOf (W.ctxt (W.rewrite s)) tes (allDecls (asts.map Prod.fst) (W.rewrite s)) D ∧
      Compiled (PartOf (W.ctxt (W.rewrite s)) tes (allDecls (asts.map Prod.fst) (W.rewrite s))) st own D ∧
      List.Forall₂ Label.Names
        (((asts.map Prod.fst).flatMap Source.shapes ++ (W.rewrite s).shapes).map Decl.id) ls ∧
      (∀ l i, st.idx l = some i ↔ (ls ++ startLabels (W.rewrite s))[i]? = some l ∧
        ∀ j, i < j → (ls ++ startLabels (W.rewrite s))[j]? ≠ some l) ∧
      (∀ i, i ∈ st.abstr ↔ (((asts.map Prod.fst).flatMap Source.shapes ++
        (W.rewrite s).shapes).map Decl.abstr)[i]? = some true) := by
  simp only [compile, Res.bind_eq_ok] at h
  obtain ⟨a, ha, _, _, st1, h1, st2, h2, m, hm, st3, h3, h4⟩ := h
  simp only [Res.ok.injEq, Prod.mk.injEq] at h4
  obtain ⟨rfl, rfl⟩ := h4
  obtain ⟨hi, hp⟩ := collectImports_imported n ha
  obtain ⟨ls0, hn0, hadd0⟩ := collectImports_added n ⟨[], .nil, Added.init⟩ ha
  obtain ⟨ls1, hn1, hadd1⟩ := addDecls_added hadd0 h1
  have hn : List.Forall₂ Label.Names
      (((a.asts.map Prod.fst).flatMap Source.shapes ++ (W.rewrite s).shapes).map Decl.id)
      (ls0 ++ ls1) := by
    have := List.rel_append hn0 hn1
    simpa [List.flatMap_map] using this
  have habs : ((a.asts.map Prod.fst).flatMap Source.shapes ++ (W.rewrite s).shapes).map Decl.abstr =
      (a.asts.flatMap fun x => x.1.shapes).map Decl.abstr ++ (W.rewrite s).shapes.map Decl.abstr := by
    simp [List.flatMap_map]
  have hl := collectSources_labelled hm
  -- the start expression
  have hstart : ∃ K own D, Phase (PartOf (W.ctxt (W.rewrite s)) (fun l => alookup l m)
      (startDecls (W.rewrite s))) K st2 own D ∧
      CoreOf (W.ctxt (W.rewrite s)) (fun l => alookup l m)
        (startDecls (W.rewrite s)) D ∧
      (∀ l i, st2.idx l = some i ↔ ((ls0 ++ ls1) ++ startLabels (W.rewrite s))[i]? = some l ∧
        ∀ j, i < j → ((ls0 ++ ls1) ++ startLabels (W.rewrite s))[j]? ≠ some l) ∧
      (∀ l, (st2.idx l).isSome = true ↔ l ∈ (ls0 ++ ls1) ++ startLabels (W.rewrite s)) ∧
      (∀ i, i ∈ st2.abstr ↔ i ∈ st1.abstr) := by
    cases hs : (W.rewrite s).start with
    | none =>
      rw [hs] at h2
      simp only [compileStart, Res.ok.injEq] at h2
      subst h2
      refine ⟨_, _, _, hadd1.phase _, ?_, ?_, ?_, fun i => Iff.rfl⟩
      · rw [startDecls, hs]
        intro l
        exact ⟨by simp, by simp⟩
      · simpa [startLabels, hs] using hadd1.idx
      · simpa [startLabels, hs] using hadd1.mem
    | some e =>
      rw [hs] at h2
      simp only [compileStart, Res.bind_eq_ok] at h2
      obtain ⟨⟨r, st'⟩, h5, h6⟩ := h2
      simp only [Res.ok.injEq] at h6
      subst h6
      have hadd2 := hadd1.snoc .start false (st' := (st1.addShape .start).2) rfl
      have hidx : (st1.addShape .start).2.idx .start = some (st1.addShape .start).1 := by
        rw [St.idx_addShape, if_pos rfl]; rfl
      obtain ⟨c, own, hstand, hph, e1, e2, e3⟩ := (hadd2.phase fun _ => False).step hidx h5
      have hidx' : ∀ l, (st'.replace (st1.addShape .start).1 r).idx l = (st1.addShape .start).2.idx l := by
        intro l; simp only [St.idx, e1]
      refine ⟨_, own, _, hph.weaken fun d hd => ?_, ?_, ?_, ?_, ?_⟩
      · rcases hd with hd | hd
        · exact hd.elim
        · exact ⟨(.start, e), by simp [startDecls, hs], c, hstand.mono (by simp), hd⟩
      · have h0 : CoreOf (W.ctxt (W.rewrite s)) (fun l => alookup l m) [] (fun _ => none : Decls N P) := by
          intro l; exact ⟨by simp, by simp⟩
        rw [startDecls, hs]
        exact h0.snoc (id := .start) (l := .start) rfl (hstand.mono (by simp))
      · intro l i
        rw [hidx']
        simpa [startLabels, hs] using hadd2.idx l i
      · intro l
        rw [hidx']
        simpa [startLabels, hs] using hadd2.mem l
      · intro i
        rw [e3]; simp [St.addShape]
  obtain ⟨K, own0, D0, hph, hcore, hidx, hmem, habs2⟩ := hstart
  obtain ⟨own1, D1, hph1, hcore1, e1, e2, e3⟩ := compileSources_phase _ hph hcore h3
  have hcore2 : CoreOf (W.ctxt (W.rewrite s)) (fun l => alookup l m)
      (allDecls (a.asts.map Prod.fst) (W.rewrite s)) D1 := by
    have : ∀ l : List (Decl P NC), l.map Decl.pair = l.map fun d => (d.id, d.expr) := fun l => rfl
    rw [this] at hcore1
    simpa [allDecls] using hcore1
  have hph2 : Phase (PartOf (W.ctxt (W.rewrite s)) (fun l => alookup l m)
      (allDecls (a.asts.map Prod.fst) (W.rewrite s))) K st3 own1 D1 := by
    have : ∀ l : List (Decl P NC), l.map Decl.pair = l.map fun d => (d.id, d.expr) := fun l => rfl
    rw [this] at hph1
    simpa [allDecls] using hph1
  have hidx3 : ∀ l, st3.idx l = st2.idx l := by intro l; simp only [St.idx, e1]
  have hD : ∀ l, (st3.idx l).isSome = true → (D1 l).isSome = true := by
    intro l hl
    rw [hidx3, hmem] at hl
    by_contra hno
    simp only [Option.not_isSome_iff_eq_none] at hno
    have hnone := (hcore2 l).2 hno
    rcases List.mem_append.1 hl with hl | hl
    · obtain ⟨id, hid, hidn⟩ : ∃ id ∈ (((a.asts.map Prod.fst).flatMap Source.shapes ++
          (W.rewrite s).shapes).map Decl.id), id.Names l := by
        clear * - hn hl
        generalize ((a.asts.map Prod.fst).flatMap Source.shapes ++ (W.rewrite s).shapes).map Decl.id = L at hn
        generalize ls0 ++ ls1 = M at hn hl
        induction hn with
        | nil => simp at hl
        | @cons x y _ _ h _ ih =>
          rcases List.mem_cons.1 hl with rfl | hl
          · exact ⟨x, by simp, h⟩
          · obtain ⟨id, h1, h2⟩ := ih hl
            exact ⟨id, by simp [h1], h2⟩
      obtain ⟨d, hd, rfl⟩ := List.mem_map.1 hid
      refine hnone (d.id, d.expr) ?_ hidn
      unfold allDecls
      exact List.mem_append_right _ (List.mem_map.2 ⟨d, hd, rfl⟩)
    · cases hs : (W.rewrite s).start with
      | none => simp [startLabels, hs] at hl
      | some e =>
        simp only [startLabels, hs, List.mem_singleton] at hl
        subst hl
        refine hnone (.start, e) ?_ rfl
        simp [allDecls, startDecls, hs]
  refine ⟨a.asts, _, own1, D1, ls0 ++ ls1, hi, hp, hl, hcore2, hph2.compiled hD, hn, ?_, ?_⟩
  · intro l i
    rw [hidx3]; exact hidx l i
  · intro i
    rw [e3, habs2, hadd1.abstr, habs]

end Comp
