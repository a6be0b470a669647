import Verif.Comp.LemmasTotal

/-!
# When the compiler succeeds
-/

namespace Comp
open Shex Rbe

variable {N P NC : Type} [DecidableEq P]

omit [DecidableEq P] in
theorem forall₂_names {ids : List (Label P)} {ls : List (SLabel P)}
    (h : List.Forall₂ Label.Names ids ls) (l : SLabel P) : l ∈ ls ↔ ∃ id ∈ ids, id.Names l := by
  induction h with
  | nil => simp
  | @cons a b _ _ h1 _ ih =>
    simp only [List.mem_cons, ih]
    constructor
    · rintro (rfl | ⟨id, h2, h3⟩)
      · exact ⟨a, .inl rfl, h1⟩
      · exact ⟨id, .inr h2, h3⟩
    · rintro ⟨id, rfl | h2, h3⟩
      · exact .inl (h3.unique h1)
      · exact .inr ⟨id, h2, h3⟩

omit [DecidableEq P] in
theorem mem_allDecls {ss : List (Source P NC)} {root : Source P NC} {d : Label P × SE P NC} :
    d ∈ allDecls ss root ↔ (∃ e, root.start = some e ∧ d = (.start, e)) ∨
      ∃ x ∈ ss.flatMap Source.shapes ++ root.shapes, d = (x.id, x.expr) := by
  unfold allDecls startDecls
  rw [List.mem_append, List.mem_map]
  have h1 : (∃ a ∈ ss.flatMap Source.shapes ++ root.shapes, (a.id, a.expr) = d) ↔
      ∃ x ∈ ss.flatMap Source.shapes ++ root.shapes, d = (x.id, x.expr) :=
    ⟨fun ⟨a, h, e⟩ => ⟨a, h, e.symm⟩, fun ⟨a, h, e⟩ => ⟨a, h, e.symm⟩⟩
  rw [h1]
  cases hs : root.start with
  | none => simp
  | some e => simp

theorem declared_iff {asts : List (Source P NC × P)} {root : Source P NC} {ls : List (SLabel P)}
    (hn : List.Forall₂ Label.Names (((asts.map Prod.fst).flatMap Source.shapes ++ root.shapes).map Decl.id)
      ls) (l : SLabel P) :
    l ∈ ls ++ startLabels root ↔ ∃ d ∈ allDecls (asts.map Prod.fst) root, d.1.Names l := by
  rw [List.mem_append, forall₂_names hn]
  constructor
  · rintro (⟨id, h1, h2⟩ | h)
    · obtain ⟨x, hx, rfl⟩ := List.mem_map.1 h1
      exact ⟨(x.id, x.expr), mem_allDecls.2 (.inr ⟨x, hx, rfl⟩), h2⟩
    · unfold startLabels at h
      cases hs : root.start with
      | none => rw [hs] at h; simp at h
      | some e =>
        rw [hs] at h
        simp only [List.mem_singleton] at h
        subst h
        exact ⟨(.start, e), mem_allDecls.2 (.inl ⟨e, hs, rfl⟩), rfl⟩
  · rintro ⟨d, h1, h2⟩
    rcases mem_allDecls.1 h1 with ⟨e, hs, rfl⟩ | ⟨x, hx, rfl⟩
    · right
      have : l = .start := Label.Names.unique h2 rfl
      subst this
      simp [startLabels, hs]
    · exact .inl ⟨x.id, List.mem_map.2 ⟨x, hx, rfl⟩, h2⟩

/-- The labels have been added. -/
theorem added_labels {W : World N P NC} {n : Nat} {root : Source P NC} {src : P} {base : Option P}
    {a : Acc N P NC} (ha : collectImports W n root src base ⟨[], [], St.init⟩ = .ok a) {st1 : St N P}
    (h1 : addDecls root.shapes a.st = .ok st1) :
    ∃ ls bs, List.Forall₂ Label.Names
      (((a.asts.map Prod.fst).flatMap Source.shapes ++ root.shapes).map Decl.id) ls ∧ Added st1 ls bs := by
  obtain ⟨ls0, hn0, hadd0⟩ := collectImports_added n ⟨[], .nil, Added.init⟩ ha
  obtain ⟨ls1, hn1, hadd1⟩ := addDecls_added hadd0 h1
  refine ⟨ls0 ++ ls1, _, ?_, hadd1⟩
  have := List.rel_append hn0 hn1
  simpa [List.flatMap_map] using this

/-- The state in which the declarations are compiled. -/
theorem start_phase {G : Ctxt N P NC} {n : Nat} {root : Source P NC} {st1 st2 : St N P}
    {ls : List (SLabel P)} {bs : List Bool} (hadd : Added st1 ls bs)
    (h2 : compileStart G n root.start st1 = .ok st2) :
    (∃ Q K own D, Phase Q K st2 own D) ∧
      (∀ l, (st2.idx l).isSome = true ↔ l ∈ ls ++ startLabels root) ∧
      ∀ e, root.start = some e → ∃ c, Stands G (fun _ => none) c e ∧ c.Known st2.idx := by
  cases hs : root.start with
  | none =>
    rw [hs] at h2
    simp only [compileStart, Res.ok.injEq] at h2
    subst h2
    refine ⟨⟨_, _, _, _, hadd.phase fun _ => False⟩, ?_, by simp⟩
    simpa [startLabels, hs] using hadd.mem
  | some e =>
    rw [hs] at h2
    simp only [compileStart, Res.bind_eq_ok] at h2
    obtain ⟨⟨r, st'⟩, h5, h6⟩ := h2
    simp only [Res.ok.injEq] at h6
    subst h6
    have hadd2 := hadd.snoc .start false (st' := (st1.addShape .start).2) rfl
    have hidx : (st1.addShape .start).2.idx .start = some (st1.addShape .start).1 := by
      rw [St.idx_addShape, if_pos rfl]; rfl
    obtain ⟨c, own, hstand, hph, e1, e2, e3⟩ := (hadd2.phase fun _ => False).step hidx h5
    have hidx' : ∀ l, (st'.replace (st1.addShape .start).1 r).idx l = (st1.addShape .start).2.idx l := by
      intro l; simp only [St.idx, e1]
    refine ⟨⟨_, _, _, _, hph⟩, ?_, ?_⟩
    · intro l
      rw [hidx']
      simpa [startLabels, hs] using hadd2.mem l
    · rintro e' he
      cases he
      obtain ⟨r', _, hloc⟩ := hph.done .start _ c (by rw [hidx']; exact hidx) (by simp)
      exact ⟨c, hstand, hph.known_loc hloc⟩

theorem start_total {G : Ctxt N P NC} {n : Nat} {root : Source P NC} {st1 : St N P}
    {ls : List (SLabel P)} {bs : List Bool} (hadd : Added st1 ls bs)
    (h : ∀ e, root.start = some e → ∃ c, Stands G (fun _ => none) c e ∧
      (∀ l, c.Uses l → l ∈ ls ++ startLabels root) ∧ sizeOf c ≤ n) :
    ∃ st2, compileStart G n root.start st1 = .ok st2 := by
  cases hs : root.start with
  | none => exact ⟨st1, rfl⟩
  | some e =>
    obtain ⟨c, hc, hk, hn⟩ := h e hs
    have hadd2 := hadd.snoc .start false (st' := (st1.addShape .start).2) rfl
    have hidx : (st1.addShape .start).2.idx .start = some (st1.addShape .start).1 := by
      rw [St.idx_addShape, if_pos rfl]; rfl
    have hph := hadd2.phase fun _ => False
    have hlt := (hph.idx _ _ hidx).1
    obtain ⟨r, st', h5⟩ := (compile_total G (fun _ => none) n).1 c e (st1.addShape .start).1 _ _ hn hc
      (fun l hl => (hadd2.mem l).2 (by simpa [startLabels, hs] using hk l hl)) hph.ready hlt
    exact ⟨st'.replace (st1.addShape .start).1 r, by simp only [compileStart, h5, Res.bind]⟩

theorem flatMap_shapes (ss : List (Source P NC)) (root : Source P NC) :
    (ss ++ [root]).flatMap Source.shapes = ss.flatMap Source.shapes ++ root.shapes := by
  simp

/-- Whatever is compiled can be compiled. -/
theorem compilable_of_ok {W : World N P NC} {n : Nat} {s : Source P NC} {src : P} {base : Option P}
    {r : St N P × List P} (h : compile W n s src base = .ok r) :
    ∃ asts tes, Compilable W (W.rewrite s) src base asts tes := by
  simp only [compile, Res.bind_eq_ok] at h
  obtain ⟨a, ha, acts, hacts, st1, h1, st2, h2, m, hm, st3, h3, _⟩ := h
  obtain ⟨hi, _⟩ := collectImports_imported n ha
  obtain ⟨hr1, hr2⟩ := collectImports_resolve n ha
  obtain ⟨ls, bs, hn, hadd⟩ := added_labels ha h1
  obtain ⟨⟨Q, K, own, D, hph⟩, hmem, hstart⟩ := start_phase hadd h2
  rw [compileSources_eq, flatMap_shapes] at h3
  obtain ⟨hres, _⟩ := compileDecls_resolved _ hph h3
  have hdecl : ∀ l, (st2.idx l).isSome = true → ∃ d ∈ allDecls (a.asts.map Prod.fst) (W.rewrite s),
      d.1.Names l := fun l hl => (declared_iff hn l).1 ((hmem l).1 hl)
  have hsound := (collectSources_adds (a.asts.map Prod.fst ++ [W.rewrite s]) []).sound m hm
  simp only [List.map_nil, List.nil_append, List.nodup_nil, forall_const] at hsound
  refine ⟨a.asts, fun l => alookup l m, hi, ⟨hr1, hr2 (by simp)⟩, ?_, ?_, collectSources_labelled hm, ?_, ?_⟩
  · rw [mapRes_eq_ok] at hacts
    intro x hx
    generalize (W.rewrite s).startActs = as at hacts hx
    clear * - hacts hx
    induction hacts with
    | nil => simp at hx
    | @cons a b _ _ h _ ih =>
      rcases List.mem_cons.1 hx with rfl | hx
      · exact ⟨b.1, (cnvAct_eq_ok.1 h).1⟩
      · exact ih hx
  · rw [← hsound.1]
    exact hsound.2
  · refine ⟨?_, ?_⟩
    · intro d hd
      rcases mem_allDecls.1 hd with ⟨e, _, rfl⟩ | ⟨x, hx, rfl⟩
      · exact ⟨.start, rfl⟩
      · have : x.id ∈ ((a.asts.map Prod.fst).flatMap Source.shapes ++ (W.rewrite s).shapes).map Decl.id :=
          List.mem_map.2 ⟨x, hx, rfl⟩
        dsimp only
        generalize x.id = id at this
        generalize ((a.asts.map Prod.fst).flatMap Source.shapes ++ (W.rewrite s).shapes).map Decl.id = ids
          at hn this
        clear * - hn this
        induction hn with
        | nil => simp at this
        | @cons a b _ _ h _ ih =>
          rcases List.mem_cons.1 this with rfl | this
          · exact ⟨b, h⟩
          · exact ih this
    · intro d hd
      rcases mem_allDecls.1 hd with ⟨e, he, rfl⟩ | ⟨x, hx, rfl⟩
      · obtain ⟨c, hc, hk⟩ := hstart e he
        exact ⟨c, hc.mono (by simp), fun l hl => hdecl l (hk l hl)⟩
      · obtain ⟨c, hc, hk⟩ := hres x hx
        exact ⟨c, hc, fun l hl => hdecl l (hk l hl)⟩
  · intro e he
    obtain ⟨c, hc, _⟩ := hstart e he
    exact ⟨c, hc⟩

theorem Labelled.perm {ss ss' : List (Source P NC)} (h : ss.Perm ss')
    {tes : TLabel P → Option (TE P NC)} (hl : Labelled ss tes) : Labelled ss' tes := by
  intro l t
  rw [hl l t]
  exact and_congr_right fun _ => ⟨fun ⟨s, h1, h2⟩ => ⟨s, h.mem_iff.1 h1, h2⟩,
    fun ⟨s, h1, h2⟩ => ⟨s, h.mem_iff.2 h1, h2⟩⟩

/-- A bound for finitely many. -/
theorem exists_bound {A : Type} {F : A → Nat → Prop} (l : List A) (h : ∀ a ∈ l, ∃ n, F a n) :
    ∃ m, ∀ a ∈ l, ∃ n ≤ m, F a n := by
  induction l with
  | nil => exact ⟨0, by simp⟩
  | cons a l ih =>
    obtain ⟨n, hn⟩ := h a (by simp)
    obtain ⟨m, hm⟩ := ih fun b hb => h b (by simp [hb])
    refine ⟨max n m, ?_⟩
    intro b hb
    rcases List.mem_cons.1 hb with rfl | hb
    · exact ⟨n, le_max_left _ _, hn⟩
    · obtain ⟨k, hk, hF⟩ := hm b hb
      exact ⟨k, le_trans hk (le_max_right _ _), hF⟩

/-- Whatever can be compiled is compiled, given enough depth. -/
theorem ok_of_compilable {W : World N P NC} (hf : ∀ i f f', W.fetch i f = W.fetch i f')
    {s : Source P NC} {src : P} {base : Option P} {asts : List (Source P NC × P)}
    {tes : TLabel P → Option (TE P NC)} (h : Compilable W (W.rewrite s) src base asts tes) :
    ∃ n₀, ∀ n ≥ n₀, ∃ r : St N P × List P, compile W n s src base = .ok r := by
  -- sizes
  obtain ⟨m, hm⟩ := exists_bound (F := fun d n => ∃ c, Stands (W.ctxt (W.rewrite s)) tes c d.2 ∧
      (∀ l, c.Uses l → ∃ d' ∈ allDecls (asts.map Prod.fst) (W.rewrite s), d'.1.Names l) ∧ sizeOf c = n)
    (allDecls (asts.map Prod.fst) (W.rewrite s))
    (fun d hd => by
      obtain ⟨c, h1, h2⟩ := h.resolved.2 d hd
      exact ⟨_, c, h1, h2, rfl⟩)
  refine ⟨max m (asts.length + 1), fun n hn => ?_⟩
  have hmn : m ≤ n := le_trans (le_max_left _ _) hn
  have hln : asts.length < n := lt_of_lt_of_le (Nat.lt_succ_self _) (le_trans (le_max_right _ _) hn)
  -- imports
  have hclosed : ClosedList W src (asts.map Prod.snd) := by
    intro i hi f _
    obtain ⟨x, hx, rfl⟩ := List.mem_map.1 hi
    obtain ⟨f', s', _, h1, h2⟩ := h.imported.fetched x hx
    refine ⟨s', by rw [hf _ f f']; exact h1, ?_, ?_⟩
    · intro d hd
      refine h.resolved.1 (d.id, d.expr) (mem_allDecls.2 (.inr ⟨d, ?_, rfl⟩))
      rw [← h2] at hd
      exact List.mem_append_left _ (List.mem_flatMap.2 ⟨x.1, List.mem_map.2 ⟨x, hx, rfl⟩, hd⟩)
    · intro t ht
      rw [← h2] at ht
      obtain ⟨j, hj⟩ := h.imports.2 x hx t ht
      exact ⟨j, (h.imported.reached j).2 (.next hx ((h.imported.reached x.2).1 hi) ⟨t, ht, hj⟩), hj⟩
  obtain ⟨a, ha⟩ := collectImports_total (N := N) hclosed n (W.rewrite s) src base
    ⟨[], [], St.init⟩ (.inl rfl)
    (fun t ht => by
      obtain ⟨j, hj⟩ := h.imports.1 t ht
      exact ⟨j, (h.imported.reached j).2 (.first ⟨t, ht, hj⟩), hj⟩)
    (lt_of_le_of_lt (by
      unfold remaining
      refine (List.length_filter_le _ _).trans ?_
      simp) hln)
  obtain ⟨hi, _⟩ := collectImports_imported n ha
  have hperm := h.imported.perm hf hi
  have hpf : (asts.map Prod.fst).Perm (a.asts.map Prod.fst) := hperm.map _
  have hdecls : (allDecls (asts.map Prod.fst) (W.rewrite s)).Perm
      (allDecls (a.asts.map Prod.fst) (W.rewrite s)) := by
    unfold allDecls
    exact List.Perm.append_left _ (((hpf.flatMap_right _).append_right _).map _)
  -- start actions
  obtain ⟨acts, hacts⟩ := mapRes_total (f := cnvAct (W.ctxt (W.rewrite s)))
    (as := (W.rewrite s).startActs) (fun x hx => by
      obtain ⟨i, hi⟩ := h.acts x hx
      exact ⟨(i, x.code), cnvAct_eq_ok.2 ⟨hi, rfl⟩⟩)
  -- labels of the root
  obtain ⟨st1, h1⟩ := addDecls_total (ds := (W.rewrite s).shapes) (fun d hd =>
    h.resolved.1 (d.id, d.expr) (mem_allDecls.2 (.inr ⟨d, List.mem_append_right _ hd, rfl⟩))) a.st
  obtain ⟨ls, bs, hnames, hadd⟩ := added_labels ha h1
  have hdeclared : ∀ l, (∃ d ∈ allDecls (asts.map Prod.fst) (W.rewrite s), d.1.Names l) →
      l ∈ ls ++ startLabels (W.rewrite s) := by
    rintro l ⟨d, hd, hl⟩
    exact (declared_iff hnames l).2 ⟨d, hdecls.mem_iff.1 hd, hl⟩
  -- the start expression
  obtain ⟨st2, h2⟩ := start_total (G := W.ctxt (W.rewrite s)) (n := n) hadd (fun e he => by
    obtain ⟨c, hc⟩ := h.start e he
    obtain ⟨k, hk, c', hc', hu, hs⟩ := hm (.start, e) (mem_allDecls.2 (.inl ⟨e, he, rfl⟩))
    have := (hc.mono (tes' := tes) (by simp)).unique hc'
    subst this
    exact ⟨c, hc, fun l hl => hdeclared l (hu l hl), by omega⟩)
  obtain ⟨⟨Q, K, own, D, hph⟩, hmem, _⟩ := start_phase hadd h2
  -- labels of triple expressions
  obtain ⟨mm, hmm⟩ := (collectSources_adds (a.asts.map Prod.fst ++ [W.rewrite s]) []).total (by
    simp only [List.map_nil, List.nil_append]
    exact ((hpf.append_right _).flatMap_right _).nodup_iff.1 h.distinct)
  have htes : (fun l => alookup l mm) = tes :=
    (collectSources_labelled hmm).unique (h.labelled.perm (hpf.append_right _))
  -- declarations
  obtain ⟨st3, h3⟩ := compileDecls_total (G := W.ctxt (W.rewrite s)) (tes := tes) (n := n)
    ((a.asts.map Prod.fst).flatMap Source.shapes ++ (W.rewrite s).shapes) hph (fun d hd => by
      have hd' : (d.id, d.expr) ∈ allDecls (asts.map Prod.fst) (W.rewrite s) :=
        hdecls.mem_iff.2 (mem_allDecls.2 (.inr ⟨d, hd, rfl⟩))
      obtain ⟨l, hl⟩ := h.resolved.1 _ hd'
      obtain ⟨k, hk, c, hc, hu, hs⟩ := hm _ hd'
      exact ⟨⟨l, hl, (hmem l).2 (hdeclared l ⟨_, hd', hl⟩)⟩, c, hc,
        fun l hl => (hmem l).2 (hdeclared l (hu l hl)), by omega⟩)
  refine ⟨(st3, a.visited), ?_⟩
  simp only [compile, ha, hacts, h1, h2, hmm, Res.bind, htes, compileSources_eq, flatMap_shapes, h3]

end Comp
