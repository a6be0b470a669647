import Verif.Comp.LemmasStrat
import Verif.Comp.LemmasEnds
import Verif.Shex.PropsShape

/-!
# Properties C97–C103 of the compiler

Examples and refutations are in `Verif/Comp/PropsExamples.lean`.
-/

namespace Comp
open Shex Rbe

variable {N P NC : Type} [DecidableEq P]

/-! ## C97 -/

/-- **C97**. The compiled schema has the typings of the written one: read off the labels, a typing of
the compiled schema is a typing of the written schema, and every typing of the written schema is
obtained from one. -/
theorem C97_typings (W : World N P NC) (n : Nat) (s : Source P NC) (src : P) (base : Option P)
    (st : St N P) (vis : List P) (h : compile W n s src base = .ok (st, vis)) :
    ∃ asts tes D, Written W (W.rewrite s) src base asts tes D ∧
      ∀ (E : Env N P) (ext : Option (SLabel P) → N → Prop), E.schema = st.schema →
        (∀ m i, E.external m i = true ↔ ext (st.name i) m) →
        (∀ I, Fixed E I → Typing E.graph ext D fun m l => ∃ i, st.idx l = some i ∧ I (m, i)) ∧
        ∀ T, Typing E.graph ext D T →
          ∃ I, Fixed E I ∧ ∀ m l i, st.idx l = some i → (I (m, i) ↔ T m l) := by
  obtain ⟨asts, tes, own, D, ls, h1, _, h3, h4, h5, _⟩ := compile_compiled h
  refine ⟨asts, tes, D, ⟨h1, h3, h4⟩, fun E ext hE hx => ⟨fun I hI => typing_of_fixed h5 hE hx hI, ?_⟩⟩
  intro T hT
  exact ⟨_, fixed_of_typing h5 hE hx hT, fun m l i hi => (agree_onIndices E.graph h5 T).label m l i hi⟩

/-- **C97** (determinacy). Given the order of the imported schemas, the written schema is determined. -/
theorem C97_determined (W : World N P NC) (root : Source P NC) (src : P) (base : Option P)
    (asts : List (Source P NC × P)) (tes tes' : TLabel P → Option (TE P NC)) (D D' : Decls N P)
    (h : Written W root src base asts tes D) (h' : Written W root src base asts tes' D') :
    tes = tes' ∧ D = D' := by
  have e := h.labelled.unique h'.labelled
  subst e
  exact ⟨rfl, h.core.unique h'.core⟩

/-- **C97** (labels). A label has an index in the compiled schema exactly when it is declared. -/
theorem C97_labels (W : World N P NC) (n : Nat) (s : Source P NC) (src : P) (base : Option P)
    (st : St N P) (vis : List P) (h : compile W n s src base = .ok (st, vis)) :
    ∃ asts tes D, Written W (W.rewrite s) src base asts tes D ∧
      (∀ l, (st.idx l).isSome = true ↔ ∃ d ∈ allDecls (asts.map Prod.fst) (W.rewrite s), d.1.Names l) ∧
      (∀ l i, st.idx l = some i → st.name i = some l) := by
  obtain ⟨asts, tes, own, D, ls, h1, _, h3, h4, h5, h6, _⟩ := compile_compiled h
  refine ⟨asts, tes, D, ⟨h1, h3, h4⟩, ?_, fun l i hi => (h5.label l i hi).1⟩
  intro l
  rw [h5.known]
  constructor
  · intro hd
    obtain ⟨c, hc⟩ := Option.isSome_iff_exists.1 hd
    obtain ⟨e, ⟨pre, post, id, he, hn, _⟩, _⟩ := (h4 l).1 c hc
    exact ⟨(id, e), by rw [he]; simp, hn⟩
  · rintro ⟨d, hd, hn⟩
    by_contra hno
    simp only [Option.not_isSome_iff_eq_none] at hno
    exact (h4 l).2 hno d hd hn

/-! ## C98 -/

/-- **C98**. Without negation the greatest typing of the compiled schema is the one of the written
schema. -/
theorem C98_greatest (W : World N P NC) (n : Nat) (s : Source P NC) (src : P) (base : Option P)
    (st : St N P) (vis : List P) (h : compile W n s src base = .ok (st, vis)) :
    ∃ asts tes D, Written W (W.rewrite s) src base asts tes D ∧
      ((∀ l c, D l = some c → c.Positive) →
        ∀ (E : Env N P) (ext : Option (SLabel P) → N → Prop), E.schema = st.schema →
          (∀ m i, E.external m i = true ↔ ext (st.name i) m) →
          ∀ l i, st.idx l = some i → ∀ m,
            (GreatestTyping E (m, i) ↔ GreatestOf E.graph ext D m l)) := by
  obtain ⟨asts, tes, own, D, ls, h1, _, h3, h4, h5, _⟩ := compile_compiled h
  exact ⟨asts, tes, D, ⟨h1, h3, h4⟩, fun hp E ext hE hx l i hi m => greatest_iff h5 hE hx hp hi⟩

/-! ## C99 -/

theorem abstr_nil {W : World N P NC} {n : Nat} {s : Source P NC} {src : P} {base : Option P}
    {st : St N P} {vis : List P} (h : compile W n s src base = .ok (st, vis)) :
    ∃ asts tes own D, Written W (W.rewrite s) src base asts tes D ∧
      Compiled (PartOf (W.ctxt (W.rewrite s)) tes (allDecls (asts.map Prod.fst) (W.rewrite s))) st own D ∧
      ((∀ d ∈ (asts.map Prod.fst).flatMap Source.shapes ++ (W.rewrite s).shapes, d.abstr = false) →
        st.abstr = []) := by
  obtain ⟨asts, tes, own, D, ls, h1, _, h3, h4, h5, _, _, h8⟩ := compile_compiled h
  refine ⟨asts, tes, own, D, ⟨h1, h3, h4⟩, h5, fun ha => ?_⟩
  cases hs : st.abstr with
  | nil => rfl
  | cons i is =>
    have := (h8 i).1 (by rw [hs]; simp)
    rw [List.getElem?_map] at this
    obtain ⟨d, hd, hd'⟩ := Option.map_eq_some_iff.1 this
    rw [ha d (List.mem_of_getElem? hd)] at hd'
    cases hd'

theorem Compiled.nodup_keys {Q : Core N P → Prop} {st : St N P} {own : Nat → Option (Core N P)}
    {D : Decls N P} (h : Compiled Q st own D) : (st.schema.shapes.map Prod.fst).Nodup := by
  have : st.schema.shapes.map Prod.fst = List.range st.counter := h.keys
  rw [this]
  exact List.nodup_range

/-- **C99** (no negation). Compiling a schema and validating a node against a label answers whether
the pair belongs to the greatest typing of the written schema. -/
theorem C99_validate [DecidableEq N] (W : World N P NC) (n : Nat) (s : Source P NC) (src : P)
    (base : Option P) (st : St N P) (vis : List P) (h : compile W n s src base = .ok (st, vis)) :
    ∃ asts tes D, Written W (W.rewrite s) src base asts tes D ∧
      ((∀ d ∈ (asts.map Prod.fst).flatMap Source.shapes ++ (W.rewrite s).shapes, d.abstr = false) →
       (∀ d ∈ allDecls (asts.map Prod.fst) (W.rewrite s), ∀ c, Stands (W.ctxt (W.rewrite s)) tes c d.2 →
          c.Plain ∧ c.Positive) →
        ∀ (E : Env N P) (ext : Option (SLabel P) → N → Prop), E.schema = st.schema →
          (∀ m i, E.external m i = true ↔ ext (st.name i) m) → E.Shuffles → Enumerates E.enum →
          ∀ (x : Ext N P) (order : Nat → List (N × Nat) → List (N × Nat)),
            SameElements (E.sys x order) → ∀ l i, st.idx l = some i → ∀ m k b s',
              prove (E.sys x order) k (m, i) [] Shex.St.init = .ok (b, s') →
                (b = true ↔ GreatestOf E.graph ext D m l)) := by
  obtain ⟨asts, tes, own, D, hw, h5, ha⟩ := abstr_nil h
  refine ⟨asts, tes, D, hw, ?_⟩
  intro habs hdec E ext hE hx hsh he x order ho l i hi m k b s' hp
  obtain ⟨p1, p2, p3⟩ := h5.engine hw.core (fun d hd c hc => (hdec d hd c hc).1) (ha habs)
  have p4 := h5.positive hw.core (fun d hd c hc => (hdec d hd c hc).2)
  have hpos : ∀ l c, D l = some c → c.Positive := by
    intro l c hc
    obtain ⟨e, ⟨pre, post, id, hds, _, _⟩, hst⟩ := (hw.core l).1 c hc
    exact (hdec (id, e) (by rw [hds]; simp) c hst).2
  rw [← hE] at p1 p2 p3 p4
  rw [C20_schema_greatest E (by rw [hE]; exact h5.nodup_keys) hsh he p1 p2 p3 p4 x order ho k (m, i) b s' hp]
  exact greatest_iff h5 hE hx hpos hi

/-- **C99** (stratified negation). When the labels can be ranked so that no reference goes up and every
negated one goes down, the written schema has exactly one stratified typing, and validating a node
against a label of the compiled schema answers whether the pair belongs to it. -/
theorem C99_validate_stratified [DecidableEq N] (W : World N P NC) (n : Nat) (s : Source P NC) (src : P)
    (base : Option P) (st : St N P) (vis : List P) (h : compile W n s src base = .ok (st, vis)) :
    ∃ asts tes D, Written W (W.rewrite s) src base asts tes D ∧
      ((∀ d ∈ (asts.map Prod.fst).flatMap Source.shapes ++ (W.rewrite s).shapes, d.abstr = false) →
       (∀ d ∈ allDecls (asts.map Prod.fst) (W.rewrite s), ∀ c, Stands (W.ctxt (W.rewrite s)) tes c d.2 →
          c.Plain) →
        ∀ (rank : SLabel P → Nat), Ranks D rank →
        ∀ (E : Env N P) (ext : Option (SLabel P) → N → Prop), E.schema = st.schema →
          (∀ m i, E.external m i = true ↔ ext (st.name i) m) → E.Shuffles → Enumerates E.enum →
          ∃ T, StratifiedOf E.graph ext D rank T ∧
            (∀ T', StratifiedOf E.graph ext D rank T' → ∀ m l, T' m l ↔ T m l) ∧
            ∀ (x : Ext N P) (order : Nat → List (N × Nat) → List (N × Nat)),
              SameElements (E.sys x order) → ∀ l i, st.idx l = some i → ∀ m k b s',
                prove (E.sys x order) k (m, i) [] Shex.St.init = .ok (b, s') → (b = true ↔ T m l)) := by
  obtain ⟨asts, tes, own, D, hw, h5, ha⟩ := abstr_nil h
  refine ⟨asts, tes, D, hw, ?_⟩
  intro habs hdec rank hr E ext hE hx hsh he
  obtain ⟨p1, p2, p3⟩ := h5.engine hw.core hdec (ha habs)
  -- a bound on the sizes
  obtain ⟨M, hM⟩ : ∃ M, ∀ l c, D l = some c → sizeOf c < M := by
    obtain ⟨m, hm⟩ := exists_bound (F := fun d n => ∀ c, Stands (W.ctxt (W.rewrite s)) tes c d.2 →
        sizeOf c = n) (allDecls (asts.map Prod.fst) (W.rewrite s)) (fun d _ => by
      by_cases hc : ∃ c, Stands (W.ctxt (W.rewrite s)) tes c d.2
      · obtain ⟨c, hc⟩ := hc
        exact ⟨sizeOf c, fun c' hc' => by rw [hc.unique hc']⟩
      · exact ⟨0, fun c hc' => (hc ⟨c, hc'⟩).elim⟩)
    refine ⟨m + 1, fun l c hc => ?_⟩
    obtain ⟨e, ⟨pre, post, id, hds, _, _⟩, hst⟩ := (hw.core l).1 c hc
    obtain ⟨k, hk, hF⟩ := hm (id, e) (by rw [hds]; simp)
    have := hF c hst
    omega
  have hresp := respects_of_ranks h5 p3 hr hM
  have hresp' : Respects E.schema (rankIdx st own M rank) := by rw [hE]; exact hresp
  have hneg := noNegCycle_of_respects hresp'
  rw [← hE] at p1 p2 p3
  have hk : (E.schema.shapes.map Prod.fst).Nodup := by rw [hE]; exact h5.nodup_keys
  -- the typing of the compiled schema
  have hord : SameElements (E.sys (fun _ _ _ _ => false) fun _ l => l) := fun n l y => Iff.rfl
  obtain ⟨V, hV, hVu, hVp⟩ := (C20_schema_stratified E hk hsh he p1 p2 p3 hneg (fun _ _ _ _ => false)
    (fun _ l => l) hord).2 _ hresp'
  have hF : Fixed E V := by
    have R := sys_ranked hk hsh p1 (extRespects_of_none p3 fun _ _ _ _ => false) hresp' fun _ l => l
    have hS : Stratified (E.sys (fun _ _ _ _ => false) fun _ l => l) (fun x => rankIdx st own M rank x.2) V := by
      unfold Stratified
      unfold StratifiedTyping at hV
      simpa only [holds_sys_iff he hsh hk p2 p3] using hV
    intro m i
    rw [strat_fix R hS (m, i), holds_sys_iff he hsh hk p2 p3]
  have hT := stratified_labels h5 hE hx hr hM hF hresp hV
  refine ⟨_, hT, fun T' hT' m l => stratifiedOf_unique hr hT' hT m l, ?_⟩
  intro x order ho l i hi m k b s' hp
  obtain ⟨V', hV', _, hVp'⟩ := (C20_schema_stratified E hk hsh he p1 p2 p3 hneg x order ho).2 _ hresp'
  rw [hVp' k (m, i) b s' hp, hVu V' hV' (m, i)]
  constructor
  · intro h1; exact ⟨i, hi, h1⟩
  · rintro ⟨j, hj, h1⟩
    rw [hi] at hj; cases hj; exact h1

/-! ## C100 -/

/-- **C100**. A schema is compiled exactly when it can be: when imports are retrieved the same from
every schema, the compiler returns a schema if and only if imports are resolved and retrieved, labels
of triple expressions are distinct, and everything declared stands for something and refers to declared
labels. -/
theorem C100_compiles_iff (W : World N P NC) (hf : ∀ i f f', W.fetch i f = W.fetch i f')
    (s : Source P NC) (src : P) (base : Option P) :
    (∃ n, ∃ r : St N P × List P, compile W n s src base = .ok r) ↔
      ∃ asts tes, Compilable (N := N) W (W.rewrite s) src base asts tes := by
  constructor
  · rintro ⟨n, r, h⟩
    exact compilable_of_ok h
  · rintro ⟨asts, tes, h⟩
    obtain ⟨n, hn⟩ := ok_of_compilable hf h
    exact ⟨n, hn n (le_refl _)⟩

/-- **C100** (whatever retrieval does, what is compiled can be). -/
theorem C100_compiled_well_formed (W : World N P NC) (n : Nat) (s : Source P NC) (src : P)
    (base : Option P) (r : St N P × List P) (h : compile W n s src base = .ok r) :
    ∃ asts tes, Compilable (N := N) W (W.rewrite s) src base asts tes :=
  compilable_of_ok h

/-- **C100** (the bound on the depth is not observable). A result does not change with more depth. -/
theorem C100_depth_irrelevant (W : World N P NC) (n m : Nat) (hnm : n ≤ m) (s : Source P NC) (src : P)
    (base : Option P) (h : compile (N := N) W n s src base ≠ .more) :
    compile (N := N) W m s src base = compile W n s src base :=
  compile_stable hnm h

/-! ## C101 -/

/-- **C101** (partial). When finitely many schemas can be retrieved and no labelled triple expression
includes itself, compilation ends, with a schema or an error. Missing: schemas in which a triple
expression includes itself inside a value; for those it is false (`C101_refuted`). -/
theorem C101_compile_ends_partial (W : World N P NC) (L : List P)
    (hL : ∀ i f, (W.fetch i f).isSome = true → i ∈ L) (s : Source P NC) (src : P) (base : Option P)
    (hc : ∀ asts, Imported W (W.rewrite s) src base asts →
      NoCycle (asts.map Prod.fst ++ [W.rewrite s])) :
    ∃ n₀, ∀ n ≥ n₀, compile (N := N) W n s src base ≠ .more :=
  compile_ends hL s src base hc

/-! ## C102 -/

/-- **C102**. The sources visited are those of the schemas imported, directly or not, each once; the
index of a label is that of its last declaration, the imported schemas coming before the root and the
start expression last; and an index is abstract exactly when the declaration made there is. -/
theorem C102_imports_and_labels (W : World N P NC) (n : Nat) (s : Source P NC) (src : P)
    (base : Option P) (st : St N P) (vis : List P) (h : compile W n s src base = .ok (st, vis)) :
    ∃ asts ls, Imported W (W.rewrite s) src base asts ∧ vis.Perm (asts.map Prod.snd) ∧
      List.Forall₂ Label.Names
        (((asts.map Prod.fst).flatMap Source.shapes ++ (W.rewrite s).shapes).map Decl.id ++
          (startDecls (W.rewrite s)).map Prod.fst) ls ∧
      (∀ l i, st.idx l = some i ↔ ls[i]? = some l ∧ ∀ j, i < j → ls[j]? ≠ some l) ∧
      ∀ i, i ∈ st.abstr ↔ ∃ d, ((asts.map Prod.fst).flatMap Source.shapes ++ (W.rewrite s).shapes)[i]? =
        some d ∧ d.abstr = true := by
  obtain ⟨asts, tes, own, D, ls, h1, h2, h3, h4, h5, h6, h7, h8⟩ := compile_compiled h
  refine ⟨asts, ls ++ startLabels (W.rewrite s), h1, h2, ?_, h7, ?_⟩
  · refine List.rel_append h6 ?_
    unfold startDecls startLabels
    cases (W.rewrite s).start with
    | none => exact .nil
    | some e => exact .cons rfl .nil
  · intro i
    rw [h8, List.getElem?_map, Option.map_eq_some_iff]

/-! ## C103 -/

mutual
theorem stands_of_noInclusion {G : Ctxt N P NC} {tes tes' : TLabel P → Option (TE P NC)} :
    (c : Core N P) → (e : SE P NC) → (∀ l, ¬ e.Includes l) → Stands G tes c e → Stands G tes' c e
  | .ref l, _, _, h => by simpa only [Stands] using h
  | .or cs, _, hn, h => by
    simp only [Stands] at h ⊢
    obtain ⟨es, he, h⟩ := h
    exact ⟨es, he, standsAll_of_noInclusion cs es (by subst he; simpa only [SE.Includes] using hn) h⟩
  | .and cs, _, hn, h => by
    simp only [Stands] at h ⊢
    obtain ⟨es, he, h⟩ := h
    exact ⟨es, he, standsAll_of_noInclusion cs es (by subst he; simpa only [SE.Includes] using hn) h⟩
  | .not c, _, hn, h => by
    simp only [Stands] at h ⊢
    obtain ⟨e, he, h⟩ := h
    exact ⟨e, he, stands_of_noInclusion c e (by subst he; simpa only [SE.Includes] using hn) h⟩
  | .shape closed extra e exts, _, hn, h => by
    simp only [Stands] at h ⊢
    obtain ⟨cl, ex, te, xs, acts, he, h1, h2, h3, h4⟩ := h
    refine ⟨cl, ex, te, xs, acts, he, h1, h2, standsO_of_noInclusion e te ?_ h3, h4⟩
    subst he
    rintro t rfl
    simpa only [SE.Includes] using hn
  | .test ok, _, _, h => by simpa only [Stands] using h
  | .external, _, _, h => by simpa only [Stands] using h
theorem standsAll_of_noInclusion {G : Ctxt N P NC} {tes tes' : TLabel P → Option (TE P NC)} :
    (cs : List (Core N P)) → (es : List (SE P NC)) → (∀ l, ¬ SE.IncludesSome l es) →
      StandsAll G tes cs es → StandsAll G tes' cs es
  | [], _, _, h => by simpa only [StandsAll] using h
  | c :: cs, _, hn, h => by
    simp only [StandsAll] at h ⊢
    obtain ⟨e, es', he, h1, h2⟩ := h
    have hn' : ∀ l, ¬ (e.Includes l ∨ SE.IncludesSome l es') := by
      subst he; simpa only [SE.IncludesSome] using hn
    exact ⟨e, es', he, stands_of_noInclusion c e (fun l hl => hn' l (.inl hl)) h1,
      standsAll_of_noInclusion cs es' (fun l hl => hn' l (.inr hl)) h2⟩
theorem standsO_of_noInclusion {G : Ctxt N P NC} {tes tes' : TLabel P → Option (TE P NC)} :
    (c : CTE N P) → (te : Option (TE P NC)) → (∀ t, te = some t → ∀ l, ¬ t.Includes l) →
      StandsO G tes c te → StandsO G tes' c te
  | .nothing, _, _, h => by simpa only [StandsO] using h
  | .eachOf es c, _, hn, h => by
    simp only [StandsO] at h ⊢
    obtain ⟨t, ht, id, ts, mn, mx, acts, he, h1, h2⟩ := h
    refine ⟨t, ht, id, ts, mn, mx, acts, he, standsTs_of_noInclusion es ts ?_ h1, h2⟩
    have := hn t ht
    subst he
    simpa only [TE.Includes] using this
  | .oneOf es c, _, hn, h => by
    simp only [StandsO] at h ⊢
    obtain ⟨t, ht, id, ts, mn, mx, acts, he, h1, h2⟩ := h
    refine ⟨t, ht, id, ts, mn, mx, acts, he, standsTs_of_noInclusion es ts ?_ h1, h2⟩
    have := hn t ht
    subst he
    simpa only [TE.Includes] using this
  | .tc p acts v c, _, hn, h => by
    simp only [StandsO] at h ⊢
    obtain ⟨t, ht, id, ng, iv, val, mn, mx, as, he, h1, h2, h3, h4⟩ := h
    refine ⟨t, ht, id, ng, iv, val, mn, mx, as, he, h1, h2, h3, ?_⟩
    have hn' := hn t ht
    rcases h4 with h4 | ⟨se, hv, h4⟩
    · exact .inl h4
    · refine .inr ⟨se, hv, stands_of_noInclusion v se ?_ h4⟩
      subst he hv
      simpa only [TE.Includes] using hn'
  | .incl e, _, hn, h => by
    simp only [StandsO] at h
    obtain ⟨l, t, ht, _⟩ := h
    exact (hn _ ht l (by simp only [TE.Includes])).elim
theorem standsTs_of_noInclusion {G : Ctxt N P NC} {tes tes' : TLabel P → Option (TE P NC)} :
    (cs : List (CTE N P)) → (ts : List (TE P NC)) → (∀ l, ¬ TE.IncludesSome l ts) →
      StandsTs G tes cs ts → StandsTs G tes' cs ts
  | [], _, _, h => by simpa only [StandsTs] using h
  | c :: cs, _, hn, h => by
    simp only [StandsTs] at h ⊢
    obtain ⟨e, es', he, h1, h2⟩ := h
    have hn' : ∀ l, ¬ (e.Includes l ∨ TE.IncludesSome l es') := by
      subst he; simpa only [TE.IncludesSome] using hn
    exact ⟨e, es', he, standsO_of_noInclusion c (some e) (fun t ht l hl => by
      cases ht; exact hn' l (.inl hl)) h1,
      standsTs_of_noInclusion cs es' (fun l hl => hn' l (.inr hl)) h2⟩
end

theorem within_of_part {t : TE P NC} {e : TE P NC} (h : TE.Part t e) : TE.Within t e := by
  induction h with
  | self => exact .self
  | each he _ ih => exact .each he ih
  | one he _ ih => exact .one he ih

theorem within_of_partS {t : TE P NC} {e : SE P NC} (h : SE.Part t e) : SE.Within t e := by
  induction h with
  | or he _ ih => exact .or he ih
  | and he _ ih => exact .and he ih
  | not _ ih => exact .not ih
  | shape h => exact .shape (within_of_part h)

/-- **C103** (partial). A well-formed schema is compiled when, moreover, no label is written on a
triple expression inside a value, the start expression includes no triple expression, and no label is
met twice in the root and the imported schemas. Missing: the other well-formed schemas; for each of the
three conditions there is one which is refused (`C103_start_refuted`, `C103_value_refuted`,
`C103_import_refuted`). -/
theorem C103_well_formed_partial (W : World N P NC) (hf : ∀ i f f', W.fetch i f = W.fetch i f')
    (s : Source P NC) (src : P) (base : Option P) (asts : List (Source P NC × P))
    (tes : TLabel P → Option (TE P NC)) (h : WellFormed (N := N) W (W.rewrite s) src base asts tes)
    (hv : ∀ r ∈ asts.map Prod.fst ++ [W.rewrite s], ∀ t, r.Within t → t.label ≠ none → r.Part t)
    (hs : ∀ e, (W.rewrite s).start = some e → ∀ l, ¬ e.Includes l)
    (hd : ((asts.map Prod.fst ++ [W.rewrite s]).flatMap Source.labels).Nodup) :
    ∃ n₀, ∀ n ≥ n₀, ∃ r : St N P × List P, compile W n s src base = .ok r := by
  refine ok_of_compilable (asts := asts) (tes := tes) hf
    ⟨h.imported, h.imports, h.acts, hd, ?_, h.resolved, ?_⟩
  · intro l t
    rw [h.labelled]
    constructor
    · rintro ⟨hl, r, hr, hw⟩
      exact ⟨hl, r, hr, hv r hr t hw (by rw [hl]; simp)⟩
    · rintro ⟨hl, r, hr, hp⟩
      refine ⟨hl, r, hr, ?_⟩
      rcases hp with ⟨e, he, hp⟩ | ⟨d, hd, hp⟩
      · exact .inl ⟨e, he, within_of_partS hp⟩
      · exact .inr ⟨d, hd, within_of_partS hp⟩
  · intro e he
    obtain ⟨c, hc, _⟩ := h.resolved.2 (.start, e) (by simp [allDecls, startDecls, he])
    exact ⟨c, stands_of_noInclusion c e (hs e he) hc⟩

end Comp
