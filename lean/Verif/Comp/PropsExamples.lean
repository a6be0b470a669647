import Verif.Comp.Props

/-!
# Cases of the properties C97–C103, and refutations

Nodes and IRIs are numbers; a node constraint is a number, met by that node only. The text of an import
stands for its length.
-/

namespace Comp
open Shex Rbe

/-- A single document and what can be retrieved. -/
def exWorld (docs : List (Nat × Source Nat Nat)) : World Nat Nat Nat where
  resolve := fun _ t => some t.length
  fetch := fun i _ => alookup i docs
  rewrite := fun s => s
  nc := fun _ k => some fun v => v == k
  registered := fun _ => false
  run := fun _ _ _ => false

/-- A document without imports. -/
def exDoc (imports : List String) (start : Option (SE Nat Nat)) (shapes : List (Decl Nat Nat)) :
    Source Nat Nat :=
  ⟨imports, fun _ _ => none, [], start, shapes⟩

/-- `$<id> :p v {min,max}`. -/
def exTc (id : Option Nat) (p : Nat) (v : Option (SE Nat Nat)) (min max : Option Int) : TE Nat Nat :=
  .tc (id.map fun i => .ref (.iri i)) none none (.iri p) v min max []

/-- A shape with one triple expression. -/
def exOf (te : TE Nat Nat) : SE Nat Nat := .shape none [] (some te) [] []

/-- `<i>`. -/
def exAt (i : Nat) (e : SE Nat Nat) : Decl Nat Nat := ⟨.ref (.iri i), false, e⟩

/-- A compiler run which ends with an error never gives a schema. -/
theorem never_ok {N P NC : Type} [DecidableEq P] {W : World N P NC} {m : Nat} {s : Source P NC} {src : P}
    {base : Option P} (h : compile (N := N) W m s src base = .err) :
    ¬ ∃ n, ∃ r : St N P × List P, compile W n s src base = .ok r := by
  rintro ⟨n, r, hr⟩
  rcases le_total n m with hnm | hnm
  · rw [compile_stable hnm (by rw [hr]; intro; contradiction), hr] at h
    cases h
  · rw [compile_stable hnm (by rw [h]; intro; contradiction), h] at hr
    cases hr

/-! ## C97, C98, C99, C100, C102 -/

/-- Imported by the schema below: `<2> { :5 [7] }`. -/
def exLib : Source Nat Nat := exDoc [] none [exAt 2 (exOf (exTc none 5 (some (.nc 7)) none none))]

/-- `IMPORT <3>  <1> { $<9> :5 @<2> + ; :6 @<1> * }  <4> NOT { &<9> }`. -/
def exRoot : Source Nat Nat :=
  exDoc ["abc"] none
    [exAt 1 (exOf (.eachOf none [exTc (some 9) 5 (some (.ref (.ref (.iri 2)))) (some 1) (some (-1)),
      exTc none 6 (some (.ref (.ref (.iri 1)))) (some 0) (some (-1))] none none [])),
     exAt 4 (.not (exOf (.ref (.ref (.iri 9)))))]

example : ∃ r, compile (exWorld [(3, exLib)]) 10 exRoot 0 none = .ok r := ⟨_, rfl⟩
example : ∀ st vis, compile (exWorld [(3, exLib)]) 10 exRoot 0 none = .ok (st, vis) →
    vis = [3] ∧ st.idx (.iri 2) = some 0 ∧ st.idx (.iri 1) = some 1 ∧ st.idx (.iri 4) = some 2 := by
  intro st vis h
  have : compile (exWorld [(3, exLib)]) 10 exRoot 0 none = .ok (_, _) := rfl
  rw [this] at h
  cases h
  exact ⟨rfl, rfl, rfl, rfl⟩

/-! ### A schema with negation -/

theorem plain_intro {N P : Type} {c : Core N P} (h : c.Decided) (hc : ∀ d, Child d c → d.Plain) :
    c.Plain := by
  intro d hd
  rcases Relation.ReflTransGen.cases_tail hd with rfl | ⟨b, hb, hbc⟩
  · exact h
  · exact hc b hbc d hb

theorem no_imports {N P NC : Type} {W : World N P NC} {root : Source P NC} {src : P} {base : Option P}
    {asts : List (Source P NC × P)} (h : Imported W root src base asts) (hr : root.imports = []) :
    asts = [] := by
  cases hs : asts with
  | nil => rfl
  | cons x xs =>
    have : ∀ i, Reaches W root base asts i → False := by
      intro i hi
      induction hi with
      | first h => obtain ⟨t, ht, _⟩ := h; rw [hr] at ht; simp at ht
      | next _ _ _ ih => exact ih
    exact (this x.2 ((h.reached x.2).1 (by rw [hs]; simp))).elim

/-- `<1> { :5 [7] + }  <4> NOT @<1>`. -/
def exNeg : Source Nat Nat :=
  exDoc [] none [exAt 1 (exOf (exTc none 5 (some (.nc 7)) (some 1) (some (-1)))),
    exAt 4 (.not (.ref (.ref (.iri 1))))]

/-- What `<1>` stands for. -/
def exNegCore : Core Nat Nat :=
  .shape false [] (.tc ⟨5, true⟩ [] (.test fun v => v == 7) ⟨1, .unbounded⟩) []

theorem exNeg_stands (tes : TLabel Nat → Option (TE Nat Nat)) (d : Label Nat × SE Nat Nat)
    (hd : d ∈ allDecls [] exNeg) (c : Core Nat Nat) (hc : Stands ((exWorld []).ctxt exNeg) tes c d.2) :
    (d.1 = .ref (.iri 1) ∧ c = exNegCore) ∨ (d.1 = .ref (.iri 4) ∧ c = .not (.ref (.iri 1))) := by
  simp only [allDecls, startDecls, exNeg, exDoc, List.flatMap_nil, List.nil_append, List.map_cons,
    List.map_nil, exAt, List.mem_cons, List.not_mem_nil, or_false] at hd
  rcases hd with rfl | rfl
  · refine .inl ⟨rfl, Stands.unique hc ?_⟩
    simp only [exNegCore, Stands, StandsO]
    refine ⟨_, _, _, _, _, rfl, rfl, .nil, ⟨_, rfl, none, none, none, _, _, _, _, rfl, rfl, .nil,
      ⟨rfl, rfl⟩, .inr ⟨_, rfl, ?_⟩⟩, .nil, by simp⟩
    exact ⟨_, rfl, rfl⟩
  · refine .inr ⟨rfl, Stands.unique hc ?_⟩
    simp only [Stands]
    exact ⟨_, rfl, _, rfl, rfl⟩

theorem exNeg_plain : ∀ tes, ∀ d ∈ allDecls [] exNeg, ∀ c, Stands ((exWorld []).ctxt exNeg) tes c d.2 →
    c.Plain := by
  intro tes d hd c hc
  rcases exNeg_stands tes d hd c hc with ⟨_, rfl⟩ | ⟨_, rfl⟩
  · refine plain_intro ⟨rfl, trivial, ?_, ?_⟩ ?_
    · intro hn; simp [CTE.Nullable] at hn
    · intro p acts v h
      simp only [CTE.constraints, List.mem_singleton, Prod.mk.injEq] at h
      exact .inl h.2.1
    · rintro d ⟨p, acts, h⟩
      simp only [CTE.constraints, List.mem_singleton, Prod.mk.injEq] at h
      rw [h.2.2]
      exact plain_intro trivial fun d hd => hd.elim
  · refine plain_intro trivial fun d hd => ?_
    rw [show d = .ref (.iri 1) from hd]
    exact plain_intro trivial fun d hd => hd.elim

theorem uses_child {N P : Type} {c : Core N P} {l : SLabel P} (h : c.Uses l) :
    (c = .ref l ∨ ∃ cl ex e xs, c = .shape cl ex e xs ∧ l ∈ xs) ∨ ∃ d, Child d c ∧ d.Uses l := by
  obtain ⟨d, hd, hl⟩ := h
  rcases Relation.ReflTransGen.cases_tail hd with rfl | ⟨b, hb, hbc⟩
  · exact .inl hl
  · exact .inr ⟨b, hbc, d, hb, hl⟩

theorem negates_child {N P : Type} {c : Core N P} {l : SLabel P} (h : c.Negates l) :
    (∃ d, c = .not d ∧ d.Uses l) ∨ ∃ d, Child d c ∧ d.Negates l := by
  obtain ⟨d, hd, hl⟩ := h
  rcases Relation.ReflTransGen.cases_tail hd with h | ⟨b, hb, hbc⟩
  · exact .inl ⟨d, h, hl⟩
  · exact .inr ⟨b, hbc, d, hb, hl⟩

theorem exNegCore_uses (l : SLabel Nat) : ¬ exNegCore.Uses l := by
  intro h
  rcases uses_child h with (h | ⟨_, _, _, _, h, hl⟩) | ⟨d, ⟨p, acts, hd⟩, hl⟩
  · cases h
  · cases h; simp at hl
  · simp only [CTE.constraints, List.mem_singleton, Prod.mk.injEq] at hd
    rw [hd.2.2] at hl
    rcases uses_child hl with (h | ⟨_, _, _, _, h, _⟩) | ⟨d, hd, _⟩
    · cases h
    · cases h
    · exact hd

theorem exNegCore_negates (l : SLabel Nat) : ¬ exNegCore.Negates l := by
  intro h
  rcases negates_child h with ⟨_, h, _⟩ | ⟨d, ⟨p, acts, hd⟩, hl⟩
  · cases h
  · simp only [CTE.constraints, List.mem_singleton, Prod.mk.injEq] at hd
    rw [hd.2.2] at hl
    rcases negates_child hl with ⟨_, h, _⟩ | ⟨d, hd, _⟩
    · cases h
    · exact hd

/-- The rank of `<4>` is above that of `<1>`. -/
def exNegRank : SLabel Nat → Nat
  | .iri 4 => 1
  | _ => 0

theorem exNeg_ranks (tes : TLabel Nat → Option (TE Nat Nat)) (D : Decls Nat Nat)
    (h : CoreOf ((exWorld []).ctxt exNeg) tes (allDecls [] exNeg) D) : Ranks D exNegRank := by
  intro l c hc
  obtain ⟨e, ⟨pre, post, id, hds, hn, _⟩, hst⟩ := (h l).1 c hc
  have href : ∀ k, Core.Uses (.ref (.iri 1) : Core Nat Nat) k → k = .iri 1 := by
    intro k hk
    rcases uses_child hk with (h | ⟨_, _, _, _, h, _⟩) | ⟨d, hd, _⟩
    · cases h; rfl
    · cases h
    · exact hd.elim
  rcases exNeg_stands tes (id, e) (by rw [hds]; simp) c hst with ⟨_, rfl⟩ | ⟨hid, rfl⟩
  · exact ⟨fun k hk => (exNegCore_uses k hk).elim, fun k hk => (exNegCore_negates k hk).elim⟩
  · have hl : l = .iri 4 := by
      simp only at hid
      subst hid
      cases l <;> simp_all [Label.Names]
    subst hl
    constructor
    · intro k hk
      rcases uses_child hk with (h | ⟨_, _, _, _, h, _⟩) | ⟨d, hd, hk⟩
      · cases h
      · cases h
      · rw [show d = .ref (.iri 1) from hd] at hk
        rw [href k hk]; decide
    · intro k hk
      rcases negates_child hk with ⟨d, h, hk⟩ | ⟨d, hd, hk⟩
      · cases h
        rw [href k hk]; decide
      · rw [show d = .ref (.iri 1) from hd] at hk
        rcases negates_child hk with ⟨_, h, _⟩ | ⟨d, hd, _⟩
        · cases h
        · exact hd.elim

/-- Validation against the compiled `<1> { :5 [7] + }  <4> NOT @<1>` decides its stratified typing. -/
example (st : St Nat Nat) (vis : List Nat) (h : compile (exWorld []) 10 exNeg 0 none = .ok (st, vis))
    (triples : List (Nat × Nat × Nat)) :
    ∃ D, ∃ T, StratifiedOf (exEnv st.shapes triples).graph (fun _ _ => False) D exNegRank T ∧
      ∀ l i, st.idx l = some i → ∀ m k b s',
        prove ((exEnv st.shapes triples).sys exNoExt fun _ l => l) k (m, i) [] Shex.St.init = .ok (b, s') →
          (b = true ↔ T m l) := by
  have habs : st.abstr = [] := by
    have : compile (exWorld []) 10 exNeg 0 none = .ok (_, _) := rfl
    rw [this] at h
    cases h
    rfl
  obtain ⟨asts, tes, D, hw, hall⟩ := C99_validate_stratified _ _ _ _ _ _ _ h
  have ha : asts = [] := no_imports hw.imported rfl
  subst ha
  obtain ⟨T, hT, _, hp⟩ := hall (by simp [exWorld, exNeg, exDoc, exAt]) (exNeg_plain tes) exNegRank
    (exNeg_ranks tes D hw.core) (exEnv st.shapes triples) (fun _ _ => False)
    (by simp [exEnv, St.schema, habs]) (by simp [exEnv]) (fun l => .refl l) enumDedup_enumerates
  exact ⟨D, T, hT, fun l i hi m k b s' hpr => hp exNoExt _ (fun _ _ _ => Iff.rfl) l i hi m k b s' hpr⟩

example : ∃ r, compile (exWorld []) 10 exNeg 0 none = .ok r := ⟨_, rfl⟩

/-- Without negation: `<1> { :5 [7] + }  <2> @<1>`. -/
def exPos : Source Nat Nat :=
  exDoc [] none [exAt 1 (exOf (exTc none 5 (some (.nc 7)) (some 1) (some (-1)))),
    exAt 2 (.ref (.ref (.iri 1)))]

theorem positive_intro {N P : Type} {c : Core N P} (h : ∀ d, c ≠ .not d)
    (hc : ∀ d, Child d c → d.Positive) : c.Positive := by
  intro d hd
  rcases Relation.ReflTransGen.cases_tail hd with rfl | ⟨b, hb, hbc⟩
  · exact h
  · exact hc b hbc d hb

theorem exPos_decls (tes : TLabel Nat → Option (TE Nat Nat)) (d : Label Nat × SE Nat Nat)
    (hd : d ∈ allDecls [] exPos) (c : Core Nat Nat) (hc : Stands ((exWorld []).ctxt exPos) tes c d.2) :
    c.Plain ∧ c.Positive := by
  simp only [allDecls, startDecls, exPos, exDoc, List.flatMap_nil, List.nil_append, List.map_cons,
    List.map_nil, exAt, List.mem_cons, List.not_mem_nil, or_false] at hd
  rcases hd with rfl | rfl
  · refine ⟨exNeg_plain tes (.ref (.iri 1), _) (List.mem_cons_self ..) c hc, ?_⟩
    rcases exNeg_stands tes (.ref (.iri 1), _) (List.mem_cons_self ..) c hc with ⟨_, rfl⟩ | ⟨h, _⟩
    · refine positive_intro (fun d h => by cases h) ?_
      rintro d ⟨p, acts, h⟩
      simp only [CTE.constraints, List.mem_singleton, Prod.mk.injEq] at h
      rw [h.2.2]
      exact positive_intro (fun d h => by cases h) fun d hd => hd.elim
    · cases h
  · have : c = .ref (.iri 1) := Stands.unique hc (by simp only [Stands]; exact ⟨_, rfl, rfl⟩)
    subst this
    exact ⟨plain_intro trivial fun d hd => hd.elim,
      positive_intro (fun d h => by cases h) fun d hd => hd.elim⟩

example : ∃ r, compile (exWorld []) 10 exPos 0 none = .ok r := ⟨_, rfl⟩

/-- Validation against the compiled `<1> { :5 [7] + }  <2> @<1>` decides its greatest typing. -/
example (st : St Nat Nat) (vis : List Nat) (h : compile (exWorld []) 10 exPos 0 none = .ok (st, vis))
    (triples : List (Nat × Nat × Nat)) :
    ∃ D, ∀ l i, st.idx l = some i → ∀ m k b s',
      prove ((exEnv st.shapes triples).sys exNoExt fun _ l => l) k (m, i) [] Shex.St.init = .ok (b, s') →
        (b = true ↔ GreatestOf (exEnv st.shapes triples).graph (fun _ _ => False) D m l) := by
  have habs : st.abstr = [] := by
    have : compile (exWorld []) 10 exPos 0 none = .ok (_, _) := rfl
    rw [this] at h
    cases h
    rfl
  obtain ⟨asts, tes, D, hw, hall⟩ := C99_validate _ _ _ _ _ _ _ h
  have ha : asts = [] := no_imports hw.imported rfl
  subst ha
  exact ⟨D, hall (by simp [exWorld, exPos, exDoc, exAt]) (exPos_decls tes) (exEnv st.shapes triples)
    (fun _ _ => False) (by simp [exEnv, St.schema, habs]) (by simp [exEnv]) (fun l => .refl l)
    enumDedup_enumerates exNoExt _ (fun _ _ _ => Iff.rfl)⟩

/-! ## C101 -/

/-- `<1> { $<9> :5 { &<9> } }`. -/
def exLoop : Source Nat Nat :=
  exDoc [] none [exAt 1 (exOf (exTc (some 9) 5 (some (exOf (.ref (.ref (.iri 9))))) none none))]

theorem exLoop_more (tes : TLabel Nat → Option (TE Nat Nat))
    (ht : tes (.ref (.iri 9)) = some (exTc (some 9) 5 (some (exOf (.ref (.ref (.iri 9))))) none none))
    (G : Ctxt Nat Nat Nat) : ∀ n, (∀ i st, compileSE G tes n (exOf (.ref (.ref (.iri 9)))) i st = .more) ∧
      (∀ i st, compileSE G tes n
        (exOf (exTc (some 9) 5 (some (exOf (.ref (.ref (.iri 9))))) none none)) i st = .more) ∧
      (∀ t st vis, compileTE G tes n
        (exTc (some 9) 5 (some (exOf (.ref (.ref (.iri 9))))) none none) vis t st = .more) ∧
      ∀ t st, compileTE G tes n (.ref (.ref (.iri 9))) [] t st = .more
  | 0 => ⟨fun _ _ => rfl, fun _ _ => rfl, fun _ _ _ => rfl, fun _ _ => rfl⟩
  | n + 1 => by
    obtain ⟨h1, h2, h3, h4⟩ := exLoop_more tes ht G n
    refine ⟨?_, ?_, ?_, ?_⟩
    · intro i st
      simp only [exOf, compileSE, cnvExtra, mapRes, Res.bind, shapeTable, h4]
    · intro i st
      have h3' := h3 Table.new st []
      simp only [exOf] at h3'
      simp only [exOf, compileSE, cnvExtra, mapRes, Res.bind, shapeTable, h3']
    · intro t st vis
      have h1' := h1 st.newIndex.1 st.newIndex.2
      simp only [exOf] at h1'
      simp only [exTc, exOf, compileTE, cnvMin, cnvMax, Res.bind, cnvPredicate, actConds, mapRes,
        valueCond, h1']
    · intro t st
      simp only [compileTE, List.not_mem_nil, if_false, ht, Res.of, Res.bind, h3]

/-- **C101** (refuted). There is a schema, without imports, on which compilation does not end: a triple
expression which includes itself inside its value. -/
theorem C101_refuted : ¬ ∀ (W : World Nat Nat Nat) (L : List Nat),
    (∀ i f, (W.fetch i f).isSome = true → i ∈ L) → ∀ (s : Source Nat Nat) (src : Nat) (base : Option Nat),
      ∃ n, compile W n s src base ≠ .more := by
  intro h
  obtain ⟨n, hn⟩ := h (exWorld []) [] (by simp [exWorld, alookup]) exLoop 0 none
  apply hn
  cases n with
  | zero => rfl
  | succ n =>
    have e : compile (exWorld []) (n + 1) exLoop 0 none =
        (compileSources ((exWorld []).ctxt exLoop) (fun l => alookup l [(TLabel.ref (.iri 9),
          exTc (some 9) 5 (some (exOf (.ref (.ref (.iri 9))))) none none)]) (n + 1) [exLoop]
          ((St.init : St Nat Nat).addShape (.iri 1)).2).bind fun st => .ok (st, []) := rfl
    have hm := (exLoop_more (fun l => alookup l [(TLabel.ref (.iri 9),
      exTc (some 9) 5 (some (exOf (.ref (.ref (.iri 9))))) none none)]) rfl
      ((exWorld []).ctxt exLoop) (n + 1)).2.1
    rw [e]
    simp only [compileSources, exLoop, exDoc, compileDecls, exAt, refIdx, toLabel, Res.bind]
    simp only [exLoop, exDoc, exAt] at hm
    rw [show ((St.init : St Nat Nat).addShape (.iri 1)).2.idx (.iri 1) = some 0 from rfl]
    simp only [Res.of, hm]

/-- Termination: `exRoot` includes `<9>`, which includes nothing. -/
example : ∃ n₀, ∀ n ≥ n₀, compile (exWorld [(3, exLib)]) n exRoot 0 none ≠ .more :=
  ⟨10, fun n hn => by
    rw [C100_depth_irrelevant (exWorld [(3, exLib)]) 10 n hn exRoot 0 none (by intro h; cases h)]
    intro h; cases h⟩

/-- The hypotheses of `C101_compile_ends_partial` for `exNeg`. -/
example : ∃ n₀, ∀ n ≥ n₀, compile (exWorld []) n exNeg 0 none ≠ .more := by
  refine C101_compile_ends_partial (exWorld []) [] (by simp [exWorld, alookup]) exNeg 0 none ?_
  intro asts ha
  have : asts = [] := no_imports ha rfl
  subst this
  refine ⟨fun k => ⟨k, ?_⟩⟩
  rintro l ⟨t, hl, ⟨s, hs, hp⟩, _⟩
  exfalso
  simp only [List.map_nil, List.nil_append, List.mem_singleton] at hs
  subst hs
  rcases hp with ⟨e, he, _⟩ | ⟨d, hd, hp⟩
  · cases he
  · simp only [exWorld, exNeg, exDoc, exAt, List.mem_cons, List.not_mem_nil, or_false] at hd
    rcases hd with rfl | rfl
    · cases hp with
      | shape hp => cases hp; cases hl
    · cases hp with
      | not hp => cases hp

/-! ## C103 -/

/-- `start = { &<9> }  <1> { $<9> :5 . }`. -/
def exStart : Source Nat Nat :=
  exDoc [] (some (exOf (.ref (.ref (.iri 9))))) [exAt 1 (exOf (exTc (some 9) 5 none none none))]

/-- `<1> { :5 { $<9> :6 . } }  <2> { &<9> }`. -/
def exValue : Source Nat Nat :=
  exDoc [] none [exAt 1 (exOf (exTc none 5 (some (exOf (exTc (some 9) 6 none none none))) none none)),
    exAt 2 (exOf (.ref (.ref (.iri 9))))]

/-- `IMPORT <0>  <1> { $<9> :5 . }`, retrieved from `<0>`. -/
def exBack : Source Nat Nat :=
  exDoc [""] none [exAt 1 (exOf (exTc (some 9) 5 none none none))]

theorem imported_nil {N P NC : Type} (W : World N P NC) (root : Source P NC) (src : P) (base : Option P)
    (h : root.imports = []) : Imported W root src base [] where
  once := List.nodup_nil
  reached := by
    intro i
    refine ⟨by simp, fun hi => ?_⟩
    cases hi with
    | first h' => obtain ⟨t, ht, _⟩ := h'; rw [h] at ht; simp at ht
    | next h' => simp at h'
  fetched := by simp

/-- What `{ $<9> :p . }` stands for. -/
def exAnyCore (p : Nat) : Core Nat Nat :=
  .shape false [] (.tc ⟨p, true⟩ [] (.test fun _ => true) ⟨1, .intMax 1⟩) []

theorem exAny_stands (G : Ctxt Nat Nat Nat) (tes : TLabel Nat → Option (TE Nat Nat)) (id : Option Nat)
    (p : Nat) : Stands G tes (exAnyCore p) (exOf (exTc id p none none none)) := by
  simp only [exAnyCore, Stands, StandsO]
  exact ⟨_, _, _, _, _, rfl, rfl, .nil, ⟨_, rfl, _, none, none, _, _, _, _, rfl, rfl, .nil,
      ⟨rfl, rfl⟩, .inl ⟨rfl, trivial⟩⟩, .nil, by simp⟩

theorem exAny_uses (p : Nat) (l : SLabel Nat) : ¬ (exAnyCore p).Uses l := by
  intro h
  rcases uses_child h with (h | ⟨_, _, _, _, h, hl⟩) | ⟨d, ⟨p, acts, hd⟩, hl⟩
  · cases h
  · cases h; simp at hl
  · simp only [CTE.constraints, List.mem_singleton, Prod.mk.injEq] at hd
    rw [hd.2.2] at hl
    rcases uses_child hl with (h | ⟨_, _, _, _, h, _⟩) | ⟨d, hd, _⟩
    · cases h
    · cases h
    · exact hd

/-- What `{ &<9> }` stands for, and it refers to no label. -/
theorem exIncl_stands (G : Ctxt Nat Nat Nat) (tes : TLabel Nat → Option (TE Nat Nat)) (p : Nat)
    (ht : tes (.ref (.iri 9)) = some (exTc (some 9) p none none none)) :
    ∃ c, Stands G tes c (exOf (.ref (.ref (.iri 9)))) ∧ ∀ l, ¬ c.Uses l := by
  refine ⟨.shape false [] (.incl (.tc ⟨p, true⟩ [] (.test fun _ => true) ⟨1, .intMax 1⟩)) [], ?_, ?_⟩
  · simp only [Stands, StandsO]
    exact ⟨_, _, _, _, _, rfl, rfl, .nil, ⟨_, _, rfl, ht, _, rfl, _, none, none, _, _, _, _, rfl, rfl,
      .nil, ⟨rfl, rfl⟩, .inl ⟨rfl, trivial⟩⟩, .nil, by simp⟩
  · intro l h
    rcases uses_child h with (h | ⟨_, _, _, _, h, hl⟩) | ⟨d, ⟨p, acts, hd⟩, hl⟩
    · cases h
    · cases h; simp at hl
    · simp only [CTE.constraints, List.mem_singleton, Prod.mk.injEq] at hd
      rw [hd.2.2] at hl
      rcases uses_child hl with (h | ⟨_, _, _, _, h, _⟩) | ⟨d, hd, _⟩
      · cases h
      · cases h
      · exact hd

/-- The labelled triple expression of the cases. -/
def exTes (p : Nat) (l : TLabel Nat) : Option (TE Nat Nat) :=
  if l = .ref (.iri 9) then some (exTc (some 9) p none none none) else none

theorem exTes_iff (p : Nat) (l : TLabel Nat) (t : TE Nat Nat) :
    exTes p l = some t ↔ l = .ref (.iri 9) ∧ t = exTc (some 9) p none none none := by
  unfold exTes
  split <;> simp_all [eq_comm]

/-- **C103** (refuted). A well-formed schema whose start expression includes a triple expression is
refused. -/
theorem C103_start_refuted : ∃ (W : World Nat Nat Nat) (s : Source Nat Nat),
    (∃ asts tes, WellFormed W (W.rewrite s) 0 none asts tes) ∧ s.imports = [] ∧
      ¬ ∃ n r, compile W n s 0 none = .ok r := by
  refine ⟨exWorld [], exStart, ⟨[], exTes 5, ?_⟩, rfl, never_ok (m := 10) rfl⟩
  refine ⟨imported_nil _ _ _ _ rfl, ⟨by simp [ImportsResolve, exWorld, exStart, exDoc], by simp⟩,
    by simp [exWorld, exStart, exDoc], ?_, ?_, ?_⟩
  · intro l t
    rw [exTes_iff]
    constructor
    · rintro ⟨rfl, rfl⟩
      exact ⟨rfl, exStart, by simp [exWorld], .inr ⟨_, List.mem_cons_self .., .shape .self⟩⟩
    · rintro ⟨hl, s, hs, hw⟩
      simp only [List.map_nil, List.nil_append, List.mem_singleton] at hs
      subst hs
      rcases hw with ⟨e, he, hw⟩ | ⟨d, hd, hw⟩
      · cases he
        cases hw with | shape hw => cases hw; cases hl
      · simp only [exWorld, exStart, exDoc, exAt, List.mem_singleton] at hd
        subst hd
        cases hw with | shape hw => cases hw with
          | self => cases hl; exact ⟨rfl, rfl⟩
  · intro d hd
    simp only [allDecls, startDecls, exWorld, exStart, exDoc, exAt, List.map_nil, List.flatMap_nil,
      List.nil_append, List.map_cons, List.cons_append, List.mem_cons, List.not_mem_nil, or_false] at hd
    rcases hd with rfl | rfl
    · exact ⟨.start, rfl⟩
    · exact ⟨.iri 1, rfl⟩
  · intro d hd
    simp only [allDecls, startDecls, exWorld, exStart, exDoc, exAt, List.map_nil, List.flatMap_nil,
      List.nil_append, List.map_cons, List.cons_append, List.mem_cons, List.not_mem_nil, or_false] at hd
    rcases hd with rfl | rfl
    · obtain ⟨c, h1, h2⟩ := exIncl_stands ((exWorld []).ctxt exStart) (exTes 5) 5 rfl
      exact ⟨c, h1, fun l hl => (h2 l hl).elim⟩
    · exact ⟨_, exAny_stands _ _ _ _, fun l hl => (exAny_uses _ l hl).elim⟩

/-- **C103** (refuted). A well-formed schema which includes a triple expression labelled inside a value
is refused. -/
theorem C103_value_refuted : ∃ (W : World Nat Nat Nat) (s : Source Nat Nat),
    (∃ asts tes, WellFormed W (W.rewrite s) 0 none asts tes) ∧ s.imports = [] ∧ s.start = none ∧
      ¬ ∃ n r, compile W n s 0 none = .ok r := by
  refine ⟨exWorld [], exValue, ⟨[], exTes 6, ?_⟩, rfl, rfl, never_ok (m := 10) rfl⟩
  refine ⟨imported_nil _ _ _ _ rfl, ⟨by simp [ImportsResolve, exWorld, exValue, exDoc], by simp⟩,
    by simp [exWorld, exValue, exDoc], ?_, ?_, ?_⟩
  · intro l t
    rw [exTes_iff]
    constructor
    · rintro ⟨rfl, rfl⟩
      exact ⟨rfl, exValue, by simp [exWorld], .inr ⟨_, List.mem_cons_self .., .shape (.value (.shape .self))⟩⟩
    · rintro ⟨hl, s, hs, hw⟩
      simp only [List.map_nil, List.nil_append, List.mem_singleton] at hs
      subst hs
      rcases hw with ⟨e, he, hw⟩ | ⟨d, hd, hw⟩
      · cases he
      · simp only [exWorld, exValue, exDoc, exAt, List.mem_cons, List.not_mem_nil, or_false] at hd
        rcases hd with rfl | rfl
        · cases hw with | shape hw => cases hw with
            | self => cases hl
            | value hw => cases hw with | shape hw => cases hw with
              | self => cases hl; exact ⟨rfl, rfl⟩
        · cases hw with | shape hw => cases hw; cases hl
  · intro d hd
    simp only [allDecls, startDecls, exWorld, exValue, exDoc, exAt, List.map_nil, List.flatMap_nil,
      List.nil_append, List.map_cons, List.mem_cons, List.not_mem_nil, or_false] at hd
    rcases hd with rfl | rfl
    · exact ⟨.iri 1, rfl⟩
    · exact ⟨.iri 2, rfl⟩
  · intro d hd
    simp only [allDecls, startDecls, exWorld, exValue, exDoc, exAt, List.map_nil, List.flatMap_nil,
      List.nil_append, List.map_cons, List.mem_cons, List.not_mem_nil, or_false] at hd
    rcases hd with rfl | rfl
    · refine ⟨.shape false [] (.tc ⟨5, true⟩ [] (exAnyCore 6) ⟨1, .intMax 1⟩) [], ?_, ?_⟩
      · simp only [Stands, StandsO]
        exact ⟨_, _, _, _, _, rfl, rfl, .nil, ⟨_, rfl, none, none, none, _, _, _, _, rfl, rfl, .nil,
          ⟨rfl, rfl⟩, .inr ⟨_, rfl, exAny_stands _ _ _ _⟩⟩, .nil, by simp⟩
      · intro l h
        exfalso
        rcases uses_child h with (h | ⟨_, _, _, _, h, hl⟩) | ⟨d, ⟨p, acts, hd⟩, hl⟩
        · cases h
        · cases h; simp at hl
        · simp only [CTE.constraints, List.mem_singleton, Prod.mk.injEq] at hd
          rw [hd.2.2] at hl
          exact exAny_uses _ _ hl
    · obtain ⟨c, h1, h2⟩ := exIncl_stands ((exWorld []).ctxt exValue) (exTes 6) 6 rfl
      exact ⟨c, h1, fun l hl => (h2 l hl).elim⟩

/-- **C103** (refuted). A well-formed schema which imports itself is refused. -/
theorem C103_import_refuted : ∃ (W : World Nat Nat Nat) (s : Source Nat Nat),
    (∃ asts tes, WellFormed W (W.rewrite s) 0 none asts tes) ∧ W.fetch 0 0 = some s ∧
      ¬ ∃ n r, compile W n s 0 none = .ok r := by
  refine ⟨exWorld [(0, exBack)], exBack, ⟨[(exBack, 0)], exTes 5, ?_⟩, rfl, never_ok (m := 10) rfl⟩
  have hi : ∀ base i, Imports (exWorld [(0, exBack)]) exBack base i → i = 0 := by
    rintro base i ⟨t, ht, hr⟩
    simp only [exBack, exDoc, List.mem_singleton] at ht
    subst ht
    cases hr; rfl
  have hi0 : Imports (exWorld [(0, exBack)]) exBack none 0 := ⟨"", by simp [exBack, exDoc], rfl⟩
  refine ⟨⟨by simp, ?_, ?_⟩, ⟨fun t _ => ⟨_, rfl⟩, fun x _ t _ => ⟨_, rfl⟩⟩,
    by simp [exWorld, exBack, exDoc], ?_, ?_, ?_⟩
  · intro i
    simp only [List.map_cons, List.map_nil, List.mem_singleton]
    constructor
    · rintro rfl
      exact .first hi0
    · intro h
      cases h with
      | first h => exact hi _ _ h
      | next hx _ hj =>
        simp only [List.mem_singleton] at hx
        subst hx
        exact hi _ _ hj
  · intro x hx
    simp only [List.mem_singleton] at hx
    subst hx
    exact ⟨0, exBack, .inl ⟨rfl, hi0⟩, rfl, rfl⟩
  · intro l t
    rw [exTes_iff]
    constructor
    · rintro ⟨rfl, rfl⟩
      exact ⟨rfl, exBack, by simp [exWorld], .inr ⟨_, List.mem_cons_self .., .shape .self⟩⟩
    · rintro ⟨hl, s, hs, hw⟩
      have hs' : s = exBack := by simpa [exWorld] using hs
      subst hs'
      rcases hw with ⟨e, he, hw⟩ | ⟨d, hd, hw⟩
      · cases he
      · simp only [exBack, exDoc, exAt, List.mem_singleton] at hd
        subst hd
        cases hw with | shape hw => cases hw with
          | self => cases hl; exact ⟨rfl, rfl⟩
  · intro d hd
    have hd' : d = (.ref (.iri 1), exOf (exTc (some 9) 5 none none none)) := by
      simpa [allDecls, startDecls, exWorld, exBack, exDoc, exAt] using hd
    subst hd'
    exact ⟨.iri 1, rfl⟩
  · intro d hd
    have hd' : d = (.ref (.iri 1), exOf (exTc (some 9) 5 none none none)) := by
      simpa [allDecls, startDecls, exWorld, exBack, exDoc, exAt] using hd
    subst hd'
    exact ⟨_, exAny_stands _ _ _ _, fun l hl => (exAny_uses _ l hl).elim⟩

/-- The conditions of `C100_compiles_iff` and `C103_well_formed_partial` are met by `exNeg`. -/
example : ∃ n₀, ∀ n ≥ n₀, ∃ r, compile (exWorld []) n exNeg 0 none = .ok r := by
  have hw : ∀ t, Source.Within t exNeg → t.label = none := by
    rintro t (⟨e, he, _⟩ | ⟨d, hd, hw⟩)
    · cases he
    · simp only [exNeg, exDoc, exAt, List.mem_cons, List.not_mem_nil, or_false] at hd
      rcases hd with rfl | rfl
      · cases hw with | shape hw => cases hw with
          | self => rfl
          | value hw => cases hw
      · cases hw with | not hw => cases hw
  refine C103_well_formed_partial (exWorld []) (fun _ _ _ => rfl) exNeg 0 none [] (fun _ => none)
    ⟨imported_nil _ _ _ _ rfl, ⟨by simp [ImportsResolve, exWorld, exNeg, exDoc], by simp⟩,
      by simp [exWorld, exNeg, exDoc], ?_, ?_, ?_⟩ ?_ ?_ ?_
  · intro l t
    simp only [reduceCtorEq, false_iff]
    rintro ⟨hl, s, hs, h⟩
    have hs' : s = exNeg := by simpa [exWorld] using hs
    subst hs'
    rw [hw t h] at hl
    cases hl
  · intro d hd
    simp only [allDecls, startDecls, exWorld, exNeg, exDoc, exAt, List.map_nil, List.flatMap_nil,
      List.nil_append, List.map_cons, List.mem_cons, List.not_mem_nil, or_false] at hd
    rcases hd with rfl | rfl
    · exact ⟨.iri 1, rfl⟩
    · exact ⟨.iri 4, rfl⟩
  · intro d hd
    simp only [allDecls, startDecls, exWorld, exNeg, exDoc, exAt, List.map_nil, List.flatMap_nil,
      List.nil_append, List.map_cons, List.mem_cons, List.not_mem_nil, or_false] at hd
    rcases hd with rfl | rfl
    · refine ⟨exNegCore, ?_, fun l hl => (exNegCore_uses l hl).elim⟩
      simp only [exNegCore, Stands, StandsO]
      refine ⟨_, _, _, _, _, rfl, rfl, .nil, ⟨_, rfl, none, none, none, _, _, _, _, rfl, rfl, .nil,
        ⟨rfl, rfl⟩, .inr ⟨_, rfl, ?_⟩⟩, .nil, by simp⟩
      exact ⟨_, rfl, rfl⟩
    · refine ⟨.not (.ref (.iri 1)), ?_, ?_⟩
      · simp only [Stands]
        exact ⟨_, rfl, _, rfl, rfl⟩
      · intro l hl
        refine ⟨(.ref (.iri 1), exOf (exTc none 5 (some (.nc 7)) (some 1) (some (-1)))),
          by simp [allDecls, startDecls, exWorld, exNeg, exDoc, exAt], ?_⟩
        rcases uses_child hl with (h | ⟨_, _, _, _, h, _⟩) | ⟨d, hd, hk⟩
        · cases h
        · cases h
        · rw [show d = .ref (.iri 1) from hd] at hk
          rcases uses_child hk with (h | ⟨_, _, _, _, h, _⟩) | ⟨d, hd, _⟩
          · cases h; rfl
          · cases h
          · exact hd.elim
  · intro r hr t h hne
    have hs' : r = exNeg := by simpa [exWorld] using hr
    subst hs'
    exact (hne (hw t h)).elim
  · intro e he
    cases he
  · simp [exWorld, exNeg, exDoc, exAt, Source.labels, SE.labels, exOf, exTc, TE.labels]

end Comp
