import Verif.Mat.LemConf

/-!
# C114: graphs made from a schema and a map

When there is a graph, what is in it, and when it conforms to the schema it was made from.
-/

namespace Mat

open Shexc (SE TE NC IriRef Label SemAct Str)
open Spec

variable {E : Env} {S : Schema} {M : MapState}

/-! ## Helpers -/

theorem root_iff {init : Option Term} {x : Term} : (∃ σ, root E init = .ok (x, σ)) ↔ IsRoot E init x := by
  rcases init with _ | t
  · constructor
    · rintro ⟨σ, h⟩
      cases h
      rfl
    · rintro rfl
      exact ⟨_, rfl⟩
  · cases t with
    | literal s =>
      constructor
      · rintro ⟨σ, h⟩
        cases h
      · rintro ⟨⟩
    | iri s =>
      constructor
      · rintro ⟨σ, h⟩
        cases h
        rfl
      · rintro rfl
        exact ⟨_, rfl⟩
    | bnode s =>
      constructor
      · rintro ⟨σ, h⟩
        cases h
        rfl
      · rintro rfl
        exact ⟨_, rfl⟩

theorem root_st {init : Option Term} {x : Term} {σ : St} (h : root E init = .ok (x, σ)) : σ.graph = [] ∧
    ((init = none ∧ x = .bnode (E.fresh 1) ∧ σ.next = 1) ∨ (init = some x ∧ σ.next = 0)) := by
  rcases init with _ | t
  · cases h
    exact ⟨rfl, .inl ⟨rfl, rfl, rfl⟩⟩
  · cases t <;> cases h <;> exact ⟨rfl, .inr ⟨rfl, rfl⟩⟩

theorem materialize_ok {init : Option Term} {n : Nat} {g : List Triple} : materialize E S M init n = .ok g ↔
    ∃ x σ e σ', root E init = .ok (x, σ) ∧ Starts S e ∧ genSE E S M n e x σ = .ok σ' ∧ σ'.graph = g := by
  unfold materialize
  cases hr : root E init with
  | ok p =>
    obtain ⟨x, σ⟩ := p
    dsimp only
    cases hs : startShape S with
    | none =>
      simp only [reduceCtorEq, false_iff]
      rintro ⟨_, _, e, _, _, he, _⟩
      rw [startShape_iff.2 he] at hs
      cases hs
    | some e =>
      dsimp only
      constructor
      · intro h
        split at h
        · next σ' hσ' =>
          cases h
          exact ⟨x, σ, e, σ', rfl, startShape_iff.1 hs, hσ', rfl⟩
        all_goals cases h
      · rintro ⟨x', σ', e', σ'', h1, h2, h3, h4⟩
        cases h1
        rw [startShape_iff.2 h2] at hs
        cases hs
        rw [h3]
        simp only [h4]
  | _ =>
    simp only [reduceCtorEq, false_iff]
    rintro ⟨_, _, _, _, h, _⟩
    cases h

/-- What a failure says of an expression. -/
def Blame (E : Env) (S : Schema) (use : Item → Prop) : Res St → Prop
  | .ok _ => True
  | .fuel => True
  | .notFound l => use (.lab l) ∧ ∀ e, ¬ Declared S.shapes l e
  | .panic => ∃ i, use i ∧ ¬ NamesOk E i
  | _ => False

theorem Blame.imp {u w : Item → Prop} {r : Res St} (h : Blame E S u r) (hw : ∀ i, u i → w i) : Blame E S w r := by
  cases r with
  | notFound l => exact ⟨hw _ h.1, h.2⟩
  | panic => obtain ⟨i, hi, hn⟩ := h; exact ⟨i, hw i hi, hn⟩
  | _ => exact h

theorem steps_blame {α : Type} {f : α → St → Res St} {u : Item → Prop} {as : List α} (h : ∀ a ∈ as, ∀ σ, Blame E S u (f a σ))
    (σ : St) : Blame E S u (steps f as σ) := by
  induction as generalizing σ with
  | nil => trivial
  | cons a as ih =>
    rw [steps]
    have ha := h a (by simp) σ
    cases hf : f a σ with
    | ok τ => exact ih (fun b hb => h b (List.mem_cons_of_mem _ hb)) τ
    | _ => rw [hf] at ha; exact ha

/-- What is used by a triple expression. -/
def UsesT (S : Schema) (t : TE) (i : Item) : Prop :=
  InTE i t ∨ ∃ l e, InTE (.lab l) t ∧ Declared S.shapes l e ∧ Uses S e i

theorem usesT_shape {c x te a b d} {i : Item} (h : UsesT S te i) : Uses S (.shape c x (some te) a b d) i := by
  rcases h with h | ⟨l, e, h1, h2, h3⟩
  · exact .own (.shape h)
  · exact uses_trans (.own (.shape h1)) h2 h3

theorem uses_ref {l : Label} {e : SE} (hd : Declared S.shapes l e) {i : Item} (h : Uses S e i) : Uses S (.ref l) i :=
  uses_trans (.own .ref) hd h

theorem uses_split {e : SE} {i : Item} (h : Uses S e i) : InSE i e ∨ ∃ l e', InSE (.lab l) e ∧ Declared S.shapes l e' ∧ Uses S e' i := by
  induction h with
  | own h => exact .inl h
  | step _ hd hi ih =>
    rcases ih with ih | ⟨k, f, h1, h2, h3⟩
    · exact .inr ⟨_, _, ih, hd, .own hi⟩
    · exact .inr ⟨k, f, h1, h2, .step h3 hd hi⟩

theorem gen_blame (n : Nat) : (∀ e s σ, Blame E S (Uses S e) (genSE E S M n e s σ)) ∧
    ∀ t s σ, Blame E S (UsesT S t) (genTE E S M n t s σ) := by
  induction n with
  | zero => exact ⟨fun _ _ _ => by rw [genSE]; trivial, fun _ _ _ => by rw [genTE]; trivial⟩
  | succ n ih =>
    constructor
    · intro e s σ
      cases e with
      | shape c x te a b d =>
        cases te with
        | none => rw [genSE] <;> first | trivial | nofun
        | some te =>
          rw [genSE]
          exact (ih.2 te s σ).imp fun i => usesT_shape
      | ref l =>
        rw [genSE]
        split
        · next h => exact ⟨.own .ref, find_none.1 h⟩
        · next e he => exact (ih.1 e s σ).imp fun i => uses_ref (find_iff.1 he)
      | or => rw [genSE] <;> first | trivial | nofun
      | and => rw [genSE] <;> first | trivial | nofun
      | not => rw [genSE] <;> first | trivial | nofun
      | nc => rw [genSE] <;> first | trivial | nofun
      | external => rw [genSE] <;> first | trivial | nofun
    · intro t s σ
      cases t with
      | each id es mn mx a b =>
        rw [genTE]
        refine steps_blame (fun t ht σ => (ih.2 t s σ).imp fun i hi => ?_) σ
        rcases hi with hi | ⟨l, e, h1, h2, h3⟩
        · exact .inl (.each ht hi)
        · exact .inr ⟨l, e, .each ht h1, h2, h3⟩
      | one id es mn mx a b =>
        rw [genTE]
        refine steps_blame (fun t ht σ => (ih.2 t s σ).imp fun i hi => ?_) σ
        rcases hi with hi | ⟨l, e, h1, h2, h3⟩
        · exact .inl (.one ht hi)
        · exact .inr ⟨l, e, .one ht h1, h2, h3⟩
      | ref l => rw [genTE]; trivial
      | tc id ng iv p v mn mx acts b =>
        rw [genTE]
        split
        · next hp => exact ⟨_, .inl .tc, fun h => h.1 hp⟩
        · dsimp only
          split
          · split
            · next h => exact ⟨.inl .ref, find_none.1 h⟩
            · next e he => exact (ih.1 e _ _).imp fun i hi => .inr ⟨_, e, .ref, find_iff.1 he, hi⟩
          · refine (ih.1 _ _ _).imp fun i hi => ?_
            rcases uses_split hi with hi | ⟨l, e, h1, h2, h3⟩
            · exact .inl (.shape hi)
            · exact .inr ⟨l, e, .shape h1, h2, h3⟩
          · next hv1 hv2 =>
            split
            · trivial
            · next as =>
              refine steps_blame (fun a ha σ => ?_) σ
              unfold applyAct
              cases hn : E.resolve a.name with
              | none =>
                refine ⟨_, .inl .tc, fun h => h.2 ?_ as rfl a ha hn⟩
                rcases v with _ | e
                · trivial
                · cases e with
                  | ref l => exact absurd rfl (hv1 l)
                  | shape => exact absurd rfl (hv2 _ _ _ _ _ _)
                  | _ => trivial
              | some m =>
                dsimp only
                split
                · split
                  · trivial
                  · split
                    · trivial
                    · split <;> trivial
                · trivial

/-- What is known of a triple that is added. -/
def Origin (E : Env) (M : MapState) (use : Item → Prop) (t : Triple) : Prop :=
  ∃ p v acts, use (.tc p v acts) ∧ E.resolve p = some t.2.1 ∧
    ((¬ Leaf v ∧ ∃ j, t.2.2 = .bnode (E.fresh j)) ∨ (Leaf v ∧ Mapped E M acts t.2.2))

theorem steps_origin {α : Type} {f : α → St → Res St} {P : Triple → Prop} {as : List α}
    (h : ∀ a ∈ as, ∀ σ σ', f a σ = .ok σ' → ∀ t ∈ σ'.graph, t ∈ σ.graph ∨ P t) {σ σ' : St} (hs : steps f as σ = .ok σ') :
    ∀ t ∈ σ'.graph, t ∈ σ.graph ∨ P t := by
  induction as generalizing σ with
  | nil => cases hs; exact fun t => .inl
  | cons a as ih =>
    rw [steps] at hs
    cases hf : f a σ with
    | ok τ =>
      rw [hf] at hs
      intro t ht
      rcases ih (fun b hb => h b (List.mem_cons_of_mem _ hb)) hs t ht with ht | ht
      · exact h a (by simp) σ τ hf t ht
      · exact .inr ht
    | _ => rw [hf] at hs; cases hs

theorem Origin.imp {u w : Item → Prop} {t : Triple} (h : Origin E M u t) (hw : ∀ i, u i → w i) : Origin E M w t := by
  obtain ⟨p, v, acts, h1, h2⟩ := h
  exact ⟨p, v, acts, hw _ h1, h2⟩

theorem gen_origin (n : Nat) :
    (∀ e s σ σ', genSE E S M n e s σ = .ok σ' → ∀ t ∈ σ'.graph, t ∈ σ.graph ∨ Origin E M (Uses S e) t) ∧
    ∀ t s σ σ', genTE E S M n t s σ = .ok σ' → ∀ u ∈ σ'.graph, u ∈ σ.graph ∨ Origin E M (UsesT S t) u := by
  induction n with
  | zero =>
    constructor
    · intro e s σ σ' h
      rw [genSE] at h
      cases h
    · intro t s σ σ' h
      rw [genTE] at h
      cases h
  | succ n ih =>
    constructor
    · intro e s σ σ' h
      cases e with
      | shape c x te a b d =>
        cases te with
        | none => rw [genSE] at h <;> first | (cases h; exact fun t => .inl) | nofun
        | some te =>
          rw [genSE] at h
          exact fun t ht => (ih.2 te s σ σ' h t ht).imp_right fun h => h.imp fun i => usesT_shape
      | ref l =>
        rw [genSE] at h
        split at h
        · cases h
        · next e he => exact fun t ht => (ih.1 e s σ σ' h t ht).imp_right fun h => h.imp fun i => uses_ref (find_iff.1 he)
      | or => rw [genSE] at h <;> first | (cases h; exact fun t => .inl) | nofun
      | and => rw [genSE] at h <;> first | (cases h; exact fun t => .inl) | nofun
      | not => rw [genSE] at h <;> first | (cases h; exact fun t => .inl) | nofun
      | nc => rw [genSE] at h <;> first | (cases h; exact fun t => .inl) | nofun
      | external => rw [genSE] at h <;> first | (cases h; exact fun t => .inl) | nofun
    · intro t s σ σ' h
      cases t with
      | each id es mn mx a b =>
        rw [genTE] at h
        refine steps_origin (fun t ht σ σ' h u hu => (ih.2 t s σ σ' h u hu).imp_right fun h => h.imp fun i hi => ?_) h
        rcases hi with hi | ⟨l, e, h1, h2, h3⟩
        · exact .inl (.each ht hi)
        · exact .inr ⟨l, e, .each ht h1, h2, h3⟩
      | one id es mn mx a b =>
        rw [genTE] at h
        refine steps_origin (fun t ht σ σ' h u hu => (ih.2 t s σ σ' h u hu).imp_right fun h => h.imp fun i hi => ?_) h
        rcases hi with hi | ⟨l, e, h1, h2, h3⟩
        · exact .inl (.one ht hi)
        · exact .inr ⟨l, e, .one ht h1, h2, h3⟩
      | ref l => rw [genTE] at h; cases h; exact fun u => .inl
      | tc id ng iv p v mn mx acts b =>
        rw [genTE] at h
        split at h
        · cases h
        · next q hq =>
          dsimp only at h
          split at h
          · next l =>
            split at h
            · cases h
            · next e he =>
              intro u hu
              rcases ih.1 e _ _ σ' h u hu with hu | hu
              · rcases mem_add.1 hu with hu | rfl
                · exact .inl hu
                · exact .inr ⟨p, _, acts, .inl .tc, hq, .inl ⟨fun h => h, _, rfl⟩⟩
              · exact .inr (hu.imp fun i hi => .inr ⟨l, e, .ref, find_iff.1 he, hi⟩)
          · intro u hu
            rcases ih.1 _ _ _ σ' h u hu with hu | hu
            · rcases mem_add.1 hu with hu | rfl
              · exact .inl hu
              · exact .inr ⟨p, _, acts, .inl .tc, hq, .inl ⟨fun h => h, _, rfl⟩⟩
            · refine .inr (hu.imp fun i hi => ?_)
              rcases uses_split hi with hi | ⟨l, e, h1, h2, h3⟩
              · exact .inl (.shape hi)
              · exact .inr ⟨l, e, .shape h1, h2, h3⟩
          · next hv1 hv2 =>
            have hleaf : Leaf v := by
              rcases v with _ | e
              · trivial
              · cases e with
                | ref l => exact absurd rfl (hv1 l)
                | shape => exact absurd rfl (hv2 _ _ _ _ _ _)
                | _ => trivial
            split at h
            · cases h; exact fun u => .inl
            · next as =>
              refine steps_origin (fun a ha σ σ' h u hu => ?_) h
              rcases applyAct_eq h with ⟨rfl, _⟩ | ⟨x, rfl, hx⟩
              · exact .inl hu
              · rcases mem_add.1 hu with hu | rfl
                · exact .inl hu
                · refine .inr ⟨p, v, _, .inl .tc, hq, .inr ⟨hleaf, ?_⟩⟩
                  obtain ⟨_, a', code, k, h1, h2, h3⟩ := (hx x).2 rfl
                  cases h1
                  rw [List.mem_singleton.1 h2] at h3
                  exact ⟨as, a, code, k, rfl, ha, h3⟩

/-! ## The properties -/

/-- **C114** There is a graph exactly if the node to begin with is not a literal, there is a start or a shape, all
shapes that are referred to are declared, their names are known, and no shape refers to itself through others. -/
theorem C114_graph_iff (E : Env) (S : Schema) (M : MapState) (init : Option Term) :
    (∃ g, Makes E S M init g) ↔ (∃ x, IsRoot E init x) ∧ ∃ e, Starts S e ∧
      (∀ l, Uses S e (.lab l) → ∃ e', Declared S.shapes l e') ∧ (∀ i, Uses S e i → NamesOk E i) ∧
      ∀ l, InSE (.lab l) e → Acc (fun a b => RefersTo S b a) l := by
  constructor
  · rintro ⟨g, n, h⟩
    obtain ⟨x, σ, e, σ', h1, h2, h3, _⟩ := materialize_ok.1 h
    have hok := (gen_ok (E := E) (S := S) (M := M) n).1 e x σ σ' h3
    exact ⟨⟨x, root_iff.1 ⟨σ, h1⟩⟩, e, h2, fun l hl => (uses_ok hok _ hl).2 l rfl, fun i hi => (uses_ok hok i hi).1,
      fun l hl => (hok _ hl).1⟩
  · rintro ⟨⟨x, hx⟩, e, h1, h2, h3, h4⟩
    obtain ⟨σ, hσ⟩ := root_iff.2 hx
    obtain ⟨n, hn⟩ := ends_of (E := E) (M := M) h2 h3 h4
    obtain ⟨σ', h⟩ := hn x σ
    exact ⟨σ'.graph, n, materialize_ok.2 ⟨x, σ, e, σ', hσ, h1, h, rfl⟩⟩

/-- **C114** There is one graph at most. -/
theorem C114_one_graph (E : Env) (S : Schema) (M : MapState) (init : Option Term) (g g' : List Triple)
    (h : Makes E S M init g) (h' : Makes E S M init g') : g = g' := by
  obtain ⟨n, h⟩ := h
  obtain ⟨m, h'⟩ := h'
  obtain ⟨x, σ, e, τ, h1, h2, h3, rfl⟩ := materialize_ok.1 h
  obtain ⟨x', σ', e', τ', h1', h2', h3', rfl⟩ := materialize_ok.1 h'
  rw [h1] at h1'
  cases h1'
  have := startShape_iff.2 h2
  rw [startShape_iff.2 h2'] at this
  cases this
  have a := genSE_le (Nat.le_max_left n m) h3 nofun
  rw [genSE_le (Nat.le_max_right n m) h3' nofun] at a
  cases a
  rfl

/-- **C114** Schemas with recursive shapes have no graph and no error either: if all shapes that are referred to are
declared and all names are known, and some shape refers to itself through others, the computation never ends. -/
theorem C114_recursive (E : Env) (S : Schema) (M : MapState) (init : Option Term) (e : SE) (x : Term) (hx : IsRoot E init x)
    (he : Starts S e) (hf : ∀ l, Uses S e (.lab l) → ∃ e', Declared S.shapes l e') (hn : ∀ i, Uses S e i → NamesOk E i)
    (hr : ∃ l, InSE (.lab l) e ∧ ¬ Acc (fun a b => RefersTo S b a) l) (n : Nat) : materialize E S M init n = .fuel := by
  obtain ⟨σ, hσ⟩ := root_iff.2 hx
  have hb := (gen_blame (E := E) (S := S) (M := M) n).1 e x σ
  unfold materialize
  rw [hσ]
  dsimp only
  rw [startShape_iff.2 he]
  dsimp only
  cases hg : genSE E S M n e x σ with
  | ok σ' =>
    obtain ⟨l, hl, hacc⟩ := hr
    exact absurd ((gen_ok (E := E) (S := S) (M := M) n).1 e x σ σ' hg _ hl).1 hacc
  | fuel => rfl
  | notFound l =>
    rw [hg] at hb
    obtain ⟨e', he'⟩ := hf l hb.1
    exact absurd he' (hb.2 e')
  | panic =>
    rw [hg] at hb
    obtain ⟨i, hi, hi'⟩ := hb
    exact absurd (hn i hi) hi'
  | noStart => rw [hg] at hb; exact hb.elim
  | notSubject => rw [hg] at hb; exact hb.elim

/-- **C114** The failures say what is wrong: a shape that is not found is used and not declared; there is a panic only
for a name that the prefixes do not resolve; no start is found only if there is none; and a node is refused only if it
is a literal. -/
theorem C114_failures (E : Env) (S : Schema) (M : MapState) (init : Option Term) (n : Nat) :
    (∀ l, materialize E S M init n = .notFound l → ∃ e, Starts S e ∧ Uses S e (.lab l) ∧ ∀ e', ¬ Declared S.shapes l e') ∧
    (materialize E S M init n = .panic → ∃ e i, Starts S e ∧ Uses S e i ∧ ¬ NamesOk E i) ∧
    (materialize E S M init n = .noStart ↔ (∃ x, IsRoot E init x) ∧ ∀ e, ¬ Starts S e) ∧
    (materialize E S M init n = .notSubject ↔ ∃ s, init = some (.literal s)) := by
  have hsub : (∃ x, IsRoot E init x) ∨ ∃ s, init = some (.literal s) := by
    rcases init with _ | t
    · exact .inl ⟨_, rfl⟩
    · cases t with
      | literal s => exact .inr ⟨s, rfl⟩
      | iri s => exact .inl ⟨_, rfl⟩
      | bnode s => exact .inl ⟨_, rfl⟩
  rcases hsub with ⟨x, hx⟩ | ⟨s, rfl⟩
  · obtain ⟨σ, hσ⟩ := root_iff.2 hx
    have hlit : ¬ ∃ s, init = some (.literal s) := by
      rintro ⟨s, rfl⟩
      exact hx
    unfold materialize
    rw [hσ]
    dsimp only
    cases hs : startShape S with
    | none =>
      have hno : ∀ e, ¬ Starts S e := fun e he => by rw [startShape_iff.2 he] at hs; cases hs
      exact ⟨nofun, nofun, ⟨fun _ => ⟨⟨x, hx⟩, hno⟩, fun _ => rfl⟩, ⟨nofun, fun h => absurd h hlit⟩⟩
    | some e =>
      have he := startShape_iff.1 hs
      have hb := (gen_blame (E := E) (S := S) (M := M) n).1 e x σ
      dsimp only
      have hns : ¬ ((∃ x, IsRoot E init x) ∧ ∀ e, ¬ Starts S e) := fun h => h.2 e he
      cases hg : genSE E S M n e x σ with
      | ok σ' => exact ⟨nofun, nofun, ⟨nofun, fun h => absurd h hns⟩, ⟨nofun, fun h => absurd h hlit⟩⟩
      | fuel => exact ⟨nofun, nofun, ⟨nofun, fun h => absurd h hns⟩, ⟨nofun, fun h => absurd h hlit⟩⟩
      | notFound l =>
        rw [hg] at hb
        refine ⟨fun k hk => ?_, nofun, ⟨nofun, fun h => absurd h hns⟩, ⟨nofun, fun h => absurd h hlit⟩⟩
        cases hk
        exact ⟨e, he, hb⟩
      | panic =>
        rw [hg] at hb
        obtain ⟨i, hi⟩ := hb
        exact ⟨nofun, fun _ => ⟨e, i, he, hi⟩, ⟨nofun, fun h => absurd h hns⟩, ⟨nofun, fun h => absurd h hlit⟩⟩
      | noStart => rw [hg] at hb; exact hb.elim
      | notSubject => rw [hg] at hb; exact hb.elim
  · refine ⟨nofun, nofun, ⟨nofun, ?_⟩, ⟨fun _ => ⟨s, rfl⟩, fun _ => rfl⟩⟩
    rintro ⟨⟨x, hx⟩, _⟩
    exact hx.elim

/-- **C114** Every triple comes from a triple constraint of a shape that is used: its predicate is that of the
constraint, and its object is a blank node made for it, if the constraint has a shape, or a value that the map has for
one of its actions. -/
theorem C114_triples (E : Env) (S : Schema) (M : MapState) (init : Option Term) (g : List Triple) (h : Makes E S M init g) :
    ∃ e, Starts S e ∧ ∀ s p o, (s, p, o) ∈ g → ∃ q v acts, Uses S e (.tc q v acts) ∧ E.resolve q = some p ∧
      ((¬ Leaf v ∧ ∃ j, o = .bnode (E.fresh j)) ∨ (Leaf v ∧ Mapped E M acts o)) := by
  obtain ⟨n, h⟩ := h
  obtain ⟨x, σ, e, σ', h1, h2, h3, rfl⟩ := materialize_ok.1 h
  refine ⟨e, h2, fun s p o ht => ?_⟩
  rcases (gen_origin (E := E) (S := S) (M := M) n).1 e x σ σ' h3 _ ht with ht | ht
  · rw [(root_st h1).1] at ht
    cases ht
  · exact ht

/-- **C114** The graph conforms to the schema it was made from. Partial: for schemas whose shapes the map covers, that
is, with groups and constraints that may occur once, different predicates in a shape, and as many values in the map as
are asked for; and if the blank nodes have names of their own. `C114_refuted` shows what happens otherwise. -/
theorem C114_conforms_partial (E : Env) (S : Schema) (M : MapState) (ncSat : NC → Term → Prop) (init : Option Term) (g : List Triple)
    (h : Makes E S M init g) (hf : FreshNames E init) (hc : ∀ e, Starts S e → Covered E S ncSat M e) :
    ∃ e x, Starts S e ∧ IsRoot E init x ∧ Sat E S ncSat g e x := by
  obtain ⟨n, h⟩ := h
  obtain ⟨x, σ, e, σ', h1, h2, h3, rfl⟩ := materialize_ok.1 h
  refine ⟨e, x, h2, root_iff.1 ⟨σ, h1⟩, ?_⟩
  obtain ⟨hg, hx⟩ := root_st h1
  refine (((conforms hf.1 n).1 e) x σ σ' h3 (hc e h2) (by intro t ht; rw [hg] at ht; cases ht) ?_ (by rw [hg]; rfl)).2 _ rfl
    fun _ _ => rfl
  intro j hj he
  rcases hx with ⟨_, hx, hn⟩ | ⟨hi, _⟩
  · rw [hx] at he
    have := hf.1 1 j (Term.bnode.inj he)
    omega
  · exact hf.2 j (by rw [hi, he])

/-! ## Witnesses and examples -/

namespace Ex

/-- Names in full; the n-th blank node has a name of n letters. -/
def env : Env where
  ws := fun c => c = ' '
  resolve := fun
    | .iri s => some s
    | .prefixed _ _ => none
  qname := fun _ => none
  validIri := fun _ => true
  fresh := fun n => List.replicate n 'b'

theorem env_fresh (i j : Nat) (h : env.fresh i = env.fresh j) : i = j := by
  have := congrArg List.length h
  simpa [env] using this

/-- `%<http://shex.io/extensions/Map/>{ <k> %}`. -/
def act : SemAct := ⟨.iri mapIri, some " <k> ".toList⟩

/-- `<p> v {mn,mx}`. -/
def con (p : Char) (v : Option SE) (mn mx : Option Int) (acts : Option (List SemAct)) : TE :=
  .tc none none none (.iri [p]) v mn mx acts none

/-- `{ te }`. -/
def shp (te : TE) : SE := .shape none none (some te) none none none

/-- A map with one value for all keys. -/
def full : MapState := fun _ => some (.literal ['v'])

/-- `<p> @<T> ; <q> . %Map{ <k> %}` with `<T> CLOSED { }`. -/
def S0 : Schema where
  start := some (shp (.each none [con 'p' (some (.ref (.bnode ['T']))) none none none, con 'q' none none none (some [act])] none none none none))
  shapes := [(.bnode ['T'], .shape (some true) none none none none none)]

/-- `<p> .`, without an action. -/
def S1 : Schema := ⟨some (shp (con 'p' none none none none)), []⟩

/-- `<p> . %Map{ <k> %} | <q> . %Map{ <k> %}`. -/
def S2 : Schema := ⟨some (shp (.one none [con 'p' none none none (some [act]), con 'q' none none none (some [act])] none none none none)), []⟩

/-- `<p> { } {2}`. -/
def S3 : Schema := ⟨some (shp (con 'p' (some .any) (some 2) (some 2) none)), []⟩

/-- `<T> { <p> @<T> ? }`. -/
def S4 : Schema := ⟨none, [(.bnode ['T'], shp (con 'p' (some (.ref (.bnode ['T']))) (some 0) (some 1) none))]⟩

end Ex

/-- The graph that is made of a schema does not conform to it. -/
def Fails (E : Env) (S : Schema) (M : MapState) (init : Option Term) : Prop :=
  ∃ g, Makes E S M init g ∧ ∀ ncSat e x, Starts S e → IsRoot E init x → ¬ Sat E S ncSat g e x

/-- **C114** "The resulting graph validates against the target schema" is false: a constraint without a value leaves
the graph without an arc; all the alternatives of a choice are made; a shape is made once though two are asked for; and
the blank nodes that are made may be the one that was given. -/
theorem C114_refuted : ∃ E : Env, (∀ i j, E.fresh i = E.fresh j → i = j) ∧
    Fails E Ex.S1 Ex.full none ∧ Fails E Ex.S2 Ex.full none ∧ Fails E Ex.S3 Ex.full none ∧
    ∃ j, Fails E Ex.S0 Ex.full (some (.bnode (E.fresh j))) := by
  refine ⟨Ex.env, Ex.env_fresh, ⟨[], ⟨2, rfl⟩, ?_⟩, ⟨[(.bnode ['b'], ['p'], .literal ['v']), (.bnode ['b'], ['q'], .literal ['v'])], ⟨4, by decide +kernel⟩, ?_⟩,
    ⟨[(.bnode ['b'], ['p'], .bnode ['b', 'b'])], ⟨4, by decide +kernel⟩, ?_⟩,
    1, [(.bnode ['b'], ['p'], .bnode ['b']), (.bnode ['b'], ['q'], .literal ['v'])], ⟨5, by decide +kernel⟩, ?_⟩
  · rintro ncSat e x (he | ⟨he, _⟩) hx hs
    · cases he
      cases hs with
      | shape hp h =>
        have hl := List.append_eq_nil_iff.1 (List.Perm.eq_nil hp)
        rw [hl.1] at h
        cases h with
        | any _ _ _ _ hc => exact absurd hc.1 (by decide)
    · cases he
  · rintro ncSat e x (he | ⟨he, _⟩) hx hs
    · cases he
      cases hx
      cases hs with
      | @shape _ _ _ _ _ _ l rest hp h hr _ =>
        have hrest : rest = [] := by
          rcases rest with _ | ⟨a, rest⟩
          · rfl
          · have ha : a ∈ [((['p'] : Str), Term.literal ['v']), (['q'], Term.literal ['v'])] := hp.subset (by simp)
            refine absurd ?_ (hr a (by simp))
            rcases List.mem_cons.1 ha with rfl | ha
            · exact .one (List.mem_cons_self ..) (.tc rfl)
            · rw [List.mem_singleton.1 ha]
              exact .one (List.mem_cons_of_mem _ (List.mem_cons_self ..)) (.tc rfl)
        subst hrest
        rw [List.append_nil] at hp
        have hin : ∀ a ∈ [((['p'] : Str), Term.literal ['v']), (['q'], Term.literal ['v'])], a ∈ l := fun a ha => hp.symm.subset ha
        cases h with
        | @one _ _ _ _ _ _ parts choice hc hm h =>
          have hlen : parts.length = 1 := by
            have h1 : (1 : Int) ≤ parts.length := hc.1
            have h2 : (parts.length : Int) ≤ 1 := hc.2.resolve_left (by decide)
            omega
          obtain ⟨l, rfl⟩ := List.length_eq_one_iff.1 hlen
          have hl := h l (by simp)
          have hch := hm l (by simp)
          simp only [List.flatten_cons, List.flatten_nil, List.append_nil] at hin
          rcases List.mem_cons.1 hch with hch | hch
          · rw [hch] at hl
            cases hl with
            | any _ _ hp hl _ =>
              cases hp
              exact absurd (hl _ (hin (['q'], .literal ['v']) (by simp))) (by decide)
          · rw [List.mem_singleton.1 hch] at hl
            cases hl with
            | any _ _ hp hl _ =>
              cases hp
              exact absurd (hl _ (hin (['p'], .literal ['v']) (by simp))) (by decide)
    · cases he
  · rintro ncSat e x (he | ⟨he, _⟩) hx hs
    · cases he
      cases hx
      cases hs with
      | @shape _ _ _ _ _ _ l rest hp h hr _ =>
        have hlen : l.length + rest.length = 1 := by
          rw [← List.length_append, hp.length_eq]
          decide
        cases h with
        | tc _ _ _ _ _ hc =>
          have h1 : (2 : Int) ≤ l.length := hc.1
          omega
    · cases he
  · rintro ncSat e x (he | ⟨he, _⟩) hx hs
    · cases he
      cases hx
      cases hs with
      | @shape _ _ _ _ _ _ l rest hp h hr _ =>
        cases h with
        | @each _ _ _ _ _ _ parts hc h =>
          have h1 : (1 : Int) ≤ parts.length := hc.1
          rcases parts with _ | ⟨m, parts⟩
          · exact absurd h1 (by decide)
          · have hm := h m (by simp)
            cases hm with
            | @cons _ _ a b ht _ =>
              cases ht with
              | tc _ _ hq hl hs hc =>
                cases hq
                have h1 : (1 : Int) ≤ a.length := hc.1
                rcases a with _ | ⟨y, a⟩
                · exact absurd h1 (by decide)
                · have hy : y ∈ [((['p'] : Str), Term.bnode ['b']), (['q'], Term.literal ['v'])] := hp.subset (by simp)
                  have hyp := hl y (by simp)
                  have hys := hs y (by simp)
                  have : y = (['p'], Term.bnode ['b']) := by
                    rcases List.mem_cons.1 hy with rfl | hy
                    · rfl
                    · rw [List.mem_singleton.1 hy] at hyp
                      exact absurd hyp (by decide)
                  subst this
                  cases hys with
                  | ref hd hs =>
                    cases hd with
                    | here =>
                      cases hs with
                      | any h => exact absurd (h rfl) (by decide)
                    | later h _ => exact absurd rfl h
    · cases he

namespace Ex

/-- The graph of `S0`. -/
def g0 : List Triple := [(.bnode ['b'], ['p'], .bnode ['b', 'b']), (.bnode ['b'], ['q'], .literal ['v'])]

theorem makes0 : Makes env S0 full none g0 := ⟨5, by decide +kernel⟩

example : (∃ x, IsRoot env none x) ∧ ∃ e, Starts S0 e ∧
      (∀ l, Uses S0 e (.lab l) → ∃ e', Declared S0.shapes l e') ∧ (∀ i, Uses S0 e i → NamesOk env i) ∧
      ∀ l, InSE (.lab l) e → Acc (fun a b => RefersTo S0 b a) l := (C114_graph_iff env S0 full none).1 ⟨g0, makes0⟩

example : ∀ g, Makes env S0 full none g → g = g0 := fun g h => C114_one_graph env S0 full none g g0 h makes0

theorem mapped (x : Term) : x ∈ [Term.literal ['v']] ↔ Mapped env full (some [act]) x := by
  rw [List.mem_singleton]
  constructor
  · rintro rfl
    exact ⟨_, act, _, ['k'], rfl, by simp, rfl, rfl, by decide +kernel, rfl⟩
  · rintro ⟨as, a, code, k, _, _, _, _, _, h⟩
    cases h
    rfl

theorem covered0 (ncSat : NC → Term → Prop) (e : SE) (h : Starts S0 e) : Covered env S0 ncSat full e := by
  rcases h with h | ⟨h, _⟩
  · cases h
    refine .shape (ps := [['p'], ['q']]) (.each ⟨by decide, .inr (by decide)⟩ (.cons (ps := [['p']]) (.ref nofun nofun rfl ⟨by decide, .inr (by decide)⟩ .here .any)
      (.cons (ps := [['q']]) (.leaf (vs := [Term.literal ['v']]) nofun nofun rfl (.inl rfl) mapped (by simp) ⟨by decide, .inr (by decide)⟩) .nil))) (by decide)
  · cases h

/-- The graph of `S0` conforms to it, if the subject is not given. -/
example (ncSat : NC → Term → Prop) : ∃ e x, Starts S0 e ∧ IsRoot env none x ∧ Sat env S0 ncSat g0 e x :=
  C114_conforms_partial env S0 full ncSat none g0 makes0 ⟨env_fresh, nofun⟩ (covered0 ncSat)

example : ∃ e, Starts S0 e ∧ ∀ s p o, (s, p, o) ∈ g0 → ∃ q v acts, Uses S0 e (.tc q v acts) ∧ env.resolve q = some p ∧
      ((¬ Leaf v ∧ ∃ j, o = .bnode (env.fresh j)) ∨ (Leaf v ∧ Mapped env full acts o)) := C114_triples env S0 full none g0 makes0

theorem uses4 (i : Item) (e : SE) (he : Declared S4.shapes (.bnode ['T']) e) (h : Uses S4 e i) :
    i = .lab (.bnode ['T']) ∨ i = .tc (.iri ['p']) (some (.ref (.bnode ['T']))) none := by
  have hin : ∀ l e i, Declared S4.shapes l e → InSE i e →
      i = .lab (.bnode ['T']) ∨ i = .tc (.iri ['p']) (some (.ref (.bnode ['T']))) none := by
    intro l e i hd hi
    rcases hd with _ | ⟨_, ⟨⟩⟩
    rcases hi with _ | hi
    cases hi with
    | tc => exact .inr rfl
    | ref => exact .inl rfl
  cases h with
  | own h => exact hin _ _ _ he h
  | step _ hd h => exact hin _ _ _ hd h

/-- `<T> { <p> @<T> ? }` has finite graphs that conform to it, but the computation never ends. -/
example (n : Nat) : materialize env S4 full none n = .fuel := by
  refine C114_recursive env S4 full none (shp (con 'p' (some (.ref (.bnode ['T']))) (some 0) (some 1) none)) (.bnode ['b']) rfl
    (.first rfl rfl) ?_ ?_ ⟨.bnode ['T'], .shape .ref, ?_⟩ n
  · intro l hl
    rcases uses4 _ _ .here hl with h | h
    · cases h
      exact ⟨_, .here⟩
    · cases h
  · intro i hi
    rcases uses4 _ _ .here hi with rfl | rfl
    · trivial
    · exact ⟨nofun, fun h => h.elim⟩
  · intro h
    have hr : RefersTo S4 (.bnode ['T']) (.bnode ['T']) := ⟨_, .here, .shape .ref⟩
    generalize Label.bnode ['T'] = l at h hr
    induction h with
    | intro l _ ih => exact ih l hr hr

/-- `<p> @<U>` without `<U>`; a schema without shapes; a literal as the subject; a prefix that is not declared. -/
example : materialize env ⟨some (shp (con 'p' (some (.ref (.bnode ['U']))) none none none)), []⟩ full none 5 = .notFound (.bnode ['U']) ∧
    materialize env ⟨none, []⟩ full none 5 = .noStart ∧
    materialize env S0 full (some (.literal ['v'])) 5 = .notSubject ∧
    materialize env ⟨some (shp (.tc none none none (.prefixed ['e'] ['p']) none none none none none)), []⟩ full none 5 = .panic := by
  refine ⟨by decide +kernel, by decide +kernel, by decide +kernel, by decide +kernel⟩

end Ex

end Mat
