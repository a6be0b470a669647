import Verif.Rd.LemWrite4
import Verif.Rd.PropsShape

/-!
# C120: shapes that are written and read back
-/

namespace Rd

section
variable {L C : Type} [DecidableEq L] {O : Out L C} {E : Ext L C} {S : List (Shape C)}

/-- A simple schema is written, and every graph with just these triples is read, as a schema with the same shapes: one
entry for the name of each, which is alike. Missing: schemas that are not simple, of which this is false (`C120_panics`,
`C120_unreadable`, `C120_lost`, `C120_refuted`), and SPARQL constraints. -/
theorem C120_round_trip_partial (hI : Inverse E O) (hS : Simple E O S) :
    ∃ ts, writeW O 0 S = some ts ∧ ∀ g : Gr L, g.Orders → (∀ e, e ∈ g.ts ↔ e ∈ ts) →
      ∃ N, ∀ n, N ≤ n → ∀ s, ∃ r s', parse g E n s = (.ok r, s') ∧ (r.map Prod.fst).Nodup ∧
        (∀ e ∈ r, ∃ x ∈ S, e.1 = x.base.id.term O ∧ x.Alike e.2) ∧
        ∀ x ∈ S, ∃ e ∈ r, e.1 = x.base.id.term O ∧ x.Alike e.2 := by
  obtain ⟨ts, hw⟩ := simple_writes hS
  refine ⟨ts, hw, fun g hg ht => ?_⟩
  have H := holds hI hS hw ht
  obtain ⟨N, hN⟩ := C119_reads (E := E) hg (neat H) (no_badList H) fun t hc => by
    obtain ⟨x, hx, rfl⟩ := (candidate_iff H).1 hc
    exact written_good H hx
  refine ⟨N, fun n hn s => ?_⟩
  obtain ⟨r, s', hr⟩ := hN n hn s
  obtain ⟨h1, h2, h3⟩ := C119_schema hg (neat H) hr
  have h4 : ∀ e ∈ r, ∀ x ∈ S, e.1 = x.base.id.term O → x.Alike e.2 := fun e he x hx hex => by
    have := h3 e he (hex ▸ written_good H hx)
    rw [hex] at this
    exact written_says H hx this
  refine ⟨r, s', hr, h1, fun e he => ?_, fun x hx => ?_⟩
  · obtain ⟨x, hx, hex⟩ := (candidate_iff H).1 ((h2 e.1).1 (List.mem_map_of_mem he))
    exact ⟨x, hx, hex, h4 e he x hx hex⟩
  · obtain ⟨e, he, hex⟩ := List.mem_map.1 ((h2 _).2 ((candidate_iff H).2 ⟨x, hx, rfl⟩))
    exact ⟨e, he, hex, h4 e he x hx hex⟩

omit [DecidableEq L] in
/-- When the writer panics: a literal as name of a shape, a path that is not a predicate, a node kind other than
`sh:IRI`, a blank node as value or in a list of values. -/
theorem C120_panics :
    writeW O 0 S = none ↔ ∃ x ∈ S, (∃ c, x.base.id = .lit c) ∨ (∃ s, x = .prop s ∧ ∀ i, s.path ≠ .pred i) ∨
      ∃ c ∈ x.base.comps, (∃ k, c = .nodeKind k ∧ k ≠ .iri) ∨ (∃ b, c = .hasValue (.bnode b)) ∨
        ∃ l b, c = .isIn l ∧ Ob.bnode b ∈ l := by
  have h1 : ∀ l : List (Ob C), l.mapM (valueW O) = none ↔ ∃ b, Ob.bnode b ∈ l := by
    intro l
    induction l with
    | nil => simp
    | cons o l ih =>
      rw [List.mapM_cons]
      cases ho : valueW O o with
      | none =>
        cases o with
        | bnode b => exact ⟨fun _ => ⟨b, by simp⟩, fun _ => rfl⟩
        | _ => cases ho
      | some t =>
        have hb : ∀ b, o ≠ .bnode b := by
          rintro b rfl
          cases ho
        cases hl : l.mapM (valueW O) with
        | none =>
          obtain ⟨b, hb⟩ := ih.1 hl
          exact ⟨fun _ => ⟨b, by simp [hb]⟩, fun _ => rfl⟩
        | some ts =>
          refine ⟨nofun, fun ⟨b, hm⟩ => ?_⟩
          rcases List.mem_cons.1 hm with h | h
          · exact (hb b h.symm).elim
          · rw [ih.2 ⟨b, h⟩] at hl
            cases hl
  have h2 : ∀ c : Comp C, compW O c = none ↔ (∃ k, c = .nodeKind k ∧ k ≠ .iri) ∨ (∃ b, c = .hasValue (.bnode b)) ∨
      ∃ l b, c = .isIn l ∧ Ob.bnode b ∈ l := by
    intro c
    cases c with
    | nodeKind k => cases k <;> simp [compW]
    | hasValue o => cases o <;> simp [compW, valueW]
    | isIn l => simp [compW, h1]
    | _ => simp [compW]
  have h3 : ∀ o : Ob C, (o.term O).isLit = true ↔ ∃ c, o = .lit c := by
    intro o
    cases o <;> simp [Ob.term, Tm.isLit]
  rw [writeW_none]
  refine exists_congr fun x => and_congr_right fun _ => ?_
  unfold Unwritable
  rw [h3]
  simp only [h2]
  exact or_congr_right or_comm

end

section
variable {L C : Type} {O : Out L C} {E : Ext L C} {S : List (Shape C)} {ts : List (Tm L × Iri × Tm L)} {g : Gr L}

theorem written_has (hw : writeW O 0 S = some ts) (hg : ∀ e, e ∈ g.ts ↔ e ∈ ts) {t o : Tm L} {v : Voc}
    (h : g.Has t v o) (hv : v ∉ [Voc.select, .deactivated, .sparql]) : ∃ x ∈ S, Puts O x v o := by
  obtain ⟨x, hx, ⟨v', o', hp, he⟩ | ⟨b, c, -, hm⟩⟩ := (writeW_mem hw).1 _ ((hg _).1 h.2)
  · cases he
    exact ⟨x, hx, hp⟩
  · cases c with
    | sparql q d =>
      simp only [sparqlW, List.mem_append, List.mem_cons, List.mem_map, Option.mem_toList, Prod.mk.injEq,
        Iri.v.injEq, List.not_mem_nil, or_false] at hm
      rcases hm with (⟨-, rfl, -⟩ | ⟨_, -, -, rfl, -⟩) | ⟨-, rfl, -⟩ <;> exact absurd hv (by decide)
    | _ => cases hm

theorem puts_never {x : Shape C} {v : Voc} {o : Tm L} (hv : v ∈ [Voc.nodeKind, .first, .rest, .reifierShape]) :
    ¬ Puts O x v o := by
  intro h
  cases h with
  | @comp _ c ps _ _ _ hps hm =>
    cases c with
    | nodeKind k =>
      cases k <;> simp only [compW, Option.some.injEq, reduceCtorEq] at hps
      subst hps
      simp only [List.mem_singleton, Prod.mk.injEq] at hm
      obtain ⟨rfl, -⟩ := hm
      exact absurd hv (by decide)
    | hasValue w =>
      cases w <;> simp only [compW, valueW, Option.map_some, Option.map_none, Option.some.injEq, reduceCtorEq] at hps <;>
      · subst hps
        simp only [List.mem_singleton, Prod.mk.injEq] at hm
        obtain ⟨rfl, -⟩ := hm
        exact absurd hv (by decide)
    | isIn l =>
      simp only [compW, Option.map_eq_some_iff] at hps
      obtain ⟨us, -, rfl⟩ := hps
      simp only [List.mem_map, Prod.mk.injEq] at hm
      obtain ⟨_, -, rfl, -⟩ := hm
      exact absurd hv (by decide)
    | qualified =>
      simp only [compW, Option.some.injEq] at hps
      subst hps
      simp only [List.mem_append, List.mem_map, Option.mem_toList, List.mem_singleton, Prod.mk.injEq] at hm
      rcases hm with ((⟨f, hf, rfl, rfl⟩ | ⟨f, hf, rfl, rfl⟩) | ⟨f, hf, rfl, rfl⟩) | ⟨rfl, rfl⟩ <;>
        exact absurd hv (by decide)
    | pattern =>
      simp only [compW, Option.some.injEq] at hps
      subst hps
      simp only [List.mem_append, List.mem_map, Option.mem_toList, List.mem_singleton, Prod.mk.injEq] at hm
      rcases hm with ⟨f, hf, rfl, rfl⟩ | ⟨rfl, rfl⟩ <;> exact absurd hv (by decide)
    | closed =>
      simp only [compW, Option.some.injEq] at hps
      subst hps
      simp only [List.mem_cons, List.mem_map, Prod.mk.injEq] at hm
      rcases hm with ⟨rfl, rfl⟩ | ⟨f, hf, rfl, rfl⟩ <;> exact absurd hv (by decide)
    | sparql =>
      simp only [compW, Option.some.injEq] at hps
      subst hps
      cases hm
    | languageIn | and | or | xone =>
      simp only [compW, Option.some.injEq] at hps
      subst hps
      simp only [List.mem_map, Prod.mk.injEq] at hm
      obtain ⟨_, -, rfl, -⟩ := hm
      exact absurd hv (by decide)
    | _ =>
      simp only [compW, Option.some.injEq] at hps
      subst hps
      simp only [List.mem_singleton, Prod.mk.injEq] at hm
      obtain ⟨rfl, -⟩ := hm
      exact absurd hv (by decide)
  | @target _ τ _ _ hτ he => cases τ <;> cases he <;> exact absurd hv (by decide)
  | _ => exact absurd hv (by decide)

theorem puts_range {x : Shape C} {v : Voc} {o : Tm L}
    (hv : v ∈ [Voc.minInclusive, .minExclusive, .maxInclusive, .maxExclusive]) (h : Puts O x v o) :
    ∃ c, o = plainLit O c := by
  cases h with
  | @comp _ c ps _ _ _ hps hm =>
    cases c with
    | nodeKind k =>
      cases k <;> simp only [compW, Option.some.injEq, reduceCtorEq] at hps
      subst hps
      simp only [List.mem_singleton, Prod.mk.injEq] at hm
      obtain ⟨rfl, -⟩ := hm
      exact absurd hv (by decide)
    | hasValue w =>
      cases w <;> simp only [compW, valueW, Option.map_some, Option.map_none, Option.some.injEq, reduceCtorEq] at hps <;>
      · subst hps
        simp only [List.mem_singleton, Prod.mk.injEq] at hm
        obtain ⟨rfl, -⟩ := hm
        exact absurd hv (by decide)
    | isIn l =>
      simp only [compW, Option.map_eq_some_iff] at hps
      obtain ⟨us, -, rfl⟩ := hps
      simp only [List.mem_map, Prod.mk.injEq] at hm
      obtain ⟨_, -, rfl, -⟩ := hm
      exact absurd hv (by decide)
    | qualified =>
      simp only [compW, Option.some.injEq] at hps
      subst hps
      simp only [List.mem_append, List.mem_map, Option.mem_toList, List.mem_singleton, Prod.mk.injEq] at hm
      rcases hm with ((⟨f, hf, rfl, rfl⟩ | ⟨f, hf, rfl, rfl⟩) | ⟨f, hf, rfl, rfl⟩) | ⟨rfl, rfl⟩ <;>
        exact absurd hv (by decide)
    | pattern =>
      simp only [compW, Option.some.injEq] at hps
      subst hps
      simp only [List.mem_append, List.mem_map, Option.mem_toList, List.mem_singleton, Prod.mk.injEq] at hm
      rcases hm with ⟨f, hf, rfl, rfl⟩ | ⟨rfl, rfl⟩ <;> exact absurd hv (by decide)
    | closed =>
      simp only [compW, Option.some.injEq] at hps
      subst hps
      simp only [List.mem_cons, List.mem_map, Prod.mk.injEq] at hm
      rcases hm with ⟨rfl, rfl⟩ | ⟨f, hf, rfl, rfl⟩ <;> exact absurd hv (by decide)
    | sparql =>
      simp only [compW, Option.some.injEq] at hps
      subst hps
      cases hm
    | languageIn | and | or | xone =>
      simp only [compW, Option.some.injEq] at hps
      subst hps
      simp only [List.mem_map, Prod.mk.injEq] at hm
      obtain ⟨_, -, rfl, -⟩ := hm
      exact absurd hv (by decide)
    | _ =>
      simp only [compW, Option.some.injEq] at hps
      subst hps
      simp only [List.mem_singleton, Prod.mk.injEq] at hm
      obtain ⟨rfl, rfl⟩ := hm
      first | exact ⟨_, rfl⟩ | exact absurd hv (by decide)
  | @target _ τ _ _ hτ he => cases τ <;> cases he <;> exact absurd hv (by decide)
  | _ => exact absurd hv (by decide)

theorem written_isList (hw : writeW O 0 S = some ts) (hg : ∀ e, e ∈ g.ts ↔ e ∈ ts) {t : Tm L} {xs : List (Tm L)}
    (h : g.IsList t xs) : xs = [] ∧ t = nilT := by
  cases h with
  | nil => exact ⟨rfl, rfl⟩
  | @cons _ a _ _ _ h1 =>
    obtain ⟨x, -, hp⟩ := written_has hw hg ((h1 a).2 rfl) (by decide)
    exact (puts_never (by decide) hp).elim

end

section
variable {L C : Type} [DecidableEq L] {O : Out L C} {E : Ext L C} {S : List (Shape C)} {ts : List (Tm L × Iri × Tm L)}
  {g : Gr L}

/-- A schema with `sh:and`, `sh:or` or `sh:xone` of anything is written so that it cannot be read: the members are
written as if they were lists. -/
theorem C120_unreadable (hw : writeW O 0 S = some ts) (hg : g.Orders) (ht : ∀ e, e ∈ g.ts ↔ e ∈ ts) (hn : g.Neat)
    {x : Shape C} (hx : x ∈ S) {l : List (Ob C)} {o : Ob C} (ho : o ∈ l) (hlit : ∀ c, o ≠ .lit c)
    (hnil : o ≠ .iri (.v .nil)) (hc : .and l ∈ x.base.comps ∨ .or l ∈ x.base.comps ∨ .xone l ∈ x.base.comps)
    (n : Nat) (s : St L) : (parse g E n s).1 = .err := by
  have hs : (x.base.id.term O).isLit = false := by
    rcases h : (x.base.id.term O).isLit with - | -
    · rfl
    · have : writeW O 0 S = none := writeW_none.2 ⟨x, hx, .inl h⟩
      rw [hw] at this
      cases this
  have hl : (o.term O).isLit = false := by
    cases o with
    | lit c => exact (hlit c rfl).elim
    | _ => rfl
  have hno : ∀ xs, ¬ g.IsList (o.term O) xs := fun xs h => by
    have := (written_isList hw ht h).2
    cases o with
    | iri i => exact hnil (by cases this; rfl)
    | _ => cases this
  have key : ∀ p ∈ [Voc.and, .or, .xone], Puts O x p (o.term O) → (parse g E n s).1 = .err := fun p hp hput =>
    (C119_rejects_partial hg hn n s).1 ⟨p, hp, x.base.id.term O, o.term O,
      ⟨hs, (ht _).2 ((writeW_mem hw).2 x hx p _ hput)⟩, hl, fun xs h => (hno xs h).elim⟩
  rcases hc with hc | hc | hc
  · exact key .and (by decide) (.comp hc rfl (List.mem_map_of_mem ho))
  · exact key .or (by decide) (.comp hc rfl (List.mem_map_of_mem ho))
  · exact key .xone (by decide) (.comp hc rfl (List.mem_map_of_mem ho))

/-- What is lost of any schema: no shape read back has a node kind, a list of shapes, values, languages or ignored
properties with anything in it, a range but those of texts, or reifier shapes. -/
theorem C120_lost (hw : writeW O 0 S = some ts) (hg : g.Orders) (ht : ∀ e, e ∈ g.ts ↔ e ∈ ts) (hn : g.Neat)
    {n : Nat} {s s' : St L} {r : List (Tm L × Shape C)} (h : parse g E n s = (.ok r, s')) {e : Tm L × Shape C} (he : e ∈ r)
    (hgd : Good g E e.1) :
    (∀ k, .nodeKind k ∉ e.2.base.comps) ∧
    (∀ l, .and l ∈ e.2.base.comps ∨ .or l ∈ e.2.base.comps ∨ .xone l ∈ e.2.base.comps ∨ .isIn l ∈ e.2.base.comps →
      l = []) ∧
    (∀ l, .languageIn l ∈ e.2.base.comps → l = []) ∧ (∀ b l, .closed b l ∈ e.2.base.comps → l = []) ∧
    (∀ d, .minInclusive d ∈ e.2.base.comps ∨ .minExclusive d ∈ e.2.base.comps ∨ .maxInclusive d ∈ e.2.base.comps ∨
      .maxExclusive d ∈ e.2.base.comps → ∃ c, E.conc (O.text (O.lex c)) = some d) ∧
    ∀ p, e.2 = .prop p → p.reifier = none := by
  have hsay := (C119_schema hg hn h).2.2 e he hgd
  have hsh : IsShape g E e.1 e.2.base := by
    cases h2 : e.2 with
    | node s => rw [h2] at hsay; exact hsay.2
    | prop s => rw [h2] at hsay; exact hsay.2.1
  have hd := hsh.comps.1
  have has : ∀ {v o}, v ∉ [Voc.select, .deactivated, .sparql] → g.Has e.1 v o → ∃ x ∈ S, Puts O x v o :=
    fun hv h => written_has hw ht h hv
  refine ⟨fun k hk => ?_, fun l hl => ?_, fun l hl => ?_, fun b l hl => ?_, fun d h => ?_, fun p hp => ?_⟩
  · cases hd _ hk with
    | nodeKind h =>
      obtain ⟨x, -, hp⟩ := has (by decide) h
      exact puts_never (by decide) hp
  · rcases hl with hl | hl | hl | hl
    · cases hd _ hl with
      | and _ h1 h2 => cases (written_isList hw ht h1).1; cases h2; rfl
    · cases hd _ hl with
      | or _ h1 h2 => cases (written_isList hw ht h1).1; cases h2; rfl
    · cases hd _ hl with
      | xone _ h1 h2 => cases (written_isList hw ht h1).1; cases h2; rfl
    · cases hd _ hl with
      | isIn _ h1 h2 => cases (written_isList hw ht h1).1; cases h2; rfl
  · cases hd _ hl with
    | languageIn _ h1 h2 => cases (written_isList hw ht h1).1; cases h2; rfl
  · cases hd _ hl with
    | closed _ _ _ h1 => exact List.map_eq_nil_iff.1 (written_isList hw ht h1).1
    | justClosed => rfl
  · have key : ∀ {v o}, v ∈ [Voc.minInclusive, .minExclusive, .maxInclusive, .maxExclusive] → g.Has e.1 v o → E.IsConc o d →
        ∃ c, E.conc (O.text (O.lex c)) = some d := by
      rintro v o hv h ⟨l, rfl, hc⟩
      have hv' : v ∉ [Voc.select, .deactivated, .sparql] := by
        simp only [List.mem_cons, List.not_mem_nil, or_false] at hv
        rcases hv with rfl | rfl | rfl | rfl <;> decide
      obtain ⟨x, -, hp⟩ := has hv' h
      obtain ⟨c, hc'⟩ := puts_range hv hp
      cases hc'
      exact ⟨c, hc⟩
    rcases h with h | h | h | h
    · cases hd _ h with | minInclusive h1 h2 => exact key (by decide) h1 h2
    · cases hd _ h with | minExclusive h1 h2 => exact key (by decide) h1 h2
    · cases hd _ h with | maxInclusive h1 h2 => exact key (by decide) h1 h2
    · cases hd _ h with | maxExclusive h1 h2 => exact key (by decide) h1 h2
  · rw [hp] at hsay
    have := hsay.2.2
    cases hr : p.reifier with
    | none => rfl
    | some q =>
      rw [hr] at this
      obtain ⟨⟨y, hy⟩, -⟩ := this
      obtain ⟨x, -, hp⟩ := has (by decide) hy
      exact (puts_never (by decide) hp).elim

end

/-! ## Examples and what is false -/

/-- Literals: numbers, Booleans and texts. -/
inductive Lt where
  | n (k : Int)
  | b (b : Bool)
  | s (s : String)
deriving DecidableEq

/-- How they are read. -/
def ltE : Ext Lt Lt where
  conc := some
  int | .n k => some k | _ => none
  bool | .b b => some b | _ => none
  text | .s s => s | _ => ""
  tag := some
  isTrue c := decide (c = .b true)

/-- How they are written. -/
def ltO : Out Lt Lt where
  int := .n
  bool := .b
  text := .s
  lit c := c
  lex | .s s => s | .n _ => "5" | .b _ => "true"
  fresh _ _ := "sparql"

theorem lt_inverse : Inverse ltE ltO where
  int _ := rfl
  bool _ := rfl
  text _ := rfl
  lit _ := rfl
  truth b := ⟨_, rfl, by cases b <;> rfl⟩

/-- A node shape and a property shape. -/
def staff : List (Shape Lt) :=
  [.node ⟨.iri (.o "S"), some .warning, [.cls (.o "Person"), .implicit (.iri (.o "S"))], [.bnode "p"],
      [.closed true [], .not (.bnode "p"), .hasValue (.lit (.s "x"))]⟩,
    .prop ⟨⟨.bnode "p", none, [], [], [.minCount 1, .pattern "a*" (some "i"), .minInclusive (.s "a"),
      .qualified (.iri (.o "S")) (some 1) none (some false) []]⟩, .pred (.o "name"), none⟩]

theorem staff_simple : Simple ltE ltO staff where
  ids := by decide +kernel
  named := by simp [staff, Shape.base]
  kept := by
    simp only [staff, List.mem_cons, List.not_mem_nil, or_false, forall_eq_or_imp, forall_eq, Shape.base]
    exact ⟨⟨.closed, .not, .hasLit rfl⟩, .minCount, .pattern, .minInclusive rfl, .qualified (by decide)⟩
  once := by
    simp [staff, Shape.base, Comp.key]
  refs := by
    intro x hx c hc o hr
    simp only [staff, List.mem_cons, List.not_mem_nil, or_false] at hx
    rcases hx with rfl | rfl <;> simp only [Shape.base, List.mem_cons, List.not_mem_nil, or_false] at hc
    · rcases hc with rfl | rfl | rfl <;> cases hr
      exact ⟨_, by simp [staff]; exact .inr rfl, rfl⟩
    · rcases hc with rfl | rfl | rfl | rfl <;> cases hr
      exact ⟨_, by simp [staff]; exact .inl rfl, rfl⟩
  props := by
    intro x hx o ho
    simp only [staff, List.mem_cons, List.not_mem_nil, or_false] at hx
    rcases hx with rfl | rfl <;> simp only [Shape.base, List.mem_cons, List.not_mem_nil, or_false] at ho
    subst ho
    exact ⟨_, by simp [staff]; exact .inr rfl, rfl⟩
  implicit := by
    simp [staff, Shape.base]
  severity := by
    intro x hx v i hv h
    subst h
    simp only [staff, List.mem_cons, List.not_mem_nil, or_false] at hx
    rcases hx with rfl | rfl <;> cases hv
  prop := by
    intro s hs
    simp only [staff, List.mem_cons, List.not_mem_nil, or_false, reduceCtorEq, false_or, Shape.prop.injEq] at hs
    subst hs
    exact ⟨⟨_, rfl⟩, rfl, rfl⟩

/-- `C120_round_trip_partial` is about this schema. -/
example : ∃ ts, writeW ltO 0 staff = some ts ∧ ts.length = 17 ∧ ∀ g : Gr Lt, g.Orders → (∀ e, e ∈ g.ts ↔ e ∈ ts) →
    ∃ n s r s', parse g ltE n s = (.ok r, s') ∧ ∀ x ∈ staff, ∃ e ∈ r, x.Alike e.2 := by
  obtain ⟨ts, hw, h⟩ := C120_round_trip_partial lt_inverse staff_simple
  have hl : (writeW ltO 0 staff).map List.length = some 17 := by decide +kernel
  rw [hw] at hl
  refine ⟨ts, hw, by simpa using hl, fun g hg ht => ?_⟩
  obtain ⟨N, hN⟩ := h g hg ht
  obtain ⟨r, s', hr, -, -, h⟩ := hN N (le_refl _) ⟨nilT, 0⟩
  exact ⟨N, _, r, s', hr, fun x hx => let ⟨e, he, _, ha⟩ := h x hx; ⟨e, he, ha⟩⟩

/-- Node shapes with these components. -/
def only (cs : List (Comp Lt)) : List (Shape Lt) := [.node ⟨.iri (.o "S"), none, [], [], cs⟩]

def graphOf (ts : List (Tm Lt × Iri × Tm Lt)) : Gr Lt := ⟨ts, fun _ l => l⟩

/-- The components of the only shape after writing and reading. -/
def roundTrip (S : List (Shape Lt)) : Option (List (List (Comp Lt))) :=
  match writeW ltO 0 S with
  | none => none
  | some ts =>
    match (parse (graphOf ts) ltE 5 ⟨nilT, 0⟩).1 with
    | .ok r => some (r.map fun e => e.2.base.comps)
    | _ => none

theorem roundTrip_some {S : List (Shape Lt)} {cs : List (Comp Lt)} (h : roundTrip S = some [cs]) :
    ∃ ts t y s', writeW ltO 0 S = some ts ∧ parse (graphOf ts) ltE 5 ⟨nilT, 0⟩ = (.ok [(t, y)], s') ∧
      y.base.comps = cs := by
  unfold roundTrip at h
  split at h
  · cases h
  · rename_i ts hw
    rcases hr : parse (graphOf ts) ltE 5 ⟨nilT, 0⟩ with ⟨r, s'⟩
    rw [hr] at h
    cases r with
    | ok r =>
      simp only [Option.some.injEq] at h
      rcases r with - | ⟨⟨t, y⟩, - | ⟨_, _⟩⟩
      · simp at h
      · exact ⟨ts, t, y, s', hw, hr, by simpa using h⟩
      · simp at h
    | _ => cases h

theorem Shape.Alike.comps {C : Type} {x y : Shape C} (h : x.Alike y) (c : Comp C) : c ∈ x.base.comps ↔ c ∈ y.base.comps := by
  cases h with
  | node h => exact h.comps c
  | prop h => exact h.comps c

def isErr {A : Type} : Res A → Bool
  | .err => true
  | _ => false

theorem isErr_eq {A : Type} {r : Res A} (h : isErr r = true) : r = .err := by
  cases r <;> first | rfl | cases h

/-- Schemas that are not simple: a node kind other than `sh:IRI` is a panic; `sh:IRI` is read back as a datatype, a
number as a text; and a list of values is read as an error. -/
theorem C120_refuted :
    writeW ltO 0 (only [.nodeKind .lit]) = none ∧
    (∀ c ∈ [Comp.nodeKind .iri, .minInclusive (.n 5), .hasValue (.lit (.n 5))], ∃ ts t y s',
      writeW ltO 0 (only [c]) = some ts ∧ parse (graphOf ts) ltE 5 ⟨nilT, 0⟩ = (.ok [(t, y)], s') ∧
        ∀ x ∈ only [c], ¬ x.Alike y) ∧
    ∃ ts, writeW ltO 0 (only [.isIn [.iri (.o "a")]]) = some ts ∧
      (parse (graphOf ts) ltE 5 ⟨nilT, 0⟩).1 = .err := by
  have key : ∀ {c : Comp Lt} {cs}, roundTrip (only [c]) = some [cs] → c ∉ cs → ∃ ts t y s',
      writeW ltO 0 (only [c]) = some ts ∧ parse (graphOf ts) ltE 5 ⟨nilT, 0⟩ = (.ok [(t, y)], s') ∧
        ∀ x ∈ only [c], ¬ x.Alike y := by
    intro c cs h hc
    obtain ⟨ts, t, y, s', h1, h2, h3⟩ := roundTrip_some h
    refine ⟨ts, t, y, s', h1, h2, fun x hx ha => hc ?_⟩
    rw [← h3, ← ha.comps c]
    simp only [only, List.mem_singleton] at hx
    subst hx
    simp [Shape.base]
  refine ⟨by decide +kernel, fun c hc => ?_, ?_⟩
  · simp only [List.mem_cons, List.not_mem_nil, or_false] at hc
    rcases hc with rfl | rfl | rfl
    · exact key (cs := [.datatype (.v .IRI)]) (by decide +kernel) (by decide)
    · exact key (cs := [.minInclusive (.s "5")]) (by decide +kernel) (by decide)
    · exact key (cs := [.hasValue (.lit (.s "5"))]) (by decide +kernel) (by decide)
  · refine ⟨_, rfl, isErr_eq ?_⟩
    decide +kernel

/-- `C120_unreadable` and `C120_lost` are about these schemas. -/
example : ∃ ts, writeW ltO 0 (only [.or [.iri (.o "A"), .iri (.o "B")]]) = some ts ∧ (graphOf ts).Neat ∧
    ∀ n s, (parse (graphOf ts) ltE n s).1 = .err := by
  have hn : (graphOf [(.iri (.o "S"), .v .type, .iri (.v .NodeShape)), (.iri (.o "S"), .v .or, .iri (.o "A")),
      (.iri (.o "S"), .v .or, .iri (.o "B"))]).Neat := by
    refine ⟨by decide, fun t k hk o o' h _ => ?_⟩
    have := h.2
    simp only [graphOf, List.mem_cons, Prod.mk.injEq, Iri.v.injEq, List.not_mem_nil, or_false] at this
    rcases this with ⟨-, rfl, -⟩ | ⟨-, rfl, -⟩ | ⟨-, rfl, -⟩ <;> exact absurd hk (by decide)
  exact ⟨_, rfl, hn, C120_unreadable (O := ltO) (S := only [.or [.iri (.o "A"), .iri (.o "B")]]) rfl (fun _ l => .refl l)
    (fun _ => .rfl) hn (by simp [only]; rfl) (l := [.iri (.o "A"), .iri (.o "B")]) (o := .iri (.o "A")) (by simp) nofun
    (by decide) (.inr (.inl (by simp [Shape.base])))⟩

/-- The same triples are written for a datatype. -/
theorem datatype_simple : Simple ltE ltO (only [.datatype (.v .IRI)]) where
  ids := by decide
  named := by simp [only, Shape.base]
  kept := by
    simp only [only, List.mem_cons, List.not_mem_nil, or_false, forall_eq, Shape.base]
    exact .datatype
  once := by simp [only, Shape.base]
  refs := by
    intro x hx c hc o hr
    simp only [only, List.mem_cons, List.not_mem_nil, or_false] at hx
    subst hx
    simp only [Shape.base, List.mem_cons, List.not_mem_nil, or_false] at hc
    subst hc
    cases hr
  props := by simp [only, Shape.base]
  implicit := by simp [only, Shape.base]
  severity := by simp [only, Shape.base]
  prop := by simp [only]

example : ∃ ts r s', writeW ltO 0 (only [.nodeKind .iri]) = some ts ∧
    parse (graphOf ts) ltE 5 ⟨nilT, 0⟩ = (.ok r, s') ∧ r ≠ [] ∧ ∀ e ∈ r, ∀ k, .nodeKind k ∉ e.2.base.comps := by
  have hc : roundTrip (only [.nodeKind .iri]) = some [[.datatype (.v .IRI)]] := by decide +kernel
  obtain ⟨ts, t, y, s', h1, h2, -⟩ := roundTrip_some hc
  have H : Holds ltE ltO (only [.datatype (.v .IRI)]) (graphOf ts) := holds lt_inverse datatype_simple h1 (fun _ => .rfl)
  have hg : (graphOf ts).Orders := fun _ l => .refl l
  refine ⟨ts, _, s', h1, h2, by simp, fun e he => (C120_lost h1 hg (fun _ => .rfl) (neat H) h2 he ?_).1⟩
  obtain ⟨x, hx, h⟩ := (candidate_iff H).1 (((C119_schema hg (neat H) h2).2.1 e.1).1 (List.mem_map_of_mem he))
  rw [h]
  exact written_good H hx

end Rd
