import Verif.Select.LemmasAnswer
import Verif.Prefix.Props

/-!
# Properties: the SPARQL query made from a ShEx schema
-/

namespace Select
open Comp Shex

variable {N NC : Type}

/-! ## Examples -/

/-- Two namespaces. -/
def exMap : Prefix.PrefixMap := ⟨[(chars "e", chars "http://e/"), (chars "f", chars "http://f/")], false⟩

/-- A constraint for a predicate. -/
def exTc (p : String) (v : Option (SE Str Unit)) (mn mx : Option Int) : TE Str Unit :=
  .tc none none none (.iri (chars p)) v mn mx []

/-- A shape with a triple expression. -/
def exShape (te : TE Str Unit) : SE Str Unit := .shape none [] (some te) [] []

/-- A schema with only a start expression. -/
def exStart (te : TE Str Unit) : Sch Unit := ⟨some exMap, none, some (exShape te), none⟩

/-- A schema with a shape that has a name and a link, and a shape that refers to it. -/
def exSch : Sch Unit :=
  ⟨some exMap, none, none,
    some [(.ref (.iri (chars "http://e/A")), .ref (.ref (.iri (chars "http://e/B")))),
      (.ref (.iri (chars "http://e/B")), exShape (.eachOf none
        [exTc "http://e/name" none none none, exTc "http://f/knows" none none (some (-1))] none none []))]⟩

/-- Node constraints accept nothing, and no name is known. -/
def exG : Ctxt Nat Str Unit := ⟨fun _ _ => none, fun _ => some fun _ => false, fun _ => false, fun _ _ _ => false⟩

/-! ## Where the patterns come from -/

theorem firstFor_unique {valid : Str → Bool} {s : Sch NC} {i : Str} {e e' : SE Str NC}
    (h : FirstFor valid s i e) (h' : FirstFor valid s i e') : e = e' := by
  have h1 := findRef_some (r := .iri i) |>.2 ⟨i, rfl, h⟩
  have h2 := findRef_some (r := .iri i) |>.2 ⟨i, rfl, h'⟩
  rw [h1] at h2
  simpa using h2

theorem leads_unique {valid : Str → Bool} {s : Sch NC} {e : SE Str NC} {te te' : Option (TE Str NC)}
    (h : Leads valid s e te) (h' : Leads valid s e te') : te = te' := by
  induction h with
  | here => cases h'; rfl
  | via a b _ ih =>
    cases h' with
    | via a' b' c' =>
      obtain ⟨r, hr, h1⟩ := a
      obtain ⟨r', hr', h1'⟩ := a'
      rw [hr] at hr'
      cases hr'
      rw [h1] at h1'
      cases h1'
      rw [firstFor_unique b' b] at c'
      exact ih c'

theorem source_unique {valid : Str → Bool} {s : Sch NC} {shape : Option (IRef Str)} {e e' : SE Str NC}
    (h : Source valid s shape e) (h' : Source valid s shape e') : e = e' := by
  cases shape with
  | some r =>
    obtain ⟨i, h1, h2⟩ := h
    obtain ⟨i', h1', h2'⟩ := h'
    rw [h1] at h1'
    cases h1'
    exact firstFor_unique h2 h2'
  | none =>
    rcases h with h | ⟨h0, l, ds, h⟩ <;> rcases h' with h' | ⟨h0', l', ds', h'⟩
    · rw [h] at h'; simpa using h'
    · rw [h] at h0'; cases h0'
    · rw [h0] at h'; cases h'
    · rw [h] at h'
      simp only [Option.some.injEq, List.cons.injEq, Prod.mk.injEq] at h'
      exact h'.1.2

/-- C137: a query is made exactly if the shape asked for, or the start expression, or else the first shape,
is or refers to a shape whose triple expression has no inclusion, no inverse constraint and only predicates
that can be given a variable. -/
theorem C137_made (valid : Str → Bool) (this : Str) (s : Sch NC) (shape : Option (IRef Str)) :
    (∃ n q, convert valid this s n shape = .ok q) ↔
      ∃ e te, Source valid s shape e ∧ Leads valid s e te ∧ ∀ t, te = some t → Plain (Named s.pm) t := by
  constructor
  · rintro ⟨n, q, h⟩
    obtain ⟨e, ps, h1, h2, _⟩ := convert_ok.1 h
    obtain ⟨te, h3, h4⟩ := patsSE_ok h2
    refine ⟨e, te, h1, h3, fun t ht => ?_⟩
    subst ht
    simp only [patsShape, Option.map_eq_some_iff] at h4
    obtain ⟨⟨ps', k'⟩, h5, _⟩ := h4
    exact (patsTE_some t 0 ps' k' h5).1
  · rintro ⟨e, te, h1, h2, h3⟩
    have hp : ∃ ps, patsShape s.pm this te = some ps := by
      cases te with
      | none => exact ⟨[], rfl⟩
      | some t =>
        obtain ⟨ps, k', h⟩ := patsTE_plain (this := this) t 0 (h3 t rfl)
        exact ⟨ps, by simp [patsShape, h]⟩
    obtain ⟨ps, hp⟩ := hp
    obtain ⟨n, hn⟩ := patsSE_leads h2 hp
    exact ⟨n, _, convert_ok.2 ⟨e, ps, h1, hn, rfl⟩⟩

/-- C137: the query has one pattern for each triple constraint of that shape, in their order, from the
variable of the node along the predicate to the variable of the predicate; it keeps the prefix map and the
base of the schema. -/
theorem C137_patterns (valid : Str → Bool) (this : Str) (s : Sch NC) (n : Nat) (shape : Option (IRef Str))
    (q : Qry) (h : convert valid this s n shape = .ok q) (e : SE Str NC) (te : Option (TE Str NC))
    (he : Source valid s shape e) (ht : Leads valid s e te) :
    q.pm = s.pm ∧ q.base = s.base ∧ q.pats.map Pat.pred = leavesO te ∧
      ∀ p ∈ q.pats, p.subj = this ∧ VarName s.pm p.obj p.pred := by
  obtain ⟨e', ps, h1, h2, rfl⟩ := convert_ok.1 h
  obtain ⟨te', h3, h4⟩ := patsSE_ok h2
  cases source_unique he h1
  cases leads_unique ht h3
  refine ⟨rfl, rfl, ?_⟩
  cases te with
  | none =>
    simp only [patsShape, Option.some.injEq] at h4
    subst h4
    exact ⟨rfl, by simp⟩
  | some t =>
    simp only [patsShape, Option.map_eq_some_iff] at h4
    obtain ⟨⟨ps', k'⟩, h5, rfl⟩ := h4
    exact (patsTE_some t 0 ps' k' h5).2

theorem exSch_first : FirstFor (fun _ => true) exSch (chars "http://e/B") (exShape (.eachOf none
    [exTc "http://e/name" none none none, exTc "http://f/knows" none none (some (-1))] none none [])) :=
  ⟨_, [(.ref (.iri (chars "http://e/A")), .ref (.ref (.iri (chars "http://e/B"))))], [],
    .ref (.iri (chars "http://e/B")), rfl, rfl, ⟨_, rfl, rfl⟩, fun d hd r hr => by
      rw [List.mem_singleton] at hd
      subst hd
      cases hr
      exact ⟨_, rfl, by decide⟩⟩

example : ∃ q, convert (fun _ => true) (chars "this") exSch 1 none = .ok q ∧
    q.pats = [⟨chars "this", .iri (chars "http://e/name"), chars "name"⟩,
      ⟨chars "this", .iri (chars "http://f/knows"), chars "knows"⟩] := ⟨_, rfl, by decide⟩

example : Source (fun _ => true) exSch none (.ref (.ref (.iri (chars "http://e/B")))) ∧
    Leads (fun _ => true) exSch (.ref (.ref (.iri (chars "http://e/B")))) (some (.eachOf none
      [exTc "http://e/name" none none none, exTc "http://f/knows" none none (some (-1))] none none [])) :=
  ⟨Or.inr ⟨rfl, _, _, rfl⟩, .via ⟨_, rfl, rfl⟩ exSch_first .here⟩

/-- C137: what is found does not depend on the bound for references. -/
theorem C137_once (valid : Str → Bool) (this : Str) (s : Sch NC) (n m : Nat) (shape : Option (IRef Str))
    (q q' : Qry) (h : convert valid this s n shape = .ok q) (h' : convert valid this s m shape = .ok q') :
    q = q' := by
  obtain ⟨e, ps, h1, h2, rfl⟩ := convert_ok.1 h
  obtain ⟨e', ps', h1', h2', rfl⟩ := convert_ok.1 h'
  cases source_unique h1 h1'
  obtain ⟨te, h3, h4⟩ := patsSE_ok h2
  obtain ⟨te', h3', h4'⟩ := patsSE_ok h2'
  cases leads_unique h3 h3'
  rw [h4] at h4'
  cases h4'
  rfl

/-- C137: without a prefix map, predicates that are IRIs get the variables `var1`, `var2` and so on, which
are all different. -/
theorem C137_numbered (valid : Str → Bool) (this : Str) (s : Sch NC) (hs : s.pm = none) (n : Nat)
    (shape : Option (IRef Str)) (q : Qry) (h : convert valid this s n shape = .ok q)
    (hi : ∀ p ∈ q.pats, ∃ i, p.pred = .iri i) :
    q.pats.map Pat.obj = (List.range q.pats.length).map (fun j => numbered (j + 1)) ∧
      (q.pats.map Pat.obj).Nodup := by
  obtain ⟨e, ps, h1, h2, rfl⟩ := convert_ok.1 h
  obtain ⟨te, h3, h4⟩ := patsSE_ok h2
  have key : ps.map Pat.obj = numberedFrom 0 ps.length := by
    cases te with
    | none =>
      simp only [patsShape, Option.some.injEq] at h4
      subst h4
      rfl
    | some t =>
      rw [hs] at h4
      simp only [patsShape, Option.map_eq_some_iff] at h4
      obtain ⟨⟨ps', k'⟩, h5, rfl⟩ := h4
      refine (patsTE_numbered t 0 ps' k' h5 fun r hr => ?_).2
      rw [← (patsTE_some t 0 ps' k' h5).2.1] at hr
      obtain ⟨p, hp, rfl⟩ := List.mem_map.1 hr
      exact hi p hp
  constructor
  · simp only [key, numberedFrom, Nat.zero_add]
  · simp only [key]
    exact numberedFrom_nodup 0 _

example : convert (fun _ => true) (chars "this") ⟨none, none, exSch.start, exSch.shapes⟩ 1 none =
    .ok ⟨none, none, [⟨chars "this", .iri (chars "http://e/name"), numbered 1⟩,
      ⟨chars "this", .iri (chars "http://f/knows"), numbered 2⟩]⟩ := rfl

/-! ## Nodes that conform -/

/-- C137: a node that conforms to the expression which the query is made from is an answer of the query, if
the triple expression requires each of its constraints and different predicates have different variables.
`T` is any typing of the schema. -/
theorem C137_answers (valid : Str → Bool) (this : Str) (s : Sch NC) (n : Nat) (shape : Option (IRef Str))
    (q : Qry) (h : convert valid this s n shape = .ok q) (ho : Once s) (G : Ctxt N Str NC)
    (tes : TLabel Str → Option (TE Str NC)) (g : Graph N Str) (ext : Option (SLabel Str) → N → Prop)
    (D : Decls N Str) (hD : CoreOf G tes (s.shapes.getD []) D) (T : N → SLabel Str → Prop)
    (hT : Typing g ext D T) (e : SE Str NC) (te : Option (TE Str NC)) (he : Source valid s shape e)
    (ht : Leads valid s e te) (hr : ∀ t, te = some t → Required t) (ha : q.Apart valid this)
    (c : Core N Str) (l : Option (SLabel Str)) (hc : Stands G tes c e) (x : N) (hx : Sat g ext T c l x) :
    q.Answer valid g this x := by
  obtain ⟨hpm, _, hpreds, hsubj⟩ := C137_patterns valid this s n shape q h e te he ht
  refine answer_of_arcs ha (fun p hp => (hsubj p hp).1) fun p hp => ?_
  obtain ⟨ce, vs, h1, h2, h3⟩ := leads_sat ho hD hT ht hc hx
  have hl : p.pred ∈ leavesO te := by rw [← hpreds]; exact List.mem_map_of_mem hp
  cases te with
  | none => cases hl
  | some t =>
    have hplain : Plain (Named s.pm) t := by
      obtain ⟨e', te', h4, h5, h6⟩ := (C137_made valid this s shape).1 ⟨n, q, h⟩
      cases source_unique he h4
      cases leads_unique ht h5
      exact h6 t rfl
    obtain ⟨y, hy, hy1, hy2⟩ := required_TE t ce vs (hr t rfl) hplain h1 h2 _ hl
    have harc := h3 y hy
    rcases harc with ⟨_, _, h4⟩ | ⟨h4, _⟩
    · exact ⟨y.1.iri, y.2, by rw [hy1]; rfl, h4⟩
    · rw [hy2] at h4; cases h4

/-- C137: for a shape asked for by its IRI: every node which a typing of the schema gives the shape is an
answer, under the same conditions. -/
theorem C137_answers_of_label (valid : Str → Bool) (this : Str) (s : Sch NC) (n : Nat) (i : Str)
    (q : Qry) (h : convert valid this s n (some (.iri i)) = .ok q) (ho : Once s) (G : Ctxt N Str NC)
    (tes : TLabel Str → Option (TE Str NC)) (g : Graph N Str) (ext : Option (SLabel Str) → N → Prop)
    (D : Decls N Str) (hD : CoreOf G tes (s.shapes.getD []) D) (T : N → SLabel Str → Prop)
    (hT : Typing g ext D T) (hr : ∀ e te, FirstFor valid s i e → Leads valid s e (some te) → Required te)
    (ha : q.Apart valid this) (x : N) (hx : T x (.iri i)) : q.Answer valid g this x := by
  obtain ⟨e, te, he, ht, _⟩ := (C137_made valid this s _).1 ⟨n, q, h⟩
  obtain ⟨c, hc, hsat⟩ := (hT x (.iri i)).1 hx
  obtain ⟨e', hl, hst⟩ := (hD (.iri i)).1 c hc
  obtain ⟨i', hi', hf⟩ := he
  cases hi'
  cases first_last ho hf hl
  exact C137_answers valid this s n _ q h ho G tes g ext D hD T hT e te ⟨i, rfl, hf⟩ ht
    (fun t htt => hr e t hf (htt ▸ ht)) ha c _ hst x hsat

theorem exSch_once : Once exSch :=
  ⟨fun d hd r hr => by
    simp only [exSch, Option.getD_some, List.mem_cons, List.not_mem_nil, or_false] at hd
    rcases hd with rfl | rfl <;> (cases hr; exact ⟨_, rfl⟩), by decide⟩

example : ∃ q, convert (fun _ => true) (chars "this") exSch 1 (some (.iri (chars "http://e/A"))) = .ok q ∧
    Once exSch ∧ q.Apart (fun _ => true) (chars "this") ∧
    (∀ e te, FirstFor (fun _ => true) exSch (chars "http://e/A") e → Leads (fun _ => true) exSch e (some te) →
      Required te) := by
  refine ⟨_, rfl, exSch_once, ⟨by decide, by decide⟩, fun e te he ht => ?_⟩
  have h1 : FirstFor (fun _ => true) exSch (chars "http://e/A")
      (.ref (.ref (.iri (chars "http://e/B")))) :=
    ⟨_, [], _, .ref (.iri (chars "http://e/A")), rfl, rfl, ⟨_, rfl, rfl⟩, by simp⟩
  cases firstFor_unique he h1
  have h2 : Leads (fun _ => true) exSch (.ref (.ref (.iri (chars "http://e/B")))) (some (.eachOf none
      [exTc "http://e/name" none none none, exTc "http://f/knows" none none (some (-1))] none none [])) :=
    .via ⟨_, rfl, rfl⟩ exSch_first .here
  cases leads_unique ht h2
  simp [Required, RequiredAll, exTc]

/-- C137: an answer has a value for every predicate of the shape. -/
theorem C137_answers_have (valid : Str → Bool) (this : Str) (s : Sch NC) (n : Nat)
    (shape : Option (IRef Str)) (q : Qry) (h : convert valid this s n shape = .ok q) (g : Graph N Str)
    (x : N) (hx : q.Answer valid g this x) (e : SE Str NC) (te : Option (TE Str NC))
    (he : Source valid s shape e) (ht : Leads valid s e te) :
    ∀ r ∈ leavesO te, ∃ i v, resolveRef valid s.pm r = some i ∧ (x, i, v) ∈ g.triples := by
  obtain ⟨hpm, _, hpreds, hsubj⟩ := C137_patterns valid this s n shape q h e te he ht
  intro r hr
  rw [← hpreds] at hr
  obtain ⟨p, hp, rfl⟩ := List.mem_map.1 hr
  obtain ⟨σ, h1, h2⟩ := hx
  obtain ⟨i, h3, h4⟩ := h2 p hp
  rw [(hsubj p hp).1, h1, hpm] at *
  exact ⟨i, _, h3, h4⟩

/-! ## What the query misses, and what it adds -/

/-- The claim without its conditions: every node that conforms to the start expression is an answer. -/
def AllAnswered (apart : Bool) (te : TE Str Unit) : Prop :=
  ∀ (q : Qry) (g : Graph Nat Str) (c : Core Nat Str) (x : Nat),
    convert (fun _ => true) (chars "this") (exStart te) 0 none = .ok q →
    (apart = true → q.Apart (fun _ => true) (chars "this")) →
    Stands exG (fun _ => none) c (exShape te) →
    Sat g (fun _ _ => False) (fun _ _ => False) c none x → q.Answer (fun _ => true) g (chars "this") x

theorem sat_shape {g : Graph Nat Str} {ce : CTE Nat Str} {x : Nat} (vs : List (Pred Str × Nat))
    (h1 : vs.Nodup) (h2 : ∀ y, y ∈ vs ↔ g.Arc x y.1 y.2 ∧ ce.Mentions y.1)
    (h3 : Matches g (fun _ _ => False) (fun _ _ => False) ce x vs) :
    Sat g (fun _ _ => False) (fun _ _ => False) (.shape false [] ce []) none x := by
  rw [Sat]
  refine ⟨(fun h => by cases h), vs, h1, fun y => ?_, h3⟩
  rw [h2]
  simp [BoundArc]

theorem stands_shape {ce : CTE Nat Str} {te : TE Str Unit} (h : StandsO exG (fun _ => none) ce (some te)) :
    Stands exG (fun _ => none) (.shape false [] ce []) (exShape te) := by
  rw [Stands]
  exact ⟨none, [], some te, [], [], rfl, rfl, .nil, h, .nil, by simp⟩

theorem stands_tc {p : String} {mn mx : Option Int} {c : Rbe.Card} (h : CardOf mn mx c) :
    StandsO exG (fun _ => none) (.tc ⟨chars p, true⟩ [] (.test fun _ => true) c)
      (some (exTc p none mn mx)) := by
  rw [StandsO]
  exact ⟨_, rfl, _, _, _, _, _, _, _, rfl, rfl, .nil, h, Or.inl ⟨rfl, rfl⟩⟩

/-- C137, without its conditions: a node without a value for an optional constraint conforms and is no
answer. -/
theorem C137_optional_refuted : ¬ AllAnswered true (exTc "http://e/p" none (some 0) none) := by
  intro h
  have hs : Sat (⟨[], fun _ => true⟩ : Graph Nat Str) (fun _ _ => False) (fun _ _ => False)
      (.shape false [] (.tc ⟨chars "http://e/p", true⟩ [] (.test fun _ => true) ⟨0, .intMax 1⟩) []) none 0 := by
    refine sat_shape [] .nil (fun y => ?_) ?_
    · simp [Graph.Arc]
    · rw [Matches]
      refine ⟨?_, by simp⟩
      simp [Rbe.Card.Holds]
  obtain ⟨σ, _, h2⟩ := h _ ⟨[], fun _ => true⟩ _ 0 rfl (fun _ => ⟨by decide, by decide⟩)
    (stands_shape (stands_tc ⟨rfl, rfl⟩)) hs
  obtain ⟨i, _, h4⟩ := h2 _ (List.mem_cons_self ..)
  cases h4

/-- C137, without its conditions: a node with a value for one of two alternatives conforms and is no
answer. -/
theorem C137_choice_refuted :
    ¬ AllAnswered true (.oneOf none [exTc "http://e/p" none none none, exTc "http://e/q" none none none]
      none none []) := by
  intro h
  have hs : Sat (⟨[(0, chars "http://e/p", 1)], fun _ => true⟩ : Graph Nat Str) (fun _ _ => False)
      (fun _ _ => False)
      (.shape false [] (.oneOf [.tc ⟨chars "http://e/p", true⟩ [] (.test fun _ => true) ⟨1, .intMax 1⟩,
        .tc ⟨chars "http://e/q", true⟩ [] (.test fun _ => true) ⟨1, .intMax 1⟩] ⟨1, .intMax 1⟩) []) none 0 := by
    refine sat_shape [(⟨chars "http://e/p", true⟩, 1)] (by simp) (fun y => ?_) ?_
    · obtain ⟨⟨pi, pd⟩, v⟩ := y
      simp only [List.mem_singleton, Prod.mk.injEq, Pred.mk.injEq, Graph.Arc, CTE.Mentions, CTE.constraints,
        constraintsAll, List.mem_append, List.append_nil]
      constructor
      · rintro ⟨⟨rfl, rfl⟩, rfl⟩
        exact ⟨Or.inl ⟨rfl, trivial, trivial, rfl, rfl⟩, _, _, Or.inl ⟨⟨rfl, rfl⟩, rfl, rfl⟩⟩
      · rintro ⟨h | h, _⟩
        · exact ⟨⟨h.2.2.2.1, h.1⟩, h.2.2.2.2⟩
        · rename_i h'
          obtain ⟨_, _, h' | h'⟩ := h'
          · rw [h'.1.2] at h; cases h.1
          · rw [h'.1.2] at h; cases h.1
    · rw [Matches]
      refine ⟨1, by simp [Rbe.Card.Holds], [{(⟨chars "http://e/p", true⟩, 1)}], rfl, ?_, by simp⟩
      intro t ht
      rw [List.mem_singleton] at ht
      subst ht
      rw [MatchesSome, Matches]
      refine Or.inl ⟨by simp [Rbe.Card.Holds], fun y hy => ?_⟩
      rw [Multiset.mem_singleton] at hy
      subst hy
      refine ⟨rfl, by simp, ?_⟩
      rw [Sat]
  have hst : StandsO exG (fun _ => none)
      (.oneOf [.tc ⟨chars "http://e/p", true⟩ [] (.test fun _ => true) ⟨1, .intMax 1⟩,
        .tc ⟨chars "http://e/q", true⟩ [] (.test fun _ => true) ⟨1, .intMax 1⟩] ⟨1, .intMax 1⟩)
      (some (.oneOf none [exTc "http://e/p" none none none, exTc "http://e/q" none none none] none none [])) := by
    rw [StandsO]
    refine ⟨_, rfl, _, _, _, _, _, rfl, ?_, rfl, rfl⟩
    rw [StandsTs]
    refine ⟨_, _, rfl, stands_tc ⟨rfl, rfl⟩, ?_⟩
    rw [StandsTs]
    refine ⟨_, _, rfl, stands_tc ⟨rfl, rfl⟩, ?_⟩
    rw [StandsTs]
  obtain ⟨σ, _, h2⟩ := h _ ⟨[(0, chars "http://e/p", 1)], fun _ => true⟩ _ 0 rfl
    (fun _ => ⟨by decide, by decide⟩) (stands_shape hst) hs
  obtain ⟨i, h3, h4⟩ := h2 _ (List.mem_cons_of_mem _ (List.mem_cons_self ..))
  simp only [resolveRef, Option.some.injEq] at h3
  subst h3
  rw [List.mem_singleton] at h4
  revert h4
  simp only [Prod.mk.injEq]
  rintro ⟨_, h4, _⟩
  exact absurd h4 (by decide)

/-- C137, without its conditions: two predicates with the same local name share a variable, so that a node
with different values for them conforms and is no answer. -/
theorem C137_shared_refuted :
    ¬ AllAnswered false (.eachOf none [exTc "http://e/p" none none none, exTc "http://f/p" none none none]
      none none []) := by
  intro h
  have hs : Sat (⟨[(0, chars "http://e/p", 1), (0, chars "http://f/p", 2)], fun _ => true⟩ : Graph Nat Str)
      (fun _ _ => False) (fun _ _ => False)
      (.shape false [] (.eachOf [.tc ⟨chars "http://e/p", true⟩ [] (.test fun _ => true) ⟨1, .intMax 1⟩,
        .tc ⟨chars "http://f/p", true⟩ [] (.test fun _ => true) ⟨1, .intMax 1⟩] ⟨1, .intMax 1⟩) []) none 0 := by
    refine sat_shape [(⟨chars "http://e/p", true⟩, 1), (⟨chars "http://f/p", true⟩, 2)] (by decide)
      (fun y => ?_) ?_
    · obtain ⟨⟨pi, pd⟩, v⟩ := y
      simp only [List.mem_singleton, List.mem_cons, List.not_mem_nil, or_false, Prod.mk.injEq, Pred.mk.injEq,
        Graph.Arc, CTE.Mentions, CTE.constraints, constraintsAll, List.mem_append, List.append_nil]
      constructor
      · rintro (⟨⟨rfl, rfl⟩, rfl⟩ | ⟨⟨rfl, rfl⟩, rfl⟩)
        · exact ⟨Or.inl ⟨rfl, trivial, Or.inl ⟨trivial, rfl, rfl⟩⟩, _, _, Or.inl ⟨⟨rfl, rfl⟩, rfl, rfl⟩⟩
        · exact ⟨Or.inl ⟨rfl, trivial, Or.inr ⟨trivial, rfl, rfl⟩⟩, _, _, Or.inr ⟨⟨rfl, rfl⟩, rfl, rfl⟩⟩
      · rintro ⟨⟨h1, _, h | h⟩ | h, h'⟩
        · exact Or.inl ⟨⟨h.2.1, h1⟩, h.2.2⟩
        · exact Or.inr ⟨⟨h.2.1, h1⟩, h.2.2⟩
        · obtain ⟨_, _, h' | h'⟩ := h'
          · rw [h'.1.2] at h; cases h.1
          · rw [h'.1.2] at h; cases h.1
    · rw [Matches]
      refine ⟨1, by simp [Rbe.Card.Holds], [_], rfl, ?_, by rw [List.sum_singleton]⟩
      intro t ht
      rw [List.mem_singleton] at ht
      subst ht
      rw [MatchesAll]
      refine ⟨{(⟨chars "http://e/p", true⟩, 1)}, {(⟨chars "http://f/p", true⟩, 2)}, rfl, ?_, ?_⟩
      · rw [Matches]
        refine ⟨by simp [Rbe.Card.Holds], fun y hy => ?_⟩
        rw [Multiset.mem_singleton] at hy
        subst hy
        refine ⟨rfl, by simp, ?_⟩
        rw [Sat]
      · rw [MatchesAll]
        refine ⟨_, 0, (add_zero _).symm, ?_, by rw [MatchesAll]⟩
        rw [Matches]
        refine ⟨by simp [Rbe.Card.Holds], fun y hy => ?_⟩
        rw [Multiset.mem_singleton] at hy
        subst hy
        refine ⟨rfl, by simp, ?_⟩
        rw [Sat]
  have hst : StandsO exG (fun _ => none)
      (.eachOf [.tc ⟨chars "http://e/p", true⟩ [] (.test fun _ => true) ⟨1, .intMax 1⟩,
        .tc ⟨chars "http://f/p", true⟩ [] (.test fun _ => true) ⟨1, .intMax 1⟩] ⟨1, .intMax 1⟩)
      (some (.eachOf none [exTc "http://e/p" none none none, exTc "http://f/p" none none none] none none [])) := by
    rw [StandsO]
    refine ⟨_, rfl, _, _, _, _, _, rfl, ?_, ⟨rfl, rfl⟩, by simp⟩
    rw [StandsTs]
    refine ⟨_, _, rfl, stands_tc ⟨rfl, rfl⟩, ?_⟩
    rw [StandsTs]
    refine ⟨_, _, rfl, stands_tc ⟨rfl, rfl⟩, ?_⟩
    rw [StandsTs]
  obtain ⟨σ, h1, h2⟩ := h _ _ _ 0 rfl (fun h => by cases h) (stands_shape hst) hs
  obtain ⟨i, h3, h4⟩ := h2 _ (List.mem_cons_self ..)
  obtain ⟨i', h3', h4'⟩ := h2 _ (List.mem_cons_of_mem _ (List.mem_cons_self ..))
  simp only [resolveRef, Option.some.injEq] at h3 h3'
  subst h3
  subst h3'
  have e1 : σ (chars "p") = 1 := by
    have : (σ (chars "this"), chars "http://e/p", σ (chars "p")) ∈
      [(0, chars "http://e/p", 1), (0, chars "http://f/p", 2)] := h4
    simp only [List.mem_cons, Prod.mk.injEq, List.not_mem_nil, or_false] at this
    rcases this with h | h
    · exact h.2.2
    · exact absurd h.2.1 (by decide)
  have e2 : σ (chars "p") = 2 := by
    have : (σ (chars "this"), chars "http://f/p", σ (chars "p")) ∈
      [(0, chars "http://e/p", 1), (0, chars "http://f/p", 2)] := h4'
    simp only [List.mem_cons, Prod.mk.injEq, List.not_mem_nil, or_false] at this
    rcases this with h | h
    · exact absurd h.2.1 (by decide)
    · exact h.2.2
  omega

/-- C137: an answer need not conform: the query does not look at the values. -/
theorem C137_converse_refuted :
    ¬ ∀ (q : Qry) (g : Graph Nat Str) (c : Core Nat Str) (x : Nat),
      convert (fun _ => true) (chars "this") (exStart (exTc "http://e/p" (some (.nc ())) none none)) 0 none
        = .ok q →
      Stands exG (fun _ => none) c (exShape (exTc "http://e/p" (some (.nc ())) none none)) →
      q.Answer (fun _ => true) g (chars "this") x →
      Sat g (fun _ _ => False) (fun _ _ => False) c none x := by
  intro h
  have hst : StandsO exG (fun _ => none)
      (.tc ⟨chars "http://e/p", true⟩ [] (.test fun _ => false) ⟨1, .intMax 1⟩)
      (some (exTc "http://e/p" (some (.nc ())) none none)) := by
    rw [StandsO]
    refine ⟨_, rfl, _, _, _, _, _, _, _, rfl, rfl, .nil, ⟨rfl, rfl⟩, Or.inr ⟨_, rfl, ?_⟩⟩
    rw [Stands]
    exact ⟨(), rfl, rfl⟩
  have hs := h ⟨some exMap, none, [⟨chars "this", .iri (chars "http://e/p"), chars "p"⟩]⟩
    ⟨[(0, chars "http://e/p", 0)], fun _ => true⟩ _ 0 rfl (stands_shape hst)
    ⟨fun _ => 0, rfl, fun p hp => by
      rw [List.mem_singleton] at hp
      subst hp
      exact ⟨_, rfl, by simp⟩⟩
  rw [Sat] at hs
  obtain ⟨_, vs, _, _, h3⟩ := hs
  rw [Matches] at h3
  have hc : 0 < Multiset.card (vs : Multiset (Pred Str × Nat)) := by
    exact h3.1.1
  obtain ⟨y, hy⟩ := Multiset.card_pos_iff_exists_mem.1 hc
  have := (h3.2 y hy).2.2
  rw [Sat] at this
  cases this

/-- C137: references in a circle are followed without end. -/
theorem C137_circle (n : Nat) (i : Str) (valid : Str → Bool) (this : Str) :
    convert valid this (⟨none, none, none, some [(.ref (.iri i), .ref (.ref (.iri i)))]⟩ : Sch NC) n
      (some (.iri i)) = .more := by
  have key : ∀ n, patsSE valid this
      (⟨none, none, none, some [(.ref (.iri i), .ref (.ref (.iri i)))]⟩ : Sch NC) n (.ref (.ref (.iri i))) =
        .more := by
    intro n
    induction n with
    | zero => rfl
    | succ n ih =>
      rw [patsSE]
      have : findLabel valid (⟨none, none, none, some [(.ref (.iri i), .ref (.ref (.iri i)))]⟩ : Sch NC)
          (.ref (.iri i)) = .ok (some (.ref (.ref (.iri i)))) := by
        simp [findLabel, findRef, findIn, resolveRef]
      rw [this]
      exact ih
  have : findRef valid (⟨none, none, none, some [(.ref (.iri i), .ref (.ref (.iri i)))]⟩ : Sch NC)
      (.iri i) = .ok (some (.ref (.ref (.iri i)))) := by
    simp [findRef, findIn, resolveRef]
  rw [convert, this]
  simp only [query, key, Out.bind]

/-! ## The text -/

/-- The text names the IRI: in angle brackets, or by an alias of the prefix map. -/
def Writes (m : Prefix.PrefixMap) (i t : Str) : Prop :=
  t = '<' :: i ++ ['>'] ∨ ∃ d ∈ m.map, ∃ loc, i = d.2 ++ loc ∧ t = d.1 ++ ':' :: loc

/-- C137: with a prefix map and predicates that are IRIs, the text of the query declares the prefixes, and
says `SELECT * WHERE` with a line for each pattern, whose predicate is named in angle brackets or by a
declared prefix. -/
theorem C137_text (valid : Str → Bool) (m : Prefix.PrefixMap) (hh : m.hyperlink = false) (ps : List Pat)
    (hi : ∀ p ∈ ps, ∃ i, p.pred = .iri i) :
    ∃ names : List Str, showQry valid ⟨some m, none, ps⟩ = some ((m.map.flatMap fun e =>
        chars "prefix " ++ e.1 ++ chars ": <" ++ e.2 ++ chars ">\n") ++ chars "\nSELECT * WHERE {\n" ++
        ((ps.zip names).flatMap fun x =>
          chars " ?" ++ x.1.subj ++ ' ' :: x.2 ++ chars " ?" ++ x.1.obj ++ chars " .\n") ++ chars "}\n") ∧
      names.length = ps.length ∧
      ∀ x ∈ ps.zip names, ∀ i, x.1.pred = .iri i → Writes m i x.2 := by
  have hw : ∀ i, Writes m i (m.qualify i) := by
    intro i
    unfold Prefix.PrefixMap.qualify Prefix.PrefixMap.qualifyOptional
    cases h : m.longestMatch i with
    | none => exact Or.inl rfl
    | some x =>
      obtain ⟨al, rest⟩ := x
      refine Or.inr ?_
      obtain ⟨h1, _⟩ := Prefix.maxByKey_some _ _ _ h
      obtain ⟨⟨a, ns⟩, he, hs⟩ := List.mem_filterMap.1 h1
      simp only [Option.map_eq_some_iff, Prod.mk.injEq] at hs
      obtain ⟨r, hr, rfl, rfl⟩ := hs
      exact ⟨(a, ns), he, r, (Prefix.stripPrefix_iff _ _ _).1 hr, by
        simp [hh, Prefix.PrefixMap.format]⟩
  have key : ∃ names : List Str, showPats valid m [' '] ['\n'] ps = some
        ((ps.zip names).flatMap fun x =>
          chars " ?" ++ x.1.subj ++ ' ' :: x.2 ++ chars " ?" ++ x.1.obj ++ chars " .\n") ∧
      names.length = ps.length ∧ ∀ x ∈ ps.zip names, ∀ i, x.1.pred = .iri i → Writes m i x.2 := by
    induction ps with
    | nil => exact ⟨[], rfl, rfl, by simp⟩
    | cons p ps ih =>
      obtain ⟨names, h1, h2, h3⟩ := ih fun p hp => hi p (List.mem_cons_of_mem _ hp)
      obtain ⟨i, hpi⟩ := hi p (List.mem_cons_self ..)
      refine ⟨m.qualify i :: names, ?_, by simp [h2], ?_⟩
      · rw [showPats, h1]
        simp [showPat, hpi, chars]
      · intro x hx j hj
        rw [List.zip_cons_cons] at hx
        rcases List.mem_cons.1 hx with rfl | hx
        · simp only at hj ⊢
          rw [hpi] at hj
          cases hj
          exact hw i
        · exact h3 x hx j hj
  obtain ⟨names, h1, h2, h3⟩ := key
  refine ⟨names, ?_, h2, h3⟩
  simp [showQry, showMap, h1, chars]

example : showQry (fun _ => true) ⟨some exMap, none, [⟨chars "this", .iri (chars "http://e/p"), chars "p"⟩]⟩ =
    some (chars "prefix e: <http://e/>\nprefix f: <http://f/>\n\nSELECT * WHERE {\n ?this e:p ?p .\n}\n") := by
  decide

theorem find_mem_map {m : Prefix.PrefixMap} {a ns : Str} (h : m.find a = some ns) : (a, ns) ∈ m.map := by
  unfold Prefix.PrefixMap.find at h
  generalize m.map = l at h
  induction l with
  | nil => cases h
  | cons e l ih =>
    rw [Prefix.imGet] at h
    split at h
    · rename_i he
      cases h
      exact List.mem_cons.2 (Or.inl (by rw [← he]))
    · exact List.mem_cons_of_mem _ (ih h)

/-- C137: references to shapes are IRIs, or names whose prefix is declared and stands for the start of the IRI; a name
without its prefix is an error, also when the schema has no prefix map. -/
theorem C137_names (valid : Str → Bool) :
    (∀ pm i, resolveRef valid pm (.iri i) = some i) ∧
    (∀ m a l i, resolveRef valid (some m) (.prefixed a l) = some i →
      ∃ ns, (a.toList, ns) ∈ m.map ∧ (i = ns ++ l.toList ∨ i = ns ++ '/' :: l.toList)) ∧
    (∀ m a l, a.toList ∉ m.map.map (·.1) → resolveRef valid (some m) (.prefixed a l) = none) ∧
    ∀ a l, resolveRef valid none (.prefixed a l) = none := by
  refine ⟨fun _ _ => rfl, ?_, ?_, fun _ _ => rfl⟩
  · intro m a l i h
    simp only [resolveRef, Option.getD_some, Prefix.PrefixMap.resolvePrefixLocal] at h
    cases hf : m.find a.toList with
    | none => rw [hf] at h; cases h
    | some ns =>
      rw [hf] at h
      refine ⟨ns, find_mem_map hf, ?_⟩
      simp only at h
      split at h
      · rename_i hl
        cases h
        exact Or.inl (by rw [hl, List.append_nil])
      · simp only [Prefix.iriExtend, Prefix.iriFromStr] at h
        split at h <;> split at h <;> simp only [Option.some.injEq, reduceCtorEq] at h
        · exact Or.inl h.symm
        · exact Or.inr h.symm
  · intro m a l h
    simp only [resolveRef, Option.getD_some, Prefix.PrefixMap.resolvePrefixLocal]
    cases hf : m.find a.toList with
    | none => rfl
    | some ns => exact absurd (List.mem_map.2 ⟨_, find_mem_map hf, rfl⟩) h

example : resolveRef (fun _ => true) (some exMap) (.prefixed "f" "S") = some (chars "http://f/S") ∧
    resolveRef (fun _ => true) (some exMap) (.prefixed "g" "S") = none := by decide

/-- C137: without a prefix map the text is no query: it has neither `SELECT` nor an opening brace, and starts
with a variable or the closing brace. -/
theorem C137_text_refuted (valid : Str → Bool) (ps : List Pat) (t : Str)
    (h : showQry valid ⟨none, none, ps⟩ = some t) : t.head? = some '?' ∨ t.head? = some '}' := by
  simp only [showQry, List.nil_append, Option.map_eq_some_iff] at h
  obtain ⟨r, h1, rfl⟩ := h
  cases ps with
  | nil =>
    simp only [showPats, Option.some.injEq] at h1
    subst h1
    exact Or.inr rfl
  | cons p ps =>
    simp only [showPats] at h1
    cases hp : showPat valid Prefix.PrefixMap.new p with
    | none => rw [hp] at h1; cases h1
    | some u =>
      rw [hp] at h1
      simp only [Option.map_eq_some_iff, List.nil_append, List.append_nil] at h1
      obtain ⟨r', _, rfl⟩ := h1
      simp only [showPat, Option.map_eq_some_iff] at hp
      obtain ⟨v, _, rfl⟩ := hp
      exact Or.inl rfl

example : showQry (fun _ => true) ⟨none, none, [⟨chars "this", .iri (chars "http://e/p"), numbered 1⟩]⟩ =
    some (chars "?this <http://e/p> ?var1 .}\n") := by decide

/-- C137: a predicate that is a prefixed name is written as the bare IRI, which names nothing in SPARQL. -/
theorem C137_prefixed_refuted :
    ∃ t, showPat (fun _ => true) exMap ⟨chars "this", .prefixed "e" "p", chars "p"⟩ =
        some (chars "?this " ++ t ++ chars " ?p .") ∧ t = chars "http://e/p" ∧
      ¬ ∃ i, Writes exMap i t := by
  refine ⟨chars "http://e/p", by decide, rfl, ?_⟩
  rintro ⟨i, h | ⟨d, hd, loc, _, h2⟩⟩
  · simp [chars] at h
  · simp only [exMap, List.mem_cons, List.not_mem_nil, or_false] at hd
    rcases hd with rfl | rfl <;> simp [chars] at h2

#print axioms C137_made
#print axioms C137_patterns
#print axioms C137_once
#print axioms C137_numbered
#print axioms C137_answers
#print axioms C137_answers_of_label
#print axioms C137_answers_have
#print axioms C137_optional_refuted
#print axioms C137_choice_refuted
#print axioms C137_shared_refuted
#print axioms C137_converse_refuted
#print axioms C137_circle
#print axioms C137_text
#print axioms C137_names
#print axioms C137_text_refuted
#print axioms C137_prefixed_refuted

end Select
