import Verif.Shexr.Lemmas

/-!
# Properties: ShEx schemas as graphs (ShExR)
-/

namespace Shexr

open Rd

section
variable {L : Type} [DecidableEq L] {g : Gr L} {bool : L → Option Bool}

/-- C149, what is read. A graph that stands for a schema of expressions that the reader knows is read as that schema,
whatever the order of hash sets and wherever the focus was before. Missing: that this holds of all schemas
(`C149_read_refuted`). -/
theorem C149_read_partial (hg : g.Orders) (hs : Sane g) {S : Schema L} (hS : IsSchema g bool S) (hp : S.Plain) :
    ∃ n0, ∀ n, n0 ≤ n → ∀ s, ∃ s', parseSchema g bool n s = (.ok S, s') := by
  obtain ⟨s0, h1, -, l, ts, h2, h3, h4⟩ := hS
  obtain ⟨st, ds⟩ := S
  obtain ⟨rfl, hp⟩ : st = none ∧ _ := hp
  obtain ⟨n0, h⟩ := read_decls hg hs h4 hp
  refine ⟨n0, fun n hn s => ?_⟩
  obtain ⟨s', hs'⟩ := listOf_ok hg h3 (h n hn) (s.reads + 1)
  refine ⟨s', ?_⟩
  have hi : singleInstance g (sx "Schema") s = (.ok s0, s) := by
    rw [singleInstance, instances_only h1]
  rw [parseSchema, bind_ok hi, setFocus_bind, bind_ok (single_only hg h2), setFocus_bind, bind_ok hs']
  rfl

/-- C149, no errors. Reading a shape expression never fails, whatever the graph says: what is not understood is read
as a node constraint. -/
theorem C149_no_errors (n : Nat) (s : St L) : (shapeExpr g bool n s).1 ≠ .err := by
  cases n with
  | zero => simp [shapeExpr]
  | succ n =>
    intro h
    rw [shapeExpr] at h
    generalize orElse (orElse (junction g (shapeExpr g bool n) (sx "ShapeAnd") .and)
      (junction g (shapeExpr g bool n) (sx "ShapeOr") .or)) (shape g bool) = p at h
    rw [orElse] at h
    rcases hp : p s with ⟨r, s1⟩
    rw [hp] at h
    cases r with
    | err =>
      dsimp only at h
      rcases hq : nodeConstraint g s1 with ⟨r, s2⟩
      rw [hq] at h
      obtain rfl : r = .err := h
      exact nodeConstraint_not_err hq
    | _ => simp at h

/-- C149, what is lost. Negations, external shapes and references to declared shapes are read as the node constraint
that every node meets; so is a node constraint of which only the datatype is given. -/
theorem C149_lost (hg : g.Orders) {t : Tm L} {e : Se L} (h : IsSe g bool t e)
    (he : (∃ e', e = .not e') ∨ e = .ext ∨ e = .ref t ∨ ∃ d, e = .nc none (some d) none)
    (h1 : Lacks g t (sx "nodeKind")) (h2 : Lacks g t (sx "values")) (n k : Nat) :
    ∃ s', shapeExpr g bool (n + 1) ⟨t, k⟩ = (.ok (.nc none none none), s') := by
  have key : ∀ d, Only g t (.v .type) (.iri d) → d ≠ sx "ShapeAnd" → d ≠ sx "ShapeOr" → d ≠ sx "Shape" →
      ∃ s', shapeExpr g bool (n + 1) ⟨t, k⟩ = (.ok (.nc none none none), s') := by
    intro d hd a b c
    rw [shapeExpr_other hg hd a b c, nodeConstraint, bind_ok (parseNodekind_none hg h1),
      bind_ok (parseValueSet_none hg h2)]
    exact ⟨_, rfl⟩
  rcases he with ⟨e', rfl⟩ | rfl | rfl | ⟨d, rfl⟩
  · cases h with
    | not ht _ _ => exact key _ ht (sx_inj (by decide)) (sx_inj (by decide)) (sx_inj (by decide))
  · cases h with
    | ext ht => exact key _ ht (sx_inj (by decide)) (sx_inj (by decide)) (sx_inj (by decide))
  · cases h with
    | ref ht => exact key _ ht (sx_inj (by decide)) (sx_inj (by decide)) (sx_inj (by decide))
  · cases h with
    | nc ht _ _ _ => exact key _ ht (sx_inj (by decide)) (sx_inj (by decide)) (sx_inj (by decide))

/-- C149, values lost. When a node constraint has a node kind, its set of values is not read: it is looked for at the
name of the kind. -/
theorem C149_values_lost (hg : g.Orders) (hs : Sane g) {t : Tm L} {kd : NKind} {d : Option Iri}
    {v : Option (List (Val L))} (h : IsSe g bool t (.nc (some kd) d v)) (n k : Nat) :
    ∃ s', shapeExpr g bool (n + 1) ⟨t, k⟩ = (.ok (.nc (some kd) none none), s') := by
  cases h with
  | nc ht hk _ _ =>
    obtain ⟨o, ho, rfl⟩ := hk
    rw [shapeExpr_other hg ht (sx_inj (by decide)) (sx_inj (by decide)) (sx_inj (by decide)), nodeConstraint,
      bind_ok (parseNodekind_some hg ho), bind_ok (parseValueSet_none hg (hs kd))]
    exact ⟨_, rfl⟩

/-- C149, literals lost. When a value of the set is a literal, the whole set is passed over, and all nodes meet the
constraint. -/
theorem C149_literals_lost (hg : g.Orders) {t : Tm L} {d : Option Iri} {vs : List (Val L)}
    (h : IsSe g bool t (.nc none d (some vs))) {l : L} (hl : .lit l ∈ vs) (n k : Nat) :
    ∃ s', shapeExpr g bool (n + 1) ⟨t, k⟩ = (.ok (.nc none none none), s') := by
  cases h with
  | nc ht hk _ hv =>
    obtain ⟨o, ho, hi⟩ := hv
    rw [shapeExpr_other hg ht (sx_inj (by decide)) (sx_inj (by decide)) (sx_inj (by decide)), nodeConstraint,
      bind_ok (parseNodekind_none hg hk)]
    obtain ⟨s', hs⟩ := parseValueSet_bad hg ho hi ⟨.lit l, List.mem_map.2 ⟨_, hl, rfl⟩, by simp⟩
    rw [bind_ok hs]
    exact ⟨_, rfl⟩

/-- C149, one schema. Without a node of class `sx:Schema`, or with more than one, reading is an error. -/
theorem C149_one (h : ¬ ∃ s, ∀ s', Has g s' (.v .type) (.iri (sx "Schema")) ↔ s' = s) (n : Nat) (s : St L) :
    (parseSchema g bool n s).1 = .err := by
  have hm : ∀ x, x ∈ instances g (sx "Schema") ↔ Has g x (.v .type) (.iri (sx "Schema")) := mem_instances
  have : singleInstance g (sx "Schema") s = (.err, s) := by
    rw [singleInstance]
    split
    · next t ht =>
      exact absurd ⟨t, fun s' => by rw [← hm, ht, List.mem_singleton]⟩ h
    · rfl
  rw [parseSchema, bind_err this]

/-- C149, contents lost. Of a shape only whether it is closed is read. -/
theorem C149_contents_lost (hg : g.Orders) {t : Tm L} {c : Option Bool} {x : Option (List Iri)} {e : Option (Tm L)}
    (h : IsSe g bool t (.shape c x e)) (n k : Nat) :
    ∃ s', shapeExpr g bool (n + 1) ⟨t, k⟩ = (.ok (.shape c none none), s') := by
  cases h with
  | shape ht hc _ _ =>
    obtain ⟨s', hs'⟩ := shape_ok hg ht hc (k := k + 1 + 1)
    refine ⟨s', ?_⟩
    rw [shapeExpr]
    refine orElse_ok ?_
    rw [orElse_err]
    · exact hs'
    · rw [orElse_err (junction_no hg ht (sx_inj (by decide)))]
      exact junction_no hg ht (sx_inj (by decide))

/-- C149, no end. When conjunctions and disjunctions have others of them as their first members, without end, reading
does not end, however many nested calls are made. -/
theorem C149_no_end (hg : g.Orders) (X : Tm L → Prop)
    (hX : ∀ t, X t → (Typed g t "ShapeAnd" ∨ Typed g t "ShapeOr") ∧
      ∃ l x xs, Only g t (sx "shapeExprs") l ∧ g.IsList l (x :: xs) ∧ X x) {t : Tm L} (ht : X t) (n k : Nat) :
    (shapeExpr g bool n ⟨t, k⟩).1 = .loop := by
  induction n generalizing t k with
  | zero => rfl
  | succ n ih =>
    obtain ⟨hc, l, x, xs, hl, hi, hx⟩ := hX t ht
    have key : ∀ c f k, Only g t (.v .type) (.iri c) → (junction g (shapeExpr g bool n) c f ⟨t, k⟩).1 = .loop := by
      intro c f k hc
      rw [junction, bind_ok (hasType_yes hg hc), bind_ok (single_only hg hl), setFocus_bind]
      refine bind_loop_iff.2 (.inl ?_)
      obtain ⟨k', hk⟩ := listP_isList hg hi (k + 1 + 1)
      rw [listOf, bind_ok hk, each]
      exact bind_loop_iff.2 (.inl (ih hx _))
    have step : ∀ (p q : Pr L (Se L)) s, (p s).1 = .loop → (orElse p q s).1 = .loop := by
      intro p q s h
      rcases hp : p s with ⟨r, s1⟩
      rw [hp] at h
      obtain rfl : r = .loop := h
      simp only [orElse, hp]
    rw [shapeExpr]
    refine step _ _ _ (step _ _ _ ?_)
    rcases hc with hc | hc
    · exact step _ _ _ (key _ _ _ hc)
    · rw [orElse_err (junction_no hg hc (sx_inj (by decide)))]
      exact key _ _ _ hc

end

/-! ## Examples -/

/-- A graph with triples in the order written. -/
def exG (ts : List (Tm Bool × Iri × Tm Bool)) : Gr Bool := ⟨ts, fun _ l => l⟩

theorem exG_orders (ts) : (exG ts).Orders := fun _ _ => .refl _

/-- A schema with one shape, at the blank node `e`. -/
def exHead : List (Tm Bool × Iri × Tm Bool) :=
  [(.bnode "s", .v .type, .iri (sx "Schema")), (.bnode "s", sx "shapes", .bnode "l"),
   (.bnode "l", .v .first, .iri (.o "S")), (.bnode "l", .v .rest, .iri (.v .nil)),
   (.iri (.o "S"), sx "shapeExpr", .bnode "e")]

/-- A node constraint with a kind and a set of one IRI. -/
def exBoth : List (Tm Bool × Iri × Tm Bool) := exHead ++
  [(.bnode "e", .v .type, .iri (sx "NodeConstraint")), (.bnode "e", sx "nodeKind", .iri (sx "iri")),
   (.bnode "e", sx "values", .bnode "v"), (.bnode "v", .v .first, .iri (.o "x")),
   (.bnode "v", .v .rest, .iri (.v .nil))]

/-- A conjunction of a closed shape and a node kind. -/
def exAnd : List (Tm Bool × Iri × Tm Bool) := exHead ++
  [(.bnode "e", .v .type, .iri (sx "ShapeAnd")), (.bnode "e", sx "shapeExprs", .bnode "v"),
   (.bnode "v", .v .first, .bnode "x"), (.bnode "v", .v .rest, .bnode "w"),
   (.bnode "w", .v .first, .bnode "y"), (.bnode "w", .v .rest, .iri (.v .nil)),
   (.bnode "x", .v .type, .iri (sx "Shape")), (.bnode "x", sx "closed", .lit true),
   (.bnode "y", .v .type, .iri (sx "NodeConstraint")), (.bnode "y", sx "nodeKind", .iri (sx "bnode"))]

theorem only_of {ts : List (Tm Bool × Iri × Tm Bool)} {s o : Tm Bool} {p : Iri} (hs : s.isLit = false)
    (h : ((ts.filter fun t => decide (t.1 = s ∧ t.2.1 = p)).map fun t => t.2.2) = [o]) : Only (exG ts) s p o := by
  intro o'
  have : o' ∈ ((ts.filter fun t => decide (t.1 = s ∧ t.2.1 = p)).map fun t => t.2.2) ↔ Has (exG ts) s p o' := by
    simp only [Has, exG, hs, true_and, List.mem_map, List.mem_filter, decide_eq_true_eq]
    constructor
    · rintro ⟨⟨a, b, c⟩, ⟨hm, rfl, rfl⟩, rfl⟩
      exact hm
    · intro hm
      exact ⟨_, ⟨hm, rfl, rfl⟩, rfl⟩
  rw [← this, h, List.mem_singleton]

theorem lacks_of {ts : List (Tm Bool × Iri × Tm Bool)} {s : Tm Bool} {p : Iri}
    (h : (ts.filter fun t => decide (t.1 = s ∧ t.2.1 = p)) = []) : Lacks (exG ts) s p := by
  rintro o ⟨-, ho⟩
  have := List.filter_eq_nil_iff.1 h _ ho
  simp at this

theorem sane_of {ts : List (Tm Bool × Iri × Tm Bool)}
    (h : ∀ t ∈ ts, (match t.1 with | .bnode _ => true | _ => false) = true ∨ t.2.1 = sx "shapeExpr") : Sane (exG ts) := by
  rintro k o ⟨-, ho⟩
  rcases h _ ho with h | h
  · simp at h
  · exact sx_inj (by decide) h

theorem schema_of {ts : List (Tm Bool × Iri × Tm Bool)} {e : Se Bool}
    (h0 : ((ts.filter fun t => decide (t.2.1 = .v .type ∧ t.2.2 = .iri (sx "Schema"))).map fun t => t.1) = [.bnode "s"])
    (h1 : ((ts.filter fun t => decide (t.1 = .bnode "s" ∧ t.2.1 = sx "shapes")).map fun t => t.2.2) = [.bnode "l"])
    (h2 : ((ts.filter fun t => decide (t.1 = .bnode "l" ∧ t.2.1 = .v .first)).map fun t => t.2.2) = [.iri (.o "S")])
    (h3 : ((ts.filter fun t => decide (t.1 = .bnode "l" ∧ t.2.1 = .v .rest)).map fun t => t.2.2) = [.iri (.v .nil)])
    (h4 : ((ts.filter fun t => decide (t.1 = .iri (.o "S") ∧ t.2.1 = sx "shapeExpr")).map fun t => t.2.2) =
      [.bnode "e"])
    (h5 : (ts.filter fun t => decide (t.1 = .bnode "s" ∧ t.2.1 = sx "start")) = [])
    (he : IsSe (exG ts) some (.bnode "e") e) : IsSchema (exG ts) some ⟨none, [(.iri (.o "S"), e)]⟩ := by
  refine ⟨.bnode "s", fun s' => ?_, lacks_of h5, .bnode "l", [.iri (.o "S")], only_of rfl h1,
    .cons (by simp) (only_of rfl h2) (only_of rfl h3) .nil, .cons ⟨rfl, .bnode "e", only_of rfl h4, he⟩ .nil⟩
  constructor
  · rintro ⟨-, h⟩
    have : s' ∈ ((ts.filter fun t => decide (t.2.1 = .v .type ∧ t.2.2 = .iri (sx "Schema"))).map fun t => t.1) :=
      List.mem_map.2 ⟨_, List.mem_filter.2 ⟨h, by simp⟩, rfl⟩
    rw [h0] at this
    exact List.mem_singleton.1 this
  · rintro rfl
    have : (.bnode "s" : Tm Bool) ∈
        ((ts.filter fun t => decide (t.2.1 = .v .type ∧ t.2.2 = .iri (sx "Schema"))).map fun t => t.1) := by
      rw [h0]
      exact List.mem_singleton.2 rfl
    obtain ⟨⟨a, b, c⟩, h, rfl⟩ := List.mem_map.1 this
    obtain ⟨h, h'⟩ := List.mem_filter.1 h
    simp only [decide_eq_true_eq] at h'
    obtain ⟨rfl, rfl⟩ := h'
    exact ⟨rfl, h⟩

theorem exBoth_se : IsSe (exG exBoth) some (.bnode "e") (.nc (some .iri) none (some [.iri (.o "x")])) :=
  .nc (only_of rfl (by decide +kernel)) ⟨_, only_of rfl (by decide +kernel), rfl⟩ (lacks_of (by decide +kernel))
    ⟨.bnode "v", only_of rfl (by decide +kernel), .cons (by simp) (only_of rfl (by decide +kernel))
      (only_of rfl (by decide +kernel)) .nil⟩

theorem exBoth_schema : IsSchema (exG exBoth) some
    ⟨none, [(.iri (.o "S"), .nc (some .iri) none (some [.iri (.o "x")]))]⟩ :=
  schema_of (by decide +kernel) (by decide +kernel) (by decide +kernel) (by decide +kernel) (by decide +kernel)
    (by decide +kernel) exBoth_se

theorem exBoth_sane : Sane (exG exBoth) := sane_of (by decide +kernel)

/-- C149, refuted. Not all schemas are read as what they are: with a node kind and a set of values, the values are
lost. -/
theorem C149_read_refuted : ¬ ∀ (g : Gr Bool) (bool : Bool → Option Bool) (S : Schema Bool), g.Orders → Sane g →
    IsSchema g bool S → ∃ n0, ∀ n, n0 ≤ n → ∀ s, ∃ s', parseSchema g bool n s = (.ok S, s') := by
  intro h
  obtain ⟨n0, h⟩ := h _ some _ (exG_orders _) exBoth_sane exBoth_schema
  obtain ⟨s1, h1⟩ := h (n0 + 1) (by omega) ⟨nilT, 0⟩
  obtain ⟨s, hs, -, l, ts, hl, hi, hd⟩ := exBoth_schema
  have hg := exG_orders exBoth
  have hd' : List.Forall₂ (fun t d => ∀ k, ∃ s', shapeDecl (exG exBoth) some (n0 + 1) ⟨t, k⟩ = (.ok d, s')) ts
      [(.iri (.o "S"), .nc (some .iri) none none)] := by
    cases hd with
    | cons h1 h2 =>
      cases h2
      obtain ⟨rfl, x, hx, he⟩ := h1
      refine .cons (fun k => ?_) .nil
      obtain ⟨s', hs'⟩ := C149_values_lost hg exBoth_sane he n0 (k + 1)
      refine ⟨s', ?_⟩
      rw [shapeDecl, getFocus_bind]
      show (single (exG exBoth) (sx "shapeExpr") >>= _) _ = _
      rw [bind_ok (single_only hg hx), setFocus_bind, bind_ok hs']
      rfl
  obtain ⟨s', hs'⟩ := listOf_ok hg hi hd' 1
  have hin : singleInstance (exG exBoth) (sx "Schema") ⟨nilT, 0⟩ = (.ok s, ⟨nilT, 0⟩) := by
    rw [singleInstance, instances_only hs]
  rw [parseSchema, bind_ok hin, setFocus_bind, bind_ok (single_only hg hl), setFocus_bind, bind_ok hs'] at h1
  simp [ret] at h1

theorem exAnd_se : IsSe (exG exAnd) some (.bnode "e") (.and [.shape (some true) none none, .nc (some .bnode) none none]) :=
  .and (l := .bnode "v") (ts := [.bnode "x", .bnode "y"]) (only_of rfl (by decide +kernel))
    (only_of rfl (by decide +kernel))
    (.cons (r := .bnode "w") (by simp) (only_of rfl (by decide +kernel)) (only_of rfl (by decide +kernel))
      (.cons (by simp) (only_of rfl (by decide +kernel)) (only_of rfl (by decide +kernel)) .nil))
    (.cons (.shape (only_of rfl (by decide +kernel)) ⟨_, only_of rfl (by decide +kernel), true, rfl, rfl⟩
        (fun i => ⟨fun h => absurd h (lacks_of (by decide +kernel) _), fun ⟨_, h, _⟩ => by simp at h⟩)
        (lacks_of (by decide +kernel)))
      (.cons (.nc (only_of rfl (by decide +kernel)) ⟨_, only_of rfl (by decide +kernel), rfl⟩
        (lacks_of (by decide +kernel)) (lacks_of (by decide +kernel))) .nil))

/-- A schema with a conjunction of a closed shape and a node kind is read. -/
example : ∃ n0, ∀ n, n0 ≤ n → ∀ s, ∃ s', parseSchema (exG exAnd) some n s = (.ok ⟨none, [(.iri (.o "S"),
    .and [.shape (some true) none none, .nc (some .bnode) none none])]⟩, s') :=
  C149_read_partial (exG_orders _) (sane_of (by decide +kernel))
    (schema_of (by decide +kernel) (by decide +kernel) (by decide +kernel) (by decide +kernel) (by decide +kernel)
      (by decide +kernel) exAnd_se)
    ⟨rfl, by simp [Se.Plain, Plains]⟩

/-- A literal is read as a node constraint, too. -/
example : (shapeExpr (exG exAnd) some 3 ⟨.lit true, 0⟩).1 ≠ .err := C149_no_errors 3 _

/-- A node constraint with a kind and values, of which the kind is read. -/
example : ∃ s', shapeExpr (exG exBoth) some 1 ⟨.bnode "e", 0⟩ = (.ok (.nc (some .iri) none none), s') :=
  C149_values_lost (exG_orders _) exBoth_sane exBoth_se 0 0

/-- A node constraint with an IRI and a literal as values. -/
def exLit : List (Tm Bool × Iri × Tm Bool) :=
  [(.bnode "e", .v .type, .iri (sx "NodeConstraint")), (.bnode "e", sx "values", .bnode "v"),
   (.bnode "v", .v .first, .iri (.o "x")), (.bnode "v", .v .rest, .bnode "w"),
   (.bnode "w", .v .first, .lit true), (.bnode "w", .v .rest, .iri (.v .nil))]

theorem exLit_se : IsSe (exG exLit) some (.bnode "e") (.nc none none (some [.iri (.o "x"), .lit true])) :=
  .nc (only_of rfl (by decide +kernel)) (lacks_of (by decide +kernel)) (lacks_of (by decide +kernel))
    ⟨.bnode "v", only_of rfl (by decide +kernel), .cons (r := .bnode "w") (by simp) (only_of rfl (by decide +kernel))
      (only_of rfl (by decide +kernel)) (.cons (by simp) (only_of rfl (by decide +kernel))
        (only_of rfl (by decide +kernel)) .nil)⟩

example : ∃ s', shapeExpr (exG exLit) some 1 ⟨.bnode "e", 0⟩ = (.ok (.nc none none none), s') :=
  C149_literals_lost (exG_orders _) exLit_se (l := true) (by simp) 0 0

/-- A graph with two schemas. -/
example : (parseSchema (exG [(.bnode "a", .v .type, .iri (sx "Schema")), (.bnode "b", .v .type, .iri (sx "Schema"))])
    some 9 ⟨nilT, 0⟩).1 = .err := by
  refine C149_one ?_ 9 _
  rintro ⟨s, h⟩
  have h1 := (h (.bnode "a")).1 ⟨rfl, by simp [exG]⟩
  have h2 := (h (.bnode "b")).1 ⟨rfl, by simp [exG]⟩
  rw [← h1] at h2
  simp at h2

/-- A negation of an external shape. -/
def exNot : List (Tm Bool × Iri × Tm Bool) :=
  [(.bnode "e", .v .type, .iri (sx "ShapeNot")), (.bnode "e", sx "shapeExpr", .bnode "x"),
   (.bnode "x", .v .type, .iri (sx "ShapeExternal"))]

example : ∃ s', shapeExpr (exG exNot) some 1 ⟨.bnode "e", 0⟩ = (.ok (.nc none none none), s') :=
  C149_lost (exG_orders _) (.not (x := .bnode "x") (only_of rfl (by decide +kernel)) (only_of rfl (by decide +kernel))
    (.ext (only_of rfl (by decide +kernel)))) (.inl ⟨_, rfl⟩) (lacks_of (by decide +kernel))
    (lacks_of (by decide +kernel)) 0 0

/-- A shape with an expression and an extra property. -/
def exShape : List (Tm Bool × Iri × Tm Bool) :=
  [(.bnode "e", .v .type, .iri (sx "Shape")), (.bnode "e", sx "expression", .bnode "t"),
   (.bnode "e", sx "extra", .iri (.o "p"))]

theorem exShape_se : IsSe (exG exShape) some (.bnode "e") (.shape none (some [.o "p"]) (some (.bnode "t"))) :=
  .shape (only_of rfl (by decide +kernel)) (lacks_of (by decide +kernel))
    (fun i => ((only_of (s := .bnode "e") (p := sx "extra") (o := .iri (.o "p")) rfl (by decide +kernel)) (.iri i)).trans
      (by simp))
    ⟨_, only_of rfl (by decide +kernel), rfl⟩

example : ∃ s', shapeExpr (exG exShape) some 1 ⟨.bnode "e", 0⟩ = (.ok (.shape none none none), s') :=
  C149_contents_lost (exG_orders _) exShape_se 0 0

/-- A conjunction with itself. -/
def exLoop : List (Tm Bool × Iri × Tm Bool) :=
  [(.bnode "e", .v .type, .iri (sx "ShapeAnd")), (.bnode "e", sx "shapeExprs", .bnode "l"),
   (.bnode "l", .v .first, .bnode "e"), (.bnode "l", .v .rest, .iri (.v .nil))]

example : (shapeExpr (exG exLoop) some 1000 ⟨.bnode "e", 0⟩).1 = .loop :=
  C149_no_end (exG_orders _) (fun t => t = .bnode "e") (by
    rintro _ rfl
    exact ⟨.inl (only_of rfl (by decide +kernel)), .bnode "l", .bnode "e", [], only_of rfl (by decide +kernel),
      .cons (by simp) (only_of rfl (by decide +kernel)) (only_of rfl (by decide +kernel)) .nil, rfl⟩) rfl 1000 0

end Shexr
