import Verif.Tap.LemmasShex

/-!
# Properties of the conversion of DCTAP tables to ShEx
-/

namespace Tap

variable (T : Text) (cfg : ShexConfig) (valid : Str → Bool)

/-- Whitespace and any IRI, for the examples. -/
def plain : Text := ⟨fun c => c = ' ', id⟩

/-- One alias and a base, for the examples. -/
def exampleConfig : ShexConfig :=
  { baseIri := some "http://b/".toList
    prefixmap := ⟨[("ex".toList, "http://e/".toList)], false⟩ }

/-! ## C93: names -/

/-- C93: a text is resolved to an IRI exactly when it stands for it: the part after the last colon in the
namespace of the part before it, or after the base. -/
theorem C93_names (s iri : Str) (line : Nat) :
    resolveIri cfg valid s line = .ok iri ↔ Spec.Names cfg valid s iri :=
  resolveIri_ok cfg valid

/-- C93: every IRI begins with the namespace of an alias or with the base. -/
theorem C93_begins (s iri : Str) (line : Nat) (h : resolveIri cfg valid s line = .ok iri) :
    (∃ p ns, cfg.prefixmap.find p = some ns ∧ ns <+: iri) ∨ ∃ base, cfg.baseIri = some base ∧ base <+: iri := by
  have hj : ∀ b l : Str, b <+: Spec.joined b l := by
    intro b l
    unfold Spec.joined
    split_ifs <;> exact List.prefix_append _ _
  rcases (C93_names cfg valid s iri line).mp h with ⟨_, b, hb, rfl, _⟩ | ⟨p, l, _, _, h⟩
  · exact Or.inr ⟨b, hb, hj _ _⟩
  · rcases h with ⟨ns, hns, h⟩ | ⟨_, _, b, hb, rfl, _⟩
    · rcases h with ⟨_, rfl⟩ | ⟨_, rfl, _⟩
      · exact Or.inl ⟨p, iri, hns, List.prefix_refl _⟩
      · exact Or.inl ⟨p, ns, hns, hj _ _⟩
    · exact Or.inr ⟨b, hb, hj _ _⟩

example : resolveIri exampleConfig (fun _ => true) "ex:a".toList 3 = .ok "http://e/a".toList
    ∧ resolveIri exampleConfig (fun _ => true) "a".toList 3 = .ok "http://b/a".toList
    ∧ resolveIri exampleConfig (fun _ => true) ":a".toList 3 = .ok "http://b/a".toList := ⟨rfl, rfl, rfl⟩

/-- C93 fails for absolute IRIs: a valid IRI in a table does not stand for itself, since what comes before
its last colon is taken for an alias. -/
theorem C93_absolute_refuted :
    ¬ ∀ (cfg : ShexConfig) (valid : Str → Bool) (s : Str) (line : Nat),
      (∃ a b, s = a ++ ':' :: b ∧ '/' ∉ a ∧ a ≠ []) → valid s = true → cfg.prefixmap.find "http".toList = none →
      resolveIri cfg valid s line = .ok s := by
  intro h
  have := h exampleConfig (fun _ => true) "http://e/a".toList 1 ⟨"http".toList, "//e/a".toList, by simp, by simp, by simp⟩
    rfl rfl
  have h2 : resolveIri exampleConfig (fun _ => true) "http://e/a".toList 1
      = .error (.resolvingPrefix 1 "http://e/a".toList) := rfl
  rw [h2] at this
  cases this

/-! ## C94: cardinalities -/

theorem allowsCount_iff {st : Statement} {t : TripleConstraint} (hmin : t.min = getMin st.mandatory)
    (hmax : t.max = getMax st.repeatable) (k : Nat) :
    t.AllowsCount k ↔ (st.mandatory ≠ some false → 1 ≤ k) ∧ (st.repeatable ≠ some true → k ≤ 1) := by
  unfold TripleConstraint.AllowsCount
  rw [hmin, hmax]
  rcases st.mandatory with _ | _ | _ <;> rcases st.repeatable with _ | _ | _ <;>
    simp [getMin, getMax] <;> omega

/-- C94: the numbers of values which the triple constraint of a statement allows: at least one unless
`mandatory` is false, and at most one unless `repeatable` is true. -/
theorem C94_cardinality (st : Statement) (t : TripleConstraint)
    (h : tripleConstraint T cfg valid st = .ok t) (k : Nat) :
    t.AllowsCount k ↔ (st.mandatory ≠ some false → 1 ≤ k) ∧ (st.repeatable ≠ some true → k ≤ 1) := by
  have hs := tripleConstraint_spec T cfg valid st
  rw [h] at hs
  exact allowsCount_iff hs.2.min hs.2.max k

example : (tripleConstraint plain exampleConfig (fun _ => true)
      { property := ⟨"ex:p".toList, 1⟩, mandatory := some false, repeatable := some true }).toOption.map
        (fun t => (t.min, t.max)) = some (some 0, some (-1)) := rfl

/-- C94 fails for a missing column: a statement without a word about `mandatory` is not the same as one
where the cell is empty, which is read as false. -/
theorem C94_missing_refuted :
    ¬ ∀ (T : Text) (cfg : ShexConfig) (valid : Str → Bool) (st : Statement) (t t' : TripleConstraint),
      tripleConstraint T cfg valid { st with mandatory := none } = .ok t →
      tripleConstraint T cfg valid { st with mandatory := some false } = .ok t' →
      ∀ k, t.AllowsCount k ↔ t'.AllowsCount k := by
  intro h
  have := h plain exampleConfig (fun _ => true) { property := ⟨"ex:p".toList, 1⟩ }
    ⟨"http://e/p".toList, none, some 1, none, none⟩ ⟨"http://e/p".toList, none, some 0, none, none⟩ rfl rfl 0
  simp [TripleConstraint.AllowsCount] at this

/-! ## C95: the schema of a table -/

/-- C95: the conversion succeeds exactly when each shape has an identifier, everything which is mentioned
stands for an IRI, and the constraints are pick lists. -/
theorem C95_succeeds_iff (ss : List Shape) :
    (∃ ds, convert T cfg valid ss = .ok ds) ↔ ∀ s ∈ ss, Spec.ShapeOk T cfg valid s := by
  have h := convertLoop_spec T cfg valid ss []
  unfold convert
  cases hc : convertLoop T cfg valid [] ss with
  | ok ds => rw [hc] at h; exact ⟨fun _ => h.1, fun _ => ⟨ds, rfl⟩⟩
  | error e => rw [hc] at h; exact ⟨fun ⟨_, h'⟩ => (by cases h'), fun h' => absurd h' h⟩

/-- C95: the schema has one declaration for each shape, in order: under the IRI of its identifier, with its
label, what it extends in order, and one triple constraint for each statement in order, with the IRI and the
label of its property, the numbers of values of C94 and the values of `C95_values`. -/
theorem C95_declarations (ss : List Shape) (ds : List ShexDecl) (h : convert T cfg valid ss = .ok ds) :
    List.Forall₂ (fun s d =>
      (∃ i, s.id = some i ∧ Spec.Names cfg valid i.str d.id) ∧
      d.shape.annotations = s.label.map (fun l => [l]) ∧
      List.Forall₂ (fun (e : ExtendsId) i => Spec.Names cfg valid e.str i) s.extends_ (d.shape.extends_.getD []) ∧
      List.Forall₂ (fun (st : Statement) (t : TripleConstraint) =>
        Spec.Names cfg valid st.property.str t.predicate ∧ t.annotations = st.label.map (fun l => [l]) ∧
        (∀ k, t.AllowsCount k ↔
          (st.mandatory ≠ some false → 1 ≤ k) ∧ (st.repeatable ≠ some true → k ≤ 1)) ∧
        ∀ (N : Type) (w : World N) (n : N), t.AcceptsValue w n ↔
          (st.datatypes.length = 1 ∨ (Spec.DatatypeOk cfg valid w st n ∧ Spec.ChoiceOk cfg valid w st n)) ∧
          Spec.ShapesOk T cfg valid w st n)
        s.statements (d.shape.expression.getD [])) ss ds := by
  have hs := convertLoop_spec T cfg valid ss []
  unfold convert at h
  rw [h] at hs
  obtain ⟨_, es, rfl, h1⟩ := hs
  exact h1.imp fun s d hd => ⟨hd.id, hd.label, hd.extends_, hd.statements.imp fun st t ht =>
    ⟨ht.predicate, ht.label, allowsCount_iff ht.min ht.max, ht.value⟩⟩

/-- C95: what the triple constraint of any statement accepts: values of the shapes, and, unless there is
exactly one datatype, of the datatypes and of the pick list. -/
theorem C95_values (st : Statement) (t : TripleConstraint) (h : tripleConstraint T cfg valid st = .ok t)
    {N : Type} (w : World N) (n : N) :
    t.AcceptsValue w n ↔
      (st.datatypes.length = 1 ∨ (Spec.DatatypeOk cfg valid w st n ∧ Spec.ChoiceOk cfg valid w st n)) ∧
      Spec.ShapesOk T cfg valid w st n := by
  have hs := tripleConstraint_spec T cfg valid st
  rw [h] at hs
  exact hs.2.value N w n

/-- C95 (part): a statement without a kind of node whose datatypes are none or several accepts exactly the
values it describes. What is missing: statements with exactly one datatype and statements with a kind of
node, for which `C95_datatype_refuted` and `C95_nodetype_refuted` show that it fails. -/
theorem C95_values_partial (st : Statement) (hk : st.nodetype = none) (hd : st.datatypes.length ≠ 1)
    (t : TripleConstraint) (h : tripleConstraint T cfg valid st = .ok t) {N : Type} (w : World N) (n : N) :
    t.AcceptsValue w n ↔ Spec.ValueOk T cfg valid w st n := by
  rw [C95_values T cfg valid st t h w n]
  unfold Spec.ValueOk Spec.KindOk
  rw [hk]
  simp only [hd, false_or, true_and, and_assoc]

/-- Nodes for the examples: an IRI or a literal with its datatype. -/
def exampleWorld : World (Str ⊕ Str) :=
  { iri := fun n => n.elim some fun _ => none
    datatype := fun n => n.elim (fun _ => none) some
    kind := fun n => n.elim (fun _ => .iri) fun _ => .literal
    conforms := fun l n => l = "http://e/S".toList ∧ n = .inl "http://e/x".toList }

/-- A statement with two datatypes and one with a pick list and a shape. -/
def exampleStatements : List Statement :=
  [{ property := ⟨"ex:p".toList, 1⟩, datatypes := [⟨"ex:d1".toList, 1⟩, ⟨"ex:d2".toList, 1⟩] },
   { property := ⟨"ex:q".toList, 2⟩, constraint := some (.picklist [.str "ex:x".toList, .str "ex:y".toList])
     shape := some ⟨"ex:S".toList, 2⟩ }]

example : ∀ st ∈ exampleStatements, st.nodetype = none ∧ st.datatypes.length ≠ 1 ∧
    (tripleConstraint plain exampleConfig (fun _ => true) st).isOk = true := by
  simp only [exampleStatements, List.mem_cons, List.not_mem_nil, or_false, forall_eq_or_imp, forall_eq]
  exact ⟨⟨trivial, by simp, rfl⟩, trivial, by simp, rfl⟩

example : ∃ ds, convert plain exampleConfig (fun _ => true)
    [{ id := some ⟨"ex:A".toList, 1⟩, label := some "a".toList, statements := exampleStatements
       extends_ := [⟨"ex:B".toList, none, 1⟩] }] = .ok ds ∧ ds.map ShexDecl.id = ["http://e/A".toList] :=
  ⟨_, rfl, rfl⟩

/-- C95 fails for one datatype: the literal of another datatype is accepted. -/
theorem C95_datatype_refuted :
    ¬ ∀ (T : Text) (cfg : ShexConfig) (valid : Str → Bool) (st : Statement) (t : TripleConstraint),
      st.nodetype = none → tripleConstraint T cfg valid st = .ok t →
      ∀ (w : World (Str ⊕ Str)) (n : Str ⊕ Str), t.AcceptsValue w n ↔ Spec.ValueOk T cfg valid w st n := by
  intro h
  let st : Statement := { property := ⟨"ex:p".toList, 1⟩, datatypes := [⟨"ex:d1".toList, 1⟩] }
  have h1 := h plain exampleConfig (fun _ => true) st ⟨"http://e/p".toList, none, some 1, none, none⟩ rfl rfl exampleWorld (.inr "http://e/d2".toList)
  have h2 := (C95_values plain exampleConfig (fun _ => true) st
    ⟨"http://e/p".toList, none, some 1, none, none⟩ rfl exampleWorld
    (.inr "http://e/d2".toList)).mpr ⟨Or.inl rfl, Or.inl rfl⟩
  obtain ⟨_, hd, _, _⟩ := h1.mp h2
  rcases hd with hd | ⟨d, hd, i, hi, hw⟩
  · simp [st] at hd
  · have hd' : d = ⟨"ex:d1".toList, 1⟩ := by simpa [st] using hd
    subst hd'
    have hn : Spec.Names exampleConfig (fun _ => true) "ex:d1".toList "http://e/d1".toList :=
      (C93_names exampleConfig (fun _ => true) _ _ 0).mp rfl
    rw [names_unique _ _ hi hn] at hw
    simp [exampleWorld] at hw

/-- C95 fails for kinds of nodes: a statement which asks for a literal accepts an IRI. -/
theorem C95_nodetype_refuted :
    ¬ ∀ (T : Text) (cfg : ShexConfig) (valid : Str → Bool) (st : Statement) (t : TripleConstraint),
      st.datatypes.length ≠ 1 → tripleConstraint T cfg valid st = .ok t →
      ∀ (w : World (Str ⊕ Str)) (n : Str ⊕ Str), t.AcceptsValue w n ↔ Spec.ValueOk T cfg valid w st n := by
  intro h
  let st : Statement := { property := ⟨"ex:p".toList, 1⟩, nodetype := some (.basic .literal) }
  have h1 := h plain exampleConfig (fun _ => true) st ⟨"http://e/p".toList, none, some 1, none, none⟩ (by simp [st]) rfl exampleWorld (.inl "http://e/x".toList)
  have h2 := (C95_values plain exampleConfig (fun _ => true) st
    ⟨"http://e/p".toList, none, some 1, none, none⟩ rfl exampleWorld
    (.inl "http://e/x".toList)).mpr ⟨Or.inr ⟨Or.inl rfl, by intro vs hv; simp [st] at hv⟩, Or.inl rfl⟩
  have := (h1.mp h2).1
  simp [Spec.KindOk, st, exampleWorld] at this

/-- C95 fails for a delimiter of shapes other than whitespace: the cell `A,B` is one name under the delimiter
`,` as it is under any other. -/
theorem C95_delimiter_refuted :
    ¬ ∀ (T : Text) (cfg : ShexConfig) (r : Id) (st : Statement), st.shape = some r →
      Spec.shapeNames T cfg st
        = (r.str.splitOnP fun c => T.ws c || c = cfg.valueShapeDelimiter).filter fun w => w ≠ [] := by
  intro h
  have := h plain { exampleConfig with valueShapeDelimiter := ',' } ⟨"A,B".toList, 1⟩
    { property := ⟨"p".toList, 1⟩, shape := some ⟨"A,B".toList, 1⟩ } rfl
  revert this
  decide +kernel

end Tap
