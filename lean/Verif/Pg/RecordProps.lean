import Verif.Pg.Lemmas

/-!
# Properties: cardinalities, conditions, value types and record types

C42 records, C46 cardinalities, C78 value types, C79 conditions.
-/

namespace Pg

/-- A regular expression engine for the examples: the pattern must be equal to the text. -/
def exExt : Ext := ⟨fun p s => if p = "(" then none else some (decide (p = s))⟩

/-- C42. A record conforms to a record type exactly when every declared key is present with values of its type, and,
if the type is closed, no other key is present. -/
theorem C42_record_conformance (X : Ext) (t : RecordType) (r : Record) :
    Positively (t.conforms X r) ↔
      (∀ k T, t.map.lookup k = some T → ∃ vs, r.lookup k = some vs ∧ Accepts X T vs) ∧
        (t.isOpen = false → ∀ k vs, r.lookup k = some vs → ∃ T, t.map.lookup k = some T) :=
  conforms_record X t r

/-- A closed type rejects a record with one more key, and the same type opened accepts it. -/
example :
    let t := (RecordType.empty.withKeyValue "name" (.stringType .one)).withKeyValue "age" (.integerType .zeroOrOne)
    let r : Record := Record.insertValue (Record.insertValue ∅ "name" (.string "Ann")) "age" (.integer 3)
    Positively (t.conforms exExt r) ∧ ¬ Positively (t.conforms exExt (Record.insertValue r "x" (.bool true))) ∧
      Positively (t.withOpen.conforms exExt (Record.insertValue r "x" (.bool true))) := by
  intro t r
  refine ⟨?_, ?_, ?_⟩ <;> rw [← isRight_iff] <;> decide

/-- C42. An open record type that accepts a record accepts it with any further keys. -/
theorem C42_open_records (X : Ext) (t : RecordType) (r r' : Record) (ho : t.isOpen = true)
    (hr : Positively (t.conforms X r)) (hx : ∀ k vs, r.lookup k = some vs → r'.lookup k = some vs) :
    Positively (t.conforms X r') := by
  rw [conforms_record] at hr ⊢
  refine ⟨fun k T hT => ?_, fun hc => ?_⟩
  · obtain ⟨vs, hvs, ha⟩ := hr.1 k T hT
    exact ⟨vs, hx k vs hvs, ha⟩
  · rw [ho] at hc
    cases hc

example : (RecordType.empty.withOpen).isOpen = true := rfl

/-- C46, refuted. The intersection of two cardinalities may contain a count that is not in both. -/
theorem C46_intersection_refuted :
    ¬ ∀ (a b : Card) (n : Nat), (a.intersection b).contains n = true ↔ Within a n ∧ Within b n := by
  intro h
  have := (h .zeroOrOne .one 0).1 rfl
  exact absurd this.2.1 (by decide)

/-- C46, refuted for ranges too: intersecting with an unbounded range loses the bound. -/
theorem C46_range_intersection_refuted :
    ¬ ∀ (m1 m2 : Nat) (u1 u2 : Max) (n : Nat), ((Card.range m1 u1).intersection (.range m2 u2)).contains n = true ↔
      Within (.range m1 u1) n ∧ Within (.range m2 u2) n := by
  intro h
  have := (h 1 2 .unbounded (.bounded 3) 7).1 rfl
  exact absurd (this.2.2 3 rfl) (by decide)

/-- One cardinality lies inside another. -/
def Inside (a b : Card) : Prop := ∀ n, Within a n → Within b n

/-- C46, the part that holds: every count in both cardinalities is in the intersection. The intersection is exact for
two bounded ranges, for two unbounded ranges, and for other pairs exactly when the cardinality that the code chooses
lies inside the other. Missing: exactness for all pairs, which is refuted above. -/
theorem C46_intersection_partial (a b : Card) :
    (∀ n, Within a n → Within b n → (a.intersection b).contains n = true) ∧
    (∀ m1 m2 u1 u2, a = .range m1 (.bounded u1) → b = .range m2 (.bounded u2) →
      ∀ n, (a.intersection b).contains n = true ↔ Within a n ∧ Within b n) ∧
    (∀ m1 m2, a = .range m1 .unbounded → b = .range m2 .unbounded →
      ∀ n, (a.intersection b).contains n = true ↔ Within a n ∧ Within b n) ∧
    (a.intersection b = a →
      ((∀ n, (a.intersection b).contains n = true ↔ Within a n ∧ Within b n) ↔ Inside a b)) ∧
    (a.intersection b = b →
      ((∀ n, (a.intersection b).contains n = true ↔ Within a n ∧ Within b n) ↔ Inside b a)) := by
  refine ⟨?_, ?_, ?_, ?_, ?_⟩
  · intro n ha hb
    rcases a with _ | _ | _ | _ | ⟨m, _ | u⟩ <;> rcases b with _ | _ | _ | _ | ⟨m', _ | u'⟩ <;>
      simp [Card.intersection, Card.contains, Within, Card.lower, Card.upper, Max.min] at * <;> omega
  · rintro m1 m2 u1 u2 rfl rfl n
    simp [Card.intersection, Card.contains, Within, Card.lower, Card.upper, Max.min]
    omega
  · rintro m1 m2 rfl rfl n
    simp [Card.intersection, Card.contains, Within, Card.lower, Card.upper, Max.min]
  · intro h
    rw [h]
    refine ⟨fun hh n hn => ((hh n).1 ((contains_iff a n).2 hn)).2, fun hi n => ?_⟩
    rw [contains_iff]
    exact ⟨fun hn => ⟨hn, hi n hn⟩, And.left⟩
  · intro h
    rw [h]
    refine ⟨fun hh n hn => ((hh n).1 ((contains_iff b n).2 hn)).1, fun hi n => ?_⟩
    rw [contains_iff]
    exact ⟨fun hn => ⟨hi n hn, hn⟩, And.right⟩

/-- Two ranges that overlap, and a pair where the chosen cardinality is inside the other. -/
example : ((Card.range 1 (.bounded 4)).intersection (.range 2 (.bounded 9))).contains 3 = true ∧
    Card.intersection .one .zeroOrMore = .one ∧ Inside .one .zeroOrMore := by
  refine ⟨by decide, rfl, fun n _ => ⟨Nat.zero_le _, fun u hu => by cases hu⟩⟩

/-- C78. A set of values conforms to a simple type exactly when its size is within the cardinality and every value is
of the kind; to an intersection when it conforms to both; to a union when it conforms to one; to a condition when every
value meets it and every part of the condition can be asked of it; to `ANY` always. -/
theorem C78_value_types (X : Ext) (t : ValueType) (vs : Finset Value) :
    Positively (t.conforms X vs) ↔ Accepts X t vs :=
  conforms_value X t vs

example :
    let t := ValueType.intersection (.integerType (.range 1 (.bounded 2))) (.cond (.greaterThan (.integer 0)))
    Positively (t.conforms exExt {.integer 3, .integer 7}) ∧ ¬ Positively (t.conforms exExt {.integer 3, .integer (-7)})
      ∧ ¬ Positively (t.conforms exExt ∅) := by
  intro t
  refine ⟨?_, ?_, ?_⟩ <;> rw [← isRight_iff] <;> decide

/-- C79, refuted. A value may meet a condition as a proposition and be rejected: an operand of `OR` that does not apply
to the value makes the whole condition fail. -/
theorem C79_conditions_refuted :
    ¬ ∀ (X : Ext) (e : BExpr) (v : Value), e.check X v = some true ↔ Meets X e v := by
  intro h
  have := (h exExt (.or (.equals (.string "none")) (.greaterThan (.integer 5))) (.string "none")).2 (Or.inl rfl)
  exact absurd this (by decide)

/-- C79, the part that holds: a condition whose parts all apply to the value is answered, and the answer is its
truth; a condition some part of which does not apply is an error; and no value is accepted that does not meet the
condition. Missing: acceptance of values that meet a condition some part of which does not apply. -/
theorem C79_conditions_partial (X : Ext) (e : BExpr) (v : Value) :
    (Applicable X e v → ((e.check X v = some true ↔ Meets X e v) ∧ (e.check X v = some false ↔ ¬ Meets X e v))) ∧
    (e.check X v = none ↔ ¬ Applicable X e v) ∧
    (e.check X v = some true → Meets X e v) := by
  refine ⟨fun ha => ?_, ⟨fun hn ha => ?_, fun hn => ?_⟩, fun h => ((check_true_iff X e v).1 h).2⟩
  · obtain ⟨b, hb, hb'⟩ := check_some X e v ha
    rw [hb]
    cases b <;> simp_all
  · obtain ⟨b, hb, _⟩ := check_some X e v ha
    rw [hn] at hb
    cases hb
  · cases hc : e.check X v with
    | none => rfl
    | some b => exact (hn (check_applicable X e v b hc)).elim

example : Applicable exExt (.or (.lessThan (.integer 5)) (.not (.equals (.integer 9)))) (.integer 9) ∧
    (BExpr.or (.lessThan (.integer 5)) (.not (.equals (.integer 9)))).check exExt (.integer 9) = some false := by
  refine ⟨⟨trivial, trivial⟩, by decide⟩

end Pg
