import Verif.Shex.PropsExtends
import Verif.Shex.LemmasConj

/-!
# Properties: parents with arbitrary constraints and conjunctions as parents (C52, C53)
-/

namespace Shex
open Rbe

section
variable {N P : Type}

/-- **C53** (constraints and scopes). In a schema whose references, operands and parents are not cyclic,
each alternative of a parent carries the buckets, the constraints and the scopes of one choice of branch
for every disjunction met, and every choice is carried by an alternative. -/
theorem C53_constraints (sch : Schema N P) (rank : Nat → Nat) (hg : Grounded sch rank)
    (hne : NoEmptyOr sch) (i : Nat) :
    (∀ a ∈ sch.alternatives i, ∃ B K R, Picks sch i B K R ∧ Carries a B K R) ∧
      ∀ B K R, Picks sch i B K R → ∃ a ∈ sch.alternatives i, Carries a B K R :=
  altsRec_depicts hg hne _ [] i List.nodup_nil (by simp) (by simp)

end

section
variable {N P : Type} [DecidableEq N] [DecidableEq P]

/-- **C52** (several alternatives, any constraint). The equations for what the node meets as a whole
have exactly one solution; and when some parent has several alternatives, a shape holds exactly when for
one alternative of each parent the neighbourhood can be shared out and the node meets, as a whole, the
constraints that are not read triple by triple. -/
theorem C52_any_constraint (E : Env N P) (he : Enumerates E.enum) (hsh : E.Shuffles)
    (S : Search N P) (hS : S.Fair) (hr : Regular E.schema) (rank : Nat → Nat)
    (hl : Layered E.schema rank) (hne : NoEmptyOr E.schema) (n : Nat) (node : N) (T : N × Nat → Bool) :
    (∃ V, Whole E (fun x => T x = true) node (fun i s => E.checkExtends S n node i s T = true) V ∧
      ∀ V', Whole E (fun x => T x = true) node (fun i s => E.checkExtends S n node i s T = true) V' →
        ∀ i, V' i ↔ V i) ∧
    ∀ V, Whole E (fun x => T x = true) node (fun i s => E.checkExtends S n node i s T = true) V →
      ∀ i s, E.schema.At i (.shape s) → (∃ e ∈ s.extends, (E.schema.alternatives e).length > 1) →
        (E.checkExtends S (n + 1) node i s T = true ↔
          ∃ choice, Choice (s.extends.map E.schema.alternatives) choice ∧
            SelectionMeets E (fun x => T x = true) node s (mergeAll choice) V) := by
  have hw := whole_check he hsh hr hl (E.checkExtends S n) node T
  refine ⟨⟨_, hw, fun V' hV' => whole_unique hl hV' hw⟩, fun V hV i s hi hseveral => ?_⟩
  simp only [Env.checkExtends]
  rw [if_pos (by simpa using hseveral)]
  obtain ⟨v, tried, h1, _, h3, _⟩ := C26_every_combination
    (E.checkSelection S (E.checkExtends S n) node s T) (s.extends.map E.schema.alternatives) (by
      intro alts ha
      obtain ⟨e, _, rfl⟩ := List.mem_map.1 ha
      exact C26_alternatives_nonempty _ hne e)
  rw [h1]
  simp only [Option.map_some, Option.getD_some]
  rw [h3]
  refine exists_congr fun choice => and_congr_right fun _ => ?_
  exact checkSelection_meets he hsh hS hr hl ⟨(hr i s hi).made, (hr i s hi).wf, (hr i s hi).flat⟩
    (C26_merge choice).1 _ node T hV

/-- **C52** (one alternative per parent, conjunctions as parents), the part that holds. A shape that
passes lets the neighbourhood be shared out among it and the main shapes of its ancestors, the node meets
the node constraints of every ancestor, and the shapes and references beside the main shape take the
share of the ancestor and of what it extends. Missing: the converse, and the conjuncts that are neither
shapes, node constraints nor references, for which the claim is false of the code
(`C52_refuted_conjunction`, `C52_refuted_ignored`). -/
theorem C52_conjunction_parents_partial (E : Env N P) (he : Enumerates E.enum) (hsh : E.Shuffles)
    (S : Search N P) (hS : S.Fair) (rank : Nat → Nat) (hl : Layered E.schema rank)
    (hk : (E.schema.shapes.map Prod.fst).Nodup)
    (hp : ∀ i s, E.schema.At i (.shape s) → Plain s.expr)
    (i : Nat) (s : Shape N P) (hi : E.schema.At i (.shape s))
    (hone : ∀ e ∈ s.extends, (E.schema.alternatives e).length ≤ 1)
    (n : Nat) (node : N) (T : N × Nat → Bool)
    (h : E.checkExtends S (n + 1) node i s T = true) :
    LineMeets E (fun x => T x = true) node i s := by
  simp only [Env.checkExtends] at h
  rw [if_neg (by simpa using hone)] at h
  exact checkSingle_meets he hsh hS hl hk hp hi node T h

end

/-! ## Cases -/

/-- What a bounded search accepts on the path for single alternatives, a fair one accepts. -/
theorem exSingle_fair {S : Search Nat Nat} (hS : S.Fair) (hb : S.bucketOrder = fun l => l)
    (hc : S.classOrder = fun l => l) (n : Nat) (E : Env Nat Nat) (node i : Nat)
    (s : Shape Nat Nat) (T : Nat × Nat → Bool)
    (h : E.checkSingle (exSearch n) node i s T = true) : E.checkSingle S node i s T = true := by
  have key : ∀ bs sp vs, searchPartitions (exSearch n) E.enum bs sp vs T = true →
      searchPartitions S E.enum bs sp vs T = true := by
    intro bs sp vs h
    have hf := hS.turns (bs.map Prod.snd) vs
    simp only [searchPartitions, exSearch, hb, hc] at h hf ⊢
    cases h1 : Part.drain Part.CIter.step n (Part.classPartitions (fun l => l) (bs.map Prod.snd) vs) with
    | none => rw [h1] at h; cases h
    | some o =>
      cases h2 : Part.drain Part.CIter.step (S.turns (bs.map Prod.snd) vs)
          (Part.classPartitions (fun l => l) (bs.map Prod.snd) vs) with
      | none => exact absurd h2 hf
      | some o' =>
        rw [h1] at h
        rw [(Part.drains_of_drain h2).unique (Part.drains_of_drain h1)]
        exact h
  unfold Env.checkSingle at h ⊢
  simp only at h ⊢
  split at h
  · cases h
  · rename_i h1
    rw [if_neg h1]
    cases h2 : E.ancestorBuckets node (E.schema.extendsClosure s.extends) with
    | none => rw [h2] at h; cases h
    | some r =>
      rw [h2] at h
      simp only at h ⊢
      split at h
      · cases h
      · rename_i h3
        rw [if_neg h3]
        split at h
        · cases h
        · rename_i h4
          rw [if_neg h4]
          exact key _ _ _ h

/-- `<0> { :1 [1] }`, `<1>` accepts every node, `<2> NOT <1>`, `<3> @<0> AND <2>`,
`<4> EXTENDS @<3> { :3 . * }`, `<5> @<0> OR @<3>`, `<6> EXTENDS @<5> { :3 . * }`. -/
def exIgnored : Env Nat Nat :=
  exEnv [(0, .shape (exShape 1 (exVal 1) 1 (.intMax 1) [])), (1, .nodeConstraint exAny), (2, .not 1),
    (3, .and [0, 2]), (4, .shape (exKid 3 exAny 0 .unbounded [3])), (5, .or [0, 3]),
    (6, .shape (exKid 3 exAny 0 .unbounded [5]))]
    [(10, 1, 1), (10, 3, 7)]

theorem exIgnored_cases (i : Nat) (se : ShapeExpr Nat Nat) (h : exIgnored.schema.At i se) :
    (i = 0 ∧ se = .shape (exShape 1 (exVal 1) 1 (.intMax 1) [])) ∨
      (i = 1 ∧ se = .nodeConstraint exAny) ∨ (i = 2 ∧ se = .not 1) ∨ (i = 3 ∧ se = .and [0, 2]) ∨
      (i = 4 ∧ se = .shape (exKid 3 exAny 0 .unbounded [3])) ∨ (i = 5 ∧ se = .or [0, 3]) ∨
      (i = 6 ∧ se = .shape (exKid 3 exAny 0 .unbounded [5])) := by
  have := mem_of_alookup h
  simpa [exIgnored, exEnv] using this

theorem exIgnored_layered : Layered exIgnored.schema (fun i => i) where
  grounded :=
    { ref := by
        intro i j h
        rcases exIgnored_cases i _ h with ⟨_, h⟩ | ⟨_, h⟩ | ⟨_, h⟩ | ⟨_, h⟩ | ⟨_, h⟩ | ⟨_, h⟩ | ⟨_, h⟩ <;>
          cases h
      or := by
        intro i es h e he
        rcases exIgnored_cases i _ h with ⟨_, h⟩ | ⟨_, h⟩ | ⟨_, h⟩ | ⟨_, h⟩ | ⟨_, h⟩ | ⟨hi, h⟩ | ⟨_, h⟩ <;>
          cases h
        simp only [List.mem_cons, List.not_mem_nil, or_false] at he
        omega
      and := by
        intro i es h e he
        rcases exIgnored_cases i _ h with ⟨_, h⟩ | ⟨_, h⟩ | ⟨_, h⟩ | ⟨hi, h⟩ | ⟨_, h⟩ | ⟨_, h⟩ | ⟨_, h⟩ <;>
          cases h
        simp only [List.mem_cons, List.not_mem_nil, or_false] at he
        omega
      shape := by
        intro i s h e he
        rcases exIgnored_cases i _ h with ⟨_, h⟩ | ⟨_, h⟩ | ⟨_, h⟩ | ⟨_, h⟩ | ⟨hi, h⟩ | ⟨_, h⟩ | ⟨hi, h⟩ <;>
          cases h
        · simp [exShape] at he
        all_goals
          simp only [exKid, List.mem_singleton] at he
          omega }
  not := by
    intro i e h
    rcases exIgnored_cases i _ h with ⟨_, h⟩ | ⟨_, h⟩ | ⟨hi, h⟩ | ⟨_, h⟩ | ⟨_, h⟩ | ⟨_, h⟩ | ⟨_, h⟩ <;>
      cases h
    omega

theorem exIgnored_plain (i : Nat) (s : Shape Nat Nat) (h : exIgnored.schema.At i (.shape s)) :
    Plain s.expr := by
  rcases exIgnored_cases i _ h with ⟨_, h⟩ | ⟨_, h⟩ | ⟨_, h⟩ | ⟨_, h⟩ | ⟨_, h⟩ | ⟨_, h⟩ | ⟨_, h⟩ <;>
    cases h <;> exact exOne_plain _ _ _ _

theorem exIgnored_noEmpty : NoEmptyOr exIgnored.schema := by
  intro i es h
  rcases exIgnored_cases i _ h with ⟨_, h⟩ | ⟨_, h⟩ | ⟨_, h⟩ | ⟨_, h⟩ | ⟨_, h⟩ | ⟨_, h⟩ | ⟨_, h⟩ <;>
    cases h
  simp

theorem exIgnored_two {T : Nat × Nat → Prop} {node : Nat} {parents : Nat → Shape Nat Nat → Prop}
    {V : Nat → Prop} (hV : Whole exIgnored T node parents V) : ¬ V 2 := by
  intro h2
  have h1 : V 1 := by
    rw [hV 1]
    intro se hse
    rcases exIgnored_cases 1 _ hse with ⟨h, _⟩ | ⟨_, rfl⟩ | ⟨h, _⟩ | ⟨h, _⟩ | ⟨h, _⟩ | ⟨h, _⟩ | ⟨h, _⟩
    all_goals first | cases h | skip
    exact (matches_isSome node (node, none) exAny).1 (by simp [exAny, Cond.matches])
  exact ((hV 2).1 h2 (.not 1) rfl) h1

/-- **C52** is false of the code for a parent that is a conjunction with a negation: the negation is not
looked at, so a node is accepted although it fails the parent. The path for several alternatives asks
for it. -/
theorem C52_refuted_ignored :
    Layered exIgnored.schema (fun i => i) ∧
      (∀ i s, exIgnored.schema.At i (.shape s) → Plain s.expr) ∧
      (∀ T parents V, Whole exIgnored T 10 parents V →
        ¬ ∃ choice, Choice ((exKid 3 exAny 0 .unbounded [3]).extends.map exIgnored.schema.alternatives)
            choice ∧
          SelectionMeets exIgnored T 10 (exKid 3 exAny 0 .unbounded [3]) (mergeAll choice) V) ∧
      ∃ S : Search Nat Nat, S.Fair ∧ ∀ n, exIgnored.checkExtends S (n + 1) 10 4
        (exKid 3 exAny 0 .unbounded [3]) (fun _ => false) = true := by
  refine ⟨exIgnored_layered, exIgnored_plain, ?_, ?_⟩
  · rintro T parents V hV ⟨choice, hch, hm, _⟩
    have halt : exIgnored.schema.alternatives 3 = [⟨[0], [(2, [0])]⟩] := by decide
    have : choice = [⟨[0], [(2, [0])]⟩] := by
      simp only [exKid, List.map_cons, List.map_nil, halt] at hch
      cases hch with
      | cons h hs => cases hs; rw [List.mem_singleton.1 h]
    subst this
    refine exIgnored_two hV (hm (2, [0]) (by decide) ?_)
    intro hf
    cases hf with
    | shape h => cases h
    | nodeConstraint h => cases h
    | ref h => cases h
    | and h => cases h
  · obtain ⟨S, hS, hb, hc⟩ := exFair_exists
    refine ⟨S, hS, fun n => ?_⟩
    have hone : ((exKid 3 exAny 0 .unbounded [3]).extends.map exIgnored.schema.alternatives).any
        (fun alts => decide (alts.length > 1)) = false := by decide
    simp only [Env.checkExtends, hone, Bool.false_eq_true, if_false]
    exact exSingle_fair hS hb hc 50 exIgnored 10 4 _ _ (by decide)

/-- C52 (any constraint) and C53 (constraints) apply to the shape with two alternatives: the first
branch lets node 10 pass; the second asks for the negation, which fails. -/
example : Layered exIgnored.schema (fun i => i) ∧ NoEmptyOr exIgnored.schema ∧
    exIgnored.schema.At 6 (.shape (exKid 3 exAny 0 .unbounded [5])) ∧
    exIgnored.schema.alternatives 5 = [⟨[0], []⟩, ⟨[0], [(2, [0])]⟩] ∧
    exIgnored.checkExtends (exSearch 50) 3 10 6 (exKid 3 exAny 0 .unbounded [5]) (fun _ => false) = true ∧
    exIgnored.checkSelection (exSearch 50) (exIgnored.checkExtends (exSearch 50) 2) 10
      (exKid 3 exAny 0 .unbounded [5]) (fun _ => false) ⟨[0], [(2, [0])]⟩ = false :=
  ⟨exIgnored_layered, exIgnored_noEmpty, rfl, by decide, by decide, by decide⟩

/-- The regularity asked for holds. -/
example : Regular exIgnored.schema := by
  intro i s h
  rcases exIgnored_cases i _ h with ⟨_, h⟩ | ⟨_, h⟩ | ⟨_, h⟩ | ⟨_, h⟩ | ⟨_, h⟩ | ⟨_, h⟩ | ⟨_, h⟩ <;>
    cases h
  · exact exShape_exact _ _ _ _ _
  all_goals
    have := exShape_exact 3 exAny 0 .unbounded []
    exact ⟨this.made, this.wf, this.flat, this.one, this.some⟩

/-- `<0> { :1 [1] }`, `<2> { :1 [1 2] }`, `<3> [10]`, `<4> <0> AND <2> AND <3>`,
`<5> EXTENDS @<4> { :3 . * }`. -/
def exLine : Env Nat Nat :=
  exEnv [(0, .shape (exShape 1 (exVal 1) 1 (.intMax 1) [])), (2, .shape (exShape 1 exTwo 1 (.intMax 1) [])),
    (3, .nodeConstraint (exVal 10)), (4, .and [0, 2, 3]),
    (5, .shape (exKid 3 exAny 0 .unbounded [4]))]
    [(10, 1, 1), (11, 1, 1), (12, 1, 3)]

theorem exLine_cases (i : Nat) (se : ShapeExpr Nat Nat) (h : exLine.schema.At i se) :
    (i = 0 ∧ se = .shape (exShape 1 (exVal 1) 1 (.intMax 1) [])) ∨
      (i = 2 ∧ se = .shape (exShape 1 exTwo 1 (.intMax 1) [])) ∨
      (i = 3 ∧ se = .nodeConstraint (exVal 10)) ∨ (i = 4 ∧ se = .and [0, 2, 3]) ∨
      (i = 5 ∧ se = .shape (exKid 3 exAny 0 .unbounded [4])) := by
  have := mem_of_alookup h
  simpa [exLine, exEnv] using this

/-- C52 (conjunctions as parents) applies: node 10 passes, node 11 fails the node constraint, node 12
has another value. -/
example : Layered exLine.schema (fun i => i) ∧ (exLine.schema.shapes.map Prod.fst).Nodup ∧
    (∀ i s, exLine.schema.At i (.shape s) → Plain s.expr) ∧
    (∀ e ∈ (exKid 3 exAny 0 .unbounded [4]).extends, (exLine.schema.alternatives e).length ≤ 1) ∧
    exLine.checkExtends (exSearch 50) 1 10 5 (exKid 3 exAny 0 .unbounded [4]) (fun _ => false) = true ∧
    exLine.checkExtends (exSearch 50) 1 11 5 (exKid 3 exAny 0 .unbounded [4]) (fun _ => false) = false ∧
    exLine.checkExtends (exSearch 50) 1 12 5 (exKid 3 exAny 0 .unbounded [4]) (fun _ => false) = false := by
  refine ⟨⟨⟨?_, ?_, ?_, ?_⟩, ?_⟩, by decide, ?_, by decide, by decide, by decide, by decide⟩
  · intro i j h
    rcases exLine_cases i _ h with ⟨_, h⟩ | ⟨_, h⟩ | ⟨_, h⟩ | ⟨_, h⟩ | ⟨_, h⟩ <;> cases h
  · intro i j h
    rcases exLine_cases i _ h with ⟨_, h⟩ | ⟨_, h⟩ | ⟨_, h⟩ | ⟨_, h⟩ | ⟨_, h⟩ <;> cases h
  · intro i es h e he
    rcases exLine_cases i _ h with ⟨_, h⟩ | ⟨_, h⟩ | ⟨_, h⟩ | ⟨hi, h⟩ | ⟨_, h⟩ <;> cases h
    simp only [List.mem_cons, List.not_mem_nil, or_false] at he
    omega
  · intro i s h e he
    rcases exLine_cases i _ h with ⟨_, h⟩ | ⟨_, h⟩ | ⟨_, h⟩ | ⟨_, h⟩ | ⟨hi, h⟩ <;> cases h
    · simp [exShape] at he
    · simp [exShape] at he
    · simp only [exKid, List.mem_singleton] at he
      omega
  · intro i j h
    rcases exLine_cases i _ h with ⟨_, h⟩ | ⟨_, h⟩ | ⟨_, h⟩ | ⟨_, h⟩ | ⟨_, h⟩ <;> cases h
  · intro i s h
    rcases exLine_cases i _ h with ⟨_, h⟩ | ⟨_, h⟩ | ⟨_, h⟩ | ⟨_, h⟩ | ⟨_, h⟩ <;> cases h <;>
      exact exOne_plain _ _ _ _

#print axioms C53_constraints
#print axioms C52_any_constraint
#print axioms C52_conjunction_parents_partial
#print axioms C52_refuted_ignored

end Shex
