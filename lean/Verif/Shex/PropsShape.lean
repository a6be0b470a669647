import Verif.Shex.LemmasShape
import Verif.Shex.PropsEngine
import Mathlib.Data.List.ProdSigma
import Mathlib.Data.List.Forall2

/-!
# Properties C20–C23, C25 and C51 of schemas

The engine of `Shex/PropsEngine.lean` run on a schema and a data graph.
-/

namespace Shex
open Rbe

variable {N P : Type} [DecidableEq N] [DecidableEq P]

/-! ## C20 -/

/-- **C20** (schemas without negation). Validating a node against a shape succeeds exactly when the
pair belongs to the greatest typing of the schema. -/
theorem C20_schema_greatest (E : Env N P) (hk : (E.schema.shapes.map Prod.fst).Nodup)
    (hsh : E.Shuffles) (he : Enumerates E.enum) (hp : PlainRefs E.schema) (hr : Regular E.schema)
    (hni : NoInheritance E.schema) (hpos : Positive E.schema) (ext : Ext N P)
    (order : Nat → List (N × Nat) → List (N × Nat)) (ho : SameElements (E.sys ext order))
    (n : Nat) (x : N × Nat) (b : Bool) (s' : St (N × Nat))
    (h : prove (E.sys ext order) n x [] St.init = .ok (b, s')) :
    b = true ↔ GreatestTyping E x := by
  have hres : Respects E.schema (fun _ => 0) := ⟨fun _ _ _ => Nat.le_refl _, fun i j hn => (hpos i j hn).elim⟩
  have R := sys_ranked hk hsh hp (extRespects_of_none hni ext) hres order
  have hm : Monotone (E.sys ext order) := fun x ds hd T T' hT =>
    R.mono x ds hd T T' (fun y _ hlt => (Nat.lt_irrefl _ hlt).elim) (fun y hy _ => hT y hy)
  rw [C20_prove_iff_greatest (E.sys ext order) hm ho n x b s' h]
  unfold Greatest GreatestTyping
  simp only [holds_sys_iff he hsh hk hr hni]

/-- **C20** (stratified negation). When no shape depends on itself through a negation, a ranking of
the shapes exists; for every ranking there is exactly one stratified typing, and validation succeeds
exactly on its pairs. -/
theorem C20_schema_stratified (E : Env N P) (hk : (E.schema.shapes.map Prod.fst).Nodup)
    (hsh : E.Shuffles) (he : Enumerates E.enum) (hp : PlainRefs E.schema) (hr : Regular E.schema)
    (hni : NoInheritance E.schema) (hneg : NoNegCycle E.schema) (ext : Ext N P)
    (order : Nat → List (N × Nat) → List (N × Nat)) (ho : SameElements (E.sys ext order)) :
    (∃ rank, Respects E.schema rank) ∧ ∀ rank, Respects E.schema rank →
      ∃ W, StratifiedTyping E rank W ∧
        (∀ W', StratifiedTyping E rank W' → ∀ x, W' x ↔ W x) ∧
        ∀ n x b s', prove (E.sys ext order) n x [] St.init = .ok (b, s') → (b = true ↔ W x) := by
  refine ⟨respects_exists hneg, fun rank hres => ?_⟩
  have R := sys_ranked hk hsh hp (extRespects_of_none hni ext) hres order
  obtain ⟨W, h1, h2, h3⟩ := C20_prove_iff_stratified (E.sys ext order) _ R ho
  have key : ∀ V, Stratified (E.sys ext order) (fun x => rank x.2) V ↔ StratifiedTyping E rank V := by
    intro V
    unfold Stratified StratifiedTyping
    simp only [holds_sys_iff he hsh hk hr hni]
  exact ⟨W, (key W).1 h1, fun W' h' => h2 W' ((key W').2 h'), h3⟩

/-! ## C21 -/

/-- **C21** (schemas). In a sequence of queries every verdict is the one a fresh engine gives to that
query alone, for schemas with stratified negation, whatever the iteration orders. -/
theorem C21_schema_history_independent (E : Env N P) (hk : (E.schema.shapes.map Prod.fst).Nodup)
    (hsh : E.Shuffles) (hp : PlainRefs E.schema) (hneg : NoNegCycle E.schema) (ext : Ext N P)
    (hx : ExtRespects E ext) (order order' : Nat → List (N × Nat) → List (N × Nat))
    (ho : SameElements (E.sys ext order)) (ho' : SameElements (E.sys ext order'))
    (n : Nat) (xs : List (N × Nat)) (bs : List Bool) (s' : St (N × Nat))
    (h : queries (E.sys ext order) n xs St.init = .ok (bs, s')) :
    List.Forall₂ (fun x b => ∀ m b' s'',
      prove (E.sys ext order') m x [] St.init = .ok (b', s'') → b' = b) xs bs := by
  obtain ⟨rank, hres⟩ := respects_exists hneg
  exact C21_history_independent (E.sys ext order) _ (sys_ranked hk hsh hp hx hres order) ho order' ho'
    n xs bs s' h

/-! ## C22 -/

/-- The terms of a graph. -/
def Graph.terms (g : Graph N P) : List N := g.triples.map (·.1) ++ g.triples.map (·.2.2)

/-- **C22** (schemas) for acyclic inheritance: validating a node comes back within a recursion depth
of (terms of the graph + 1) × (shape indices) × (height of the hierarchy + 1). The full statement,
for every hierarchy, is false: `C22_cyclic_extends_diverges`. -/
theorem C22_schema_terminates_partial (E : Env N P) (hk : (E.schema.shapes.map Prod.fst).Nodup)
    (hsh : E.Shuffles) (hm : ∀ i s, E.schema.At i (.shape s) → s.expr.Made)
    (idx : List Nat) (hidx : ∀ i ∈ idx, ∀ j, Uses E.schema i j ∨ Negates E.schema i j → j ∈ idx)
    (height : Nat → Nat) (h : Nat) (hh : ∀ i ∈ idx, height i ≤ h)
    (hac : ∀ i s e, E.schema.At i (.shape s) → e ∈ s.extends → height i < height e)
    (ext : Ext N P) (order : Nat → List (N × Nat) → List (N × Nat))
    (ho : SameElements (E.sys ext order)) (node : N) (i : Nat) (hi : i ∈ idx)
    (s : St (N × Nat)) :
    prove (E.sys ext order) ((E.graph.terms.length + 1) * idx.length * (h + 1)) (node, i) [] s ≠
      .fuel := by
  have hreach : ∀ i j, i ∈ idx → DependsOn E.schema i j → j ∈ idx := by
    intro i j hi hd
    unfold DependsOn at hd
    induction hd with
    | refl => exact hi
    | tail _ h ih => exact hidx _ ih _ h
  have hU : Closed (E.sys ext order) ((node :: E.graph.terms) ×ˢ idx) := by
    rintro ⟨v, k⟩ hvk
    rw [List.mem_product] at hvk
    refine ⟨fun ds hds y hy => ?_, fun y hy => ?_⟩
    · rw [List.mem_product]
      refine ⟨?_, hreach k y.2 hvk.2 (dep_sound hm (v, k) ds hds y hy)⟩
      simp only [Env.sys, Env.dep] at hds
      split at hds
      · cases hds
      · simp only [Option.some.injEq] at hds
        subst hds
        rw [List.mem_append] at hy
        rcases hy with hy | hy
        · obtain ⟨j, _, rfl⟩ := List.mem_map.1 hy
          exact hvk.1
        · simp only [List.mem_flatMap, List.mem_map] at hy
          obtain ⟨a, ha, r, _, rfl⟩ := hy
          have := ((mem_neighs hsh _ _ a.1 a.2).1 ha).1
          refine List.mem_cons_of_mem _ ?_
          simp only [Graph.terms, List.mem_append, List.mem_map]
          rcases this with ⟨_, _, ht⟩ | ⟨_, ht⟩
          · exact Or.inr ⟨_, ht, rfl⟩
          · exact Or.inl ⟨_, ht, rfl⟩
    · simp only [Env.sys, List.mem_map] at hy
      obtain ⟨d, hd, rfl⟩ := hy
      rw [List.mem_product]
      exact ⟨hvk.1, hreach k d hvk.2 (dependsOn_of_extends hk (descendants_sound _ _ _ hd))⟩
  have hA : Acyclic (E.sys ext order) ((node :: E.graph.terms) ×ˢ idx) h := by
    refine ⟨fun x => height x.2, fun x hx => hh _ (List.mem_product.1 hx).2, fun x _ y hy => ?_⟩
    simp only [Env.sys, List.mem_map] at hy
    obtain ⟨d, hd, rfl⟩ := hy
    have hext := descendants_sound _ _ _ hd
    unfold Extends at hext
    show height d < height x.2
    clear hd
    generalize x.2 = k at hext
    induction hext with
    | single h =>
      obtain ⟨s, hm, he⟩ := h
      exact hac _ s _ (alookup_mem hk hm) he
    | tail _ h ih =>
      obtain ⟨s, hm, he⟩ := h
      exact Nat.lt_trans ih (hac _ s _ (alookup_mem hk hm) he)
  have := C22_terminates_partial (E.sys ext order) _ hU ho h hA (node, i)
    (List.mem_product.2 ⟨by simp, hi⟩) [] s
  rwa [List.length_product, List.length_cons] at this

/-! ## C23 -/

theorem truth_of_fix (sch : Schema N P) (L : Nat → Prop)
    (hand : ∀ i es, sch.At i (.and es) → (L i ↔ ∀ e ∈ es, L e))
    (hor : ∀ i es, sch.At i (.or es) → (L i ↔ ∃ e ∈ es, L e))
    (hnot : ∀ i e, sch.At i (.not e) → (L i ↔ ¬ L e))
    (href : ∀ i e, sch.At i (.ref e) → (L i ↔ L e)) (i : Nat) (f : Formula) (h : Writes sch i f) :
    L i ↔ f.Truth L := by
  refine Writes.rec (motive_1 := fun i f _ => L i ↔ f.Truth L)
    (motive_2 := fun es fs _ => ((∀ e ∈ es, L e) ↔ Formula.TruthAll L fs) ∧
      ((∃ e ∈ es, L e) ↔ Formula.TruthSome L fs)) ?_ ?_ ?_ ?_ ?_ ?_ ?_ h
  · intro i; simp [Formula.Truth]
  · intro i j f h _ ih; rw [href i j h, ih]
  · intro i es fs h _ ih; rw [hand i es h, ih.1]; simp [Formula.Truth]
  · intro i es fs h _ ih; rw [hor i es h, ih.2]; simp [Formula.Truth]
  · intro i j f h _ ih; rw [hnot i j h, ih]; simp [Formula.Truth]
  · simp [Formula.TruthAll, Formula.TruthSome]
  · intro e es f fs _ _ ih1 ih2
    simp [Formula.TruthAll, Formula.TruthSome, ih1, ih2.1, ih2.2]

/-- **C23**. The verdict for a boolean combination, however nested, is the truth of the combination
of the verdicts for its leaves. -/
theorem C23_boolean_combinations (E : Env N P) (hk : (E.schema.shapes.map Prod.fst).Nodup)
    (hsh : E.Shuffles) (hp : PlainRefs E.schema) (hneg : NoNegCycle E.schema) (ext : Ext N P)
    (hx : ExtRespects E ext) (hab : E.schema.abstr = [])
    (order : Nat → List (N × Nat) → List (N × Nat)) (ho : SameElements (E.sys ext order))
    (hnd : ∀ i se, E.schema.At i se → (∀ s, se ≠ .shape s) → E.schema.descendants i = [])
    (node : N) (i : Nat) (f : Formula) (hf : Writes E.schema i f)
    (verdict : Nat → Bool)
    (hv : ∀ j, DependsOn E.schema i j →
      ∃ n s', prove (E.sys ext order) n (node, j) [] St.init = .ok (verdict j, s')) :
    verdict i = true ↔ f.Truth fun j => verdict j = true := by
  classical
  obtain ⟨rank, hres⟩ := respects_exists hneg
  have R := sys_ranked hk hsh hp hx hres order
  obtain ⟨W, hW, _, hpr⟩ := C20_prove_iff_stratified (E.sys ext order) _ R ho
  have hvW : ∀ j, DependsOn E.schema i j → (verdict j = true ↔ W (node, j)) := by
    intro j hj
    obtain ⟨n, s', h⟩ := hv j hj
    exact hpr n (node, j) _ s' h
  have hfix := strat_fix R hW
  have hex : ∀ j se, E.schema.At j se → (∀ s, se ≠ .shape s) →
      (W (node, j) ↔ E.checkExpr ext node j se (fun y => decide (W y)) = true) := by
    intro j se hj hns
    rw [hfix (node, j)]
    have hj' : E.schema.find j = some se := hj
    unfold Holds
    simp only [Env.sys, hnd j se hj hns, List.map_nil, List.not_mem_nil, false_and, exists_false,
      or_false, Schema.isAbstract, hab, decide_false, true_and, hj', Option.map_some,
      Option.some.injEq]
    constructor
    · rintro ⟨_, h⟩
      convert h
    · intro h
      refine ⟨by simp [Env.dep, hj'], ?_⟩
      convert h
  have key := truth_of_fix E.schema (fun j => W (node, j))
    (fun j es hj => by rw [hex j _ hj (by simp)]; simp [Env.checkExpr])
    (fun j es hj => by rw [hex j _ hj (by simp)]; simp [Env.checkExpr])
    (fun j e hj => by rw [hex j _ hj (by simp)]; simp [Env.checkExpr])
    (fun j e hj => by rw [hex j _ hj (by simp)]; simp [Env.checkExpr]) i f hf
  rw [hvW i Relation.ReflTransGen.refl, key]
  -- the leaves are among the shapes `i` depends on
  have hcongr : ∀ i f, Writes E.schema i f → (∀ j, DependsOn E.schema i j → (verdict j = true ↔ W (node, j))) →
      (f.Truth (fun j => W (node, j)) ↔ f.Truth fun j => verdict j = true) := by
    intro i f h
    refine Writes.rec (motive_1 := fun i f _ =>
        (∀ j, DependsOn E.schema i j → (verdict j = true ↔ W (node, j))) →
        (f.Truth (fun j => W (node, j)) ↔ f.Truth fun j => verdict j = true))
      (motive_2 := fun es fs _ =>
        (∀ e ∈ es, ∀ j, DependsOn E.schema e j → (verdict j = true ↔ W (node, j))) →
        (Formula.TruthAll (fun j => W (node, j)) fs ↔ Formula.TruthAll (fun j => verdict j = true) fs) ∧
        (Formula.TruthSome (fun j => W (node, j)) fs ↔
          Formula.TruthSome (fun j => verdict j = true) fs)) ?_ ?_ ?_ ?_ ?_ ?_ ?_ h
    · intro i hd; simp only [Formula.Truth]; exact (hd i Relation.ReflTransGen.refl).symm
    · intro i j f h _ ih hd
      exact ih fun k hkk => hd k (Relation.ReflTransGen.head (Or.inl (.ref h)) hkk)
    · intro i es fs h _ ih hd
      simp only [Formula.Truth]
      exact (ih fun e he k hkk => hd k (Relation.ReflTransGen.head (Or.inl (.and h he)) hkk)).1
    · intro i es fs h _ ih hd
      simp only [Formula.Truth]
      exact (ih fun e he k hkk => hd k (Relation.ReflTransGen.head (Or.inl (.or h he)) hkk)).2
    · intro i j f h _ ih hd
      simp only [Formula.Truth]
      exact not_congr (ih fun k hkk => hd k (Relation.ReflTransGen.head (Or.inr h) hkk))
    · intro _; simp [Formula.TruthAll, Formula.TruthSome]
    · intro e es f fs _ _ ih1 ih2 hd
      have h1 := ih1 (hd e (by simp))
      have h2 := ih2 fun e' he' => hd e' (by simp [he'])
      simp [Formula.TruthAll, Formula.TruthSome, h1, h2.1, h2.2]
  exact hcongr i f hf hvW

/-! ## C25 -/

/-- **C25** (shapes without parents). The verdict is the meaning of the shape: a closed shape
mentions every outgoing predicate, and all the values that are not EXTRA, or that may match some
constraint of their EXTRA predicate, are matched by the triple expression. -/
theorem C25_check_iff_meaning (E : Env N P) (he : Enumerates E.enum) (hsh : E.Shuffles)
    (s : Shape N P) (hs : s.Exact) (node : N) (T : N × Nat → Bool) :
    E.checkShape node s T = true ↔ ShapeSat E.graph (fun x => T x = true) node s :=
  checkShape_iff he hsh hs node T

/-- **C25**, closed shapes, with no condition on the triple expression. -/
theorem C25_closed (E : Env N P) (s : Shape N P) (node : N) (T : N × Nat → Bool)
    (h : E.checkShape node s T = true) (hc : s.closed = true) (p : P) (v : N)
    (ha : E.graph.Arc node ⟨p, true⟩ v) : (⟨p, true⟩ : Pred P) ∈ s.preds ∨ ⟨p, true⟩ ∈ s.extra :=
  ((checkShape_eq E node s T).1 h).1 hc p v ha

/-- **C25**, EXTRA: arcs of EXTRA predicates whose values satisfy no constraint for the predicate
can be added or removed without effect. Constraints with a reference are left out: for them the
statement is false, see `C25_refuted`. -/
theorem C25_extra_tolerated_partial (E E' : Env N P) (he : Enumerates E.enum)
    (he' : Enumerates E'.enum) (hsh : E.Shuffles) (hsh' : E'.Shuffles) (s : Shape N P)
    (hs : s.Exact) (node : N) (T : N × Nat → Bool)
    (hnoref : ∀ p ∈ s.extra, ∀ cond, HasConstraint s.expr p cond → ∀ r, ¬ RefIn r cond)
    (harcs : ∀ p v, (E.graph.Arc node p v ↔ E'.graph.Arc node p v) ∨
      (p ∈ s.extra ∧ ∀ cond, HasConstraint s.expr p cond → ¬ cond.Sat v (node, some (p, v)))) :
    E.checkShape node s T = E'.checkShape node s T := by
  have hmm : ∀ p v, p ∈ s.extra →
      (∀ cond, HasConstraint s.expr p cond → ¬ cond.Sat v (node, some (p, v))) →
      ¬ s.MayMatch node p v := by
    rintro p v hp hno ⟨cond, hc, ⟨r, hr⟩ | hsat⟩
    · exact hnoref p hp cond hc r hr
    · exact hno cond hc hsat
  have hb : ∀ p v, s.Bound E.graph node p v ↔ s.Bound E'.graph node p v := by
    intro p v
    rcases harcs p v with h | ⟨hp, hno⟩
    · simp only [Shape.Bound, h]
    · have := hmm p v hp hno
      simp only [Shape.Bound]
      constructor <;> (rintro ⟨_, _, h⟩; exact (this (h hp)).elim)
  have hl : ∀ vs, Lists s E.graph node vs ↔ Lists s E'.graph node vs := by
    intro vs; simp only [Lists, hb]
  have hcl : (∀ p v, E.graph.Arc node ⟨p, true⟩ v → s.Mentions ⟨p, true⟩) ↔
      (∀ p v, E'.graph.Arc node ⟨p, true⟩ v → s.Mentions ⟨p, true⟩) := by
    constructor
    · intro h p v hv
      rcases harcs ⟨p, true⟩ v with h' | ⟨hp, _⟩
      · exact h p v (h'.2 hv)
      · exact Or.inr hp
    · intro h p v hv
      rcases harcs ⟨p, true⟩ v with h' | ⟨hp, _⟩
      · exact h p v (h'.1 hv)
      · exact Or.inr hp
  rw [Bool.eq_iff_iff, checkShape_iff he hsh hs, checkShape_iff he' hsh' hs]
  unfold ShapeSat
  simp only [hl, hcl]

/-- **C25**, EXTRA: a value that satisfies some constraint of its predicate is never discarded: if
the node conforms, some constraint is assigned to it. -/
theorem C25_matching_value_assigned (E : Env N P) (he : Enumerates E.enum) (hsh : E.Shuffles)
    (s : Shape N P) (hs : s.Exact) (node : N) (T : N × Nat → Bool)
    (h : E.checkShape node s T = true) :
    ∃ vs cs, s.expr.Assignment vs cs ∧ (∀ w r, s.expr.Requires vs cs w r → T (w, r) = true) ∧
      ∀ p v, E.graph.Arc node p v → s.Mentions p →
        (p ∉ s.extra ∨ ∃ cond, HasConstraint s.expr p cond ∧ cond.Sat v (node, some (p, v))) →
        ∃ c, ((p, v, (node, some (p, v))), c) ∈ vs.zip cs := by
  obtain ⟨_, vs, cs, hl, ha, hT⟩ := (checkShape_iff he hsh hs node T).1 h
  refine ⟨vs, cs, ha, hT, fun p v harc hm hc => ?_⟩
  have hmem : (p, v, (node, some (p, v))) ∈ vs := by
    rw [hl.2]
    refine ⟨rfl, harc, hm, fun hex => ?_⟩
    rcases hc with h | ⟨cond, h1, h2⟩
    · exact (h hex).elim
    · exact ⟨cond, h1, Or.inr h2⟩
  have : ∀ (vs : List (Neigh N P)) cs, List.Forall₂ s.expr.Takes vs cs → ∀ x ∈ vs,
      ∃ c, (x, c) ∈ vs.zip cs := by
    intro vs cs hf
    induction hf with
    | nil => intro x hx; simp at hx
    | cons _ _ ih =>
      intro x hx
      rcases List.mem_cons.1 hx with rfl | hx
      · exact ⟨_, List.mem_cons_self⟩
      · obtain ⟨c, hc⟩ := ih x hx
        exact ⟨c, by simp [hc]⟩
  exact this vs cs ha.1 _ hmem

/-! ## C51 -/

/-- **C51**. The descendants of a shape are exactly the other shapes that extend it, directly or
through others; its parents are exactly the others it extends. -/
theorem C51_inheritance_closure (sch : Schema N P) (i d : Nat) :
    (d ∈ sch.descendants i ↔ d ≠ i ∧ Extends sch d i) ∧
      (d ∈ sch.parents i ↔ d ≠ i ∧ Extends sch i d) :=
  ⟨descendants_iff sch i d, parents_iff sch i d⟩

/-! ## Cases -/

/-- The value set `[n]`. -/
def exVal (n : Nat) : VCond Nat Nat :=
  .single (some fun v _ => if v = n then some Pending.empty else none)

/-- A condition that always holds. -/
def exAny : VCond Nat Nat := .single none

/-- `{ :p cond {min,max} }` with one constraint. -/
def exOne (p : Nat) (cond : VCond Nat Nat) (min : Nat) (max : Mx) : TExpr Nat Nat :=
  (Table.new.addComponent ⟨p, true⟩ cond).withRbe (Struct.symbol 0 min max)

theorem exOne_made (p : Nat) (cond : VCond Nat Nat) (min : Nat) (max : Mx) :
    (exOne p cond min max).Made :=
  .withRbe _ _ (.symbol _ _ _) (.add _ _ _ .new)

theorem exOne_constraint (p : Nat) (cond : VCond Nat Nat) (min : Nat) (max : Mx) (q : Pred Nat)
    (c : VCond Nat Nat) : HasConstraint (exOne p cond min max) q c ↔ q = ⟨p, true⟩ ∧ c = cond := by
  constructor
  · rintro ⟨k, hk, hc⟩
    simp only [exOne, Table.withRbe, Table.addComponent, Table.new, Table.getKey, Table.getCondition,
      upsert, alookup] at hk hc
    split at hk
    · rename_i h0
      rw [if_pos h0] at hc
      simp only [Option.some.injEq] at hk hc
      exact ⟨hk.symm, hc.symm⟩
    · cases hk
  · rintro ⟨rfl, rfl⟩
    exact ⟨0, rfl, rfl⟩

/-- A shape with one constraint. -/
def exShape (p : Nat) (cond : VCond Nat Nat) (min : Nat) (max : Mx) (extra : List (Pred Nat)) :
    Shape Nat Nat :=
  ⟨false, extra, exOne p cond min max, [⟨p, true⟩], []⟩

theorem exShape_exact (p : Nat) (cond : VCond Nat Nat) (min : Nat) (max : Mx)
    (extra : List (Pred Nat)) : (exShape p cond min max extra).Exact where
  made := exOne_made p cond min max
  wf := by simp [exShape, exOne, Table.withRbe, Struct.symbol, WF]
  flat := by simp [exShape, exOne, Table.withRbe, Struct.symbol, RepeatFlat]
  one := by
    intro _ q c d hc hd
    simp only [exShape, exOne, Table.withRbe, Table.addComponent, Table.new, Table.getKey, upsert,
      alookup] at hc hd
    split at hc
    · split at hd
      · omega
      · cases hd
    · cases hc
  some := by
    intro _ q hq
    simp only [exShape, List.mem_singleton] at hq
    subst hq
    exact ⟨0, rfl⟩

/-- Hash orders: the identity. -/
def exEnv (shapes : List (Nat × ShapeExpr Nat Nat)) (triples : List (Nat × Nat × Nat)) :
    Env Nat Nat where
  schema := ⟨shapes, []⟩
  graph := ⟨triples, fun _ => true⟩
  defaultIri := 99
  external := fun _ _ => false
  enum := enumDedup
  shuffle := fun l => l

/-- No shape has parents in the cases below. -/
def exNoExt : Ext Nat Nat := fun _ _ _ _ => false

/-- `<0> { :1 @<0> * }`, `<1> NOT @<2>`, `<2> { :2 [5] + }`, `<3> @<0> AND @<1>` on a cyclic graph. -/
def exKnows : Env Nat Nat :=
  exEnv [(0, .shape (exShape 1 (.ref 0) 0 .unbounded [])), (1, .not 2),
    (2, .shape (exShape 2 (exVal 5) 1 .unbounded [])), (3, .and [0, 1])]
    [(10, 1, 11), (11, 1, 10), (11, 2, 5)]

theorem exKnows_cases (i : Nat) (se : ShapeExpr Nat Nat) (h : exKnows.schema.At i se) :
    (i = 0 ∧ se = .shape (exShape 1 (.ref 0) 0 .unbounded [])) ∨ (i = 1 ∧ se = .not 2) ∨
      (i = 2 ∧ se = .shape (exShape 2 (exVal 5) 1 .unbounded [])) ∨ (i = 3 ∧ se = .and [0, 1]) := by
  have := mem_of_alookup h
  simpa [exKnows, exEnv] using this

theorem exKnows_plain : PlainRefs exKnows.schema where
  made := by
    intro i s h
    rcases exKnows_cases i _ h with ⟨_, h⟩ | ⟨_, h⟩ | ⟨_, h⟩ | ⟨_, h⟩ <;> try cases h
    all_goals exact exOne_made _ _ _ _
  settled := by
    intro i s h p cond hc
    rcases exKnows_cases i _ h with ⟨_, h⟩ | ⟨_, h⟩ | ⟨_, h⟩ | ⟨_, h⟩ <;> try cases h
    · rw [((exOne_constraint _ _ _ _ _ _).1 hc).2]; trivial
    · rw [((exOne_constraint _ _ _ _ _ _).1 hc).2]
      intro v c p hp
      simp only at hp
      split at hp <;> cases hp
      rfl
  plain := by
    intro i s h p cond hc r hr
    rcases exKnows_cases i _ h with ⟨_, h⟩ | ⟨_, h⟩ | ⟨_, h⟩ | ⟨_, h⟩ <;> try cases h
    · obtain ⟨_, rfl⟩ := (exOne_constraint _ _ _ _ _ _).1 hc
      cases hr; rfl
    · obtain ⟨_, rfl⟩ := (exOne_constraint _ _ _ _ _ _).1 hc
      cases hr

theorem exKnows_regular : Regular exKnows.schema := by
  intro i s h
  rcases exKnows_cases i _ h with ⟨_, h⟩ | ⟨_, h⟩ | ⟨_, h⟩ | ⟨_, h⟩ <;> try cases h
  all_goals exact exShape_exact _ _ _ _ _

theorem exKnows_noInheritance : NoInheritance exKnows.schema where
  noExtends := by
    intro i s h
    rcases exKnows_cases i _ h with ⟨_, h⟩ | ⟨_, h⟩ | ⟨_, h⟩ | ⟨_, h⟩ <;> cases h <;> rfl
  noAbstract := rfl

theorem exKnows_respects : Respects exKnows.schema (fun i => if i = 0 ∨ i = 2 then 0 else i) where
  uses := by
    intro i j h
    cases h with
    | or h he =>
      rcases exKnows_cases i _ h with ⟨_, h⟩ | ⟨_, h⟩ | ⟨_, h⟩ | ⟨_, h⟩ <;> cases h
    | and h he =>
      rcases exKnows_cases i _ h with ⟨_, h⟩ | ⟨_, h⟩ | ⟨_, h⟩ | ⟨hi, h⟩ <;> cases h
      subst hi
      simp only [List.mem_cons, List.not_mem_nil, or_false] at he
      rcases he with rfl | rfl <;> decide
    | ref h => rcases exKnows_cases i _ h with ⟨_, h⟩ | ⟨_, h⟩ | ⟨_, h⟩ | ⟨_, h⟩ <;> cases h
    | value h hc hr =>
      rcases exKnows_cases i _ h with ⟨hi, h⟩ | ⟨_, h⟩ | ⟨_, h⟩ | ⟨_, h⟩ <;> cases h
      · obtain ⟨_, rfl⟩ := (exOne_constraint _ _ _ _ _ _).1 hc
        cases hr; subst hi; decide
      · obtain ⟨_, rfl⟩ := (exOne_constraint _ _ _ _ _ _).1 hc
        cases hr
    | parent h he => rw [exKnows_noInheritance.noExtends _ _ h] at he; simp at he
    | child h he => rw [exKnows_noInheritance.noExtends _ _ h] at he; simp at he
  negates := by
    intro i j h
    rcases exKnows_cases i _ h with ⟨_, h⟩ | ⟨hi, h⟩ | ⟨_, h⟩ | ⟨_, h⟩ <;> cases h
    subst hi; decide

theorem exKnows_noNegCycle : NoNegCycle exKnows.schema := fun i j h hd =>
  Nat.lt_irrefl _ (Nat.lt_of_lt_of_le (exKnows_respects.negates i j h)
    (respects_dependsOn exKnows_respects hd))

/-- The hypotheses of C20, C21 and C23 are met by a schema with a cycle and a negation on a cyclic
graph, and validation distinguishes the two nodes. -/
example : (exKnows.schema.shapes.map Prod.fst).Nodup ∧ exKnows.Shuffles ∧ Enumerates exKnows.enum ∧
    PlainRefs exKnows.schema ∧ Regular exKnows.schema ∧ NoInheritance exKnows.schema ∧
    NoNegCycle exKnows.schema ∧ SameElements (exKnows.sys exNoExt fun _ l => l) :=
  ⟨by decide, fun _ => List.Perm.refl _, enumDedup_enumerates, exKnows_plain, exKnows_regular,
    exKnows_noInheritance, exKnows_noNegCycle, fun _ _ _ => Iff.rfl⟩

/-- The verdicts of a run. -/
def verdicts {X Y : Type} : Out (X × Y) → Option X
  | .ok (b, _) => some b
  | _ => none

example : verdicts (queries (exKnows.sys exNoExt fun _ l => l) 20 [(10, 3), (11, 3), (11, 0)] St.init) =
    some [true, false, true] := by decide

/-- C23 applies to `<3>`: the conjunction of `<0>` and the negation of `<2>`. -/
example : Writes exKnows.schema 3 (.and [.leaf 0, .not (.leaf 2)]) :=
  .and rfl (.cons (.leaf 0) (.cons (.not rfl (.leaf 2)) .nil))

/-- C22 applies with the indices 0–3. -/
example : ∀ i ∈ [0, 1, 2, 3], ∀ j, Uses exKnows.schema i j ∨ Negates exKnows.schema i j →
    j ∈ [0, 1, 2, 3] := by
  intro i _ j h
  rcases h with h | h
  · cases h with
    | or h he =>
      rcases exKnows_cases i _ h with ⟨_, h⟩ | ⟨_, h⟩ | ⟨_, h⟩ | ⟨_, h⟩ <;> cases h
    | and h he =>
      rcases exKnows_cases i _ h with ⟨_, h⟩ | ⟨_, h⟩ | ⟨_, h⟩ | ⟨hi, h⟩ <;> cases h
      simp only [List.mem_cons, List.not_mem_nil, or_false] at he
      rcases he with rfl | rfl <;> simp
    | ref h => rcases exKnows_cases i _ h with ⟨_, h⟩ | ⟨_, h⟩ | ⟨_, h⟩ | ⟨_, h⟩ <;> cases h
    | value h hc hr =>
      rcases exKnows_cases i _ h with ⟨hi, h⟩ | ⟨_, h⟩ | ⟨_, h⟩ | ⟨_, h⟩ <;> cases h
      · obtain ⟨_, rfl⟩ := (exOne_constraint _ _ _ _ _ _).1 hc
        cases hr; simp
      · obtain ⟨_, rfl⟩ := (exOne_constraint _ _ _ _ _ _).1 hc
        cases hr
    | parent h he => rw [exKnows_noInheritance.noExtends _ _ h] at he; simp at he
    | child h he => rw [exKnows_noInheritance.noExtends _ _ h] at he; simp at he
  · rcases exKnows_cases i _ h with ⟨_, h⟩ | ⟨hi, h⟩ | ⟨_, h⟩ | ⟨_, h⟩ <;> cases h
    simp

/-! ### References combined with semantic actions -/

/-- `<0> { :1 @<1> %act% }`: the value expression is the conjunction of a semantic action and a
reference. `<1>` accepts everything. -/
def exAct : Env Nat Nat :=
  exEnv [(0, .shape (exShape 1 (.and [exAny, .ref 1]) 1 (.intMax 1) [])), (1, .empty)] [(10, 1, 11)]

/-- **C20** is false of the code when a reference carries a semantic action: such references are
ignored by `dep`, so they are never tried and count as failed. Node 10 conforms to `<0>`, and is
rejected. -/
theorem C20_refuted_reference_with_action :
    Regular exAct.schema ∧ NoInheritance exAct.schema ∧ Positive exAct.schema ∧
      Enumerates exAct.enum ∧ exAct.Shuffles ∧ GreatestTyping exAct (10, 0) ∧
      verdicts (prove (exAct.sys exNoExt fun _ l => l) 5 (10, 0) [] St.init) = some false := by
  have hc : ∀ i se, exAct.schema.At i se →
      (i = 0 ∧ se = .shape (exShape 1 (.and [exAny, .ref 1]) 1 (.intMax 1) [])) ∨
      (i = 1 ∧ se = .empty) := by
    intro i se h
    have := mem_of_alookup h
    simpa [exAct, exEnv] using this
  refine ⟨?_, ⟨?_, rfl⟩, ?_, enumDedup_enumerates, fun _ => List.Perm.refl _, ?_, by decide⟩
  · intro i s h
    rcases hc i _ h with ⟨_, h⟩ | ⟨_, h⟩ <;> cases h
    exact exShape_exact _ _ _ _ _
  · intro i s h
    rcases hc i _ h with ⟨_, h⟩ | ⟨_, h⟩ <;> cases h
    rfl
  · intro i j h
    rcases hc i _ h with ⟨_, h⟩ | ⟨_, h⟩ <;> cases h
  · refine ⟨fun x => x = (10, 0) ∨ x.2 = 1, Or.inl rfl, ?_⟩
    rintro ⟨v, i⟩ (h | h)
    · cases h
      refine ⟨_, rfl, by simp [exShape], ?_⟩
      refine ⟨[(⟨1, true⟩, 11, (10, some (⟨1, true⟩, 11)))], [0], ⟨by simp, ?_⟩, ⟨?_, ?_⟩, ?_⟩
      · rintro ⟨⟨p, d⟩, w, ctx⟩
        simp only [List.mem_singleton, Prod.mk.injEq, Pred.mk.injEq, Shape.Bound, Shape.Mentions,
          exShape, List.not_mem_nil, or_false, false_implies, and_true, Graph.Arc, exAct, exEnv]
        constructor
        · rintro ⟨⟨rfl, rfl⟩, rfl, rfl⟩; simp
        · rintro ⟨rfl, h, rfl, rfl⟩
          simp at h
          simp [h]
      · refine .cons ⟨rfl, .and [exAny, .ref 1], rfl, ?_⟩ .nil
        simp [Cond.Sat, Cond.SatAll, exAny]
      · exact ⟨1, by simp [Card.Holds], rfl⟩
      · rintro w r ⟨x, c, hm, cond, hcd, hd⟩
        simp only [List.zip_cons_cons, List.zip_nil_right, List.mem_singleton, Prod.mk.injEq] at hm
        obtain ⟨rfl, rfl⟩ := hm
        have : cond = .and [exAny, .ref 1] := (Option.some.inj hcd).symm
        subst this
        simp [Cond.Deps, Cond.DepsAny, exAny] at hd
        exact Or.inr hd.2
    · simp only at h
      subst h
      exact ⟨_, rfl, trivial⟩

/-- As `exAct`, and `<1> { :2 @<0> }` refers back, on the cycle 10 -1→ 11 -2→ 10. -/
def exActLoop : Env Nat Nat :=
  exEnv [(0, .shape (exShape 1 (.and [exAny, .ref 1]) 1 (.intMax 1) [])),
    (1, .shape (exShape 2 (.ref 0) 1 (.intMax 1) []))] [(10, 1, 11), (11, 2, 10)]

/-- The verdicts also differ by the pair asked: 11 conforms to `<1>` although the only value of its
property, 10, is found not to conform to `<0>` when asked alone. -/
theorem C21_refuted_reference_with_action :
    verdicts (queries (exActLoop.sys exNoExt fun _ l => l) 10 [(11, 1), (10, 0)] St.init) =
      some [true, true] ∧
    verdicts (queries (exActLoop.sys exNoExt fun _ l => l) 10 [(10, 0)] St.init) = some [false] := by
  decide

/-! ### EXTRA -/

/-- `EXTRA :1 { :1 [5] }`: 7 is tolerated, a second 5 would not be needed. -/
example : (exShape 1 (exVal 5) 1 (.intMax 1) [⟨1, true⟩]).Exact ∧
    (exEnv [] [(10, 1, 5), (10, 1, 7)]).checkShape 10 (exShape 1 (exVal 5) 1 (.intMax 1) [⟨1, true⟩])
      (fun _ => false) = true ∧
    (exEnv [] [(10, 1, 7)]).checkShape 10 (exShape 1 (exVal 5) 1 (.intMax 1) [⟨1, true⟩])
      (fun _ => false) = false :=
  ⟨exShape_exact _ _ _ _ _, by decide, by decide⟩

/-- The hypotheses of `C25_extra_tolerated_partial` are met when 7 is added. -/
example : (∀ p ∈ (exShape 1 (exVal 5) 1 (.intMax 1) [⟨1, true⟩]).extra, ∀ cond,
      HasConstraint (exShape 1 (exVal 5) 1 (.intMax 1) [⟨1, true⟩]).expr p cond → ∀ r, ¬ RefIn r cond) ∧
    ∀ p v, ((exEnv [] [(10, 1, 5)]).graph.Arc 10 p v ↔ (exEnv [] [(10, 1, 5), (10, 1, 7)]).graph.Arc 10 p v) ∨
      (p ∈ (exShape 1 (exVal 5) 1 (.intMax 1) [⟨1, true⟩]).extra ∧ ∀ cond,
        HasConstraint (exShape 1 (exVal 5) 1 (.intMax 1) [⟨1, true⟩]).expr p cond →
          ¬ cond.Sat v (10, some (p, v))) := by
  constructor
  · intro p _ cond hc r hr
    obtain ⟨_, rfl⟩ := (exOne_constraint _ _ _ _ _ _).1 hc
    cases hr
  · rintro ⟨p, d⟩ v
    by_cases h : p = 1 ∧ d = true ∧ v = 7
    · obtain ⟨rfl, rfl, rfl⟩ := h
      right
      refine ⟨by simp [exShape], fun cond hc => ?_⟩
      obtain ⟨_, rfl⟩ := (exOne_constraint _ _ _ _ _ _).1 hc
      simp [exVal, Cond.Sat]
    · left
      simp only [Graph.Arc, exEnv, List.mem_cons, Prod.mk.injEq, List.not_mem_nil, or_false]
      constructor
      · rintro (⟨a, b, c⟩ | ⟨a, b⟩)
        · exact Or.inl ⟨a, b, Or.inl c⟩
        · exact Or.inr ⟨a, Or.inl b⟩
      · rintro (⟨a, b, c | c⟩ | ⟨a, b | b⟩)
        · exact Or.inl ⟨a, b, c⟩
        · exact (h ⟨c.2.1, a, c.2.2⟩).elim
        · exact Or.inr ⟨a, b⟩
        · simp at a b

/-- `<0> EXTRA :1 { :1 @<1> }`, `<1> { :2 [5] }`. -/
def exExtra (triples : List (Nat × Nat × Nat)) : Env Nat Nat :=
  exEnv [(0, .shape (exShape 1 (.ref 1) 1 (.intMax 1) [⟨1, true⟩])),
    (1, .shape (exShape 2 (exVal 5) 1 (.intMax 1) []))] triples

/-- **C25** is false of the code when the constraint is a reference: node 10 has the value 11, which
conforms to `<1>`; adding the EXTRA value 12, which does not conform to `<1>` and so matches no
constraint, makes it fail. -/
theorem C25_refuted :
    let sys := fun triples => (exExtra triples).sys exNoExt fun _ l => l
    let before := [(10, 1, 11), (11, 2, 5)]
    let after := [(10, 1, 11), (11, 2, 5), (10, 1, 12)]
    verdicts (queries (sys before) 10 [(10, 0), (11, 1), (12, 1)] St.init) = some [true, true, false] ∧
    verdicts (queries (sys after) 10 [(10, 0), (11, 1), (12, 1)] St.init) = some [false, true, false] := by
  decide

/-! ### Inheritance -/

/-- `<2>` extends `<1>`, which extends `<0>`. -/
example : Schema.descendants (N := Nat) (P := Nat) ⟨[(0, .shape (exShape 1 exAny 1 (.intMax 1) [])),
    (1, .shape { exShape 1 exAny 1 (.intMax 1) [] with «extends» := [0] }),
    (2, .shape { exShape 1 exAny 1 (.intMax 1) [] with «extends» := [1] })], []⟩ 0 = [1, 2] := by
  decide

#print axioms C20_schema_greatest
#print axioms C20_schema_stratified
#print axioms C20_refuted_reference_with_action
#print axioms C21_schema_history_independent
#print axioms C21_refuted_reference_with_action
#print axioms C22_schema_terminates_partial
#print axioms C23_boolean_combinations
#print axioms C25_check_iff_meaning
#print axioms C25_closed
#print axioms C25_extra_tolerated_partial
#print axioms C25_matching_value_assigned
#print axioms C25_refuted
#print axioms C51_inheritance_closure

end Shex
