import Verif.Shacl.EngineProps2
import Verif.Shacl.DgProps2
import Verif.Shacl.PathProps

/-!
# Properties C38 and C66: value nodes by the relations of paths, and shapes that fail
-/

namespace Shacl

variable {T O P Q : Type} [DecidableEq T] [DecidableEq O] [DecidableEq P] [DecidableEq Q]

/-! ## Specification -/

/-- The value nodes of a focus node: itself, or the nodes related to it by the path. -/
def IsValue (W : World T O P Q) (sh : Shape P Q) (x y : T) : Prop :=
  match sh.path with
  | none => y = x
  | some q => Rel W.graph q x y

/-- The path of the shape cannot be followed from the focus node. -/
def NoValues (W : World T O P Q) (sh : Shape P Q) (x : T) : Prop := ∃ q, sh.path = some q ∧ Fails W.graph q x

/-- `V` gives every shape its results, with value nodes by the relations of paths. -/
structure Reads (W : World T O P Q) (V : Verdict T O P Q) : Prop where
  off : ∀ i sh, W.shape i = some sh → sh.deactivated = true → ∀ x, V i x = 0
  dropped : ∀ i sh, W.shape i = some sh → ∀ x, NoValues W sh x → V i x = 0
  on : ∀ i sh, W.shape i = some sh → sh.deactivated = false → ∀ x, ¬ NoValues W sh x →
    ∃ vs : List T, vs.Nodup ∧ (∀ y, y ∈ vs ↔ IsValue W sh x y) ∧
      V i x = (sh.comps.map (compRes W V i x vs)).sum + (sh.props.map fun j => (vs.map (V j)).sum).sum

/-! ## Properties -/

section
variable {W : World T O P Q} {rank : Nat → Nat}

/-- **C66**, the value nodes: none exactly when the path cannot be followed, and otherwise each related node once. -/
theorem C66_value_nodes (hord : ∀ l, (W.ord l).Perm l) (sh : Shape P Q) (x : T) :
    (W.vals sh x = none ↔ NoValues W sh x) ∧
      ∀ vs, W.vals sh x = some vs → vs.Nodup ∧ ∀ y, y ∈ vs ↔ IsValue W sh x y := by
  unfold World.vals NoValues IsValue
  cases hp : sh.path with
  | none => simp
  | some q =>
    have h := C33_paths_partial W.graph W.ord hord (2 * W.graph.triples.length + 1) Nat.le.refl q x
    simp only [Option.some.injEq, exists_eq_left']
    cases he : eval W.graph W.ord (2 * W.graph.triples.length + 1) q x with
    | ok l =>
      refine ⟨⟨by simp, fun hF => absurd hF (h.1.1 ⟨l, he⟩)⟩, ?_⟩
      intro vs hvs
      injection hvs with hvs
      subst hvs
      exact h.2 l he
    | _ =>
      refine ⟨⟨fun _ => ?_, fun _ => rfl⟩, by simp⟩
      by_contra hF
      obtain ⟨l, hl⟩ := h.1.2 hF
      rw [he] at hl
      cases hl

/-- **C66** (partial, as `C66_meaning_partial`): the results are those defined by the shapes, where the value nodes of
a focus node are the nodes related to it by the path of the shape, in some order, and a focus node from which the path
cannot be followed has no results (`C66_literal_refuted`). -/
theorem C66_paths_partial (hR : Ranked W rank) (hc : Cacheable W) (d : Nat) :
    ∃ V, Reads W V ∧ ∀ hs, (∀ e ∈ hs, Call W rank d e) → ∀ i l, Call W rank d (i, l) →
      ∃ r, (run (W.validate d i l) (history W d hs fresh0)).1 = .ret r ∧
        (r : Multiset (Res O P Q)) = (l.map (V i)).sum := by
  obtain ⟨V, hV, h⟩ := C66_meaning_partial hR hc d
  refine ⟨V, ⟨?_, ?_, ?_⟩, h⟩
  · intro i sh hi hd x
    rw [hV i sh hi x, shapeRes, if_pos hd]
  · intro i sh hi x hn
    rw [hV i sh hi x, shapeRes, ((C66_value_nodes hR.ord sh x).1.2 hn)]
    simp
  · intro i sh hi hd x hn
    cases hv : W.vals sh x with
    | none => exact absurd ((C66_value_nodes hR.ord sh x).1.1 hv) hn
    | some vs =>
      obtain ⟨h1, h2⟩ := (C66_value_nodes hR.ord sh x).2 vs hv
      refine ⟨vs, h1, h2, ?_⟩
      rw [hV i sh hi x, shapeRes, hv, hd]
      simp

variable {d i j : Nat} {y : T} {c : Cache O P Q} (ho : W.ord [y] = [y]) (hj : (W.shape j).isSome)
  (hy : c (W.obj y, i) = none) (hf : (run (W.validate d j [y]) c).1 = .fail)
include ho hj hy hf

/-- **C38**, shapes that fail: for `sh:and` and `sh:xone` and qualified counts a shape whose validation fails counts as
one the node does not conform to, `sh:not` then reports nothing, and `sh:or` fails itself. -/
theorem C38_failures (l : List Nat) :
    (W.shape i = some ⟨none, [.and (j :: l)], [], false⟩ →
      (run (W.validate (d + 1) i [y]) c).1 = .ret [⟨W.obj y, .and, some (W.obj y), none, i⟩]) ∧
    (W.shape i = some ⟨none, [.not j], [], false⟩ → (run (W.validate (d + 1) i [y]) c).1 = .ret []) ∧
    (W.shape i = some ⟨none, [.xone [j]], [], false⟩ →
      (run (W.validate (d + 1) i [y]) c).1 = .ret [⟨W.obj y, .xone, some (W.obj y), none, i⟩]) ∧
    (W.shape i = some ⟨none, [.qual j (some 1) none []], [], false⟩ →
      (run (W.validate (d + 1) i [y]) c).1 = .ret [⟨W.obj y, .qmin, none, none, i⟩]) ∧
    (W.shape i = some ⟨none, [.or (j :: l)], [], false⟩ → (run (W.validate (d + 1) i [y]) c).1 = .fail) := by
  obtain ⟨sj, hsj⟩ := Option.isSome_iff_exists.1 hj
  obtain ⟨c', hc'⟩ : ∃ c', run (W.validate d j [y]) c = (.fail, c') := ⟨_, Prod.ext hf rfl⟩
  refine ⟨?_, ?_, ?_, ?_, ?_⟩ <;> intro hi <;>
    simp [World.validate, hi, World.body, ho, World.split, run, run_bind, run_attempt, hy, World.valueNodes, World.vals,
      World.evalComps, World.evalAll, World.evalLoop, World.evalComp, World.perValue, World.allConform, World.need,
      World.someConforms, World.conforms, World.countConform, World.countQualified, World.nested, World.res, hsj, hc',
      Prog.bind, recordAll, List.dedup_cons_of_notMem]

end

/-- A node `0` with the value `9`, a literal, for the predicate `7`; shape 1 asks for a value for `7`, and shape 2 asks
that values for `7` conform to shape 1. Shape 3 has a constraint that fails, and shape 4 the shapes 3 and 5. -/
def litWorld : World Nat Nat Nat Bool where
  shape
    | 1 => some ⟨some (.pred 7), [.prim true], [], false⟩
    | 2 => some ⟨some (.pred 7), [.node 1], [], false⟩
    | 3 => some ⟨none, [.prim false], [], false⟩
    | 4 => some ⟨none, [.and [3, 5]], [], false⟩
    | 5 => some ⟨none, [], [], false⟩
    | _ => none
  graph := litGraph
  obj := id
  prim q i x vs := if q then some (if vs = [] then [⟨x, .prim true, none, none, i⟩] else []) else none
  ord := id

/-- **C66** refuted for focus nodes that are literals: a property shape reports nothing about a literal, which has no
value nodes, although it reports a missing value for other nodes without value nodes, and a literal value passes
`sh:node` with such a shape. -/
theorem C66_literal_refuted :
    (∀ y, ¬ IsValue litWorld ⟨some (.pred 7), [.prim true], [], false⟩ 9 y) ∧
    (∀ y, ¬ IsValue litWorld ⟨some (.pred 7), [.prim true], [], false⟩ 8 y) ∧
    (run (litWorld.validate 1 1 [9]) fresh0).1 = .ret [] ∧
    (run (litWorld.validate 1 1 [8]) fresh0).1 = .ret [⟨8, .prim true, none, none, 1⟩] ∧
    (run (litWorld.validate 2 2 [0]) fresh0).1 = .ret [] := by
  refine ⟨?_, ?_, by decide +kernel, by decide +kernel, by decide +kernel⟩ <;> intro y <;>
    simp [IsValue, Rel, litWorld, litGraph]

/-- The premises of `C38_failures` are met, and shape 4 reports the failing shape. -/
example : litWorld.ord [9] = [9] ∧ (litWorld.shape 3).isSome ∧ (fresh0 : Cache Nat Nat Bool) (litWorld.obj 9, 4) = none ∧
    (run (litWorld.validate 1 3 [9]) fresh0).1 = .fail ∧
    (run (litWorld.validate 2 4 [9]) fresh0).1 = .ret [⟨9, .and, some 9, none, 4⟩] := by decide +kernel

end Shacl
