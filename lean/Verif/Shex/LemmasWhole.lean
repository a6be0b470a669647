import Verif.Shex.LemmasSelection
import Verif.Shex.LemmasPicks

/-!
# Lemmas: constraints met as a whole
-/

namespace Shex
open Rbe

variable {N P : Type} [DecidableEq N] [DecidableEq P]

/-- One step of `checkConstraint`, the answers for the operands being `g`. -/
def Env.stepConstraint (E : Env N P) (ext : Ext N P) (node : N) (T : N × Nat → Bool) (g : Nat → Bool)
    (i : Nat) : ShapeExpr N P → Bool
  | .nodeConstraint c => (c.matches node (node, none)).isSome
  | .shape s => if s.extends.isEmpty then E.checkShape node s T else ext node i s T
  | .not e => !(g e)
  | .and es => es.all g
  | .or es => es.any g
  | .ref j => g j
  | .empty => true
  | .external => E.external node i

theorem checkConstraint_succ (E : Env N P) (ext : Ext N P) (node : N) (T : N × Nat → Bool) (n i : Nat)
    {se : ShapeExpr N P} (h : E.schema.find i = some se) :
    E.checkConstraint ext node T (n + 1) i =
      E.stepConstraint ext node T (E.checkConstraint ext node T n) i se := by
  cases se <;> simp only [Env.checkConstraint, h, Env.stepConstraint]

/-- The step only asks about lower ranks. -/
theorem stepConstraint_congr {E : Env N P} {rank : Nat → Nat} (hl : Layered E.schema rank)
    (ext : Ext N P) (node : N) (T : N × Nat → Bool) (g g' : Nat → Bool) (i : Nat)
    {se : ShapeExpr N P} (h : E.schema.At i se) (hg : ∀ e, rank e < rank i → g e = g' e) :
    E.stepConstraint ext node T g i se = E.stepConstraint ext node T g' i se := by
  cases se with
  | and es =>
    have : ∀ e ∈ es, g e = g' e := fun e he => hg e (hl.grounded.and i es h e he)
    rw [Bool.eq_iff_iff]
    simp only [Env.stepConstraint, List.all_eq_true]
    exact forall₂_congr fun e he => by rw [this e he]
  | or es =>
    have : ∀ e ∈ es, g e = g' e := fun e he => hg e (hl.grounded.or i es h e he)
    rw [Bool.eq_iff_iff]
    simp only [Env.stepConstraint, List.any_eq_true]
    exact exists_congr fun e => and_congr_right fun he => by rw [this e he]
  | not e => simp only [Env.stepConstraint, hg e (hl.not i e h)]
  | ref e => simp only [Env.stepConstraint, hg e (hl.grounded.ref i e h)]
  | _ => rfl

theorem checkConstraint_fuel {E : Env N P} {rank : Nat → Nat} (hl : Layered E.schema rank)
    (ext : Ext N P) (node : N) (T : N × Nat → Bool) (n n' : Nat) (path : List Nat) (i : Nat)
    (hn : path.Nodup) (hs : ∀ x ∈ path, E.schema.find x ≠ none ∧ rank i < rank x)
    (h : E.schema.shapes.length + 1 ≤ path.length + n)
    (h' : E.schema.shapes.length + 1 ≤ path.length + n') :
    E.checkConstraint ext node T n i = E.checkConstraint ext node T n' i := by
  induction n generalizing n' path i with
  | zero =>
    have := length_found hn fun x hx => (hs x hx).1
    omega
  | succ n ih =>
    cases n' with
    | zero =>
      have := length_found hn fun x hx => (hs x hx).1
      omega
    | succ n' =>
      cases hf : E.schema.find i with
      | none => simp only [Env.checkConstraint, hf]
      | some se =>
        rw [checkConstraint_succ _ _ _ _ _ _ hf, checkConstraint_succ _ _ _ _ _ _ hf]
        refine stepConstraint_congr hl ext node T _ _ i hf fun e he => ?_
        have hi : i ∉ path := fun h => Nat.lt_irrefl _ (hs i h).2
        refine ih n' (i :: path) e (List.nodup_cons.2 ⟨hi, hn⟩) ?_ (by simp; omega) (by simp; omega)
        intro x hx
        rcases List.mem_cons.1 hx with rfl | hx
        · exact ⟨by simp [hf], he⟩
        · exact ⟨(hs x hx).1, Nat.lt_trans he (hs x hx).2⟩

/-- The answers of `checkConstraint` solve the equations. -/
theorem whole_check {E : Env N P} (he : Enumerates E.enum) (hsh : E.Shuffles) (hr : Regular E.schema)
    {rank : Nat → Nat} (hl : Layered E.schema rank) (ext : Ext N P) (node : N) (T : N × Nat → Bool) :
    Whole E (fun x => T x = true) node (fun i s => ext node i s T = true)
      (fun i => E.checkConstraint ext node T (E.schema.shapes.length + 1) i = true) := by
  intro i
  cases hf : E.schema.find i with
  | none =>
    simp only [Env.checkConstraint, hf, true_iff]
    intro se hse
    exact absurd (hf.symm.trans hse) (by simp)
  | some se =>
    beta_reduce
    rw [checkConstraint_succ _ _ _ _ _ _ hf]
    rw [stepConstraint_congr hl ext node T _
      (E.checkConstraint ext node T (E.schema.shapes.length + 1)) i hf fun e hlt =>
        checkConstraint_fuel hl ext node T _ _ [i] e (by simp) (by
          intro x hx
          rw [List.mem_singleton] at hx
          subst hx
          exact ⟨by simp [hf], hlt⟩) (by simp; omega) (by simp)]
    have hall : ∀ Q : ShapeExpr N P → Prop, (∀ se', E.schema.At i se' → Q se') ↔ Q se := fun Q =>
      ⟨fun h => h se hf, fun h se' h' => by cases hf.symm.trans h'; exact h⟩
    rw [hall]
    cases se with
    | and es => simp [Env.stepConstraint]
    | or es => simp [Env.stepConstraint]
    | not e => simp [Env.stepConstraint]
    | ref e => simp [Env.stepConstraint]
    | nodeConstraint c => simp only [Env.stepConstraint]; exact matches_isSome node (node, none) c
    | external => simp [Env.stepConstraint]
    | empty => simp [Env.stepConstraint]
    | shape s =>
      simp only [Env.stepConstraint]
      by_cases hx : s.extends = []
      · simp only [hx, List.isEmpty_nil, if_true, true_implies, ne_eq, not_true, false_implies, and_true]
        exact checkShape_iff he hsh (hr i s hf) node T
      · simp [hx]

/-- The equations have one solution. -/
theorem whole_unique {E : Env N P} {rank : Nat → Nat} (hl : Layered E.schema rank)
    {T : N × Nat → Prop} {node : N} {parents : Nat → Shape N P → Prop} {V V' : Nat → Prop}
    (h : Whole E T node parents V) (h' : Whole E T node parents V') : ∀ i, V i ↔ V' i := by
  have : ∀ k i, rank i = k → (V i ↔ V' i) := by
    intro k
    induction k using Nat.strongRecOn with
    | _ k ih =>
      rintro i rfl
      have key : ∀ e, rank e < rank i → (V e ↔ V' e) := fun e he => ih _ he e rfl
      rw [h i, h' i]
      refine forall₂_congr fun se hse => ?_
      cases se with
      | and es => exact forall₂_congr fun e he => key e (hl.grounded.and i es hse e he)
      | or es => exact exists_congr fun e => and_congr_right fun he => key e (hl.grounded.or i es hse e he)
      | not e => exact not_congr (key e (hl.not i e hse))
      | ref e => exact key e (hl.grounded.ref i e hse)
      | _ => exact Iff.rfl
  exact fun i => this _ i rfl

theorem splitFold_some (f : Nat → Option (Option (List (TExpr N P)))) (es : List Nat)
    (acc ts : List (TExpr N P)) (h : splitFold f es (some (some acc)) = some (some ts)) :
    ∀ e ∈ es, ∃ ts', f e = some (some ts') := by
  induction es generalizing acc with
  | nil => simp
  | cons e es ih =>
    have hstep : splitFold f (e :: es) (some (some acc)) = splitFold f es
        (match f e with
          | some (some tes') => some (some (acc ++ tes'))
          | r => r) := rfl
    rw [hstep] at h
    cases hf : f e with
    | none =>
      rw [hf] at h
      simp only at h
      have : ∀ es, splitFold f es none = none := by
        intro es
        induction es with
        | nil => rfl
        | cons e es ih => exact ih
      rw [this] at h
      cases h
    | some r =>
      cases r with
      | none =>
        rw [hf] at h
        simp only at h
        rw [splitFold_none] at h
        cases h
      | some t =>
        rw [hf] at h
        intro x hx
        rcases List.mem_cons.1 hx with rfl | hx
        · exact ⟨t, hf⟩
        · exact ih _ h x hx

theorem splitFold_fails (f : Nat → Option (Option (List (TExpr N P)))) (es : List Nat)
    (acc : List (TExpr N P)) (h : splitFold f es (some (some acc)) = some none) :
    ∃ e ∈ es, f e = some none := by
  induction es generalizing acc with
  | nil => cases h
  | cons e es ih =>
    have hstep : splitFold f (e :: es) (some (some acc)) = splitFold f es
        (match f e with
          | some (some tes') => some (some (acc ++ tes'))
          | r => r) := rfl
    rw [hstep] at h
    cases hf : f e with
    | none =>
      rw [hf] at h
      simp only at h
      have : ∀ es, splitFold f es none = none := by
        intro es
        induction es with
        | nil => rfl
        | cons e es ih => exact ih
      rw [this] at h
      cases h
    | some r =>
      cases r with
      | none => exact ⟨e, by simp, hf⟩
      | some t =>
        rw [hf] at h
        obtain ⟨x, hx, hfx⟩ := ih _ h
        exact ⟨x, by simp [hx], hfx⟩

theorem flatAll_of {sch : Schema N P} {es : List Nat} (h : ∀ e ∈ es, FlatExpr sch e) : FlatAll sch es := by
  induction es with
  | nil => exact .nil
  | cons e es ih => exact .cons (h e (by simp)) (ih fun x hx => h x (by simp [hx]))

/-- Only flat expressions are split, and one that is refused does not hold. -/
theorem trySplit_general {E : Env N P} {T : N × Nat → Prop} {node : N}
    {parents : Nat → Shape N P → Prop} {V : Nat → Prop} (hV : Whole E T node parents V) (n i : Nat) :
    (∀ ts, trySplit E.schema node n i = some (some ts) → FlatExpr E.schema i) ∧
      (trySplit E.schema node n i = some none → ¬ V i) := by
  induction n generalizing i with
  | zero => simp [trySplit]
  | succ n ih =>
    cases hf : E.schema.find i with
    | none => simp [trySplit, hf]
    | some se =>
      cases se with
      | shape s =>
        simp only [trySplit, hf]
        by_cases hx : s.extends = []
        · exact ⟨fun _ _ => .shape hf hx, by simp [hx]⟩
        · simp [hx]
      | nodeConstraint c =>
        simp only [trySplit, hf]
        refine ⟨fun _ _ => .nodeConstraint hf, fun h hv => ?_⟩
        have := (hV i).1 hv _ hf
        rw [if_pos ((matches_isSome node (node, none) c).2 this)] at h
        cases h
      | ref j =>
        simp only [trySplit, hf]
        exact ⟨fun ts h => .ref hf ((ih j).1 ts h), fun h hv => (ih j).2 h ((hV i).1 hv _ hf)⟩
      | and es =>
        have hd : trySplit E.schema node (n + 1) i =
            splitFold (trySplit E.schema node n) es (some (some [])) := by
          simp only [trySplit, hf]; rfl
        rw [hd]
        constructor
        · intro ts h
          refine .and hf (flatAll_of fun e he => ?_)
          obtain ⟨ts', h'⟩ := splitFold_some _ _ _ _ h e he
          exact (ih e).1 ts' h'
        · intro h hv
          obtain ⟨e, he, h'⟩ := splitFold_fails _ _ _ h
          exact (ih e).2 h' ((hV i).1 hv _ hf e he)
      | or es => simp [trySplit, hf]
      | not e => simp [trySplit, hf]
      | external => simp [trySplit, hf]
      | empty => simp [trySplit, hf]

open Classical in
theorem splitConstraints_whole {E : Env N P} (he : Enumerates E.enum) (hsh : E.Shuffles)
    (hr : Regular E.schema) {rank : Nat → Nat} (hl : Layered E.schema rank) (ext : Ext N P) (node : N)
    (T : N × Nat → Bool) {V : Nat → Prop}
    (hV : Whole E (fun x => T x = true) node (fun i s => ext node i s T = true) V)
    (cs : List (Nat × List Nat)) :
    E.splitConstraints ext node T cs =
      if ∀ c ∈ cs, ¬ FlatExpr E.schema c.1 → V c.1 then
        E.splitConstraints ext node T (cs.filter fun c => FlatExpr E.schema c.1)
      else none := by
  have hck : ∀ i, E.checkConstraint ext node T (E.schema.shapes.length + 1) i = true ↔ V i :=
    whole_unique hl (whole_check he hsh hr hl ext node T) hV
  induction cs with
  | nil => simp [Env.splitConstraints]
  | cons c cs ih =>
    have hsplit := trySplit_general hV (E.schema.shapes.length + 1) c.1
    by_cases hf : FlatExpr E.schema c.1
    · obtain ⟨g1, -⟩ := trySplit_spec hl.grounded node (E.schema.shapes.length + 1) c.1 hf []
        List.nodup_nil (by simp) (by simp)
      have hfil : ((c :: cs).filter fun c => FlatExpr E.schema c.1) =
          c :: cs.filter fun c => FlatExpr E.schema c.1 := by simp [hf]
      have hcond : (∀ c' ∈ c :: cs, ¬ FlatExpr E.schema c'.1 → V c'.1) ↔
          ∀ c' ∈ cs, ¬ FlatExpr E.schema c'.1 → V c'.1 := by
        simp [hf]
      rw [hfil]
      simp only [hcond]
      simp only [Env.splitConstraints]
      cases ht : trySplit E.schema node (E.schema.shapes.length + 1) c.1 with
      | none => exact absurd ht g1
      | some r =>
        cases r with
        | none => simp
        | some tes =>
          rw [ih]
          by_cases hc : ∀ c' ∈ cs, ¬ FlatExpr E.schema c'.1 → V c'.1
          · rw [if_pos hc, if_pos hc]
          · rw [if_neg hc, if_neg hc]; rfl
    · have hfil : ((c :: cs).filter fun c => FlatExpr E.schema c.1) =
          cs.filter fun c => FlatExpr E.schema c.1 := by simp [hf]
      have hcond : (∀ c' ∈ c :: cs, ¬ FlatExpr E.schema c'.1 → V c'.1) ↔
          V c.1 ∧ ∀ c' ∈ cs, ¬ FlatExpr E.schema c'.1 → V c'.1 := by
        simp [hf]
      rw [hfil]
      simp only [hcond]
      rw [show E.splitConstraints ext node T (c :: cs) =
        (match trySplit E.schema node (E.schema.shapes.length + 1) c.1 with
        | some (some tes) =>
          (E.splitConstraints ext node T cs).map fun r => if tes.isEmpty then r else (c.2, tes) :: r
        | some none => none
        | none =>
          if E.checkConstraint ext node T (E.schema.shapes.length + 1) c.1 then
            E.splitConstraints ext node T cs else none) from rfl]
      cases ht : trySplit E.schema node (E.schema.shapes.length + 1) c.1 with
      | none =>
        simp only [ih]
        by_cases hv : V c.1
        · simp only [(hck c.1).2 hv, if_true, hv, true_and]
        · have : ¬ E.checkConstraint ext node T (E.schema.shapes.length + 1) c.1 = true :=
            fun h => hv ((hck c.1).1 h)
          simp [this, hv]
      | some r =>
        cases r with
        | none => simp [hsplit.2 ht]
        | some tes => exact absurd (hsplit.1 tes ht) hf

theorem checkSelection_meets {E : Env N P} (he : Enumerates E.enum) (hsh : E.Shuffles)
    {S : Search N P} (hS : S.Fair) (hr : Regular E.schema) {rank : Nat → Nat}
    (hl : Layered E.schema rank) {s : Shape N P} (hs : Plain s.expr) {σ : Alt} (hn : σ.buckets.Nodup)
    (ext : Ext N P) (node : N) (T : N × Nat → Bool) {V : Nat → Prop}
    (hV : Whole E (fun x => T x = true) node (fun i s => ext node i s T = true) V) :
    E.checkSelection S ext node s T σ = true ↔
      SelectionMeets E (fun x => T x = true) node s σ V := by
  classical
  have hp : ∀ i s, E.schema.At i (.shape s) → Plain s.expr := fun i s h =>
    ⟨(hr i s h).made, (hr i s h).wf, (hr i s h).flat⟩
  unfold SelectionMeets
  rw [← checkSelection_iff he hsh hS hl.grounded hp hs (σ := ⟨σ.buckets,
    σ.constraints.filter (fun c => decide (FlatExpr E.schema c.1))⟩) hn
    (fun c hc => by simpa using (List.mem_filter.1 hc).2) ext node T]
  have hsp := splitConstraints_whole he hsh hr hl ext node T hV σ.constraints
  by_cases hc : ∀ c ∈ σ.constraints, ¬ FlatExpr E.schema c.1 → V c.1
  · rw [if_pos hc] at hsp
    refine Iff.trans ?_ (and_iff_right hc).symm
    unfold Env.checkSelection
    rw [hsp]
    rfl
  · rw [if_neg hc] at hsp
    refine iff_of_false ?_ fun h => hc h.1
    unfold Env.checkSelection
    rw [hsp]
    simp only
    split <;> [simp; split <;> simp]

end Shex
