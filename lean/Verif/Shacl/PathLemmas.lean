import Verif.Shacl.PathSpec
import Mathlib.Data.List.Nodup

/-!
# Lemmas on property paths
-/

namespace Shacl
open Relation

section
variable {T P : Type} [DecidableEq T] [DecidableEq P]

theorem mem_union (a b : List T) (x : T) : x ∈ union a b ↔ x ∈ a ∨ x ∈ b := by
  simp only [union, List.mem_append, List.mem_filter, List.mem_dedup, decide_eq_true_eq]
  tauto

theorem union_nodup {a b : List T} (ha : a.Nodup) : (union a b).Nodup := by
  rw [union, List.nodup_append]
  refine ⟨ha, (List.nodup_dedup b).filter _, ?_⟩
  intro x hx y hy e
  subst e
  simp only [List.mem_filter, decide_eq_true_eq] at hy
  exact hy.2 hx

/-- What is to be shown of an evaluation: with the relation and the failures it stands for. -/
structure Meets (f : T → Out T) (R : T → T → Prop) (F : T → Prop) : Prop where
  ok : ∀ x l, f x = .ok l → ¬ F x ∧ l.Nodup ∧ ∀ y, y ∈ l ↔ R x y
  err : ∀ x, f x = .err → F x
  panic : ∀ x, f x = .panic → F x

theorem collect_spec {f : T → Out T} {R : T → T → Prop} {F : T → Prop} (hf : Meets f R F) (l : List T) :
    ∀ acc : List T, acc.Nodup →
    (∀ r, collect f l acc = .ok r → r.Nodup ∧ (∀ x ∈ l, ¬ F x) ∧ ∀ y, y ∈ r ↔ y ∈ acc ∨ ∃ x ∈ l, R x y) ∧
    (collect f l acc = .err → ∃ x ∈ l, F x) ∧ (collect f l acc = .panic → ∃ x ∈ l, F x) ∧
    ((∀ x, f x ≠ .loop) → collect f l acc ≠ .loop) := by
  induction l with
  | nil =>
    intro acc hacc
    refine ⟨fun r h => ?_, by simp [collect], by simp [collect], by simp [collect]⟩
    cases h
    exact ⟨hacc, by simp, by simp⟩
  | cons x l ih =>
    intro acc hacc
    cases hx : f x with
    | ok r =>
      obtain ⟨h1, h2, h3⟩ := hf.ok x r hx
      obtain ⟨i1, i2, i3, i4⟩ := ih (union acc r) (union_nodup hacc)
      simp only [collect, hx, Out.bind]
      refine ⟨fun s hs => ?_, fun h => ?_, fun h => ?_, i4⟩
      · obtain ⟨j1, j2, j3⟩ := i1 s hs
        refine ⟨j1, ?_, fun y => ?_⟩
        · simpa using ⟨h1, j2⟩
        · rw [j3, mem_union, h3]; simp only [List.mem_cons, exists_eq_or_imp]; tauto
      · obtain ⟨y, hy, hF⟩ := i2 h; exact ⟨y, List.mem_cons_of_mem _ hy, hF⟩
      · obtain ⟨y, hy, hF⟩ := i3 h; exact ⟨y, List.mem_cons_of_mem _ hy, hF⟩
    | err =>
      simp only [collect, hx, Out.bind]
      exact ⟨by simp, fun _ => ⟨x, by simp, hf.err x hx⟩, by simp, by simp⟩
    | panic =>
      simp only [collect, hx, Out.bind]
      exact ⟨by simp, by simp, fun _ => ⟨x, by simp, hf.panic x hx⟩, by simp⟩
    | loop =>
      simp only [collect, hx, Out.bind]
      exact ⟨by simp, by simp, by simp, fun h => absurd hx (h x)⟩

theorem closure_spec {f : T → Out T} {R : T → T → Prop} {F : T → Prop} (hf : Meets f R F)
    {ord : List T → List T} (hord : ∀ l, (ord l).Perm l) (S : T → Prop) :
    ∀ (n : Nat) (acc todo : List T), acc.Nodup → (∀ x ∈ todo, x ∈ acc) → (∀ s, S s → s ∈ acc) →
    (∀ x ∈ acc, ∃ s, S s ∧ ReflTransGen R s x) →
    (∀ x ∈ acc, x ∉ todo → ¬ F x ∧ ∀ y, R x y → y ∈ acc) →
    (∀ r, closure f ord n acc todo = .ok r → r.Nodup ∧
        (∀ y, y ∈ r ↔ ∃ s, S s ∧ ReflTransGen R s y) ∧ ∀ y ∈ r, ¬ F y) ∧
    (closure f ord n acc todo = .err ∨ closure f ord n acc todo = .panic →
        ∃ s y, S s ∧ ReflTransGen R s y ∧ F y) := by
  intro n
  induction n with
  | zero =>
    intro acc todo h1 h2 h3 h4 h5
    cases todo with
    | nil =>
      refine ⟨fun r hr => ?_, by simp [closure]⟩
      simp only [closure, Out.ok.injEq] at hr
      subst hr
      refine ⟨h1, fun y => ⟨h4 y, ?_⟩, fun y hy => (h5 y hy (by simp)).1⟩
      rintro ⟨s, hs, hr⟩
      induction hr with
      | refl => exact h3 s hs
      | tail _ hab ih => exact (h5 _ ih (by simp)).2 _ hab
    | cons x todo => simp [closure]
  | succ n ih =>
    intro acc todo h1 h2 h3 h4 h5
    cases todo with
    | nil =>
      refine ⟨fun r hr => ?_, by simp [closure]⟩
      simp only [closure, Out.ok.injEq] at hr
      subst hr
      refine ⟨h1, fun y => ⟨h4 y, ?_⟩, fun y hy => (h5 y hy (by simp)).1⟩
      rintro ⟨s, hs, hr⟩
      induction hr with
      | refl => exact h3 s hs
      | tail _ hab ih => exact (h5 _ ih (by simp)).2 _ hab
    | cons x todo =>
      have hxacc := h2 x (by simp)
      obtain ⟨s, hs, hsx⟩ := h4 x hxacc
      cases hx : f x with
      | ok r =>
        obtain ⟨k1, k2, k3⟩ := hf.ok x r hx
        have hmem : ∀ y, y ∈ fresh acc (ord r) ↔ R x y ∧ y ∉ acc := by
          intro y
          rw [fresh, List.mem_filter, (hord r).mem_iff, k3]; simp
        simp only [closure, hx, Out.bind]
        apply ih
        · rw [List.nodup_append]
          refine ⟨h1, ((hord r).nodup_iff.2 k2).filter _, ?_⟩
          rintro a ha b hb rfl
          exact ((hmem a).1 hb).2 ha
        · intro y hy
          rcases List.mem_append.1 hy with hy | hy
          · exact List.mem_append_right _ (List.mem_reverse.1 hy)
          · exact List.mem_append_left _ (h2 y (List.mem_cons_of_mem _ hy))
        · intro y hy; exact List.mem_append_left _ (h3 y hy)
        · intro y hy
          rcases List.mem_append.1 hy with hy | hy
          · exact h4 y hy
          · exact ⟨s, hs, hsx.tail ((hmem y).1 hy).1⟩
        · intro y hy hnot
          simp only [List.mem_append, List.mem_reverse, not_or] at hnot
          rcases List.mem_append.1 hy with hy | hy
          · by_cases e : y = x
            · subst e
              refine ⟨k1, fun z hz => ?_⟩
              by_cases hz' : z ∈ acc
              · exact List.mem_append_left _ hz'
              · exact List.mem_append_right _ ((hmem z).2 ⟨hz, hz'⟩)
            · obtain ⟨m1, m2⟩ := h5 y hy (by simp [e, hnot.2])
              exact ⟨m1, fun z hz => List.mem_append_left _ (m2 z hz)⟩
          · exact absurd hy hnot.1
      | err => simp only [closure, hx, Out.bind]; exact ⟨by simp, fun _ => ⟨s, x, hs, hsx, hf.err x hx⟩⟩
      | panic => simp only [closure, hx, Out.bind]; exact ⟨by simp, fun _ => ⟨s, x, hs, hsx, hf.panic x hx⟩⟩
      | loop => simp only [closure, hx, Out.bind]; simp

theorem closure_total {f : T → Out T} {R : T → T → Prop} {F : T → Prop} (hf : Meets f R F)
    (hl : ∀ x, f x ≠ .loop)
    {ord : List T → List T} (hord : ∀ l, (ord l).Perm l) (U : List T) (hU : ∀ x ∈ U, ∀ y, R x y → y ∈ U) :
    ∀ (n : Nat) (acc todo : List T), acc.Nodup → (∀ x ∈ todo, x ∈ acc) → (∀ x ∈ acc, x ∈ U) →
      U.length + todo.length ≤ n + acc.length → closure f ord n acc todo ≠ .loop := by
  intro n
  induction n with
  | zero =>
    intro acc todo h1 h2 h3 h4
    have : acc.length ≤ U.length := (List.subperm_of_subset h1 h3).length_le
    cases todo with
    | nil => simp [closure]
    | cons x todo => simp at h4; omega
  | succ n ih =>
    intro acc todo h1 h2 h3 h4
    cases todo with
    | nil => simp [closure]
    | cons x todo =>
      cases hx : f x with
      | ok r =>
        obtain ⟨k1, k2, k3⟩ := hf.ok x r hx
        have hmem : ∀ y, y ∈ fresh acc (ord r) ↔ R x y ∧ y ∉ acc := by
          intro y
          rw [fresh, List.mem_filter, (hord r).mem_iff, k3]; simp
        simp only [closure, hx, Out.bind]
        apply ih
        · rw [List.nodup_append]
          refine ⟨h1, ((hord r).nodup_iff.2 k2).filter _, ?_⟩
          rintro a ha b hb rfl
          exact ((hmem a).1 hb).2 ha
        · intro y hy
          rcases List.mem_append.1 hy with hy | hy
          · exact List.mem_append_right _ (List.mem_reverse.1 hy)
          · exact List.mem_append_left _ (h2 y (List.mem_cons_of_mem _ hy))
        · intro y hy
          rcases List.mem_append.1 hy with hy | hy
          · exact h3 y hy
          · exact hU x (h3 x (h2 x (by simp))) y ((hmem y).1 hy).1
        · simp only [List.length_append, List.length_reverse, List.length_cons] at h4 ⊢
          omega
      | err => simp [closure, hx, Out.bind]
      | panic => simp [closure, hx, Out.bind]
      | loop => exact absurd hx (hl x)

/-- The terms of a graph. -/
def Graph.terms (g : Graph T P) : List T := g.triples.flatMap fun t => [t.1, t.2.2]

theorem terms_length (g : Graph T P) : g.terms.length = 2 * g.triples.length := by
  unfold Graph.terms
  induction g.triples with
  | nil => rfl
  | cons a l ih => simp only [List.flatMap_cons, List.length_append, ih, List.length_cons]; simp; omega

variable (g : Graph T P)

omit [DecidableEq T] [DecidableEq P] in
mutual
/-- What is related to a node by a path is the node itself or a term of the graph, in both directions. -/
theorem rel_terms : ∀ (q : Path P) (x y : T), Rel g q x y → x = y ∨ (x ∈ g.terms ∧ y ∈ g.terms)
  | .pred p, x, y, h => by
    right
    simp only [Rel] at h
    exact ⟨List.mem_flatMap.2 ⟨_, h, by simp⟩, List.mem_flatMap.2 ⟨_, h, by simp⟩⟩
  | .alt l, x, y, h => by simp only [Rel] at h; exact relAlt_terms l x y h
  | .seq l, x, y, h => by simp only [Rel] at h; exact relSeq_terms l x y h
  | .inv q, x, y, h => by
    simp only [Rel] at h
    rcases rel_terms q y x h with h | h
    · exact Or.inl h.symm
    · exact Or.inr h.symm
  | .star q, x, y, h => by
    simp only [Rel] at h
    induction h with
    | refl => exact Or.inl rfl
    | tail _ hab ih =>
      rcases rel_terms q _ _ hab with h | h
      · rw [← h]; exact ih
      · rcases ih with ih | ih
        · rw [ih]; exact Or.inr h
        · exact Or.inr ⟨ih.1, h.2⟩
  | .plus q, x, y, h => by
    simp only [Rel] at h
    induction h with
    | single hab => exact rel_terms q _ _ hab
    | tail _ hab ih =>
      rcases rel_terms q _ _ hab with h | h
      · rw [← h]; exact ih
      · rcases ih with ih | ih
        · rw [ih]; exact Or.inr h
        · exact Or.inr ⟨ih.1, h.2⟩
  | .opt q, x, y, h => by
    simp only [Rel] at h
    rcases h with h | h
    · exact Or.inl h.symm
    · exact rel_terms q x y h
theorem relAlt_terms : ∀ (l : List (Path P)) (x y : T), RelAlt g l x y → x = y ∨ (x ∈ g.terms ∧ y ∈ g.terms)
  | [], _, _, h => absurd h (by simp [RelAlt])
  | q :: l, x, y, h => by
    simp only [RelAlt] at h
    rcases h with h | h
    · exact rel_terms q x y h
    · exact relAlt_terms l x y h
theorem relSeq_terms : ∀ (l : List (Path P)) (x y : T), RelSeq g l x y → x = y ∨ (x ∈ g.terms ∧ y ∈ g.terms)
  | [], _, _, h => by simp only [RelSeq] at h; exact Or.inl h.symm
  | q :: l, x, y, h => by
    simp only [RelSeq] at h
    obtain ⟨z, h1, h2⟩ := h
    rcases rel_terms q x z h1 with h | h
    · rw [h]; exact relSeq_terms l z y h2
    · rcases relSeq_terms l z y h2 with h' | h'
      · rw [← h']; exact Or.inr h
      · exact Or.inr ⟨h.1, h'.2⟩
end

variable {ord : List T → List T} (hord : ∀ l, (ord l).Perm l) (n : Nat)

theorem transGen_start {R : T → T → Prop} {x y : T} : TransGen R x y ↔ ∃ s, R x s ∧ ReflTransGen R s y :=
  TransGen.head'_iff

include hord

mutual
theorem eval_meets : ∀ q : Path P, Meets (eval g ord n q) (Rel g q) (Fails g q)
  | .pred p => by
    refine ⟨fun x l h => ?_, fun x h => ?_, fun x h => ?_⟩
    · simp only [eval, Graph.objects] at h
      split at h
      · rename_i hs
        cases h
        refine ⟨by simp [Fails, hs], List.nodup_dedup _, fun y => ?_⟩
        simp only [List.mem_dedup, List.mem_map, List.mem_filter, decide_eq_true_eq, Rel]
        constructor
        · rintro ⟨⟨a, b, c⟩, ⟨h1, rfl, rfl⟩, rfl⟩; exact h1
        · intro h; exact ⟨_, ⟨h, rfl, rfl⟩, rfl⟩
      · cases h
    · simp only [eval, Graph.objects] at h
      split at h
      · cases h
      · rename_i hs; simpa [Fails] using hs
    · simp only [eval, Graph.objects] at h
      split at h <;> cases h
  | .alt l => by
    have := fun x => evalAlt_spec l x [] (by simp)
    refine ⟨fun x r h => ?_, fun x h => ?_, fun x h => ?_⟩
    · simp only [eval] at h
      obtain ⟨h1, h2, h3⟩ := (this x).1 r h
      simp only [Fails, Rel]
      exact ⟨h2, h1, fun y => by simp [h3]⟩
    · simp only [eval] at h; simp only [Fails]; exact (this x).2 (Or.inl h)
    · simp only [eval] at h; simp only [Fails]; exact (this x).2 (Or.inr h)
  | .seq l => by
    have := evalSeq_meets l
    refine ⟨fun x r h => ?_, fun x h => ?_, fun x h => ?_⟩
    · simp only [eval] at h; simp only [Fails, Rel]; exact this.ok x r h
    · simp only [eval] at h; simp only [Fails]; exact this.err x h
    · simp only [eval] at h; simp only [Fails]; exact this.panic x h
  | .inv q => by
    cases q with
    | pred p =>
      refine ⟨fun x r h => ?_, fun x h => ?_, fun x h => ?_⟩
      · simp only [eval, Graph.subjects, Out.ok.injEq] at h
        subst h
        refine ⟨by simp [Fails, isPred], List.nodup_dedup _, fun y => ?_⟩
        simp only [List.mem_dedup, List.mem_map, List.mem_filter, decide_eq_true_eq, Rel]
        constructor
        · rintro ⟨⟨a, b, c⟩, ⟨h1, rfl, rfl⟩, rfl⟩; exact h1
        · intro h; exact ⟨_, ⟨h, rfl, rfl⟩, rfl⟩
      · simp [eval, Graph.subjects] at h
      · simp [eval, Graph.subjects] at h
    | _ =>
      refine ⟨fun x r h => ?_, fun x h => ?_, fun x h => ?_⟩
      · simp [eval] at h
      · simp [Fails, isPred]
      · simp [Fails, isPred]
  | .star q => by
    have ih := eval_meets q
    have key := fun x => closure_spec ih hord (fun s => s = x) n [x] [x] (by simp) (by simp)
      (by simp) (by intro y hy; exact ⟨x, rfl, by simp at hy; rw [hy]⟩) (by intro y hy h; exact absurd hy h)
    refine ⟨fun x r h => ?_, fun x h => ?_, fun x h => ?_⟩
    · simp only [eval] at h
      obtain ⟨h1, h2, h3⟩ := (key x).1 r h
      simp only [exists_eq_left] at h2
      refine ⟨?_, h1, fun y => by rw [h2]; simp only [Rel]⟩
      simp only [Fails]
      rintro ⟨y, hy, hF⟩
      exact h3 y ((h2 y).2 hy) hF
    · simp only [eval] at h
      obtain ⟨s, y, rfl, h1, h2⟩ := (key x).2 (Or.inl h)
      simp only [Fails]; exact ⟨y, h1, h2⟩
    · simp only [eval] at h
      obtain ⟨s, y, rfl, h1, h2⟩ := (key x).2 (Or.inr h)
      simp only [Fails]; exact ⟨y, h1, h2⟩
  | .plus q => by
    have ih := eval_meets q
    have key := fun x r (hr : eval g ord n q x = .ok r) =>
      closure_spec ih hord (fun s => Rel g q x s) n r (ord r).reverse (ih.ok x r hr).2.1
        (by intro y hy; exact (hord r).mem_iff.1 (List.mem_reverse.1 hy))
        (by intro y hy; exact ((ih.ok x r hr).2.2 y).2 hy)
        (by intro y hy; exact ⟨y, ((ih.ok x r hr).2.2 y).1 hy, .refl⟩)
        (by intro y hy h; exact absurd (List.mem_reverse.2 ((hord r).mem_iff.2 hy)) h)
    refine ⟨fun x r h => ?_, fun x h => ?_, fun x h => ?_⟩
    · simp only [eval] at h
      cases hx : eval g ord n q x with
      | ok r0 =>
        rw [hx] at h
        obtain ⟨h1, h2, h3⟩ := (key x r0 hx).1 r h
        refine ⟨?_, h1, fun y => by rw [h2]; simp only [Rel]; exact transGen_start.symm⟩
        simp only [Fails]
        rintro ⟨y, hy, hF⟩
        rcases ReflTransGen.cases_head hy with rfl | ⟨z, hz, hzy⟩
        · exact (ih.ok _ r0 hx).1 hF
        · exact h3 y ((h2 y).2 ⟨z, hz, hzy⟩) hF
      | err => rw [hx] at h; cases h
      | panic => rw [hx] at h; cases h
      | loop => rw [hx] at h; cases h
    · simp only [eval] at h
      simp only [Fails]
      cases hx : eval g ord n q x with
      | ok r0 =>
        rw [hx] at h
        obtain ⟨s, y, h1, h2, h3⟩ := (key x r0 hx).2 (Or.inl h)
        exact ⟨y, .head h1 h2, h3⟩
      | err => exact ⟨x, .refl, ih.err x hx⟩
      | panic => exact ⟨x, .refl, ih.panic x hx⟩
      | loop => rw [hx] at h; cases h
    · simp only [eval] at h
      simp only [Fails]
      cases hx : eval g ord n q x with
      | ok r0 =>
        rw [hx] at h
        obtain ⟨s, y, h1, h2, h3⟩ := (key x r0 hx).2 (Or.inr h)
        exact ⟨y, .head h1 h2, h3⟩
      | err => exact ⟨x, .refl, ih.err x hx⟩
      | panic => exact ⟨x, .refl, ih.panic x hx⟩
      | loop => rw [hx] at h; cases h
  | .opt q => by
    have ih := eval_meets q
    refine ⟨fun x r h => ?_, fun x h => ?_, fun x h => ?_⟩
    · simp only [eval] at h
      cases hx : eval g ord n q x with
      | ok r0 =>
        rw [hx] at h
        cases h
        obtain ⟨h1, h2, h3⟩ := ih.ok x r0 hx
        simp only [Fails, Rel]
        exact ⟨h1, union_nodup (by simp), fun y => by rw [mem_union, h3]; simp⟩
      | err => rw [hx] at h; cases h
      | panic => rw [hx] at h; cases h
      | loop => rw [hx] at h; cases h
    · simp only [eval] at h
      simp only [Fails]
      cases hx : eval g ord n q x with
      | ok r0 => rw [hx] at h; cases h
      | err => exact ih.err x hx
      | panic => exact ih.panic x hx
      | loop => rw [hx] at h; cases h
    · simp only [eval] at h
      simp only [Fails]
      cases hx : eval g ord n q x with
      | ok r0 => rw [hx] at h; cases h
      | err => exact ih.err x hx
      | panic => exact ih.panic x hx
      | loop => rw [hx] at h; cases h
theorem evalAlt_spec : ∀ (l : List (Path P)) (x : T) (acc : List T), acc.Nodup →
    (∀ r, evalAlt g ord n l x acc = .ok r → r.Nodup ∧ ¬ FailsAlt g l x ∧ ∀ y, y ∈ r ↔ y ∈ acc ∨ RelAlt g l x y) ∧
    (evalAlt g ord n l x acc = .err ∨ evalAlt g ord n l x acc = .panic → FailsAlt g l x)
  | [], x, acc, hacc => by
    refine ⟨fun r h => ?_, by simp [evalAlt]⟩
    simp only [evalAlt, Out.ok.injEq] at h
    subst h
    simp only [FailsAlt, RelAlt]
    exact ⟨hacc, by simp, by simp⟩
  | q :: l, x, acc, hacc => by
    have ih := eval_meets q
    simp only [evalAlt, FailsAlt, RelAlt]
    cases hx : eval g ord n q x with
    | ok r0 =>
      obtain ⟨h1, h2, h3⟩ := ih.ok x r0 hx
      obtain ⟨i1, i2⟩ := evalAlt_spec l x (union acc r0) (union_nodup hacc)
      simp only [Out.bind]
      refine ⟨fun r h => ?_, fun h => Or.inr (i2 h)⟩
      obtain ⟨j1, j2, j3⟩ := i1 r h
      exact ⟨j1, by simp [h1, j2], fun y => by rw [j3, mem_union, h3, or_assoc]⟩
    | err => simp only [Out.bind]; exact ⟨by simp, fun _ => Or.inl (ih.err x hx)⟩
    | panic => simp only [Out.bind]; exact ⟨by simp, fun _ => Or.inl (ih.panic x hx)⟩
    | loop => simp [Out.bind]
theorem evalSeq_meets : ∀ l : List (Path P), Meets (evalSeq g ord n l) (RelSeq g l) (FailsSeq g l)
  | [] => by
    refine ⟨fun x r h => ?_, fun x h => ?_, fun x h => ?_⟩
    · simp only [evalSeq, Out.ok.injEq] at h
      subst h
      simp only [FailsSeq, RelSeq]
      exact ⟨by simp, by simp, by simp⟩
    · simp [evalSeq] at h
    · simp [evalSeq] at h
  | q :: l => by
    have ih := eval_meets q
    have ihl := evalSeq_meets l
    refine ⟨fun x r h => ?_, fun x h => ?_, fun x h => ?_⟩
    · simp only [evalSeq] at h
      cases hx : eval g ord n q x with
      | ok r0 =>
        rw [hx] at h
        obtain ⟨h1, h2, h3⟩ := ih.ok x r0 hx
        obtain ⟨i1, i2, i3⟩ := (collect_spec ihl (ord r0) [] (by simp)).1 r h
        have hm : ∀ z, z ∈ ord r0 ↔ Rel g q x z := fun z => by rw [(hord r0).mem_iff, h3]
        simp only [FailsSeq, RelSeq]
        refine ⟨?_, i1, fun y => ?_⟩
        · rintro (h | ⟨z, hz, hF⟩)
          · exact h1 h
          · exact i2 z ((hm z).2 hz) hF
        · rw [i3]; simp [hm]
      | err => rw [hx] at h; cases h
      | panic => rw [hx] at h; cases h
      | loop => rw [hx] at h; cases h
    · simp only [evalSeq] at h
      simp only [FailsSeq]
      cases hx : eval g ord n q x with
      | ok r0 =>
        rw [hx] at h
        obtain ⟨h1, h2, h3⟩ := ih.ok x r0 hx
        obtain ⟨z, hz, hF⟩ := (collect_spec ihl (ord r0) [] (by simp)).2.1 h
        exact Or.inr ⟨z, (h3 z).1 ((hord r0).mem_iff.1 hz), hF⟩
      | err => exact Or.inl (ih.err x hx)
      | panic => exact Or.inl (ih.panic x hx)
      | loop => rw [hx] at h; cases h
    · simp only [evalSeq] at h
      simp only [FailsSeq]
      cases hx : eval g ord n q x with
      | ok r0 =>
        rw [hx] at h
        obtain ⟨h1, h2, h3⟩ := ih.ok x r0 hx
        obtain ⟨z, hz, hF⟩ := (collect_spec ihl (ord r0) [] (by simp)).2.2.1 h
        exact Or.inr ⟨z, (h3 z).1 ((hord r0).mem_iff.1 hz), hF⟩
      | err => exact Or.inl (ih.err x hx)
      | panic => exact Or.inl (ih.panic x hx)
      | loop => rw [hx] at h; cases h
end

theorem loop_start (hn : 2 * g.triples.length + 1 ≤ n) (q : Path P) (hl : ∀ x, eval g ord n q x ≠ .loop) (x : T)
    (acc todo : List T) (h1 : acc.Nodup) (h2 : ∀ y ∈ todo, y ∈ acc) (h3 : ∀ y ∈ acc, y = x ∨ y ∈ g.terms)
    (h4 : todo.length ≤ acc.length) : closure (eval g ord n q) ord n acc todo ≠ .loop := by
  apply closure_total (eval_meets g hord n q) hl hord (x :: g.terms)
  · intro a ha b hab
    rcases rel_terms g q a b hab with rfl | h
    · exact ha
    · exact List.mem_cons_of_mem _ h.2
  · exact h1
  · exact h2
  · intro y hy; exact List.mem_cons.2 (h3 y hy)
  · rw [List.length_cons, terms_length]; omega

mutual
theorem eval_total (hn : 2 * g.triples.length + 1 ≤ n) : ∀ (q : Path P) (x : T), eval g ord n q x ≠ .loop
  | .pred p, x => by simp only [eval, Graph.objects]; split <;> simp
  | .alt l, x => by simp only [eval]; exact evalAlt_total hn l x []
  | .seq l, x => by simp only [eval]; exact evalSeq_total hn l x
  | .inv q, x => by cases q <;> simp [eval, Graph.subjects]
  | .star q, x => by
    simp only [eval]
    exact loop_start g hord n hn q (eval_total hn q) x [x] [x] (by simp) (by simp) (by simp) (by simp)
  | .plus q, x => by
    have ih := eval_meets g hord n q
    simp only [eval]
    cases hx : eval g ord n q x with
    | ok r =>
      simp only [Out.bind]
      obtain ⟨h1, h2, h3⟩ := ih.ok x r hx
      refine loop_start g hord n hn q (eval_total hn q) x r _ h2 ?_ ?_ ?_
      · intro y hy; exact (hord r).mem_iff.1 (List.mem_reverse.1 hy)
      · intro y hy
        rcases rel_terms g q x y ((h3 y).1 hy) with h | h
        · exact Or.inl h.symm
        · exact Or.inr h.2
      · exact Nat.le_of_eq (by rw [List.length_reverse, (hord r).length_eq])
    | err => simp [Out.bind]
    | panic => simp [Out.bind]
    | loop => exact absurd hx (eval_total hn q x)
  | .opt q, x => by
    simp only [eval]
    cases hx : eval g ord n q x with
    | loop => exact absurd hx (eval_total hn q x)
    | _ => simp [Out.bind]
theorem evalAlt_total (hn : 2 * g.triples.length + 1 ≤ n) : ∀ (l : List (Path P)) (x : T) (acc : List T),
    evalAlt g ord n l x acc ≠ .loop
  | [], x, acc => by simp [evalAlt]
  | q :: l, x, acc => by
    simp only [evalAlt]
    cases hx : eval g ord n q x with
    | loop => exact absurd hx (eval_total hn q x)
    | ok r => simp only [Out.bind]; exact evalAlt_total hn l x _
    | _ => simp [Out.bind]
theorem evalSeq_total (hn : 2 * g.triples.length + 1 ≤ n) : ∀ (l : List (Path P)) (x : T),
    evalSeq g ord n l x ≠ .loop
  | [], x => by simp [evalSeq]
  | q :: l, x => by
    simp only [evalSeq]
    cases hx : eval g ord n q x with
    | loop => exact absurd hx (eval_total hn q x)
    | ok r =>
      simp only [Out.bind]
      exact (collect_spec (evalSeq_meets g hord n l) _ [] (by simp)).2.2.2 (evalSeq_total hn l)
    | _ => simp [Out.bind]
end

end
end Shacl
