import Verif.Rbe.LemmasTable

/-!
# Properties C11, C12, C13 (table matching) and the `RbeCond` half of C09
-/

namespace Rbe
variable {K V C R : Type} [DecidableEq K] [DecidableEq V] [DecidableEq R]

/-- C09, for conditioned expressions: `RbeCond::nullable` is membership of the empty bag as soon as
every repeated group has `min ≤ max`. -/
theorem C09_cond_nullable_iff {A : Type} (e : Expr A) (h : MinMax e) :
    e.condNullable = true ↔ Lang e 0 := condNullable_iff e h

example : MinMax (.and [.star (.symbol 0 ⟨1, .intMax 1⟩), .repeat (.or [.symbol 1 ⟨0, .unbounded⟩])
    ⟨2, .intMax 3⟩] : Expr Nat) := by
  simp [MinMax, MinMaxList, Card.Holds]

/-! ## Helper facts -/

theorem one_lt_length_iff {l : List Nat} (h : l.Nodup) :
    l.length > 1 ↔ ∃ c d, c ≠ d ∧ c ∈ l ∧ d ∈ l := by
  constructor
  · intro hl
    match l, hl with
    | a :: b :: l, _ =>
      refine ⟨a, b, ?_, by simp, by simp⟩
      rintro rfl
      simp at h
  · rintro ⟨c, d, hne, hc, hd⟩
    match l, hc, hd with
    | [a], hc, hd =>
      simp only [List.mem_singleton] at hc hd
      exact (hne (hc.trans hd.symm)).elim
    | a :: b :: l, _, _ => simp

theorem candidates_nil_iff {t : Table K V C R} (h : t.Inv) (x : K × V × C) :
    t.candidates x = [] ↔ t.Unplaceable x := by
  rw [List.eq_nil_iff_forall_not_mem]
  have hlen : (t.componentsOf x.1).length > 1 ↔
      ∃ c d, c ≠ d ∧ t.getKey c = some x.1 ∧ t.getKey d = some x.1 := by
    rw [one_lt_length_iff (h.nodup x.1)]
    simp only [h.mem]
  constructor
  · intro hn
    by_cases hk : ∀ c, t.getKey c ≠ some x.1
    · exact Or.inl hk
    · right
      have htk : ∀ c, ¬ t.Takes x c := by
        rintro c ⟨h1, cond, h2, h3⟩
        exact hn ⟨x.1, x.2.1, x.2.2, c, cond⟩
          ((mem_candidates h x _).2 ⟨rfl, rfl, rfl, h1, h2, fun _ => h3⟩)
      refine ⟨?_, htk⟩
      by_contra hno
      rw [← hlen] at hno
      push Not at hk
      obtain ⟨c, hc⟩ := hk
      obtain ⟨cond, hcond⟩ := h.cond_of_key hc
      exact hn ⟨x.1, x.2.1, x.2.2, c, cond⟩
        ((mem_candidates h x _).2 ⟨rfl, rfl, rfl, hc, hcond, fun hl => (hno hl).elim⟩)
  · rintro (hk | ⟨hd, htk⟩) a ha
    · exact hk _ ((mem_candidates h x a).1 ha).2.2.2.1
    · obtain ⟨_, _, _, h4, h5, h6⟩ := (mem_candidates h x a).1 ha
      exact htk a.comp ⟨h4, a.cond, h5, h6 (hlen.2 hd)⟩

/-! ## C12 -/

/-- C12, completeness: every valid assignment is found, with exactly its pending references. -/
theorem C12_every_assignment_found (t : Table K V C R) (ht : t.Made)
    (hwf : WF t.rbe.rbe) (hflat : SingleOcc t.rbe.rbe → RepeatFlat t.rbe.rbe)
    (enum : List Nat → List (Nat × Nat)) (he : Enumerates enum) (values : List (K × V × C))
    (cs : List Nat) (ha : t.Assignment values cs) :
    ∃ p, some p ∈ t.items enum values ∧ t.Collects values cs p := by
  have hi := Table.inv_of_made ht
  have hdec := decides_of hi.built hwf hflat
  obtain ⟨vs, rfl, hm, hs⟩ := cands_of_forall2 hi values cs ha.1
  obtain ⟨p, hp, hd, hk⟩ := (evalCands_spec vs Pending.empty).1 hs
  have hcol : t.Collects values (vs.map Cand.comp) p := by
    refine ⟨fun w r => ?_, fun w r k => ?_⟩
    · rw [hd, ← requires_iff hi values vs hm]
      simp [dep_empty]
    · rw [hk, ← requiresKey_iff hi values vs hm]
      simp [key_empty]
  rw [items_eq]
  by_cases hc : ∀ x ∈ values, t.candidates x = []
  · rw [if_pos hc]
    have hv : values = [] := by
      cases values with
      | nil => rfl
      | cons x values =>
        cases hm with
        | cons hx _ =>
          rw [hc x (by simp)] at hx
          cases hx
    subst hv
    cases hm
    refine ⟨p, ?_, hcol⟩
    have hl : Lang t.rbe.rbe 0 := by simpa using ha.2
    have hn := (condNullable_iff _ (minMax_of_sane _ (sane_of_wf _ hwf))).2 hl
    simp only [Table.emptyItems, condNullable_map, hn, if_true, List.mem_singleton,
      Option.some.injEq]
    simpa [Table.evalCands] using hp.symm
  · rw [if_neg hc]
    refine ⟨p, (mem_items_product hi values p).2 ⟨vs, hm, hp, ?_⟩, hcol⟩
    rw [hdec _ (he _).1, (he _).2]
    exact ha.2

/-- C12, soundness, as far as it holds: a success comes from a valid assignment and carries exactly
its pending references, provided the neighbourhood is empty or some triple is placeable. Missing
from the full statement: neighbourhoods all of whose triples are unplaceable, see `C12_refuted`. -/
theorem C12_success_from_assignment_partial (t : Table K V C R) (ht : t.Made)
    (hwf : WF t.rbe.rbe) (hflat : SingleOcc t.rbe.rbe → RepeatFlat t.rbe.rbe)
    (enum : List Nat → List (Nat × Nat)) (he : Enumerates enum) (values : List (K × V × C))
    (hpl : values = [] ∨ ∃ x ∈ values, ¬ t.Unplaceable x)
    (p : Pending K V R) (hp : some p ∈ t.items enum values) :
    ∃ cs, t.Assignment values cs ∧ t.Collects values cs p := by
  have hi := Table.inv_of_made ht
  have hdec := decides_of hi.built hwf hflat
  rw [items_eq] at hp
  by_cases hc : ∀ x ∈ values, t.candidates x = []
  · rw [if_pos hc] at hp
    have hv : values = [] := by
      rcases hpl with h | ⟨x, hx, hn⟩
      · exact h
      · exact (hn ((candidates_nil_iff hi x).1 (hc x hx))).elim
    subst hv
    simp only [Table.emptyItems, condNullable_map, List.mem_singleton] at hp
    split at hp
    · rename_i hn
      injection hp with hp
      subst hp
      refine ⟨[], ⟨.nil, ?_⟩, fun w r => ?_, fun w r k => ?_⟩
      · have := (condNullable_iff _ (minMax_of_sane _ (sane_of_wf _ hwf))).1 hn
        simpa using this
      · simp [dep_empty, Table.Requires]
      · simp [key_empty, Table.RequiresKey]
    · cases hp
  · rw [if_neg hc] at hp
    obtain ⟨vs, hm, hev, hacc⟩ := (mem_items_product hi values p).1 hp
    have hs : ∀ x ∈ vs, x.cond.Sat x.value x.ctx := by
      by_contra h
      rw [(evalCands_spec vs Pending.empty).2 h] at hev
      cases hev
    obtain ⟨q, hq, hd, hk⟩ := (evalCands_spec vs Pending.empty).1 hs
    rw [hev] at hq
    injection hq with hq
    subst hq
    refine ⟨vs.map Cand.comp, ⟨forall2_cands hi values vs hm hs, ?_⟩, fun w r => ?_, fun w r k => ?_⟩
    · rw [hdec _ (he _).1, (he _).2] at hacc
      exact hacc
    · rw [hd, ← requires_iff hi values vs hm]
      simp [dep_empty]
    · rw [hk, ← requiresKey_iff hi values vs hm]
      simp [key_empty]

/-- Exact description of when matching succeeds: a valid assignment exists, or every triple is
unplaceable and the expression accepts the empty bag. The second disjunct is the deviation. -/
theorem C12_success_iff (t : Table K V C R) (ht : t.Made)
    (hwf : WF t.rbe.rbe) (hflat : SingleOcc t.rbe.rbe → RepeatFlat t.rbe.rbe)
    (enum : List Nat → List (Nat × Nat)) (he : Enumerates enum) (values : List (K × V × C)) :
    (∃ p, some p ∈ t.items enum values) ↔
      (∃ cs, t.Assignment values cs) ∨ ((∀ x ∈ values, t.Unplaceable x) ∧ Lang t.rbe.rbe 0) := by
  have hi := Table.inv_of_made ht
  constructor
  · rintro ⟨p, hp⟩
    by_cases hu : ∀ x ∈ values, t.Unplaceable x
    · right
      refine ⟨hu, ?_⟩
      rw [items_eq, if_pos fun x hx => (candidates_nil_iff hi x).2 (hu x hx)] at hp
      simp only [Table.emptyItems, condNullable_map, List.mem_singleton] at hp
      split at hp
      · rename_i hn
        exact (condNullable_iff _ (minMax_of_sane _ (sane_of_wf _ hwf))).1 hn
      · cases hp
    · left
      push Not at hu
      obtain ⟨cs, hcs, _⟩ := C12_success_from_assignment_partial t ht hwf hflat enum he values
        (Or.inr hu) p hp
      exact ⟨cs, hcs⟩
  · rintro (⟨cs, hcs⟩ | ⟨hu, hl⟩)
    · obtain ⟨p, hp, _⟩ := C12_every_assignment_found t ht hwf hflat enum he values cs hcs
      exact ⟨p, hp⟩
    · refine ⟨Pending.empty, ?_⟩
      rw [items_eq, if_pos fun x hx => (candidates_nil_iff hi x).2 (hu x hx)]
      have hn := (condNullable_iff _ (minMax_of_sane _ (sane_of_wf _ hwf))).2 hl
      simp [Table.emptyItems, condNullable_map, hn]

/-! ### A concrete enumeration and a concrete table -/

/-- One order of enumerating a hash bag. -/
def enumDedup (l : List Nat) : List (Nat × Nat) := l.dedup.map fun c => (c, l.count c)

theorem bagCount_map (d : List Nat) (hd : d.Nodup) (f : Nat → Nat) (a : Nat) :
    Expr.bagCount (d.map fun c => (c, f c)) a = if a ∈ d then f a else 0 := by
  induction d with
  | nil => simp [Expr.bagCount]
  | cons c d ih =>
    rw [List.nodup_cons] at hd
    simp only [List.map_cons, Expr.bagCount, ih hd.2, List.mem_cons]
    by_cases h : c = a
    · subst h; simp [hd.1]
    · have : ¬ a = c := fun h' => h h'.symm
      simp [h, this]

theorem enumDedup_enumerates : Enumerates enumDedup := by
  intro l
  refine ⟨⟨?_, ?_⟩, ?_⟩
  · intro p hp
    obtain ⟨c, hc, rfl⟩ := List.mem_map.1 hp
    exact List.count_pos_iff.2 (List.mem_dedup.1 hc)
  · have : (enumDedup l).map Prod.fst = l.dedup := by
      simp [enumDedup, Function.comp_def]
    rw [this]
    exact List.nodup_dedup l
  · ext a
    have := congrFun (bagCount_eq (enumDedup l)) a
    rw [← this]
    unfold enumDedup
    rw [bagCount_map _ (List.nodup_dedup l)]
    simp only [List.mem_dedup, Multiset.coe_count]
    split
    · rfl
    · rename_i h
      exact (List.count_eq_zero.2 h).symm

/-- The value set `[n]`. -/
def isVal (n : Nat) : Cond Nat Nat Unit Nat :=
  .single (some fun v _ => if v = n then some Pending.empty else none)

/-- `{ :0 [1] ? ; :0 [2] ? }` -/
def exOpt : Table Nat Nat Unit Nat :=
  ((Table.new.addComponent 0 (isVal 1)).addComponent 0 (isVal 2)).withRbe
    (Struct.and [Struct.symbol 0 0 (.intMax 1), Struct.symbol 1 0 (.intMax 1)])

theorem exOpt_made : exOpt.Made := by
  refine .withRbe _ _ (.and _ ?_) (.add _ _ _ (.add _ _ _ .new))
  intro s hs
  simp only [List.mem_cons, List.not_mem_nil, or_false] at hs
  rcases hs with rfl | rfl
  · exact .symbol 0 0 (.intMax 1)
  · exact .symbol 1 0 (.intMax 1)

/-- The full claim C12. -/
def C12_statement : Prop :=
  ∀ (t : Table Nat Nat Unit Nat), t.Made → WF t.rbe.rbe → RepeatFlat t.rbe.rbe →
    ∀ enum, Enumerates enum → ∀ values : List (Nat × Nat × Unit),
      (∀ x ∈ values, ∃ c, t.getKey c = some x.1) →
      ((∃ p, some p ∈ t.items enum values) ↔ ∃ cs, t.Assignment values cs)

/-- C12 is false of the code: `{ :0 [1] ? ; :0 [2] ? }` accepts a node whose only value is 3. -/
theorem C12_refuted : ¬ C12_statement := by
  intro h
  have := (h exOpt exOpt_made (by simp [exOpt, Table.withRbe, Struct.and, Struct.symbol, WF, WFList])
    (by simp [exOpt, Table.withRbe, Struct.and, Struct.symbol, RepeatFlat, RepeatFlatList])
    enumDedup enumDedup_enumerates [(0, 3, ())] (by simp; exact ⟨0, rfl⟩)).1 ⟨Pending.empty, by decide⟩
  obtain ⟨cs, hf, _⟩ := this
  match cs, hf with
  | c :: _, .cons hx _ =>
    obtain ⟨hk, cond, hc, hs⟩ := hx
    match c, hk, hc with
    | 0, _, hc =>
      have : cond = isVal 1 := (Option.some.inj hc).symm
      subst this
      simp [isVal, Cond.Sat] at hs
    | 1, _, hc =>
      have : cond = isVal 2 := (Option.some.inj hc).symm
      subst this
      simp [isVal, Cond.Sat] at hs
    | n + 2, _, hc =>
      simp [exOpt, Table.withRbe, Table.addComponent, Table.new, Table.getCondition, upsert, alookup] at hc

/-- `{ :0 @7 ; :0 [2] ? }`: a reference and a value set for the same key. -/
def exRef : Table Nat Nat Unit Nat :=
  ((Table.new.addComponent 0 (.ref 7)).addComponent 0 (isVal 2)).withRbe
    (Struct.and [Struct.symbol 0 1 (.intMax 1), Struct.symbol 1 0 (.intMax 1)])

/-- The hypotheses of the C12 theorems are met by a table with two components for one key, and
matching finds both assignments of the values 2 and 3. -/
example : exRef.Made ∧ WF exRef.rbe.rbe ∧ RepeatFlat exRef.rbe.rbe ∧ Enumerates enumDedup ∧
    exRef.Assignment [(0, 2, ()), (0, 3, ())] [1, 0] ∧
    exRef.items enumDedup [(0, 2, ()), (0, 3, ())] = [some [(3, [(7, [0])])]] := by
  have hb : exRef.Made := by
    refine .withRbe _ _ (.and _ ?_) (.add _ _ _ (.add _ _ _ .new))
    intro s hs
    simp only [List.mem_cons, List.not_mem_nil, or_false] at hs
    rcases hs with rfl | rfl
    · exact .symbol 0 1 (.intMax 1)
    · exact .symbol 1 0 (.intMax 1)
  refine ⟨hb, by simp [exRef, Table.withRbe, Struct.and, Struct.symbol, WF, WFList],
    by simp [exRef, Table.withRbe, Struct.and, Struct.symbol, RepeatFlat, RepeatFlatList],
    enumDedup_enumerates, ⟨?_, ?_⟩, by decide⟩
  · refine .cons ⟨rfl, isVal 2, rfl, by simp [isVal, Cond.Sat]⟩
      (.cons ⟨rfl, .ref 7, rfl, by simp [Cond.Sat]⟩ .nil)
  · refine ⟨{0}, {1}, by decide, ⟨1, by simp [Card.Holds], rfl⟩, {1}, 0, by decide,
      ⟨1, by simp [Card.Holds], rfl⟩, rfl⟩

/-! ## C13 -/

/-- C13: once an error item is yielded, no item of the iteration is a success. -/
theorem C13_error_item_excludes_success (t : Table K V C R) (ht : t.Made)
    (enum : List Nat → List (Nat × Nat)) (values : List (K × V × C))
    (herr : none ∈ t.items enum values) : ∀ p, some p ∉ t.items enum values := by
  have hi := Table.inv_of_made ht
  intro p hp
  rw [items_eq] at herr hp
  split at herr
  · rename_i hc
    rw [if_pos hc] at hp
    simp only [Table.emptyItems, List.mem_singleton] at herr hp
    rw [← herr] at hp
    cases hp
  · rename_i hc
    rw [if_neg hc] at hp
    obtain ⟨vs, hm, hev, _⟩ := (mem_items_product hi values p).1 hp
    have hs : ∀ x ∈ vs, x.cond.Sat x.value x.ctx := by
      by_contra h
      rw [(evalCands_spec vs Pending.empty).2 h] at hev
      cases hev
    rw [List.mem_filterMap] at herr
    obtain ⟨ws, hws, hst⟩ := herr
    rw [mem_product] at hws
    have hws2 : ¬ ∀ x ∈ ws, x.cond.Sat x.value x.ctx := by
      intro h
      obtain ⟨q, hq, _⟩ := (evalCands_spec ws Pending.empty).1 h
      simp only [Table.step, hq] at hst
      split at hst <;> cases hst
    apply hws2
    clear hws2 hst hev hp hc
    rename_i hacc
    clear hacc
    induction values generalizing vs ws with
    | nil =>
      cases hws
      simp
    | cons x values ih =>
      cases hm with
      | cons ha has =>
        cases hws with
        | cons hb hbs =>
          rename_i a as b bs
          intro y hy
          rcases List.mem_cons.1 hy with rfl | hy
          · obtain ⟨a1, a2, a3, a4, a5, a6⟩ := (mem_candidates hi x a).1 ha
            obtain ⟨b1, b2, b3, b4, b5, b6⟩ := (mem_candidates hi x y).1 hb
            by_cases hl : (t.componentsOf x.1).length > 1
            · rw [b2, b3]
              exact b6 hl
            · have : a.comp = y.comp := by
                by_contra hne
                exact hl ((one_lt_length_iff (hi.nodup _)).2
                  ⟨_, _, hne, (hi.mem _ _).2 a4, (hi.mem _ _).2 b4⟩)
              rw [this, b5] at a5
              injection a5 with a5
              rw [b2, b3, a5, ← a2, ← a3]
              exact hs a (by simp)
          · exact ih as has (fun z hz => hs z (by simp [hz])) bs hbs y hy

/-- C13: when an error item is yielded. If no triple can be placed, exactly when the empty bag is not accepted; otherwise
exactly when every triple has a component to go to and some triple is refused by the only component of its key. -/
theorem C13_error_item_iff (t : Table K V C R) (ht : t.Made) (hmm : MinMax t.rbe.rbe)
    (enum : List Nat → List (Nat × Nat)) (values : List (K × V × C)) :
    none ∈ t.items enum values ↔
      ((∀ x ∈ values, t.Unplaceable x) ∧ ¬ Lang t.rbe.rbe 0) ∨
      ((∀ x ∈ values, ¬ t.Unplaceable x) ∧ ∃ x ∈ values, ∀ c, ¬ t.Takes x c) := by
  have hi := Table.inv_of_made ht
  rw [items_eq]
  have hcu : (∀ x ∈ values, t.candidates x = []) ↔ ∀ x ∈ values, t.Unplaceable x :=
    forall₂_congr fun x _ => candidates_nil_iff hi x
  by_cases hc : ∀ x ∈ values, t.candidates x = []
  · rw [if_pos hc]
    have h2 : ¬ ((∀ x ∈ values, ¬ t.Unplaceable x) ∧ ∃ x ∈ values, ∀ c, ¬ t.Takes x c) := by
      rintro ⟨h1, x, hx, _⟩
      exact h1 x hx (hcu.1 hc x hx)
    simp only [Table.emptyItems, condNullable_map, List.mem_singleton, h2, or_false, hcu.1 hc, true_and]
    rw [← condNullable_iff _ hmm]
    cases t.rbe.rbe.condNullable <;> simp
    exact fun a b c h => hcu.1 hc (a, b, c) h
  · rw [if_neg hc]
    rw [hcu] at hc
    simp only [hc, false_and, false_or, List.mem_filterMap, mem_product]
    have hstep : ∀ vs : List (Cand K V C R), t.step enum vs = some none ↔
        ¬ ∀ x ∈ vs, x.cond.Sat x.value x.ctx := by
      intro vs
      constructor
      · intro hst h
        obtain ⟨q, hq, _⟩ := (evalCands_spec vs Pending.empty).1 h
        simp only [Table.step, hq] at hst
        split at hst <;> cases hst
      · intro h
        simp only [Table.step, (evalCands_spec vs Pending.empty).2 h]
    simp only [hstep]
    have hfail : ∀ x a, a ∈ t.candidates x → (¬ a.cond.Sat a.value a.ctx ↔ ∀ c, ¬ t.Takes x c) := by
      intro x a ha
      obtain ⟨a1, a2, a3, a4, a5, a6⟩ := (mem_candidates hi x a).1 ha
      rw [a2, a3]
      constructor
      · rintro hns c ⟨c1, cond, c2, c3⟩
        have hne : a.comp ≠ c := by
          rintro rfl
          rw [a5] at c2
          cases c2
          exact hns c3
        exact hns (a6 ((one_lt_length_iff (hi.nodup _)).2 ⟨_, _, hne, (hi.mem _ _).2 a4, (hi.mem _ _).2 c1⟩))
      · intro h hs
        exact h a.comp ⟨a4, a.cond, a5, hs⟩
    constructor
    · rintro ⟨vs, hm, hns⟩
      have key : (∀ x ∈ values, ¬ t.Unplaceable x) ∧
          ((¬ ∀ a ∈ vs, a.cond.Sat a.value a.ctx) → ∃ x ∈ values, ∀ c, ¬ t.Takes x c) := by
        clear hns hc hcu
        induction values generalizing vs with
        | nil =>
          cases hm
          simp
        | cons x values ih =>
          cases hm with
          | cons ha has =>
            rename_i a as
            obtain ⟨h1, h2⟩ := ih as has
            refine ⟨fun y hy => ?_, fun hn => ?_⟩
            · rcases List.mem_cons.1 hy with rfl | hy
              · intro hu
                rw [(candidates_nil_iff hi y).2 hu] at ha
                cases ha
              · exact h1 y hy
            · by_cases hsat : a.cond.Sat a.value a.ctx
              · obtain ⟨y, hy, h⟩ := h2 fun hall => hn fun b hb => by
                  rcases List.mem_cons.1 hb with rfl | hb
                  · exact hsat
                  · exact hall b hb
                exact ⟨y, List.mem_cons_of_mem _ hy, h⟩
              · exact ⟨x, List.mem_cons_self, (hfail x a ha).1 hsat⟩
      exact ⟨key.1, key.2 hns⟩
    · rintro ⟨h1, x, hx, hnt⟩
      have key : ∀ vals : List (K × V × C), (∀ x ∈ vals, ¬ t.Unplaceable x) →
          ∃ vs, List.Forall₂ (fun v l => v ∈ l) vs (vals.map t.candidates) ∧
            ∀ x ∈ vals, ∃ a ∈ vs, a ∈ t.candidates x := by
        intro vals h
        induction vals with
        | nil => exact ⟨[], .nil, by simp⟩
        | cons y vals ih =>
          obtain ⟨vs, p1, p2⟩ := ih fun z hz => h z (List.mem_cons_of_mem _ hz)
          obtain ⟨a, ha⟩ := List.exists_mem_of_ne_nil _ fun he => h y List.mem_cons_self ((candidates_nil_iff hi y).1 he)
          refine ⟨a :: vs, .cons ha p1, fun z hz => ?_⟩
          rcases List.mem_cons.1 hz with rfl | hz
          · exact ⟨a, List.mem_cons_self, ha⟩
          · obtain ⟨b, hb, hb'⟩ := p2 z hz
            exact ⟨b, List.mem_cons_of_mem _ hb, hb'⟩
      obtain ⟨vs, p1, p2⟩ := key values h1
      obtain ⟨a, ha, ha'⟩ := p2 x hx
      exact ⟨vs, p1, fun hall => (hfail x a ha').2 hnt (hall a ha)⟩

/-- The error item of a table with a single value set for the key. -/
example : none ∈ ((Table.new.addComponent 0 (isVal 1)).withRbe
    (Struct.symbol 0 0 .unbounded)).items enumDedup [(0, 1, ()), (0, 3, ())] := by decide

/-! ## C11 -/

theorem hiCount_mono (t : Table K V C R) {vs values : List (K × V × C)} (h : vs.Subperm values)
    (c : Nat) : t.hiCount vs c ≤ t.hiCount values c := by
  obtain ⟨l, hp, hs⟩ := h
  have hperm : ∀ {a b : List (K × V × C)}, a.Perm b → t.hiCount a c = t.hiCount b c := by
    intro a b hab
    induction hab with
    | nil => rfl
    | cons x _ ih => simp only [Table.hiCount, ih]
    | swap x y l => simp only [Table.hiCount]; omega
    | trans _ _ ih1 ih2 => rw [ih1, ih2]
  rw [← hperm hp]
  clear hp
  induction hs with
  | slnil => exact le_refl _
  | cons x _ ih => simp only [Table.hiCount]; omega
  | cons_cons x _ ih => simp only [Table.hiCount]; omega

theorem count_le_hiCount {t : Table K V C R} (h : t.Inv) (values : List (K × V × C))
    (cs : List Nat) (hm : List.Forall₂ t.Takes values cs) (c : Nat) :
    cs.count c ≤ t.hiCount values c := by
  induction hm with
  | nil => simp
  | cons hx _ ih =>
    rename_i x d values cs _
    obtain ⟨hk, cond, hc, hs⟩ := hx
    rw [List.count_cons]
    simp only [Table.hiCount]
    split
    · rename_i hdc
      have hdc : d = c := by simpa using hdc
      subst hdc
      refine le_trans (Nat.add_le_add ih (Nat.succ_le_of_lt ?_)) (le_of_eq (Nat.add_comm _ _))
      rw [List.length_pos_iff_exists_mem]
      refine ⟨d, List.mem_filter.2 ⟨(h.mem _ _).2 hk, ?_⟩⟩
      simp [Table.condOk, hc, (matches_isSome _ _ _).2 hs]
    · omega

/-- C11: if the pre-check refutes a neighbourhood, matching it, or any sub-collection of it in any
order, yields no success. -/
theorem C11_precheck_never_hides_match (t : Table K V C R) (ht : t.Made)
    (hs : Sane t.rbe.rbe) (hwf : ¬ SingleOcc t.rbe.rbe → WF t.rbe.rbe)
    (enum : List Nat → List (Nat × Nat)) (he : Enumerates enum)
    (values vs : List (K × V × C)) (hsub : vs.Subperm values)
    (hinf : t.feasibleNeighs values = false) : ∀ p, some p ∉ t.items enum vs := by
  have hi := Table.inv_of_made ht
  intro p hp
  have hno : ∀ s : Multiset Nat, (∀ a, s.count a ≤ t.hiCount values a) → ¬ Lang t.rbe.rbe s := by
    intro s hsc hl
    have := fx_of_lang (fun _ => 0) (t.hiCount values) t.rbe.rbe (fun a h => absurd h (by simp)) s hl
      (fun a _ => Nat.zero_le _) hsc
    simp only [Table.feasibleNeighs, Expr.feasible] at hinf
    rw [hinf] at this
    cases this
  rw [items_eq] at hp
  split at hp
  · simp only [Table.emptyItems, condNullable_map, List.mem_singleton] at hp
    split at hp
    · rename_i hn
      exact hno 0 (by simp) ((condNullable_iff _ (minMax_of_sane _ hs)).1 hn)
    · cases hp
  · obtain ⟨ws, hm, hev, hacc⟩ := (mem_items_product hi vs p).1 hp
    have hsat : ∀ x ∈ ws, x.cond.Sat x.value x.ctx := by
      by_contra h
      rw [(evalCands_spec ws Pending.empty).2 h] at hev
      cases hev
    have hf := forall2_cands hi vs ws hm hsat
    have hl : Lang t.rbe.rbe (bagOf (enum (ws.map Cand.comp))) := by
      by_cases ho : SingleOcc t.rbe.rbe
      · exact C05_interval_sound t.rbe hi.built _ (he _).1 ho hs hacc
      · have hr : t.rbe.hasRepeats = true := by
          by_contra h
          exact ho ((truthful_of_built hi.built).2.1.1 (by simpa using h))
        simp only [Struct.matchBagInterval, hr, if_true] at hacc
        exact (matchBagDeriv_iff _ _ (hwf ho)).1 hacc
    rw [(he _).2] at hl
    refine hno _ (fun a => ?_) hl
    rw [Multiset.coe_count]
    exact le_trans (count_le_hiCount hi vs _ hf a) (hiCount_mono t hsub a)

/-- A refuted neighbourhood: the reference component is mandatory but only a foreign key occurs. -/
example : exRef.feasibleNeighs [(5, 2, ())] = false ∧ Sane exRef.rbe.rbe ∧
    exRef.feasibleNeighs [(0, 2, ())] = true := by
  refine ⟨by decide, by simp [exRef, Table.withRbe, Struct.and, Struct.symbol, Sane, SaneList], by decide⟩

#print axioms C09_cond_nullable_iff
#print axioms C11_precheck_never_hides_match
#print axioms C12_every_assignment_found
#print axioms C12_success_from_assignment_partial
#print axioms C12_success_iff
#print axioms C12_refuted
#print axioms C13_error_item_excludes_success
#print axioms C13_error_item_iff

end Rbe
