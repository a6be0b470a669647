import Verif.Cmp.Lemmas

/-!
# C115: comparison of shapes
-/

namespace Cmp

open Shexc (SE TE NC IriRef Label Kind Str)
open Spec

/-- **C115** A comparison gives three maps: the properties that both have, with both descriptions, those that only the
first has, and those that only the second has. -/
theorem C115_compare (c1 c2 : Constraints) (h1 : IsMap c1) (h2 : IsMap c2) :
    (IsMap (compare c1 c2).equal ∧ IsMap (compare c1 c2).only1 ∧ IsMap (compare c1 c2).only2) ∧
    (∀ p d1 d2, Maps (compare c1 c2).equal p (d1, d2) ↔ Maps c1 p d1 ∧ Maps c2 p d2) ∧
    (∀ p d, Maps (compare c1 c2).only1 p d ↔ Maps c1 p d ∧ ∀ d', ¬ Maps c2 p d') ∧
    ∀ p d, Maps (compare c1 c2).only2 p d ↔ Maps c2 p d ∧ ∀ d', ¬ Maps c1 p d' := by
  have h0 : Good (⟨[], [], []⟩ : ShaCo) := ⟨List.nodup_nil, List.nodup_nil, List.nodup_nil⟩
  obtain ⟨a1, a2, a3, a4⟩ := compare1_spec h2 h1 h0 fun _ _ _ => ⟨nofun, nofun⟩
  obtain ⟨b1, b2, b3, b4⟩ := compare2_spec h1 h2 a1 fun _ _ _ => by rw [a2]; nofun
  refine ⟨b1, fun p d1 d2 => ?_, fun p d => ?_, fun p d => ?_⟩
  · unfold Maps compare
    rw [b2, a3]
    simp
  · unfold Maps compare
    rw [b3, a4]
    simp
  · unfold Maps compare
    rw [b4, a2]
    simp

/-- **C115** The order of the two shapes does not matter, but for the sides. -/
theorem C115_symmetric (c1 c2 : Constraints) (h1 : IsMap c1) (h2 : IsMap c2) :
    (∀ p d1 d2, Maps (compare c1 c2).equal p (d1, d2) ↔ Maps (compare c2 c1).equal p (d2, d1)) ∧
    (∀ p d, Maps (compare c1 c2).only1 p d ↔ Maps (compare c2 c1).only2 p d) ∧
    ∀ p d, Maps (compare c1 c2).only2 p d ↔ Maps (compare c2 c1).only1 p d := by
  obtain ⟨_, a1, a2, a3⟩ := C115_compare c1 c2 h1 h2
  obtain ⟨_, b1, b2, b3⟩ := C115_compare c2 c1 h2 h1
  exact ⟨fun p d1 d2 => by rw [a1, b1, and_comm], fun p d => by rw [a2, b3], fun p d => by rw [a3, b2]⟩

theorem isMap_nil {α : Type} : IsMap ([] : List (Str × α)) := List.nodup_nil

/-- The triple expressions that are converted: groups of triple constraints and single triple constraints. -/
inductive Simple (E : Env) (S : Schema) (ig : Bool) : TE → Prop where
  | each {id es mn mx a b} (h : ∀ t ∈ es, ∃ p d, Constrains E S ig t p d) : Simple E S ig (.each id es mn mx a b)
  | tc {id ng iv r v mn mx a b p d} (h : Constrains E S ig (.tc id ng iv r v mn mx a b) p d) :
      Simple E S ig (.tc id ng iv r v mn mx a b)

theorem tc_ok {E : Env} {S : Schema} {ig : Bool} {id ng iv r v mn mx a b} {cs : Constraints} :
    tripleExpr E S ig (.tc id ng iv r v mn mx a b) = .ok cs ↔ cs = [] ∧ ∃ p d, Constrains E S ig (.tc id ng iv r v mn mx a b) p d := by
  rw [tripleExpr, bind_ok]
  constructor
  · rintro ⟨i, h1, h⟩
    obtain ⟨vc, h2, h⟩ := bind_ok.1 h
    cases h
    refine ⟨rfl, i, ⟨r, vc⟩, constrains_iff.1 ⟨r, bind_ok.2 ⟨vc, h2, rfl⟩, h1⟩⟩
  · rintro ⟨rfl, p, d, h⟩
    obtain ⟨r', h1, h2⟩ := constrains_iff.2 h
    obtain ⟨vc, h3, h4⟩ := bind_ok.1 h1
    cases h4
    exact ⟨p, h2, bind_ok.2 ⟨vc, h3, rfl⟩⟩

theorem populate_ok {E : Env} {S : Schema} {ig : Bool} {l : Str} {cs : Constraints} : populate E S ig (some l) = .ok cs ↔
    ∃ e, ShapeOf E S l e ∧ shapeConstraints E S ig e = .ok cs := by
  rw [populate, bind_ok]
  simp only [findShape_ok]

theorem shapeOf_uniq {E : Env} {S : Schema} {l : Str} {e e' : SE} (h : ShapeOf E S l e) (h' : ShapeOf E S l e') : e = e' := by
  have := findShape_ok.2 h
  rw [findShape_ok.2 h'] at this
  cases this
  rfl

/-- **C115** A shape has a model exactly if its label is an IRI that is found, and it is a shape without triple
expression, with a group of triple constraints or with a single one, all with known names and with values that are a
datatype, a kind of nodes, a reference, or anything. -/
theorem C115_converts_iff (E : Env) (S : Schema) (ig : Bool) (label : Option Str) :
    (∃ cs, populate E S ig label = .ok cs) ↔ ∃ l c x te a b d, label = some l ∧ ShapeOf E S l (.shape c x te a b d) ∧
      ∀ t, te = some t → Simple E S ig t := by
  rcases label with _ | l
  · constructor
    · rintro ⟨_, h⟩; cases h
    · rintro ⟨_, _, _, _, _, _, _, h, _⟩; cases h
  · simp only [populate_ok]
    constructor
    · rintro ⟨cs, e, he, h⟩
      cases e with
      | shape c x te a b d =>
        refine ⟨l, c, x, te, a, b, d, rfl, he, ?_⟩
        rintro t rfl
        rw [shapeConstraints] at h
        cases t with
        | each id es mn mx a b =>
          rw [tripleExpr] at h
          exact .each (groupGo_ok isMap_nil h).2.1
        | one => cases h
        | ref => cases h
        | tc =>
          obtain ⟨_, p, d, h⟩ := tc_ok.1 h
          exact .tc h
      | _ => cases h
    · rintro ⟨l', c, x, te, a, b, d, hl, he, h⟩
      cases hl
      rcases te with _ | t
      · exact ⟨[], _, he, rfl⟩
      · rcases h t rfl with ⟨h'⟩ | ⟨h'⟩
        · obtain ⟨cs, h⟩ := groupGo_total h' []
          exact ⟨cs, _, he, h⟩
        · exact ⟨[], _, he, tc_ok.2 ⟨rfl, _, _, h'⟩⟩

/-- **C115** There is a panic exactly for the label `START`, for blank nodes, and for shapes whose triple expression is
a reference. -/
theorem C115_panics (E : Env) (S : Schema) (ig : Bool) (l : Str) : populate E S ig (some l) = .panic ↔
    l = ['S', 'T', 'A', 'R', 'T'] ∨ (∃ s, l = '_' :: ':' :: s) ∨
      ∃ c x r a b d, ShapeOf E S l (.shape c x (some (.ref r)) a b d) := by
  rw [populate, bind_panic, findShape_panic, or_assoc]
  simp only [findShape_ok]
  refine or_congr_right (or_congr_right ?_)
  constructor
  · rintro ⟨e, he, h⟩
    cases e with
    | shape c x te a b d =>
      rcases te with _ | t
      · cases h
      · cases t with
        | each => exact absurd h groupGo_panic
        | one => cases h
        | ref r => exact ⟨c, x, r, a, b, d, he⟩
        | tc =>
          rw [shapeConstraints, tripleExpr] at h
          rcases bind_panic.1 h with h | ⟨_, _, h⟩
          · exact absurd h getIri_panic
          · rcases bind_panic.1 h with h | ⟨_, _, h⟩
            · exact absurd h value_panic
            · cases h
    | _ => cases h
  · rintro ⟨c, x, r, a, b, d, he⟩
    exact ⟨_, he, rfl⟩

/-- **C115** The model of a group has its properties, each with what the last of its constraints says of the values. -/
theorem C115_group (E : Env) (S : Schema) (ig : Bool) (l : Str) (c x id es mn mx a b acts anns ext)
    (hs : ShapeOf E S l (.shape c x (some (.each id es mn mx a b)) acts anns ext)) (cs : Constraints)
    (h : populate E S ig (some l) = .ok cs) : IsMap cs ∧ ∀ p d, Maps cs p d ↔ LastIn E S ig es p d := by
  obtain ⟨e, he, h⟩ := populate_ok.1 h
  cases shapeOf_uniq hs he
  obtain ⟨h1, _, h3⟩ := groupGo_ok isMap_nil h
  exact ⟨h1, fun p d => (h3 p d).trans (by simp)⟩

/-- **C115** The model of a shape with one triple constraint only is empty: the constraint is added to another model. -/
theorem C115_single (E : Env) (S : Schema) (ig : Bool) (l : Str) (c x id ng iv r v mn mx a b acts anns ext)
    (hs : ShapeOf E S l (.shape c x (some (.tc id ng iv r v mn mx a b)) acts anns ext)) (cs : Constraints)
    (h : populate E S ig (some l) = .ok cs) : cs = [] := by
  obtain ⟨e, he, h⟩ := populate_ok.1 h
  cases shapeOf_uniq hs he
  rw [shapeConstraints] at h
  exact (tc_ok.1 h).1

/-- A group of triple constraints has a constraint for a property. -/
def Has (E : Env) (S : Schema) (ig : Bool) (es : List TE) (p : Str) : Prop := ∃ t ∈ es, ∃ d, Constrains E S ig t p d

theorem last_iff {E : Env} {S : Schema} {ig : Bool} {es : List TE} {p : Str} : (∃ d, LastIn E S ig es p d) ↔ Has E S ig es p := by
  constructor
  · rintro ⟨d, h⟩
    induction h with
    | here h _ => exact ⟨_, List.mem_cons_self .., _, h⟩
    | later _ ih =>
      obtain ⟨t, ht, h⟩ := ih
      exact ⟨t, List.mem_cons_of_mem _ ht, h⟩
  · induction es with
    | nil => rintro ⟨_, h, _⟩; cases h
    | cons u us ih =>
      rintro ⟨t, ht, d, h⟩
      by_cases hu : Has E S ig us p
      · obtain ⟨d', h'⟩ := ih hu
        exact ⟨d', .later h'⟩
      · rcases List.mem_cons.1 ht with rfl | ht
        · exact ⟨d, .here h fun v hv d' hd => hu ⟨v, hv, d', hd⟩⟩
        · exact absurd ⟨t, ht, d, h⟩ hu

/-- **C115** Comparing two shapes tells which properties both have and which one of them has. Partial: for shapes with
groups of triple constraints, and for the properties, not for what is said of their values. -/
theorem C115_tells_partial (E : Env) (S1 S2 : Schema) (ig : Bool) (l1 l2 : Str)
    (c1 x1 id1 es1 mn1 mx1 a1 b1 acts1 anns1 ext1 c2 x2 id2 es2 mn2 mx2 a2 b2 acts2 anns2 ext2)
    (hs1 : ShapeOf E S1 l1 (.shape c1 x1 (some (.each id1 es1 mn1 mx1 a1 b1)) acts1 anns1 ext1))
    (hs2 : ShapeOf E S2 l2 (.shape c2 x2 (some (.each id2 es2 mn2 mx2 a2 b2)) acts2 anns2 ext2)) (cs1 cs2 : Constraints)
    (h1 : populate E S1 ig (some l1) = .ok cs1) (h2 : populate E S2 ig (some l2) = .ok cs2) (p : Str) :
    ((∃ d, Maps (compare cs1 cs2).equal p d) ↔ Has E S1 ig es1 p ∧ Has E S2 ig es2 p) ∧
    ((∃ d, Maps (compare cs1 cs2).only1 p d) ↔ Has E S1 ig es1 p ∧ ¬ Has E S2 ig es2 p) ∧
    ((∃ d, Maps (compare cs1 cs2).only2 p d) ↔ Has E S2 ig es2 p ∧ ¬ Has E S1 ig es1 p) := by
  obtain ⟨m1, g1⟩ := C115_group E S1 ig l1 _ _ _ _ _ _ _ _ _ _ _ hs1 cs1 h1
  obtain ⟨m2, g2⟩ := C115_group E S2 ig l2 _ _ _ _ _ _ _ _ _ _ _ hs2 cs2 h2
  obtain ⟨_, e, o1, o2⟩ := C115_compare cs1 cs2 m1 m2
  simp only [← last_iff]
  refine ⟨?_, ?_, ?_⟩
  · constructor
    · rintro ⟨⟨d1, d2⟩, h⟩
      obtain ⟨h, h'⟩ := (e p d1 d2).1 h
      exact ⟨⟨d1, (g1 p d1).1 h⟩, d2, (g2 p d2).1 h'⟩
    · rintro ⟨⟨d1, h⟩, d2, h'⟩
      exact ⟨(d1, d2), (e p d1 d2).2 ⟨(g1 p d1).2 h, (g2 p d2).2 h'⟩⟩
  · constructor
    · rintro ⟨d, h⟩
      obtain ⟨h, h'⟩ := (o1 p d).1 h
      exact ⟨⟨d, (g1 p d).1 h⟩, fun ⟨d', hd⟩ => h' d' ((g2 p d').2 hd)⟩
    · rintro ⟨⟨d, h⟩, h'⟩
      exact ⟨d, (o1 p d).2 ⟨(g1 p d).2 h, fun d' hd => h' ⟨d', (g2 p d').1 hd⟩⟩⟩
  · constructor
    · rintro ⟨d, h⟩
      obtain ⟨h, h'⟩ := (o2 p d).1 h
      exact ⟨⟨d, (g2 p d).1 h⟩, fun ⟨d', hd⟩ => h' d' ((g1 p d').2 hd)⟩
    · rintro ⟨⟨d, h⟩, h'⟩
      exact ⟨d, (o2 p d).2 ⟨(g2 p d).2 h, fun d' hd => h' ⟨d', (g1 p d').1 hd⟩⟩⟩

/-! ## Witnesses and examples -/

namespace Ex

/-- All texts are IRIs. -/
def env : Env := ⟨fun _ => true, fun _ => ['l']⟩

/-- `<p> v`. -/
def con (p : Char) (v : Option SE) : TE := .tc none none none (.iri [p]) v none none none none

/-- A schema with a shape `s`. -/
def sch (te : TE) : Schema := ⟨some Prefix.PrefixMap.new, some [(.bnode ['x'], .external), (.iri (.iri ['s']), .shape none none (some te) none none none)]⟩

/-- A datatype. -/
def dt (d : Char) : Option SE := some (.nc { datatype := some (.iri [d]) })

/-- `{ <p> <int> ; <q> . }`. -/
def S1 : Schema := sch (.each none [con 'p' (dt 'i'), con 'q' none] none none none none)

/-- `{ <p> <string> ; <r> . }`. -/
def S2 : Schema := sch (.each none [con 'p' (dt 's'), con 'r' none] none none none none)

theorem shapeOf (te : TE) : ShapeOf env (sch te) ['s'] (.shape none none (some te) none none none) :=
  ⟨⟨by decide, nofun, rfl⟩, _, rfl, .bnode (.here .iri)⟩

/-- The models of the two. -/
def cs1 : Constraints := [(['p'], ⟨.iri ['p'], .datatype ['i']⟩), (['q'], ⟨.iri ['q'], .any⟩)]
def cs2 : Constraints := [(['p'], ⟨.iri ['p'], .datatype ['s']⟩), (['r'], ⟨.iri ['r'], .any⟩)]

theorem pop1 : populate env S1 false (some ['s']) = .ok cs1 := by decide +kernel
theorem pop2 : populate env S2 false (some ['s']) = .ok cs2 := by decide +kernel

/-- The comparison of the two: `<p>` in both, though with different datatypes. -/
example : compare cs1 cs2 = ⟨[(['p'], (⟨.iri ['p'], .datatype ['i']⟩, ⟨.iri ['p'], .datatype ['s']⟩))],
    [(['q'], ⟨.iri ['q'], .any⟩)], [(['r'], ⟨.iri ['r'], .any⟩)]⟩ := by decide +kernel

example : IsMap cs1 ∧ IsMap cs2 := ⟨by unfold IsMap; decide, by unfold IsMap; decide⟩

example (p : Str) : (∃ d, Maps (compare cs1 cs2).only1 p d) ↔
    Has env S1 false [con 'p' (dt 'i'), con 'q' none] p ∧ ¬ Has env S2 false [con 'p' (dt 's'), con 'r' none] p :=
  (C115_tells_partial env S1 S2 false _ _ _ _ _ _ _ _ _ _ _ _ _ _ _ _ _ _ _ _ _ _ _ _ (shapeOf _) (shapeOf _) cs1 cs2 pop1 pop2 p).2.1

example : ∃ l c x te a b d, some ['s'] = some l ∧ ShapeOf env S1 l (.shape c x te a b d) ∧ ∀ t, te = some t → Simple env S1 false t :=
  (C115_converts_iff env S1 false (some ['s'])).1 ⟨cs1, pop1⟩

example : populate env (sch (.ref (.bnode ['t']))) false (some ['s']) = .panic :=
  (C115_panics env _ false ['s']).2 (.inr (.inr ⟨_, _, _, _, _, _, shapeOf _⟩))

example : ∀ p d, Maps cs1 p d ↔ LastIn env S1 false [con 'p' (dt 'i'), con 'q' none] p d :=
  (C115_group env S1 false ['s'] _ _ _ _ _ _ _ _ _ _ _ (shapeOf _) cs1 pop1).2

end Ex

/-- Two shapes have constraints for different properties, but their comparison is empty. -/
def Hidden (E : Env) (S1 S2 : Schema) (l : Str) : Prop :=
  ∃ cs1 cs2 p q d e t u, ShapeOf E S1 l (.shape none none (some t) none none none) ∧ Constrains E S1 false t p d ∧
    ShapeOf E S2 l (.shape none none (some u) none none none) ∧ Constrains E S2 false u q e ∧ p ≠ q ∧
    populate E S1 false (some l) = .ok cs1 ∧ populate E S2 false (some l) = .ok cs2 ∧ compare cs1 cs2 = ⟨[], [], []⟩

/-- **C115** Comparisons do not tell all the differences: shapes with one triple constraint have no properties; the
properties called equal may have different values; of two constraints for one property only the last is compared; and
without a prefix map names in full are not resolved. -/
theorem C115_refuted : ∃ E : Env,
    Hidden E (Ex.sch (Ex.con 'p' none)) (Ex.sch (Ex.con 'q' none)) ['s'] ∧
    (∃ S1 S2 cs1 cs2 d1 d2, populate E S1 false (some ['s']) = .ok cs1 ∧ populate E S2 false (some ['s']) = .ok cs2 ∧
      Maps (compare cs1 cs2).equal ['p'] (d1, d2) ∧ d1.vc ≠ d2.vc ∧ (compare cs1 cs2).only1 = [] ∧ (compare cs1 cs2).only2 = []) ∧
    (∃ cs, populate E (Ex.sch (.each none [Ex.con 'p' (Ex.dt 'i'), Ex.con 'p' (Ex.dt 's')] none none none none)) false (some ['s']) = .ok cs ∧
      populate E (Ex.sch (.each none [Ex.con 'p' (Ex.dt 's')] none none none none)) false (some ['s']) = .ok cs) ∧
    populate E ⟨none, some [(.iri (.iri ['s']), .shape none none (some (.each none [Ex.con 'p' none] none none none none)) none none none)]⟩
      false (some ['s']) = .err .noPrefixMap := by
  refine ⟨Ex.env, ⟨[], [], ['p'], ['q'], ⟨.iri ['p'], .any⟩, ⟨.iri ['q'], .any⟩, _, _, Ex.shapeOf _, .seen rfl rfl .iri .any, Ex.shapeOf _,
    .seen rfl rfl .iri .any, by decide, by decide +kernel, by decide +kernel, rfl⟩,
    ⟨Ex.sch (.each none [Ex.con 'p' (Ex.dt 'i')] none none none none), Ex.sch (.each none [Ex.con 'p' (Ex.dt 's')] none none none none),
      [(['p'], ⟨.iri ['p'], .datatype ['i']⟩)], [(['p'], ⟨.iri ['p'], .datatype ['s']⟩)], ⟨.iri ['p'], .datatype ['i']⟩, ⟨.iri ['p'], .datatype ['s']⟩,
      by decide +kernel, by decide +kernel, List.mem_cons_self .., by decide, rfl, rfl⟩,
    ⟨[(['p'], ⟨.iri ['p'], .datatype ['s']⟩)], by decide +kernel, by decide +kernel⟩, by decide +kernel⟩

end Cmp
