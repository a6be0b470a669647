import Verif.Shacl.Target
import Verif.Lit.PropsNum
import Mathlib.Logic.Relation
import Mathlib.Data.List.Dedup

/-!
# Properties C40, C70: targets
-/

namespace Shacl
open Lit

/-- SHACL: a node is an instance of a class if it has as type the class or one of its subclasses, of any depth. -/
def Instance (g : Graph Term Str) (x c : Term) : Prop :=
  ∃ s, (x, rdfType, s) ∈ g.triples ∧ Relation.ReflTransGen (fun a b => (a, subClassOf, b) ∈ g.triples) s c

/-- Subjects of triples are not literals. -/
def Graph.Rdf (g : Graph Term Str) : Prop := ∀ t ∈ g.triples, t.1.isLit = false

/-- An object that is not a literal. -/
def Ob.IsNode {D : Type} : Ob D → Prop
  | .lit _ => False
  | _ => True

section
variable {D : Type} {E : Env D}

theorem obj_term {o : Ob D} (h : o.IsNode) : E.obj (E.term o) = some o := by
  cases o with
  | lit l => exact absurd h id
  | _ => rfl

theorem node_of_obj {t : Term} {o : Ob D} (ht : t.isLit = false) (h : E.obj t = some o) : o.IsNode ∧ t = E.term o := by
  cases t with
  | lit r => cases ht
  | iri s => cases h; exact ⟨trivial, rfl⟩
  | bnode s => cases h; exact ⟨trivial, rfl⟩

theorem term_of_obj {t : Term} {o : Ob D} (ho : o.IsNode) : E.obj t = some o ↔ t = E.term o := by
  constructor
  · intro h
    cases t with
    | lit r =>
      simp only [Env.obj, Option.map_eq_some_iff] at h
      obtain ⟨l, _, rfl⟩ := h
      exact absurd ho id
    | iri s => cases h; rfl
    | bnode s => cases h; rfl
  · rintro rfl; exact obj_term ho

theorem same_node {a c : Ob D} (hc : c.IsNode) : (E.same a c = true ↔ a = c) ∧ (E.same c a = true ↔ c = a) := by
  cases c with
  | lit l => exact absurd hc id
  | iri s => cases a <;> simp [Env.same]
  | bnode s => cases a <;> simp [Env.same]

theorem mem_lookup_insert {c k v i : Ob D} (hc : c.IsNode) (hv : v.IsNode) : ∀ m : ObMap D,
    i ∈ E.lookup c (E.insert k v m) ↔ i ∈ E.lookup c m ∨ (k = c ∧ i = v) := by
  intro m
  induction m with
  | nil =>
    simp only [Env.insert, Env.lookup]
    by_cases h : E.same k c = true
    · rw [if_pos h]; simp [(same_node hc).1.1 h]
    · rw [if_neg h]
      have : k ≠ c := fun h' => h ((same_node hc).1.2 h')
      simp [this]
  | cons e m ih =>
    obtain ⟨k', vs⟩ := e
    simp only [Env.insert]
    by_cases h : E.same k' k = true
    · rw [if_pos h]
      simp only [Env.lookup]
      by_cases h' : E.same k' c = true
      · rw [if_pos h', if_pos h']
        have e1 := (same_node hc).1.1 h'
        subst e1
        have e2 := (same_node hc).2.1 h
        subst e2
        by_cases h2 : vs.any (E.same v) = true
        · rw [if_pos h2]
          rw [List.any_eq_true] at h2
          obtain ⟨w, hw, h3⟩ := h2
          have := (same_node hv).2.1 h3
          subst this
          constructor
          · exact Or.inl
          · rintro (h | ⟨_, rfl⟩)
            · exact h
            · exact hw
        · rw [if_neg h2]; simp
      · rw [if_neg h', if_neg h']
        constructor
        · exact Or.inl
        · rintro (h2 | ⟨rfl, _⟩)
          · exact h2
          · exact absurd h h'
    · rw [if_neg h]
      simp only [Env.lookup]
      by_cases h' : E.same k' c = true
      · rw [if_pos h', if_pos h']
        constructor
        · exact Or.inl
        · rintro (h2 | ⟨rfl, _⟩)
          · exact h2
          · exact absurd h' h
      · rw [if_neg h', if_neg h']; exact ih

theorem type_ne_sub : rdfType ≠ subClassOf := by decide

theorem mem_index {c i : Ob D} (hc : c.IsNode) (hi : i.IsNode) : ∀ (ts : List (Term × Str × Term)) (ix : ClassIndex D),
    (∀ t ∈ ts, t.1.isLit = false) →
    (i ∈ E.lookup c (E.indexLoop ts ix).instances ↔
      i ∈ E.lookup c ix.instances ∨ (E.term i, rdfType, E.term c) ∈ ts) ∧
    (i ∈ E.lookup c (E.indexLoop ts ix).subclasses ↔
      i ∈ E.lookup c ix.subclasses ∨ (E.term i, subClassOf, E.term c) ∈ ts) := by
  intro ts
  induction ts with
  | nil => intro ix _; simp [Env.indexLoop]
  | cons t ts ih =>
    obtain ⟨s, p, o⟩ := t
    intro ix h
    have hs : s.isLit = false := h (s, p, o) List.mem_cons_self
    have hrest := fun t ht => h t (List.mem_cons_of_mem _ ht)
    obtain ⟨si, hsi⟩ : ∃ si, E.obj s = some si := by
      cases s with
      | lit r => cases hs
      | iri u => exact ⟨_, rfl⟩
      | bnode u => exact ⟨_, rfl⟩
    have hsn := node_of_obj hs hsi
    rw [Env.indexLoop]
    obtain ⟨h1, h2⟩ := ih _ hrest
    refine ⟨h1.trans ?_, h2.trans ?_⟩
    · by_cases hp : p = rdfType
      · subst hp
        rw [if_pos rfl, hsi, List.mem_cons]
        cases ho : E.obj o with
        | none =>
          have : o ≠ E.term c := by rintro rfl; rw [obj_term hc] at ho; cases ho
          simp only [Prod.mk.injEq, true_and]
          constructor
          · rintro (h | h)
            · exact Or.inl h
            · exact Or.inr (Or.inr h)
          · rintro (h | ⟨_, h⟩ | h)
            · exact Or.inl h
            · exact absurd h.symm this
            · exact Or.inr h
        | some k =>
          simp only
          rw [mem_lookup_insert hc hsn.1, hsn.2]
          have : (k = c ∧ i = si) ↔ ((E.term i, rdfType, E.term c) = (E.term si, rdfType, o)) := by
            simp only [Prod.mk.injEq, true_and]
            constructor
            · rintro ⟨rfl, rfl⟩; exact ⟨rfl, ((term_of_obj hc).1 ho).symm⟩
            · rintro ⟨e1, e2⟩
              subst e2
              rw [obj_term hc] at ho
              refine ⟨(Option.some.inj ho).symm, ?_⟩
              have := congrArg E.obj e1
              rw [obj_term hi, obj_term hsn.1] at this
              exact Option.some.inj this
          rw [this, or_assoc]
      · rw [if_neg hp, List.mem_cons]
        have hne : (E.term i, rdfType, E.term c) ≠ (s, p, o) := by
          intro e; injection e with _ e; injection e with e _; exact hp e.symm
        by_cases hq : p = subClassOf
        · rw [if_pos hq, hsi]
          cases E.obj o <;> simp [hne]
        · rw [if_neg hq]; simp [hne]
    · by_cases hp : p = rdfType
      · subst hp
        rw [if_pos rfl, hsi, List.mem_cons]
        have hne : (E.term i, subClassOf, E.term c) ≠ (s, rdfType, o) := by
          intro e; injection e with _ e; injection e with e _; exact type_ne_sub e.symm
        cases E.obj o <;> simp [hne]
      · rw [if_neg hp, List.mem_cons]
        by_cases hq : p = subClassOf
        · subst hq
          rw [if_pos rfl, hsi]
          cases ho : E.obj o with
          | none =>
            have : o ≠ E.term c := by rintro rfl; rw [obj_term hc] at ho; cases ho
            simp only [Prod.mk.injEq, true_and]
            constructor
            · rintro (h | h)
              · exact Or.inl h
              · exact Or.inr (Or.inr h)
            · rintro (h | ⟨_, h⟩ | h)
              · exact Or.inl h
              · exact absurd h.symm this
              · exact Or.inr h
          | some k =>
            simp only
            rw [mem_lookup_insert hc hsn.1, hsn.2]
            have : (k = c ∧ i = si) ↔ ((E.term i, subClassOf, E.term c) = (E.term si, subClassOf, o)) := by
              simp only [Prod.mk.injEq, true_and]
              constructor
              · rintro ⟨rfl, rfl⟩; exact ⟨rfl, ((term_of_obj hc).1 ho).symm⟩
              · rintro ⟨e1, e2⟩
                subst e2
                rw [obj_term hc] at ho
                refine ⟨(Option.some.inj ho).symm, ?_⟩
                have := congrArg E.obj e1
                rw [obj_term hi, obj_term hsn.1] at this
                exact Option.some.inj this
            rw [this, or_assoc]
        · rw [if_neg hq]
          have hne : (E.term i, subClassOf, E.term c) ≠ (s, p, o) := by
            intro e; injection e with _ e; injection e with e _; exact hq e.symm
          simp [hne]

/-- All values of a map are objects other than literals. -/
def ObMap.Nodes (m : ObMap D) : Prop := ∀ e ∈ m, ∀ v ∈ e.2, v.IsNode

theorem insert_nodes {k v : Ob D} (hv : v.IsNode) : ∀ {m : ObMap D}, ObMap.Nodes m → ObMap.Nodes (E.insert k v m) := by
  intro m
  induction m with
  | nil =>
    intro _ e he w hw
    simp only [Env.insert, List.mem_singleton] at he
    subst he
    simp only [List.mem_singleton] at hw
    subst hw; exact hv
  | cons e m ih =>
    obtain ⟨k', vs⟩ := e
    intro hm
    have h1 : ∀ w ∈ vs, w.IsNode := hm (k', vs) List.mem_cons_self
    have h2 : ObMap.Nodes m := fun e he => hm e (List.mem_cons_of_mem _ he)
    simp only [Env.insert]
    split
    · intro e he w hw
      rcases List.mem_cons.1 he with rfl | he
      · simp only at hw
        split at hw
        · exact h1 w hw
        · rcases List.mem_append.1 hw with hw | hw
          · exact h1 w hw
          · rw [List.mem_singleton.1 hw]; exact hv
      · exact h2 e he w hw
    · intro e he w hw
      rcases List.mem_cons.1 he with rfl | he
      · exact h1 w hw
      · exact ih h2 e he w hw

theorem lookup_nodes {c : Ob D} : ∀ {m : ObMap D}, ObMap.Nodes m → ∀ v ∈ E.lookup c m, v.IsNode := by
  intro m
  induction m with
  | nil => intro _ v hv; cases hv
  | cons e m ih =>
    obtain ⟨k', vs⟩ := e
    intro hm v hv
    simp only [Env.lookup] at hv
    split at hv
    · exact hm (k', vs) List.mem_cons_self v hv
    · exact ih (fun e he => hm e (List.mem_cons_of_mem _ he)) v hv

theorem index_nodes : ∀ (ts : List (Term × Str × Term)) (ix : ClassIndex D), (∀ t ∈ ts, t.1.isLit = false) →
    ObMap.Nodes ix.instances → ObMap.Nodes ix.subclasses →
    ObMap.Nodes (E.indexLoop ts ix).instances ∧ ObMap.Nodes (E.indexLoop ts ix).subclasses := by
  intro ts
  induction ts with
  | nil => intro ix _ h1 h2; exact ⟨h1, h2⟩
  | cons t ts ih =>
    obtain ⟨s, p, o⟩ := t
    intro ix h h1 h2
    have hs : s.isLit = false := h (s, p, o) List.mem_cons_self
    have hrest := fun t ht => h t (List.mem_cons_of_mem _ ht)
    rw [Env.indexLoop]
    split
    · split
      · rename_i c i hc hi
        exact ih _ hrest (insert_nodes (node_of_obj hs hi).1 h1) h2
      · exact ih _ hrest h1 h2
    · split
      · split
        · rename_i c i hc hi
          exact ih _ hrest h1 (insert_nodes (node_of_obj hs hi).1 h2)
        · exact ih _ hrest h1 h2
      · exact ih _ hrest h1 h2

theorem mem_addAll {i : Ob D} : ∀ (vs acc : List (Ob D)), (∀ v ∈ vs, v.IsNode) →
    (i ∈ E.addAll vs acc ↔ i ∈ acc ∨ i ∈ vs) := by
  intro vs
  induction vs with
  | nil => intro acc _; simp [Env.addAll]
  | cons v vs ih =>
    intro acc h
    have hv := h v List.mem_cons_self
    have hrest := fun w hw => h w (List.mem_cons_of_mem _ hw)
    have := ih (if acc.any (E.same v) then acc else acc ++ [v]) hrest
    simp only [Env.addAll, List.foldl_cons] at this ⊢
    rw [this, List.mem_cons]
    by_cases ha : acc.any (E.same v) = true
    · rw [if_pos ha]
      rw [List.any_eq_true] at ha
      obtain ⟨w, hw, h3⟩ := ha
      have := (same_node hv).2.1 h3
      subst this
      constructor
      · rintro (h | h)
        · exact Or.inl h
        · exact Or.inr (Or.inr h)
      · rintro (h | rfl | h)
        · exact Or.inl h
        · exact Or.inl hw
        · exact Or.inr h
    · rw [if_neg ha]
      simp [or_assoc]

theorem mem_foldl_addAll {i : Ob D} (f : Ob D → List (Ob D)) (hf : ∀ s, ∀ v ∈ f s, v.IsNode) :
    ∀ (ss acc : List (Ob D)), (i ∈ ss.foldl (fun acc s => E.addAll (f s) acc) acc ↔ i ∈ acc ∨ ∃ s ∈ ss, i ∈ f s) := by
  intro ss
  induction ss with
  | nil => intro acc; simp
  | cons s ss ih =>
    intro acc
    rw [List.foldl_cons, ih, mem_addAll _ _ (hf s)]
    simp [or_assoc]

theorem term_node {o : Ob D} (h : o.IsNode) : (E.term o).isLit = false := by
  cases o with
  | lit l => exact absurd h id
  | _ => rfl

/-- A term that is a subject is the term of an object that is not a literal. -/
theorem node_of_term {t : Term} (ht : t.isLit = false) : ∃ o : Ob D, o.IsNode ∧ E.term o = t := by
  cases t with
  | lit r => cases ht
  | iri s => exact ⟨.iri s, trivial, rfl⟩
  | bnode s => exact ⟨.bnode s, trivial, rfl⟩

variable (g : Graph Term Str) (hg : g.Rdf) (ix : Option (ClassIndex D)) (hix : ix = none ∨ ix = some (E.index g))
include hg hix

/-- **C40** (partial). With the class index or without it, the target of a class is the nodes that have it as type, and
the target of a shape that is a class is the nodes that have as type the class or one of its direct subclasses.

Missing: subclasses for the former, and subclasses of subclasses for the latter (`C40_refuted`). -/
theorem C40_class_targets_partial (c : Ob D) (hc : c.IsNode) (x : Term) :
    (x ∈ E.targetNodes g ix (.cls c) ↔ (x, rdfType, E.term c) ∈ g.triples) ∧
    (x ∈ E.targetNodes g ix (.implicit c) ↔ (x, rdfType, E.term c) ∈ g.triples ∨
      ∃ s, (s, subClassOf, E.term c) ∈ g.triples ∧ (x, rdfType, s) ∈ g.triples) := by
  have hsub : ∀ p o, x ∈ g.subjectsOf p o ↔ (x, p, o) ∈ g.triples := by
    intro p o
    simp only [Graph.subjectsOf, List.mem_dedup, List.mem_map, List.mem_filter, decide_eq_true_eq]
    constructor
    · rintro ⟨⟨s, p', o'⟩, ⟨h, rfl, rfl⟩, rfl⟩; exact h
    · intro h; exact ⟨_, ⟨h, rfl, rfl⟩, rfl⟩
  have hnodes := index_nodes (E := E) g.triples ⟨[], []⟩ hg (fun e he => by cases he) (fun e he => by cases he)
  change ObMap.Nodes (E.index g).instances ∧ ObMap.Nodes (E.index g).subclasses at hnodes
  have hin : ∀ (c i : Ob D), c.IsNode → i.IsNode → (i ∈ E.lookup c (E.index g).instances ↔
      (E.term i, rdfType, E.term c) ∈ g.triples) := by
    intro c i hc hi
    have := (mem_index (E := E) hc hi g.triples ⟨[], []⟩ hg).1
    simpa [Env.lookup, Env.index] using this
  have hsb : ∀ (c i : Ob D), c.IsNode → i.IsNode → (i ∈ E.lookup c (E.index g).subclasses ↔
      (E.term i, subClassOf, E.term c) ∈ g.triples) := by
    intro c i hc hi
    have := (mem_index (E := E) hc hi g.triples ⟨[], []⟩ hg).2
    simpa [Env.lookup, Env.index] using this
  constructor
  · rcases hix with rfl | rfl
    · exact hsub rdfType (E.term c)
    · simp only [Env.targetNodes, Env.targetClass, List.mem_dedup, List.mem_map]
      constructor
      · rintro ⟨i, hi, rfl⟩
        exact (hin c i hc (lookup_nodes hnodes.1 i hi)).1 hi
      · intro h
        obtain ⟨i, hi, e⟩ := node_of_term (E := E) (hg _ h)
        simp only at e
        refine ⟨i, (hin c i hc hi).2 (by rw [e]; exact h), e⟩
  · rcases hix with rfl | rfl
    · simp only [Env.targetNodes, Env.implicitClass, List.mem_dedup, List.mem_append, List.mem_flatMap, hsub]
      have hsub' : ∀ s, s ∈ g.subjectsOf subClassOf (E.term c) ↔ (s, subClassOf, E.term c) ∈ g.triples := by
        intro s
        simp only [Graph.subjectsOf, List.mem_dedup, List.mem_map, List.mem_filter, decide_eq_true_eq]
        constructor
        · rintro ⟨⟨s, p', o'⟩, ⟨h, rfl, rfl⟩, rfl⟩; exact h
        · intro h; exact ⟨_, ⟨h, rfl, rfl⟩, rfl⟩
      simp only [hsub']
    · simp only [Env.targetNodes, Env.implicitClass, List.mem_dedup, List.mem_map, Env.withSubclasses]
      constructor
      · rintro ⟨i, hi, rfl⟩
        rw [mem_foldl_addAll (E := E) (fun s => E.lookup s (E.index g).instances) (fun s v hv => lookup_nodes hnodes.1 v hv)] at hi
        rcases hi with hi | ⟨s, hs, hi⟩
        · exact Or.inl ((hin c i hc (lookup_nodes hnodes.1 i hi)).1 hi)
        · have hsn := lookup_nodes hnodes.2 s hs
          exact Or.inr ⟨E.term s, (hsb c s hc hsn).1 hs, (hin s i hsn (lookup_nodes hnodes.1 i hi)).1 hi⟩
      · rintro (h | ⟨s, h1, h2⟩)
        · obtain ⟨i, hi, e⟩ := node_of_term (E := E) (hg _ h)
          simp only at e
          refine ⟨i, ?_, e⟩
          rw [mem_foldl_addAll (E := E) (fun s => E.lookup s (E.index g).instances) (fun s v hv => lookup_nodes hnodes.1 v hv)]
          exact Or.inl ((hin c i hc hi).2 (by rw [e]; exact h))
        · obtain ⟨i, hi, e⟩ := node_of_term (E := E) (hg _ h2)
          obtain ⟨so, hso, e2⟩ := node_of_term (E := E) (hg _ h1)
          simp only at e e2
          refine ⟨i, ?_, e⟩
          rw [mem_foldl_addAll (E := E) (fun s => E.lookup s (E.index g).instances) (fun s v hv => lookup_nodes hnodes.1 v hv)]
          exact Or.inr ⟨so, (hsb c so hc hso).2 (by rw [e2]; exact h1), (hin so i hso hi).2 (by rw [e, e2]; exact h2)⟩

/-- **C40** (partial), the targets are the instances of the class when the class has no subclasses, or for shapes that are
classes no subclasses of subclasses. -/
theorem C40_shallow_partial (c : Ob D) (hc : c.IsNode) (x : Term) :
    ((∀ s, (s, subClassOf, E.term c) ∉ g.triples) → (x ∈ E.targetNodes g ix (.cls c) ↔ Instance g x (E.term c))) ∧
    ((∀ s s', (s, subClassOf, E.term c) ∈ g.triples → (s', subClassOf, s) ∈ g.triples →
        s' = E.term c ∨ (s', subClassOf, E.term c) ∈ g.triples) →
      (x ∈ E.targetNodes g ix (.implicit c) ↔ Instance g x (E.term c))) := by
  obtain ⟨h1, h2⟩ := C40_class_targets_partial g hg ix hix c hc x
  constructor
  · intro hflat
    rw [h1]
    constructor
    · intro h; exact ⟨_, h, .refl⟩
    · rintro ⟨s, h, hr⟩
      rcases Relation.ReflTransGen.cases_tail hr with rfl | ⟨b, _, hb⟩
      · exact h
      · exact absurd hb (hflat b)
  · intro hflat
    rw [h2]
    constructor
    · rintro (h | ⟨s, hs, h⟩)
      · exact ⟨_, h, .refl⟩
      · exact ⟨s, h, .single hs⟩
    · rintro ⟨s, h, hr⟩
      have : s = E.term c ∨ (s, subClassOf, E.term c) ∈ g.triples := by
        clear h
        induction hr using Relation.ReflTransGen.head_induction_on with
        | refl => exact Or.inl rfl
        | head hab _ ih =>
          rcases ih with rfl | ih
          · exact Or.inr hab
          · exact hflat _ _ ih hab
      rcases this with rfl | h3
      · exact Or.inl h
      · exact Or.inr ⟨s, h3, h⟩

/-- **C70**. The focus nodes of a shape are those selected by one of its targets: the node of a node target unless it is a
blank node, the subjects of triples with a predicate, the objects of such triples, and the nodes of class targets. -/
theorem C70_focus_nodes (ts : List (Target D)) (x : Term) : (E.focusNodes g ix ts).Nodup ∧
    (x ∈ E.focusNodes g ix ts ↔
      (∃ o, .node o ∈ ts ∧ x = E.term o ∧ ∀ b, x ≠ .bnode b) ∨
      (∃ p y, .subjectsOf p ∈ ts ∧ (x, p, y) ∈ g.triples) ∨
      (∃ p y, .objectsOf p ∈ ts ∧ (y, p, x) ∈ g.triples) ∨
      (∃ c, .cls c ∈ ts ∧ x ∈ E.targetNodes g ix (.cls c)) ∨
      ∃ c, .implicit c ∈ ts ∧ x ∈ E.targetNodes g ix (.implicit c)) := by
  refine ⟨List.nodup_dedup _, ?_⟩
  simp only [Env.focusNodes, List.mem_dedup, List.mem_flatMap]
  have hnode : ∀ o, x ∈ E.targetNodes g ix (.node o) ↔ x = E.term o ∧ ∀ b, x ≠ .bnode b := by
    intro o
    simp only [Env.targetNodes, Env.targetNode]
    cases h : E.term o <;> simp [Term.isBlank]
    · rintro rfl b; simp
    · rintro rfl; simp
    · rintro rfl b; simp
  have hs : ∀ p, x ∈ E.targetNodes g ix (.subjectsOf p) ↔ ∃ y, (x, p, y) ∈ g.triples := by
    intro p
    simp only [Env.targetNodes, List.mem_dedup, List.mem_map, List.mem_filter, decide_eq_true_eq]
    constructor
    · rintro ⟨⟨s, p', o⟩, ⟨h, rfl⟩, rfl⟩; exact ⟨o, h⟩
    · rintro ⟨y, h⟩; exact ⟨_, ⟨h, rfl⟩, rfl⟩
  have ho : ∀ p, x ∈ E.targetNodes g ix (.objectsOf p) ↔ ∃ y, (y, p, x) ∈ g.triples := by
    intro p
    simp only [Env.targetNodes, List.mem_dedup, List.mem_map, List.mem_filter, decide_eq_true_eq]
    constructor
    · rintro ⟨⟨s, p', o⟩, ⟨h, rfl⟩, rfl⟩; exact ⟨s, h⟩
    · rintro ⟨y, h⟩; exact ⟨_, ⟨h, rfl⟩, rfl⟩
  constructor
  · rintro ⟨t, ht, hx⟩
    cases t with
    | node o => exact Or.inl ⟨o, ht, (hnode o).1 hx⟩
    | subjectsOf p => obtain ⟨y, h⟩ := (hs p).1 hx; exact Or.inr (Or.inl ⟨p, y, ht, h⟩)
    | objectsOf p => obtain ⟨y, h⟩ := (ho p).1 hx; exact Or.inr (Or.inr (Or.inl ⟨p, y, ht, h⟩))
    | cls c => exact Or.inr (Or.inr (Or.inr (Or.inl ⟨c, ht, hx⟩)))
    | implicit c => exact Or.inr (Or.inr (Or.inr (Or.inr ⟨c, ht, hx⟩)))
  · rintro (⟨o, ht, h⟩ | ⟨p, y, ht, h⟩ | ⟨p, y, ht, h⟩ | ⟨c, ht, h⟩ | ⟨c, ht, h⟩)
    · exact ⟨_, ht, (hnode o).2 h⟩
    · exact ⟨_, ht, (hs p).2 ⟨y, h⟩⟩
    · exact ⟨_, ht, (ho p).2 ⟨y, h⟩⟩
    · exact ⟨_, ht, h⟩
    · exact ⟨_, ht, h⟩

end

/-- Parameters for examples. -/
def exEnv : Env Unit := ⟨exX, fun s => some (s.map Char.toLower)⟩

/-- An instance `x` of `A`, a subclass of `B`, a subclass of `C`. -/
def classGraph : Graph Term Str := data
  [(.iri ['x'], rdfType, .iri ['A']), (.iri ['A'], subClassOf, .iri ['B']), (.iri ['B'], subClassOf, .iri ['C'])]

/-- **C40** is false of the code: `x` is an instance of `B` and of `C`, but not in the target of class `B`, and not in
that of a shape `C` that is a class, with or without index. -/
theorem C40_refuted : ∃ (g : Graph Term Str) (x : Term) (b c : Ob Unit), g.Rdf ∧ b.IsNode ∧ c.IsNode ∧
    Instance g x (exEnv.term b) ∧ Instance g x (exEnv.term c) ∧
    ∀ ix, ix = none ∨ ix = some (exEnv.index g) →
      x ∉ exEnv.targetNodes g ix (.cls b) ∧ x ∉ exEnv.targetNodes g ix (.implicit c) := by
  have hg : classGraph.Rdf := by
    intro t ht
    simp only [classGraph, data, List.mem_cons, List.not_mem_nil, or_false] at ht
    rcases ht with rfl | rfl | rfl <;> rfl
  refine ⟨classGraph, .iri ['x'], .iri ['B'], .iri ['C'], hg, trivial, trivial, ?_, ?_, ?_⟩
  · exact ⟨.iri ['A'], by simp [classGraph, data], .single (by simp [classGraph, data, exEnv, Env.term])⟩
  · exact ⟨.iri ['A'], by simp [classGraph, data], .tail (b := .iri ['B']) (.single (by simp [classGraph, data]))
      (by simp [classGraph, data, Env.term])⟩
  · intro ix hix
    constructor
    · rw [(C40_class_targets_partial classGraph hg ix hix (.iri ['B']) trivial _).1]
      have := type_ne_sub
      simp [classGraph, data, Env.term]
    · rw [(C40_class_targets_partial classGraph hg ix hix (.iri ['C']) trivial _).2]
      have := type_ne_sub
      simp [classGraph, data, Env.term, type_ne_sub]

/-- C40 and C70 apply: the instance is found for its class, and for a shape that is the superclass. -/
example : exEnv.focusNodes classGraph (some (exEnv.index classGraph)) [.cls (.iri ['A']), .objectsOf subClassOf] =
      [.iri ['x'], .iri ['B'], .iri ['C']] ∧
    exEnv.focusNodes classGraph none [.implicit (.iri ['B']), .node (.bnode ['y'])] = [.iri ['x']] := by
  decide

#print axioms C40_class_targets_partial
#print axioms C40_shallow_partial
#print axioms C40_refuted
#print axioms C70_focus_nodes

end Shacl
