import Verif.Shexc.SpecMapNodes
import Verif.Shexc.PropsMap
import Verif.Shexc.PropsPrint

/-!
# Properties of the nodes that a shape map selects

C112: which nodes are selected, and what the queries look like.
-/

namespace Shexc

open P Spec

variable {T : Type}

/-! ## Lemmas -/

theorem focus_letters : "focus".toList ≠ [] ∧ ∀ c ∈ "focus".toList, letter c := by decide

theorem any_letters : "any".toList ≠ [] ∧ ∀ c ∈ "any".toList, letter c := by decide

/-- How a plain pattern is asked for. -/
theorem mkVble_plain (I : Iris) (D : Data T) (showNum : Num → Str) {o : Pat} (h : Plain o) :
    ∃ q w, mkVble I D.pm showNum o = some w ∧ QText q w ∧
      ∀ t f, (∃ μ : Str → T, μ "focus".toList = f ∧ q.Is D μ t) ↔ Holds D o t := by
  cases h with
  | iri h =>
    refine ⟨.iri _, _, rfl, .iri h, fun t f => ⟨?_, ?_⟩⟩
    · rintro ⟨μ, -, rfl⟩; exact .iri _
    · intro h; cases h; exact ⟨fun _ => f, rfl, rfl⟩
  | str h =>
    refine ⟨.str _, _, rfl, .str h, fun t f => ⟨?_, ?_⟩⟩
    · rintro ⟨μ, -, rfl⟩; exact .str _
    · intro h; cases h; exact ⟨fun _ => f, rfl, rfl⟩
  | wildcard =>
    refine ⟨.var "any".toList, _, rfl, .var any_letters, fun t f => ⟨fun _ => .wildcard t, fun _ => ?_⟩⟩
    exact ⟨fun x => if x = "focus".toList then f else t, by simp, by rw [QTerm.Is, if_neg (by decide)]⟩

theorem firsts {α : Type} {R : List (Option T) → α → Prop} {f : α → T} (hR : ∀ r a, R r a → r = [some (f a)]) :
    ∀ {sols : List (List (Option T))} {ms : List α}, List.Forall₂ R sols ms →
      (sols.filterMap fun vs => vs.head?.bind id) = ms.map f := by
  intro sols ms h
  induction h with
  | nil => rfl
  | cons h _ ih => rw [hR _ _ h, List.filterMap_cons]; simpa using ih

/-! ## Properties -/

/-- **C112** (partial: for IRIs and strings that need no escapes; see `C112_refuted`): with a query engine that answers
queries with one triple pattern as it should, the pattern `{ FOCUS p o }` selects the subject of each triple of the
graph with predicate `p` and an object that `o` stands for, once for each of these triples. -/
theorem C112_subjects_partial (I : Iris) (D : Data T) (showNum : Num → Str) (G : List (T × T × T)) (hD : Faithful D G)
    (p : Str) (hp : Chars IriChar p p) (o : Pat) (ho : Plain o) :
    ∃ ms : List (T × T × T), ms.Nodup ∧ (∀ t, t ∈ ms ↔ t ∈ G ∧ t.2.1 = D.iriTerm p ∧ Holds D o t.2.2) ∧
      (Sel.triple .focus (.pred (.iri p)) o).nodes I D showNum = .ok (ms.map fun t => t.1) := by
  obtain ⟨q, w, h1, h2, h3⟩ := mkVble_plain I D showNum ho
  obtain ⟨sols, ms, h4, h5, h6, h7⟩ := hD "focus".toList (.var "focus".toList) (.iri p) q _
    (.mk (.var focus_letters) (.iri hp) h2) (.inl rfl)
  refine ⟨ms, h5, ?_, ?_⟩
  · intro t
    rw [h6, ← h3 t.2.2 t.1]
    constructor
    · rintro ⟨h, μ, h8, h9, h10⟩; exact ⟨h, h9, μ, h8, h10⟩
    · rintro ⟨h, h9, μ, h8, h10⟩; exact ⟨h, μ, h8, h9, h10⟩
  · have e : Sel.nodes I D showNum (.triple .focus (.pred (.iri p)) o) =
        resolveQuery D (tripleQuery "?focus".toList ('<' :: (p ++ ['>'])) w) := by
      rw [Sel.nodes, h1]
      rfl
    have e' : tripleQuery "?focus".toList ('<' :: (p ++ ['>'])) w = "SELECT ?".toList ++ "focus".toList ++
        " WHERE { ".toList ++ ('?' :: "focus".toList) ++ [' '] ++ ('<' :: (p ++ ['>'])) ++ [' '] ++ w ++ " }".toList := by
      rfl
    rw [e, e', resolveQuery, h4]
    simp only
    rw [firsts (f := fun t : T × T × T => t.1) ?_ h7]
    rintro r t ⟨μ, h8, -, -, rfl⟩
    rw [show μ "focus".toList = t.1 from h8]

/-- **C112** (partial: as above): the pattern `{ s p FOCUS }` selects the object of each triple of the graph with
predicate `p` and a subject that `s` stands for, once for each of these triples. -/
theorem C112_objects_partial (I : Iris) (D : Data T) (showNum : Num → Str) (G : List (T × T × T)) (hD : Faithful D G)
    (p : Str) (hp : Chars IriChar p p) (s : Pat) (hs : Plain s) :
    ∃ ms : List (T × T × T), ms.Nodup ∧ (∀ t, t ∈ ms ↔ t ∈ G ∧ t.2.1 = D.iriTerm p ∧ Holds D s t.1) ∧
      (Sel.triple s (.pred (.iri p)) .focus).nodes I D showNum = .ok (ms.map fun t => t.2.2) := by
  obtain ⟨q, w, h1, h2, h3⟩ := mkVble_plain I D showNum hs
  obtain ⟨sols, ms, h4, h5, h6, h7⟩ := hD "focus".toList q (.iri p) (.var "focus".toList) _
    (.mk h2 (.iri hp) (.var focus_letters)) (.inr rfl)
  refine ⟨ms, h5, ?_, ?_⟩
  · intro t
    rw [h6, ← h3 t.1 t.2.2]
    constructor
    · rintro ⟨h, μ, h8, h9, h10⟩; exact ⟨h, h9, μ, h10, h8⟩
    · rintro ⟨h, h9, μ, h8, h10⟩; exact ⟨h, μ, h10, h9, h8⟩
  · have e : Sel.nodes I D showNum (.triple s (.pred (.iri p)) .focus) =
        resolveQuery D (tripleQuery w ('<' :: (p ++ ['>'])) "?focus".toList) := by
      rw [Sel.nodes, h1]
      rfl
    have e' : tripleQuery w ('<' :: (p ++ ['>'])) "?focus".toList = "SELECT ?".toList ++ "focus".toList ++
        " WHERE { ".toList ++ w ++ [' '] ++ ('<' :: (p ++ ['>'])) ++ [' '] ++ ('?' :: "focus".toList) ++ " }".toList := by
      rfl
    rw [e, e', resolveQuery, h4]
    simp only
    rw [firsts (f := fun t : T × T × T => t.2.2) ?_ h7]
    rintro r t ⟨μ, -, -, h8, rfl⟩
    rw [show μ "focus".toList = t.2.2 from h8]

/-- **C112**: the pairs of a shape map are the nodes of each selector with the shape of its association, one after the
other; when a selector fails, all fails with the first failure. -/
theorem C112_pairs (I : Iris) (D : Data T) (showNum : Num → Str) (as : List Assoc) (r : NodesOut (T × Label)) :
    nodeShapes I D showNum as = r ↔ Pairs (fun a => a.node.nodes I D showNum) as r := by
  constructor
  · rintro rfl
    induction as with
    | nil => exact .nil
    | cons a as ih =>
      rw [nodeShapes]
      cases h : a.node.nodes I D showNum with
      | error => exact .error h
      | panic => exact .panic h
      | ok ts =>
        simp only
        cases h2 : nodeShapes I D showNum as with
        | error => rw [h2] at ih; exact .errorLater h ih
        | panic => rw [h2] at ih; exact .panicLater h ih
        | ok rs =>
          rw [h2] at ih
          obtain ⟨n, s⟩ := a
          cases s with
          | label l => exact .cons h ih
          | start => exact .start h ih
  · intro h
    induction h with
    | nil => rfl
    | error h => rw [nodeShapes, h]
    | panic h => rw [nodeShapes, h]
    | cons h _ ih => rw [nodeShapes, h, ih]; rfl
    | start h _ ih => rw [nodeShapes, h, ih]; rfl
    | errorLater h _ ih => rw [nodeShapes, h, ih]
    | panicLater h _ ih => rw [nodeShapes, h, ih]

theorem nodes_panic (I : Iris) (D : Data T) (showNum : Num → Str) (s : Sel) (h : s.Simple) :
    s.nodes I D showNum ≠ .panic := by
  have hq : ∀ q, resolveQuery D q ≠ .panic := by
    intro q
    unfold resolveQuery
    split <;> simp
  cases s with
  | node o =>
    cases o with
    | iri r => rw [Sel.nodes]; split <;> simp
    | lit l => simp [Sel.nodes]
  | bnode b => simp [Sel.nodes]
  | sparql q => exact hq q
  | generic i p => exact h.elim
  | triple s p o =>
    obtain ⟨r, rfl⟩ := h
    rw [Sel.nodes, mkPath]
    cases mkVble I D.pm showNum s with
    | none => simp
    | some s' =>
      cases r.resolveIn I D.pm with
      | none => simp
      | some p' =>
        cases mkVble I D.pm showNum o with
        | none => simp
        | some o' => exact hq _

theorem Sel.Simple.rename {s : Sel} (h : s.Simple) (ρ : IriRef → IriRef) : (s.rename ρ).Simple := by
  cases s with
  | triple s p o => obtain ⟨r, rfl⟩ := h; exact ⟨_, rfl⟩
  | generic i p => exact h
  | _ => trivial

/-- **C112**: a shape map that was read never makes the selection of nodes panic, and the nodes that it names are
selected, whether they are in the graph or not. -/
theorem C112_read (X : Ext) (I : Iris) (V : MapEnv) (w : Str) (M : ShapeMap) (h : parseMap X I V w = .ok M)
    (D : Data T) (showNum : Num → Str) :
    nodeShapes I D showNum M.assocs ≠ .panic ∧
      ∀ a ∈ M.assocs, ∀ r, a.node = .node (.iri r) → ∃ s, r = .iri s ∧ a.node.nodes I D showNum = .ok [D.iriTerm s] := by
  constructor
  · obtain ⟨as, h1, h2⟩ := parseMap_ok h
    have hf := parseMap_fine X freeCtx w trivial
    rw [h1] at hf
    rw [adds_eq] at h2
    unfold onlyIf at h2
    split at h2
    · cases h2
      have hs : ∀ a ∈ V.empty.assocs ++ as.map fun a : Assoc => (⟨a.node.rename (res I ⟨V.baseNodes, some V.empty.nodesPm⟩),
          a.shape.rename (res I ⟨V.baseShapes, some V.empty.shapesPm⟩)⟩ : Assoc), a.node.Simple := by
        intro a ha
        simp only [MapEnv.empty, List.nil_append, List.mem_map] at ha
        obtain ⟨b, hb, rfl⟩ := ha
        exact (hf.1.2 b hb).rename _
      revert hs
      generalize V.empty.assocs ++ as.map _ = bs
      intro hs
      induction bs with
      | nil => simp [nodeShapes]
      | cons a bs ih =>
        have ih := ih fun b hb => hs b (by simp [hb])
        have h3 := nodes_panic I D showNum a.node (hs a (by simp))
        rw [nodeShapes]
        cases h4 : a.node.nodes I D showNum with
        | panic => exact absurd h4 h3
        | error => simp
        | ok ts =>
          cases h5 : nodeShapes I D showNum bs with
          | panic => exact absurd h5 ih
          | error => simp
          | ok rs => simp
    · cases h2
  · intro a ha r hr
    obtain ⟨s, rfl⟩ := C110_absolute X I V w M h a ha r (by rw [hr]; simp [Sel.names, ObjVal.names])
    exact ⟨s, rfl, by rw [hr]; rfl⟩

/-- **C112** (the full statement, for all literals, is false): strings are written into the query as they are, so that
a string can add triple patterns to it; and the datatype of a number is written with a prefix that the query does not
declare. -/
theorem C112_refuted (I : Iris) (D : Data T) (showNum : Num → Str) :
    (Sel.triple .focus (.pred (.iri "x:p".toList)) (.node (.lit (.str "a\" . ?focus <x:q> \"b".toList)))).nodes I D showNum =
      resolveQuery D "SELECT ?focus WHERE { ?focus <x:p> \"a\" . ?focus <x:q> \"b\" }".toList ∧
    (Sel.triple .focus (.pred (.iri "x:p".toList)) (.node (.lit (.typed "42".toList
        (.iri "http://www.w3.org/2001/XMLSchema#integer".toList))))).nodes I D showNum =
      resolveQuery D "SELECT ?focus WHERE { ?focus <x:p> \"42\"^^xsd:integer }".toList := by
  constructor
  · rfl
  · have h : basicPm.qualify "http://www.w3.org/2001/XMLSchema#integer".toList = "xsd:integer".toList := by
      decide +kernel
    unfold Sel.nodes
    simp only [mkVble, mkPath, IriRef.resolveIn, Option.map_some, Lit.display, h]
    rfl

/-! ## Examples -/

/-- A graph with one triple, in which all terms are the same. -/
def oneTerm : Data Unit := ⟨.new, fun _ => (), fun _ => (), fun _ => (), fun _ => some [[some ()]]⟩

theorem oneTerm_faithful : Faithful oneTerm [((), (), ())] := by
  intro v s p o w _ _
  have hi : ∀ q : QTerm, q.Is oneTerm (fun _ => ()) () := by intro q; cases q <;> rfl
  exact ⟨_, [((), (), ())], rfl, by simp, fun t => ⟨fun _ => ⟨by simp, fun _ => (), hi s, hi p, hi o⟩, fun _ => by simp⟩,
    .cons ⟨fun _ => (), hi s, hi p, hi o, rfl⟩ .nil⟩

example : ∃ ms : List (Unit × Unit × Unit), ms.Nodup ∧
    (∀ t, t ∈ ms ↔ t ∈ [((), (), ())] ∧ t.2.1 = () ∧ Holds oneTerm .wildcard t.2.2) ∧
    (Sel.triple .focus (.pred (.iri "x:p".toList)) .wildcard).nodes anyIris oneTerm (fun _ => []) =
      .ok (ms.map fun t => t.1) :=
  C112_subjects_partial anyIris oneTerm _ _ oneTerm_faithful _ (iriChars (by decide)) _ .wildcard

example : (nodeShapes anyIris oneTerm (fun _ => []) [⟨.node (.iri (.iri ['a'])), .start⟩,
    ⟨.triple .focus (.pred (.iri "x:p".toList)) .wildcard, .label (.iri (.iri ['s']))⟩]) =
      .ok [((), .start), ((), .iri (.iri ['s']))] :=
  (C112_pairs _ _ _ _ _).2 (.start (ts := [()]) (rs := [((), .iri (.iri ['s']))]) rfl (.cons (ts := [()]) rfl .nil))

end Shexc
