import Verif.Conv.Props

/-!
# Properties: errors of the conversion of SHACL shapes (C113)
-/

namespace Conv

open Shexc (SE TE NC Value ObjVal IriRef Label Str)
open Spec

/-- There is code for all of the schema but for what is answered with an error: literals as ids, node shapes as properties,
and target classes that are blank nodes or literals. -/
structure NoPanics (b : Bool) (S : Schema) : Prop where
  shapes : ∀ i ∈ S.labels, S.shape i ≠ none
  ids : ∀ s ∈ nodeShapes S, s.id ≠ .triple
  props : ∀ s ∈ nodeShapes S, ∀ i ∈ s.props, (∃ n, S.shape i = some (.node n)) ∨ ∃ p, S.shape i = some (.prop p) ∧
    p.path ≠ none ∧ ∀ c ∈ p.comps, (∃ i, c = .cls (.iri i)) ∨ (∃ d, c = .datatype d) ∨ c = .or
  targets : b = true → ∀ s ∈ nodeShapes S, .wrong ∉ s.targets ∧ .cls .triple ∉ s.targets

theorem mapOut_ne_panic {α β : Type} {f : α → Out β} : ∀ {as : List α}, (∀ a ∈ as, f a ≠ .panic) → mapOut f as ≠ .panic
  | [], _ => nofun
  | a :: as, h => by
    have h1 := h a (by simp)
    have h2 := mapOut_ne_panic fun a' ha => h a' (List.mem_cons_of_mem _ ha)
    rw [mapOut]
    cases ha : f a with
    | panic => exact absurd ha h1
    | error => nofun
    | ok b =>
      cases has : mapOut f as with
      | panic => exact absurd has h2
      | error => simp [Out.bind]
      | ok bs => simp [Out.bind]

theorem bind_ne_panic {α β : Type} {x : Out α} {f : α → Out β} (h : x ≠ .panic) (hf : ∀ a, x = .ok a → f a ≠ .panic) :
    x.bind f ≠ .panic := by
  cases x with
  | panic => exact absurd rfl h
  | error => nofun
  | ok a => exact hf a rfl

/-- **C113** If there is code for all but what is answered with an error, the conversion does not panic: there is an error
exactly if there is no conversion. -/
theorem C113_errors (b : Bool) (S : Schema) (hS : NoPanics b S) : convert b S = .error ↔ ¬ Convertible b S := by
  rw [← C113_converts_iff]
  have hne : convert b S ≠ .panic := by
    refine bind_ne_panic (mapOut_ne_panic fun i hi => ?_) fun _ _ => nofun
    unfold convertAt
    split
    · next hn => exact absurd hn (hS.shapes i hi)
    · next s hs =>
      have hmem : s ∈ nodeShapes S := List.mem_filterMap.2 ⟨i, hi, by rw [hs]⟩
      refine bind_ne_panic ?_ fun _ _ => nofun
      refine bind_ne_panic ?_ fun l _ => bind_ne_panic ?_ fun _ _ => nofun
      · cases h : s.id with
        | triple => exact absurd h (hS.ids s hmem)
        | _ => nofun
      · refine bind_ne_panic (mapOut_ne_panic fun j hj => ?_) fun ts _ => ?_
        · rcases hS.props s hmem j hj with ⟨n, hn⟩ | ⟨p, hp, hpath, hc⟩
          · simp only [propertyAt, hn]
            nofun
          · simp only [propertyAt, hp, property]
            cases hpp : p.path with
            | none => exact absurd hpp hpath
            | some q =>
              refine bind_ne_panic (bind_ne_panic (mapOut_ne_panic fun c hcm => ?_) fun _ _ => nofun) fun _ _ => nofun
              rcases hc c hcm with ⟨i, rfl⟩ | ⟨d, rfl⟩ | rfl <;> nofun
        · cases b with
          | false => nofun
          | true =>
            refine bind_ne_panic (bind_ne_panic (mapOut_ne_panic fun t ht => ?_) fun _ _ => nofun) fun t ht => ?_
            · obtain ⟨h1, h2⟩ := hS.targets rfl s hmem
              cases t with
              | wrong => exact absurd ht h1
              | cls c =>
                cases c with
                | triple => exact absurd ht h2
                | _ => nofun
              | _ => nofun
            · obtain ⟨cs, _, e⟩ := bind_ok.1 ht
              cases e
              by_cases hts : ts.isEmpty = true
              · simp [eachOpt, hts]
              · simp [eachOpt, hts, mkEach, mkTc, merge, Out.bind]
    · nofun
  cases h : convert b S with
  | ok ds => simp
  | panic => exact absurd h hne
  | error => simp

/-- A schema where a node shape is among the properties, and one where a literal is an id. -/
example : convert true ⟨[0, 1], fun i => if i = 0 then some (.node ⟨.iri ['s'], [1], [.cls (.iri ['c'])]⟩)
      else if i = 1 then some (.node ⟨.bnode ['b'], [], []⟩) else none⟩ = .error ∧
    convert false ⟨[0], fun i => if i = 0 then some (.node ⟨.literal, [], []⟩) else none⟩ = .error := ⟨rfl, rfl⟩

example : NoPanics true ⟨[0, 1], fun i => if i = 0 then some (.node ⟨.iri ['s'], [1], [.cls (.iri ['c'])]⟩)
      else if i = 1 then some (.node ⟨.bnode ['b'], [], []⟩) else none⟩ := by
  constructor <;> simp [nodeShapes]

end Conv
