import Verif.Shacl.SparqlSpec
import Verif.Shacl.PairProps

/-!
# Lemmas: the SPARQL mode
-/

namespace Shacl
open Lit

section
variable {D : Type} {E : Env D} {O : Operators} {Q : Answers} {g : Graph Term Str}

theorem written_toRdf {r : RdfLiteral} {l : Literal D} (hr : r.WF) (h : Literal.ofRdf E.X E.norm r = some l) :
    Literal.written E l = some (l.toRdf E.X) := by
  have hwf := hr
  obtain ⟨⟨w1, w2, w3⟩, _⟩ := hr
  have hdt : ∀ dt, r.dt = some dt → dt ≠ .string ∧ dt ≠ .langString ∧ ∀ p l, dt ≠ .prefixed p l := by
    intro dt e
    rw [e] at w1 w2 w3
    exact ⟨fun h => w1 (by rw [h]), fun h => w2 (by rw [h]), fun p l h => w3 p l (by rw [h])⟩
  rcases ofRdf_cases E.X hwf h with ⟨_, _, rfl⟩ | ⟨_, _, _, _, _, rfl⟩ | ⟨dt, ⟨h1, _⟩, e, rfl, _⟩ |
    ⟨dt, ⟨h1, _⟩, rfl, _⟩ | ⟨k, n, _, _, _, rfl⟩ | ⟨b, _, _, rfl⟩ | ⟨d, _, _, rfl⟩
  · rfl
  · rfl
  · obtain ⟨a, b, c⟩ := hdt dt h1
    cases dt <;> first | rfl | exact absurd rfl a | exact absurd rfl b | exact absurd rfl (c _ _)
  · obtain ⟨a, b, c⟩ := hdt dt h1
    cases dt <;> first | rfl | exact absurd rfl a | exact absurd rfl b | exact absurd rfl (c _ _)
  · rfl
  · cases b <;> rfl
  · rfl

/-- Terms that the conversion does not change are written as they are. -/
theorem ground_stable {t : Term} (hs : Stable E t) (ho : E.obj t ≠ none) (hb : t.isBlank = false) :
    E.groundTerm t = some t := by
  obtain ⟨o, h⟩ := Option.ne_none_iff_exists'.1 ho
  have ht := stable_term hs h
  cases t with
  | iri s => rfl
  | bnode s => cases hb
  | lit r =>
    simp only [Env.groundTerm, h, Option.bind_some]
    simp only [Env.obj, Option.map_eq_some_iff] at h
    obtain ⟨l, hl, rfl⟩ := h
    simp only [Env.ground, written_toRdf hs.1 hl, Option.map_some]
    exact congrArg some ht

variable (hQ : Correct O g Q)
include hQ

theorem ask_filter (e : QExpr) :
    Q.ask (askFilter e) = some (decide (e.value O (fun _ => none) = some (.bool true))) := by
  rw [askFilter, hQ.ask]
  simp only [solutions, List.filter_cons, List.filter_nil, Option.some.injEq]
  by_cases h : e.value O (fun _ => none) = some (.bool true) <;> simp [h]

/-- Values are reported whose query is false. -/
theorem askEach_eq {x : Term} (hx : E.obj x ≠ none) {vs : List Term} (query : Term → Option Query) (Bad : Term → Prop)
    (h : ∀ v ∈ vs, ∃ e, query v = some (askFilter e) ∧ (e.value O (fun _ => none) ≠ some (.bool true) ↔ Bad v)) :
    E.askEach Q x vs query = violations E vs Bad := by
  unfold Env.askEach
  apply each_eq hx
  intro v hv
  obtain ⟨e, h1, h2⟩ := h v hv
  simp only [h1, ask_filter hQ, ← h2, Bool.not_eq_true', decide_eq_false_iff_not, ne_eq]

omit hQ

/-- A binding of one variable. -/
def single (v : Str) (t : Term) : Binding := Function.update (fun _ => none) (.named v) (some (.term t))

theorem fit_shown {x : Term} (hb : x.isBlank = false) (t : Term) (μ : Binding) :
    (QTerm.shown x).fit t μ = if t = x then some μ else none := by
  cases x with
  | iri s => rfl
  | bnode s => cases hb
  | lit r => rfl

theorem solutions_values {x : Term} (hb : x.isBlank = false) (p v : Str) :
    solutions O g ⟨some (.shown x, .iri p, .var (.named v)), none, none⟩ = (g.values x p).map (single v) := by
  simp only [solutions, Graph.values, List.map_map]
  induction g.triples with
  | nil => rfl
  | cons t ts ih =>
    rw [List.filterMap_cons, List.filter_cons, ih]
    simp only [fits, fit_shown hb]
    by_cases h1 : t.1 = x
    · by_cases h2 : t.2.1 = p
      · simp [h1, h2, QPred.fit, QTerm.fit, single]
      · simp [h1, h2, QPred.fit]
    · simp [h1]

theorem row_single (v : Str) (t : Term) : row [v] (single v t) v = some t := by
  simp [row, single, Val.toTerm]

/-- The answers exist. -/
theorem correct_exists (O : Operators) (g : Graph Term Str) : ∃ Q, Correct O g Q := by
  classical
  refine ⟨⟨fun q => match q with
      | .ask G => some (!(solutions O g G).isEmpty)
      | .askPath s p o => some (decide (Rel g p s o))
      | _ => none,
    fun q => match q with
      | .select vars G => some ((solutions O g G).map (row vars))
      | .distinct v G => some ((solutions O g G).map (row [v])).dedup
      | .distinctPath v p o => some (((g.triples.map fun t => t.1).filter fun x => decide (Rel g p x o)).map
          fun x => fun w => if w = v then some x else none).dedup
      | _ => none⟩, ?_, ?_, ?_, ?_, ?_⟩
  · intro G; rfl
  · intro vars G; exact ⟨_, rfl, List.Perm.refl _⟩
  · intro v G
    refine ⟨_, rfl, List.nodup_dedup _, fun r => ?_⟩
    simp only [List.mem_dedup, List.mem_map]
    constructor <;> rintro ⟨μ, h, e⟩ <;> exact ⟨μ, h, e.symm⟩
  · intro s p o; exact ⟨_, rfl, by simp⟩
  · intro v p q o
    refine ⟨_, rfl, List.nodup_dedup _, fun r => ?_⟩
    simp only [List.mem_dedup, List.mem_map, List.mem_filter, decide_eq_true_eq]
    constructor
    · rintro ⟨x, ⟨_, h⟩, rfl⟩; exact ⟨x, h, rfl⟩
    · rintro ⟨x, h, rfl⟩
      refine ⟨x, ⟨?_, h⟩, rfl⟩
      simp only [Rel, RelSeq] at h
      obtain ⟨z, hz, _⟩ := h
      exact ⟨_, hz, rfl⟩

end

end Shacl
