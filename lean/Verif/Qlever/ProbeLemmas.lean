import Verif.Qlever.ProbeSpec
import Mathlib.Data.List.Basic

/-!
# Lemmas on finding decompressors
-/

namespace Qlever.Probe

theorem splitPaths_ne (s : Str) : splitPaths s ≠ [] := by
  cases s with
  | nil => simp [splitPaths]
  | cons c s =>
    unfold splitPaths
    split
    · simp
    · split <;> simp

theorem splitPaths_dirs (s : Str) : Dirs s (splitPaths s) := by
  refine ⟨splitPaths_ne s, ?_, ?_⟩
  · induction s with
    | nil => simp [splitPaths]
    | cons c s ih =>
      unfold splitPaths
      split
      · intro d hd
        rcases List.mem_cons.1 hd with rfl | hd
        · simp
        · exact ih d hd
      · rename_i hc
        split
        · intro d hd
          simp only [List.mem_singleton] at hd
          subst hd
          simpa using fun h => hc h.symm
        · rename_i d l hs
          rw [hs] at ih
          intro x hx
          rcases List.mem_cons.1 hx with rfl | hx
          · have := ih d (by simp)
            simp only [List.mem_cons, not_or]
            exact ⟨fun h => hc h.symm, this⟩
          · exact ih x (by simp [hx])
  · induction s with
    | nil => rfl
    | cons c s ih =>
      have hne := splitPaths_ne s
      unfold splitPaths
      split
      · rename_i hc
        subst hc
        rcases hs : splitPaths s with _ | ⟨d, l⟩
        · exact absurd hs hne
        · rw [hs] at ih
          simp only [List.intercalate, List.intersperse_cons_cons, List.flatten_cons] at ih ⊢
          rw [ih]; rfl
      · rcases hs : splitPaths s with _ | ⟨d, l⟩
        · exact absurd hs hne
        · rw [hs] at ih
          cases l with
          | nil => simpa [List.intercalate] using ih
          | cons e l =>
            simp only [List.intercalate, List.intersperse_cons_cons, List.flatten_cons, List.cons_append] at ih ⊢
            rw [ih]

theorem dirs_unique {p : Str} {l : List Str} (h : Dirs p l) : l = splitPaths p := by
  obtain ⟨hne, hc, he⟩ := h
  induction l generalizing p with
  | nil => exact absurd rfl hne
  | cons d l ih =>
    cases l with
    | nil =>
      have : p = d := by simpa [List.intercalate] using he.symm
      subst this
      have hd := hc p (by simp)
      clear hc he ih hne
      induction p with
      | nil => rfl
      | cons c p ih =>
        simp only [List.mem_cons, not_or] at hd
        unfold splitPaths
        rw [if_neg (fun h => hd.1 h.symm), ← ih hd.2]
    | cons e l =>
      have he' : p = d ++ ':' :: List.intercalate [':'] (e :: l) := by
        rw [← he]; simp [List.intercalate, List.intersperse_cons_cons]
      have ht : (e :: l) = splitPaths (List.intercalate [':'] (e :: l)) :=
        ih (by simp) (fun x hx => hc x (List.mem_cons_of_mem _ hx)) rfl
      have hd := hc d (by simp)
      rw [he', ht, ← ht]
      clear he he' ih hne hc
      induction d with
      | nil => simp [splitPaths, ← ht]
      | cons c d ih =>
        simp only [List.mem_cons, not_or] at hd
        rw [List.cons_append, splitPaths, if_neg (fun h => hd.1 h.symm), ← ih hd.2]

theorem join_inDir (dir name : Str) (f : Str) : InDir dir name f ↔ f = join dir name := by
  unfold InDir join
  rcases List.eq_nil_or_concat dir with rfl | ⟨d, c, rfl⟩
  · simp
  · by_cases hc : c = '/'
    · subst hc; simp
    · simp [hc]

theorem find_first {α : Type} (p : α → Bool) (l : List α) (x : α) : l.find? p = some x ↔ First (fun y => p y = true) l x := by
  rw [List.find?_eq_some_iff_append]
  constructor
  · rintro ⟨h, a, b, rfl, hb⟩
    exact ⟨a, b, rfl, h, fun y hy => by simpa using hb y hy⟩
  · rintro ⟨a, b, rfl, h, hb⟩
    exact ⟨h, a, b, rfl, fun y hy => by simpa using hb y hy⟩

theorem first_map {α β : Type} (g : α → β) (P : β → Prop) (l : List α) (y : β) :
    First P (l.map g) y ↔ ∃ x, First (fun x => P (g x)) l x ∧ y = g x := by
  constructor
  · rintro ⟨a, b, h, hp, hb⟩
    obtain ⟨a', r, rfl, rfl, h2⟩ := List.map_eq_append_iff.1 h
    obtain ⟨x, b', rfl, rfl, rfl⟩ := List.map_eq_cons_iff.1 h2
    exact ⟨x, ⟨a', b', rfl, hp, fun z hz => hb _ (List.mem_map_of_mem hz)⟩, rfl⟩
  · rintro ⟨x, ⟨a, b, rfl, hp, hb⟩, rfl⟩
    refine ⟨a.map g, b.map g, by simp, hp, fun z hz => ?_⟩
    obtain ⟨w, hw, rfl⟩ := List.mem_map.1 hz
    exact hb w hw

theorem has_iff (exec : Str → Bool) (program dir : Str) : Has exec program dir ↔ exec (join dir program) = true := by
  unfold Has
  constructor
  · rintro ⟨f, h, he⟩; rw [join_inDir] at h; rwa [← h]
  · exact fun h => ⟨_, (join_inDir ..).2 rfl, h⟩

theorem findOnPath_some (exec : Str → Bool) (p program f : Str) :
    findOnPath exec (some p) program = some f ↔ ∃ d, First (Has exec program) (splitPaths p) d ∧ InDir d program f := by
  unfold findOnPath
  rw [find_first, first_map]
  have : Has exec program = fun d => exec (join d program) = true := funext fun d => propext (has_iff ..)
  rw [this]
  simp only [join_inDir]

theorem findOnPath_none (exec : Str → Bool) (p program : Str) :
    findOnPath exec (some p) program = none ↔ ∀ d ∈ splitPaths p, ¬ Has exec program d := by
  unfold findOnPath
  simp [has_iff]

theorem resolve_some (exec : Str → Bool) (p : Str) (f : Compression) (l : List Candidate) (r : Resolved) :
    resolve exec (some p) f l = some r ↔ ∃ c, First (fun c => ∃ d ∈ splitPaths p, Has exec c.program d) l c ∧
      ∃ d, First (Has exec c.program) (splitPaths p) d ∧ InDir d c.program r.program ∧ r.args = c.args ∧ r.parallel = c.parallel ∧
        r.family = familyName f := by
  induction l with
  | nil => simp [resolve, First]
  | cons c l ih =>
    unfold resolve
    cases hf : findOnPath exec (some p) c.program with
    | some abs =>
      obtain ⟨d, hd, hi⟩ := (findOnPath_some ..).1 hf
      have hex : ∃ d ∈ splitPaths p, Has exec c.program d := by
        obtain ⟨a, b, e, h, _⟩ := hd
        exact ⟨d, by rw [e]; simp, h⟩
      constructor
      · intro h
        simp only [Option.some.injEq] at h
        subst h
        exact ⟨c, ⟨[], l, rfl, hex, by simp⟩, d, hd, hi, rfl, rfl, rfl⟩
      · rintro ⟨c', ⟨a, b, e, h1, h2⟩, d', hd', hi', e1, e2, e3⟩
        cases a with
        | cons x a =>
          simp only [List.cons_append, List.cons.injEq] at e
          exact absurd hex (e.1 ▸ h2 x (by simp))
        | nil =>
          simp only [List.nil_append, List.cons.injEq] at e
          obtain ⟨rfl, rfl⟩ := e
          have : findOnPath exec (some p) c.program = some r.program := (findOnPath_some ..).2 ⟨d', hd', hi'⟩
          rw [hf] at this
          cases r
          simp_all
    | none =>
      have hno := (findOnPath_none ..).1 hf
      dsimp only
      rw [ih]
      constructor
      · rintro ⟨c', ⟨a, b, e, h1, h2⟩, rest⟩
        refine ⟨c', ⟨c :: a, b, by rw [e]; rfl, h1, ?_⟩, rest⟩
        intro y hy
        rcases List.mem_cons.1 hy with rfl | hy
        · rintro ⟨d, hd, hh⟩; exact hno d hd hh
        · exact h2 y hy
      · rintro ⟨c', ⟨a, b, e, h1, h2⟩, rest⟩
        cases a with
        | nil =>
          simp only [List.nil_append, List.cons.injEq] at e
          obtain ⟨rfl, rfl⟩ := e
          obtain ⟨d, hd, hh⟩ := h1
          exact absurd hh (hno d hd)
        | cons x a =>
          simp only [List.cons_append, List.cons.injEq] at e
          exact ⟨c', ⟨a, b, e.2, h1, fun y hy => h2 y (List.mem_cons_of_mem _ hy)⟩, rest⟩

theorem forCompression_probe (exec : Str → Bool) (path : Option Str) (f : Compression) :
    forCompression (probe exec path) f = resolve exec path f (candidates f) := by
  have h1 : (familyName .bzip2 == familyName .xz) = false := by decide
  have h2 : (familyName .bzip2 == familyName .gzip) = false := by decide
  have h3 : (familyName .xz == familyName .gzip) = false := by decide
  have h4 : (familyName .xz == familyName .bzip2) = false := by decide
  have h5 : (familyName .gzip == familyName .bzip2) = false := by decide
  have h6 : (familyName .gzip == familyName .xz) = false := by decide
  unfold forCompression probe
  simp only [List.foldl_cons, List.foldl_nil]
  cases f <;> cases resolve exec path .bzip2 (candidates .bzip2) <;> cases resolve exec path .xz (candidates .xz) <;>
    cases resolve exec path .gzip (candidates .gzip) <;> simp [List.lookup_cons, h1, h2, h3, h4, h5, h6]

end Qlever.Probe
