import Verif.Mat.Spec
import Mathlib.Data.List.Perm.Basic

/-!
# Lemmas for graphs made from schemas: steps, and when there is a graph
-/

namespace Mat

open Shexc (SE TE NC IriRef Label SemAct Str)
open Spec

variable {E : Env} {S : Schema} {M : MapState}

theorem find_iff {l : Label} {e : SE} : find S l = some e ↔ Declared S.shapes l e := by
  unfold find
  generalize S.shapes = ds
  induction ds with
  | nil =>
    simp only [List.find?_nil, Option.map_none, reduceCtorEq, false_iff]
    intro h
    cases h
  | cons d ds ih =>
    obtain ⟨k, f⟩ := d
    by_cases hk : k = l
    · subst hk
      simp only [List.find?_cons, decide_true, Option.map_some, Option.some.injEq]
      constructor
      · rintro rfl
        exact .here
      · intro h
        cases h with
        | here => rfl
        | later h _ => exact absurd rfl h
    · rw [List.find?_cons_of_neg (by simpa using hk), ih]
      constructor
      · exact .later hk
      · intro h
        cases h with
        | here => exact absurd rfl hk
        | later _ h => exact h

theorem find_none {l : Label} : find S l = none ↔ ∀ e, ¬ Declared S.shapes l e := by
  constructor
  · intro h e he
    rw [find_iff.2 he] at h
    cases h
  · intro h
    cases hf : find S l with
    | none => rfl
    | some e => exact absurd (find_iff.1 hf) (h e)

theorem startShape_iff {e : SE} : startShape S = some e ↔ Starts S e := by
  unfold startShape
  cases hs : S.start with
  | some f =>
    simp only [Option.some_or, Option.some.injEq]
    constructor
    · rintro rfl
      exact .start hs
    · intro h
      cases h with
      | start h => rw [hs] at h; cases h; rfl
      | first h _ => rw [hs] at h; cases h
  | none =>
    simp only [Option.none_or]
    cases hd : S.shapes with
    | nil =>
      simp only [List.head?_nil, Option.map_none, reduceCtorEq, false_iff]
      intro h
      cases h with
      | start h => rw [hs] at h; cases h
      | first _ h => rw [hd] at h; cases h
    | cons d ds =>
      obtain ⟨l, f⟩ := d
      simp only [List.head?_cons, Option.map_some, Option.some.injEq]
      constructor
      · rintro rfl
        exact .first hs hd
      · intro h
        cases h with
        | start h => rw [hs] at h; cases h
        | first _ h => rw [hd] at h; cases h; rfl

/-! ## More steps -/

theorem steps_mono {α : Type} {f g : α → St → Res St} {as : List α} {σ : St} {r : Res St}
    (h : ∀ a ∈ as, ∀ σ r, f a σ = r → r ≠ .fuel → g a σ = r) (hr : steps f as σ = r) (hne : r ≠ .fuel) :
    steps g as σ = r := by
  induction as generalizing σ with
  | nil => exact hr
  | cons a as ih =>
    rw [steps] at hr ⊢
    cases hf : f a σ with
    | ok σ' =>
      rw [hf] at hr
      rw [h a (by simp) σ _ hf nofun]
      exact ih (fun b hb => h b (List.mem_cons_of_mem _ hb)) hr
    | fuel => rw [hf] at hr; exact absurd hr.symm hne
    | noStart => rw [hf] at hr; rw [h a (by simp) σ _ hf nofun]; exact hr
    | notFound l => rw [hf] at hr; rw [h a (by simp) σ _ hf nofun]; exact hr
    | notSubject => rw [hf] at hr; rw [h a (by simp) σ _ hf nofun]; exact hr
    | panic => rw [hf] at hr; rw [h a (by simp) σ _ hf nofun]; exact hr

theorem gen_succ (n : Nat) :
    (∀ e s σ r, genSE E S M n e s σ = r → r ≠ .fuel → genSE E S M (n + 1) e s σ = r) ∧
    (∀ t s σ r, genTE E S M n t s σ = r → r ≠ .fuel → genTE E S M (n + 1) t s σ = r) := by
  induction n with
  | zero =>
    constructor
    · intro e s σ r h hr
      rw [genSE] at h
      exact absurd h.symm hr
    · intro e s σ r h hr
      rw [genTE] at h
      exact absurd h.symm hr
  | succ n ih =>
    constructor
    · intro e s σ r h hr
      cases e with
      | shape c x te a b d =>
        cases te with
        | none => rw [genSE] at h ⊢ <;> first | exact h | nofun
        | some te =>
          rw [genSE] at h ⊢
          exact ih.2 te s σ r h hr
      | ref l =>
        rw [genSE] at h ⊢
        cases hf : find S l with
        | none => rw [hf] at h; exact h
        | some e => rw [hf] at h; exact ih.1 e s σ r h hr
      | or => rw [genSE] at h ⊢ <;> first | exact h | nofun
      | and => rw [genSE] at h ⊢ <;> first | exact h | nofun
      | not => rw [genSE] at h ⊢ <;> first | exact h | nofun
      | nc => rw [genSE] at h ⊢ <;> first | exact h | nofun
      | external => rw [genSE] at h ⊢ <;> first | exact h | nofun
    · intro t s σ r h hr
      cases t with
      | each id es mn mx a b =>
        rw [genTE] at h ⊢
        exact steps_mono (fun a _ σ r => ih.2 a s σ r) h hr
      | one id es mn mx a b =>
        rw [genTE] at h ⊢
        exact steps_mono (fun a _ σ r => ih.2 a s σ r) h hr
      | ref l => rw [genTE] at h ⊢; exact h
      | tc id ng iv p v mn mx acts b =>
        rw [genTE] at h ⊢
        cases hp : E.resolve p with
        | none => rw [hp] at h; exact h
        | some q =>
          rw [hp] at h
          dsimp only at h ⊢
          split at h
          · split at h
            · exact h
            · next e he => exact ih.1 e _ _ r h hr
          · exact ih.1 _ _ _ r h hr
          · exact h

theorem genSE_le {n m : Nat} (hnm : n ≤ m) {e : SE} {s : Term} {σ : St} {r : Res St} (h : genSE E S M n e s σ = r)
    (hr : r ≠ .fuel) : genSE E S M m e s σ = r := by
  induction hnm with
  | refl => exact h
  | step _ ih => exact (gen_succ _).1 e s σ r ih hr

theorem genTE_le {n m : Nat} (hnm : n ≤ m) {t : TE} {s : Term} {σ : St} {r : Res St} (h : genTE E S M n t s σ = r)
    (hr : r ≠ .fuel) : genTE E S M m t s σ = r := by
  induction hnm with
  | refl => exact h
  | step _ ih => exact (gen_succ _).2 t s σ r ih hr

/-! ## If there is a graph -/

theorem steps_ok {α : Type} {f : α → St → Res St} {as : List α} {σ σ' : St} (h : steps f as σ = .ok σ') :
    ∀ a ∈ as, ∃ τ τ', f a τ = .ok τ' := by
  induction as generalizing σ with
  | nil => simp
  | cons a as ih =>
    rw [steps] at h
    cases hf : f a σ with
    | ok τ =>
      rw [hf] at h
      intro b hb
      rcases List.mem_cons.1 hb with rfl | hb
      · exact ⟨σ, τ, hf⟩
      · exact ih h b hb
    | _ => rw [hf] at h; cases h

/-- What is known of an item that was passed: a reference is to a shape that is declared, and only finitely often. -/
def ItemOk (E : Env) (S : Schema) : Item → Prop
  | .lab l => Acc (fun a b => RefersTo S b a) l ∧ (∃ e, Declared S.shapes l e) ∧
      ∀ e, Declared S.shapes l e → ∀ i, Uses S e i → NamesOk E i ∧ ∀ l', i = .lab l' → ∃ e', Declared S.shapes l' e'
  | .tc p v acts => NamesOk E (.tc p v acts)

theorem declared_fun {ds : List (Label × SE)} {l : Label} {e f : SE} (h : Declared ds l e) (h' : Declared ds l f) : e = f := by
  induction h with
  | here => cases h' with
    | here => rfl
    | later h _ => exact absurd rfl h
  | later hk _ ih => cases h' with
    | here => exact absurd rfl hk
    | later _ h' => exact ih h'

theorem uses_ok {e : SE} (h : ∀ i, InSE i e → ItemOk E S i) : ∀ i, Uses S e i →
    NamesOk E i ∧ ∀ l, i = .lab l → ∃ e', Declared S.shapes l e' := by
  have key : ∀ i, Uses S e i → ItemOk E S i ∨ ∃ l e', ItemOk E S (.lab l) ∧ Declared S.shapes l e' ∧ Uses S e' i := by
    intro i hi
    induction hi with
    | own hi => exact .inl (h _ hi)
    | @step e' l i hu hd hi ih =>
      rcases ih with ih | ⟨k, f, h1, h2, h3⟩
      · exact .inr ⟨l, e', ih, hd, .own hi⟩
      · exact .inr ⟨k, f, h1, h2, .step h3 hd hi⟩
  intro i hi
  rcases key i hi with hk | ⟨l, e', h1, h2, h3⟩
  · cases i with
    | lab l =>
      refine ⟨trivial, ?_⟩
      rintro _ ⟨⟩
      exact hk.2.1
    | tc p v acts => exact ⟨hk, nofun⟩
  · exact h1.2.2 e' h2 i h3

theorem lab_ok {l : Label} {e : SE} (hd : Declared S.shapes l e) (h : ∀ i, InSE i e → ItemOk E S i) : ItemOk E S (.lab l) := by
  refine ⟨.intro _ ?_, ⟨e, hd⟩, ?_⟩
  · rintro l' ⟨f, hf, hl'⟩
    cases declared_fun hd hf
    exact (h _ hl').1
  · intro f hf i hi
    cases declared_fun hd hf
    exact uses_ok h i hi

theorem applyAct_ok {s : Term} {p : Str} {a : SemAct} {σ σ' : St} (h : applyAct E M s p a σ = .ok σ') : E.resolve a.name ≠ none := by
  unfold applyAct at h
  split at h
  · cases h
  · next hn => rw [hn]; nofun

theorem gen_ok (n : Nat) :
    (∀ e s σ σ', genSE E S M n e s σ = .ok σ' → ∀ i, InSE i e → ItemOk E S i) ∧
    (∀ t s σ σ', genTE E S M n t s σ = .ok σ' → ∀ i, InTE i t → ItemOk E S i) := by
  induction n with
  | zero =>
    constructor
    · intro e s σ σ' h
      rw [genSE] at h
      cases h
    · intro e s σ σ' h
      rw [genTE] at h
      cases h
  | succ n ih =>
    constructor
    · intro e s σ σ' h i hi
      cases hi with
      | ref =>
        rw [genSE] at h
        split at h
        · cases h
        · next e he => exact lab_ok (find_iff.1 he) (ih.1 e s σ σ' h)
      | shape hi =>
        rw [genSE] at h
        exact ih.2 _ s σ σ' h i hi
    · intro t s σ σ' h i hi
      cases hi with
      | each ht hi =>
        rw [genTE] at h
        obtain ⟨τ, τ', h⟩ := steps_ok h _ ht
        exact ih.2 _ s τ τ' h i hi
      | one ht hi =>
        rw [genTE] at h
        obtain ⟨τ, τ', h⟩ := steps_ok h _ ht
        exact ih.2 _ s τ τ' h i hi
      | @tc id ng iv p v mn mx acts b =>
        rw [genTE] at h
        cases hp : E.resolve p with
        | none => rw [hp] at h; cases h
        | some q =>
          refine ⟨by rw [hp]; nofun, fun hl as has a ha => ?_⟩
          rw [hp] at h
          subst has
          dsimp only at h
          split at h
          · cases hl
          · cases hl
          · obtain ⟨τ, τ', h⟩ := steps_ok h a ha
            exact applyAct_ok h
      | ref =>
        rw [genTE] at h
        split at h
        · cases h
        · dsimp only at h
          split at h
          · cases h
          · next e he => exact lab_ok (find_iff.1 he) (ih.1 e _ _ σ' h)
      | shape hi =>
        rw [genTE] at h
        split at h
        · cases h
        · exact ih.1 _ _ _ σ' h i hi

/-! ## When there is a graph -/

/-- For some number of steps, and any more, there is a graph. -/
def Ends (E : Env) (S : Schema) (M : MapState) (e : SE) : Prop :=
  ∃ n, ∀ s σ, ∃ σ', genSE E S M n e s σ = .ok σ'

/-- The same for triple expressions. -/
def EndsT (E : Env) (S : Schema) (M : MapState) (t : TE) : Prop :=
  ∃ n, ∀ s σ, ∃ σ', genTE E S M n t s σ = .ok σ'

theorem steps_total {α : Type} {f : α → St → Res St} {as : List α} (h : ∀ a ∈ as, ∀ σ, ∃ σ', f a σ = .ok σ') (σ : St) :
    ∃ σ', steps f as σ = .ok σ' := by
  induction as generalizing σ with
  | nil => exact ⟨σ, rfl⟩
  | cons a as ih =>
    obtain ⟨τ, hτ⟩ := h a (by simp) σ
    rw [steps, hτ]
    exact ih (fun b hb => h b (List.mem_cons_of_mem _ hb)) τ

theorem ends_all {es : List TE} (h : ∀ t ∈ es, EndsT E S M t) : ∃ n, ∀ t ∈ es, ∀ s σ, ∃ σ', genTE E S M n t s σ = .ok σ' := by
  induction es with
  | nil => exact ⟨0, by simp⟩
  | cons t ts ih =>
    obtain ⟨n, hn⟩ := h t (by simp)
    obtain ⟨m, hm⟩ := ih fun u hu => h u (List.mem_cons_of_mem _ hu)
    refine ⟨max n m, fun u hu s σ => ?_⟩
    rcases List.mem_cons.1 hu with rfl | hu
    · obtain ⟨σ', h⟩ := hn s σ
      exact ⟨σ', genTE_le (Nat.le_max_left _ _) h nofun⟩
    · obtain ⟨σ', h⟩ := hm u hu s σ
      exact ⟨σ', genTE_le (Nat.le_max_right _ _) h nofun⟩

theorem applyAct_total {s : Term} {p : Str} {a : SemAct} (h : E.resolve a.name ≠ none) (σ : St) :
    ∃ σ', applyAct E M s p a σ = .ok σ' := by
  unfold applyAct
  cases hn : E.resolve a.name with
  | none => exact absurd hn h
  | some n =>
    dsimp only
    split
    · split
      · exact ⟨_, rfl⟩
      · split
        · exact ⟨_, rfl⟩
        · split <;> exact ⟨_, rfl⟩
    · exact ⟨_, rfl⟩

theorem ends_of_size (k : Nat) :
    (∀ e : SE, sizeOf e ≤ k → (∀ l, InSE (.lab l) e → ∃ e', Declared S.shapes l e' ∧ Ends E S M e') →
      (∀ i, InSE i e → NamesOk E i) → Ends E S M e) ∧
    (∀ t : TE, sizeOf t ≤ k → (∀ l, InTE (.lab l) t → ∃ e', Declared S.shapes l e' ∧ Ends E S M e') →
      (∀ i, InTE i t → NamesOk E i) → EndsT E S M t) := by
  induction k with
  | zero =>
    constructor
    · intro e h
      cases e <;> simp at h
    · intro t h
      cases t <;> simp at h
  | succ k ih =>
    constructor
    · intro e h hl hn
      cases e with
      | shape c x te a b d =>
        cases te with
        | none => exact ⟨1, fun s σ => ⟨σ, by rw [genSE] <;> nofun⟩⟩
        | some te =>
          simp only [SE.shape.sizeOf_spec, Option.some.sizeOf_spec] at h
          obtain ⟨n, hn⟩ := ih.2 te (by omega) (fun l hi => hl l (.shape hi)) fun i hi => hn i (.shape hi)
          exact ⟨n + 1, fun s σ => by rw [genSE]; exact hn s σ⟩
      | ref l =>
        obtain ⟨e', hd, n, hn⟩ := hl l .ref
        exact ⟨n + 1, fun s σ => by rw [genSE, find_iff.2 hd]; exact hn s σ⟩
      | or => exact ⟨1, fun s σ => ⟨σ, by rw [genSE] <;> nofun⟩⟩
      | and => exact ⟨1, fun s σ => ⟨σ, by rw [genSE] <;> nofun⟩⟩
      | not => exact ⟨1, fun s σ => ⟨σ, by rw [genSE] <;> nofun⟩⟩
      | nc => exact ⟨1, fun s σ => ⟨σ, by rw [genSE] <;> nofun⟩⟩
      | external => exact ⟨1, fun s σ => ⟨σ, by rw [genSE] <;> nofun⟩⟩
    · intro t h hl hn
      cases t with
      | each id es mn mx a b =>
        obtain ⟨n, hn⟩ := ends_all (E := E) (S := S) (M := M) (es := es) (by
          intro t ht
          have := List.sizeOf_lt_of_mem ht
          simp only [TE.each.sizeOf_spec] at h
          exact ih.2 t (by omega) (fun l hi => hl l (.each ht hi)) fun i hi => hn i (.each ht hi))
        exact ⟨n + 1, fun s σ => by rw [genTE]; exact steps_total (fun t ht σ => hn t ht s σ) σ⟩
      | one id es mn mx a b =>
        obtain ⟨n, hn⟩ := ends_all (E := E) (S := S) (M := M) (es := es) (by
          intro t ht
          have := List.sizeOf_lt_of_mem ht
          simp only [TE.one.sizeOf_spec] at h
          exact ih.2 t (by omega) (fun l hi => hl l (.one ht hi)) fun i hi => hn i (.one ht hi))
        exact ⟨n + 1, fun s σ => by rw [genTE]; exact steps_total (fun t ht σ => hn t ht s σ) σ⟩
      | ref l => exact ⟨1, fun s σ => ⟨σ, by rw [genTE]⟩⟩
      | tc id ng iv p v mn mx acts b =>
        obtain ⟨hp, ha⟩ := hn _ .tc
        cases hq : E.resolve p with
        | none => exact absurd hq hp
        | some q =>
          have leaf : Leaf v → EndsT E S M (.tc id ng iv p v mn mx acts b) := by
            intro hv
            refine ⟨1, fun s σ => ?_⟩
            rw [genTE, hq]
            dsimp only
            split
            · cases hv
            · cases hv
            · split
              · exact ⟨σ, rfl⟩
              · exact steps_total (fun a hm σ => applyAct_total (ha hv _ rfl a hm) σ) σ
          rcases v with _ | e
          · exact leaf trivial
          · cases e with
            | ref l =>
              obtain ⟨e', hd, n, hn⟩ := hl l .ref
              refine ⟨n + 1, fun s σ => ?_⟩
              rw [genTE, hq]
              simp only [find_iff.2 hd]
              exact hn _ _
            | shape c x te a d e' =>
              simp only [TE.tc.sizeOf_spec, Option.some.sizeOf_spec] at h
              obtain ⟨n, hn⟩ := ih.1 (.shape c x te a d e') (by omega) (fun l hi => hl l (.shape hi))
                fun i hi => hn i (.shape hi)
              refine ⟨n + 1, fun s σ => ?_⟩
              rw [genTE, hq]
              exact hn _ _
            | _ => exact leaf trivial

theorem uses_trans {e e' : SE} {l : Label} {i : Item} (h : Uses S e (.lab l)) (hd : Declared S.shapes l e') (hi : Uses S e' i) :
    Uses S e i := by
  induction hi with
  | own hi => exact .step h hd hi
  | step _ hd' hi ih => exact .step ih hd' hi

theorem ends_of {e : SE} (hf : ∀ l, Uses S e (.lab l) → ∃ e', Declared S.shapes l e') (hn : ∀ i, Uses S e i → NamesOk E i)
    (hacc : ∀ l, InSE (.lab l) e → Acc (fun a b => RefersTo S b a) l) : Ends E S M e := by
  have key : ∀ l, Acc (fun a b => RefersTo S b a) l → Uses S e (.lab l) → ∃ e', Declared S.shapes l e' ∧ Ends E S M e' := by
    intro l hl
    induction hl with
    | intro l _ ih =>
      intro hu
      obtain ⟨e', hd⟩ := hf l hu
      refine ⟨e', hd, (ends_of_size (sizeOf e')).1 e' (Nat.le_refl _) (fun l' hl' => ?_) fun i hi => hn i (.step hu hd hi)⟩
      exact ih l' ⟨e', hd, hl'⟩ (.step hu hd hl')
  exact (ends_of_size (sizeOf e)).1 e (Nat.le_refl _) (fun l hl => key l (hacc l hl) (.own hl)) fun i hi => hn i (.own hi)

end Mat
