import Verif.Rd.LemEnds
import Verif.Rd.SpecShape

/-!
# Lemmas: what holds after a parser has run
-/

namespace Rd

section
variable {L A B C : Type}

/-- How a parser runs: what holds of its result, of an error, of a panic; it ends. -/
def Run (p : Pr L A) (s : St L) (Q : A → St L → Prop) (Er Pa : Prop) : Prop :=
  match p s with
  | (.ok a, s') => Q a s'
  | (.err, _) => Er
  | (.panic, _) => Pa
  | (.loop, _) => False

theorem Run.mono {p : Pr L A} {s : St L} {Q Q' : A → St L → Prop} {Er Er' Pa Pa' : Prop} (h : Run p s Q Er Pa)
    (hq : ∀ a s', Q a s' → Q' a s') (he : Er → Er') (hp : Pa → Pa') : Run p s Q' Er' Pa' := by
  unfold Run at h ⊢
  rcases hr : p s with ⟨r, s'⟩
  rw [hr] at h
  cases r with
  | ok a => exact hq _ _ h
  | err => exact he h
  | panic => exact hp h
  | loop => exact h

theorem Run.bind {p : Pr L A} {f : A → Pr L B} {s : St L} {Q : A → St L → Prop} {R : B → St L → Prop} {Er Pa : Prop}
    (h : Run p s Q Er Pa) (hf : ∀ a s', Q a s' → Run (f a) s' R Er Pa) : Run (p >>= f) s R Er Pa := by
  unfold Run at h
  rcases hr : p s with ⟨r, s'⟩
  rw [hr] at h
  cases r with
  | ok a =>
    have := hf a s' h
    unfold Run at this ⊢
    rw [bind_ok hr]
    exact this
  | err =>
    unfold Run
    rw [bind_err hr]
    exact h
  | panic => simpa [Run, Bind.bind, andThen, hr] using h
  | loop => exact h.elim

theorem Run.ret {a : A} {s : St L} {Q : A → St L → Prop} {Er Pa : Prop} (h : Q a s) : Run (ret a) s Q Er Pa := h

theorem Run.get {s : St L} {Er Pa : Prop} : Run (getFocus (L := L)) s (fun a s' => a = s.focus ∧ s' = s) Er Pa :=
  ⟨rfl, rfl⟩

theorem Run.set {s : St L} {t : Tm L} {Er Pa : Prop} :
    Run (setFocus t) s (fun _ s' => s'.focus = t) Er Pa := by
  simp [Run, setFocus]

theorem Run.lift {o : Option A} {s : St L} {Pa : Prop} :
    Run (lift o) s (fun a s' => o = some a ∧ s' = s) (o = none) Pa := by
  cases o <;> simp [Run, Rd.lift]

theorem Run.optional {p : Pr L A} {s : St L} {Q : A → St L → Prop} {Er Pa : Prop} {R : Option A → St L → Prop}
    (h : Run p s Q Er Pa) (hq : ∀ a s', Q a s' → R (some a) s') (he : Er → ∀ s', R none s') :
    Run (optional p) s R False Pa := by
  unfold Run at h ⊢
  unfold Rd.optional
  rcases hr : p s with ⟨r, s'⟩
  rw [hr] at h
  cases r with
  | ok a => exact hq _ _ h
  | err => exact he h _
  | panic => exact h
  | loop => exact h

/-- What an error says of the state where it happens. -/
def ErrAt (p : Pr L A) (s : St L) (P : St L → Prop) : Prop := ∀ s', p s = (.err, s') → P s'

theorem Run.optional_at {p : Pr L A} {s : St L} {Q : A → St L → Prop} {Er Pa : Prop} {P : St L → Prop}
    {R : Option A → St L → Prop}
    (h : Run p s Q Er Pa) (hs : ErrAt p s P) (hq : ∀ a s', Q a s' → R (some a) s') (he : ∀ s', Er → P s' → R none s') :
    Run (Rd.optional p) s R False Pa := by
  unfold Run at h ⊢
  unfold Rd.optional
  rcases hr : p s with ⟨r, s'⟩
  rw [hr] at h
  cases r with
  | ok a => exact hq _ _ h
  | err => exact he _ h (hs _ hr)
  | panic => exact h
  | loop => exact h

/-- A loop: what each step gives. -/
theorem Run.each {f : A → Pr L B} {R : A → B → Prop} {I : St L → Prop} {Er Pa : A → Prop} (l : List A) {s : St L} (hI : I s)
    (h : ∀ a ∈ l, ∀ s, I s → Run (f a) s (fun b s' => I s' ∧ R a b ∧ ¬ Er a ∧ ¬ Pa a) (Er a) (Pa a)) :
    Run (each f l) s (fun bs s' => I s' ∧ List.Forall₂ R l bs ∧ (∀ a ∈ l, ¬ Er a) ∧ ∀ a ∈ l, ¬ Pa a)
      (∃ a ∈ l, Er a) (∃ a ∈ l, Pa a) := by
  induction l generalizing s with
  | nil => exact ⟨hI, .nil, by simp, by simp⟩
  | cons a l ih =>
    refine Run.bind ((h a (by simp) s hI).mono (fun _ _ h => h) (fun h => ⟨a, by simp, h⟩) fun h => ⟨a, by simp, h⟩) ?_
    rintro b s1 ⟨hI1, hR, he, hp⟩
    refine Run.bind ((ih hI1 fun a ha => h a (by simp [ha])).mono (fun _ _ h => h) ?_ ?_) ?_
    · exact fun ⟨a, ha, h⟩ => ⟨a, by simp [ha], h⟩
    · exact fun ⟨a, ha, h⟩ => ⟨a, by simp [ha], h⟩
    · rintro bs s2 ⟨hI2, hR2, he2, hp2⟩
      exact ⟨hI2, .cons hR hR2, by simpa using ⟨he, he2⟩, by simpa using ⟨hp, hp2⟩⟩

variable [DecidableEq L] {g : Gr L}

theorem Run.values (hg : g.Orders) {p : Voc} {s : St L} {Er Pa : Prop} :
    Run (values g (.v p)) s (fun vs s' => s'.focus = s.focus ∧ (∀ v, v ∈ vs ↔ g.Has s.focus p v) ∧ vs.Nodup) Er Pa :=
  ⟨rfl, fun v => by rw [(hg _ _).mem_iff, mem_objs], (hg _ _).nodup_iff.2 (nodup_objs _ _)⟩

theorem Run.objsFor (hg : g.Orders) {t : Tm L} {p : Voc} {s : St L} {Pa : Prop} :
    Run (objsFor g t p) s (fun vs s' => s'.focus = s.focus ∧ (∀ v, v ∈ vs ↔ g.Has t p v) ∧ t.isLit = false)
      (t.isLit = true) Pa := by
  unfold Run Rd.objsFor
  by_cases h : t.isLit
  · simp [h]
  · rw [if_neg h]
    exact ⟨rfl, fun v => by rw [(hg _ _).mem_iff, mem_objs], by simpa using h⟩

theorem Run.single (hg : g.Orders) {p : Voc} {s : St L} {Pa : Prop} :
    Run (single g (.v p)) s (fun v s' => s'.focus = s.focus ∧ g.Has s.focus p v) (g.Lacks s.focus p) Pa := by
  refine Run.bind (Run.values hg) ?_
  rintro vs s' ⟨h1, h2, -⟩
  cases vs with
  | nil => exact fun o ho => by simpa using (h2 o).2 ho
  | cons v vs => exact ⟨h1, (h2 v).1 (by simp)⟩

theorem single_err {p : Iri} {s s' : St L} (h : Rd.single g p s = (.err, s')) : s'.focus = s.focus := by
  rcases bind_err_iff.1 h with h | ⟨a, s1, h, h'⟩
  · simp [Rd.values] at h
  · cases h
    rcases ho : g.ord s.reads (g.objs s.focus p) with _ | ⟨v, vs⟩ <;> rw [ho] at h'
    · cases h'
      rfl
    · cases h'

theorem oneOf_err {p : Voc} {f : Tm L → Option B} {s s' : St L} (h : oneOf g p f s = (.err, s')) :
    s'.focus = s.focus := by
  rcases bind_err_iff.1 h with h | ⟨a, s1, h, h'⟩
  · exact single_err h
  · have : s' = s1 := by
      unfold Rd.lift at h'
      split at h' <;> cases h'
      rfl
    subst this
    obtain ⟨vs, s2, h1, h2⟩ := bind_ok_iff.1 h
    cases h1
    rcases ho : g.ord s.reads (g.objs s.focus (.v p)) with _ | ⟨v, vs⟩ <;> rw [ho] at h2 <;> cases h2
    rfl

/-- A value if there is one that can be converted. -/
theorem Run.optOne (hg : g.Orders) {p : Voc} {f : Tm L → Option B} {P : Tm L → B → Prop} {s : St L} {Er Pa : Prop}
    (hf : ∀ x b, f x = some b ↔ P x b) (h1 : ∀ o o', g.Has s.focus p o → g.Has s.focus p o' → o = o') :
    Run (Rd.optional (oneOf g p f)) s
      (fun o s' => s'.focus = s.focus ∧ Opt (fun b => ∃ x, g.Has s.focus p x ∧ P x b) o) Er Pa := by
  have hr : Run (oneOf g p f) s (fun b s' => s'.focus = s.focus ∧ ∃ x, g.Has s.focus p x ∧ P x b)
      (∀ b, ¬ ∃ x, g.Has s.focus p x ∧ P x b) Pa := by
    refine Run.bind ((Run.single hg).mono (fun _ _ h => h) (fun h b ⟨x, hx, _⟩ => h x hx) id) ?_
    rintro v s1 ⟨hs, hv⟩
    refine Run.lift.mono ?_ ?_ id
    · rintro b _ ⟨hb, rfl⟩
      exact ⟨hs, v, hv, (hf _ _).1 hb⟩
    · rintro hn b ⟨x, hx, hp⟩
      rw [h1 x v hx hv, ← hf, hn] at hp
      cases hp
  refine (Run.optional_at hr (P := fun s' => s'.focus = s.focus) (fun s' h => oneOf_err h) ?_ ?_).mono
    (fun _ _ h => h) False.elim id
  · exact fun a s' h => h
  · exact fun s' h hs => ⟨hs, h⟩

/-- All values, converted. -/
theorem Run.allOf (hg : g.Orders) {p : Voc} {f : Tm L → Option B} {s : St L} {Pa : Prop} :
    Run (allOf g p f) s (fun bs s' => s'.focus = s.focus ∧ (∀ b, b ∈ bs ↔ ∃ x, g.Has s.focus p x ∧ f x = some b) ∧
        (∀ x, g.Has s.focus p x → f x ≠ none) ∧
        ∃ vs : List (Tm L), vs.Nodup ∧ (∀ v, v ∈ vs ↔ g.Has s.focus p v) ∧ vs.length = bs.length)
      (∃ x, g.Has s.focus p x ∧ f x = none) Pa := by
  refine Run.bind (Run.values hg) ?_
  rintro vs s1 ⟨h1, h2, h3⟩
  refine (Run.each (I := fun s' => s'.focus = s.focus) (R := fun x b => f x = some b) (Er := fun x => f x = none)
    (Pa := fun _ => False) vs h1 ?_).mono ?_ ?_ (by rintro ⟨_, _, h⟩; exact h.elim)
  · intro x _ s2 hs2
    refine Run.lift.mono ?_ id id
    rintro b _ ⟨hb, rfl⟩
    exact ⟨hs2, hb, by simp [hb], not_false⟩
  · rintro bs s2 ⟨hs2, hR, he, -⟩
    refine ⟨hs2, fun b => ⟨fun hb => ?_, ?_⟩, fun x hx => he x ((h2 x).2 hx), vs, h3, h2, hR.length_eq⟩
    · obtain ⟨n, hn, rfl⟩ := List.getElem_of_mem hb
      exact ⟨_, (h2 _).1 (List.getElem_mem (by rw [hR.length_eq]; exact hn)), hR.get (by rw [hR.length_eq]; exact hn) hn⟩
    · rintro ⟨x, hx, hb⟩
      obtain ⟨n, hn, rfl⟩ := List.getElem_of_mem ((h2 x).2 hx)
      have := hR.get hn (by rw [← hR.length_eq]; exact hn)
      simp only [List.get_eq_getElem] at this
      rw [hb] at this
      cases this
      exact List.getElem_mem _
  · rintro ⟨x, hx, h⟩
    exact ⟨x, (h2 x).1 hx, h⟩

theorem Run.someOf (hg : g.Orders) {p : Voc} {f : Tm L → Option B} {s : St L} {Er Pa : Prop} :
    Run (someOf g p f) s (fun bs s' => s'.focus = s.focus ∧ ∀ b, b ∈ bs ↔ ∃ x, g.Has s.focus p x ∧ f x = some b)
      Er Pa := by
  refine Run.bind (Run.values hg) ?_
  rintro vs s1 ⟨h1, h2, -⟩
  exact ⟨h1, fun b => by simp [h2]⟩

/-- Each value parsed with the focus there; the focus is put back. -/
theorem Run.mapProp (hg : g.Orders) {p : Voc} {q : Pr L B} {R : Tm L → B → Prop} {Er Pa : Tm L → Prop} {s : St L}
    (hq : ∀ v, g.Has s.focus p v → ∀ s1, s1.focus = v → Run q s1 (fun b _ => R v b ∧ ¬ Er v ∧ ¬ Pa v) (Er v) (Pa v)) :
    Run (mapProp g p q) s (fun bs s' => s'.focus = s.focus ∧ (∀ b ∈ bs, ∃ v, g.Has s.focus p v ∧ R v b) ∧
        (∀ v, g.Has s.focus p v → ∃ b ∈ bs, R v b) ∧ (∀ v, g.Has s.focus p v → ¬ Er v) ∧
        ∀ v, g.Has s.focus p v → ¬ Pa v)
      (∃ v, g.Has s.focus p v ∧ Er v) (∃ v, g.Has s.focus p v ∧ Pa v) := by
  refine Run.bind Run.get ?_
  rintro t s0 ⟨ht, rfl⟩
  subst ht
  refine Run.bind (Run.values hg) ?_
  rintro vs s1 ⟨h1, h2, -⟩
  refine Run.bind (Q := fun bs _ => List.Forall₂ R vs bs ∧ (∀ v ∈ vs, ¬ Er v) ∧ ∀ v ∈ vs, ¬ Pa v)
    ((Run.each (I := fun _ => True) (R := R) (Er := Er) (Pa := Pa) vs trivial ?_).mono ?_ ?_ ?_) ?_
  · intro v hv s2 _
    refine Run.bind Run.set ?_
    intro _ s3 hs3
    exact (hq v ((h2 v).1 hv) s3 hs3).mono (fun _ _ h => ⟨trivial, h⟩) id id
  · exact fun _ _ h => h.2
  · rintro ⟨v, hv, h⟩
    exact ⟨v, (h2 v).1 hv, h⟩
  · rintro ⟨v, hv, h⟩
    exact ⟨v, (h2 v).1 hv, h⟩
  · rintro bs s2 ⟨hR, he, hp⟩
    refine Run.bind Run.set ?_
    intro _ s3 hs3
    refine ⟨hs3, fun b hb => ?_, fun v hv => ?_, fun v hv => he v ((h2 v).2 hv), fun v hv => hp v ((h2 v).2 hv)⟩
    · obtain ⟨n, hn, rfl⟩ := List.getElem_of_mem hb
      exact ⟨_, (h2 _).1 (List.getElem_mem (by rw [hR.length_eq]; exact hn)), hR.get (by rw [hR.length_eq]; exact hn) hn⟩
    · obtain ⟨n, hn, rfl⟩ := List.getElem_of_mem ((h2 v).2 hv)
      exact ⟨_, List.getElem_mem _, hR.get hn (by rw [← hR.length_eq]; exact hn)⟩

/-- Lists in neat graphs. -/
theorem Run.list (hg : g.Orders) (hn : g.Neat) {s : St L} {Pa : Prop} :
    Run (listP g) s (fun xs s' => g.IsList s.focus xs ∧ s'.focus = nilT) (∀ xs, ¬ g.IsList s.focus xs) Pa := by
  have h1 : ∀ c, ∀ p ∈ [Voc.first, .rest], ∀ o o', g.Has c p o → g.Has c p o' → o = o' :=
    fun c p hp => hn.one c p (by simp only [List.mem_cons, List.not_mem_nil, or_false] at hp; rcases hp with rfl | rfl <;> simp [singles])
  unfold Run
  rcases listP_ends hg s with ⟨xs, s', h⟩ | ⟨s', h⟩
  · rw [h]
    obtain ⟨hs, cs, hw, -⟩ := listP_ok hg h
    exact ⟨isList_of_way hw h1, hs⟩
  · rw [h]
    intro xs hx
    obtain ⟨k', hk⟩ := listP_isList hg hx s.reads
    rw [h] at hk
    cases hk

end

end Rd
