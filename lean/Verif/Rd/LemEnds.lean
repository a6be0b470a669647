import Verif.Rd.LemPath

/-!
# Lemmas: when the reading of a path ends
-/

namespace Rd

section
variable {L A B : Type}

/-- Reached from a term by steps down. -/
def Below (g : Gr L) : Tm L → Tm L → Prop := Relation.ReflTransGen fun s u => g.Down u s

/-- Reached by at least one step down. -/
def Under (g : Gr L) (t u : Tm L) : Prop := ∃ s, Below g t s ∧ g.Down u s

theorem Under.below {g : Gr L} {t u : Tm L} (h : Under g t u) : Below g t u := by
  obtain ⟨s, h1, h2⟩ := h
  exact .tail h1 h2

theorem Below.trans {g : Gr L} {t u w : Tm L} (h : Below g t u) (h' : Below g u w) : Below g t w :=
  Relation.ReflTransGen.trans h h'

theorem Has.down {g : Gr L} {t u : Tm L} {k : Voc} (h : g.Has t k u) (hk : k ∈ pathVocs) : g.Down u t := ⟨k, hk, h⟩

/-- A parser ends and does not panic, with the focus below a term. -/
def Fine (g : Gr L) (t : Tm L) (p : Pr L A) (s : St L) : Prop :=
  ((p s).1 ≠ .loop ∧ (p s).1 ≠ .panic) ∧ Below g t (p s).2.focus

theorem fine_bind {g : Gr L} {t : Tm L} {p : Pr L A} {f : A → Pr L B} {s : St L} (h : Fine g t p s)
    (h' : ∀ a s1, p s = (.ok a, s1) → Below g t s1.focus → Fine g t (f a) s1) : Fine g t (p >>= f) s := by
  unfold Fine at h
  rcases hp : p s with ⟨r, s1⟩
  rw [hp] at h
  cases r with
  | ok a => simpa only [Fine, bind_ok hp] using h' a s1 hp h.2
  | err => simpa [Fine, bind, andThen, hp] using h.2
  | panic => exact absurd rfl h.1.2
  | loop => exact absurd rfl h.1.1

theorem fine_orElse {g : Gr L} {t : Tm L} {p q : Pr L A} {s : St L} (h : Fine g t p s)
    (h' : ∀ s1, Below g t s1.focus → Fine g t q s1) : Fine g t (orElse p q) s := by
  unfold Fine at h
  rcases hp : p s with ⟨r, s1⟩
  rw [hp] at h
  cases r with
  | err => simpa only [Fine, orElse, hp] using h' s1 h.2
  | ok a => simpa [Fine, orElse, hp] using h.2
  | panic => exact absurd rfl h.1.2
  | loop => exact absurd rfl h.1.1

theorem fine_ret {g : Gr L} {t : Tm L} {a : A} {s : St L} (h : Below g t s.focus) : Fine g t (ret a) s :=
  ⟨by simp [ret], h⟩

theorem fine_each {g : Gr L} {t : Tm L} {path : A → Pr L B} : ∀ (ts : List A) (s : St L),
    (∀ u ∈ ts, ∀ s, Below g t s.focus → Fine g t (path u) s) → Below g t s.focus → Fine g t (each path ts) s := by
  intro ts
  induction ts with
  | nil => intro s _ h; exact fine_ret h
  | cons u ts ih =>
    intro s h hs
    refine fine_bind (h u (by simp) s hs) fun q s1 _ h1 => ?_
    exact fine_bind (ih s1 (fun u hu => h u (by simp [hu])) h1) fun _ _ _ h2 => fine_ret h2

variable [DecidableEq L] {g : Gr L}

theorem fine_single (hg : g.Orders) {t : Tm L} {p : Voc} {s : St L} (h : Below g t s.focus) :
    Fine g t (single g (.v p)) s := by
  rcases single_cases hg p s with ⟨o, _, he⟩ | ⟨_, he⟩
  · simpa [Fine, he] using h
  · simpa [Fine, he] using h

theorem listRec_below (hg : g.Orders) {t : Tm L} : ∀ (n : Nat) (visited : List (Tm L)) (s : St L),
    Below g t s.focus → Below g t (listRec g n visited s).2.focus ∧
      ∀ xs s', listRec g n visited s = (.ok xs, s') → ∀ x ∈ xs, Under g t x := by
  intro n
  induction n with
  | zero => intro visited s h; exact ⟨h, nofun⟩
  | succ n ih =>
    intro visited s h
    rw [listRec, getFocus_bind]
    split
    · exact ⟨h, fun xs s' he => by cases he; simp⟩
    · rcases single_cases hg .first s with ⟨x, hx, he⟩ | ⟨_, he⟩
      · rw [bind_ok he]
        rcases single_cases hg .rest ⟨s.focus, s.reads + 1⟩ with ⟨r, hr, he⟩ | ⟨_, he⟩
        · rw [bind_ok he]
          split
          · exact ⟨h, nofun⟩
          · rw [setFocus_bind]
            have hb : Below g t r := .tail h (Has.down hr (by decide))
            obtain ⟨h1, h2⟩ := ih (visited ++ [r]) ⟨r, s.reads + 1 + 1⟩ hb
            rcases hl : listRec g n (visited ++ [r]) ⟨r, s.reads + 1 + 1⟩ with ⟨r1, s1⟩
            rw [hl] at h1 h2
            cases r1 with
            | ok l =>
              rw [bind_ok hl]
              refine ⟨h1, fun xs s' he => ?_⟩
              cases he
              intro y hy
              rcases List.mem_cons.1 hy with rfl | hy
              · exact ⟨s.focus, h, Has.down hx (by decide)⟩
              · exact h2 l s1 rfl y hy
            | err => exact ⟨by simpa [bind, andThen, hl] using h1, fun xs s' he => by simp [bind, andThen, hl] at he⟩
            | panic => exact ⟨by simpa [bind, andThen, hl] using h1, fun xs s' he => by simp [bind, andThen, hl] at he⟩
            | loop => exact ⟨by simpa [bind, andThen, hl] using h1, fun xs s' he => by simp [bind, andThen, hl] at he⟩
        · rw [bind_err he]
          exact ⟨h, nofun⟩
      · rw [bind_err he]
        exact ⟨h, nofun⟩

theorem fine_listP (hg : g.Orders) {t : Tm L} {s : St L} (h : Below g t s.focus) : Fine g t (listP g) s := by
  refine ⟨?_, ?_⟩
  · rcases listP_ends hg s with ⟨_, _, he⟩ | ⟨_, he⟩ <;> simp [he]
  · rw [listP, getFocus_bind]
    exact (listRec_below hg _ _ _ h).1

theorem listP_under (hg : g.Orders) {t : Tm L} {s s' : St L} {xs : List (Tm L)} (h : Below g t s.focus)
    (he : listP g s = (.ok xs, s')) : ∀ x ∈ xs, Under g t x := by
  rw [listP, getFocus_bind] at he
  exact (listRec_below hg _ _ _ h).2 xs s' he

theorem fine_complexP (hg : g.Orders) {t : Tm L} {path : Tm L → Pr L (Shacl.Path Iri)}
    (hp : ∀ u, Under g t u → ∀ s, Fine g u (path u) s) {s : St L} (h : Below g t s.focus) :
    Fine g t (complexP g path) s := by
  have hp' : ∀ u, Under g t u → ∀ s, Below g t s.focus → Fine g t (path u) s := by
    intro u hu s _
    obtain ⟨h1, h2⟩ := hp u hu s
    exact ⟨h1, hu.below.trans h2⟩
  have hseq : ∀ s, Below g t s.focus → Fine g t (seqP g path) s := by
    intro s h
    refine fine_bind (fine_listP hg h) fun xs s1 he h1 => ?_
    refine fine_bind (fine_each xs s1 (fun u hu => hp' u (listP_under hg h he u hu)) h1) fun _ _ _ h2 => fine_ret h2
  have halt : ∀ s, Below g t s.focus → Fine g t (altP g path) s := by
    intro s h
    refine fine_bind (fine_single hg h) fun l s1 he h1 => ?_
    rcases single_cases hg .alternativePath s with ⟨o, ho, he'⟩ | ⟨_, he'⟩
    · rw [he'] at he
      cases he
      have hb : Below g t l := .tail h (Has.down ho (by decide))
      rw [Fine, setFocus_bind, ← Fine]
      refine fine_bind (fine_listP hg (s := ⟨l, _⟩) hb) fun xs s1 he h1 => ?_
      refine fine_bind (fine_each xs s1 (fun u hu => hp' u (listP_under hg (s := ⟨l, _⟩) hb he u hu)) h1)
        fun _ _ _ h2 => fine_ret h2
    · rw [he'] at he
      cases he
  have hun : ∀ p ∈ pathVocs, ∀ f s, Below g t s.focus → Fine g t (unP g path p f) s := by
    intro p hpv f s h
    refine fine_bind (fine_single hg h) fun l s1 he h1 => ?_
    rcases single_cases hg p s with ⟨o, ho, he'⟩ | ⟨_, he'⟩
    · rw [he'] at he
      cases he
      exact fine_bind (hp' _ ⟨_, h, Has.down ho hpv⟩ _ h1) fun _ _ _ h2 => fine_ret h2
    · rw [he'] at he
      cases he
  refine fine_orElse (hseq s h) fun s h => ?_
  refine fine_orElse (halt s h) fun s h => ?_
  refine fine_orElse (hun _ (by decide) _ s h) fun s h => ?_
  refine fine_orElse (hun _ (by decide) _ s h) fun s h => ?_
  refine fine_orElse (hun _ (by decide) _ s h) fun s h => ?_
  exact hun _ (by decide) _ s h

theorem under_object {t u : Tm L} (h : Under g t u) : ∃ s p, (s, p, u) ∈ g.ts := by
  obtain ⟨s, _, k, _, h2⟩ := h
  exact ⟨s, _, h2.2⟩

/-- A bound for finitely many. -/
theorem common_bound {Q : Tm L → Nat → Prop} (hQ : ∀ u n m, n ≤ m → Q u n → Q u m) (l : List (Tm L))
    (h : ∀ u ∈ l, ∃ n, Q u n) : ∃ n, ∀ u ∈ l, Q u n := by
  induction l with
  | nil => exact ⟨0, by simp⟩
  | cons u l ih =>
    obtain ⟨n, hn⟩ := h u (by simp)
    obtain ⟨m, hm⟩ := ih fun w hw => h w (by simp [hw])
    refine ⟨n + m, fun w hw => ?_⟩
    rcases List.mem_cons.1 hw with rfl | hw
    · exact hQ _ _ _ (by omega) hn
    · exact hQ _ _ _ (by omega) (hm w hw)

theorem under_transGen {t u : Tm L} (h : Under g t u) : Relation.TransGen g.Down u t := by
  obtain ⟨s, h1, h2⟩ := h
  induction h1 generalizing u with
  | refl => exact .single h2
  | tail _ hd ih => exact .head h2 (ih hd)

theorem pathP_fine (hg : g.Orders) {t : Tm L} (h : g.Ends t) :
    ∃ N, ∀ n, N ≤ n → ∀ s, Fine g t (pathP g n t) s := by
  have h' := Acc.transGen h
  clear h
  induction h' with
  | intro t _ ih =>
    obtain ⟨N, hN⟩ := common_bound (Q := fun u N => Under g t u → ∀ n, N ≤ n → ∀ s, Fine g u (pathP g n u) s)
      (fun u n m hnm h hu k hk => h hu k (by omega)) (g.ts.map fun x => x.2.2) (by
        intro u _
        by_cases hu : Under g t u
        · obtain ⟨N, hN⟩ := ih u (under_transGen hu)
          exact ⟨N, fun _ => hN⟩
        · exact ⟨0, fun h => absurd h hu⟩)
    refine ⟨N + 1, fun n hn s => ?_⟩
    match n, hn with
    | n + 1, hn =>
      cases t with
      | iri i => exact ⟨by simp [pathP_iri], .refl⟩
      | lit l => exact ⟨by simp [pathP_lit], .refl⟩
      | bnode b =>
        rw [Fine, pathP_bnode, ← Fine]
        refine fine_complexP hg (fun u hu s => ?_) .refl
        obtain ⟨x, p, hm⟩ := under_object hu
        exact hN u (List.mem_map.2 ⟨_, hm, rfl⟩) hu n (by omega) s

/-! ## More calls than are needed make no difference -/

/-- A parser does as another when that one ends. -/
def Extends (p p' : Pr L A) : Prop := ∀ s, (p s).1 ≠ .loop → p' s = p s

omit [DecidableEq L] in
theorem ext_refl (p : Pr L A) : Extends p p := fun _ _ => rfl

omit [DecidableEq L] in
theorem ext_bind {p p' : Pr L A} {f f' : A → Pr L B} (h : Extends p p') (hf : ∀ a, Extends (f a) (f' a)) :
    Extends (p >>= f) (p' >>= f') := by
  intro s hs
  have hp : (p s).1 ≠ .loop := by
    intro he
    exact hs (bind_loop_iff.2 (.inl he))
  simp only [bind, andThen, h s hp]
  rcases hp' : p s with ⟨r, s1⟩
  cases r with
  | ok a =>
    refine hf a s1 fun he => hs (bind_loop_iff.2 (.inr ⟨a, s1, hp', he⟩))
  | _ => rfl

omit [DecidableEq L] in
theorem ext_orElse {p p' q q' : Pr L A} (h : Extends p p') (hq : Extends q q') : Extends (orElse p q) (orElse p' q') := by
  intro s hs
  rcases hp' : p s with ⟨r, s1⟩
  have hp : (p s).1 ≠ .loop := by
    intro he
    rw [hp'] at he
    cases he
    exact hs (by simp [orElse, hp'])
  have := h s hp
  simp only [orElse, this, hp'] at hs ⊢
  cases r with
  | err => exact hq s1 hs
  | _ => rfl

omit [DecidableEq L] in
theorem ext_each {path path' : Tm L → Pr L A} (h : ∀ t, Extends (path t) (path' t)) (ts : List (Tm L)) :
    Extends (each path ts) (each path' ts) := by
  induction ts with
  | nil => exact ext_refl _
  | cons t ts ih => exact ext_bind (h t) fun _ => ext_bind ih fun _ => ext_refl _

theorem ext_complexP {path path' : Tm L → Pr L (Shacl.Path Iri)} (h : ∀ t, Extends (path t) (path' t)) :
    Extends (complexP g path) (complexP g path') := by
  have hun : ∀ p f, Extends (unP g path p f) (unP g path' p f) := fun p f =>
    ext_bind (ext_refl _) fun t => ext_bind (h t) fun _ => ext_refl _
  refine ext_orElse (ext_bind (ext_refl _) fun ts => ext_bind (ext_each h ts) fun _ => ext_refl _) ?_
  refine ext_orElse (ext_bind (ext_refl _) fun l => ext_bind (ext_refl _) fun _ => ext_bind (ext_refl _) fun ts =>
    ext_bind (ext_each h ts) fun _ => ext_refl _) ?_
  exact ext_orElse (hun _ _) (ext_orElse (hun _ _) (ext_orElse (hun _ _) (hun _ _)))

theorem pathP_ext (n : Nat) : ∀ t, Extends (pathP g n t) (pathP g (n + 1) t) := by
  induction n with
  | zero => intro t s h; exact absurd rfl h
  | succ n ih =>
    intro t
    cases t with
    | iri i => exact ext_refl _
    | lit l => exact ext_refl _
    | bnode b =>
      intro s hs
      rw [pathP_bnode] at hs ⊢
      rw [pathP_bnode]
      exact ext_complexP ih _ hs

theorem pathP_mono {n m : Nat} (hnm : n ≤ m) (t : Tm L) (s : St L) (h : (pathP g n t s).1 ≠ .loop) :
    pathP g m t s = pathP g n t s := by
  induction hnm with
  | refl => rfl
  | @step m _ ih =>
    rw [← ih]
    exact pathP_ext m t s (by rw [ih]; exact h)

end

end Rd
