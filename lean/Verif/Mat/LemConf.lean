import Verif.Mat.Lemmas

/-!
# Lemmas for graphs made from schemas: conformance
-/

namespace Mat

open Shexc (SE TE NC IriRef Label SemAct Str)
open Spec

variable {E : Env} {S : Schema} {M : MapState} {ncSat : NC → Term → Prop}

theorem arcs_append (g h : List Triple) (x : Term) : arcs (g ++ h) x = arcs g x ++ arcs h x := List.filterMap_append

theorem mem_arcs {g : List Triple} {x : Term} {a : Str × Term} : a ∈ arcs g x ↔ (x, a) ∈ g := by
  simp only [arcs, List.mem_filterMap]
  constructor
  · rintro ⟨t, ht, h⟩
    split at h
    · next hx => cases h; rw [← hx]; exact ht
    · cases h
  · intro h
    exact ⟨(x, a), h, by simp⟩

theorem arcs_add_other {σ : St} {t : Triple} {x : Term} (h : t.1 ≠ x) : arcs (σ.add t).graph x = arcs σ.graph x := by
  unfold St.add
  split
  · rfl
  · dsimp only
    rw [arcs_append]
    simp [arcs, h]

theorem arcs_add_new {σ : St} {s : Term} {a : Str × Term} (h : a ∉ arcs σ.graph s) :
    arcs (σ.add (s, a)).graph s = arcs σ.graph s ++ [a] := by
  unfold St.add
  rw [if_neg (fun hm => h (mem_arcs.2 hm)), arcs_append]
  simp [arcs]

theorem arcs_add_old {σ : St} {s : Term} {a : Str × Term} (h : a ∈ arcs σ.graph s) : σ.add (s, a) = σ := by
  unfold St.add
  rw [if_pos (mem_arcs.1 h)]

theorem add_next {σ : St} {t : Triple} : (σ.add t).next = σ.next := by
  unfold St.add
  split <;> rfl

theorem mem_add {σ : St} {t u : Triple} : u ∈ (σ.add t).graph ↔ u ∈ σ.graph ∨ u = t := by
  unfold St.add
  split
  · next h =>
    constructor
    · exact .inl
    · rintro (h' | rfl)
      · exact h'
      · exact h
  · simp

/-- A term is none of the blank nodes that are still to be given. -/
def Old (E : Env) (k : Nat) (x : Term) : Prop := ∀ j, k < j → x ≠ .bnode (E.fresh j)

/-- No triple has one of them as subject. -/
def Inv (E : Env) (σ : St) : Prop := ∀ t ∈ σ.graph, Old E σ.next t.1

/-- The blank nodes given between two states. -/
def New (E : Env) (σ σ' : St) (x : Term) : Prop := ∃ j, σ.next < j ∧ j ≤ σ'.next ∧ x = .bnode (E.fresh j)

theorem Old.mono {k m : Nat} {x : Term} (h : Old E k x) (hkm : k ≤ m) : Old E m x := fun j hj => h j (by omega)

theorem Old.not_new {σ σ' : St} {x : Term} (h : Old E σ.next x) : ¬ New E σ σ' x := by
  rintro ⟨j, h1, _, h3⟩
  exact h j h1 h3

theorem arcs_of_inv {σ : St} (h : Inv E σ) {j : Nat} (hj : σ.next < j) : arcs σ.graph (.bnode (E.fresh j)) = [] := by
  rw [List.eq_nil_iff_forall_not_mem]
  intro a ha
  exact h _ (mem_arcs.1 ha) j hj rfl

/-- What a step does: subjects other than `s` and the new blank nodes keep their arcs. -/
structure Frame (E : Env) (s : Term) (σ σ' : St) : Prop where
  le : σ.next ≤ σ'.next
  inv : Inv E σ'
  keep : ∀ x, x ≠ s → ¬ New E σ σ' x → arcs σ'.graph x = arcs σ.graph x

theorem Frame.trans {s : Term} {σ σ' σ'' : St} (h : Frame E s σ σ') (h' : Frame E s σ' σ'') : Frame E s σ σ'' := by
  refine ⟨Nat.le_trans h.le h'.le, h'.inv, fun x hx hn => ?_⟩
  rw [h'.keep x hx, h.keep x hx]
  · rintro ⟨j, h1, h2, h3⟩
    exact hn ⟨j, h1, Nat.le_trans h2 h'.le, h3⟩
  · rintro ⟨j, h1, h2, h3⟩
    exact hn ⟨j, Nat.lt_of_le_of_lt h.le h1, h2, h3⟩

theorem new_not_new (hinj : ∀ i j, E.fresh i = E.fresh j → i = j) {σ σ' σ'' : St} {x : Term} (h : New E σ σ' x) :
    ¬ New E σ' σ'' x := by
  rintro ⟨j, h1, _, h3⟩
  obtain ⟨i, _, h2, rfl⟩ := h
  cases hinj i j (by injection h3)
  omega

theorem New.left {σ σ' σ'' : St} {x : Term} (h : New E σ σ' x) (hle : σ'.next ≤ σ''.next) : New E σ σ'' x := by
  obtain ⟨j, h1, h2, h3⟩ := h
  exact ⟨j, h1, Nat.le_trans h2 hle, h3⟩

theorem New.right {σ σ' σ'' : St} {x : Term} (h : New E σ' σ'' x) (hle : σ.next ≤ σ'.next) : New E σ σ'' x := by
  obtain ⟨j, h1, h2, h3⟩ := h
  exact ⟨j, Nat.lt_of_le_of_lt hle h1, h2, h3⟩

/-! ## Actions -/

theorem applyAct_eq {s : Term} {p : Str} {a : SemAct} {σ σ' : St} (h : applyAct E M s p a σ = .ok σ') :
    (σ' = σ ∧ ∀ x, ¬ Mapped E M (some [a]) x) ∨ ∃ v, σ' = σ.add (s, p, v) ∧ ∀ x, Mapped E M (some [a]) x ↔ x = v := by
  have hm : ∀ x, Mapped E M (some [a]) x ↔ ∃ code k, E.resolve a.name = some mapIri ∧ a.code = some code ∧
      mapKey E code = some k ∧ M k = some x := by
    intro x
    unfold Mapped
    constructor
    · rintro ⟨as, b, code, k, h1, h2, h3⟩
      cases h1
      rw [List.mem_singleton.1 h2] at h3
      exact ⟨code, k, h3⟩
    · rintro ⟨code, k, h⟩
      exact ⟨[a], a, code, k, rfl, by simp, h⟩
  simp only [hm]
  unfold applyAct at h
  split at h
  · cases h
  · next n hn =>
    split at h
    · next he =>
      subst he
      split at h
      · next hc =>
        cases h
        refine .inl ⟨rfl, ?_⟩
        rintro x ⟨code, k, _, h, _⟩
        rw [hc] at h; cases h
      · next code hc =>
        split at h
        · next hk =>
          cases h
          refine .inl ⟨rfl, ?_⟩
          rintro x ⟨code', k, _, h, h', _⟩
          rw [hc] at h; cases h
          rw [hk] at h'; cases h'
        · next k hk =>
          split at h
          · next hv =>
            cases h
            refine .inl ⟨rfl, ?_⟩
            rintro x ⟨code', k', _, h, h', h''⟩
            rw [hc] at h; cases h
            rw [hk] at h'; cases h'
            rw [hv] at h''; cases h''
          · next v hv =>
            cases h
            refine .inr ⟨v, rfl, fun x => ⟨?_, ?_⟩⟩
            · rintro ⟨code', k', _, h, h', h''⟩
              rw [hc] at h; cases h
              rw [hk] at h'; cases h'
              rw [hv] at h''; cases h''
              rfl
            · rintro rfl
              exact ⟨code, k, hn, hc, hk, hv⟩
    · next he =>
      cases h
      refine .inl ⟨rfl, ?_⟩
      rintro x ⟨code, k, h, _⟩
      rw [hn] at h; cases h
      exact he rfl

theorem mapped_cons {a : SemAct} {as : List SemAct} {x : Term} :
    Mapped E M (some (a :: as)) x ↔ Mapped E M (some [a]) x ∨ Mapped E M (some as) x := by
  unfold Mapped
  constructor
  · rintro ⟨_, b, code, k, h1, h2, h3⟩
    cases h1
    rcases List.mem_cons.1 h2 with rfl | h2
    · exact .inl ⟨[b], b, code, k, rfl, by simp, h3⟩
    · exact .inr ⟨as, b, code, k, rfl, h2, h3⟩
  · rintro (⟨_, b, code, k, h1, h2, h3⟩ | ⟨_, b, code, k, h1, h2, h3⟩)
    · cases h1
      exact ⟨_, b, code, k, rfl, by rw [List.mem_singleton.1 h2]; simp, h3⟩
    · cases h1
      exact ⟨_, b, code, k, rfl, List.mem_cons_of_mem _ h2, h3⟩

theorem acts_arcs {s : Term} {p : Str} {A : List (Str × Term)} (hA : ∀ a ∈ A, a.1 ≠ p) {as : List SemAct} :
    ∀ {σ σ' : St} {l : List Term}, steps (applyAct E M s p) as σ = .ok σ' → l.Nodup →
    arcs σ.graph s = A ++ l.map (Prod.mk p) → σ'.next = σ.next ∧ (∀ t ∈ σ'.graph, t ∈ σ.graph ∨ t.1 = s) ∧
      (∀ x, x ≠ s → arcs σ'.graph x = arcs σ.graph x) ∧
      ∃ l' : List Term, l'.Nodup ∧ arcs σ'.graph s = A ++ l'.map (Prod.mk p) ∧ ∀ x, x ∈ l' ↔ x ∈ l ∨ Mapped E M (some as) x := by
  induction as with
  | nil =>
    intro σ σ' l h hl ha
    cases h
    refine ⟨rfl, fun t => .inl, fun _ _ => rfl, l, hl, ha, fun x => ⟨.inl, ?_⟩⟩
    rintro (h | ⟨_, a, _, _, h1, h2, _⟩)
    · exact h
    · cases h1; cases h2
  | cons a as ih =>
    intro σ σ' l h hl ha
    rw [steps] at h
    cases h1 : applyAct E M s p a σ with
    | ok τ =>
      rw [h1] at h
      rcases applyAct_eq h1 with ⟨rfl, hm⟩ | ⟨v, rfl, hm⟩
      · obtain ⟨e1, e0, e2, l', e3, e4, e5⟩ := ih h hl ha
        refine ⟨e1, e0, e2, l', e3, e4, fun x => ?_⟩
        rw [e5, mapped_cons]
        simp [hm x]
      · by_cases hv : v ∈ l
        · have hmem : (p, v) ∈ arcs σ.graph s := by
            rw [ha]
            exact List.mem_append_right _ (List.mem_map.2 ⟨v, hv, rfl⟩)
          rw [arcs_add_old hmem] at h
          obtain ⟨e1, e0, e2, l', e3, e4, e5⟩ := ih h hl ha
          refine ⟨e1, e0, e2, l', e3, e4, fun x => ?_⟩
          rw [e5, mapped_cons, hm]
          constructor
          · rintro (h | h)
            · exact .inl h
            · exact .inr (.inr h)
          · rintro (h | rfl | h)
            · exact .inl h
            · exact .inl hv
            · exact .inr h
        · have hmem : (p, v) ∉ arcs σ.graph s := by
            rw [ha]
            intro hm
            rcases List.mem_append.1 hm with hm | hm
            · exact hA _ hm rfl
            · obtain ⟨w, hw, he⟩ := List.mem_map.1 hm
              cases he
              exact hv hw
          have ha' : arcs (σ.add (s, p, v)).graph s = A ++ (l ++ [v]).map (Prod.mk p) := by
            rw [arcs_add_new hmem, ha]
            simp
          obtain ⟨e1, e0, e2, l', e3, e4, e5⟩ := ih h (l := l ++ [v]) (by
            rw [List.nodup_append]
            refine ⟨hl, by simp, ?_⟩
            rintro a ha b hb rfl
            exact hv (List.mem_singleton.1 hb ▸ ha)) ha'
          refine ⟨by rw [e1, add_next], ?_, fun x hx => by rw [e2 x hx, arcs_add_other (fun h => hx h.symm)], l', e3, e4, fun x => ?_⟩
          · intro t ht
            rcases e0 t ht with h | h
            · rcases mem_add.1 h with h | rfl
              · exact .inl h
              · exact .inr rfl
            · exact .inr h
          · rw [e5, mapped_cons, hm, List.mem_append, List.mem_singleton, or_assoc]
    | _ => rw [h1] at h; cases h

/-! ## Conformance -/

/-- What a shape expression leads to. -/
def GoalSE (E : Env) (S : Schema) (M : MapState) (ncSat : NC → Term → Prop) (n : Nat) (e : SE) : Prop :=
  ∀ s σ σ', genSE E S M n e s σ = .ok σ' → Covered E S ncSat M e → Inv E σ → Old E σ.next s → arcs σ.graph s = [] →
    Frame E s σ σ' ∧ ∀ g, arcs g s = arcs σ'.graph s → (∀ x, New E σ σ' x → arcs g x = arcs σ'.graph x) → Sat E S ncSat g e s

/-- What a triple expression leads to. -/
def GoalTE (E : Env) (S : Schema) (M : MapState) (ncSat : NC → Term → Prop) (n : Nat) (t : TE) : Prop :=
  ∀ s σ σ' ps, genTE E S M n t s σ = .ok σ' → CoveredTE E S ncSat M t ps → ps.Nodup → Inv E σ → Old E σ.next s →
    (∀ a ∈ arcs σ.graph s, a.1 ∉ ps) → Frame E s σ σ' ∧ ∃ l, arcs σ'.graph s = arcs σ.graph s ++ l ∧ (∀ a ∈ l, a.1 ∈ ps) ∧
      ∀ g, (∀ x, New E σ σ' x → arcs g x = arcs σ'.graph x) → Fits E S ncSat g t l

theorem steps_covered (hinj : ∀ i j, E.fresh i = E.fresh j → i = j) {n : Nat} {s : Term} {es : List TE}
    (ih : ∀ t, GoalTE E S M ncSat n t) : ∀ {σ σ' : St} {ps : List Str},
    steps (fun e σ => genTE E S M n e s σ) es σ = .ok σ' → CoveredAll E S ncSat M es ps → ps.Nodup → Inv E σ → Old E σ.next s →
    (∀ a ∈ arcs σ.graph s, a.1 ∉ ps) → Frame E s σ σ' ∧ ∃ l, arcs σ'.graph s = arcs σ.graph s ++ l ∧ (∀ a ∈ l, a.1 ∈ ps) ∧
      ∀ g, (∀ x, New E σ σ' x → arcs g x = arcs σ'.graph x) → FitsAll E S ncSat g es l := by
  induction es with
  | nil =>
    intro σ σ' ps h hc _ hi _ _
    cases h
    cases hc
    exact ⟨⟨Nat.le_refl _, hi, fun _ _ _ => rfl⟩, [], by simp, by simp, fun g _ => .nil⟩
  | cons t ts iht =>
    intro σ σ' ps h hc hn hi ho ha
    cases hc with
    | @cons _ _ ps qs hc hcs =>
      rw [steps] at h
      cases h1 : genTE E S M n t s σ with
      | ok τ =>
        rw [h1] at h
        obtain ⟨np, nq, npq⟩ := List.nodup_append.1 hn
        obtain ⟨f1, l, a1, b1, c1⟩ := ih t s σ τ ps h1 hc np hi ho fun a hm h' => ha a hm (List.mem_append_left _ h')
        obtain ⟨f2, m, a2, b2, c2⟩ := iht h hcs nq f1.inv (ho.mono f1.le) (by
          intro a hm
          rw [a1] at hm
          rcases List.mem_append.1 hm with hm | hm
          · exact fun h' => ha a hm (List.mem_append_right _ h')
          · exact fun h' => npq _ (b1 a hm) _ h' rfl)
        refine ⟨f1.trans f2, l ++ m, by rw [a2, a1, List.append_assoc], ?_, fun g hg => .cons (c1 g ?_) (c2 g ?_)⟩
        · intro a hm
          rcases List.mem_append.1 hm with hm | hm
          · exact List.mem_append_left _ (b1 a hm)
          · exact List.mem_append_right _ (b2 a hm)
        · intro x hx
          rw [hg x (hx.left f2.le)]
          refine f2.keep x ?_ (new_not_new hinj hx)
          rintro rfl
          exact ho.not_new hx
        · intro x hx
          exact hg x (hx.right f1.le)
      | _ => rw [h1] at h; cases h

/-- A triple with a new blank node. -/
theorem bnode_step (hinj : ∀ i j, E.fresh i = E.fresh j → i = j) {n : Nat} {e : SE} (ih : GoalSE E S M ncSat n e) {s : Term}
    {σ σ' : St} {q : Str} (h : genSE E S M n e (newBnode E σ).1 ((newBnode E σ).2.add (s, q, (newBnode E σ).1)) = .ok σ')
    (hc : Covered E S ncSat M e) (hi : Inv E σ) (ho : Old E σ.next s) (ha : ∀ a ∈ arcs σ.graph s, a.1 ∉ [q]) :
    Frame E s σ σ' ∧ ∃ b, arcs σ'.graph s = arcs σ.graph s ++ [(q, b)] ∧
      ∀ g, (∀ x, New E σ σ' x → arcs g x = arcs σ'.graph x) → Sat E S ncSat g e b := by
  unfold newBnode at h
  dsimp only at h
  generalize hb : Term.bnode (E.fresh (σ.next + 1)) = b at h
  generalize hτ : St.add { σ with next := σ.next + 1 } (s, q, b) = τ at h
  have hnext : τ.next = σ.next + 1 := by rw [← hτ, add_next]
  have hbs : s ≠ b := by
    rw [← hb]
    exact ho _ (by omega)
  have hs : arcs τ.graph s = arcs σ.graph s ++ [(q, b)] := by
    rw [← hτ, arcs_add_new]
    intro hm
    exact ha _ hm (by simp)
  have hother : ∀ x, x ≠ s → arcs τ.graph x = arcs σ.graph x := by
    intro x hx
    rw [← hτ, arcs_add_other (fun h => hx h.symm)]
  have hinv : Inv E τ := by
    intro t ht
    rw [hnext]
    rw [← hτ] at ht
    rcases mem_add.1 ht with ht | rfl
    · exact (hi t ht).mono (by omega)
    · exact ho.mono (by omega)
  have hold : Old E τ.next b := by
    intro j hj
    rw [← hb]
    intro he
    have := hinj _ _ (Term.bnode.inj he)
    omega
  have hempty : arcs τ.graph b = [] := by
    rw [hother b (fun h => hbs h.symm), ← hb]
    exact arcs_of_inv hi (by omega)
  obtain ⟨f, hsat⟩ := ih b τ σ' h hc hinv hold hempty
  have hnewb : New E σ σ' b := ⟨σ.next + 1, by omega, by rw [← hnext]; exact f.le, hb.symm⟩
  have hle : σ.next ≤ σ'.next := by have := f.le; omega
  refine ⟨⟨hle, f.inv, fun x hx hn => ?_⟩, b, ?_, fun g hg => hsat g (hg b hnewb) fun x hx => hg x ?_⟩
  · rw [f.keep x ?_ ?_, hother x hx]
    · rintro rfl
      exact hn hnewb
    · rintro hx'
      exact hn (hx'.right (by omega))
  · rw [f.keep s hbs ((ho.mono (by omega : σ.next ≤ τ.next)).not_new), hs]
  · exact hx.right (by omega)

theorem conforms (hinj : ∀ i j, E.fresh i = E.fresh j → i = j) (n : Nat) :
    (∀ e, GoalSE E S M ncSat n e) ∧ ∀ t, GoalTE E S M ncSat n t := by
  induction n with
  | zero =>
    constructor
    · intro e s σ σ' h
      rw [genSE] at h
      cases h
    · intro t s σ σ' ps h
      rw [genTE] at h
      cases h
  | succ n ih =>
    constructor
    · intro e s σ σ' h hc hi ho ha
      cases hc with
      | ref hl hc =>
        rw [genSE, find_iff.2 hl] at h
        obtain ⟨f, hs⟩ := ih.1 _ s σ σ' h hc hi ho ha
        exact ⟨f, fun g h1 h2 => .ref hl (hs g h1 h2)⟩
      | any =>
        rw [genSE] at h
        · cases h
          exact ⟨⟨Nat.le_refl _, hi, fun _ _ _ => rfl⟩, fun g h1 _ => .any fun _ => by rw [h1, ha]⟩
        · nofun
        · nofun
      | shape hc hp =>
        rw [genSE] at h
        obtain ⟨f, l, h1, _, h3⟩ := ih.2 _ s σ σ' _ h hc hp hi ho (by rw [ha]; simp)
        refine ⟨f, fun g h4 h5 => .shape (l := l) (rest := []) ?_ (h3 g h5) (by simp) fun _ => rfl⟩
        rw [h4, h1, ha]
        simp
    · intro t s σ σ' ps h hc hp hi ho ha
      cases hc with
      | @each id es mn mx acts b _ hk hc =>
        rw [genTE] at h
        obtain ⟨f, l, h1, h2, h3⟩ := steps_covered hinj ih.2 h hc hp hi ho ha
        refine ⟨f, l, h1, h2, fun g hg => ?_⟩
        have := Fits.each (E := E) (S := S) (ncSat := ncSat) (g := g) (id := id) (acts := acts) (b := b) (parts := [l]) hk (by
          intro m hm
          rw [List.mem_singleton.1 hm]
          exact h3 g hg)
        simpa using this
      | ref hn hv hq hk hl hc =>
        rw [genTE, hq] at h
        simp only [find_iff.2 hl] at h
        obtain ⟨f, b, h1, h2⟩ := bnode_step hinj (ih.1 _) h hc hi ho ha
        refine ⟨f, [(_, b)], h1, by simp, fun g hg => .tc hn hv hq (by simp) ?_ hk⟩
        intro a hm
        rw [List.mem_singleton.1 hm]
        exact .ref hl (h2 g hg)
      | shape hn hv hq hk hc =>
        rw [genTE, hq] at h
        obtain ⟨f, b, h1, h2⟩ := bnode_step hinj (ih.1 _) h hc hi ho ha
        refine ⟨f, [(_, b)], h1, by simp, fun g hg => .tc hn hv hq (by simp) ?_ hk⟩
        intro a hm
        rw [List.mem_singleton.1 hm]
        exact h2 g hg
      | @leaf id ng iv p q v mn mx acts b vs hn hi' hq hv hvs hd hk =>
        rw [genTE, hq] at h
        have h : (match acts with | none => Res.ok σ | some acts => steps (applyAct E M s q) acts σ) = .ok σ' := by
          rcases hv with rfl | ⟨c, rfl, _⟩ <;> exact h
        have key : Frame E s σ σ' ∧ ∃ l : List Term, l.Nodup ∧ arcs σ'.graph s = arcs σ.graph s ++ l.map (Prod.mk q) ∧
            ∀ x, x ∈ l ↔ Mapped E M acts x := by
          cases acts with
          | none =>
            cases h
            refine ⟨⟨Nat.le_refl _, hi, fun _ _ _ => rfl⟩, [], by simp, by simp, fun x => ⟨nofun, ?_⟩⟩
            rintro ⟨_, _, _, _, h, _⟩
            cases h
          | some as =>
            obtain ⟨e1, e0, e2, l, e3, e4, e5⟩ := acts_arcs (A := arcs σ.graph s) (l := [])
              (fun a hm he => ha a hm (by simp [he])) h (by simp) (by simp)
            refine ⟨⟨by omega, fun t ht => ?_, fun x hx _ => e2 x hx⟩, l, e3, e4, fun x => by rw [e5]; simp⟩
            rw [e1]
            rcases e0 t ht with h | h
            · exact hi t h
            · rw [h]; exact ho
        obtain ⟨f, l, h1, h2, h3⟩ := key
        have hperm : l.Perm vs := (List.perm_ext_iff_of_nodup h1 hd).2 fun x => by rw [h3, hvs]
        have hlen : Card mn mx (l.map (Prod.mk q)).length := by
          rw [List.length_map, hperm.length_eq]
          exact hk
        have hpred : ∀ a ∈ l.map (Prod.mk q), a.1 = q := by
          intro a hm
          obtain ⟨x, _, rfl⟩ := List.mem_map.1 hm
          rfl
        refine ⟨f, l.map (Prod.mk q), h2, fun a hm => by simp [hpred a hm], fun g _ => ?_⟩
        rcases hv with rfl | ⟨c, rfl, hsat⟩
        · exact .any hn hi' hq hpred hlen
        · refine .tc hn hi' hq hpred ?_ hlen
          intro a hm
          obtain ⟨x, hx, rfl⟩ := List.mem_map.1 hm
          exact .nc (hsat x (hperm.subset hx))

end Mat
