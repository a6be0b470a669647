import Verif.Store.PropsData
import Verif.Store.Props

/-!
# C121, C122: what is kept after a call
-/

namespace Store
variable {N P : Type} [DecidableEq N] [DecidableEq P]

/-- All services are down. -/
def Data.down (D : Data N P) : Data N P where
  primary := match D.primary with
    | .mem g => .mem g
    | .endpoint e => .endpoint { e with up := false }
  uses := D.uses.map fun e => { e with up := false }

theorem usesOutgoing_again (K : Kinds N) (s : N) (preds : List P) (es : List (Endpoint N P)) (a a' b : Arcs N P)
    (hc : ∀ e ∈ es, e.Coherent K) (h : (usesOutgoing K s preds a es).1 = some b) :
    (usesOutgoing K s preds a es).2.map (·.content) = es.map (·.content) ∧
    (∀ e ∈ (usesOutgoing K s preds a es).2, e.Coherent K) ∧
    ∃ b', (usesOutgoing K s preds a' ((usesOutgoing K s preds a es).2.map fun e => { e with up := false })).1 = some b' := by
  induction es generalizing a a' with
  | nil => exact ⟨rfl, by simp [usesOutgoing], a', rfl⟩
  | cons e es ih =>
    obtain ⟨o1, o2, o3, o4, o5, -⟩ := Endpoint.outgoing_spec K e (hc e (by simp)) s preds
    simp only [usesOutgoing] at h ⊢
    cases hr : (e.outgoing K s preds).1 with
    | none => simp [hr] at h
    | some c =>
      rw [hr] at h
      simp only at h ⊢
      obtain ⟨-, -, c3⟩ := o5 c hr
      have hd : Endpoint.Coherent K { (e.outgoing K s preds).2 with up := false } := o1
      obtain ⟨-, -, -, k4, -, -⟩ := Endpoint.outgoing_spec K { (e.outgoing K s preds).2 with up := false } hd s preds
      refine ⟨?_, ?_, ?_⟩
      · rw [List.map_cons, List.map_cons, o2, (ih _ a' (fun e he => hc e (by simp [he])) h).1]
      · intro e' he'
        rcases List.mem_cons.1 he' with rfl | he'
        · exact o1
        · exact (ih _ a' (fun e he => hc e (by simp [he])) h).2.1 e' he'
      · simp only [List.map_cons, usesOutgoing]
        cases hr' : (Endpoint.outgoing K { (e.outgoing K s preds).2 with up := false } s preds).1 with
        | none =>
          obtain ⟨-, p, hp, hn⟩ := k4.1 hr'
          have := c3 p hp
          simp only at hn
          simp [hn] at this
        | some c' =>
          exact (ih _ _ (fun e he => hc e (by simp [he])) h).2.2

/-- **C122**, what is remembered. After a call that did not fail, the same call does not fail when all services are down,
and it gives the same arcs and the same remainder. -/
theorem C122_remembered (K : Kinds N) (D : Data N P) (hst : D.Steady K) (s : N) (preds : List P) (a : Arcs N P)
    (rem : List P) (h : (D.outgoing K s preds).1 = some (a, rem)) :
    ∃ a', ((D.outgoing K s preds).2.down.outgoing K s preds).1 = some (a', rem) ∧
      ∀ p o, (p, o) ∈ a'.pairs ↔ (p, o) ∈ a.pairs := by
  have hco : ∀ e ∈ D.uses, e.Coherent K := fun e he => (hst.2 e he).coherent
  simp only [Data.outgoing] at h ⊢
  by_cases h0 : preds.isEmpty = true
  · rw [if_pos h0] at h
    simp only [if_pos h0]
    cases h
    exact ⟨[], rfl, fun _ _ => Iff.rfl⟩
  · rw [if_neg h0] at h
    simp only [if_neg h0]
    cases hp : (D.primary.outgoing K s preds).1 with
    | none => simp [hp] at h
    | some x =>
      obtain ⟨c, rem'⟩ := x
      rw [hp] at h
      simp only [Option.map_eq_some_iff, Prod.mk.injEq] at h
      obtain ⟨b, hb, rfl, rfl⟩ := h
      simp only
      obtain ⟨c', hc', hcok, hcok', hcc⟩ : ∃ c', ((Data.down ⟨(D.primary.outgoing K s preds).2,
          (usesOutgoing K s preds c D.uses).2⟩).primary.outgoing K s preds).1 = some (c', rem') ∧ c.Ok ∧ c'.Ok ∧
          ∀ p o, (p, o) ∈ c'.pairs ↔ (p, o) ∈ c.pairs := by
        cases hD : D.primary with
        | mem g =>
          rw [hD] at hp
          simp only [Backend.outgoing, if_neg h0] at hp ⊢
          simp only [Data.down, Backend.outgoing, if_neg h0]
          have hp := Option.some.inj hp
          obtain rfl : (memOutgoing g s preds).1 = c := by rw [hp]
          obtain rfl : (memOutgoing g s preds).2 = rem' := by rw [hp]
          exact ⟨_, rfl, (memOutgoing_spec g s preds).1, (memOutgoing_spec g s preds).1, fun _ _ => Iff.rfl⟩
        | endpoint e =>
          rw [hD] at hp
          simp only [Backend.outgoing, Option.map_eq_some_iff, Prod.mk.injEq] at hp ⊢
          obtain ⟨c0, hc0, rfl, rfl⟩ := hp
          obtain ⟨o1, o2, o3, o4, o5, -⟩ := Endpoint.outgoing_spec K e (hst.1 e hD).coherent s preds
          obtain ⟨c1, c2, c3⟩ := o5 c0 hc0
          obtain ⟨-, -, -, k4, k5, -⟩ := Endpoint.outgoing_spec K { (e.outgoing K s preds).2 with up := false } o1 s preds
          simp only [Data.down, Backend.outgoing, Option.map_eq_some_iff, Prod.mk.injEq]
          cases hr' : (Endpoint.outgoing K { (e.outgoing K s preds).2 with up := false } s preds).1 with
          | none =>
            obtain ⟨-, p, hp, hn⟩ := k4.1 hr'
            have := c3 p hp
            simp only at hn
            simp [hn] at this
          | some c' =>
            obtain ⟨d1, d2, -⟩ := k5 c' hr'
            refine ⟨c', ⟨c', rfl, rfl, trivial⟩, c1, d1, fun p o => ?_⟩
            rw [d2, c2, o2]
      rw [hc']
      simp only
      obtain ⟨u1, u2, b', hb'⟩ := usesOutgoing_again K s preds D.uses c c' b hco hb
      refine ⟨b', by simp only [Data.down]; rw [hb']; rfl, fun p o => ?_⟩
      rw [(usesOutgoing_spec K s preds D.uses c hcok hco b hb).2,
        (usesOutgoing_spec K s preds _ c' hcok' (by
          intro e he
          obtain ⟨e0, he0, rfl⟩ := List.mem_map.1 he
          exact u2 e0 he0) b' hb').2, hcc]
      refine or_congr Iff.rfl (and_congr Iff.rfl ?_)
      have hmem : ∀ w, (∃ e ∈ (usesOutgoing K s preds c D.uses).2, e.content = w) ↔ ∃ e ∈ D.uses, e.content = w := by
        intro w
        rw [← List.mem_map, ← List.mem_map, u1]
      constructor
      · rintro ⟨e, he, ht⟩
        obtain ⟨e0, he0, rfl⟩ := List.mem_map.1 he
        obtain ⟨e1, he1, h1⟩ := (hmem e0.content).1 ⟨e0, he0, rfl⟩
        exact ⟨e1, he1, by rw [h1]; exact ht⟩
      · rintro ⟨e, he, ht⟩
        obtain ⟨e1, he1, h1⟩ := (hmem e.content).2 ⟨e, he, rfl⟩
        exact ⟨_, List.mem_map.2 ⟨e1, he1, rfl⟩, by simp only [h1]; exact ht⟩

example : mixed.Steady digits ∧ (mixed.outgoing digits 1 [2, 9]).1 = some ([(2, [8, 3, 4])], []) ∧
    ((mixed.outgoing digits 1 [2, 9]).2.down.outgoing digits 1 [2, 9]).1.map (·.1.pairs) = some [(2, 8), (2, 3), (2, 4)] ∧
    (mixed.down.outgoing digits 1 [2, 9]).1 = none := by
  refine ⟨⟨nofun, ?_⟩, by decide +kernel, by decide +kernel, by decide +kernel⟩
  intro e he
  simp only [mixed, List.mem_singleton] at he
  rw [he]
  exact .new _ _

/-- **C121**, the base after a failure. A Turtle document with good triples and a prefix that cannot be used is an error,
but the base is set as after a success. In all other cases a failure leaves the base as it was. -/
theorem C121_base_failed (valid : Tr N P → Bool) (f : Format) (m : Mode) (d : Doc N P) (base : Option String) (g : Mem N P)
    (h : (g.merge valid f m d base).1 ≠ .ok) :
    (g.merge valid f m d base).2.base =
      if f = .turtle ∧ d.badPrefixes = true ∧ ¬ (base.isSome = true ∧ d.badBase = true) ∧
        (m = .lax ∨ ∀ x ∈ d.items, ∃ t, x = some t ∧ valid t = true) then base.or g.base else g.base := by
  have hread : ∀ (items : List (Option (Tr N P))) (gr : List (Tr N P)), (readLoop valid m items gr).1 = true ↔
      (m = .lax ∨ ∀ x ∈ items, ∃ t, x = some t ∧ valid t = true) := by
    intro items
    induction items with
    | nil => intro gr; simp [readLoop]
    | cons x xs ih =>
      intro gr
      cases x with
      | none => cases m <;> simp [readLoop, ih]
      | some t =>
        simp only [readLoop]
        by_cases hv : valid t = true
        · rw [if_pos hv, ih]
          refine or_congr Iff.rfl ⟨fun h x hx => ?_, fun h x hx => h x (List.mem_cons_of_mem _ hx)⟩
          rcases List.mem_cons.1 hx with rfl | hx
          · exact ⟨t, rfl, hv⟩
          · exact h x hx
        · rw [if_neg hv]
          cases m with
          | lax => simp [ih]
          | strict =>
            simp only [Bool.false_eq_true, false_iff]
            rintro (h | h)
            · cases h
            · obtain ⟨t', e, h'⟩ := h _ List.mem_cons_self
              cases e
              exact hv h'
  have hm : (g.merge valid f m d base).2 = (g.parse valid f m d base).2 ∧ (g.parse valid f m d base).1 ≠ .ok := by
    have h1 := (merge_snd valid f m d base g).1
    rw [h1] at h
    refine ⟨?_, h⟩
    unfold Mem.merge
    cases he : (g.parse valid f m d base).1 <;> simp_all
  rw [hm.1]
  have hp := hm.2
  clear hm h
  cases f with
  | turtle =>
    simp only [Mem.parse, Mem.parseTurtle] at hp ⊢
    by_cases hb : (base.isSome && d.badBase) = true
    · rw [if_pos hb, if_neg]
      intro hh
      exact hh.2.2.1 (by simpa using hb)
    · rw [if_neg hb] at hp ⊢
      have hb' : ¬ (base.isSome = true ∧ d.badBase = true) := by simpa using hb
      by_cases hr : (readLoop valid m d.items g.graph).1 = true
      · have hr2 := (hread _ _).1 hr
        simp only [hr, Bool.not_true, Bool.false_eq_true, if_false] at hp ⊢
        by_cases hbp : d.badPrefixes = true
        · rw [if_pos hbp, if_pos ⟨trivial, hbp, hb', hr2⟩]
          cases base <;> rfl
        · rw [if_neg hbp] at hp
          exact absurd rfl hp
      · have hr2 := fun h => hr ((hread d.items g.graph).2 h)
        simp only [hr, Bool.not_false, if_true]
        rw [if_neg (fun hh => hr2 hh.2.2.2)]
  | _ =>
    simp [Mem.parse, Mem.parsePlain]

example : ((Mem.empty : Mem Nat Nat).merge (fun _ => true) .turtle .strict ⟨[some (1, 2, 3)], false, true⟩ (some "b")) =
    (.err, ⟨[(1, 2, 3)], some "b", 0, none⟩) := by decide +kernel

end Store
