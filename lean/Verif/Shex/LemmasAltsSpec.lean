import Verif.Shex.LemmasAlts
import Verif.Shex.LemmasShape

/-!
# Lemmas: the alternatives of an extended parent
-/

namespace Shex
open Rbe

variable {N P : Type}

theorem find_mem_keys {sch : Schema N P} {i : Nat} (h : sch.find i ≠ none) :
    i ∈ sch.shapes.map Prod.fst := by
  obtain ⟨se, hse⟩ := Option.ne_none_iff_exists'.1 h
  exact List.mem_map.2 ⟨(i, se), mem_of_alookup hse, rfl⟩

theorem length_found {sch : Schema N P} {l : List Nat} (hn : l.Nodup)
    (h : ∀ x ∈ l, sch.find x ≠ none) : l.length ≤ sch.shapes.length := by
  have : l.Subperm (sch.shapes.map Prod.fst) :=
    List.subperm_of_subset hn fun x hx => find_mem_keys (h x hx)
  simpa using this.length_le

theorem derefGo_spec {sch : Schema N P} {rank : Nat → Nat} (hg : Grounded sch rank)
    (Q : Nat → Prop) (hQ : ∀ i j, sch.At i (.ref j) → (Q i ↔ Q j)) (n : Nat) (seen : List Nat)
    (cur : Nat) (hn : seen.Nodup) (hs : ∀ x ∈ seen, sch.find x ≠ none ∧ rank cur < rank x)
    (hl : seen.length + n = sch.shapes.length + 1) :
    (∀ j, ¬ sch.At (derefGo sch n seen cur) (.ref j)) ∧ (Q cur ↔ Q (derefGo sch n seen cur)) ∧
      rank (derefGo sch n seen cur) ≤ rank cur := by
  induction n generalizing seen cur with
  | zero =>
    have := length_found hn fun x hx => (hs x hx).1
    omega
  | succ n ih =>
    have hc : cur ∉ seen := fun h => Nat.lt_irrefl _ (hs cur h).2
    simp only [derefGo, if_neg hc]
    cases hf : sch.find cur with
    | none => exact ⟨fun j h => by simp [Schema.At, hf] at h, Iff.rfl, Nat.le_refl _⟩
    | some se =>
      cases se with
      | ref next =>
        have hlt := hg.ref cur next hf
        obtain ⟨h1, h2, h3⟩ := ih (cur :: seen) next (List.nodup_cons.2 ⟨hc, hn⟩) (by
          intro x hx
          rcases List.mem_cons.1 hx with rfl | hx
          · exact ⟨by simp [hf], hlt⟩
          · exact ⟨(hs x hx).1, Nat.lt_trans hlt (hs x hx).2⟩) (by simp; omega)
        exact ⟨h1, (hQ cur next hf).trans h2, Nat.le_trans h3 (Nat.le_of_lt hlt)⟩
      | _ => exact ⟨fun j h => by simp [Schema.At, hf] at h, Iff.rfl, Nat.le_refl _⟩

theorem deref_spec {sch : Schema N P} {rank : Nat → Nat} (hg : Grounded sch rank)
    (Q : Nat → Prop) (hQ : ∀ i j, sch.At i (.ref j) → (Q i ↔ Q j)) (i : Nat) :
    (∀ j, ¬ sch.At (sch.deref i) (.ref j)) ∧ (Q i ↔ Q (sch.deref i)) ∧
      rank (sch.deref i) ≤ rank i :=
  derefGo_spec hg Q hQ _ [] i List.nodup_nil (by simp) (by simp)

theorem buckets_ref {sch : Schema N P} {i j : Nat} (h : sch.At i (.ref j)) (B : Nat → Prop) :
    Buckets sch i B ↔ Buckets sch j B := by
  constructor
  · intro hb
    cases hb with
    | ref h' hb =>
      have e := h'.symm.trans h
      simp only [Option.some.injEq, ShapeExpr.ref.injEq] at e
      subst e
      exact hb
    | absent h' => exact absurd h (h' _)
    | shape h' _ => exact absurd (h'.symm.trans h) (by simp)
    | or h' _ _ => exact absurd (h'.symm.trans h) (by simp)
    | and h' _ _ _ _ => exact absurd (h'.symm.trans h) (by simp)
    | andNone h' _ => exact absurd (h'.symm.trans h) (by simp)
    | nodeConstraint h' => exact absurd (h'.symm.trans h) (by simp)
    | not h' => exact absurd (h'.symm.trans h) (by simp)
    | external h' => exact absurd (h'.symm.trans h) (by simp)
    | empty h' => exact absurd (h'.symm.trans h) (by simp)
  · exact Buckets.ref h

theorem bucketed_ref {sch : Schema N P} {i j : Nat} (h : sch.At i (.ref j)) :
    Bucketed sch i ↔ Bucketed sch j := by
  constructor
  · intro hb
    cases hb with
    | ref h' hb =>
      have e := h'.symm.trans h
      simp only [Option.some.injEq, ShapeExpr.ref.injEq] at e
      subst e
      exact hb
    | shape h' => exact absurd (h'.symm.trans h) (by simp)
    | or h' _ _ => exact absurd (h'.symm.trans h) (by simp)
    | and h' _ _ => exact absurd (h'.symm.trans h) (by simp)
  · exact Bucketed.ref h

theorem first_bucketed (sch : Schema N P) (es : List Nat) :
    (∀ e ∈ es, ¬ Bucketed sch e) ∨
      ∃ pre e post, es = pre ++ e :: post ∧ (∀ x ∈ pre, ¬ Bucketed sch x) ∧ Bucketed sch e := by
  induction es with
  | nil => simp
  | cons e es ih =>
    by_cases he : Bucketed sch e
    · exact Or.inr ⟨[], e, es, rfl, by simp, he⟩
    · rcases ih with h | ⟨pre, e', post, rfl, hpre, he'⟩
      · left
        intro x hx
        rcases List.mem_cons.1 hx with rfl | hx
        · exact he
        · exact h x hx
      · refine Or.inr ⟨e :: pre, e', post, rfl, ?_, he'⟩
        intro x hx
        rcases List.mem_cons.1 hx with rfl | hx
        · exact he
        · exact hpre x hx

theorem first_unique {Q : Nat → Prop} {pre pre' post post' : List Nat} {e e' : Nat}
    (h : pre ++ e :: post = pre' ++ e' :: post') (hp : ∀ x ∈ pre, ¬ Q x) (hp' : ∀ x ∈ pre', ¬ Q x)
    (he : Q e) (he' : Q e') : e = e' := by
  induction pre generalizing pre' with
  | nil =>
    cases pre' with
    | nil => simp at h; exact h.1
    | cons a pre' =>
      simp at h
      exact absurd (h.1 ▸ he) (hp' a (by simp))
  | cons a pre ih =>
    cases pre' with
    | nil =>
      simp at h
      exact absurd (h.1 ▸ he') (hp a (by simp))
    | cons b pre' =>
      simp at h
      exact ih h.2 (fun x hx => hp x (by simp [hx])) (fun x hx => hp' x (by simp [hx]))

/-- In a grounded schema every shape resolves, and to some bucket if it is bucketed. -/
theorem buckets_exists {sch : Schema N P} {rank : Nat → Nat} (hg : Grounded sch rank)
    (hne : NoEmptyOr sch) : ∀ k i, rank i = k →
      ∃ B, Buckets sch i B ∧ (Bucketed sch i → ∃ b, B b) := by
  intro k
  induction k using Nat.strongRecOn with
  | _ k ih =>
    rintro i rfl
    have key : ∀ j, rank j < rank i → ∃ B, Buckets sch j B ∧ (Bucketed sch j → ∃ b, B b) :=
      fun j hj => ih (rank j) hj j rfl
    cases hf : sch.find i with
    | none =>
      refine ⟨_, .absent (by simp [Schema.At, hf]), fun hb => ?_⟩
      cases hb <;> (rename_i h; simp [Schema.At, hf] at h)
    | some se =>
      have hnb : (∀ s, se ≠ .shape s) → (∀ j, se ≠ .ref j) → (∀ es, se ≠ .or es) →
          (∀ es, se ≠ .and es) → ¬ Bucketed sch i := by
        intro h1 h2 h3 h4 hb
        cases hb with
        | shape h => exact h1 _ (Option.some.inj (hf.symm.trans h))
        | ref h _ => exact h2 _ (Option.some.inj (hf.symm.trans h))
        | or h _ _ => exact h3 _ (Option.some.inj (hf.symm.trans h))
        | and h _ _ => exact h4 _ (Option.some.inj (hf.symm.trans h))
      cases se with
      | shape s =>
        have hall : ∀ es : List Nat, (∀ e ∈ es, rank e < rank i) → ∃ B, BucketsAll sch es B := by
          intro es
          induction es with
          | nil => exact fun _ => ⟨_, .nil⟩
          | cons e es ihe =>
            intro hlt
            obtain ⟨B, hB, _⟩ := key e (hlt e (by simp))
            obtain ⟨B', hB'⟩ := ihe fun x hx => hlt x (by simp [hx])
            exact ⟨_, .cons hB hB'⟩
        obtain ⟨B, hB⟩ := hall s.extends (hg.shape i s hf)
        exact ⟨_, .shape hf hB, fun _ => ⟨i, Or.inl rfl⟩⟩
      | ref j =>
        obtain ⟨B, hB, hb⟩ := key j (hg.ref i j hf)
        exact ⟨B, .ref hf hB, fun h => hb ((bucketed_ref hf).1 h)⟩
      | or es =>
        by_cases hb : ∃ e ∈ es, Bucketed sch e
        · obtain ⟨e, he, hbe⟩ := hb
          obtain ⟨B, hB, hx⟩ := key e (hg.or i es hf e he)
          exact ⟨B, .or hf he hB, fun _ => hx hbe⟩
        · obtain ⟨e, he⟩ := List.exists_mem_of_ne_nil _ (hne i es hf)
          obtain ⟨B, hB, hx⟩ := key e (hg.or i es hf e he)
          refine ⟨B, .or hf he hB, fun h => absurd ?_ hb⟩
          cases h with
          | or h he' hb' =>
            have e := h.symm.trans hf
            simp only [Option.some.injEq, ShapeExpr.or.injEq] at e
            subst e
            exact ⟨_, he', hb'⟩
          | shape h => exact absurd (h.symm.trans hf) (by simp)
          | ref h _ => exact absurd (h.symm.trans hf) (by simp)
          | and h _ _ => exact absurd (h.symm.trans hf) (by simp)
      | and es =>
        rcases first_bucketed sch es with h | ⟨pre, e, post, hes, hpre, he⟩
        · refine ⟨_, .andNone hf h, fun hb => ?_⟩
          cases hb with
          | and h' he' hb' =>
            have e := h'.symm.trans hf
            simp only [Option.some.injEq, ShapeExpr.and.injEq] at e
            subst e
            exact absurd hb' (h _ he')
          | shape h => exact absurd (h.symm.trans hf) (by simp)
          | ref h _ => exact absurd (h.symm.trans hf) (by simp)
          | or h _ _ => exact absurd (h.symm.trans hf) (by simp)
        · obtain ⟨B, hB, hx⟩ := key e (hg.and i es hf e (by simp [hes]))
          exact ⟨B, .and hf hes hpre he hB, fun _ => hx he⟩
      | not e => exact ⟨_, .not hf, fun h => absurd h (hnb (by simp) (by simp) (by simp) (by simp))⟩
      | nodeConstraint c =>
        exact ⟨_, .nodeConstraint hf, fun h => absurd h (hnb (by simp) (by simp) (by simp) (by simp))⟩
      | external => exact ⟨_, .external hf, fun h => absurd h (hnb (by simp) (by simp) (by simp) (by simp))⟩
      | empty => exact ⟨_, .empty hf, fun h => absurd h (hnb (by simp) (by simp) (by simp) (by simp))⟩

/-- Buckets come only from bucketed shapes. -/
theorem bucketed_of_buckets {sch : Schema N P} {rank : Nat → Nat} (hg : Grounded sch rank) :
    ∀ k i, rank i = k → ∀ B, Buckets sch i B → ∀ b, B b → Bucketed sch i := by
  intro k
  induction k using Nat.strongRecOn with
  | _ k ih =>
    rintro i rfl B hB b hb
    cases hB with
    | shape h _ => exact .shape h
    | ref h h' => exact .ref h (ih _ (hg.ref _ _ h) _ rfl _ h' b hb)
    | or h he h' => exact .or h he (ih _ (hg.or _ _ h _ he) _ rfl _ h' b hb)
    | and h hes _ he _ => exact .and h (by rw [hes]; simp) he
    | andNone _ _ => exact hb.elim
    | nodeConstraint _ => exact hb.elim
    | not _ => exact hb.elim
    | external _ => exact hb.elim
    | empty _ => exact hb.elim
    | absent _ => exact hb.elim

/-- The list describes the bucket sets of `i`. -/
def Describes (sch : Schema N P) (i : Nat) (L : List Alt) : Prop :=
  (∀ a ∈ L, ∃ B, Buckets sch i B ∧ ∀ b, b ∈ a.buckets ↔ B b) ∧
    ∀ B, Buckets sch i B → ∃ a ∈ L, ∀ b, b ∈ a.buckets ↔ B b

theorem describes_ref {sch : Schema N P} {i j : Nat} (h : sch.At i (.ref j)) (L : List Alt) :
    Describes sch i L ↔ Describes sch j L := by
  unfold Describes
  simp only [buckets_ref h]

theorem mem_crossMerge (l r : List Alt) (m : Alt) :
    m ∈ crossMerge l r ↔ ∃ a ∈ l, ∃ b ∈ r, m = a.merge b := by
  simp only [crossMerge, List.mem_flatMap, List.mem_map]
  constructor
  · rintro ⟨a, ha, b, hb, rfl⟩; exact ⟨a, ha, b, hb, rfl⟩
  · rintro ⟨a, ha, b, hb, rfl⟩; exact ⟨a, ha, b, hb, rfl⟩

theorem crossMerge_all {sch : Schema N P} (go : Nat → List Alt) (es : List Nat)
    (h : ∀ e ∈ es, Describes sch e (go e)) (acc : List Alt) :
    (∀ a ∈ es.foldl (fun acc p => crossMerge acc (go p)) acc, ∃ a0 ∈ acc, ∃ B, BucketsAll sch es B ∧
      ∀ b, b ∈ a.buckets ↔ b ∈ a0.buckets ∨ B b) ∧
    ∀ a0 ∈ acc, ∀ B, BucketsAll sch es B →
      ∃ a ∈ es.foldl (fun acc p => crossMerge acc (go p)) acc,
        ∀ b, b ∈ a.buckets ↔ b ∈ a0.buckets ∨ B b := by
  induction es generalizing acc with
  | nil =>
    simp only [List.foldl_nil]
    refine ⟨fun a ha => ⟨a, ha, _, .nil, by simp⟩, fun a0 ha0 B hB => ?_⟩
    cases hB
    exact ⟨a0, ha0, by simp⟩
  | cons e es ih =>
    simp only [List.foldl_cons]
    obtain ⟨h1, h2⟩ := ih (fun x hx => h x (by simp [hx])) (crossMerge acc (go e))
    obtain ⟨d1, d2⟩ := h e (by simp)
    constructor
    · intro a ha
      obtain ⟨a1, ha1, B', hB', hb'⟩ := h1 a ha
      obtain ⟨a0, ha0, c, hc, rfl⟩ := (mem_crossMerge _ _ _).1 ha1
      obtain ⟨B, hB, hb⟩ := d1 c hc
      refine ⟨a0, ha0, _, .cons hB hB', fun b => ?_⟩
      rw [hb', mem_merge, hb]
      tauto
    · intro a0 ha0 B hB
      cases hB with
      | cons hB hB' =>
        obtain ⟨c, hc, hb⟩ := d2 _ hB
        obtain ⟨a, ha, hb'⟩ := h2 (a0.merge c) ((mem_crossMerge _ _ _).2 ⟨a0, ha0, c, hc, rfl⟩) _ hB'
        refine ⟨a, ha, fun b => ?_⟩
        rw [hb', mem_merge, hb]
        tauto

theorem altsAnd_some (deref : Nat → Nat) (go : Nat → List Alt) (es : List Nat) (m : List Alt)
    (cs : List Nat) : (altsAnd deref go es (some m) cs).1 = some m := by
  induction es generalizing cs with
  | nil => rfl
  | cons e es ih => simp only [altsAnd]; exact ih _

theorem altsAnd_none (sch : Schema N P) (deref : Nat → Nat) (go : Nat → List Alt) (es : List Nat)
    (h : ∀ e ∈ es, (go e).any (fun a => !a.buckets.isEmpty) = true ↔ Bucketed sch e) (cs : List Nat) :
    ((altsAnd deref go es none cs).1 = none ∧ ∀ e ∈ es, ¬ Bucketed sch e) ∨
      ∃ pre e post, es = pre ++ e :: post ∧ (∀ x ∈ pre, ¬ Bucketed sch x) ∧ Bucketed sch e ∧
        (altsAnd deref go es none cs).1 = some (go e) := by
  induction es generalizing cs with
  | nil => exact Or.inl ⟨rfl, by simp⟩
  | cons e es ih =>
    simp only [altsAnd]
    by_cases he : (go e).any (fun a => !a.buckets.isEmpty) = true
    · rw [if_pos he]
      exact Or.inr ⟨[], e, es, rfl, by simp, (h e (by simp)).1 he, altsAnd_some _ _ _ _ _⟩
    · rw [if_neg he]
      have hnb : ¬ Bucketed sch e := fun hb => he ((h e (by simp)).2 hb)
      rcases ih (fun x hx => h x (by simp [hx])) (cs ++ [deref e]) with ⟨h1, h2⟩ | ⟨pre, e', post, rfl, hp, hb, h1⟩
      · refine Or.inl ⟨h1, ?_⟩
        intro x hx
        rcases List.mem_cons.1 hx with rfl | hx
        · exact hnb
        · exact h2 x hx
      · refine Or.inr ⟨e :: pre, e', post, rfl, ?_, hb, h1⟩
        intro x hx
        rcases List.mem_cons.1 hx with rfl | hx
        · exact hnb
        · exact hp x hx

theorem any_buckets {sch : Schema N P} {rank : Nat → Nat} (hg : Grounded sch rank)
    (hne : NoEmptyOr sch) {e : Nat} {L : List Alt} (hd : Describes sch e L) :
    L.any (fun a => !a.buckets.isEmpty) = true ↔ Bucketed sch e := by
  rw [List.any_eq_true]
  constructor
  · rintro ⟨a, ha, hb⟩
    obtain ⟨B, hB, hx⟩ := hd.1 a ha
    have : a.buckets ≠ [] := by simpa using hb
    obtain ⟨b, hbm⟩ := List.exists_mem_of_ne_nil _ this
    exact bucketed_of_buckets hg _ e rfl B hB b ((hx b).1 hbm)
  · intro hb
    obtain ⟨B, hB, hx⟩ := buckets_exists hg hne _ e rfl
    obtain ⟨b, hbb⟩ := hx hb
    obtain ⟨a, ha, hab⟩ := hd.2 B hB
    refine ⟨a, ha, ?_⟩
    have : a.buckets ≠ [] := List.ne_nil_of_mem ((hab b).2 hbb)
    simpa using this

theorem altsRec_spec {sch : Schema N P} {rank : Nat → Nat} (hg : Grounded sch rank)
    (hne : NoEmptyOr sch) (n : Nat) (path : List Nat) (i : Nat) (hn : path.Nodup)
    (hs : ∀ x ∈ path, sch.find x ≠ none ∧ rank i < rank x)
    (hl : path.length + n = sch.shapes.length + 1) : Describes sch i (altsRec sch n path i) := by
  induction n generalizing path i with
  | zero =>
    have := length_found hn fun x hx => (hs x hx).1
    omega
  | succ n ih =>
    simp only [altsRec]
    obtain ⟨hnr, _, hrk⟩ := deref_spec hg (fun _ => True) (fun _ _ _ => Iff.rfl) i
    have hmv : ∀ L, Describes sch i L ↔ Describes sch (sch.deref i) L := fun L =>
      (deref_spec hg (fun x => Describes sch x L) (fun a b h => describes_ref h L) i).2.1
    rw [hmv]
    generalize sch.deref i = j at hnr hrk
    have hj : j ∉ path := fun h => by
      have := (hs j h).2
      omega
    rw [if_neg hj]
    have hgo : sch.find j ≠ none → ∀ e, rank e < rank j →
        Describes sch e (altsRec sch n (j :: path) e) := by
      intro hf e he
      refine ih (j :: path) e (List.nodup_cons.2 ⟨hj, hn⟩) ?_ (by simp; omega)
      intro x hx
      rcases List.mem_cons.1 hx with rfl | hx
      · exact ⟨hf, he⟩
      · exact ⟨(hs x hx).1, by have := (hs x hx).2; omega⟩
    generalize altsRec sch n (j :: path) = go at hgo
    have hempty : ∀ B : Nat → Prop, (∀ b, ¬ B b) → (∀ B', Buckets sch j B' ↔ B' = B) →
        ∀ a : Alt, a.buckets = [] → Describes sch j [a] := by
      intro B hB hu a ha
      refine ⟨fun x hx => ⟨B, (hu B).2 rfl, fun b => ?_⟩, fun B' hB' => ⟨a, by simp, fun b => ?_⟩⟩
      · rw [List.mem_singleton] at hx
        subst hx
        simp [ha, hB]
      · rw [(hu B').1 hB']
        simp [ha, hB]
    cases hf : sch.find j with
    | none =>
      refine hempty (fun _ => False) (by simp) (fun B' => ⟨fun h => ?_, ?_⟩) _ rfl
      · cases h with
        | absent _ => rfl
        | shape h _ => simp [Schema.At, hf] at h
        | ref h _ => simp [Schema.At, hf] at h
        | or h _ _ => simp [Schema.At, hf] at h
        | and h _ _ _ _ => simp [Schema.At, hf] at h
        | andNone h _ => simp [Schema.At, hf] at h
        | nodeConstraint h => simp [Schema.At, hf] at h
        | not h => simp [Schema.At, hf] at h
        | external h => simp [Schema.At, hf] at h
        | empty h => simp [Schema.At, hf] at h
      · rintro rfl
        exact .absent (by simp [Schema.At, hf])
    | some se =>
      have hgo := hgo (by simp [hf])
      have hleaf : (∀ s, se ≠ .shape s) → (∀ es, se ≠ .or es) → (∀ es, se ≠ .and es) →
          ∀ B, Buckets sch j B → B = fun _ => False := by
        intro h1 h2 h3 B hB
        cases hB with
        | shape h _ => exact absurd (Option.some.inj (hf.symm.trans h)) (h1 _)
        | ref h _ => exact absurd h (hnr _)
        | or h _ _ => exact absurd (Option.some.inj (hf.symm.trans h)) (h2 _)
        | and h _ _ _ _ => exact absurd (Option.some.inj (hf.symm.trans h)) (h3 _)
        | andNone h _ => rfl
        | nodeConstraint h => rfl
        | not h => rfl
        | external h => rfl
        | empty h => rfl
        | absent h => rfl
      cases se with
      | shape s =>
        obtain ⟨c1, c2⟩ := crossMerge_all go s.extends
          (fun e he => hgo e (hg.shape j s hf e he)) [Alt.withBucket j]
        constructor
        · intro a ha
          obtain ⟨a0, ha0, B, hB, hb⟩ := c1 a ha
          rw [List.mem_singleton] at ha0
          subst ha0
          refine ⟨_, .shape hf hB, fun b => ?_⟩
          rw [hb]
          simp [Alt.withBucket]
        · intro B hB
          cases hB with
          | shape h hB =>
            have e := hf.symm.trans h
            simp only [Option.some.injEq, ShapeExpr.shape.injEq] at e
            subst e
            obtain ⟨a, ha, hb⟩ := c2 (Alt.withBucket j) (by simp) _ hB
            refine ⟨a, ha, fun b => ?_⟩
            rw [hb]
            simp [Alt.withBucket]
          | ref h _ => exact absurd h (hnr _)
          | or h _ _ => exact absurd (hf.symm.trans h) (by simp)
          | and h _ _ _ _ => exact absurd (hf.symm.trans h) (by simp)
          | andNone h _ => exact absurd (hf.symm.trans h) (by simp)
          | nodeConstraint h => exact absurd (hf.symm.trans h) (by simp)
          | not h => exact absurd (hf.symm.trans h) (by simp)
          | external h => exact absurd (hf.symm.trans h) (by simp)
          | empty h => exact absurd (hf.symm.trans h) (by simp)
          | absent h => exact absurd hf (h _)
      | or es =>
        constructor
        · intro a ha
          obtain ⟨e, he, ha⟩ := List.mem_flatMap.1 ha
          obtain ⟨B, hB, hb⟩ := (hgo e (hg.or j es hf e he)).1 a ha
          exact ⟨B, .or hf he hB, hb⟩
        · intro B hB
          cases hB with
          | or h he hB =>
            have e := hf.symm.trans h
            simp only [Option.some.injEq, ShapeExpr.or.injEq] at e
            subst e
            obtain ⟨a, ha, hb⟩ := (hgo _ (hg.or j es hf _ he)).2 _ hB
            exact ⟨a, List.mem_flatMap.2 ⟨_, he, ha⟩, hb⟩
          | shape h _ => exact absurd (hf.symm.trans h) (by simp)
          | ref h _ => exact absurd h (hnr _)
          | and h _ _ _ _ => exact absurd (hf.symm.trans h) (by simp)
          | andNone h _ => exact absurd (hf.symm.trans h) (by simp)
          | nodeConstraint h => exact absurd (hf.symm.trans h) (by simp)
          | not h => exact absurd (hf.symm.trans h) (by simp)
          | external h => exact absurd (hf.symm.trans h) (by simp)
          | empty h => exact absurd (hf.symm.trans h) (by simp)
          | absent h => exact absurd hf (h _)
      | and es =>
        have hgoe : ∀ e ∈ es, Describes sch e (go e) := fun e he => hgo e (hg.and j es hf e he)
        have hany : ∀ e ∈ es, (go e).any (fun a => !a.buckets.isEmpty) = true ↔ Bucketed sch e :=
          fun e he => any_buckets hg hne (hgoe e he)
        have hcases : ∀ B, Buckets sch j B →
            (B = (fun _ => False) ∧ ∀ x ∈ es, ¬ Bucketed sch x) ∨
            ∃ pre e post, es = pre ++ e :: post ∧ (∀ x ∈ pre, ¬ Bucketed sch x) ∧ Bucketed sch e ∧
              Buckets sch e B := by
          intro B hB
          cases hB with
          | and h hes hpre he hB =>
            have e := hf.symm.trans h
            simp only [Option.some.injEq, ShapeExpr.and.injEq] at e
            subst e
            exact Or.inr ⟨_, _, _, hes, hpre, he, hB⟩
          | andNone h hes =>
            have e := hf.symm.trans h
            simp only [Option.some.injEq, ShapeExpr.and.injEq] at e
            subst e
            exact Or.inl ⟨rfl, hes⟩
          | shape h _ => exact absurd (hf.symm.trans h) (by simp)
          | ref h _ => exact absurd h (hnr _)
          | or h _ _ => exact absurd (hf.symm.trans h) (by simp)
          | nodeConstraint h => exact absurd (hf.symm.trans h) (by simp)
          | not h => exact absurd (hf.symm.trans h) (by simp)
          | external h => exact absurd (hf.symm.trans h) (by simp)
          | empty h => exact absurd (hf.symm.trans h) (by simp)
          | absent h => exact absurd hf (h _)
        rcases altsAnd_none sch sch.deref go es hany [] with ⟨h1, h2⟩ | ⟨pre, e, post, hes, hpre, he, h1⟩
        · simp only [h1, Option.getD_none, List.map_cons, List.map_nil]
          refine hempty (fun _ => False) (by simp) (fun B' => ⟨fun h => ?_, ?_⟩) _ rfl
          · rcases hcases B' h with ⟨h, _⟩ | ⟨pre, e, post, hes, _, he, _⟩
            · exact h
            · exact absurd he (h2 e (by simp [hes]))
          · rintro rfl
            exact .andNone hf h2
        · simp only [h1, Option.getD_some]
          have hem : e ∈ es := by simp [hes]
          constructor
          · intro a ha
            obtain ⟨a', ha', rfl⟩ := List.mem_map.1 ha
            obtain ⟨B, hB, hb⟩ := (hgoe e hem).1 a' ha'
            exact ⟨B, .and hf hes hpre he hB, hb⟩
          · intro B hB
            rcases hcases B hB with ⟨_, h⟩ | ⟨pre', e', post', hes', hpre', he', hB'⟩
            · exact absurd he (h e hem)
            · have heq := first_unique (hes.symm.trans hes') hpre hpre' he he'
              subst heq
              obtain ⟨a, ha, hb⟩ := (hgoe e hem).2 B hB'
              exact ⟨_, List.mem_map.2 ⟨a, ha, rfl⟩, hb⟩
      | ref k => exact absurd hf (hnr k)
      | not e =>
        refine hempty (fun _ => False) (by simp) (fun B' => ⟨hleaf (by simp) (by simp) (by simp) B', ?_⟩) _ rfl
        rintro rfl
        exact .not hf
      | nodeConstraint c =>
        refine hempty (fun _ => False) (by simp) (fun B' => ⟨hleaf (by simp) (by simp) (by simp) B', ?_⟩) _ rfl
        rintro rfl
        exact .nodeConstraint hf
      | external =>
        refine hempty (fun _ => False) (by simp) (fun B' => ⟨hleaf (by simp) (by simp) (by simp) B', ?_⟩) _ rfl
        rintro rfl
        exact .external hf
      | empty =>
        refine hempty (fun _ => False) (by simp) (fun B' => ⟨hleaf (by simp) (by simp) (by simp) B', ?_⟩) _ rfl
        rintro rfl
        exact .empty hf

/-! ## At least one alternative -/

theorem crossMerge_ne {l r : List Alt} (hl : l ≠ []) (hr : r ≠ []) : crossMerge l r ≠ [] := by
  obtain ⟨a, ha⟩ := List.exists_mem_of_ne_nil _ hl
  obtain ⟨b, hb⟩ := List.exists_mem_of_ne_nil _ hr
  exact List.ne_nil_of_mem ((mem_crossMerge _ _ _).2 ⟨a, ha, b, hb, rfl⟩)

theorem altsAnd_ne (deref : Nat → Nat) (go : Nat → List Alt) (hgo : ∀ e, go e ≠ []) (es : List Nat)
    (main : Option (List Alt)) (cs : List Nat) (hm : ∀ m, main = some m → m ≠ []) :
    ∀ m, (altsAnd deref go es main cs).1 = some m → m ≠ [] := by
  induction es generalizing main cs with
  | nil => exact hm
  | cons e es ih =>
    cases main with
    | some m => simp only [altsAnd]; exact ih _ _ hm
    | none =>
      simp only [altsAnd]
      split
      · exact ih _ _ (by rintro m ⟨rfl⟩; exact hgo e)
      · exact ih _ _ (by simp)

theorem altsRec_ne {sch : Schema N P} (hne : NoEmptyOr sch) (n : Nat) (path : List Nat) (i : Nat) :
    altsRec sch n path i ≠ [] := by
  induction n generalizing path i with
  | zero => simp [altsRec]
  | succ n ih =>
    simp only [altsRec]
    generalize sch.deref i = j
    split
    · simp
    · have hgo := ih (j :: path)
      generalize altsRec sch n (j :: path) = go at hgo
      cases hf : sch.find j with
      | none => simp
      | some se =>
        cases se with
        | shape s =>
          simp only
          have : ∀ (es : List Nat) (acc : List Alt), acc ≠ [] →
              es.foldl (fun acc p => crossMerge acc (go p)) acc ≠ [] := by
            intro es
            induction es with
            | nil => exact fun _ h => h
            | cons e es ihe => exact fun acc h => ihe _ (crossMerge_ne h (hgo e))
          exact this _ _ (by simp)
        | or es =>
          simp only
          obtain ⟨e, he⟩ := List.exists_mem_of_ne_nil _ (hne j es hf)
          obtain ⟨a, ha⟩ := List.exists_mem_of_ne_nil _ (hgo e)
          exact List.ne_nil_of_mem (List.mem_flatMap.2 ⟨e, he, ha⟩)
        | and es =>
          simp only
          have h := altsAnd_ne sch.deref go hgo es none [] (by simp)
          cases hr : (altsAnd sch.deref go es none []).1 with
          | none => simp
          | some m => simpa using h m hr
        | _ => simp

end Shex
