import Verif.Shex.LemmasAltsSpec
import Verif.Shex.SpecAlts

/-!
# Lemmas: the constraints of the alternatives
-/

namespace Shex
open Rbe

variable {N P : Type}

theorem target_ref {sch : Schema N P} {i j : Nat} (h : sch.At i (.ref j)) (k : Nat) :
    Target sch i k ↔ Target sch j k := by
  constructor
  · intro ht
    cases ht with
    | stop h' => exact absurd h (h' j)
    | follow h' hk =>
      cases h'.symm.trans h
      exact hk
  · exact .follow h

theorem target_iff {sch : Schema N P} {rank : Nat → Nat} (hg : Grounded sch rank) (i k : Nat) :
    Target sch i k ↔ k = sch.deref i := by
  obtain ⟨h1, h2, _⟩ := deref_spec hg (fun x => Target sch x k) (fun a b h => target_ref h k) i
  rw [h2]
  constructor
  · intro h
    cases h with
    | stop _ => rfl
    | follow h _ => exact absurd h (h1 _)
  · rintro rfl
    exact .stop h1

/-- What a choice at a shape of a given form is. -/
theorem picks_at {sch : Schema N P} {j : Nat} {se : ShapeExpr N P} (hf : sch.At j se)
    {B K : Nat → Prop} {R : Nat → Nat → Prop} (h : Picks sch j B K R) :
    match se with
    | .shape s => ∃ B', PicksAll sch s.extends B' K R ∧ B = fun b => b = j ∨ B' b
    | .ref k => Picks sch k B K R
    | .or es => ∃ e ∈ es, Picks sch e B K R
    | .and es => (∃ pre e post K' R', es = pre ++ e :: post ∧ (∀ x ∈ pre, ¬ Bucketed sch x) ∧
          Bucketed sch e ∧ Picks sch e B K' R' ∧
          K = (fun k => K' k ∨ ∃ x ∈ pre ++ post, Target sch x k) ∧
          R = fun k b => R' k b ∨ (B b ∧ ∃ x ∈ pre ++ post, Target sch x k)) ∨
        ((∀ x ∈ es, ¬ Bucketed sch x) ∧ B = (fun _ => False) ∧
          K = (fun k => ∃ x ∈ es, Target sch x k) ∧ R = fun _ _ => False)
    | .empty => B = (fun _ => False) ∧ K = (fun _ => False) ∧ R = fun _ _ => False
    | _ => B = (fun _ => False) ∧ K = (fun k => k = j) ∧ R = fun _ _ => False := by
  cases h with
  | shape h hs => cases h.symm.trans hf; exact ⟨_, hs, rfl⟩
  | ref h hb => cases h.symm.trans hf; exact hb
  | or h he hb => cases h.symm.trans hf; exact ⟨_, he, hb⟩
  | and h hes hpre he hb =>
    cases h.symm.trans hf
    exact .inl ⟨_, _, _, _, _, hes, hpre, he, hb, rfl, rfl⟩
  | andNone h hes => cases h.symm.trans hf; exact .inr ⟨hes, rfl, rfl, rfl⟩
  | nodeConstraint h => cases h.symm.trans hf; exact ⟨rfl, rfl, rfl⟩
  | not h => cases h.symm.trans hf; exact ⟨rfl, rfl, rfl⟩
  | external h => cases h.symm.trans hf; exact ⟨rfl, rfl, rfl⟩
  | empty h => cases h.symm.trans hf; exact ⟨rfl, rfl, rfl⟩
  | absent h => exact absurd hf (h _)

theorem picks_ref {sch : Schema N P} {i j : Nat} (h : sch.At i (.ref j)) (B K : Nat → Prop)
    (R : Nat → Nat → Prop) : Picks sch i B K R ↔ Picks sch j B K R :=
  ⟨fun hp => picks_at h hp, .ref h⟩

/-- The list describes the choices at `i`. -/
def Depicts (sch : Schema N P) (i : Nat) (L : List Alt) : Prop :=
  (∀ a ∈ L, ∃ B K R, Picks sch i B K R ∧ Carries a B K R) ∧
    ∀ B K R, Picks sch i B K R → ∃ a ∈ L, Carries a B K R

theorem depicts_ref {sch : Schema N P} {i j : Nat} (h : sch.At i (.ref j)) (L : List Alt) :
    Depicts sch i L ↔ Depicts sch j L := by
  unfold Depicts
  simp only [picks_ref h]

theorem carries_merge {a c : Alt} {B K B' K' : Nat → Prop} {R R' : Nat → Nat → Prop}
    (h : Carries a B K R) (h' : Carries c B' K' R') :
    Carries (a.merge c) (fun b => B b ∨ B' b) (fun k => K k ∨ K' k) (fun k b => R k b ∨ R' k b) where
  once := by
    refine ⟨nodup_foldl_pushUnique _ h.once.1, ?_⟩
    simp only [Alt.merge, foldl_pushConstraint_keys]
    exact nodup_foldl_pushUnique _ h.once.2
  buckets b := by rw [mem_merge, h.buckets, h'.buckets]
  constraints k := by
    simp only [Alt.merge, foldl_pushConstraint_keys, mem_foldl_pushUnique]
    rw [h.constraints, h'.constraints]
  scopes k b := by
    show ScopeIn _ k b ↔ _
    simp only [Alt.merge, foldl_pushConstraint_scope]
    exact or_congr (h.scopes k b) (h'.scopes k b)

theorem withScoped_eq (a : Alt) (is : List Nat) :
    (a.withScoped is).constraints = (is.map fun c => (c, a.buckets)).foldl pushConstraint a.constraints := by
  simp [Alt.withScoped, List.foldl_map]

theorem scopeIn_const (is bs : List Nat) (k b : Nat) :
    ScopeIn (is.map fun c => (c, bs)) k b ↔ b ∈ bs ∧ k ∈ is := by
  simp only [ScopeIn, List.mem_map, Prod.mk.injEq]
  constructor
  · rintro ⟨_, ⟨c, hc, rfl, rfl⟩, hb⟩; exact ⟨hb, hc⟩
  · rintro ⟨hb, hc⟩; exact ⟨bs, ⟨k, hc, rfl, rfl⟩, hb⟩

theorem carries_scoped {a : Alt} {B K : Nat → Prop} {R : Nat → Nat → Prop} (h : Carries a B K R)
    (is : List Nat) (Q : Nat → Prop) (hQ : ∀ k, k ∈ is ↔ Q k) :
    Carries (a.withScoped is) B (fun k => K k ∨ Q k) (fun k b => R k b ∨ (B b ∧ Q k)) where
  once := by
    refine ⟨h.once.1, ?_⟩
    rw [withScoped_eq, foldl_pushConstraint_keys]
    exact nodup_foldl_pushUnique _ h.once.2
  buckets := h.buckets
  constraints k := by
    rw [withScoped_eq, foldl_pushConstraint_keys, mem_foldl_pushUnique, h.constraints, List.map_map]
    simp [Function.comp_def, hQ]
  scopes k b := by
    show ScopeIn _ k b ↔ _
    rw [withScoped_eq, foldl_pushConstraint_scope, scopeIn_const, h.buckets, hQ]
    exact or_congr (h.scopes k b) Iff.rfl

theorem crossMerge_depicts {sch : Schema N P} (go : Nat → List Alt) (es : List Nat)
    (h : ∀ e ∈ es, Depicts sch e (go e)) (acc : List Alt)
    (hacc : ∀ a ∈ acc, ∃ B K R, Carries a B K R) :
    (∀ a ∈ es.foldl (fun acc p => crossMerge acc (go p)) acc, ∃ a0 ∈ acc, ∃ B K R,
      PicksAll sch es B K R ∧ ∀ B0 K0 R0, Carries a0 B0 K0 R0 →
        Carries a (fun b => B0 b ∨ B b) (fun k => K0 k ∨ K k) (fun k b => R0 k b ∨ R k b)) ∧
    ∀ a0 ∈ acc, ∀ B K R, PicksAll sch es B K R →
      ∃ a ∈ es.foldl (fun acc p => crossMerge acc (go p)) acc, ∀ B0 K0 R0, Carries a0 B0 K0 R0 →
        Carries a (fun b => B0 b ∨ B b) (fun k => K0 k ∨ K k) (fun k b => R0 k b ∨ R k b) := by
  induction es generalizing acc with
  | nil =>
    simp only [List.foldl_nil]
    refine ⟨fun a ha => ⟨a, ha, _, _, _, .nil, fun B K R hc => ?_⟩, fun a0 ha0 B K R hB => ?_⟩
    · simpa using hc
    · cases hB
      exact ⟨a0, ha0, fun B K R hc => by simpa using hc⟩
  | cons e es ih =>
    simp only [List.foldl_cons]
    obtain ⟨d1, d2⟩ := h e (by simp)
    obtain ⟨h1, h2⟩ := ih (fun x hx => h x (by simp [hx])) (crossMerge acc (go e)) (by
      intro m hm
      obtain ⟨a0, ha0, c, hc, rfl⟩ := (mem_crossMerge _ _ _).1 hm
      obtain ⟨B, K, R, hca⟩ := hacc a0 ha0
      obtain ⟨B', K', R', _, hcc⟩ := d1 c hc
      exact ⟨_, _, _, carries_merge hca hcc⟩)
    constructor
    · intro a ha
      obtain ⟨a1, ha1, B', K', R', hB', hb'⟩ := h1 a ha
      obtain ⟨a0, ha0, c, hc, rfl⟩ := (mem_crossMerge _ _ _).1 ha1
      obtain ⟨B, K, R, hB, hb⟩ := d1 c hc
      refine ⟨a0, ha0, _, _, _, .cons hB hB', fun B0 K0 R0 h0 => ?_⟩
      have := hb' _ _ _ (carries_merge h0 hb)
      simpa only [or_assoc] using this
    · intro a0 ha0 B K R hB
      cases hB with
      | cons hB hB' =>
        obtain ⟨c, hc, hb⟩ := d2 _ _ _ hB
        obtain ⟨a, ha, hb'⟩ := h2 (a0.merge c) ((mem_crossMerge _ _ _).2 ⟨a0, ha0, c, hc, rfl⟩) _ _ _ hB'
        refine ⟨a, ha, fun B0 K0 R0 h0 => ?_⟩
        have := hb' _ _ _ (carries_merge h0 hb)
        simpa only [or_assoc] using this

theorem altsAnd_rest_some (deref : Nat → Nat) (go : Nat → List Alt) (es : List Nat) (m : List Alt)
    (cs : List Nat) : altsAnd deref go es (some m) cs = (some m, cs ++ es.map deref) := by
  induction es generalizing cs with
  | nil => simp [altsAnd]
  | cons e es ih => simp [altsAnd, ih]

theorem altsAnd_rest (sch : Schema N P) (deref : Nat → Nat) (go : Nat → List Alt) (es : List Nat)
    (h : ∀ e ∈ es, (go e).any (fun a => !a.buckets.isEmpty) = true ↔ Bucketed sch e) (cs : List Nat) :
    (altsAnd deref go es none cs = (none, cs ++ es.map deref) ∧ ∀ e ∈ es, ¬ Bucketed sch e) ∨
      ∃ pre e post, es = pre ++ e :: post ∧ (∀ x ∈ pre, ¬ Bucketed sch x) ∧ Bucketed sch e ∧
        altsAnd deref go es none cs = (some (go e), cs ++ (pre ++ post).map deref) := by
  induction es generalizing cs with
  | nil => exact Or.inl ⟨by simp [altsAnd], by simp⟩
  | cons e es ih =>
    simp only [altsAnd]
    by_cases he : (go e).any (fun a => !a.buckets.isEmpty) = true
    · rw [if_pos he]
      exact Or.inr ⟨[], e, es, rfl, by simp, (h e (by simp)).1 he, altsAnd_rest_some _ _ _ _ _⟩
    · rw [if_neg he]
      have hnb : ¬ Bucketed sch e := fun hb => he ((h e (by simp)).2 hb)
      rcases ih (fun x hx => h x (by simp [hx])) (cs ++ [deref e]) with ⟨h1, h2⟩ | ⟨pre, e', post, rfl, hp, hb, h1⟩
      · refine Or.inl ⟨by rw [h1]; simp, ?_⟩
        intro x hx
        rcases List.mem_cons.1 hx with rfl | hx
        · exact hnb
        · exact h2 x hx
      · refine Or.inr ⟨e :: pre, e', post, rfl, ?_, hb, by rw [h1]; simp⟩
        intro x hx
        rcases List.mem_cons.1 hx with rfl | hx
        · exact hnb
        · exact hp x hx

theorem first_unique_split {Q : Nat → Prop} {pre pre' post post' : List Nat} {e e' : Nat}
    (h : pre ++ e :: post = pre' ++ e' :: post') (hp : ∀ x ∈ pre, ¬ Q x) (hp' : ∀ x ∈ pre', ¬ Q x)
    (he : Q e) (he' : Q e') : pre = pre' ∧ e = e' ∧ post = post' := by
  induction pre generalizing pre' with
  | nil =>
    cases pre' with
    | nil => simp at h; exact ⟨rfl, h⟩
    | cons a pre' =>
      simp at h
      exact absurd (h.1 ▸ he) (hp' a (by simp))
  | cons a pre ih =>
    cases pre' with
    | nil =>
      simp at h
      exact absurd (h.1 ▸ he') (hp a (by simp))
    | cons b pre' =>
      simp at h
      obtain ⟨h1, h2, h3⟩ := ih h.2 (fun x hx => hp x (by simp [hx])) (fun x hx => hp' x (by simp [hx]))
      exact ⟨by rw [h.1, h1], h2, h3⟩

theorem carries_dflt : Carries Alt.dflt (fun _ => False) (fun _ => False) (fun _ _ => False) :=
  ⟨by simp [Alt.dflt], by simp [Alt.dflt], by simp [Alt.dflt], by simp [Alt.dflt]⟩

theorem carries_constraint (i : Nat) :
    Carries (Alt.withConstraint i) (fun _ => False) (fun k => k = i) (fun _ _ => False) :=
  ⟨by simp [Alt.withConstraint], by simp [Alt.withConstraint], by simp [Alt.withConstraint],
    by simp [Alt.withConstraint]⟩

theorem carries_bucket (i : Nat) :
    Carries (Alt.withBucket i) (fun b => b = i) (fun _ => False) (fun _ _ => False) :=
  ⟨by simp [Alt.withBucket], by simp [Alt.withBucket], by simp [Alt.withBucket],
    by simp [Alt.withBucket]⟩

theorem depicts_one {sch : Schema N P} {j : Nat} {a : Alt} {B K : Nat → Prop} {R : Nat → Nat → Prop}
    (hc : Carries a B K R) (hp : Picks sch j B K R)
    (hu : ∀ B' K' R', Picks sch j B' K' R' → B' = B ∧ K' = K ∧ R' = R) : Depicts sch j [a] := by
  constructor
  · intro x hx
    rw [List.mem_singleton] at hx
    subst hx
    exact ⟨B, K, R, hp, hc⟩
  · intro B' K' R' h
    obtain ⟨rfl, rfl, rfl⟩ := hu _ _ _ h
    exact ⟨a, by simp, hc⟩

theorem altsRec_depicts {sch : Schema N P} {rank : Nat → Nat} (hg : Grounded sch rank)
    (hne : NoEmptyOr sch) (n : Nat) (path : List Nat) (i : Nat) (hn : path.Nodup)
    (hs : ∀ x ∈ path, sch.find x ≠ none ∧ rank i < rank x)
    (hl : path.length + n = sch.shapes.length + 1) : Depicts sch i (altsRec sch n path i) := by
  induction n generalizing path i with
  | zero =>
    have := length_found hn fun x hx => (hs x hx).1
    omega
  | succ n ih =>
    simp only [altsRec]
    obtain ⟨hnr, _, hrk⟩ := deref_spec hg (fun _ => True) (fun _ _ _ => Iff.rfl) i
    have hmv : ∀ L, Depicts sch i L ↔ Depicts sch (sch.deref i) L := fun L =>
      (deref_spec hg (fun x => Depicts sch x L) (fun a b h => depicts_ref h L) i).2.1
    rw [hmv]
    generalize sch.deref i = j at hnr hrk
    have hj : j ∉ path := fun h => by
      have := (hs j h).2
      omega
    rw [if_neg hj]
    have hside : sch.find j ≠ none → ∀ e, rank e < rank j →
        ∀ x ∈ j :: path, sch.find x ≠ none ∧ rank e < rank x := by
      intro hf e he x hx
      rcases List.mem_cons.1 hx with rfl | hx
      · exact ⟨hf, he⟩
      · exact ⟨(hs x hx).1, by have := (hs x hx).2; omega⟩
    have hgo : sch.find j ≠ none → ∀ e, rank e < rank j →
        Depicts sch e (altsRec sch n (j :: path) e) ∧ Describes sch e (altsRec sch n (j :: path) e) :=
      fun hf e he => ⟨ih (j :: path) e (List.nodup_cons.2 ⟨hj, hn⟩) (hside hf e he) (by simp; omega),
        altsRec_spec hg hne n (j :: path) e (List.nodup_cons.2 ⟨hj, hn⟩) (hside hf e he) (by simp; omega)⟩
    generalize altsRec sch n (j :: path) = go at hgo
    cases hf : sch.find j with
    | none =>
      refine depicts_one carries_dflt (.absent (by simp [Schema.At, hf])) fun B' K' R' h => ?_
      cases h with
      | absent _ => exact ⟨rfl, rfl, rfl⟩
      | shape h _ => simp [Schema.At, hf] at h
      | ref h _ => simp [Schema.At, hf] at h
      | or h _ _ => simp [Schema.At, hf] at h
      | and h _ _ _ _ => simp [Schema.At, hf] at h
      | andNone h _ => simp [Schema.At, hf] at h
      | nodeConstraint h => simp [Schema.At, hf] at h
      | not h => simp [Schema.At, hf] at h
      | external h => simp [Schema.At, hf] at h
      | empty h => simp [Schema.At, hf] at h
    | some se =>
      have hgo := hgo (by simp [hf])
      cases se with
      | shape s =>
        obtain ⟨c1, c2⟩ := crossMerge_depicts go s.extends
          (fun e he => (hgo e (hg.shape j s hf e he)).1) [Alt.withBucket j]
          (by intro a ha; rw [List.mem_singleton] at ha; subst ha; exact ⟨_, _, _, carries_bucket j⟩)
        constructor
        · intro a ha
          obtain ⟨a0, ha0, B, K, R, hB, hb⟩ := c1 a ha
          rw [List.mem_singleton] at ha0
          subst ha0
          refine ⟨_, _, _, .shape hf hB, ?_⟩
          simpa using hb _ _ _ (carries_bucket j)
        · intro B K R hB
          obtain ⟨B', hB', rfl⟩ := picks_at hf hB
          obtain ⟨a, ha, hb⟩ := c2 (Alt.withBucket j) (by simp) _ _ _ hB'
          refine ⟨a, ha, ?_⟩
          simpa using hb _ _ _ (carries_bucket j)
      | or es =>
        constructor
        · intro a ha
          obtain ⟨e, he, ha⟩ := List.mem_flatMap.1 ha
          obtain ⟨B, K, R, hB, hb⟩ := (hgo e (hg.or j es hf e he)).1.1 a ha
          exact ⟨B, K, R, .or hf he hB, hb⟩
        · intro B K R hB
          obtain ⟨e, he, hB⟩ := picks_at hf hB
          obtain ⟨a, ha, hb⟩ := (hgo _ (hg.or j es hf _ he)).1.2 _ _ _ hB
          exact ⟨a, List.mem_flatMap.2 ⟨_, he, ha⟩, hb⟩
      | and es =>
        have hgoe := fun e he => hgo e (hg.and j es hf e he)
        have hany : ∀ e ∈ es, (go e).any (fun a => !a.buckets.isEmpty) = true ↔ Bucketed sch e :=
          fun e he => any_buckets hg hne (hgoe e he).2
        have htarget : ∀ (l : List Nat) (k : Nat), k ∈ l.map sch.deref ↔ ∃ x ∈ l, Target sch x k := by
          intro l k
          rw [List.mem_map]
          exact exists_congr fun x => and_congr_right fun _ => by rw [target_iff hg, eq_comm]
        rcases altsAnd_rest sch sch.deref go es hany [] with ⟨h1, h2⟩ | ⟨pre, e, post, hes, hpre, he, h1⟩
        · simp only [h1, Option.getD_none, List.map_cons, List.map_nil, List.nil_append]
          refine depicts_one (B := fun _ => False) (K := fun k => ∃ x ∈ es, Target sch x k)
            (R := fun _ _ => False) ?_ (.andNone hf h2) fun B' K' R' h => ?_
          · simpa using carries_scoped carries_dflt (es.map sch.deref) _ (htarget es)
          · rcases picks_at hf h with ⟨pre, e, post, _, _, hes, _, he, _⟩ | ⟨_, h1, h2, h3⟩
            · exact absurd he (h2 e (by simp [hes]))
            · exact ⟨h1, h2, h3⟩
        · simp only [h1, Option.getD_some, List.nil_append]
          have hem : e ∈ es := by simp [hes]
          constructor
          · intro a ha
            obtain ⟨a', ha', rfl⟩ := List.mem_map.1 ha
            obtain ⟨B, K, R, hB, hb⟩ := (hgoe e hem).1.1 a' ha'
            exact ⟨_, _, _, .and hf hes hpre he hB, carries_scoped hb _ _ (htarget _)⟩
          · intro B K R hB
            rcases picks_at hf hB with ⟨pre', e', post', K', R', hes', hpre', he', hB', rfl, rfl⟩ | ⟨h, _⟩
            · obtain ⟨rfl, rfl, rfl⟩ := first_unique_split (hes.symm.trans hes') hpre hpre' he he'
              obtain ⟨a, ha, hb⟩ := (hgoe e hem).1.2 _ _ _ hB'
              exact ⟨_, List.mem_map.2 ⟨a, ha, rfl⟩, carries_scoped hb _ _ (htarget _)⟩
            · exact absurd he (h e hem)
      | ref k => exact absurd hf (hnr k)
      | not e => exact depicts_one (carries_constraint j) (.not hf) fun _ _ _ h => picks_at hf h
      | nodeConstraint c =>
        exact depicts_one (carries_constraint j) (.nodeConstraint hf) fun _ _ _ h => picks_at hf h
      | external =>
        exact depicts_one (carries_constraint j) (.external hf) fun _ _ _ h => picks_at hf h
      | empty => exact depicts_one carries_dflt (.empty hf) fun _ _ _ h => picks_at hf h

end Shex
