import Verif.Rbe.SpecTable
import Verif.Rbe.LemmasFeas
import Verif.Rbe.PropsInterval

/-!
# Helper lemmas: pending maps, conditions and tables
-/

set_option linter.unusedSectionVars false
set_option linter.unusedSimpArgs false

namespace Rbe

section Assoc
variable {X Y : Type} [DecidableEq X]

theorem ex_upsert (Q : Y → Prop) (N : Prop) (x x' : X) (d : Y) (f : Y → Y) (l : List (X × Y))
    (hd : Q (f d) ↔ N) (hf : ∀ y, Q (f y) ↔ Q y ∨ N) :
    (∃ y, (x', y) ∈ upsert x d f l ∧ Q y) ↔ (∃ y, (x', y) ∈ l ∧ Q y) ∨ (x' = x ∧ N) := by
  induction l with
  | nil => simp [upsert, hd]
  | cons e l ih =>
    obtain ⟨z, v⟩ := e
    simp only [upsert]
    split
    · rename_i hz
      subst hz
      simp only [List.mem_cons, Prod.mk.injEq]
      constructor
      · rintro ⟨y, (⟨rfl, rfl⟩ | h), hq⟩
        · rcases (hf v).1 hq with h | h
          · exact Or.inl ⟨v, Or.inl ⟨rfl, rfl⟩, h⟩
          · exact Or.inr ⟨rfl, h⟩
        · exact Or.inl ⟨y, Or.inr h, hq⟩
      · rintro (⟨y, (⟨rfl, rfl⟩ | h), hq⟩ | ⟨rfl, h⟩)
        · exact ⟨f y, Or.inl ⟨rfl, rfl⟩, (hf y).2 (Or.inl hq)⟩
        · exact ⟨y, Or.inr h, hq⟩
        · exact ⟨f v, Or.inl ⟨rfl, rfl⟩, (hf v).2 (Or.inr h)⟩
    · simp only [List.mem_cons, Prod.mk.injEq]
      constructor
      · rintro ⟨y, (⟨rfl, rfl⟩ | h), hq⟩
        · exact Or.inl ⟨y, Or.inl ⟨rfl, rfl⟩, hq⟩
        · rcases ih.1 ⟨y, h, hq⟩ with ⟨y, h, hq⟩ | h
          · exact Or.inl ⟨y, Or.inr h, hq⟩
          · exact Or.inr h
      · rintro (⟨y, (⟨rfl, rfl⟩ | h), hq⟩ | h)
        · exact ⟨y, Or.inl ⟨rfl, rfl⟩, hq⟩
        · obtain ⟨y, h, hq⟩ := ih.2 (Or.inl ⟨y, h, hq⟩)
          exact ⟨y, Or.inr h, hq⟩
        · obtain ⟨y, h, hq⟩ := ih.2 (Or.inr h)
          exact ⟨y, Or.inr h, hq⟩

theorem alookup_upsert (x x' : X) (d : Y) (f : Y → Y) (l : List (X × Y)) :
    alookup x' (upsert x d f l) =
      if x' = x then some (f ((alookup x l).getD d)) else alookup x' l := by
  induction l with
  | nil =>
    simp only [upsert, alookup]
    by_cases h : x = x'
    · simp [h]
    · have : ¬ x' = x := fun h' => h h'.symm
      simp [h, this]
  | cons e l ih =>
    obtain ⟨z, v⟩ := e
    simp only [upsert]
    by_cases hz : z = x
    · subst hz
      simp only [if_pos, alookup, Option.getD_some]
      by_cases h : z = x'
      · subst h; simp
      · have : ¬ x' = z := fun h' => h h'.symm
        simp [h, this]
    · simp only [if_neg hz, alookup, ih]
      by_cases h : z = x'
      · subst h; simp [hz]
      · simp [h]

theorem mem_sinsert (x y : X) (s : List X) : y ∈ sinsert x s ↔ y ∈ s ∨ y = x := by
  unfold sinsert
  split
  · rename_i h
    constructor
    · exact Or.inl
    · rintro (h' | rfl)
      · exact h'
      · exact h
  · simp

theorem nodup_sinsert {x : X} {s : List X} (h : s.Nodup) : (sinsert x s).Nodup := by
  unfold sinsert
  split
  · exact h
  · rename_i hx
    rw [List.nodup_append]
    refine ⟨h, by simp, ?_⟩
    intro a ha b hb hab
    simp only [List.mem_singleton] at hb
    subst hb
    subst hab
    exact hx ha

theorem mem_foldl_sinsert (l s : List X) (y : X) :
    y ∈ l.foldl (fun acc k => sinsert k acc) s ↔ y ∈ s ∨ y ∈ l := by
  induction l generalizing s with
  | nil => simp
  | cons a l ih =>
    simp only [List.foldl_cons, ih, mem_sinsert, List.mem_cons, or_assoc]

end Assoc

section Pend
variable {K V R : Type} [DecidableEq K] [DecidableEq V] [DecidableEq R]

theorem mergeRefs_dep (a b : List (R × List K)) (r : R) :
    (∃ ks, (r, ks) ∈ Pending.mergeRefs a b) ↔ (∃ ks, (r, ks) ∈ a) ∨ (∃ ks, (r, ks) ∈ b) := by
  unfold Pending.mergeRefs
  induction b generalizing a with
  | nil => simp
  | cons e b ih =>
    rw [List.foldl_cons, ih]
    have := ex_upsert (fun _ => True) True e.1 r []
      (fun ks : List K => e.2.foldl (fun acc k => sinsert k acc) ks) a (by simp) (by simp)
    simp only [and_true] at this
    rw [this, or_assoc]
    refine or_congr Iff.rfl ?_
    simp only [List.mem_cons]
    constructor
    · rintro (rfl | ⟨ks, h⟩)
      · exact ⟨e.2, Or.inl rfl⟩
      · exact ⟨ks, Or.inr h⟩
    · rintro ⟨ks, (h | h)⟩
      · exact Or.inl (by rw [← h])
      · exact Or.inr ⟨ks, h⟩

theorem mergeRefs_key (a b : List (R × List K)) (r : R) (k : K) :
    (∃ ks, (r, ks) ∈ Pending.mergeRefs a b ∧ k ∈ ks) ↔
      (∃ ks, (r, ks) ∈ a ∧ k ∈ ks) ∨ (∃ ks, (r, ks) ∈ b ∧ k ∈ ks) := by
  unfold Pending.mergeRefs
  induction b generalizing a with
  | nil => simp
  | cons e b ih =>
    rw [List.foldl_cons, ih]
    have := ex_upsert (fun ks : List K => k ∈ ks) (k ∈ e.2) e.1 r []
      (fun ks : List K => e.2.foldl (fun acc k => sinsert k acc) ks) a
      (by simp [mem_foldl_sinsert]) (fun y => mem_foldl_sinsert _ _ _)
    rw [this, or_assoc]
    refine or_congr Iff.rfl ?_
    simp only [List.mem_cons]
    constructor
    · rintro (⟨rfl, h⟩ | ⟨ks, h, hk⟩)
      · exact ⟨e.2, Or.inl rfl, h⟩
      · exact ⟨ks, Or.inr h, hk⟩
    · rintro ⟨ks, (h | h), hk⟩
      · exact Or.inl (by rw [← h]; exact ⟨rfl, hk⟩)
      · exact Or.inr ⟨ks, h, hk⟩

theorem dep_iff (p : Pending K V R) (v : V) (r : R) :
    p.Dep v r ↔ ∃ rs, (v, rs) ∈ p ∧ ∃ ks, (r, ks) ∈ rs := by
  unfold Pending.Dep
  constructor
  · rintro ⟨rs, ks, h1, h2⟩; exact ⟨rs, h1, ks, h2⟩
  · rintro ⟨rs, h1, ks, h2⟩; exact ⟨rs, ks, h1, h2⟩

theorem key_iff (p : Pending K V R) (v : V) (r : R) (k : K) :
    p.Key v r k ↔ ∃ rs, (v, rs) ∈ p ∧ ∃ ks, (r, ks) ∈ rs ∧ k ∈ ks := by
  unfold Pending.Key
  constructor
  · rintro ⟨rs, ks, h1, h2, h3⟩; exact ⟨rs, h1, ks, h2, h3⟩
  · rintro ⟨rs, h1, ks, h2, h3⟩; exact ⟨rs, ks, h1, h2, h3⟩

theorem dep_merge (p q : Pending K V R) (v : V) (r : R) :
    (p.merge q).Dep v r ↔ p.Dep v r ∨ q.Dep v r := by
  unfold Pending.merge
  induction q generalizing p with
  | nil => simp [dep_iff]
  | cons e q ih =>
    rw [List.foldl_cons, ih]
    have := ex_upsert (fun rs : List (R × List K) => ∃ ks, (r, ks) ∈ rs) (∃ ks, (r, ks) ∈ e.2) e.1 v []
      (fun rs => Pending.mergeRefs rs e.2) p
      (by rw [mergeRefs_dep]; simp) (fun y => mergeRefs_dep _ _ _)
    rw [dep_iff, dep_iff, dep_iff, dep_iff, this, or_assoc]
    refine or_congr Iff.rfl ?_
    simp only [List.mem_cons]
    constructor
    · rintro (⟨rfl, h⟩ | ⟨ks, h, hk⟩)
      · exact ⟨e.2, Or.inl rfl, h⟩
      · exact ⟨ks, Or.inr h, hk⟩
    · rintro ⟨ks, (h | h), hk⟩
      · exact Or.inl (by rw [← h]; exact ⟨rfl, hk⟩)
      · exact Or.inr ⟨ks, h, hk⟩

theorem key_merge (p q : Pending K V R) (v : V) (r : R) (k : K) :
    (p.merge q).Key v r k ↔ p.Key v r k ∨ q.Key v r k := by
  unfold Pending.merge
  induction q generalizing p with
  | nil => simp [key_iff]
  | cons e q ih =>
    rw [List.foldl_cons, ih]
    have := ex_upsert (fun rs : List (R × List K) => ∃ ks, (r, ks) ∈ rs ∧ k ∈ ks)
      (∃ ks, (r, ks) ∈ e.2 ∧ k ∈ ks) e.1 v []
      (fun rs => Pending.mergeRefs rs e.2) p
      (by rw [mergeRefs_key]; simp) (fun y => mergeRefs_key _ _ _ _)
    rw [key_iff, key_iff, key_iff, key_iff, this, or_assoc]
    refine or_congr Iff.rfl ?_
    simp only [List.mem_cons]
    constructor
    · rintro (⟨rfl, h⟩ | ⟨ks, h, hk⟩)
      · exact ⟨e.2, Or.inl rfl, h⟩
      · exact ⟨ks, Or.inr h, hk⟩
    · rintro ⟨ks, (h | h), hk⟩
      · exact Or.inl (by rw [← h]; exact ⟨rfl, hk⟩)
      · exact Or.inr ⟨ks, h, hk⟩

theorem dep_empty (v : V) (r : R) : ¬ (Pending.empty : Pending K V R).Dep v r := by
  simp [dep_iff, Pending.empty]

theorem key_empty (v : V) (r : R) (k : K) : ¬ (Pending.empty : Pending K V R).Key v r k := by
  simp [key_iff, Pending.empty]

theorem dep_fromPair (v w : V) (r s : R) :
    (Pending.fromPair v r : Pending K V R).Dep w s ↔ w = v ∧ s = r := by
  simp [dep_iff, Pending.fromPair, Pending.insert, Pending.empty, upsert]

theorem key_fromPair (v w : V) (r s : R) (k : K) :
    ¬ (Pending.fromPair v r : Pending K V R).Key w s k := by
  simp [key_iff, Pending.fromPair, Pending.insert, Pending.empty, upsert]

theorem dep_annotate (p : Pending K V R) (k : K) (v : V) (r : R) :
    (p.annotateKey k).Dep v r ↔ p.Dep v r := by
  simp only [dep_iff, Pending.annotateKey, List.mem_map, Prod.mk.injEq]
  constructor
  · rintro ⟨rs, ⟨e, he, rfl, rfl⟩, ks, hk⟩
    rw [List.mem_map] at hk
    obtain ⟨f, hf, hfe⟩ := hk
    injection hfe with h1 h2
    subst h1
    exact ⟨e.2, he, f.2, hf⟩
  · rintro ⟨rs, h, ks, hk⟩
    exact ⟨_, ⟨(v, rs), h, rfl, rfl⟩, _, List.mem_map.2 ⟨(r, ks), hk, rfl⟩⟩

theorem key_annotate (p : Pending K V R) (k : K) (v : V) (r : R) (k' : K) :
    (p.annotateKey k).Key v r k' ↔ p.Key v r k' ∨ (p.Dep v r ∧ k' = k) := by
  simp only [dep_iff, key_iff, Pending.annotateKey, List.mem_map, Prod.mk.injEq]
  constructor
  · rintro ⟨rs, ⟨e, he, rfl, rfl⟩, ks, hk, hkk⟩
    rw [List.mem_map] at hk
    obtain ⟨f, hf, hfe⟩ := hk
    injection hfe with h1 h2
    subst h1
    subst h2
    rcases (mem_sinsert _ _ _).1 hkk with h | h
    · exact Or.inl ⟨e.2, he, f.2, hf, h⟩
    · exact Or.inr ⟨⟨e.2, he, f.2, hf⟩, h⟩
  · rintro (⟨rs, h, ks, hk, hkk⟩ | ⟨⟨rs, h, ks, hk⟩, rfl⟩)
    · exact ⟨_, ⟨(v, rs), h, rfl, rfl⟩, _, List.mem_map.2 ⟨(r, ks), hk, rfl⟩,
        (mem_sinsert _ _ _).2 (Or.inl hkk)⟩
    · exact ⟨_, ⟨(v, rs), h, rfl, rfl⟩, _, List.mem_map.2 ⟨(r, ks), hk, rfl⟩,
        (mem_sinsert _ _ _).2 (Or.inr rfl)⟩

end Pend

section Conds
variable {K V C R : Type} [DecidableEq K] [DecidableEq V] [DecidableEq R]

theorem Cond.ind {P : Cond K V C R → Prop} (hs : ∀ k, P (.single k)) (hr : ∀ r, P (.ref r))
    (ha : ∀ cs, (∀ c ∈ cs, P c) → P (.and cs)) : ∀ c, P c := by
  intro c
  refine Cond.rec (motive_1 := P) (motive_2 := fun cs => ∀ c ∈ cs, P c) hs hr ha ?_ ?_ c
  · intro v hv; cases hv
  · intro v vs hv hvs w hw
    cases hw with
    | head => exact hv
    | tail _ h => exact hvs w h

/-- What a successful evaluation of a condition returns. -/
theorem matches_spec (v : V) (c : C) (cond : Cond K V C R) :
    (cond.Sat v c → ∃ p, cond.matches v c = some p ∧
      (∀ w r, p.Dep w r ↔ cond.Deps v c w r) ∧ (∀ w r k, p.Key w r k ↔ cond.DepKeys v c w r k)) ∧
    (¬ cond.Sat v c → cond.matches v c = none) := by
  induction cond using Cond.ind with
  | hs kind =>
    cases kind with
    | none =>
      refine ⟨fun _ => ⟨_, rfl, fun w r => ?_, fun w r k => ?_⟩, fun h => (h (by simp [Cond.Sat])).elim⟩
      · simp [Cond.Deps, dep_empty]
      · simp [Cond.DepKeys, key_empty]
    | some kind =>
      constructor
      · intro h
        simp only [Cond.Sat] at h
        obtain ⟨p, hp⟩ := Option.ne_none_iff_exists'.1 h
        exact ⟨p, hp, fun w r => by simp [Cond.Deps, hp], fun w r k => by simp [Cond.DepKeys, hp]⟩
      · intro h
        simp only [Cond.Sat, not_not] at h
        exact h
  | hr r =>
    refine ⟨fun _ => ⟨_, rfl, fun w s => ?_, fun w s k => ?_⟩, fun h => (h (by simp [Cond.Sat])).elim⟩
    · simp [Cond.Deps, dep_fromPair]
    · simp [Cond.DepKeys, key_fromPair]
  | ha cs ih =>
    have key : ∀ (ds : List (Cond K V C R)) (cur : Pending K V R), (∀ d ∈ ds, d ∈ cs) →
        (Cond.SatAll v c ds → ∃ p, Cond.matchesAll v c cur ds = some p ∧
          (∀ w r, p.Dep w r ↔ cur.Dep w r ∨ Cond.DepsAny v c w r ds) ∧
          (∀ w r k, p.Key w r k ↔ cur.Key w r k ∨ Cond.DepKeysAny v c w r k ds)) ∧
        (¬ Cond.SatAll v c ds → Cond.matchesAll v c cur ds = none) := by
      intro ds
      induction ds with
      | nil =>
        intro cur _
        refine ⟨fun _ => ⟨cur, rfl, fun w r => ?_, fun w r k => ?_⟩, fun h => (h (by simp [Cond.SatAll])).elim⟩
        · simp [Cond.DepsAny]
        · simp [Cond.DepKeysAny]
      | cons d ds ihd =>
        intro cur hsub
        have hd := ih d (hsub d (by simp))
        constructor
        · rintro ⟨h1, h2⟩
          obtain ⟨p, hp, hdep, hkey⟩ := hd.1 h1
          obtain ⟨q, hq, qdep, qkey⟩ := (ihd (cur.merge p) (fun e he => hsub e (by simp [he]))).1 h2
          refine ⟨q, ?_, fun w r => ?_, fun w r k => ?_⟩
          · simp only [Cond.matchesAll, hp, hq]
          · rw [qdep, dep_merge, hdep, Cond.DepsAny, or_assoc]
          · rw [qkey, key_merge, hkey, Cond.DepKeysAny, or_assoc]
        · intro h
          simp only [Cond.matchesAll]
          by_cases h1 : d.Sat v c
          · obtain ⟨p, hp, _⟩ := hd.1 h1
            simp only [hp]
            exact (ihd (cur.merge p) (fun e he => hsub e (by simp [he]))).2 fun h2 => h ⟨h1, h2⟩
          · rw [hd.2 h1]
    have := key cs Pending.empty (fun d hd => hd)
    constructor
    · intro h
      obtain ⟨p, hp, h1, h2⟩ := this.1 h
      refine ⟨p, hp, fun w r => ?_, fun w r k => ?_⟩
      · rw [h1]; simp [dep_empty, Cond.Deps]
      · rw [h2]; simp [key_empty, Cond.DepKeys]
    · exact this.2

theorem matches_isSome (v : V) (c : C) (cond : Cond K V C R) :
    (cond.matches v c).isSome = true ↔ cond.Sat v c := by
  have := matches_spec v c cond
  by_cases h : cond.Sat v c
  · obtain ⟨p, hp, _⟩ := this.1 h
    simp [hp, h]
  · simp [this.2 h, h]

end Conds

section Nullable
variable {A B : Type}

theorem condNullable_map (f : A → B) (e : Expr A) : (e.map f).condNullable = e.condNullable := by
  induction e using Expr.ind with
  | hfail => rfl
  | hempty => rfl
  | hsym v c => rfl
  | hand vs ih =>
    simp only [Expr.map, Expr.condNullable]
    induction vs with
    | nil => rfl
    | cons v vs ihv =>
      simp only [Expr.mapList, Expr.condNullableAll, ih v (by simp),
        ihv fun w hw => ih w (by simp [hw])]
  | hor vs ih =>
    simp only [Expr.map, Expr.condNullable]
    induction vs with
    | nil => rfl
    | cons v vs ihv =>
      simp only [Expr.mapList, Expr.condNullableAny, ih v (by simp),
        ihv fun w hw => ih w (by simp [hw])]
  | hstar v ih => rfl
  | hplus v ih => simp only [Expr.map, Expr.condNullable, ih]
  | hrep v c ih => simp only [Expr.map, Expr.condNullable, ih]

theorem minMax_of_sane (e : Expr A) (h : Sane e) : MinMax e := by
  induction e using Expr.ind with
  | hfail => exact h
  | hempty => exact h
  | hsym v c => exact h
  | hand vs ih =>
    simp only [MinMax, Sane] at *
    induction vs with
    | nil => simp [MinMaxList]
    | cons v vs ihv => exact ⟨ih v (by simp) h.1, ihv (fun w hw => ih w (by simp [hw])) h.2⟩
  | hor vs ih =>
    simp only [MinMax, Sane] at *
    replace h := h.2
    induction vs with
    | nil => simp [MinMaxList]
    | cons v vs ihv => exact ⟨ih v (by simp) h.1, ihv (fun w hw => ih w (by simp [hw])) h.2⟩
  | hstar v ih => exact ih h
  | hplus v ih => exact ih h
  | hrep v c ih => exact ⟨h.1, ih h.2⟩

theorem sumOf_zero_bag_iff {P : Multiset A → Prop} {k : Nat} (hk : 1 ≤ k) :
    SumOf P k 0 ↔ P 0 := by
  constructor
  · intro h
    obtain ⟨l, hl, hp, hs⟩ := h
    have : ∀ t ∈ l, t = 0 := by
      intro t ht
      obtain ⟨a, b, rfl⟩ := List.append_of_mem ht
      have hc := congrArg Multiset.card hs
      simp only [List.sum_append, List.sum_cons, Multiset.card_add, Multiset.card_zero] at hc
      exact Multiset.card_eq_zero.1 (by omega)
    cases l with
    | nil => simp at hl; omega
    | cons t l =>
      have := this t (by simp)
      subst this
      exact hp 0 (by simp)
  · intro h
    exact ⟨List.replicate k 0, by simp, fun t ht => by rw [List.eq_of_mem_replicate ht]; exact h,
      by simp⟩

theorem condNullable_iff (e : Expr A) (h : MinMax e) : e.condNullable = true ↔ Lang e 0 := by
  induction e using Expr.ind with
  | hfail => simp [Expr.condNullable, Lang]
  | hempty => simp [Expr.condNullable, Lang]
  | hsym v c =>
    simp only [Expr.condNullable, Lang, Card.nullable, beq_iff_eq]
    constructor
    · intro h0
      exact ⟨0, ⟨by omega, fun m _ => Nat.zero_le m⟩, by simp⟩
    · rintro ⟨n, hn, h0⟩
      have : n = 0 := by
        have := congrArg Multiset.card h0
        simpa using this.symm
      subst this
      have := hn.1
      omega
  | hand vs ih =>
    simp only [Expr.condNullable, Lang, MinMax] at *
    induction vs with
    | nil => simp [Expr.condNullableAll, LangAll]
    | cons v vs ihv =>
      have h1 := ih v (by simp) h.1
      have h2 := ihv (fun w hw => ih w (by simp [hw])) h.2
      simp only [Expr.condNullableAll, Bool.and_eq_true, h1, h2, LangAll]
      constructor
      · rintro ⟨a, b⟩
        exact ⟨0, 0, by simp, a, b⟩
      · rintro ⟨t, u, h0, a, b⟩
        have := bag_add_eq_zero h0.symm
        rw [this.1] at a
        rw [this.2] at b
        exact ⟨a, b⟩
  | hor vs ih =>
    simp only [Expr.condNullable, Lang, MinMax] at *
    induction vs with
    | nil => simp [Expr.condNullableAny, LangSome]
    | cons v vs ihv =>
      have h1 := ih v (by simp) h.1
      have h2 := ihv (fun w hw => ih w (by simp [hw])) h.2
      simp only [Expr.condNullableAny, Bool.or_eq_true, h1, h2, LangSome]
  | hstar v ih =>
    simp only [Expr.condNullable, Lang, true_iff]
    exact ⟨0, [], rfl, by simp, rfl⟩
  | hplus v ih =>
    simp only [Expr.condNullable, Lang, ih h]
    constructor
    · intro hv
      exact ⟨1, le_refl _, (sumOf_zero_bag_iff (le_refl _)).2 hv⟩
    · rintro ⟨k, hk, hs⟩
      exact (sumOf_zero_bag_iff hk).1 hs
  | hrep v c ih =>
    simp only [Expr.condNullable, Lang]
    split
    · rename_i h0
      simp only [true_iff]
      exact ⟨0, ⟨by omega, fun m _ => Nat.zero_le m⟩, [], rfl, by simp, rfl⟩
    · rename_i h0
      rw [ih h.2]
      constructor
      · intro hv
        exact ⟨c.min, h.1, (sumOf_zero_bag_iff (by omega)).2 hv⟩
      · rintro ⟨k, hk, hs⟩
        exact (sumOf_zero_bag_iff (by have := hk.1; omega)).1 hs

end Nullable

section Tables
variable {K V C R : Type} [DecidableEq K] [DecidableEq V] [DecidableEq R]

/-- Invariant of tables made through the public interface. -/
structure Table.Inv (t : Table K V C R) : Prop where
  closed : t.open = false
  built : Built t.rbe
  mem : ∀ k c, c ∈ t.componentsOf k ↔ t.getKey c = some k
  nodup : ∀ k, (t.componentsOf k).Nodup
  cond : ∀ c, (t.getCondition c).isSome = (t.getKey c).isSome
  fresh : ∀ c, t.counter ≤ c → t.getKey c = none

theorem Table.inv_of_made {t : Table K V C R} (h : t.Made) : t.Inv := by
  induction h with
  | new =>
    refine ⟨rfl, .empty, ?_, ?_, ?_, ?_⟩ <;>
      simp [Table.new, Table.componentsOf, Table.getKey, Table.getCondition, alookup]
  | withRbe t s hs h ih => exact ⟨ih.closed, hs, ih.mem, ih.nodup, ih.cond, ih.fresh⟩
  | add t k cond h ih =>
    have hc : ∀ k', (t.addComponent k cond).componentsOf k' =
        if k' = k then sinsert t.counter (t.componentsOf k) else t.componentsOf k' := by
      intro k'
      simp only [Table.componentsOf, Table.addComponent, alookup_upsert]
      split <;> simp
    have hk : ∀ c, (t.addComponent k cond).getKey c =
        if c = t.counter then some k else t.getKey c := by
      intro c
      simp only [Table.getKey, Table.addComponent, alookup_upsert]
    have hd : ∀ c, (t.addComponent k cond).getCondition c =
        if c = t.counter then some cond else t.getCondition c := by
      intro c
      simp only [Table.getCondition, Table.addComponent, alookup_upsert]
    have hf : t.getKey t.counter = none := ih.fresh _ (le_refl _)
    refine ⟨ih.closed, ih.built, ?_, ?_, ?_, ?_⟩
    · intro k' c
      rw [hc, hk]
      by_cases h1 : k' = k
      · subst h1
        rw [if_pos rfl, mem_sinsert, ih.mem]
        by_cases h2 : c = t.counter
        · simp [h2]
        · simp [h2]
      · rw [if_neg h1, ih.mem]
        by_cases h2 : c = t.counter
        · subst h2
          rw [hf, if_pos rfl]
          simp only [reduceCtorEq, Option.some.injEq, false_iff]
          exact fun h => h1 h.symm
        · simp [h2]
    · intro k'
      rw [hc]
      split
      · exact nodup_sinsert (ih.nodup k)
      · exact ih.nodup k'
    · intro c
      rw [hd, hk]
      split
      · rfl
      · exact ih.cond c
    · intro c hcc
      have hcc' : t.counter + 1 ≤ c := hcc
      rw [hk, if_neg (by omega)]
      exact ih.fresh c (by omega)

/-- The condition of a registered component. -/
theorem Table.Inv.cond_of_key {t : Table K V C R} (h : t.Inv) {c : Nat} {k : K}
    (hk : t.getKey c = some k) : ∃ cond, t.getCondition c = some cond := by
  have := h.cond c
  rw [hk] at this
  exact Option.isSome_iff_exists.1 this

/-- Members of the candidate list of a triple. -/
theorem mem_candidates {t : Table K V C R} (h : t.Inv) (x : K × V × C) (a : Cand K V C R) :
    a ∈ t.candidates x ↔
      a.key = x.1 ∧ a.value = x.2.1 ∧ a.ctx = x.2.2 ∧ t.getKey a.comp = some x.1 ∧
        t.getCondition a.comp = some a.cond ∧
        ((t.componentsOf x.1).length > 1 → a.cond.Sat x.2.1 x.2.2) := by
  have base : a ∈ ((t.componentsOf x.1).filterMap fun c =>
      (t.getCondition c).map fun cond => (⟨x.1, x.2.1, x.2.2, c, cond⟩ : Cand K V C R)) ↔
      a.key = x.1 ∧ a.value = x.2.1 ∧ a.ctx = x.2.2 ∧ t.getKey a.comp = some x.1 ∧
        t.getCondition a.comp = some a.cond := by
    simp only [List.mem_filterMap, Option.map_eq_some_iff]
    constructor
    · rintro ⟨c, hc, cond, hcond, rfl⟩
      exact ⟨rfl, rfl, rfl, (h.mem _ _).1 hc, hcond⟩
    · rintro ⟨h1, h2, h3, h4, h5⟩
      refine ⟨a.comp, (h.mem _ _).2 h4, a.cond, h5, ?_⟩
      cases a
      simp_all
  unfold Table.candidates
  simp only
  split
  · rename_i hl
    rw [List.mem_filter, base, matches_isSome]
    simp only [hl, true_implies]
    tauto
  · rename_i hl
    rw [base]
    simp only [hl, false_implies, and_true]

theorem mem_product {T : Type} (ls : List (List T)) (vs : List T) :
    vs ∈ product ls ↔ List.Forall₂ (fun v l => v ∈ l) vs ls := by
  induction ls generalizing vs with
  | nil => simp [product]
  | cons l ls ih =>
    simp only [product, List.mem_flatMap, List.mem_map]
    constructor
    · rintro ⟨x, hx, ws, hws, rfl⟩
      exact .cons hx ((ih ws).1 hws)
    · intro h
      cases h with
      | cons hx hws => exact ⟨_, hx, _, (ih _).2 hws, rfl⟩

/-- What evaluating one combination returns. -/
theorem evalCands_spec (xs : List (Cand K V C R)) (cur : Pending K V R) :
    ((∀ x ∈ xs, x.cond.Sat x.value x.ctx) → ∃ p, Table.evalCands cur xs = some p ∧
      (∀ w r, p.Dep w r ↔ cur.Dep w r ∨ ∃ x ∈ xs, x.cond.Deps x.value x.ctx w r) ∧
      (∀ w r k, p.Key w r k ↔ cur.Key w r k ∨ ∃ x ∈ xs,
        (x.cond.Deps x.value x.ctx w r ∧ k = x.key) ∨ x.cond.DepKeys x.value x.ctx w r k)) ∧
    ((¬ ∀ x ∈ xs, x.cond.Sat x.value x.ctx) → Table.evalCands cur xs = none) := by
  induction xs generalizing cur with
  | nil => simp [Table.evalCands]
  | cons x xs ih =>
    have hx := matches_spec x.value x.ctx x.cond
    constructor
    · intro h
      obtain ⟨p, hp, pd, pk⟩ := hx.1 (h x (by simp))
      obtain ⟨q, hq, qd, qk⟩ := (ih (cur.merge (p.annotateKey x.key))).1 fun y hy => h y (by simp [hy])
      refine ⟨q, ?_, fun w r => ?_, fun w r k => ?_⟩
      · simp only [Table.evalCands, hp, hq]
      · rw [qd, dep_merge, dep_annotate, pd]
        simp only [List.mem_cons, exists_eq_or_imp, or_assoc]
      · rw [qk, key_merge, key_annotate, pd, pk]
        simp only [List.mem_cons, exists_eq_or_imp]
        rw [or_comm (a := x.cond.DepKeys x.value x.ctx w r k), or_assoc]
    · intro h
      simp only [Table.evalCands]
      by_cases h1 : x.cond.Sat x.value x.ctx
      · obtain ⟨p, hp, _⟩ := hx.1 h1
        simp only [hp]
        apply (ih _).2
        intro h2
        apply h
        intro y hy
        rcases List.mem_cons.1 hy with rfl | hy
        · exact h1
        · exact h2 y hy
      · rw [hx.2 h1]

theorem sum_length_zero {T : Type} (ls : List (List T)) :
    (ls.map List.length).sum = 0 ↔ ∀ l ∈ ls, l = [] := by
  induction ls with
  | nil => simp
  | cons l ls ih => simp [ih]

/-- Combinations of candidates and assignments of components to triples. -/
theorem forall2_cands {t : Table K V C R} (h : t.Inv) (values : List (K × V × C))
    (vs : List (Cand K V C R)) (hm : List.Forall₂ (fun v l => v ∈ l) vs (values.map t.candidates))
    (hs : ∀ x ∈ vs, x.cond.Sat x.value x.ctx) :
    List.Forall₂ t.Takes values (vs.map Cand.comp) := by
  induction values generalizing vs with
  | nil => cases hm; exact .nil
  | cons x values ih =>
    cases hm with
    | cons hx hxs =>
      rename_i a as
      obtain ⟨h1, h2, h3, h4, h5, _⟩ := (mem_candidates h x a).1 hx
      refine .cons ⟨h4, a.cond, h5, ?_⟩ (ih as hxs fun y hy => hs y (by simp [hy]))
      rw [← h2, ← h3]
      exact hs a (by simp)

theorem cands_of_forall2 {t : Table K V C R} (h : t.Inv) (values : List (K × V × C))
    (cs : List Nat) (hm : List.Forall₂ t.Takes values cs) :
    ∃ vs : List (Cand K V C R), vs.map Cand.comp = cs ∧
      List.Forall₂ (fun v l => v ∈ l) vs (values.map t.candidates) ∧
      ∀ x ∈ vs, x.cond.Sat x.value x.ctx := by
  induction hm with
  | nil => exact ⟨[], rfl, .nil, by simp⟩
  | cons hx _ ih =>
    rename_i x c values cs hrest
    obtain ⟨vs, h1, h2, h3⟩ := ih
    obtain ⟨hk, cond, hc, hsat⟩ := hx
    refine ⟨⟨x.1, x.2.1, x.2.2, c, cond⟩ :: vs, by simp [h1], .cons ?_ h2, ?_⟩
    · rw [mem_candidates h]
      exact ⟨rfl, rfl, rfl, hk, hc, fun _ => hsat⟩
    · intro y hy
      rcases List.mem_cons.1 hy with rfl | hy
      · exact hsat
      · exact h3 y hy

theorem requires_iff {t : Table K V C R} (h : t.Inv) (values : List (K × V × C))
    (vs : List (Cand K V C R)) (hm : List.Forall₂ (fun v l => v ∈ l) vs (values.map t.candidates))
    (w : V) (r : R) :
    (∃ x ∈ vs, x.cond.Deps x.value x.ctx w r) ↔ t.Requires values (vs.map Cand.comp) w r := by
  unfold Table.Requires
  induction values generalizing vs with
  | nil => cases hm; simp
  | cons x values ih =>
    cases hm with
    | cons hx hxs =>
      rename_i a as
      obtain ⟨h1, h2, h3, h4, h5, _⟩ := (mem_candidates h x a).1 hx
      have := ih as hxs
      simp only [List.map_cons, List.zip_cons_cons, List.mem_cons, exists_eq_or_imp, this,
        Prod.mk.injEq]
      constructor
      · rintro (hd | ⟨y, c, hy, hc⟩)
        · exact ⟨x, a.comp, Or.inl ⟨rfl, rfl⟩, a.cond, h5, by rw [← h2, ← h3]; exact hd⟩
        · exact ⟨y, c, Or.inr hy, hc⟩
      · rintro ⟨y, c, (⟨rfl, rfl⟩ | hy), cond, hc, hd⟩
        · left
          rw [h5] at hc
          injection hc with hc
          subst hc
          rw [h2, h3]
          exact hd
        · exact Or.inr ⟨y, c, hy, cond, hc, hd⟩

theorem requiresKey_iff {t : Table K V C R} (h : t.Inv) (values : List (K × V × C))
    (vs : List (Cand K V C R)) (hm : List.Forall₂ (fun v l => v ∈ l) vs (values.map t.candidates))
    (w : V) (r : R) (k : K) :
    (∃ x ∈ vs, (x.cond.Deps x.value x.ctx w r ∧ k = x.key) ∨ x.cond.DepKeys x.value x.ctx w r k) ↔
      t.RequiresKey values (vs.map Cand.comp) w r k := by
  unfold Table.RequiresKey
  induction values generalizing vs with
  | nil => cases hm; simp
  | cons x values ih =>
    cases hm with
    | cons hx hxs =>
      rename_i a as
      obtain ⟨h1, h2, h3, h4, h5, _⟩ := (mem_candidates h x a).1 hx
      have := ih as hxs
      simp only [List.map_cons, List.zip_cons_cons, List.mem_cons, exists_eq_or_imp, this,
        Prod.mk.injEq]
      constructor
      · rintro (hd | ⟨y, c, hy, hc⟩)
        · exact ⟨x, a.comp, Or.inl ⟨rfl, rfl⟩, a.cond, h5, by rw [← h2, ← h3, ← h1]; exact hd⟩
        · exact ⟨y, c, Or.inr hy, hc⟩
      · rintro ⟨y, c, (⟨rfl, rfl⟩ | hy), cond, hc, hd⟩
        · left
          rw [h5] at hc
          injection hc with hc
          subst hc
          rw [h1, h2, h3]
          exact hd
        · exact Or.inr ⟨y, c, hy, cond, hc, hd⟩

/-- The struct decides its language in closed mode. -/
def Decides (s : Struct Nat) : Prop :=
  ∀ bag, ValidBag bag → (s.matchBagInterval bag false = true ↔ Lang s.rbe (bagOf bag))

theorem decides_of {s : Struct Nat} (hb : Built s) (hwf : WF s.rbe)
    (hf : SingleOcc s.rbe → RepeatFlat s.rbe) : Decides s := by
  intro bag hv
  by_cases ho : SingleOcc s.rbe
  · have := C07_algorithms_agree s hb bag hv hwf (hf ho)
    simp only [Struct.matchBag] at this
    rw [this]
    exact matchBagDeriv_iff _ _ hwf
  · have hr : s.hasRepeats = true := by
      by_contra h
      exact ho ((truthful_of_built hb).2.1.1 (by simpa using h))
    simp only [Struct.matchBagInterval, hr, if_true]
    exact matchBagDeriv_iff _ _ hwf

/-- Success items in the product case. -/
theorem mem_items_product {t : Table K V C R} (h : t.Inv) {enum : List Nat → List (Nat × Nat)}
    (values : List (K × V × C)) (p : Pending K V R) :
    some p ∈ (product (values.map t.candidates)).filterMap (t.step enum) ↔
      ∃ vs : List (Cand K V C R), List.Forall₂ (fun v l => v ∈ l) vs (values.map t.candidates) ∧
        Table.evalCands Pending.empty vs = some p ∧
        t.rbe.matchBagInterval (enum (vs.map Cand.comp)) false = true := by
  simp only [List.mem_filterMap, mem_product, Table.step, h.closed]
  constructor
  · rintro ⟨vs, hm, hst⟩
    refine ⟨vs, hm, ?_⟩
    cases he : Table.evalCands Pending.empty vs with
    | none => simp [he] at hst
    | some q =>
      simp only [he] at hst
      split at hst
      · rename_i hacc
        injection hst with hst
        injection hst with hst
        subst hst
        exact ⟨rfl, hacc⟩
      · cases hst
  · rintro ⟨vs, hm, he, hacc⟩
    exact ⟨vs, hm, by simp [he, hacc]⟩

/-- When no pair is found, the items are those of the empty iterator. -/
theorem items_eq (t : Table K V C R) (enum : List Nat → List (Nat × Nat))
    (values : List (K × V × C)) :
    t.items enum values =
      if (∀ x ∈ values, t.candidates x = []) then t.emptyItems
      else (product (values.map t.candidates)).filterMap (t.step enum) := by
  unfold Table.items
  simp only
  by_cases hc : ∀ x ∈ values, t.candidates x = []
  · rw [if_pos hc, if_pos]
    rw [Bool.or_eq_true, beq_iff_eq, sum_length_zero]
    right
    intro l hl
    obtain ⟨x, hx, rfl⟩ := List.mem_map.1 hl
    exact hc x hx
  · rw [if_neg hc, if_neg]
    rw [Bool.or_eq_true, beq_iff_eq, sum_length_zero]
    rintro (h | h)
    · apply hc
      cases values with
      | nil => simp
      | cons x xs => simp at h
    · exact hc fun x hx => h _ (List.mem_map.2 ⟨x, hx, rfl⟩)

end Tables
end Rbe
