import Verif.Rbe.SpecPending
import Verif.Rbe.LemmasTable

/-!
# Helper lemmas: pending maps as sets
-/

set_option linter.unusedSectionVars false
set_option linter.unusedSimpArgs false

namespace Rbe

section Assoc
variable {X Y : Type} [DecidableEq X]

theorem mem_keys_upsert (x y : X) (d : Y) (f : Y → Y) (l : List (X × Y)) :
    y ∈ (upsert x d f l).map Prod.fst ↔ y ∈ l.map Prod.fst ∨ y = x := by
  induction l with
  | nil => simp [upsert]
  | cons e l ih =>
    obtain ⟨z, w⟩ := e
    simp only [upsert]
    split
    · rename_i hz
      subst hz
      simp only [List.map_cons, List.mem_cons]
      tauto
    · simp only [List.map_cons, List.mem_cons, ih]
      tauto

theorem nodup_keys_upsert (x : X) (d : Y) (f : Y → Y) (l : List (X × Y)) (h : (l.map Prod.fst).Nodup) :
    ((upsert x d f l).map Prod.fst).Nodup := by
  induction l with
  | nil => simp [upsert]
  | cons e l ih =>
    obtain ⟨z, w⟩ := e
    simp only [List.map_cons, List.nodup_cons] at h
    simp only [upsert]
    split
    · simpa using h
    · rename_i hz
      simp only [List.map_cons, List.nodup_cons, mem_keys_upsert]
      exact ⟨by rintro (h' | h'); exacts [h.1 h', hz h'], ih h.2⟩

/-- What holds of the default and of all values, through the update, holds of all values after. -/
theorem forall_upsert (P : Y → Prop) (x : X) (d : Y) (f : Y → Y) (l : List (X × Y)) (hd : P (f d))
    (hl : ∀ e ∈ l, P e.2) (hf : ∀ y, P y → P (f y)) : ∀ e ∈ upsert x d f l, P e.2 := by
  induction l with
  | nil => simpa [upsert] using hd
  | cons e l ih =>
    obtain ⟨z, w⟩ := e
    simp only [upsert]
    simp only [List.mem_cons, forall_eq_or_imp] at hl
    split
    · simp only [List.mem_cons, forall_eq_or_imp]
      exact ⟨hf _ hl.1, hl.2⟩
    · simp only [List.mem_cons, forall_eq_or_imp]
      exact ⟨hl.1, ih hl.2⟩

theorem upsert_ne_nil (x : X) (d : Y) (f : Y → Y) (l : List (X × Y)) : upsert x d f l ≠ [] := by
  cases l with
  | nil => simp [upsert]
  | cons e l =>
    simp only [upsert]
    split <;> simp

theorem alookup_mem (x : X) (y : Y) (l : List (X × Y)) (h : (l.map Prod.fst).Nodup) :
    alookup x l = some y ↔ (x, y) ∈ l := by
  induction l with
  | nil => simp [alookup]
  | cons e l ih =>
    obtain ⟨z, w⟩ := e
    simp only [List.map_cons, List.nodup_cons, List.mem_map, not_exists, not_and] at h
    simp only [alookup, List.mem_cons, Prod.mk.injEq]
    split
    · rename_i hz
      subst hz
      simp only [Option.some.injEq, true_and]
      constructor
      · intro h'; exact Or.inl h'.symm
      · rintro (h' | h')
        · exact h'.symm
        · exact absurd rfl (h.1 _ h')
    · rename_i hz
      rw [ih h.2]
      constructor
      · exact Or.inr
      · rintro (⟨h', _⟩ | h')
        · exact absurd h'.symm hz
        · exact h'

theorem alookup_none (x : X) (l : List (X × Y)) : alookup x l = none ↔ ∀ y, (x, y) ∉ l := by
  induction l with
  | nil => simp [alookup]
  | cons e l ih =>
    obtain ⟨z, w⟩ := e
    simp only [alookup, List.mem_cons, Prod.mk.injEq]
    split
    · rename_i hz
      subst hz
      simp only [reduceCtorEq, false_iff, not_forall, not_not]
      exact ⟨w, Or.inl ⟨trivial, rfl⟩⟩
    · rename_i hz
      rw [ih]
      constructor
      · rintro h y (⟨h', _⟩ | h')
        · exact hz h'.symm
        · exact h y h'
      · intro h y h'
        exact h y (Or.inr h')

theorem nodup_foldl_sinsert (l s : List X) (h : s.Nodup) : (l.foldl (fun acc k => sinsert k acc) s).Nodup := by
  induction l generalizing s with
  | nil => exact h
  | cons a l ih => exact ih _ (nodup_sinsert h)

end Assoc

namespace Pending
variable {K V R : Type} [DecidableEq K] [DecidableEq V] [DecidableEq R]

/-- The keys of one value: not empty, no reference twice, no key twice. -/
def GoodRefs (rs : List (R × List K)) : Prop :=
  rs ≠ [] ∧ (rs.map Prod.fst).Nodup ∧ ∀ f ∈ rs, f.2.Nodup

/-- No value twice, and the entries are good. -/
def Good (p : Pending K V R) : Prop :=
  (List.map Prod.fst p).Nodup ∧ ∀ e ∈ p, GoodRefs e.2

/-- The map has this content. -/
structure Repr (p : Pending K V R) (a : Pend K V R) : Prop where
  good : p.Good
  pairs : ∀ v r, (v, r) ∈ a.pairs ↔ p.Dep v r
  triples : ∀ v r k, (v, r, k) ∈ a.triples ↔ p.Key v r k

theorem goodRefs_upsert (rs : List (R × List K)) (r : R) (f : List K → List K) (hf : ∀ ks, ks.Nodup → (f ks).Nodup)
    (h : (rs.map Prod.fst).Nodup ∧ ∀ f ∈ rs, f.2.Nodup) : GoodRefs (upsert r [] f rs) :=
  ⟨upsert_ne_nil _ _ _ _, nodup_keys_upsert _ _ _ _ h.1,
    forall_upsert _ _ _ _ _ (hf _ (by simp)) h.2 hf⟩

theorem good_upsert (p : Pending K V R) (hp : p.Good) (v : V) (f : List (R × List K) → List (R × List K))
    (hd : GoodRefs (f [])) (hf : ∀ rs, GoodRefs rs → GoodRefs (f rs)) : Good (upsert v [] f p) :=
  ⟨nodup_keys_upsert _ _ _ _ hp.1, forall_upsert _ _ _ _ _ hd hp.2 hf⟩

theorem good_mergeRefs (rs other : List (R × List K)) (ho : other ≠ [] ∨ rs ≠ []) (hk : ∀ f ∈ other, f.2.Nodup)
    (h : (rs.map Prod.fst).Nodup ∧ ∀ f ∈ rs, f.2.Nodup) : GoodRefs (mergeRefs rs other) := by
  unfold mergeRefs
  induction other generalizing rs with
  | nil => exact ⟨by simpa using ho, h⟩
  | cons e other ih =>
    have := goodRefs_upsert rs e.1 (fun ks => e.2.foldl (fun acc k => sinsert k acc) ks)
      (fun ks hks => nodup_foldl_sinsert _ _ hks) h
    exact ih _ (Or.inr this.1) (fun f hf => hk f (by simp [hf])) this.2

theorem good_merge (p q : Pending K V R) (hp : p.Good) (hq : q.Good) : (p.merge q).Good := by
  unfold merge
  replace hq := hq.2
  induction q generalizing p with
  | nil => exact hp
  | cons e q ih =>
    simp only [List.mem_cons, forall_eq_or_imp] at hq
    refine ih _ (good_upsert p hp _ _ ?_ ?_) hq.2
    · exact good_mergeRefs _ _ (Or.inl hq.1.1) hq.1.2.2 (by simp)
    · intro rs hrs
      exact good_mergeRefs _ _ (Or.inl hq.1.1) hq.1.2.2 hrs.2

theorem good_annotate (p : Pending K V R) (hp : p.Good) (k : K) : (p.annotateKey k).Good := by
  refine ⟨?_, ?_⟩
  · have : List.map Prod.fst (p.annotateKey k) = List.map Prod.fst p := by
      simp [annotateKey, Function.comp_def]
    rw [this]; exact hp.1
  · intro e he
    simp only [annotateKey, List.mem_map] at he
    obtain ⟨x, hx, rfl⟩ := he
    obtain ⟨h1, h2, h3⟩ := hp.2 x hx
    refine ⟨by simpa using h1, by simpa [Function.comp_def] using h2, ?_⟩
    intro f hf
    simp only [List.mem_map] at hf
    obtain ⟨y, hy, rfl⟩ := hf
    exact nodup_sinsert (h3 y hy)

theorem refs_upsert (rs : List (R × List K)) (r r' : R) (f : List K → List K) :
    (∃ ks, (r', ks) ∈ upsert r [] f rs) ↔ (∃ ks, (r', ks) ∈ rs) ∨ r' = r := by
  have := ex_upsert (fun _ => True) True r r' [] f rs (by simp) (by simp)
  simpa using this

theorem dep_insertUpsert (p : Pending K V R) (v v' : V) (r r' : R) (f : List K → List K) :
    Dep (upsert v [] (fun rm => upsert r [] f rm) p) v' r' ↔ p.Dep v' r' ∨ (v' = v ∧ r' = r) := by
  rw [dep_iff, dep_iff]
  refine ex_upsert (fun rs : List (R × List K) => ∃ ks, (r', ks) ∈ rs) (r' = r) v v' [] _ p ?_ ?_
  · rw [refs_upsert]; simp
  · intro y; exact refs_upsert _ _ _ _

theorem key_insert (p : Pending K V R) (v v' : V) (r r' : R) (k' : K) :
    Key (p.insert v r) v' r' k' ↔ p.Key v' r' k' := by
  rw [key_iff, key_iff]
  have inner : ∀ rs : List (R × List K), (∃ ks, (r', ks) ∈ upsert r [] id rs ∧ k' ∈ ks) ↔
      (∃ ks, (r', ks) ∈ rs ∧ k' ∈ ks) ∨ (r' = r ∧ False) := fun rs =>
    ex_upsert (fun ks : List K => k' ∈ ks) False r r' [] id rs (by simp) (by simp)
  have := ex_upsert (fun rs : List (R × List K) => ∃ ks, (r', ks) ∈ rs ∧ k' ∈ ks) False v v' []
    (fun rm => upsert r [] id rm) p (by rw [inner]; simp) (by intro y; rw [inner]; simp)
  simpa [insert] using this

theorem key_insertWithKey (p : Pending K V R) (v v' : V) (r r' : R) (k k' : K) :
    Key (p.insertWithKey v r k) v' r' k' ↔ p.Key v' r' k' ∨ (v' = v ∧ r' = r ∧ k' = k) := by
  rw [key_iff, key_iff]
  have inner : ∀ rs : List (R × List K), (∃ ks, (r', ks) ∈ upsert r [] (fun ks => sinsert k ks) rs ∧ k' ∈ ks) ↔
      (∃ ks, (r', ks) ∈ rs ∧ k' ∈ ks) ∨ (r' = r ∧ k' = k) := fun rs =>
    ex_upsert (fun ks : List K => k' ∈ ks) (k' = k) r r' [] _ rs (by simp [sinsert]) (by intro y; exact mem_sinsert _ _ _)
  exact ex_upsert (fun rs : List (R × List K) => ∃ ks, (r', ks) ∈ rs ∧ k' ∈ ks) (r' = r ∧ k' = k) v v' []
    (fun rm => upsert r [] (fun ks => sinsert k ks) rm) p (by rw [inner]; simp) (by intro y; rw [inner])

/-! ## Removal -/

theorem swapRemoveFirst_perm {X : Type} (x : X) (l : List X) : (swapRemoveFirst (x :: l)).Perm l := by
  cases l with
  | nil => simp [swapRemoveFirst]
  | cons y t =>
    simp only [swapRemoveFirst]
    have : (y :: t) = (y :: t).dropLast ++ [(y :: t).getLast (by simp)] := (List.dropLast_append_getLast _).symm
    conv => rhs; rw [this]
    exact (List.perm_append_singleton _ _).symm

theorem good_perm {p q : Pending K V R} (h : List.Perm p q) (hp : p.Good) : q.Good :=
  ⟨(h.map Prod.fst).nodup_iff.1 hp.1, fun e he => hp.2 e (h.mem_iff.2 he)⟩

theorem dep_perm {p q : Pending K V R} (h : List.Perm p q) (v : V) (r : R) : p.Dep v r ↔ q.Dep v r := by
  simp only [dep_iff, h.mem_iff]

theorem key_perm {p q : Pending K V R} (h : List.Perm p q) (v : V) (r : R) (k : K) : p.Key v r k ↔ q.Key v r k := by
  simp only [key_iff, h.mem_iff]

/-- The references left when the last key of the last one is taken. -/
def restRefs (rs0 : List (R × List K)) (r : R) (ks0 : List K) : List (R × List K) :=
  if ks0.isEmpty then rs0 else rs0 ++ [(r, ks0)]

/-- The shape of a map from which an item is popped. -/
theorem pop_item {p : Pending K V R} {v : V} {r : R} {k : K} {q : Pending K V R} (h : p.pop = .item v r k q) :
    ∃ rs0 ks0 rest, p = (v, rs0 ++ [(r, ks0 ++ [k])]) :: rest ∧
      List.Perm q (if (restRefs rs0 r ks0).isEmpty then rest else (v, restRefs rs0 r ks0) :: rest) := by
  cases p with
  | nil => simp [pop] at h
  | cons e rest =>
    obtain ⟨v', rs⟩ := e
    induction rs using List.reverseRecOn with
    | nil => simp [pop] at h
    | append_singleton rs0 f =>
      obtain ⟨r', ks⟩ := f
      induction ks using List.reverseRecOn with
      | nil => simp [pop] at h
      | append_singleton ks0 k' =>
        simp only [pop, List.getLast?_append, List.getLast?_singleton, Option.some_or, List.dropLast_concat,
          Popped.item.injEq] at h
        obtain ⟨rfl, rfl, rfl, rfl⟩ := h
        refine ⟨rs0, ks0, rest, rfl, ?_⟩
        by_cases hr : (restRefs rs0 r' ks0).isEmpty
        · rw [if_pos hr]
          simp only [restRefs] at hr
          rw [if_pos hr]
          exact swapRemoveFirst_perm _ _
        · rw [if_neg hr]
          simp only [restRefs] at hr
          rw [if_neg hr]
          exact List.Perm.refl _

theorem repr_pop {p : Pending K V R} {a : Pend K V R} (hr : Repr p a) {v : V} {r : R} {k : K} {q : Pending K V R}
    (h : p.pop = .item v r k q) : Repr q (a.remove v r k) := by
  obtain ⟨rs0, ks0, rest, rfl, hq⟩ := pop_item h
  obtain ⟨⟨hn, hg⟩, hD, hT⟩ := hr
  simp only [List.map_cons, List.nodup_cons, List.mem_map, not_exists, not_and] at hn
  simp only [List.mem_cons, forall_eq_or_imp, GoodRefs] at hg
  obtain ⟨⟨-, hrn, hrk⟩, hgr⟩ := hg
  simp only [List.map_append, List.map_cons, List.map_nil, List.nodup_append, List.mem_singleton] at hrn
  simp only [List.mem_append, List.mem_singleton] at hrk
  have hkn := hrk (r, ks0 ++ [k]) (Or.inr rfl)
  simp only [List.nodup_append, List.mem_singleton, forall_eq] at hkn
  have hvrest : ∀ rs, (v, rs) ∉ rest := fun rs hm => hn.1 _ hm rfl
  have hr0 : ∀ ks, (r, ks) ∉ rs0 := fun ks hm => hrn.2.2 r (List.mem_map.2 ⟨_, hm, rfl⟩) r rfl rfl
  have hk0 : k ∉ ks0 := fun hm => hkn.2.2 k hm rfl
  have memRefs : ∀ r' ks', (r', ks') ∈ restRefs rs0 r ks0 ↔ (r', ks') ∈ rs0 ∨ (r' = r ∧ ks' = ks0 ∧ ks0 ≠ []) := by
    intro r' ks'
    unfold restRefs
    cases ks0 with
    | nil => simp
    | cons x t => simp
  have restGood : restRefs rs0 r ks0 ≠ [] → GoodRefs (restRefs rs0 r ks0) := by
    intro hne
    refine ⟨hne, ?_, ?_⟩
    · unfold restRefs
      split
      · exact hrn.1
      · simp only [List.map_append, List.map_cons, List.map_nil, List.nodup_append, List.mem_singleton]
        exact hrn
    · rintro ⟨r', ks'⟩ hf
      rcases (memRefs _ _).1 hf with h1 | ⟨_, rfl, _⟩
      · exact hrk _ (Or.inl h1)
      · exact hkn.1
  have dep' : ∀ v' r', q.Dep v' r' ↔ (v' = v ∧ ∃ ks', (r', ks') ∈ restRefs rs0 r ks0) ∨
      ∃ rs, (v', rs) ∈ rest ∧ ∃ ks', (r', ks') ∈ rs := by
    intro v' r'
    rw [dep_perm hq, dep_iff]
    cases hc : restRefs rs0 r ks0 with
    | nil => simp
    | cons x t =>
      simp only [List.isEmpty_cons, Bool.false_eq_true, if_false, List.mem_cons, Prod.mk.injEq]
      constructor
      · rintro ⟨rs, (⟨rfl, rfl⟩ | hm), ks', hk'⟩
        · exact Or.inl ⟨rfl, ks', by simpa using hk'⟩
        · exact Or.inr ⟨rs, hm, ks', hk'⟩
      · rintro (⟨rfl, ks', hk'⟩ | ⟨rs, hm, ks', hk'⟩)
        · exact ⟨_, Or.inl ⟨rfl, rfl⟩, ks', by simpa using hk'⟩
        · exact ⟨rs, Or.inr hm, ks', hk'⟩
  have key' : ∀ v' r' k', q.Key v' r' k' ↔ (v' = v ∧ ∃ ks', (r', ks') ∈ restRefs rs0 r ks0 ∧ k' ∈ ks') ∨
      ∃ rs, (v', rs) ∈ rest ∧ ∃ ks', (r', ks') ∈ rs ∧ k' ∈ ks' := by
    intro v' r' k'
    rw [key_perm hq, key_iff]
    cases hc : restRefs rs0 r ks0 with
    | nil => simp
    | cons x t =>
      simp only [List.isEmpty_cons, Bool.false_eq_true, if_false, List.mem_cons, Prod.mk.injEq]
      constructor
      · rintro ⟨rs, (⟨rfl, rfl⟩ | hm), ks', hk'⟩
        · exact Or.inl ⟨rfl, ks', by simpa using hk'⟩
        · exact Or.inr ⟨rs, hm, ks', hk'⟩
      · rintro (⟨rfl, ks', hk'⟩ | ⟨rs, hm, ks', hk'⟩)
        · exact ⟨_, Or.inl ⟨rfl, rfl⟩, ks', by simpa using hk'⟩
        · exact ⟨rs, Or.inr hm, ks', hk'⟩
  have depP : ∀ v' r', Dep ((v, rs0 ++ [(r, ks0 ++ [k])]) :: rest) v' r' ↔
      (v' = v ∧ ((∃ ks', (r', ks') ∈ rs0) ∨ r' = r)) ∨ ∃ rs, (v', rs) ∈ rest ∧ ∃ ks', (r', ks') ∈ rs := by
    intro v' r'
    rw [dep_iff]
    simp only [List.mem_cons, Prod.mk.injEq]
    constructor
    · rintro ⟨rs, (⟨rfl, rfl⟩ | hm), ks', hk'⟩
      · simp only [List.mem_append, List.mem_singleton, Prod.mk.injEq] at hk'
        rcases hk' with h1 | ⟨h1, _⟩
        · exact Or.inl ⟨rfl, Or.inl ⟨_, h1⟩⟩
        · exact Or.inl ⟨rfl, Or.inr h1⟩
      · exact Or.inr ⟨rs, hm, ks', hk'⟩
    · rintro (⟨rfl, (⟨ks', h1⟩ | rfl)⟩ | ⟨rs, hm, ks', hk'⟩)
      · exact ⟨_, Or.inl ⟨rfl, rfl⟩, ks', by simp [h1]⟩
      · exact ⟨_, Or.inl ⟨rfl, rfl⟩, ks0 ++ [k], by simp⟩
      · exact ⟨rs, Or.inr hm, ks', hk'⟩
  have keyP : ∀ v' r' k', Key ((v, rs0 ++ [(r, ks0 ++ [k])]) :: rest) v' r' k' ↔
      (v' = v ∧ ((∃ ks', (r', ks') ∈ rs0 ∧ k' ∈ ks') ∨ (r' = r ∧ (k' ∈ ks0 ∨ k' = k)))) ∨
        ∃ rs, (v', rs) ∈ rest ∧ ∃ ks', (r', ks') ∈ rs ∧ k' ∈ ks' := by
    intro v' r' k'
    rw [key_iff]
    simp only [List.mem_cons, Prod.mk.injEq]
    constructor
    · rintro ⟨rs, (⟨rfl, rfl⟩ | hm), ks', hk', hkk⟩
      · simp only [List.mem_append, List.mem_singleton, Prod.mk.injEq] at hk'
        rcases hk' with h1 | ⟨h1, rfl⟩
        · exact Or.inl ⟨rfl, Or.inl ⟨_, h1, hkk⟩⟩
        · exact Or.inl ⟨rfl, Or.inr ⟨h1, by simpa using hkk⟩⟩
      · exact Or.inr ⟨rs, hm, ks', hk', hkk⟩
    · rintro (⟨rfl, (⟨ks', h1, h2⟩ | ⟨rfl, h2⟩)⟩ | ⟨rs, hm, ks', hk'⟩)
      · exact ⟨_, Or.inl ⟨rfl, rfl⟩, ks', by simp [h1], h2⟩
      · exact ⟨_, Or.inl ⟨rfl, rfl⟩, ks0 ++ [k], by simp, by simpa using h2⟩
      · exact ⟨rs, Or.inr hm, ks', hk'⟩
  have key'' : ∀ v' r' k', q.Key v' r' k' ↔ (v', r', k') ≠ (v, r, k) ∧
      Key ((v, rs0 ++ [(r, ks0 ++ [k])]) :: rest) v' r' k' := by
    intro v' r' k'
    rw [key', keyP]
    constructor
    · rintro (⟨rfl, ks', hm, hk'⟩ | ⟨rs, hm, ks', hk'⟩)
      · rcases (memRefs _ _).1 hm with h1 | ⟨rfl, rfl, _⟩
        · refine ⟨?_, Or.inl ⟨rfl, Or.inl ⟨ks', h1, hk'⟩⟩⟩
          rintro ⟨⟩
          exact hr0 _ h1
        · refine ⟨?_, Or.inl ⟨rfl, Or.inr ⟨rfl, Or.inl hk'⟩⟩⟩
          rintro ⟨⟩
          exact hk0 hk'
      · refine ⟨?_, Or.inr ⟨rs, hm, ks', hk'⟩⟩
        rintro ⟨⟩
        exact hvrest _ hm
    · rintro ⟨hne, (⟨rfl, (⟨ks', h1, h2⟩ | ⟨rfl, (h2 | rfl)⟩)⟩ | h2)⟩
      · exact Or.inl ⟨rfl, ks', (memRefs _ _).2 (Or.inl h1), h2⟩
      · exact Or.inl ⟨rfl, ks0, (memRefs _ _).2 (Or.inr ⟨rfl, rfl, List.ne_nil_of_mem h2⟩), h2⟩
      · exact absurd rfl hne
      · exact Or.inr h2
  refine ⟨good_perm hq.symm ?_, ?_, ?_⟩
  · split
    · exact ⟨hn.2, hgr⟩
    · rename_i hne
      refine ⟨?_, ?_⟩
      · simp only [List.map_cons, List.nodup_cons, List.mem_map, not_exists, not_and]
        exact hn
      · simp only [List.mem_cons, forall_eq_or_imp]
        exact ⟨restGood (by simpa using hne), hgr⟩
  · intro v' r'
    simp only [Pend.remove, Finset.mem_filter, hD, dep', depP, ne_eq, Prod.mk.injEq, Finset.mem_erase]
    constructor
    · rintro ⟨(⟨rfl, (⟨ks', h1⟩ | rfl)⟩ | h1), h2⟩
      · exact Or.inl ⟨rfl, ks', (memRefs _ _).2 (Or.inl h1)⟩
      · rcases h2 with h2 | ⟨⟨x, y, z⟩, ⟨h3, h4⟩, rfl, rfl⟩
        · exact absurd ⟨rfl, rfl⟩ h2
        · have h5 := (key'' _ _ _).2 ⟨by simpa using h3, (hT _ _ _).1 h4⟩
          rw [key'] at h5
          rcases h5 with ⟨_, ks', h6, _⟩ | ⟨rs, h6, _⟩
          · exact Or.inl ⟨rfl, ks', h6⟩
          · exact absurd h6 (hvrest _)
      · exact Or.inr h1
    · rintro (⟨rfl, ks', h1⟩ | h1)
      · rcases (memRefs _ _).1 h1 with g1 | ⟨rfl, rfl, h3⟩
        · refine ⟨Or.inl ⟨rfl, Or.inl ⟨_, g1⟩⟩, Or.inl ?_⟩
          rintro ⟨_, rfl⟩
          exact hr0 _ g1
        · refine ⟨Or.inl ⟨rfl, Or.inr rfl⟩, Or.inr ?_⟩
          obtain ⟨k', hk'⟩ := List.exists_mem_of_ne_nil _ h3
          refine ⟨(v', r', k'), ⟨?_, (hT _ _ _).2 ((keyP _ _ _).2 (Or.inl ⟨rfl, Or.inr ⟨rfl, Or.inl hk'⟩⟩))⟩, rfl, rfl⟩
          rintro ⟨_, _, rfl⟩
          exact hk0 hk'
      · refine ⟨Or.inr h1, Or.inl ?_⟩
        rintro ⟨rfl, _⟩
        obtain ⟨rs, hm, _⟩ := h1
        exact hvrest _ hm
  · intro v' r' k'
    simp only [Pend.remove, Finset.mem_erase, hT, key'']

theorem built_repr {p : Pending K V R} {a : Pend K V R} (h : Built p a) : Repr p a := by
  induction h with
  | empty =>
    refine ⟨⟨by simp [empty], by simp [empty]⟩, ?_, ?_⟩
    · intro v r; simp [Pend.none, dep_empty]
    · intro v r k; simp [Pend.none, key_empty]
  | @insert p a v r _ ih =>
    refine ⟨good_upsert _ ih.good _ _ ?_ ?_, ?_, ?_⟩
    · exact goodRefs_upsert _ _ _ (fun ks h => h) (by simp)
    · intro rs hrs; exact goodRefs_upsert _ _ _ (fun ks h => h) hrs.2
    · intro v' r'
      rw [insert, dep_insertUpsert, ← ih.pairs]
      simp [Pend.addPair, or_comm]
    · intro v' r' k'
      rw [key_insert, ← ih.triples]
      simp [Pend.addPair]
  | @insertWithKey p a v r k _ ih =>
    refine ⟨good_upsert _ ih.good _ _ ?_ ?_, ?_, ?_⟩
    · exact goodRefs_upsert _ _ _ (fun ks h => nodup_sinsert h) (by simp)
    · intro rs hrs; exact goodRefs_upsert _ _ _ (fun ks h => nodup_sinsert h) hrs.2
    · intro v' r'
      rw [insertWithKey, dep_insertUpsert, ← ih.pairs]
      simp [Pend.addTriple, or_comm]
    · intro v' r' k'
      rw [key_insertWithKey, ← ih.triples]
      simp [Pend.addTriple, or_comm]
  | @annotate p a k _ ih =>
    refine ⟨good_annotate _ ih.good _, ?_, ?_⟩
    · intro v r; rw [dep_annotate, ← ih.pairs]; rfl
    · intro v r k'
      rw [key_annotate, ← ih.triples, ← ih.pairs]
      simp only [Pend.stamp, Finset.mem_union, Finset.mem_image, Prod.mk.injEq, Prod.exists]
      constructor
      · rintro (h | ⟨x, y, h, rfl, rfl, rfl⟩)
        · exact Or.inl h
        · exact Or.inr ⟨h, rfl⟩
      · rintro (h | ⟨h, rfl⟩)
        · exact Or.inl h
        · exact Or.inr ⟨v, r, h, rfl, rfl, rfl⟩
  | @merge p a q b _ _ ihp ihq =>
    refine ⟨good_merge _ _ ihp.good ihq.good, ?_, ?_⟩
    · intro v r; rw [dep_merge, ← ihp.pairs, ← ihq.pairs]; simp [Pend.union]
    · intro v r k; rw [key_merge, ← ihp.triples, ← ihq.triples]; simp [Pend.union]
  | @pop p a v r k q _ hq ih => exact repr_pop ih hq

/-! ## The iterator -/

/-- The items still to come. -/
def Iter.todo (s : Iter K V R) : List (V × R × K) :=
  (match s.currentV with
    | some (v, rs) =>
      (match s.currentR with
        | some (r, ks) => ks.map fun k => (v, r, k)
        | none => []) ++ rs.flatMap fun f => f.2.map fun k => (v, f.1, k)
    | none => []) ++
  s.values.flatMap fun e => e.2.flatMap fun f => f.2.map fun k => (e.1, f.1, k)

/-- A reference is current only for a current value. -/
def Iter.Ok (s : Iter K V R) : Prop := s.currentV = none → s.currentR = none

/-- Turns needed at most. -/
def Iter.size (s : Iter K V R) : Nat :=
  (match s.currentR with | some (_, ks) => ks.length | none => 0) +
  (match s.currentV with | some (_, rs) => (rs.map fun f => f.2.length + 1).sum | none => 0) +
  (s.values.map fun e => (e.2.map fun f => f.2.length + 1).sum + 1).sum

theorem collect_todo (s : Iter K V R) (h : s.Ok) (fuel : Nat) (hf : s.size < fuel) :
    Iter.collect fuel s = some s.todo := by
  induction fuel generalizing s with
  | zero => omega
  | succ fuel ih =>
    obtain ⟨values, cv, cr⟩ := s
    have turnV : ∀ cr, (cr = none ∨ ∃ r, cr = some (r, [])) → Iter.Ok ⟨values, cv, cr⟩ →
        Iter.size ⟨values, cv, cr⟩ < fuel + 1 →
        (match Iter.turnV ⟨values, cv, cr⟩ with
          | .again s' => Iter.collect fuel s'
          | .item x s' => (Iter.collect fuel s').map (x :: ·)
          | .finished => some []
          | .panic => none) = some (Iter.todo ⟨values, cv, cr⟩) := by
      intro cr hcr hok hs
      have fromValues : ∀ vs, values = vs → (cv = none ∨ ∃ v, cv = some (v, [])) →
        (match (match vs with
            | (v, rs) :: rest => Turn.again ⟨rest, some (v, rs), none⟩
            | [] => .finished) with
          | .again s' => Iter.collect fuel s'
          | .item x s' => (Iter.collect fuel s').map (x :: ·)
          | .finished => some []
          | .panic => none) = some (Iter.todo ⟨values, cv, cr⟩) := by
        rintro vs rfl hcv
        have htodo : Iter.todo ⟨values, cv, cr⟩ =
            values.flatMap fun e => e.2.flatMap fun f => f.2.map fun k => (e.1, f.1, k) := by
          rcases hcv with rfl | ⟨v, rfl⟩
          · simp [Iter.todo]
          · rcases hcr with rfl | ⟨r, rfl⟩ <;> simp [Iter.todo]
        rw [htodo]
        cases values with
        | nil => simp
        | cons e rest =>
          obtain ⟨v, rs⟩ := e
          simp only
          rw [ih]
          · simp [Iter.todo]
          · simp [Iter.Ok]
          · simp only [Iter.size, List.map_cons, List.sum_cons] at hs ⊢
            rcases hcv with rfl | ⟨v, rfl⟩ <;> rcases hcr with rfl | ⟨r, rfl⟩ <;> simp at hs ⊢ <;> omega
      cases cv with
      | none => exact fromValues values rfl (Or.inl rfl)
      | some x =>
        obtain ⟨v, rs⟩ := x
        cases rs with
        | nil => exact fromValues values rfl (Or.inr ⟨v, rfl⟩)
        | cons f rs =>
          obtain ⟨r, ks⟩ := f
          simp only [Iter.turnV]
          rw [ih]
          · rcases hcr with rfl | ⟨r, rfl⟩ <;> simp [Iter.todo]
          · simp [Iter.Ok]
          · rcases hcr with rfl | ⟨r, rfl⟩ <;> simp [Iter.size] at hs ⊢ <;> omega
    simp only [Iter.collect]
    cases cr with
    | none => exact turnV none (Or.inl rfl) h hf
    | some x =>
      obtain ⟨r, ks⟩ := x
      cases ks with
      | nil => exact turnV _ (Or.inr ⟨r, rfl⟩) h hf
      | cons k ks =>
        cases cv with
        | none => exact absurd (h rfl) (by simp)
        | some y =>
          obtain ⟨v, rs⟩ := y
          simp only [Iter.turn]
          rw [ih]
          · simp [Iter.todo]
          · simp [Iter.Ok]
          · simp [Iter.size] at hf ⊢; omega

theorem mem_todo_iter (p : Pending K V R) (v : V) (r : R) (k : K) : (v, r, k) ∈ p.iter.todo ↔ p.Key v r k := by
  rw [key_iff]
  simp only [iter, Iter.todo, List.nil_append, List.mem_flatMap, List.mem_map, Prod.mk.injEq, Prod.exists]
  constructor
  · rintro ⟨_, rs, h1, _, ks, h2, _, h3, rfl, rfl, rfl⟩
    exact ⟨rs, h1, ks, h2, h3⟩
  · rintro ⟨rs, h1, ks, h2, h3⟩
    exact ⟨_, rs, h1, _, ks, h2, _, h3, rfl, rfl, rfl⟩

theorem nodup_todo_iter (p : Pending K V R) (h : p.Good) : p.iter.todo.Nodup := by
  simp only [iter, Iter.todo, List.nil_append]
  rw [List.nodup_flatMap]
  refine ⟨?_, ?_⟩
  · intro e he
    obtain ⟨-, h2, h3⟩ := h.2 e he
    rw [List.nodup_flatMap]
    refine ⟨fun f hf => (h3 f hf).map fun a b hab => by simpa using hab, ?_⟩
    have h2' : e.2.Pairwise (fun f g => f.1 ≠ g.1) := (List.pairwise_map.1 h2)
    refine h2'.imp ?_
    intro f g hfg
    simp only [Function.onFun, List.disjoint_left, List.mem_map, not_exists, not_and]
    rintro _ ⟨k, _, rfl⟩ k' _ heq
    simp only [Prod.mk.injEq] at heq
    exact hfg heq.2.1.symm
  · have h1 : List.Pairwise (fun f g : V × List (R × List K) => f.1 ≠ g.1) p := (List.pairwise_map.1 h.1)
    refine h1.imp ?_
    intro e e' hee
    simp only [Function.onFun, List.disjoint_left, List.mem_flatMap, List.mem_map, not_exists, not_and]
    rintro _ ⟨f, _, k, _, rfl⟩ g _ k' _ heq
    simp only [Prod.mk.injEq] at heq
    exact hee heq.1.symm

/-- The pairs in order. -/
def pairList (p : Pending K V R) : List (V × R) := List.flatMap (fun e => e.2.map fun f => (e.1, f.1)) p

theorem mem_pairList (p : Pending K V R) (v : V) (r : R) : (v, r) ∈ p.pairList ↔ p.Dep v r := by
  rw [dep_iff]
  simp only [pairList, List.mem_flatMap, List.mem_map, Prod.mk.injEq, Prod.exists]
  constructor
  · rintro ⟨_, rs, h1, _, ks, h2, rfl, rfl⟩
    exact ⟨rs, h1, ks, h2⟩
  · rintro ⟨rs, h1, ks, h2⟩
    exact ⟨_, rs, h1, _, ks, h2, rfl, rfl⟩

theorem nodup_pairList (p : Pending K V R) (h : p.Good) : p.pairList.Nodup := by
  unfold pairList
  rw [List.nodup_flatMap]
  refine ⟨?_, ?_⟩
  · intro e he
    obtain ⟨-, h2, -⟩ := h.2 e he
    have h2' : e.2.Pairwise (fun f g => f.1 ≠ g.1) := (List.pairwise_map.1 h2)
    exact List.pairwise_map.2 (h2'.imp fun hfg heq => hfg (by simpa using heq))
  · have h1 : List.Pairwise (fun f g : V × List (R × List K) => f.1 ≠ g.1) p := (List.pairwise_map.1 h.1)
    refine h1.imp ?_
    intro e e' hee
    simp only [Function.onFun, List.disjoint_left, List.mem_map, not_exists, not_and]
    rintro _ ⟨f, _, rfl⟩ g _ heq
    simp only [Prod.mk.injEq] at heq
    exact hee heq.1.symm

theorem len_pairList (p : Pending K V R) : p.len = p.pairList.length := by
  have : ∀ (l : List (V × List (R × List K))) (n : Nat), List.foldl (fun n e => n + e.2.length) n l =
      n + (List.flatMap (fun e => e.2.map fun f => (e.1, f.1)) l).length := by
    intro l
    induction l with
    | nil => simp
    | cons e l ih => intro n; simp only [List.foldl_cons, ih, List.flatMap_cons, List.length_append, List.length_map]; omega
  simpa [len, pairList] using this p 0

end Pending
end Rbe
