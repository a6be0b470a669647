import Verif.Part.LemmasDfs
import Verif.Rbe.LemmasTable

/-!
# Helper lemmas: which permutation vectors a run visits
-/

namespace Part
open CIter

variable {N : Type}

/-! ## Counting within one class -/

/-- The distribution realised by an arrangement. -/
def countsOf (c : Class N) (p : List Nat) : List Nat := c.eligible.map fun e => p.count e

/-- `raw` on plain lists. -/
def rawL (xs es : List Nat) : List Nat := (xs.zip es).flatMap fun p => List.replicate p.1 p.2

theorem rawL_cons (x e : Nat) (xs es : List Nat) :
    rawL (x :: xs) (e :: es) = List.replicate x e ++ rawL xs es := by simp [rawL]

theorem mem_rawL {xs es : List Nat} {d : Nat} (h : d ∈ rawL xs es) : d ∈ es := by
  simp only [rawL, List.mem_flatMap, List.mem_replicate] at h
  obtain ⟨⟨x, e⟩, hp, _, rfl⟩ := h
  exact (List.of_mem_zip hp).2

theorem length_rawL {xs es : List Nat} (h : xs.length = es.length) :
    (rawL xs es).length = xs.sum := by
  induction xs generalizing es with
  | nil => simp [rawL]
  | cons x xs ih =>
    cases es with
    | nil => simp at h
    | cons e es => rw [rawL_cons]; simp [ih (by simpa using h)]

theorem counts_rawL {xs es : List Nat} (h : xs.length = es.length) (hn : es.Nodup) :
    es.map (fun e => (rawL xs es).count e) = xs := by
  induction xs generalizing es with
  | nil => cases es with
    | nil => rfl
    | cons => simp at h
  | cons x xs ih =>
    cases es with
    | nil => simp at h
    | cons e es =>
      rw [List.nodup_cons] at hn
      simp only [List.map_cons, rawL_cons, List.count_append]
      congr 1
      · have : (rawL xs es).count e = 0 := List.count_eq_zero.2 fun hm => hn.1 (mem_rawL hm)
        simp [this]
      · refine Eq.trans (List.map_congr_left ?_) (ih (es := es) (by simpa using h) hn.2)
        intro d hd
        have : ¬ e = d := by rintro rfl; exact hn.1 hd
        simp [List.count_replicate, this]

theorem count_rawL_map {es : List Nat} (hn : es.Nodup) (f : Nat → Nat) (d : Nat) :
    (rawL (es.map f) es).count d = if d ∈ es then f d else 0 := by
  split
  · rename_i hd
    have := counts_rawL (xs := es.map f) (by simp) hn
    rw [List.map_inj_left] at this
    exact this d hd
  · rename_i hd
    exact List.count_eq_zero.2 fun hm => hd (mem_rawL hm)

/-- An arrangement of the values of a class over its eligible buckets. -/
def ArrOf (c : Class N) (p : List Nat) : Prop :=
  p.length = c.values.length ∧ ∀ d ∈ p, d ∈ c.eligible

theorem perm_raw_iff (c : Class N) (hn : c.eligible.Nodup) (x p : List Nat)
    (hx : x.length = c.eligible.length ∧ x.sum = c.values.length) :
    p.Perm (raw c x) ↔ ArrOf c p ∧ x = countsOf c p := by
  have hr : raw c x = rawL x c.eligible := rfl
  rw [hr]
  constructor
  · intro hp
    refine ⟨⟨by rw [hp.length_eq, length_rawL hx.1, hx.2], fun d hd => mem_rawL (hp.subset hd)⟩, ?_⟩
    refine (counts_rawL hx.1 hn).symm.trans (List.map_congr_left ?_)
    intro d _
    exact (hp.count_eq d).symm
  · rintro ⟨⟨h1, h2⟩, rfl⟩
    rw [List.perm_iff_count]
    intro d
    rw [countsOf, count_rawL_map hn]
    split
    · rfl
    · rename_i hd
      exact List.count_eq_zero.2 fun hm => hd (h2 d hm)

theorem countsOf_mem_comps (c : Class N) (hn : c.eligible.Nodup) (p : List Nat) (h : ArrOf c p) :
    countsOf c p ∈ comps c.eligible.length c.values.length := by
  rw [mem_comps]
  refine ⟨by simp [countsOf], ?_⟩
  have hp : p.Perm (rawL (countsOf c p) c.eligible) := by
    rw [List.perm_iff_count]
    intro d
    rw [countsOf, count_rawL_map hn]
    split
    · rfl
    · rename_i hd
      exact List.count_eq_zero.2 fun hm => hd (h.2 d hm)
  have := hp.length_eq
  rw [length_rawL (by simp [countsOf])] at this
  rw [← this, h.1]

/-! ## Complete distributions -/

theorem mem_dfs (feas : List (List N → Bool)) (classes : List (Class N)) (rest : List (Class N))
    (cs d : List (List Nat)) :
    d ∈ dfs feas classes rest cs ↔ ∃ xs, d = cs ++ xs ∧
      List.Forall₂ (fun c x => x ∈ comps c.eligible.length c.values.length) rest xs ∧
      ∀ j, 0 < j → j ≤ xs.length → fz feas classes (cs ++ xs.take j) = true := by
  induction rest generalizing cs with
  | nil =>
    simp only [dfs, List.mem_singleton, List.forall₂_nil_left_iff]
    constructor
    · rintro rfl; exact ⟨[], by simp, rfl, by simp; omega⟩
    · rintro ⟨_, rfl, rfl, _⟩; simp
  | cons c rest ih =>
    simp only [dfs, List.mem_flatMap]
    constructor
    · rintro ⟨x, hx, hd⟩
      split at hd
      · rename_i hf
        obtain ⟨xs, rfl, h1, h2⟩ := (ih _).1 hd
        refine ⟨x :: xs, by simp, .cons hx h1, fun j hj1 hj2 => ?_⟩
        obtain ⟨j, rfl⟩ : ∃ i, j = i + 1 := ⟨j - 1, by omega⟩
        rw [List.take_succ_cons]
        by_cases hj : j = 0
        · subst hj; simpa using hf
        · have := h2 j (by omega) (by simpa using hj2)
          simpa using this
      · simp at hd
    · rintro ⟨xs, rfl, h1, h2⟩
      cases h1 with
      | cons hx h1 =>
        rename_i x xs
        refine ⟨x, hx, ?_⟩
        have hf := h2 1 (by omega) (by simp)
        simp only [List.take_succ_cons, List.take_zero] at hf
        rw [if_pos hf]
        refine (ih _).2 ⟨xs, by simp, h1, fun j hj1 hj2 => ?_⟩
        have := h2 (j + 1) (by omega) (by simpa using hj2)
        simpa using this

theorem nodup_dfs (feas : List (List N → Bool)) (classes : List (Class N)) (rest : List (Class N))
    (cs : List (List Nat)) : (dfs feas classes rest cs).Nodup := by
  induction rest generalizing cs with
  | nil => simp [dfs]
  | cons c rest ih =>
    simp only [dfs]
    rw [List.nodup_flatMap]
    constructor
    · intro x _; split
      · exact ih _
      · simp
    · refine (nodup_comps _ _).imp ?_
      intro a b hab d hd1 hd2
      simp only at hd1 hd2
      split at hd1
      · split at hd2
        · obtain ⟨xs, h1, _⟩ := (mem_dfs ..).1 hd1
          obtain ⟨ys, h2, _⟩ := (mem_dfs ..).1 hd2
          rw [h1] at h2
          simp only [List.append_assoc, List.append_cancel_left_eq, List.cons_append,
            List.nil_append, List.cons.injEq] at h2
          exact hab h2.1
        · simp at hd2
      · simp at hd1

theorem mem_expand (classes : List (Class N)) (hn : ∀ c ∈ classes, c.eligible.Nodup)
    (cs P : List (List Nat))
    (hcs : List.Forall₂ (fun c x => x ∈ comps c.eligible.length c.values.length) classes cs) :
    P ∈ expand classes cs ↔ List.Forall₂ ArrOf classes P ∧ cs = List.zipWith countsOf classes P := by
  rw [expand, mem_prodLE]
  induction hcs generalizing P with
  | nil => simp
  | cons hx _ ih =>
    rename_i c x classes cs _
    simp only [List.zip_cons_cons, List.map_cons]
    cases P with
    | nil => simp
    | cons p P =>
      simp only [List.forall₂_cons, List.zipWith_cons_cons, List.cons.injEq]
      rw [ih (fun c hc => hn c (by simp [hc])), mem_arr,
        perm_raw_iff c (hn c (by simp)) x p ((mem_comps _ _ _).1 hx)]
      tauto

/-- The permutation vectors visited by a run: one arrangement per class such that no prefix of the
distribution is refuted. -/
theorem mem_allPerms (feas : List (List N → Bool)) (classes : List (Class N))
    (hn : ∀ c ∈ classes, c.eligible.Nodup) (P : List (List Nat)) :
    P ∈ allPerms feas classes ↔ List.Forall₂ ArrOf classes P ∧
      ∀ j ≤ classes.length,
        fz feas classes ((List.zipWith countsOf classes P).take j) = true := by
  have hzl : List.Forall₂ ArrOf classes P → (List.zipWith countsOf classes P).length = classes.length := by
    intro h
    have := h.length_eq
    simp; omega
  have hcomp : List.Forall₂ ArrOf classes P → List.Forall₂
      (fun c x => x ∈ comps c.eligible.length c.values.length) classes
      (List.zipWith countsOf classes P) := by
    intro h
    induction h with
    | nil => exact .nil
    | cons h1 _ ih =>
      exact .cons (countsOf_mem_comps _ (hn _ (by simp)) _ h1) (ih (fun c hc => hn c (by simp [hc])) (by
        intro h; have := h.length_eq; simp; omega))
  unfold allPerms
  split
  · rename_i h0
    simp only [List.mem_flatMap, mem_dfs, List.nil_append]
    constructor
    · rintro ⟨_, ⟨_, rfl, h1, h2⟩, h3⟩
      obtain ⟨h4, rfl⟩ := (mem_expand classes hn _ P h1).1 h3
      refine ⟨h4, fun j hj => ?_⟩
      by_cases hj0 : j = 0
      · subst hj0; simpa using h0
      · exact h2 j (by omega) (by rw [hzl h4]; exact hj)
    · rintro ⟨h1, h2⟩
      refine ⟨_, ⟨_, rfl, hcomp h1, fun j _ hj => h2 j (by rwa [hzl h1] at hj)⟩, ?_⟩
      exact (mem_expand classes hn _ P (hcomp h1)).2 ⟨h1, rfl⟩
  · rename_i h0
    simp only [List.not_mem_nil, false_iff]
    rintro ⟨_, h2⟩
    exact h0 (by simpa using h2 0 (by omega))

theorem nodup_allPerms (feas : List (List N → Bool)) (classes : List (Class N))
    (hn : ∀ c ∈ classes, c.eligible.Nodup) : (allPerms feas classes).Nodup := by
  unfold allPerms
  split
  · rw [List.nodup_flatMap]
    constructor
    · intro cs _
      apply nodup_prodLE
      intro l hl
      obtain ⟨x, _, rfl⟩ := List.mem_map.1 hl
      exact nodup_arr _
    · have hd := nodup_dfs feas classes classes []
      have hp : ∀ {a b}, [a, b].Sublist (dfs feas classes classes []) → a ≠ b :=
        fun h => List.pairwise_iff_forall_sublist.1 hd h
      rw [List.pairwise_iff_forall_sublist]
      intro a b hab P hPa hPb
      have ha : a ∈ dfs feas classes classes [] := hab.subset (by simp)
      have hb : b ∈ dfs feas classes classes [] := hab.subset (by simp)
      obtain ⟨_, rfl, h1, _⟩ := (mem_dfs ..).1 ha
      obtain ⟨_, rfl, h2, _⟩ := (mem_dfs ..).1 hb
      simp only [List.nil_append] at *
      have e1 := ((mem_expand classes hn _ P h1).1 hPa).2
      have e2 := ((mem_expand classes hn _ P h2).1 hPb).2
      exact hp hab (e1.trans e2.symm)
  · simp

/-! ## Pools over-approximate the parts -/

/-- The pairs of a value and its bucket. -/
def placed (classes : List (Class N)) (P : List (List Nat)) : List (N × Nat) :=
  (classes.zip P).flatMap fun x => x.1.values.zip x.2

theorem part_sublist_pool (classes : List (Class N)) (P : List (List Nat))
    (h : List.Forall₂ ArrOf classes P) (counts : List (Option (List Nat)))
    (hc : List.Forall₂ (fun x o => o = none ∨ o = some x)
      (List.zipWith countsOf classes P) counts) (b : Nat) :
    (((placed classes P).filter fun x => x.2 == b).map Prod.fst).Sublist
      ((classes.zip counts).flatMap fun x => poolOf b x.1 x.2) := by
  unfold placed
  induction h generalizing counts with
  | nil => simp
  | cons h1 h2 ih =>
    rename_i c p classes P
    simp only [List.zipWith_cons_cons] at hc
    cases hc with
    | cons ho hc =>
      rename_i o counts
      simp only [List.zip_cons_cons, List.flatMap_cons, List.filter_append, List.map_append]
      refine List.Sublist.append ?_ (ih _ hc)
      have hempty : b ∉ p → ((c.values.zip p).filter fun x => x.2 == b).map Prod.fst = [] := by
        intro hb
        rw [List.map_eq_nil_iff, List.filter_eq_nil_iff]
        rintro ⟨v, d⟩ hm
        simp only [beq_iff_eq]
        rintro rfl
        exact hb (List.of_mem_zip hm).2
      have hsub : (((c.values.zip p).filter fun x => x.2 == b).map Prod.fst).Sublist c.values := by
        refine (List.filter_sublist.map Prod.fst).trans ?_
        rw [List.map_fst_zip (by rw [h1.1])]
      unfold poolOf
      split
      · rename_i hi
        rw [hempty (fun hb => by
          have := h1.2 b hb
          rw [List.idxOf?_eq_none_iff] at hi
          exact hi this)]
      · rename_i pos hi
        rcases ho with rfl | rfl
        · exact hsub
        · simp only
          split
          · exact hsub
          · rename_i hz
            rw [hempty]
            · intro hb
              apply hz
              have hget : (countsOf c p).getD pos 0 = p.count b := by
                have := List.of_findIdx?_eq_some (p := (· == b)) (xs := c.eligible) (i := pos)
                  (by simpa [List.idxOf?] using hi)
                revert this
                cases hg : c.eligible[pos]? with
                | none => simp
                | some e =>
                  simp only [beq_iff_eq]
                  rintro rfl
                  simp [countsOf, List.getD_eq_getElem?_getD, hg]
              rw [hget]
              exact List.count_pos_iff.2 hb

theorem feasibleNow_iff (s : CIter N) :
    s.feasibleNow = true ↔ ∀ (b : Nat) (f : List N → Bool), s.feas[b]? = some f →
      f (s.bucketPool b) = true := by
  unfold feasibleNow
  rw [List.all_eq_true]
  constructor
  · intro h b f hf
    exact h (f, b) (by rw [List.mem_zipIdx_iff_getElem?]; simpa using hf)
  · rintro h ⟨f, b⟩ hm
    rw [List.mem_zipIdx_iff_getElem?] at hm
    exact h b f (by simpa using hm)

/-- Every arrangement whose parts are acceptable is visited. -/
theorem mem_allPerms_of_accepted (feas : List (List N → Bool)) (classes : List (Class N))
    (hn : ∀ c ∈ classes, c.eligible.Nodup) (acc : Nat → List N → Prop)
    (hs : ∀ (b : Nat) (f : List N → Bool), feas[b]? = some f → ∀ pool sub : List N,
      sub.Sublist pool → acc b sub → f pool = true)
    (P : List (List Nat)) (hP : List.Forall₂ ArrOf classes P)
    (ha : ∀ b < feas.length,
      acc b (((placed classes P).filter fun x => x.2 == b).map Prod.fst)) :
    P ∈ allPerms feas classes := by
  rw [mem_allPerms feas classes hn]
  refine ⟨hP, fun j hj => ?_⟩
  rw [fz, feasibleNow_iff]
  intro b f hf
  have hb := (List.getElem?_eq_some_iff.1 hf).1
  refine hs b f hf _ _ ?_ (ha b hb)
  refine part_sublist_pool classes P hP _ ?_ b
  have hlen : (List.zipWith countsOf classes P).length = classes.length := by
    have := hP.length_eq; simp; omega
  show List.Forall₂ _ _ (full classes.length ((List.zipWith countsOf classes P).take j))
  generalize List.zipWith countsOf classes P = xs at *
  rw [← hlen]
  rw [← hlen] at hj
  clear hlen ha hP hs hb hf
  unfold full
  induction xs generalizing j with
  | nil => simp
  | cons x xs ih =>
    cases j with
    | zero =>
      have := ih 0 (by omega)
      simp only [List.take_zero, List.map_nil, List.nil_append, List.length_nil, Nat.sub_zero,
        List.length_cons, List.replicate_succ] at this ⊢
      exact .cons (Or.inl rfl) this
    | succ j =>
      have := ih j (by simpa using hj)
      simp only [List.take_succ_cons, List.map_cons, List.cons_append, List.length_cons,
        Nat.add_sub_add_right]
      exact .cons (Or.inr rfl) this

/-! ## Regrouping -/

/-- The destinations of the items in one class. -/
def splitF (elig : N → List Nat) (its : List N) (g : List Nat) (E : List Nat) : List Nat :=
  ((its.zip g).filter fun x => decide (elig x.1 = E)).map Prod.snd

theorem splitF_cons (elig : N → List Nat) (x : N) (its : List N) (d : Nat) (g E : List Nat) :
    splitF elig (x :: its) (d :: g) E =
      if elig x = E then d :: splitF elig its g E else splitF elig its g E := by
  simp only [splitF, List.zip_cons_cons, List.filter_cons]
  by_cases h : elig x = E <;> simp [h]

theorem filter_zip_split (elig : N → List Nat) (its : List N) (g E : List Nat)
    (hl : g.length = its.length) :
    (its.filter fun x => decide (elig x = E)).zip (splitF elig its g E) =
      (its.zip g).filter fun x => decide (elig x.1 = E) := by
  induction its generalizing g with
  | nil => simp
  | cons x its ih =>
    cases g with
    | nil => simp at hl
    | cons d g =>
      rw [splitF_cons]
      by_cases h : elig x = E
      · simp [h, ih g (by simpa using hl)]
      · simp [h, ih g (by simpa using hl)]

theorem length_splitF (elig : N → List Nat) (its : List N) (g E : List Nat)
    (hl : g.length = its.length) :
    (splitF elig its g E).length = (its.filter fun x => decide (elig x = E)).length := by
  induction its generalizing g with
  | nil => simp [splitF]
  | cons x its ih =>
    cases g with
    | nil => simp at hl
    | cons d g =>
      rw [splitF_cons]
      by_cases h : elig x = E
      · simp [h, ih g (by simpa using hl)]
      · simp [h, ih g (by simpa using hl)]

theorem mem_splitF (elig : N → List Nat) (its : List N) (g E : List Nat)
    (h : AssignsEligible elig its g) : ∀ d ∈ splitF elig its g E, d ∈ E := by
  induction h with
  | nil => simp [splitF]
  | cons h1 _ ih =>
    intro d hd
    rw [splitF_cons] at hd
    split at hd
    · rename_i he
      rcases List.mem_cons.1 hd with rfl | hd
      · rw [← he]; exact h1
      · exact ih d hd
    · exact ih d hd

theorem splitF_inj (elig : N → List Nat) (Es : List (List Nat)) (its : List N) (g g' : List Nat)
    (hcov : ∀ x ∈ its, elig x ∈ Es)
    (hl : g.length = its.length) (hl' : g'.length = its.length)
    (h : ∀ E ∈ Es, splitF elig its g E = splitF elig its g' E) : g = g' := by
  induction its generalizing g g' with
  | nil =>
    rw [List.length_nil, List.length_eq_zero_iff] at hl hl'
    rw [hl, hl']
  | cons x its ih =>
    cases g with
    | nil => simp at hl
    | cons d g =>
      cases g' with
      | nil => simp at hl'
      | cons d' g' =>
        have hx := h _ (hcov x (by simp))
        rw [splitF_cons, splitF_cons, if_pos rfl, if_pos rfl, List.cons.injEq] at hx
        rw [hx.1]
        congr 1
        refine ih g g' (fun y hy => hcov y (by simp [hy])) (by simpa using hl) (by simpa using hl') ?_
        intro E hE
        have := h E hE
        rw [splitF_cons, splitF_cons] at this
        split at this
        · rename_i he; rw [← he]; exact hx.2
        · exact this

theorem splitF_surj (elig : N → List Nat) (Es : List (List Nat)) (its : List N)
    (hcov : ∀ x ∈ its, elig x ∈ Es) (Q : List Nat → List Nat)
    (hQ : ∀ E ∈ Es, (Q E).length = (its.filter fun x => decide (elig x = E)).length ∧
      ∀ d ∈ Q E, d ∈ E) :
    ∃ g, AssignsEligible elig its g ∧ ∀ E ∈ Es, splitF elig its g E = Q E := by
  induction its generalizing Q with
  | nil =>
    refine ⟨[], .nil, fun E hE => ?_⟩
    have := (hQ E hE).1
    simp only [List.filter_nil, List.length_nil, List.length_eq_zero_iff] at this
    simp [splitF, this]
  | cons x its ih =>
    have hx := hQ _ (hcov x (by simp))
    cases hq : Q (elig x) with
    | nil => rw [hq] at hx; simp at hx
    | cons d q =>
      rw [hq] at hx
      obtain ⟨g, h1, h2⟩ := ih (fun y hy => hcov y (by simp [hy]))
        (fun E => if E = elig x then q else Q E) (by
          intro E hE
          by_cases he : E = elig x
          · subst he
            simp only [if_pos]
            refine ⟨by simpa using hx.1, fun d' hd' => hx.2 d' (by simp [hd'])⟩
          · have he' : ¬ elig x = E := fun h => he h.symm
            have := hQ E hE
            simp only [if_neg he]
            simpa [he'] using this)
      refine ⟨d :: g, .cons (hx.2 d (by simp)) h1, fun E hE => ?_⟩
      rw [splitF_cons]
      have := h2 E hE
      by_cases he : elig x = E
      · subst he; simp at this; simp [this, hq]
      · have he' : ¬ E = elig x := fun h => he h.symm
        simp only [if_neg he'] at this
        simp [he, this]

theorem flatMap_insert {A X : Type} [DecidableEq A] (Es : List A) (hn : Es.Nodup) (k : A)
    (hk : k ∈ Es) (a : X) (f : A → List X) :
    (Es.flatMap fun E => if k = E then a :: f E else f E).Perm (a :: Es.flatMap f) := by
  induction Es with
  | nil => simp at hk
  | cons E Es ih =>
    rw [List.nodup_cons] at hn
    simp only [List.flatMap_cons]
    by_cases he : k = E
    · subst he
      have : (Es.flatMap fun E => if k = E then a :: f E else f E) = Es.flatMap f := by
        apply List.flatMap_congr
        intro E hE
        rw [if_neg]
        rintro rfl
        exact hn.1 hE
      rw [this, if_pos rfl]
      exact List.Perm.refl _
    · rw [if_neg he]
      have := ih hn.2 (by simpa [he] using hk)
      refine (List.Perm.append_left _ this).trans ?_
      exact List.perm_middle

theorem flatMap_filter_perm {A X : Type} [DecidableEq A] (Es : List A) (hn : Es.Nodup)
    (key : X → A) (l : List X) (hcov : ∀ x ∈ l, key x ∈ Es) :
    (Es.flatMap fun E => l.filter fun x => decide (key x = E)).Perm l := by
  induction l with
  | nil => simp
  | cons x l ih =>
    have he : (Es.flatMap fun E => (x :: l).filter fun y => decide (key y = E)) =
        Es.flatMap fun E => if key x = E then x :: l.filter (fun y => decide (key y = E))
          else l.filter fun y => decide (key y = E) := by
      apply List.flatMap_congr
      intro E _
      by_cases h : key x = E <;> simp [h]
    rw [he]
    exact (flatMap_insert Es hn _ (hcov x (by simp)) x _).trans
      ((ih fun y hy => hcov y (by simp [hy])).cons x)

/-- The classes are the groups of items of equal eligibility. -/
structure Grouped (elig : N → List Nat) (its : List N) (classes : List (Class N)) : Prop where
  vals : ∀ c ∈ classes, c.values = its.filter fun x => decide (elig x = c.eligible)
  nodup : (classes.map (·.eligible)).Nodup
  cover : ∀ x ∈ its, elig x ∈ classes.map (·.eligible)

/-- The arrangement vector of an assignment. -/
def splitAll (elig : N → List Nat) (its : List N) (classes : List (Class N)) (g : List Nat) :
    List (List Nat) := classes.map fun c => splitF elig its g c.eligible

theorem splitAll_arr {elig : N → List Nat} {its : List N} {classes : List (Class N)}
    (hg : Grouped elig its classes) {g : List Nat} (h : AssignsEligible elig its g) :
    List.Forall₂ ArrOf classes (splitAll elig its classes g) := by
  have hl : g.length = its.length := h.length_eq.symm
  have : ∀ cs : List (Class N), (∀ c ∈ cs, c ∈ classes) →
      List.Forall₂ ArrOf cs (splitAll elig its cs g) := by
    intro cs
    induction cs with
    | nil => intro _; exact .nil
    | cons c cs ih =>
      intro hc
      refine .cons ⟨?_, mem_splitF elig its g _ h⟩ (ih fun c' h' => hc c' (by simp [h']))
      rw [hg.vals c (hc c (by simp)), length_splitF _ _ _ _ hl]
  exact this classes fun _ h => h

theorem splitAll_inj {elig : N → List Nat} {its : List N} {classes : List (Class N)}
    (hg : Grouped elig its classes) {g g' : List Nat} (h : g.length = its.length)
    (h' : g'.length = its.length)
    (he : splitAll elig its classes g = splitAll elig its classes g') : g = g' := by
  refine splitF_inj elig _ its g g' hg.cover h h' ?_
  intro E hE
  obtain ⟨c, hc, rfl⟩ := List.mem_map.1 hE
  exact List.map_inj_left.1 he c hc

theorem splitAll_surj {elig : N → List Nat} {its : List N} {classes : List (Class N)}
    (hg : Grouped elig its classes) {P : List (List Nat)} (hP : List.Forall₂ ArrOf classes P) :
    ∃ g, AssignsEligible elig its g ∧ splitAll elig its classes g = P := by
  have hQ : ∃ Q : List Nat → List Nat, P = classes.map fun c => Q c.eligible := by
    have hn := hg.nodup
    clear hg
    induction hP with
    | nil => exact ⟨fun _ => [], rfl⟩
    | cons h1 h2 ih =>
      rename_i c p cs P
      simp only [List.map_cons, List.nodup_cons] at hn
      obtain ⟨Q, rfl⟩ := ih hn.2
      refine ⟨fun E => if E = c.eligible then p else Q E, ?_⟩
      simp only [List.map_cons, if_pos]
      congr 1
      apply List.map_congr_left
      intro c' hc'
      rw [if_neg]
      intro he
      exact hn.1 (he ▸ List.mem_map_of_mem hc')
  obtain ⟨Q, rfl⟩ := hQ
  have hall : ∀ c ∈ classes, ArrOf c (Q c.eligible) := by
    intro c hc
    rw [List.forall₂_map_right_iff, List.forall₂_same] at hP
    exact hP c hc
  obtain ⟨g, h1, h2⟩ := splitF_surj elig (classes.map (·.eligible)) its hg.cover Q (by
    intro E hE
    obtain ⟨c, hc, rfl⟩ := List.mem_map.1 hE
    refine ⟨?_, (hall c hc).2⟩
    rw [(hall c hc).1, hg.vals c hc])
  refine ⟨g, h1, ?_⟩
  apply List.map_congr_left
  intro c hc
  exact h2 _ (List.mem_map_of_mem hc)

theorem placed_perm {elig : N → List Nat} {its : List N} {classes : List (Class N)}
    (hg : Grouped elig its classes) {g : List Nat} (hl : g.length = its.length) :
    (placed classes (splitAll elig its classes g)).Perm (its.zip g) := by
  have h1 : placed classes (splitAll elig its classes g) =
      (classes.map (·.eligible)).flatMap fun E =>
        (its.zip g).filter fun x => decide (elig x.1 = E) := by
    unfold placed splitAll
    rw [List.flatMap_map]
    have hv := hg.vals
    clear hg
    induction classes with
    | nil => rfl
    | cons c cs ih =>
      simp only [List.map_cons, List.zip_cons_cons, List.flatMap_cons]
      rw [ih fun c' h' => hv c' (by simp [h']), hv c (by simp), filter_zip_split _ _ _ _ hl]
  rw [h1]
  refine flatMap_filter_perm _ hg.nodup (fun x : N × Nat => elig x.1) _ ?_
  rintro ⟨x, d⟩ hx
  exact hg.cover x (List.of_mem_zip hx).1

/-! ## The classes built by `new` -/

theorem keys_upsert {X Y : Type} [DecidableEq X] (x : X) (d : Y) (f : Y → Y) (l : List (X × Y)) :
    (Rbe.upsert x d f l).map Prod.fst =
      if x ∈ l.map Prod.fst then l.map Prod.fst else l.map Prod.fst ++ [x] := by
  induction l with
  | nil => simp [Rbe.upsert]
  | cons e l ih =>
    obtain ⟨z, v⟩ := e
    simp only [Rbe.upsert]
    by_cases h : z = x
    · subst h; simp
    · have h' : ¬ x = z := fun e => h e.symm
      simp only [if_neg h, List.map_cons, ih, List.mem_cons, h', false_or]
      split <;> simp

theorem mem_upsert {X Y : Type} [DecidableEq X] (x : X) (d : Y) (f : Y → Y) (l : List (X × Y))
    (hn : (l.map Prod.fst).Nodup) (k : X) (v : Y) (h : (k, v) ∈ Rbe.upsert x d f l) :
    (k ≠ x ∧ (k, v) ∈ l) ∨ (k = x ∧ ∃ y, (x, y) ∈ l ∧ v = f y) ∨
      (k = x ∧ x ∉ l.map Prod.fst ∧ v = f d) := by
  induction l with
  | nil =>
    simp only [Rbe.upsert, List.mem_singleton, Prod.mk.injEq] at h
    right; right; simp [h]
  | cons e l ih =>
    obtain ⟨z, w⟩ := e
    simp only [List.map_cons, List.nodup_cons] at hn
    simp only [Rbe.upsert] at h
    by_cases hz : z = x
    · subst hz
      simp only [if_pos, List.mem_cons, Prod.mk.injEq] at h
      rcases h with ⟨rfl, rfl⟩ | h
      · right; left; exact ⟨rfl, w, by simp, rfl⟩
      · left
        refine ⟨?_, by simp [h]⟩
        rintro rfl
        exact hn.1 (List.mem_map_of_mem (f := Prod.fst) h)
    · simp only [if_neg hz, List.mem_cons] at h
      rcases h with h | h
      · obtain ⟨rfl, rfl⟩ := Prod.mk.injEq .. ▸ h
        left; exact ⟨hz, by simp⟩
      · rcases ih hn.2 h with ⟨h1, h2⟩ | ⟨h1, y, h2, h3⟩ | ⟨h1, h2, h3⟩
        · left; exact ⟨h1, by simp [h2]⟩
        · right; left; exact ⟨h1, y, by simp [h2], h3⟩
        · right; right
          refine ⟨h1, ?_, h3⟩
          have : ¬ x = z := fun e => hz e.symm
          simpa [this] using h2

theorem classMap_inv (elig : N → List Nat) (neighs : List N) :
    ((classMap elig neighs).map Prod.fst).Nodup ∧
    (∀ E vs, (E, vs) ∈ classMap elig neighs →
      E ≠ [] ∧ vs = neighs.filter (fun x => decide (elig x = E)) ∧ vs ≠ []) ∧
    (∀ x ∈ neighs, elig x ≠ [] → elig x ∈ (classMap elig neighs).map Prod.fst) := by
  induction neighs using List.reverseRecOn with
  | nil => simp [classMap]
  | append_singleton neighs x ih =>
    obtain ⟨h1, h2, h3⟩ := ih
    have hs : classMap elig (neighs ++ [x]) = if (elig x).isEmpty then classMap elig neighs
        else Rbe.upsert (elig x) [] (· ++ [x]) (classMap elig neighs) := by
      simp [classMap, List.foldl_append]
    rw [hs]
    split
    · rename_i he
      rw [List.isEmpty_iff] at he
      refine ⟨h1, fun E vs hm => ?_, fun y hy hne => ?_⟩
      · obtain ⟨a, b, c⟩ := h2 E vs hm
        refine ⟨a, ?_, c⟩
        rw [List.filter_append, ← b]
        have : ¬ [] = E := fun h => a h.symm
        simp [he, this]
      · simp only [List.mem_append, List.mem_singleton] at hy
        rcases hy with hy | rfl
        · exact h3 y hy hne
        · exact absurd he hne
    · rename_i he
      rw [List.isEmpty_iff] at he
      refine ⟨?_, fun E vs hm => ?_, fun y hy hne => ?_⟩
      · rw [keys_upsert]
        split
        · exact h1
        · rename_i hnm
          exact List.nodup_append.2 ⟨h1, by simp, by
            intro a ha b hb; rw [List.mem_singleton] at hb; subst hb; rintro rfl; exact hnm ha⟩
      · rw [List.filter_append]
        rcases mem_upsert _ _ _ _ h1 _ _ hm with ⟨a, b⟩ | ⟨rfl, y, b, c⟩ | ⟨rfl, b, c⟩
        · obtain ⟨p, q, r⟩ := h2 _ _ b
          have : ¬ elig x = E := fun h => a h.symm
          exact ⟨p, by simp [this, q], r⟩
        · obtain ⟨p, q, r⟩ := h2 _ _ b
          exact ⟨he, by simp [c, q], by simp [c]⟩
        · refine ⟨he, ?_, by simp [c]⟩
          have : neighs.filter (fun y => decide (elig y = elig x)) = [] := by
            rw [List.filter_eq_nil_iff]
            intro y hy
            simp only [decide_eq_true_eq]
            intro e
            exact b (e ▸ h3 y hy (e ▸ he))
          simp [this, c]
      · rw [keys_upsert]
        have hy' : elig y ∈ (classMap elig neighs).map Prod.fst ∨ elig y = elig x := by
          simp only [List.mem_append, List.mem_singleton] at hy
          rcases hy with hy | rfl
          · exact Or.inl (h3 y hy hne)
          · exact Or.inr rfl
        split
        · rename_i hm
          rcases hy' with h | h
          · exact h
          · exact h ▸ hm
        · rw [List.mem_append, List.mem_singleton]; exact hy'

theorem mkClasses_perm (order : List (List Nat × List N) → List (List Nat × List N))
    (ho : ∀ l, (order l).Perm l) (elig : N → List Nat) (neighs : List N) :
    (mkClasses order elig neighs).Perm ((classMap elig neighs).map fun x => ⟨x.2, x.1⟩) :=
  (List.perm_insertionSort _ _).trans ((ho _).map _)

theorem mkClasses_grouped (order : List (List Nat × List N) → List (List Nat × List N))
    (ho : ∀ l, (order l).Perm l) (elig : N → List Nat) (neighs : List N) :
    Grouped elig (neighs.filter fun x => !(elig x).isEmpty) (mkClasses order elig neighs) ∧
    ∀ c ∈ mkClasses order elig neighs, c.eligible ≠ [] ∧ ∃ x ∈ neighs, elig x = c.eligible := by
  obtain ⟨h1, h2, h3⟩ := classMap_inv elig neighs
  have hp := mkClasses_perm order ho elig neighs
  have hpe : ((mkClasses order elig neighs).map (·.eligible)).Perm
      ((classMap elig neighs).map Prod.fst) := by
    refine (hp.map _).trans ?_
    rw [List.map_map]
    exact List.Perm.of_eq rfl
  have hmem : ∀ c ∈ mkClasses order elig neighs, (c.eligible, c.values) ∈ classMap elig neighs := by
    intro c hc
    have := hp.subset hc
    obtain ⟨⟨E, vs⟩, hm, rfl⟩ := List.mem_map.1 this
    exact hm
  refine ⟨⟨fun c hc => ?_, hpe.nodup_iff.2 h1, fun x hx => ?_⟩, fun c hc => ?_⟩
  · obtain ⟨a, b, _⟩ := h2 _ _ (hmem c hc)
    rw [b, List.filter_filter]
    apply List.filter_congr
    intro x _
    by_cases he : elig x = c.eligible
    · simp [he, a]
    · simp [he]
  · rw [List.mem_filter] at hx
    refine hpe.mem_iff.2 (h3 x hx.1 ?_)
    simpa using hx.2
  · obtain ⟨a, b, d⟩ := h2 _ _ (hmem c hc)
    refine ⟨a, ?_⟩
    obtain ⟨x, hx⟩ := List.exists_mem_of_ne_nil _ d
    rw [b, List.mem_filter] at hx
    exact ⟨x, hx.1, by simpa using hx.2⟩

end Part
