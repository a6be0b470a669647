import Verif.Part.LemmasComp

/-!
# Helper lemmas: the depth-first search of the class-based iterator
-/

namespace Part
open CIter

variable {N : Type}

/-- The bucket numbers of a class before sorting. -/
def raw (c : Class N) (x : List Nat) : List Nat :=
  (x.zip c.eligible).flatMap fun p => List.replicate p.1 p.2

/-- All arrangements of a multiset in the order of `nextPermutation`. -/
noncomputable def arr (l : List Nat) : List (List Nat) := Classical.choose (orbit_sorted l)

theorem orbit_arr (l : List Nat) : Orbit nextPermutation (l.insertionSort (· ≤ ·)) (arr l) :=
  (Classical.choose_spec (orbit_sorted l)).1

theorem nodup_arr (l : List Nat) : (arr l).Nodup :=
  (Classical.choose_spec (orbit_sorted l)).2.1.imp (fun h => ne_of_lt h)

theorem mem_arr (l c : List Nat) : c ∈ arr l ↔ c.Perm l :=
  (Classical.choose_spec (orbit_sorted l)).2.2 c

theorem insertionSort_perm {a b : List Nat} (h : a.Perm b) :
    a.insertionSort (· ≤ ·) = b.insertionSort (· ≤ ·) :=
  List.Perm.eq_of_pairwise (fun x y _ _ h1 h2 => le_antisymm h1 h2)
    (List.pairwise_insertionSort _ a) (List.pairwise_insertionSort _ b)
    ((List.perm_insertionSort _ a).trans (h.trans (List.perm_insertionSort _ b).symm))

theorem advancePerms_eq (ps : List (List Nat)) :
    advancePerms ps = adv nextPermutation (fun p => p.insertionSort (· ≤ ·)) ps := by
  induction ps with
  | nil => rfl
  | cons p ps ih =>
    simp only [advancePerms, adv, ih]
    cases nextPermutation p <;> rfl

/-- The permutation vectors realising a complete distribution. -/
noncomputable def expand (classes : List (Class N)) (cs : List (List Nat)) :
    List (List (List Nat)) :=
  prodLE ((classes.zip cs).map fun x => arr (raw x.1 x.2))

/-- Counts with the first levels committed. -/
def full (n : Nat) (cs : List (List Nat)) : List (Option (List Nat)) :=
  cs.map some ++ List.replicate (n - cs.length) none

theorem orbit_expand (classes : List (Class N)) (cs : List (List Nat))
    (h : cs.length = classes.length) :
    Orbit advancePerms
      ((classes.zip (full classes.length cs)).map fun x => initPerm x.1 (x.2.getD []))
      (expand classes cs) := by
  have he : advancePerms = adv nextPermutation (fun p => p.insertionSort (· ≤ ·)) :=
    funext advancePerms_eq
  rw [he]
  have := orbit_adv nextPermutation (fun p => p.insertionSort (· ≤ ·))
    ((classes.zip cs).map fun x => ((raw x.1 x.2).insertionSort (· ≤ ·), arr (raw x.1 x.2))) (by
      intro w hw
      obtain ⟨x, _, rfl⟩ := List.mem_map.1 hw
      exact ⟨orbit_arr _, fun y hy => insertionSort_perm ((mem_arr _ _).1 hy)⟩)
  simp only [List.map_map, Function.comp_def] at this
  have h2 : (classes.zip (full classes.length cs)).map (fun x => initPerm x.1 (x.2.getD [])) =
      (classes.zip cs).map fun x => (raw x.1 x.2).insertionSort (· ≤ ·) := by
    simp only [full, h, Nat.sub_self, List.replicate_zero, List.append_nil]
    rw [List.zip_map_right, List.map_map]
    rfl
  rw [h2]
  exact this

/-- State with the given counts, level, permutations and control point. -/
def mk (feas : List (List N → Bool)) (classes : List (Class N)) (counts : List (Option (List Nat)))
    (level : Nat) (perms : Option (List (List Nat))) (pc : Pc) : CIter N :=
  ⟨feas, classes, counts, level, perms, false, pc⟩

/-- `feasible_now` for a committed prefix. -/
def fz (feas : List (List N → Bool)) (classes : List (Class N)) (cs : List (List Nat)) : Bool :=
  (mk feas classes (full classes.length cs) 0 none .entry).feasibleNow

/-- The distributions found by the search below a committed prefix. -/
def dfs (feas : List (List N → Bool)) (classes : List (Class N)) :
    List (Class N) → List (List Nat) → List (List (List Nat))
  | [], cs => [cs]
  | c :: rest, cs =>
    (comps c.eligible.length c.values.length).flatMap fun x =>
      if fz feas classes (cs ++ [x]) then dfs feas classes rest (cs ++ [x]) else []

section Machine
variable (feas : List (List N → Bool)) (classes : List (Class N))

/-- What happens after the search below level `lvl` is finished. -/
def Kont (lvl : Nat) (cs : List (List Nat)) (outs : List (List (List N))) : Prop :=
  if lvl = 0 then outs = []
  else Drains step (mk feas classes (full classes.length cs) (lvl - 1) none .outer) outs

theorem drains_expand {counts : List (Option (List Nat))} {P : List (List Nat)}
    {L : List (List (List Nat))} {outs : List (List (List N))} {lvl : Nat}
    (ho : Orbit advancePerms P L) (hl : lvl = classes.length)
    (hk : if lvl = 0 then outs = []
      else Drains step (mk feas classes counts (lvl - 1) none .outer) outs) :
    Drains step (mk feas classes counts lvl (some P) .entry)
      (L.tail.map (subsets feas.length classes) ++ outs) := by
  induction ho with
  | last h =>
    rename_i p
    simp only [List.tail_cons, List.map_nil, List.nil_append]
    by_cases h0 : lvl = 0
    · rw [if_pos h0] at hk
      subst hk
      refine .stop ?_
      subst h0
      have : classes = [] := List.length_eq_zero_iff.1 hl.symm
      subst this
      simp [step, mk, h]
    · rw [if_neg h0] at hk
      have hne : classes.isEmpty = false := by
        cases classes with
        | nil => simp at hl; exact absurd hl h0
        | cons => rfl
      have hs : step (mk feas classes counts lvl (some p) .entry) =
          some (none, mk feas classes counts (lvl - 1) none .outer) := by
        simp [step, mk, h, hne]
      exact .turn hs hk
  | next h ho ih =>
    rename_i p p' L'
    have hs : step (mk feas classes counts lvl (some p) .entry) =
        some (some (subsets feas.length classes p'),
          mk feas classes counts lvl (some p') .entry) := by
      simp [step, mk, h, currentPartition]
    have := Drains.turn hs ih
    simp only [List.tail_cons]
    have hL : L' = p' :: L'.tail := by cases ho <;> rfl
    rw [hL]
    simpa using this

theorem full_length (n : Nat) (cs : List (List Nat)) (h : cs.length ≤ n) :
    (full n cs).length = n := by simp [full]; omega

theorem full_getD (n : Nat) (cs : List (List Nat)) (x : List Nat) :
    (full n (cs ++ [x])).getD cs.length none = some x := by
  simp [full, List.getD_eq_getElem?_getD]

theorem full_getD_none (n : Nat) (cs : List (List Nat)) :
    (full n cs).getD cs.length none = none := by
  simp only [full, List.getD_eq_getElem?_getD]
  rw [List.getElem?_append_right (by simp)]
  simp only [List.length_map, Nat.sub_self, List.getElem?_replicate]
  split <;> rfl

theorem full_set (n : Nat) (cs : List (List Nat)) (h : cs.length < n) (x : List Nat) :
    (full n cs).set cs.length (some x) = full n (cs ++ [x]) := by
  obtain ⟨m, hm⟩ : ∃ m, n - cs.length = m + 1 := ⟨n - cs.length - 1, by omega⟩
  have hm2 : n - (cs ++ [x]).length = m := by simp; omega
  simp only [full, hm, hm2, List.replicate_succ]
  rw [List.set_append_right _ _ (by simp)]
  simp

theorem full_set' (n : Nat) (cs : List (List Nat)) (x y : List Nat) :
    (full n (cs ++ [x])).set cs.length (some y) = full n (cs ++ [y]) := by
  simp only [full, List.map_append, List.map_cons, List.map_nil, List.append_assoc,
    List.length_append, List.length_cons, List.length_nil]
  rw [List.set_append_right _ _ (by simp)]
  simp

theorem full_set_none (n : Nat) (cs : List (List Nat)) (h : cs.length < n) (x : List Nat) :
    (full n (cs ++ [x])).set cs.length none = full n cs := by
  obtain ⟨m, hm⟩ : ∃ m, n - cs.length = m + 1 := ⟨n - cs.length - 1, by omega⟩
  have hm2 : n - (cs ++ [x]).length = m := by simp; omega
  simp only [full, hm, hm2, List.map_append, List.map_cons, List.map_nil, List.append_assoc,
    List.replicate_succ]
  rw [List.set_append_right _ _ (by simp)]
  simp

/-- Turning to the next composition at the current level. -/
theorem drains_next {cs : List (List Nat)} (hlt : cs.length < classes.length) {x : List Nat}
    {outs : List (List (List N))} (pc : Pc) (hpc : pc = .outer ∨ pc = .inner false)
    (h : (nextComposition x = none ∧ Kont feas classes cs.length cs outs) ∨
      ∃ y, nextComposition x = some y ∧
        Drains step (mk feas classes (full classes.length (cs ++ [y])) cs.length none
          (.inner (fz feas classes (cs ++ [y])))) outs) :
    Drains step (mk feas classes (full classes.length (cs ++ [x])) cs.length none pc) outs := by
  have hg := full_getD classes.length cs x
  have hb : ∀ s : CIter N, s = mk feas classes (full classes.length (cs ++ [x])) cs.length none pc →
      nextComposition x = none → step s = backtrack s := by
    rintro s rfl hn
    rcases hpc with rfl | rfl
    · simp only [step, mk, hg, hn]
      rw [if_neg (by omega)]
    · simp only [step, mk, hg, hn]
  rcases h with ⟨hn, hk⟩ | ⟨y, hn, hd⟩
  · have hs := hb _ rfl hn
    simp only [backtrack, mk, full_set_none _ _ hlt] at hs
    unfold Kont at hk
    by_cases h0 : cs.length = 0
    · rw [if_pos h0] at hk hs
      subst hk
      exact .stop hs
    · rw [if_neg h0] at hk hs
      exact .turn hs hk
  · refine .turn (out := none) ?_ hd
    rcases hpc with rfl | rfl
    · simp only [step, mk, hg, hn]
      rw [if_neg (by omega)]
      simp only [full_set']
      rfl
    · simp only [step, mk, hg, hn, full_set']
      rfl

theorem drains_dfs (hel : ∀ c ∈ classes, c.eligible ≠ []) :
    ∀ (rest done : List (Class N)) (cs : List (List Nat)) (outs : List (List (List N))),
      classes = done ++ rest → cs.length = done.length →
      Kont feas classes cs.length cs outs →
      Drains step (mk feas classes (full classes.length cs) cs.length none .outer)
        ((dfs feas classes rest cs).flatMap
          (fun d => (expand classes d).map (subsets feas.length classes)) ++ outs) := by
  intro rest
  induction rest with
  | nil =>
    intro done cs outs hc hlen hk
    have hn : cs.length = classes.length := by rw [hc, hlen]; simp
    have ho := orbit_expand classes cs hn
    have hd := drains_expand feas classes (counts := full classes.length cs) ho hn hk
    have hs : step (mk feas classes (full classes.length cs) cs.length none .outer) =
        some (some (subsets feas.length classes
            ((classes.zip (full classes.length cs)).map fun x => initPerm x.1 (x.2.getD []))),
          mk feas classes (full classes.length cs) cs.length
            (some ((classes.zip (full classes.length cs)).map fun x => initPerm x.1 (x.2.getD [])))
            .entry) := by
      simp only [step, mk, hn, if_true]
      rfl
    have := Drains.turn hs hd
    simp only [dfs, List.flatMap_cons, List.flatMap_nil, List.append_nil]
    have hL : expand classes cs = ((classes.zip (full classes.length cs)).map
        fun x => initPerm x.1 (x.2.getD [])) :: (expand classes cs).tail := ho.eq_cons
    rw [hL]
    simpa using this
  | cons c rest ih =>
    intro done cs outs hc hlen hk
    have hlt : cs.length < classes.length := by rw [hc, hlen]; simp
    have hcl : classes[cs.length]? = some c := by rw [hc, hlen]; simp
    have hcm : c ∈ classes := by rw [hc]; simp
    have he : 0 < c.eligible.length := List.length_pos_of_ne_nil (hel c hcm)
    have loop : ∀ {x : List Nat} {L : List (List Nat)}, Orbit nextComposition x L →
        Drains step (mk feas classes (full classes.length (cs ++ [x])) cs.length none
          (.inner (fz feas classes (cs ++ [x]))))
          ((L.flatMap fun x =>
            if fz feas classes (cs ++ [x]) then dfs feas classes rest (cs ++ [x]) else []).flatMap
          (fun d => (expand classes d).map (subsets feas.length classes)) ++ outs) := by
      intro x L ho
      have body : ∀ {x : List Nat} {outs' : List (List (List N))},
          (∀ pc, (pc = Pc.outer ∨ pc = .inner false) →
            Drains step (mk feas classes (full classes.length (cs ++ [x])) cs.length none pc)
              outs') →
          Drains step (mk feas classes (full classes.length (cs ++ [x])) cs.length none
            (.inner (fz feas classes (cs ++ [x]))))
            ((if fz feas classes (cs ++ [x]) then dfs feas classes rest (cs ++ [x]) else []).flatMap
              (fun d => (expand classes d).map (subsets feas.length classes)) ++ outs') := by
        intro x outs' hcont
        cases hf : fz feas classes (cs ++ [x]) with
        | false => simpa using hcont _ (Or.inr rfl)
        | true =>
          simp only [if_true]
          have hlen2 : (cs ++ [x]).length = cs.length + 1 := by simp
          have := ih (done ++ [c]) (cs ++ [x]) outs' (by rw [hc]; simp) (by simp [hlen]) (by
            unfold Kont
            rw [if_neg (by simp), hlen2, Nat.add_sub_cancel]
            exact hcont _ (Or.inl rfl))
          rw [hlen2] at this
          refine .turn (out := none) ?_ this
          simp [step, mk]
      induction ho with
      | last h =>
        simp only [List.flatMap_cons, List.flatMap_nil, List.append_nil]
        exact body fun pc hpc => drains_next feas classes hlt pc hpc (Or.inl ⟨h, hk⟩)
      | next h _ ih2 =>
        simp only [List.flatMap_cons, List.flatMap_append, List.append_assoc]
        exact body fun pc hpc => drains_next feas classes hlt pc hpc (Or.inr ⟨_, h, ih2⟩)
    have := loop (orbit_comps c.eligible.length c.values.length he)
    refine .turn (out := none) ?_ this
    have hne : ¬ cs.length = classes.length := by omega
    simp only [step, mk, full_getD_none, hcl, full_set _ _ hlt]
    exact if_neg hne

end Machine

/-- The permutation vectors of a whole run. -/
noncomputable def allPerms (feas : List (List N → Bool)) (classes : List (Class N)) :
    List (List (List Nat)) :=
  if fz feas classes [] then (dfs feas classes classes []).flatMap (expand classes) else []

theorem drains_new (order : List (List Nat × List N) → List (List Nat × List N))
    (elig : N → List Nat) (feas : List (List N → Bool)) (neighs : List N)
    (hel : ∀ c ∈ mkClasses order elig neighs, c.eligible ≠ []) :
    Drains step (CIter.new order elig feas neighs)
      ((allPerms feas (mkClasses order elig neighs)).map
        (subsets feas.length (mkClasses order elig neighs))) := by
  generalize hc : mkClasses order elig neighs = classes at *
  have h0 : full classes.length [] = List.replicate classes.length none := by simp [full]
  have hnew : CIter.new order elig feas neighs =
      if fz feas classes [] then mk feas classes (full classes.length []) 0 none .entry
      else { mk feas classes (full classes.length []) 0 none .entry with exhausted := true } := by
    simp only [CIter.new, hc, h0, fz]
    rfl
  rw [hnew]
  unfold allPerms
  cases hf : fz feas classes [] with
  | false => exact .stop (by simp [step, mk])
  | true =>
    simp only [if_true]
    have := drains_dfs feas classes hel classes [] [] [] rfl rfl (by simp [Kont])
    rw [List.append_nil] at this
    rw [List.map_flatMap]
    refine .turn (out := none) ?_ this
    simp [step, mk]

end Part
