import Verif.Part.Spec
import Mathlib.Data.List.Nodup
import Mathlib.Data.List.Perm.Basic

/-!
# Helper lemmas: orbits, odometers and k-partitions
-/

namespace Part

section Generic
variable {S T : Type}

theorem Drains.unique {step : S → Option (Option T × S)} {s : S} {o1 o2 : List T}
    (h1 : Drains step s o1) (h2 : Drains step s o2) : o1 = o2 := by
  induction h1 generalizing o2 with
  | stop h =>
    cases h2 with
    | stop _ => rfl
    | turn h' _ => rw [h] at h'; cases h'
  | turn h hd ih =>
    cases h2 with
    | stop h' => rw [h] at h'; cases h'
    | turn h' hd' =>
      rw [h] at h'
      simp only [Option.some.injEq, Prod.mk.injEq] at h'
      obtain ⟨rfl, rfl⟩ := h'
      rw [ih hd']

theorem drains_of_drain {step : S → Option (Option T × S)} {n : Nat} {s : S} {o : List T}
    (h : drain step n s = some o) : Drains step s o := by
  induction n generalizing s o with
  | zero => cases h
  | succ n ih =>
    simp only [drain] at h
    split at h
    · rename_i hs; cases h; exact .stop hs
    · rename_i out s' hs
      rw [Option.map_eq_some_iff] at h
      obtain ⟨o', ho, rfl⟩ := h
      exact .turn hs (ih ho)

theorem drain_of_drains {step : S → Option (Option T × S)} {s : S} {o : List T}
    (h : Drains step s o) : ∃ n, drain step n s = some o := by
  induction h with
  | stop h => exact ⟨1, by simp [drain, h]⟩
  | turn h hd ih =>
    obtain ⟨n, hn⟩ := ih
    exact ⟨n + 1, by simp [drain, h, hn]⟩

/-- An odometer: wheels advanced by `f`, reset by `r`, the first wheel turns fastest. -/
def adv (f : S → Option S) (r : S → S) : List S → Option (List S)
  | [] => none
  | s :: ss =>
    match f s with
    | some s' => some (s' :: ss)
    | none => (adv f r ss).map (r s :: ·)

/-- All choices of one element per list, the first list turning fastest. -/
def prodLE : List (List S) → List (List S)
  | [] => [[]]
  | l :: ls => (prodLE ls).flatMap fun t => l.map (· :: t)

theorem mem_prodLE (ls : List (List S)) (x : List S) :
    x ∈ prodLE ls ↔ List.Forall₂ (fun l a => a ∈ l) ls x := by
  induction ls generalizing x with
  | nil => simp [prodLE]
  | cons l ls ih =>
    simp only [prodLE, List.mem_flatMap, List.mem_map]
    constructor
    · rintro ⟨t, ht, a, ha, rfl⟩
      exact .cons ha ((ih t).1 ht)
    · intro h
      cases h with
      | cons ha ht => exact ⟨_, (ih _).2 ht, _, ha, rfl⟩

theorem nodup_prodLE (ls : List (List S)) (h : ∀ l ∈ ls, l.Nodup) : (prodLE ls).Nodup := by
  induction ls with
  | nil => simp [prodLE]
  | cons l ls ih =>
    have ih := ih (fun l hl => h l (by simp [hl]))
    simp only [prodLE]
    rw [List.nodup_flatMap]
    constructor
    · intro t _
      exact (h l (by simp)).map (fun a b hab => by simpa using hab)
    · refine ih.imp ?_
      intro a b hab x hx hy
      obtain ⟨u, _, rfl⟩ := List.mem_map.1 hx
      obtain ⟨v, _, h2⟩ := List.mem_map.1 hy
      simp only [List.cons.injEq] at h2
      exact hab h2.2.symm

theorem orbit_tail {f : S → Option S} {r : S → S} {s : S} {t : List S} {rest : List (List S)}
    (hrest : (adv f r t = none ∧ rest = []) ∨
      ∃ t', adv f r t = some t' ∧ Orbit (adv f r) (s :: t') rest)
    {x : S} {l : List S} (ho : Orbit f x l) (hr : ∀ y ∈ l, r y = s) :
    Orbit (adv f r) (x :: t) (l.map (· :: t) ++ rest) := by
  induction ho with
  | last h =>
    rename_i y
    have hy := hr y (by simp)
    rcases hrest with ⟨h1, rfl⟩ | ⟨t', h1, h2⟩
    · exact .last (by simp [adv, h, h1])
    · exact .next (s' := s :: t') (by simp [adv, h, h1, hy]) h2
  | next h _ ih =>
    refine .next (s' := _ :: t) ?_ (ih fun y hy => hr y (by simp [hy]))
    simp [adv, h]

theorem orbit_adv (f : S → Option S) (r : S → S) (wheels : List (S × List S))
    (h : ∀ w ∈ wheels, Orbit f w.1 w.2 ∧ ∀ x ∈ w.2, r x = w.1) :
    Orbit (adv f r) (wheels.map Prod.fst) (prodLE (wheels.map Prod.snd)) := by
  induction wheels with
  | nil => exact .last rfl
  | cons w ws ih =>
    have ih := ih (fun v hv => h v (by simp [hv]))
    obtain ⟨hw, hr⟩ := h w (by simp)
    simp only [List.map_cons, prodLE]
    generalize prodLE (ws.map Prod.snd) = M at ih
    generalize ws.map Prod.fst = t at ih
    induction ih with
    | last ht =>
      have := orbit_tail (rest := []) (Or.inl ⟨ht, rfl⟩) hw hr
      simpa using this
    | next ht _ ih2 =>
      exact orbit_tail (Or.inr ⟨_, ht, ih2⟩) hw hr

theorem Orbit.eq_cons {f : S → Option S} {s : S} {l : List S} (h : Orbit f s l) :
    l = s :: l.tail := by
  cases h <;> rfl

theorem Orbit.mem_head {f : S → Option S} {s : S} {l : List S} (h : Orbit f s l) : s ∈ l := by
  cases h <;> simp

end Generic

/-! ## Filling the parts -/

section Fill
variable {T : Type}

theorem fill_spec (k : Nat) (pairs : List (T × Nat)) :
    KIter.fill k pairs =
      (List.range k).map fun b => (pairs.filter fun x => x.2 == b).map Prod.fst := by
  unfold KIter.fill
  have gen : ∀ (acc : Nat → List T),
      pairs.foldl (fun ps x => ps.modify x.2 (· ++ [x.1])) ((List.range k).map acc) =
      (List.range k).map fun b => acc b ++ (pairs.filter fun x => x.2 == b).map Prod.fst := by
    induction pairs with
    | nil => intro acc; simp
    | cons p ps ih =>
      intro acc
      obtain ⟨x, d⟩ := p
      have hm : ((List.range k).map acc).modify d (· ++ [x]) =
          (List.range k).map fun b => if d = b then acc b ++ [x] else acc b := by
        apply List.ext_getElem
        · simp
        · intro i h1 h2
          simp only [List.getElem_modify, List.getElem_map, List.getElem_range]
      simp only [List.foldl_cons, hm, ih]
      apply List.map_congr_left
      intro b _
      by_cases hb : d = b
      · simp [hb, List.append_assoc]
      · simp [hb]
  have h0 : List.replicate k ([] : List T) = (List.range k).map fun _ => [] := by
    simp
  rw [h0, gen]
  simp

theorem fill_group (k : Nat) (items : List T) (g : List Nat) :
    KIter.fill k (items.zip g) = (List.range k).map (group items g) := fill_spec _ _

end Fill

/-! ## The k-partition odometer -/

/-- One digit. -/
def digit (k : Nat) (d : Nat) : Option Nat := if d + 1 < k then some (d + 1) else none

theorem orbit_digit (k : Nat) (hk : 0 < k) : Orbit (digit k) 0 (List.range k) := by
  have gen : ∀ j d, d + j + 1 = k → Orbit (digit k) d (List.range' d (j + 1)) := by
    intro j
    induction j with
    | zero => intro d hd; exact .last (by simp [digit]; omega)
    | succ j ih =>
      intro d hd
      rw [List.range'_succ]
      refine .next (s' := d + 1) ?_ (ih (d + 1) (by omega))
      have : d + 1 < k := by omega
      simp [digit, this]
  obtain ⟨j, rfl⟩ : ∃ j, k = j + 1 := ⟨k - 1, by omega⟩
  have := gen j 0 (by omega)
  rwa [← List.range_eq_range'] at this

theorem increment_false (k : Nat) (ds : List Nat) : KIter.increment k false ds = (ds, false) := by
  induction ds with
  | nil => rfl
  | cons d ds ih => simp [KIter.increment, ih]

theorem increment_true (k : Nat) (ds : List Nat) :
    (if (KIter.increment k true ds).2 then none else some (KIter.increment k true ds).1) =
      adv (digit k) (fun _ => 0) ds := by
  induction ds with
  | nil => rfl
  | cons d ds ih =>
    simp only [KIter.increment, adv, digit]
    by_cases h : d + 1 < k
    · simp [h, increment_false]
    · simp only [h, if_false]
      rw [← ih]
      cases (KIter.increment k true ds).2 <;> simp

variable {T : Type}

theorem kiter_drains (items : List T) (preds : List (List T → Bool)) {a : List Nat}
    {l : List (List Nat)} (h : Orbit (adv (digit preds.length) (fun _ => 0)) a l) :
    Drains KIter.step ⟨items, preds.length, some a, preds⟩
      ((l.map fun g => (List.range preds.length).map (group items g)).filter fun p =>
        (p.zip preds).all fun x => x.2 x.1) := by
  induction h with
  | last h =>
    rename_i s
    have h2 := increment_true preds.length s
    rw [h] at h2
    have hs : KIter.step ⟨items, preds.length, some s, preds⟩ =
        some (if ((((List.range preds.length).map (group items s)).zip preds).all fun x => x.2 x.1)
          then some ((List.range preds.length).map (group items s)) else none,
          ⟨items, preds.length, none, preds⟩) := by
      simp only [KIter.step, fill_group, h2]
    have := Drains.turn hs (.stop (by simp [KIter.step]))
    simp only [List.map_cons, List.map_nil, List.filter_cons, List.filter_nil]
    split <;> simp_all
  | next h hl ih =>
    rename_i s s' l
    have h2 := increment_true preds.length s
    rw [h] at h2
    have hs : KIter.step ⟨items, preds.length, some s, preds⟩ =
        some (if ((((List.range preds.length).map (group items s)).zip preds).all fun x => x.2 x.1)
          then some ((List.range preds.length).map (group items s)) else none,
          ⟨items, preds.length, some s', preds⟩) := by
      simp only [KIter.step, fill_group, h2]
    have := Drains.turn hs ih
    simp only [List.map_cons, List.filter_cons]
    split <;> simp_all

theorem kiter_orbit (k n : Nat) (h : n ≠ 0 → 0 < k) :
    Orbit (adv (digit k) (fun _ => 0)) (List.replicate n 0)
      (prodLE (List.replicate n (List.range k))) := by
  by_cases hn : n = 0
  · subst hn; exact .last rfl
  · have := orbit_adv (digit k) (fun _ => 0) (List.replicate n (0, List.range k)) (by
      intro w hw
      rw [List.mem_replicate] at hw
      rw [hw.2]
      exact ⟨orbit_digit k (h hn), fun _ _ => rfl⟩)
    simpa using this

theorem mem_digits (k n : Nat) (g : List Nat) :
    g ∈ prodLE (List.replicate n (List.range k)) ↔ g.length = n ∧ ∀ d ∈ g, d < k := by
  rw [mem_prodLE]
  induction n generalizing g with
  | zero => simp [List.length_eq_zero_iff]; rintro rfl; simp
  | succ n ih =>
    cases g with
    | nil => simp [List.replicate_succ]
    | cons d g => simp [List.replicate_succ, ih]; tauto

theorem zip_all_iff (f : Nat → List T) (preds : List (List T → Bool)) :
    ((((List.range preds.length).map f).zip preds).all fun x => x.2 x.1) = true ↔
      ∀ (b : Nat) (p : List T → Bool), preds[b]? = some p → p (f b) = true := by
  rw [List.all_eq_true]
  constructor
  · intro h b p hp
    obtain ⟨hb, rfl⟩ := List.getElem?_eq_some_iff.1 hp
    refine h (f b, preds[b]) ?_
    rw [List.mem_iff_getElem]
    exact ⟨b, by simpa using hb, by simp⟩
  · rintro h ⟨x, p⟩ hx
    rw [List.mem_iff_getElem] at hx
    obtain ⟨b, hb, he⟩ := hx
    simp only [List.getElem_zip, List.getElem_map, List.getElem_range, Prod.mk.injEq] at he
    obtain ⟨rfl, rfl⟩ := he
    exact h b _ (List.getElem?_eq_getElem _)

end Part
