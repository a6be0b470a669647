import Verif.Shacl.EngineLemmas
import Mathlib.Data.Nat.Find

/-!
# Lemmas: existence of the meaning, runs and schedules
-/

namespace Shacl

variable {T O P Q : Type} [DecidableEq T] [DecidableEq O] [DecidableEq P] [DecidableEq Q]

section
variable {W : World T O P Q} {rank : Nat → Nat}

theorem compRes_congr {V V' : Verdict T O P Q} (i : Nat) (x : T) (vs : List T) (c : Comp Q)
    (h : ∀ j ∈ c.refs, ∀ y, V j y = V' j y) : compRes W V i x vs c = compRes W V' i x vs c := by
  cases c with
  | prim q => rfl
  | and l =>
    refine faults_congr i .and x _ _ vs fun y => ?_
    exact exists_congr fun j => and_congr_right fun hj => by rw [h j hj]
  | or l =>
    refine faults_congr i .or x _ _ vs fun y => ?_
    exact forall_congr' fun j => imp_congr_right fun hj => by rw [h j hj]
  | not j => exact faults_congr i .not x _ _ vs fun y => by rw [h j (by simp [Comp.refs])]
  | xone l =>
    refine faults_congr i .xone x _ _ vs fun y => ?_
    rw [List.countP_congr fun j hj => by rw [h j hj]]
  | node j => exact faults_congr i .node x _ _ vs fun y => by rw [h j (by simp [Comp.refs])]
  | qual j mn mx sib =>
    have : qualified V j sib vs = qualified V' j sib vs := by
      unfold qualified
      refine congrArg Multiset.card (Multiset.filter_congr fun y _ => ?_)
      rw [h j (by simp [Comp.refs])]
      refine and_congr_right fun _ => ?_
      exact forall_congr' fun s => imp_congr_right fun hs => by rw [h s (by simp [Comp.refs, hs])]
    simp only [compRes, this]

theorem shapeRes_congr {V V' : Verdict T O P Q} (i : Nat) (sh : Shape P Q) (x : T)
    (h : ∀ j ∈ sh.refs, ∀ y, V j y = V' j y) : shapeRes W V i sh x = shapeRes W V' i sh x := by
  unfold shapeRes
  split
  · rfl
  · cases W.vals sh x with
    | none => rfl
    | some vs =>
      simp only
      congr 1
      · congr 1
        apply List.map_congr_left
        intro c hc
        exact compRes_congr i x vs c fun j hj => h j (List.mem_append_left _ (List.mem_flatMap.2 ⟨c, hc, hj⟩))
      · congr 1
        apply List.map_congr_left
        intro j hj
        congr 1
        apply List.map_congr_left
        intro y _
        exact h j (List.mem_append_right _ hj) y

/-- The results up to a depth of references. -/
def den (W : World T O P Q) : Nat → Verdict T O P Q
  | 0 => fun _ _ => 0
  | n + 1 => fun i x => match W.shape i with
    | none => 0
    | some sh => shapeRes W (den W n) i sh x

theorem den_eq (hR : Ranked W rank) : ∀ (r n m i : Nat), rank i < r → rank i < n → rank i < m →
    den W n i = den W m i := by
  intro r
  induction r with
  | zero => intro n m i h; omega
  | succ r ih =>
    intro n m i hr hn hm
    obtain ⟨n, rfl⟩ : ∃ n', n = n' + 1 := ⟨n - 1, by omega⟩
    obtain ⟨m, rfl⟩ : ∃ m', m = m' + 1 := ⟨m - 1, by omega⟩
    funext x
    simp only [den]
    cases h : W.shape i with
    | none => rfl
    | some sh =>
      refine shapeRes_congr i sh x fun j hj y => ?_
      have := (hR.refs i sh h j hj).2
      rw [ih n m j (by omega) (by omega) (by omega)]

/-- Shapes that are not recursive have results. -/
theorem meaning_exists (hR : Ranked W rank) : ∃ V, Meaning W V := by
  refine ⟨fun i => den W (rank i + 1) i, fun i sh hi x => ?_⟩
  show den W (rank i + 1) i x = _
  simp only [den, hi]
  refine shapeRes_congr i sh x fun j hj y => ?_
  have := (hR.refs i sh hi j hj).2
  rw [den_eq hR (rank j + 1) (rank i) (rank j + 1) j (by omega) this (by omega)]
  rfl

/-- Their results are determined. -/
theorem meaning_unique (hR : Ranked W rank) {V V' : Verdict T O P Q} (hV : Meaning W V) (hV' : Meaning W V') :
    ∀ (n i : Nat), rank i < n → (W.shape i).isSome → V i = V' i := by
  intro n
  induction n with
  | zero => intro i h; omega
  | succ n ih =>
    intro i hn hi
    obtain ⟨sh, hi⟩ := Option.isSome_iff_exists.1 hi
    funext x
    rw [hV i sh hi, hV' i sh hi]
    refine shapeRes_congr i sh x fun j hj y => ?_
    have := hR.refs i sh hi j hj
    rw [ih j (by omega) this.1]

theorem mem_sum_map {A B : Type} (l : List A) (f : A → Multiset B) (r : B) :
    r ∈ (l.map f).sum ↔ ∃ a ∈ l, r ∈ f a := by
  induction l with
  | nil => simp
  | cons a l ih => simp [ih]

theorem mem_faults (i : Nat) (k : Kind Q) (x : T) (vs : List T) (B : T → Prop) [DecidablePred B] (r : Res O P Q) :
    r ∈ faults W i k x vs B ↔ ∃ y ∈ vs, B y ∧ r = W.res i k x (some y) := by
  unfold faults World.res
  simp only [Multiset.mem_map, Multiset.mem_filter, Multiset.mem_coe]
  constructor
  · rintro ⟨y, ⟨h1, h2⟩, rfl⟩; exact ⟨y, h1, h2, rfl⟩
  · rintro ⟨y, h1, h2, rfl⟩; exact ⟨y, ⟨h1, h2⟩, rfl⟩

theorem compRes_focus {V : Verdict T O P Q} (i : Nat) (x : T) (vs : List T) (c : Comp Q)
    (hp : ∀ q, c = .prim q → ∀ l, W.prim q i x vs = some l → ∀ a ∈ l, a.focus = W.obj x) :
    ∀ r ∈ compRes W V i x vs c, r.focus = W.obj x := by
  intro r hr
  cases c with
  | prim q =>
    simp only [compRes, Multiset.mem_coe] at hr
    cases h : W.prim q i x vs with
    | none => rw [h] at hr; simp at hr
    | some l => rw [h] at hr; exact hp q rfl l h r hr
  | and l => obtain ⟨y, _, _, rfl⟩ := (mem_faults ..).1 hr; rfl
  | or l => obtain ⟨y, _, _, rfl⟩ := (mem_faults ..).1 hr; rfl
  | not j => obtain ⟨y, _, _, rfl⟩ := (mem_faults ..).1 hr; rfl
  | xone l => obtain ⟨y, _, _, rfl⟩ := (mem_faults ..).1 hr; rfl
  | node j => obtain ⟨y, _, _, rfl⟩ := (mem_faults ..).1 hr; rfl
  | qual j mn mx sib =>
    simp only [compRes, Multiset.mem_add] at hr
    rcases hr with hr | hr <;>
    · split at hr
      · rw [Multiset.mem_singleton] at hr; rw [hr]
      · simp at hr

/-- Results are about the focus node. -/
theorem meaning_focus (hR : Ranked W rank) (hc : Cacheable W) {V : Verdict T O P Q} (hV : Meaning W V) :
    ∀ (n i : Nat), rank i < n → (W.shape i).isSome → ∀ x, ∀ r ∈ V i x, r.focus = W.obj x := by
  intro n
  induction n with
  | zero => intro i h; omega
  | succ n ih =>
    intro i hn hi x r hr
    obtain ⟨sh, hi⟩ := Option.isSome_iff_exists.1 hi
    rw [hV i sh hi] at hr
    unfold shapeRes at hr
    split at hr
    · simp at hr
    · cases h : W.vals sh x with
      | none => rw [h] at hr; simp at hr
      | some vs =>
        rw [h] at hr
        simp only [Multiset.mem_add, mem_sum_map] at hr
        rcases hr with ⟨c, hcm, hr⟩ | ⟨j, hj, y, hy, hr⟩
        · refine compRes_focus i x vs c ?_ r hr
          rintro q rfl l hl a ha
          obtain ⟨l', h1, h2⟩ := hR.prims i sh hi q hcm x vs
          rw [hl] at h1
          injection h1 with h1
          exact h2 a (h1 ▸ ha)
        · have hp : sh.path = none := by
            by_contra hp
            rw [hc.flat i sh hi hp] at hj
            cases hj
          simp only [World.vals, hp, Option.some.injEq] at h
          subst h
          rw [List.mem_singleton] at hy
          subst hy
          have := hR.refs i sh hi j (List.mem_append_right _ hj)
          exact ih j (by omega) this.1 y r hr

/-- Validation gives the results, whatever right results are in the cache. -/
theorem validate_sound (hR : Ranked W rank) (hc : Cacheable W) {V : Verdict T O P Q} (hV : Meaning W V) :
    ∀ (d i : Nat), rank i < d → (W.shape i).isSome → ValOk W V (W.validate d) i := by
  intro d
  induction d with
  | zero => intro i h; omega
  | succ d ih =>
    intro i hn hi
    refine ⟨hi, fun l H hl => ?_⟩
    have hf := meaning_focus hR hc hV (d + 1) i hn hi
    obtain ⟨sh, hi⟩ := Option.isSome_iff_exists.1 hi
    simp only [World.validate, hi]
    refine body_sound hc hR.ord hV i sh hi hf ?_ ?_ l hl H
    · intro q hq x vs
      obtain ⟨r, hr, _⟩ := hR.prims i sh hi q hq x vs
      rw [hr]; rfl
    · intro j hj
      have := hR.refs i sh hi j hj
      exact ih j (by omega) this.1

end

/-! ## Runs -/

/-- Entries are right. -/
def Good (E : Key O → List (Res O P Q) → Prop) (c : Cache O P Q) : Prop := ∀ k v, c k = some v → E k v

theorem good_set {E : Key O → List (Res O P Q) → Prop} {c : Cache O P Q} (h : Good E c) {k : Key O}
    {v : List (Res O P Q)} (hv : E k v) : Good E (fun k' => if k' = k then some v else c k') := by
  intro k' v' h'
  by_cases hk : k' = k
  · subst hk; simp only [if_true, Option.some.injEq] at h'; subst h'; exact hv
  · simp only [hk, if_false] at h'; exact h k' v' h'

theorem isSome_set {c : Cache O P Q} {k k' : Key O} {v : List (Res O P Q)} (h : (c k').isSome ∨ k' = k) :
    ((fun k' => if k' = k then some v else c k') k').isSome := by
  by_cases hk : k' = k
  · simp [hk]
  · simp only [hk, if_false]; exact h.resolve_right hk

theorem run_sound {A : Type} {E : Key O → List (Res O P Q) → Prop} {p : VProg O P Q A} :
    ∀ {c : Cache O P Q} {R : A → Prop}, Good E c → Sound E p (fun k => (c k).isSome) R →
      ∃ a c', run p c = (.ret a, c') ∧ R a ∧ Good E c' := by
  induction p with
  | ret a => intro c R hg h; exact ⟨a, c, rfl, h, hg⟩
  | fail => intro c R hg h; exact absurd h id
  | loop => intro c R hg h; exact absurd h id
  | look k f ih =>
    intro c R hg h
    show ∃ a c', run (f (c k)) c = _ ∧ _
    cases hk : c k with
    | none => exact ih none hg (h.1 (by simp [hk]))
    | some v =>
      refine ih (some v) hg ((h.2 v (hg k v hk)).mono ?_ fun _ => id)
      rintro k' (h' | rfl)
      · exact h'
      · simp [hk]
  | has k f ih =>
    intro c R hg h
    show ∃ a c', run (f (c k).isSome) c = _ ∧ _
    cases hk : (c k).isSome with
    | false => exact ih false hg (h.1 (by simp [hk]))
    | true =>
      refine ih true hg (h.2.mono ?_ fun _ => id)
      rintro k' (h' | rfl)
      · exact h'
      · exact hk
  | record k v p ih =>
    intro c R hg h
    exact ih (good_set hg h.1) (h.2.mono (fun k' hk' => isSome_set hk') fun _ => id)

/-! ## Schedules -/

/-- The worker has ended. -/
def ended {A : Type} : VProg O P Q A → Bool
  | .ret _ => true
  | .fail => true
  | .loop => true
  | _ => false

theorem step1_sound {A : Type} {E : Key O → List (Res O P Q) → Prop} {p : VProg O P Q A} {c : Cache O P Q}
    {R : A → Prop} (hg : Good E c) (h : Sound E p (fun k => (c k).isSome) R) :
    Good E (step1 p c).2 ∧ (∀ k, (c k).isSome → ((step1 p c).2 k).isSome) ∧
      Sound E (step1 p c).1 (fun k => ((step1 p c).2 k).isSome) R := by
  cases p with
  | ret a => exact ⟨hg, fun _ => id, h⟩
  | fail => exact absurd h id
  | loop => exact absurd h id
  | look k f =>
    refine ⟨hg, fun _ => id, ?_⟩
    show Sound E (f (c k)) _ R
    cases hk : c k with
    | none => exact h.1 (by simp [hk])
    | some v =>
      refine (h.2 v (hg k v hk)).mono ?_ fun _ => id
      rintro k' (h' | rfl)
      · exact h'
      · simp [step1, hk]
  | has k f =>
    refine ⟨hg, fun _ => id, ?_⟩
    show Sound E (f (c k).isSome) _ R
    cases hk : (c k).isSome with
    | false => exact h.1 (by simp [hk])
    | true =>
      refine h.2.mono ?_ fun _ => id
      rintro k' (h' | rfl)
      · exact h'
      · exact hk
  | record k v p =>
    refine ⟨good_set hg h.1, fun k' hk' => isSome_set (Or.inl hk'), ?_⟩
    exact h.2.mono (fun k' hk' => isSome_set hk') fun _ => id

/-- Whatever the schedule, all workers stay sound. -/
theorem exec_sound {A : Type} {E : Key O → List (Res O P Q) → Prop} (Rs : Nat → A → Prop) :
    ∀ (s : List Nat) (ps : List (VProg O P Q A)) (c : Cache O P Q), Good E c →
    (∀ t p, ps[t]? = some p → Sound E p (fun k => (c k).isSome) (Rs t)) →
    Good E (exec s ps c).2 ∧ (exec s ps c).1.length = ps.length ∧
      ∀ t p, (exec s ps c).1[t]? = some p → Sound E p (fun k => ((exec s ps c).2 k).isSome) (Rs t) := by
  intro s
  induction s with
  | nil => intro ps c hg h; exact ⟨hg, rfl, h⟩
  | cons t s ih =>
    intro ps c hg h
    unfold exec
    cases ht : ps[t]? with
    | none => exact ih ps c hg h
    | some p =>
      obtain ⟨h1, h2, h3⟩ := step1_sound hg (h t p ht)
      have := ih (ps.set t (step1 p c).1) (step1 p c).2 h1 ?_
      · rw [List.length_set] at this; exact this
      · intro t' p' ht'
        by_cases he : t = t'
        · subst he
          have hlt : t < ps.length := by
            by_contra hlt
            rw [List.getElem?_eq_none (by omega)] at ht
            cases ht
          rw [List.getElem?_set_self hlt] at ht'
          injection ht' with ht'
          subst ht'
          exact h3
        · rw [List.getElem?_set_ne he] at ht'
          exact (h t' p' ht').mono h2 fun _ => id

/-- `p'` comes after `p` by one operation, whatever the answer. -/
inductive Child {A : Type} : VProg O P Q A → VProg O P Q A → Prop
  | look (k : Key O) (f : Option (List (Res O P Q)) → VProg O P Q A) (v) : Child (f v) (.look k f)
  | has (k : Key O) (f : Bool → VProg O P Q A) (b) : Child (f b) (.has k f)
  | record (k : Key O) (v : List (Res O P Q)) (p : VProg O P Q A) : Child p (.record k v p)

theorem child_acc {A : Type} (p : VProg O P Q A) : Acc Child p := by
  induction p with
  | ret a => exact ⟨_, fun q h => by cases h⟩
  | fail => exact ⟨_, fun q h => by cases h⟩
  | loop => exact ⟨_, fun q h => by cases h⟩
  | look k f ih => exact ⟨_, fun q h => by cases h; exact ih _⟩
  | has k f ih => exact ⟨_, fun q h => by cases h; exact ih _⟩
  | record k v p ih => exact ⟨_, fun q h => by cases h; exact ih⟩

/-- One worker of the pool moves. -/
def Moves {A : Type} (ps' ps : List (VProg O P Q A)) : Prop :=
  ∃ t p p', ps[t]? = some p ∧ Child p' p ∧ ps' = ps.set t p'

theorem moves_acc {A : Type} : ∀ ps : List (VProg O P Q A), Acc Moves ps := by
  intro ps
  induction ps with
  | nil => exact ⟨_, fun q ⟨t, p, p', h, _⟩ => by simp at h⟩
  | cons p ps ih =>
    have hp := child_acc p
    induction hp generalizing ps with
    | intro p _ ihp =>
      induction ih with
      | intro ps hps ihps =>
        refine ⟨_, ?_⟩
        rintro q ⟨t, r, r', h, hc, rfl⟩
        cases t with
        | zero =>
          simp only [List.getElem?_cons_zero, Option.some.injEq] at h
          subst h
          exact ihp r' hc ps ⟨ps, hps⟩
        | succ t =>
          simp only [List.getElem?_cons_succ] at h
          exact ihps _ ⟨t, r, r', h, hc, rfl⟩

theorem step1_child {A : Type} {p : VProg O P Q A} (c : Cache O P Q) (h : ended p = false) :
    Child (step1 p c).1 p := by
  cases p with
  | ret a => cases h
  | fail => cases h
  | loop => cases h
  | look k f => exact .look k f _
  | has k f => exact .has k f _
  | record k v p => exact .record k v p

theorem step1_ended {A : Type} {p : VProg O P Q A} (c : Cache O P Q) (h : ended p = true) :
    step1 p c = (p, c) := by
  cases p <;> first | rfl | cases h

theorem exec_append {A : Type} (s s' : List Nat) : ∀ (ps : List (VProg O P Q A)) (c : Cache O P Q),
    exec (s ++ s') ps c = exec s' (exec s ps c).1 (exec s ps c).2 := by
  induction s with
  | nil => intro ps c; rfl
  | cons t s ih =>
    intro ps c
    show exec (t :: (s ++ s')) ps c = _
    rw [exec, exec]
    cases ps[t]? with
    | none => exact ih ps c
    | some p => exact ih _ _

/-- The first `n` choices of an endless schedule. -/
def upto (σ : Nat → Nat) (n : Nat) : List Nat := (List.range n).map σ

theorem upto_add (σ : Nat → Nat) (n m : Nat) : upto σ (n + m) = upto σ n ++ upto (fun k => σ (n + k)) m := by
  unfold upto
  rw [List.range_add, List.map_append, List.map_map]
  rfl

theorem exec_all_ended {A : Type} : ∀ (s : List Nat) (ps : List (VProg O P Q A)) (c : Cache O P Q),
    (∀ t ∈ s, ∀ p, ps[t]? = some p → ended p = true) → exec s ps c = (ps, c) := by
  intro s
  induction s with
  | nil => intro ps c _; rfl
  | cons t s ih =>
    intro ps c h
    rw [exec]
    cases ht : ps[t]? with
    | none => exact ih ps c fun t' h' => h t' (List.mem_cons_of_mem _ h')
    | some p =>
      have hs : ps.set t p = ps := by
        apply List.ext_getElem?
        intro t'
        by_cases he : t = t'
        · subst he
          have hlt : t < ps.length := by
            by_contra hlt
            rw [List.getElem?_eq_none (by omega)] at ht
            cases ht
          rw [List.getElem?_set_self hlt, ht]
        · rw [List.getElem?_set_ne he]
      simp only [step1_ended c (h t List.mem_cons_self p ht), hs]
      exact ih ps c fun t' h' => h t' (List.mem_cons_of_mem _ h')

/-- Under a schedule that gives every worker its turn again and again, all workers end. -/
theorem fair_ends {A : Type} (ps : List (VProg O P Q A)) : ∀ (σ : Nat → Nat) (c : Cache O P Q),
    (∀ t < ps.length, ∀ n, ∃ m, n ≤ m ∧ σ m = t) →
    ∃ N, ∀ n, N ≤ n → ∀ p ∈ (exec (upto σ n) ps c).1, ended p = true := by
  induction moves_acc ps with
  | intro ps _ ih =>
    intro σ c hσ
    by_cases hall : ∀ p ∈ ps, ended p = true
    · refine ⟨0, fun n _ p hp => ?_⟩
      rw [exec_all_ended (upto σ n) ps c fun t _ p hp => hall p (List.mem_of_getElem? hp)] at hp
      exact hall p hp
    · push Not at hall
      obtain ⟨p, hp, hne⟩ := hall
      -- the first time that a worker that has not ended is chosen
      have hex : ∃ m, ∃ q, ps[σ m]? = some q ∧ ended q ≠ true := by
        obtain ⟨t, ht, rfl⟩ := List.mem_iff_getElem.1 hp
        obtain ⟨m, _, hm⟩ := hσ t ht 0
        exact ⟨m, ps[t], by rw [hm, List.getElem?_eq_getElem ht], hne⟩
      classical
      obtain ⟨q, hq, hqe⟩ := Nat.find_spec hex
      have hmin : ∀ k < Nat.find hex, ∀ r, ps[σ k]? = some r → ended r = true := by
        intro k hk r hr
        by_contra hre
        exact Nat.find_min hex hk ⟨r, hr, hre⟩
      generalize Nat.find hex = m at hq hmin
      have hbefore : exec (upto σ m) ps c = (ps, c) := by
        refine exec_all_ended _ ps c fun t ht r hr => ?_
        simp only [upto, List.mem_map, List.mem_range] at ht
        obtain ⟨k, hk, rfl⟩ := ht
        exact hmin k hk r hr
      have hqe' : ended q = false := by simpa using hqe
      obtain ⟨N, hN⟩ := ih (ps.set (σ m) (step1 q c).1) ⟨σ m, q, _, hq, step1_child c hqe', rfl⟩
        (fun k => σ (m + 1 + k)) (step1 q c).2 (by
          intro t ht n
          rw [List.length_set] at ht
          obtain ⟨m', h1, h2⟩ := hσ t ht (m + 1 + n)
          exact ⟨m' - (m + 1), by omega, by rw [← h2]; congr 1; omega⟩)
      refine ⟨m + 1 + N, fun n hn p hp => ?_⟩
      obtain ⟨n', rfl⟩ : ∃ n', n = m + 1 + n' := ⟨n - (m + 1), by omega⟩
      refine hN n' (by omega) p ?_
      rw [upto_add, exec_append, upto_add, exec_append, hbefore] at hp
      have h1 : upto (fun k => σ (m + k)) 1 = [σ m] := rfl
      rw [h1, exec, hq] at hp
      exact hp

theorem returns_some {A : Type} : ∀ (ps : List (VProg O P Q A)) (rs : List A), returns ps = some rs →
    ps = rs.map .ret := by
  intro ps
  induction ps with
  | nil => intro rs h; simp [returns] at h; subst h; rfl
  | cons p ps ih =>
    intro rs h
    cases p with
    | ret a =>
      simp only [returns, Option.map_eq_some_iff] at h
      obtain ⟨l, h1, rfl⟩ := h
      rw [ih l h1]; rfl
    | _ => simp [returns] at h

theorem returns_map {A : Type} (rs : List A) : returns (rs.map fun a => (.ret a : VProg O P Q A)) = some rs := by
  induction rs with
  | nil => rfl
  | cons a rs ih => simp [returns, ih]

end Shacl
