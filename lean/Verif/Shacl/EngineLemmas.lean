import Verif.Shacl.EngineSpec
import Mathlib.Data.Multiset.Filter
import Mathlib.Data.List.Dedup

/-!
# Lemmas: validation with a sound cache

`Sound` says that a computation gives an answer with a property whatever other workers do to the cache in
the meantime, as long as entries are right and stay.
-/

namespace Shacl

variable {T O P Q : Type} [DecidableEq T] [DecidableEq O] [DecidableEq P] [DecidableEq Q]

/-- Every way through the computation returns an answer in `A`, given that entries found satisfy `E` and keys in
`K` have an entry; it records only entries that satisfy `E`. -/
def Sound {K V A : Type} (E : K → V → Prop) : Prog K V A → (K → Prop) → (A → Prop) → Prop
  | .ret a, _, R => R a
  | .fail, _, _ => False
  | .loop, _, _ => False
  | .look k c, H, R => (¬ H k → Sound E (c none) H R) ∧
      ∀ v, E k v → Sound E (c (some v)) (fun k' => H k' ∨ k' = k) R
  | .has k c, H, R => (¬ H k → Sound E (c false) H R) ∧ Sound E (c true) (fun k' => H k' ∨ k' = k) R
  | .record k v p, H, R => E k v ∧ Sound E p (fun k' => H k' ∨ k' = k) R

section
variable {K V A B : Type} {E : K → V → Prop}

theorem Sound.mono {p : Prog K V A} : ∀ {H H' : K → Prop} {R R' : A → Prop}, Sound E p H R →
    (∀ k, H k → H' k) → (∀ a, R a → R' a) → Sound E p H' R' := by
  have grow : ∀ {H H' : K → Prop} {k : K}, (∀ k, H k → H' k) → ∀ k', H k' ∨ k' = k → H' k' ∨ k' = k :=
    fun h k' hk => hk.imp (h k') id
  induction p with
  | ret a => intro H H' R R' h _ hR; exact hR a h
  | fail => intro H H' R R' h _ _; exact h
  | loop => intro H H' R R' h _ _; exact h
  | look k c ih =>
    intro H H' R R' h hH hR
    exact ⟨fun hk => ih none (h.1 fun hk' => hk (hH k hk')) hH hR,
      fun v hv => ih (some v) (h.2 v hv) (grow hH) hR⟩
  | has k c ih =>
    intro H H' R R' h hH hR
    exact ⟨fun hk => ih false (h.1 fun hk' => hk (hH k hk')) hH hR, ih true h.2 (grow hH) hR⟩
  | record k v p ih => intro H H' R R' h hH hR; exact ⟨h.1, ih h.2 (grow hH) hR⟩

theorem Sound.bind {p : Prog K V A} {f : A → Prog K V B} {R : A → Prop} {R' : B → Prop} :
    ∀ {H : K → Prop}, Sound E p H R → (∀ a (H' : K → Prop), (∀ k, H k → H' k) → R a → Sound E (f a) H' R') →
      Sound E (p.bind f) H R' := by
  induction p with
  | ret a => intro H h hf; exact hf a H (fun _ => id) h
  | fail => intro H h _; exact h
  | loop => intro H h _; exact h
  | look k c ih =>
    intro H h hf
    exact ⟨fun hk => ih none (h.1 hk) hf,
      fun v hv => ih (some v) (h.2 v hv) fun a H' hH' ha => hf a H' (fun k' hk' => hH' k' (Or.inl hk')) ha⟩
  | has k c ih =>
    intro H h hf
    exact ⟨fun hk => ih false (h.1 hk) hf,
      ih true h.2 fun a H' hH' ha => hf a H' (fun k' hk' => hH' k' (Or.inl hk')) ha⟩
  | record k v p ih =>
    intro H h hf
    exact ⟨h.1, ih h.2 fun a H' hH' ha => hf a H' (fun k' hk' => hH' k' (Or.inl hk')) ha⟩

theorem Sound.attempt {p : Prog K V A} {R : A → Prop} :
    ∀ {H : K → Prop}, Sound E p H R → Sound E p.attempt H fun o => ∃ a, o = some a ∧ R a := by
  induction p with
  | ret a => intro H h; exact ⟨a, rfl, h⟩
  | fail => intro H h; exact absurd h id
  | loop => intro H h; exact h
  | look k c ih => intro H h; exact ⟨fun hk => ih none (h.1 hk), fun v hv => ih (some v) (h.2 v hv)⟩
  | has k c ih => intro H h; exact ⟨fun hk => ih false (h.1 hk), ih true h.2⟩
  | record k v p ih => intro H h; exact ⟨h.1, ih h.2⟩

end

/-- Entries of the cache are the results of the shape. -/
def Entry (W : World T O P Q) (V : Verdict T O P Q) (k : Key O) (v : List (Res O P Q)) : Prop :=
  ∀ x, W.obj x = k.1 → (v : Multiset (Res O P Q)) = V k.2 x

section
variable {W : World T O P Q} {V : Verdict T O P Q}
variable {val : Nat → List T → VProg O P Q (List (Res O P Q))}

/-- Validation of shape `j` gives its results on every set of nodes. -/
def ValOk (W : World T O P Q) (V : Verdict T O P Q) (val : Nat → List T → VProg O P Q (List (Res O P Q))) (j : Nat) :
    Prop :=
  (W.shape j).isSome ∧ ∀ (l : List T) (H : Key O → Prop), l.Nodup →
    Sound (Entry W V) (val j l) H fun r => (r : Multiset (Res O P Q)) = (l.map (V j)).sum

theorem ValOk.single {j : Nat} (h : ValOk W V val j) (y : T) (H : Key O → Prop) :
    Sound (Entry W V) (val j [y]) H fun r => (r : Multiset (Res O P Q)) = V j y :=
  (h.2 [y] H (List.nodup_singleton y)).mono (fun _ => id) fun r hr => by simpa using hr

theorem need_some {j : Nat} (h : (W.shape j).isSome) {A : Type} (p : VProg O P Q A) : W.need j p = p := by
  unfold World.need
  obtain ⟨s, hs⟩ := Option.isSome_iff_exists.1 h
  rw [hs]

theorem conforms_sound {j : Nat} (h : ValOk W V val j) (y : T) (H : Key O → Prop) :
    Sound (Entry W V) (W.conforms val j y) H fun b => b = decide (V j y = 0) := by
  unfold World.conforms
  rw [need_some h.1]
  refine Sound.bind (h.single y H).attempt ?_
  rintro o H' _ ⟨r, rfl, hr⟩
  show _ = _
  rw [← hr]
  cases r <;> simp

theorem allConform_sound : ∀ (l : List Nat), (∀ j ∈ l, ValOk W V val j) → ∀ (y : T) (H : Key O → Prop),
    Sound (Entry W V) (W.allConform val l y) H fun b => b = decide (∀ j ∈ l, V j y = 0) := by
  intro l
  induction l with
  | nil => intro _ y H; show _ = _; simp
  | cons j l ih =>
    intro hl y H
    unfold World.allConform
    rw [need_some (hl j List.mem_cons_self).1]
    refine Sound.bind ((hl j List.mem_cons_self).single y H).attempt ?_
    rintro o H' _ ⟨r, rfl, hr⟩
    cases r with
    | nil =>
      refine (ih (fun j hj => hl j (List.mem_cons_of_mem _ hj)) y H').mono (fun _ => id) ?_
      rintro b rfl
      have : V j y = 0 := by rw [← hr]; rfl
      simp [this]
    | cons a r =>
      have : V j y ≠ 0 := by rw [← hr]; simp
      show _ = _
      simp [this]

theorem someConforms_sound : ∀ (l : List Nat), (∀ j ∈ l, ValOk W V val j) → ∀ (y : T) (H : Key O → Prop),
    Sound (Entry W V) (W.someConforms val l y) H fun b => b = decide (∃ j ∈ l, V j y = 0) := by
  intro l
  induction l with
  | nil => intro _ y H; show _ = _; simp
  | cons j l ih =>
    intro hl y H
    unfold World.someConforms
    rw [need_some (hl j List.mem_cons_self).1]
    refine Sound.bind ((hl j List.mem_cons_self).single y H) ?_
    intro r H' _ hr
    cases r with
    | nil =>
      have : V j y = 0 := by rw [← hr]; rfl
      show _ = _
      simp [this]
    | cons a r =>
      have : V j y ≠ 0 := by rw [← hr]; simp
      refine (ih (fun j hj => hl j (List.mem_cons_of_mem _ hj)) y H').mono (fun _ => id) ?_
      rintro b rfl
      simp [this]

theorem countConform_sound : ∀ (l : List Nat), (∀ j ∈ l, ValOk W V val j) → ∀ (y : T) (H : Key O → Prop),
    Sound (Entry W V) (W.countConform val l y) H fun n => n = l.countP fun j => V j y = 0 := by
  intro l
  induction l with
  | nil => intro _ y H; show _ = _; simp
  | cons j l ih =>
    intro hl y H
    unfold World.countConform
    refine Sound.bind (conforms_sound (hl j List.mem_cons_self) y H) ?_
    rintro b H' _ rfl
    refine Sound.bind (ih (fun j hj => hl j (List.mem_cons_of_mem _ hj)) y H') ?_
    rintro n H'' _ rfl
    show _ = _
    rw [List.countP_cons]
    by_cases h : V j y = 0 <;> simp [h]

theorem someSibling_sound : ∀ (l : List Nat), (∀ j ∈ l, ValOk W V val j) → ∀ (y : T) (H : Key O → Prop),
    Sound (Entry W V) (W.someSibling val l y) H fun b => b = decide (∃ j ∈ l, V j y = 0) := by
  intro l
  induction l with
  | nil => intro _ y H; show _ = _; simp
  | cons j l ih =>
    intro hl y H
    unfold World.someSibling
    refine Sound.bind (conforms_sound (hl j List.mem_cons_self) y H) ?_
    rintro b H' _ rfl
    by_cases h : V j y = 0
    · simp only [h, decide_true, if_true]
      show _ = _
      simp [h]
    · simp only [h, decide_false, Bool.false_eq_true, if_false]
      refine (ih (fun j hj => hl j (List.mem_cons_of_mem _ hj)) y H').mono (fun _ => id) ?_
      rintro b rfl
      simp [h]

theorem countQualified_sound {j : Nat} {sib : List Nat} (hj : ValOk W V val j) (hs : ∀ s ∈ sib, ValOk W V val s) :
    ∀ (l : List T) (H : Key O → Prop),
    Sound (Entry W V) (W.countQualified val j sib l) H fun n => n = (qualified V j sib l : Int) := by
  intro l
  induction l with
  | nil => intro H; show _ = _; simp [qualified]
  | cons y l ih =>
    intro H
    unfold World.countQualified
    refine Sound.bind (conforms_sound hj y H) ?_
    rintro b H' _ rfl
    refine Sound.bind (R := fun c => c = decide (V j y = 0 ∧ ∀ s ∈ sib, V s y ≠ 0)) ?_ ?_
    · by_cases h : V j y = 0
      · simp only [h, decide_true, if_true]
        refine Sound.bind (someSibling_sound sib hs y H') ?_
        rintro b H'' _ rfl
        show _ = _
        rw [← decide_not]
        simp
      · simp only [h, decide_false, Bool.false_eq_true, if_false]
        show _ = _
        simp
    · rintro c H'' _ rfl
      refine Sound.bind (ih H'') ?_
      rintro n H3 _ rfl
      show _ = _
      unfold qualified
      rw [← Multiset.cons_coe, Multiset.filter_cons]
      by_cases h : V j y = 0 ∧ ∀ s ∈ sib, V s y ≠ 0
      · rw [if_pos h, decide_eq_true h, Multiset.card_add, Multiset.card_singleton, if_pos rfl]
        push_cast; omega
      · rw [if_neg h, decide_eq_false h]; simp

theorem nodeViolates_sound {j : Nat} (hj : ValOk W V val j) (y : T) (H : Key O → Prop) :
    Sound (Entry W V) (W.nodeViolates val j y) H fun b => b = decide (V j y ≠ 0) := by
  unfold World.nodeViolates
  refine ⟨fun _ => ?_, ?_⟩
  · simp only [Bool.false_eq_true, if_false]
    refine Sound.bind (hj.single y H) ?_
    intro r H' _ hr
    show _ = _
    rw [← hr]
    cases r <;> simp
  · simp only [if_true]
    refine ⟨fun h => absurd (Or.inr rfl) h, fun v hv => ?_⟩
    show _ = _
    have := hv y rfl
    simp only at this
    rw [← this]
    cases v <;> simp

theorem perValue_sound (i : Nat) (k : Kind Q) (x : T) (bad : T → VProg O P Q Bool) (B : T → Prop) [DecidablePred B]
    (hb : ∀ y (H : Key O → Prop), Sound (Entry W V) (bad y) H fun b => b = decide (B y)) :
    ∀ (l : List T) (H : Key O → Prop),
    Sound (Entry W V) (W.perValue i k x bad l) H fun r => (r : Multiset (Res O P Q)) = faults W i k x l B := by
  intro l
  induction l with
  | nil => intro H; show _ = _; rfl
  | cons y l ih =>
    intro H
    unfold World.perValue
    refine Sound.bind (hb y H) ?_
    rintro b H' _ rfl
    refine Sound.bind (ih H') ?_
    intro r H'' _ hr
    show _ = _
    unfold faults at hr ⊢
    rw [← Multiset.cons_coe, Multiset.filter_cons, Multiset.map_add, ← hr]
    by_cases h : B y <;> simp [h, World.res]

theorem faults_perm (i : Nat) (k : Kind Q) (x : T) (B : T → Prop) [DecidablePred B] {l l' : List T} (h : l.Perm l') :
    faults W i k x l B = faults W i k x l' B := by
  unfold faults
  rw [Multiset.coe_eq_coe.2 h]

theorem faults_congr (i : Nat) (k : Kind Q) (x : T) (B B' : T → Prop) [DecidablePred B] [DecidablePred B']
    (l : List T) (h : ∀ y, B y ↔ B' y) : faults W i k x l B = faults W i k x l B' := by
  unfold faults
  rw [Multiset.filter_congr fun y _ => h y]

theorem evalComp_sound (hord : ∀ l, (W.ord l).Perm l) (i : Nat) (c : Comp Q) (x : T) (vs : List T)
    (hc : ∀ j ∈ c.refs, ValOk W V val j) (hp : ∀ q, c = .prim q → (W.prim q i x vs).isSome) (H : Key O → Prop) :
    Sound (Entry W V) (W.evalComp val i c x vs) H fun r => (r : Multiset (Res O P Q)) = compRes W V i x vs c := by
  cases c with
  | prim q =>
    obtain ⟨r, hr⟩ := Option.isSome_iff_exists.1 (hp q rfl)
    simp only [World.evalComp, hr]
    show _ = _
    simp [compRes, hr]
  | and l =>
    refine (perValue_sound i .and x _ (fun y => ∃ j ∈ l, V j y ≠ 0) (fun y H => ?_) (W.ord vs) H).mono (fun _ => id) ?_
    · refine Sound.bind (allConform_sound l hc y H) ?_
      rintro b H' _ rfl
      show _ = _
      rw [← decide_not]
      simp
    · intro r hr; rw [hr]; exact faults_perm i .and x _ (hord vs)
  | or l =>
    refine (perValue_sound i .or x _ (fun y => ∀ j ∈ l, V j y ≠ 0) (fun y H => ?_) (W.ord vs) H).mono (fun _ => id) ?_
    · refine Sound.bind (someConforms_sound l hc y H) ?_
      rintro b H' _ rfl
      show _ = _
      rw [← decide_not]
      simp
    · intro r hr; rw [hr]; exact faults_perm i .or x _ (hord vs)
  | not j =>
    refine (perValue_sound i .not x _ (fun y => V j y = 0)
      (fun y H => conforms_sound (hc j (by simp [Comp.refs])) y H) (W.ord vs) H).mono (fun _ => id) ?_
    intro r hr; rw [hr]; exact faults_perm i .not x _ (hord vs)
  | xone l =>
    refine (perValue_sound i .xone x _ (fun y => l.countP (fun j => V j y = 0) ≠ 1) (fun y H => ?_)
      (W.ord vs) H).mono (fun _ => id) ?_
    · refine Sound.bind (countConform_sound l hc y H) ?_
      rintro b H' _ rfl
      show _ = _
      by_cases h : l.countP (fun j => decide (V j y = 0)) = 1 <;> simp [h]
    · intro r hr; rw [hr]; exact faults_perm i .xone x _ (hord vs)
  | node j =>
    refine (perValue_sound i .node x _ (fun y => V j y ≠ 0)
      (fun y H => nodeViolates_sound (hc j (by simp [Comp.refs])) y H) (W.ord vs) H).mono (fun _ => id) ?_
    intro r hr; rw [hr]; exact faults_perm i .node x _ (hord vs)
  | qual j mn mx sib =>
    refine Sound.bind (countQualified_sound (hc j (by simp [Comp.refs]))
      (fun s hs => hc s (by simp [Comp.refs, hs])) (W.ord vs) H) ?_
    rintro n H' _ rfl
    show _ = _
    have : qualified V j sib (W.ord vs) = qualified V j sib vs := by
      unfold qualified
      rw [Multiset.coe_eq_coe.2 (hord vs)]
    rw [this]
    simp only [compRes, ← Multiset.coe_add]
    generalize qualified V j sib vs = n
    congr 1
    · cases mn with
      | none => simp
      | some m => by_cases h : (n : Int) < m <;> simp [h, World.res]
    · cases mx with
      | none => simp
      | some m => by_cases h : m < (n : Int) <;> simp [h, World.res]

theorem evalLoop_sound (hord : ∀ l, (W.ord l).Perm l) (i : Nat) (c : Comp Q) (hc : ∀ j ∈ c.refs, ValOk W V val j)
    (hp : ∀ q, c = .prim q → ∀ x vs, (W.prim q i x vs).isSome) : ∀ (vn : List (T × List T)) (H : Key O → Prop),
    Sound (Entry W V) (W.evalLoop val i c vn) H fun r =>
      (r : Multiset (Res O P Q)) = (vn.map fun e => compRes W V i e.1 e.2 c).sum := by
  intro vn
  induction vn with
  | nil => intro H; show _ = _; simp
  | cons e vn ih =>
    intro H
    unfold World.evalLoop
    refine Sound.bind (evalComp_sound hord i c e.1 e.2 hc (fun q hq => hp q hq _ _) H) ?_
    intro r H' _ hr
    refine Sound.bind (ih H') ?_
    intro s H'' _ hs
    show _ = _
    rw [← Multiset.coe_add, hr, hs, List.map_cons, List.sum_cons]

theorem evalAll_sound (hord : ∀ l, (W.ord l).Perm l) (i : Nat) (c : Comp Q) (hc : ∀ j ∈ c.refs, ValOk W V val j)
    (hp : ∀ q, c = .prim q → ∀ x vs, (W.prim q i x vs).isSome) (vn : List (T × List T)) (H : Key O → Prop) :
    Sound (Entry W V) (W.evalAll val i c vn) H fun r =>
      (r : Multiset (Res O P Q)) = (vn.map fun e => compRes W V i e.1 e.2 c).sum := by
  have h := evalLoop_sound hord i c hc hp vn H
  cases c with
  | node j =>
    show Sound _ (W.need j _) _ _
    rw [need_some (hc j (by simp [Comp.refs])).1]
    exact h
  | _ => exact h

theorem evalComps_sound (hord : ∀ l, (W.ord l).Perm l) (i : Nat) (vn : List (T × List T)) :
    ∀ (cs : List (Comp Q)), (∀ c ∈ cs, ∀ j ∈ c.refs, ValOk W V val j) →
    (∀ q, Comp.prim q ∈ cs → ∀ x vs, (W.prim q i x vs).isSome) → ∀ (H : Key O → Prop),
    Sound (Entry W V) (W.evalComps val i vn cs) H fun r =>
      (r : Multiset (Res O P Q)) = (vn.map fun e => (cs.map (compRes W V i e.1 e.2)).sum).sum := by
  intro cs
  induction cs with
  | nil => intro _ _ H; show _ = _; simp
  | cons c cs ih =>
    intro hc hp H
    unfold World.evalComps
    refine Sound.bind (evalAll_sound hord i c (hc c List.mem_cons_self)
      (fun q hq => hp q (hq ▸ List.mem_cons_self)) vn H) ?_
    intro r H' _ hr
    refine Sound.bind (ih (fun c h => hc c (List.mem_cons_of_mem _ h))
      (fun q h => hp q (List.mem_cons_of_mem _ h)) H') ?_
    intro s H'' _ hs
    show _ = _
    rw [← Multiset.coe_add, hr, hs, ← List.sum_map_add]
    simp only [List.map_cons, List.sum_cons]

theorem nestedOne_sound (j : Nat) (hj : ValOk W V val j) : ∀ (vn : List (T × List T)), (∀ e ∈ vn, e.2.Nodup) →
    ∀ (H : Key O → Prop), Sound (Entry W V) (World.nestedOne val j vn) H fun r =>
      (r : Multiset (Res O P Q)) = (vn.map fun e => (e.2.map (V j)).sum).sum := by
  intro vn
  induction vn with
  | nil => intro _ H; show _ = _; simp
  | cons e vn ih =>
    intro hn H
    unfold World.nestedOne
    refine Sound.bind (hj.2 e.2 H (hn e List.mem_cons_self)) ?_
    intro r H' _ hr
    refine Sound.bind (ih (fun e h => hn e (List.mem_cons_of_mem _ h)) H') ?_
    intro s H'' _ hs
    show _ = _
    rw [← Multiset.coe_add, hr, hs, List.map_cons, List.sum_cons]

theorem nested_sound (vn : List (T × List T)) (hn : ∀ e ∈ vn, e.2.Nodup) :
    ∀ (ps : List Nat), (∀ j ∈ ps, ValOk W V val j) →
    ∀ (H : Key O → Prop), Sound (Entry W V) (W.nested val vn ps) H fun r =>
      (r : Multiset (Res O P Q)) = (vn.map fun e => (ps.map fun j => (e.2.map (V j)).sum).sum).sum := by
  intro ps
  induction ps with
  | nil => intro _ H; show _ = _; simp
  | cons j ps ih =>
    intro hp H
    unfold World.nested
    rw [need_some (hp j List.mem_cons_self).1]
    refine Sound.bind (nestedOne_sound j (hp j List.mem_cons_self) vn hn H) ?_
    intro r H' _ hr
    refine Sound.bind (ih (fun j h => hp j (List.mem_cons_of_mem _ h)) H') ?_
    intro s H'' _ hs
    show _ = _
    rw [← Multiset.coe_add, hr, hs, ← List.sum_map_add]
    simp only [List.map_cons, List.sum_cons]

theorem split_sound (i : Nat) : ∀ (l : List T) (H : Key O → Prop),
    Sound (Entry W V) (W.split i l) H fun s => s.2.Sublist l ∧
      (s.1 : Multiset (Res O P Q)) + (s.2.map (V i)).sum = (l.map (V i)).sum := by
  intro l
  induction l with
  | nil => intro H; exact ⟨List.Sublist.refl _, by simp⟩
  | cons x l ih =>
    intro H
    unfold World.split
    refine ⟨fun _ => ?_, fun v hv => ?_⟩
    · refine Sound.bind (ih H) ?_
      rintro s H' _ ⟨h1, h2⟩
      refine ⟨h1.cons_cons x, ?_⟩
      simp only [List.map_cons, List.sum_cons]
      rw [← h2]
      exact add_left_comm _ _ _
    · refine Sound.bind (ih _) ?_
      rintro s H' _ ⟨h1, h2⟩
      refine ⟨h1.cons x, ?_⟩
      simp only [List.map_cons, List.sum_cons]
      rw [← h2, ← Multiset.coe_add, hv x rfl, add_assoc]

theorem recordAll_sound (i : Nat) (new : List (Res O P Q)) : ∀ (os : List O),
    (∀ o ∈ os, Entry W V (o, i) (new.filter fun r => decide (r.focus = o))) → ∀ (H : Key O → Prop),
    Sound (Entry W V) (recordAll i new os) H fun _ => True := by
  intro os
  induction os with
  | nil => intro _ H; trivial
  | cons o os ih =>
    intro h H
    exact ⟨h o List.mem_cons_self, ih (fun o ho => h o (List.mem_cons_of_mem _ ho)) _⟩

/-- The results of focus nodes, picked out by the focus. -/
theorem pick_focus (hinj : Function.Injective W.obj) (i : Nat) (hf : ∀ x, ∀ r ∈ V i x, r.focus = W.obj x) (x : T) :
    ∀ (l : List T), l.Nodup → x ∈ l →
      ((l.map (V i)).sum.filter fun r => r.focus = W.obj x) = V i x := by
  have none : ∀ l : List T, x ∉ l → ((l.map (V i)).sum.filter fun r => r.focus = W.obj x) = 0 := by
    intro l hl
    rw [Multiset.filter_eq_nil]
    intro r hr he
    induction l with
    | nil => simp at hr
    | cons y l ih =>
      rw [List.map_cons, List.sum_cons, Multiset.mem_add] at hr
      rcases hr with hr | hr
      · have := hf y r hr
        rw [he] at this
        exact hl (hinj this ▸ List.mem_cons_self)
      · exact ih (fun h => hl (List.mem_cons_of_mem _ h)) hr
  intro l hl hx
  induction l with
  | nil => cases hx
  | cons y l ih =>
    rw [List.map_cons, List.sum_cons, Multiset.filter_add]
    rw [List.nodup_cons] at hl
    rcases List.mem_cons.1 hx with rfl | hx'
    · rw [none l hl.1, add_zero, Multiset.filter_eq_self.2 (hf x)]
    · rw [ih hl.2 hx']
      have : x ≠ y := fun h => hl.1 (h ▸ hx')
      rw [Multiset.filter_eq_nil.2, zero_add]
      intro r hr he
      exact this (hinj (he.symm.trans (hf y r hr)))

/-- The value nodes, focus node by focus node. -/
theorem valueNodes_sum (hord : ∀ l, (W.ord l).Perm l) (sh : Shape P Q) (f : T → List T → Multiset (Res O P Q))
    (l : List T) :
    ((W.valueNodes sh l).map fun e => f e.1 e.2).sum =
      (l.map fun x => match W.vals sh x with | none => 0 | some vs => f x vs).sum := by
  rw [← ((hord l).map _).sum_eq]
  unfold World.valueNodes
  induction W.ord l with
  | nil => simp
  | cons x l ih =>
    rw [List.filterMap_cons, List.map_cons, List.sum_cons]
    cases h : W.vals sh x with
    | none => simp only [Option.map_none, zero_add]; exact ih
    | some vs => simp only [Option.map_some, List.map_cons, List.sum_cons]; rw [ih]

theorem body_sound (hc : Cacheable W) (hord : ∀ l, (W.ord l).Perm l) (hV : Meaning W V) (i : Nat) (sh : Shape P Q)
    (hi : W.shape i = some sh) (hf : ∀ x, ∀ r ∈ V i x, r.focus = W.obj x)
    (hp : ∀ q, Comp.prim q ∈ sh.comps → ∀ x vs, (W.prim q i x vs).isSome)
    (hr : ∀ j ∈ sh.refs, ValOk W V val j) (l : List T) (hl : l.Nodup) (H : Key O → Prop) :
    Sound (Entry W V) (W.body val i sh l) H fun r => (r : Multiset (Res O P Q)) = (l.map (V i)).sum := by
  unfold World.body
  by_cases hd : sh.deactivated = true
  · rw [if_pos hd]
    show _ = _
    have : ∀ x, V i x = 0 := fun x => by rw [hV i sh hi x]; simp [shapeRes, hd]
    induction l with
    | nil => simp
    | cons x l ih =>
      rw [List.nodup_cons] at hl
      rw [List.map_cons, List.sum_cons, ← ih hl.2, this]; simp
  · rw [if_neg hd]
    refine Sound.bind (split_sound i (W.ord l) H) ?_
    rintro s H' _ ⟨hsub, hsum⟩
    have hnd : s.2.Nodup := hsub.nodup ((hord l).nodup_iff.2 hl)
    rw [((hord l).map (V i)).sum_eq] at hsum
    by_cases he : s.2.isEmpty = true
    · rw [if_pos he]
      show _ = _
      rw [List.isEmpty_iff] at he
      rw [← hsum, he]; simp
    · rw [if_neg he]
      have hflat : ∀ e ∈ W.valueNodes sh s.2, sh.props ≠ [] → e.2.Nodup := by
        intro e hm hne
        have hpath : sh.path = none := by
          by_contra hpath
          exact hne (hc.flat i sh hi hpath)
        unfold World.valueNodes at hm
        rw [List.mem_filterMap] at hm
        obtain ⟨x, _, hx⟩ := hm
        simp only [World.vals, hpath, Option.map_some, Option.some.injEq] at hx
        rw [← hx]; exact List.nodup_singleton x
      refine Sound.bind (evalComps_sound hord i (W.valueNodes sh s.2) sh.comps
        (fun c hc j hj => hr j (List.mem_append_left _ (List.mem_flatMap.2 ⟨c, hc, hj⟩))) hp H') ?_
      intro r1 H1 _ h1
      refine Sound.bind (R := fun r : List (Res O P Q) => (r : Multiset (Res O P Q)) =
        ((W.valueNodes sh s.2).map fun e => (sh.props.map fun j => (e.2.map (V j)).sum).sum).sum) ?_ ?_
      · by_cases hne : sh.props = []
        · rw [hne]; show _ = _; simp
        · exact nested_sound _ (fun e h => hflat e h hne) sh.props
            (fun j hj => hr j (List.mem_append_right _ hj)) H1
      · intro r2 H2 _ h2
        have hnew : ((r1 ++ r2 : List (Res O P Q)) : Multiset (Res O P Q)) = (s.2.map (V i)).sum := by
          rw [← Multiset.coe_add, h1, h2, ← List.sum_map_add]
          rw [valueNodes_sum hord sh (fun x vs => (sh.comps.map (compRes W V i x vs)).sum +
            (sh.props.map fun j => (vs.map (V j)).sum).sum) s.2]
          congr 1
          apply List.map_congr_left
          intro x _
          rw [hV i sh hi x]
          simp only [shapeRes, hd]
          rfl
        refine Sound.bind (recordAll_sound i (r1 ++ r2) _ ?_ H2) ?_
        · intro o ho x hx
          rw [List.mem_dedup, List.mem_map] at ho
          obtain ⟨y, hy, rfl⟩ := ho
          have hxy : x = y := hc.inj hx
          subst hxy
          rw [← Multiset.filter_coe, hnew]
          exact pick_focus hc.inj i hf x s.2 hnd hy
        · intro _ H3 _ _
          show _ = _
          rw [← Multiset.coe_add, hnew, hsum]

end

end Shacl
