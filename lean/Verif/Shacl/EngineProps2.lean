import Verif.Shacl.EngineProps

/-!
# Properties C38 and C67: constraints on conforming shapes, and termination of validation
-/

namespace Shacl

variable {T O P Q : Type} [DecidableEq T] [DecidableEq O] [DecidableEq P] [DecidableEq Q]

/-- The node conforms to the shape: validating it alone reports nothing. -/
def Conforms (W : World T O P Q) (d j : Nat) (y : T) : Prop := (run (W.validate d j [y]) fresh0).1 = .ret []

instance (W : World T O P Q) (d j : Nat) (y : T) : Decidable (Conforms W d j y) :=
  inferInstanceAs (Decidable (_ = _))

section
variable {W : World T O P Q} {rank : Nat → Nat}

theorem conforms_iff (hR : Ranked W rank) (hc : Cacheable W) {V : Verdict T O P Q} (hV : Meaning W V) {d j : Nat}
    (hj : (W.shape j).isSome) (hd : rank j < d) (y : T) : Conforms W d j y ↔ V j y = 0 := by
  obtain ⟨r, c', h1, h2, _⟩ := run_call hR hc hV (e := (j, [y])) ⟨hj, hd, List.nodup_singleton y⟩
    (good_fresh0 (Entry W V))
  unfold Conforms
  rw [h1]
  simp only [List.map_cons, List.map_nil, List.sum_cons, List.sum_nil, add_zero] at h2
  rw [← h2]
  constructor
  · intro h; injection h with h; rw [h]; rfl
  · intro h; rw [Multiset.coe_eq_zero] at h; rw [h]

/-- One shape with one component, validated on one node after any history. -/
theorem one_component (hR : Ranked W rank) (hc : Cacheable W) {V : Verdict T O P Q} (hV : Meaning W V) {d i : Nat}
    {p : Option (Path P)} {c : Comp Q} (hi : W.shape i = some ⟨p, [c], [], false⟩) (hd : rank i < d) (x : T)
    (vs : List T) (hvs : W.vals ⟨p, [c], [], false⟩ x = some vs) (hs : List (Nat × List T))
    (h : ∀ e ∈ hs, Call W rank d e) :
    ∃ r, (run (W.validate d i [x]) (history W d hs fresh0)).1 = .ret r ∧
      (r : Multiset (Res O P Q)) = compRes W V i x vs c := by
  obtain ⟨r, c', h1, h2, _⟩ := run_call hR hc hV (e := (i, [x])) ⟨by rw [hi]; rfl, hd, List.nodup_singleton x⟩
    (good_history hR hc hV hs fresh0 h (good_fresh0 _))
  refine ⟨r, by rw [h1], ?_⟩
  rw [h2]
  simp [hV i _ hi x, shapeRes, hvs]

/-- The results for the value nodes at fault. -/
theorem faults_coe (i : Nat) (k : Kind Q) (x : T) (vs : List T) (B : T → Prop) [DecidablePred B]
    (r : List (Res O P Q)) (h : (r : Multiset (Res O P Q)) = faults W i k x vs B) :
    r.Perm ((vs.filter fun y => B y).map fun y => ⟨W.obj x, k, some (W.obj y), none, i⟩) := by
  rw [← Multiset.coe_eq_coe, h]
  simp [faults]

variable (hR : Ranked W rank) (hc : Cacheable W) (d i : Nat) (hd : rank i < d) (p : Option (Path P)) (x : T)
  (vs : List T) (hs : List (Nat × List T)) (h : ∀ e ∈ hs, Call W rank d e)
include hR hc hd h

/-- **C38**, `sh:and`: one result for each value node that fails some listed shape, and no other. -/
theorem C38_and (l : List Nat) (hi : W.shape i = some ⟨p, [.and l], [], false⟩)
    (hvs : W.vals ⟨p, [.and l], [], false⟩ x = some vs) :
    ∃ r, (run (W.validate d i [x]) (history W d hs fresh0)).1 = .ret r ∧
      r.Perm ((vs.filter fun y => ∃ j ∈ l, ¬ Conforms W d j y).map fun y =>
        ⟨W.obj x, .and, some (W.obj y), none, i⟩) := by
  obtain ⟨V, hV⟩ := meaning_exists hR
  obtain ⟨r, h1, h2⟩ := one_component hR hc hV hi hd x vs hvs hs h
  refine ⟨r, h1, faults_coe i .and x vs _ r (h2.trans (faults_congr i .and x _ _ vs fun y => ?_))⟩
  refine exists_congr fun j => and_congr_right fun hj => ?_
  have := hR.refs i _ hi j (by simp [Shape.refs, Comp.refs, hj])
  rw [conforms_iff hR hc hV this.1 (by omega)]

/-- **C38**, `sh:or`: one result for each value node that conforms to no listed shape. -/
theorem C38_or (l : List Nat) (hi : W.shape i = some ⟨p, [.or l], [], false⟩)
    (hvs : W.vals ⟨p, [.or l], [], false⟩ x = some vs) :
    ∃ r, (run (W.validate d i [x]) (history W d hs fresh0)).1 = .ret r ∧
      r.Perm ((vs.filter fun y => ∀ j ∈ l, ¬ Conforms W d j y).map fun y =>
        ⟨W.obj x, .or, some (W.obj y), none, i⟩) := by
  obtain ⟨V, hV⟩ := meaning_exists hR
  obtain ⟨r, h1, h2⟩ := one_component hR hc hV hi hd x vs hvs hs h
  refine ⟨r, h1, faults_coe i .or x vs _ r (h2.trans (faults_congr i .or x _ _ vs fun y => ?_))⟩
  refine forall_congr' fun j => imp_congr_right fun hj => ?_
  have := hR.refs i _ hi j (by simp [Shape.refs, Comp.refs, hj])
  rw [conforms_iff hR hc hV this.1 (by omega)]

/-- **C38**, `sh:not`: one result for each value node that conforms. -/
theorem C38_not (j : Nat) (hi : W.shape i = some ⟨p, [.not j], [], false⟩)
    (hvs : W.vals ⟨p, [.not j], [], false⟩ x = some vs) :
    ∃ r, (run (W.validate d i [x]) (history W d hs fresh0)).1 = .ret r ∧
      r.Perm ((vs.filter fun y => Conforms W d j y).map fun y =>
        ⟨W.obj x, .not, some (W.obj y), none, i⟩) := by
  obtain ⟨V, hV⟩ := meaning_exists hR
  obtain ⟨r, h1, h2⟩ := one_component hR hc hV hi hd x vs hvs hs h
  refine ⟨r, h1, faults_coe i .not x vs _ r (h2.trans (faults_congr i .not x _ _ vs fun y => ?_))⟩
  have := hR.refs i _ hi j (by simp [Shape.refs, Comp.refs])
  rw [conforms_iff hR hc hV this.1 (by omega)]

/-- **C38**, `sh:xone`: one result for each value node for which the number of listed shapes it conforms to is
not one. -/
theorem C38_xone (l : List Nat) (hi : W.shape i = some ⟨p, [.xone l], [], false⟩)
    (hvs : W.vals ⟨p, [.xone l], [], false⟩ x = some vs) :
    ∃ r, (run (W.validate d i [x]) (history W d hs fresh0)).1 = .ret r ∧
      r.Perm ((vs.filter fun y => (l.filter fun j => Conforms W d j y).length ≠ 1).map fun y =>
        ⟨W.obj x, .xone, some (W.obj y), none, i⟩) := by
  obtain ⟨V, hV⟩ := meaning_exists hR
  obtain ⟨r, h1, h2⟩ := one_component hR hc hV hi hd x vs hvs hs h
  refine ⟨r, h1, faults_coe i .xone x vs _ r (h2.trans (faults_congr i .xone x _ _ vs fun y => ?_))⟩
  rw [← List.countP_eq_length_filter, List.countP_congr fun j hj => ?_]
  have := hR.refs i _ hi j (by simp [Shape.refs, Comp.refs, hj])
  rw [decide_eq_true_iff, decide_eq_true_iff, conforms_iff hR hc hV this.1 (by omega)]

/-- **C38**, `sh:node`: one result for each value node that does not conform. -/
theorem C38_node (j : Nat) (hi : W.shape i = some ⟨p, [.node j], [], false⟩)
    (hvs : W.vals ⟨p, [.node j], [], false⟩ x = some vs) :
    ∃ r, (run (W.validate d i [x]) (history W d hs fresh0)).1 = .ret r ∧
      r.Perm ((vs.filter fun y => ¬ Conforms W d j y).map fun y =>
        ⟨W.obj x, .node, some (W.obj y), none, i⟩) := by
  obtain ⟨V, hV⟩ := meaning_exists hR
  obtain ⟨r, h1, h2⟩ := one_component hR hc hV hi hd x vs hvs hs h
  refine ⟨r, h1, faults_coe i .node x vs _ r (h2.trans (faults_congr i .node x _ _ vs fun y => ?_))⟩
  have := hR.refs i _ hi j (by simp [Shape.refs, Comp.refs])
  rw [conforms_iff hR hc hV this.1 (by omega)]

/-- **C38**, qualified shapes: with `n` the number of value nodes that conform to the shape and to none of its
siblings, a result for the minimum exactly if `n` is below it, and one for the maximum exactly if `n` is above. -/
theorem C38_qualified (j : Nat) (mn mx : Option Int) (sib : List Nat)
    (hi : W.shape i = some ⟨p, [.qual j mn mx sib], [], false⟩)
    (hvs : W.vals ⟨p, [.qual j mn mx sib], [], false⟩ x = some vs) :
    ∃ r, (run (W.validate d i [x]) (history W d hs fresh0)).1 = .ret r ∧
      ∃ n, n = (vs.filter fun y => Conforms W d j y ∧ ∀ s ∈ sib, ¬ Conforms W d s y).length ∧
      r.Nodup ∧ ∀ a, a ∈ r ↔
        (a = ⟨W.obj x, .qmin, none, none, i⟩ ∧ ∃ m, mn = some m ∧ (n : Int) < m) ∨
        (a = ⟨W.obj x, .qmax, none, none, i⟩ ∧ ∃ m, mx = some m ∧ m < (n : Int)) := by
  obtain ⟨V, hV⟩ := meaning_exists hR
  obtain ⟨r, h1, h2⟩ := one_component hR hc hV hi hd x vs hvs hs h
  have hq : qualified V j sib vs =
      (vs.filter fun y => Conforms W d j y ∧ ∀ s ∈ sib, ¬ Conforms W d s y).length := by
    unfold qualified
    rw [Multiset.filter_coe, Multiset.coe_card]
    congr 1
    apply List.filter_congr
    intro y _
    have hj := hR.refs i _ hi j (by simp [Shape.refs, Comp.refs])
    rw [decide_eq_decide, conforms_iff hR hc hV hj.1 (by omega)]
    refine and_congr_right fun _ => forall_congr' fun s => imp_congr_right fun hs => ?_
    have := hR.refs i _ hi s (by simp [Shape.refs, Comp.refs, hs])
    rw [conforms_iff hR hc hV this.1 (by omega)]
  refine ⟨r, h1, _, rfl, ?_⟩
  rw [← hq]
  simp only [compRes] at h2
  generalize qualified V j sib vs = n at h2
  have hmem : ∀ a, a ∈ r ↔ a ∈ (r : Multiset (Res O P Q)) := fun a => Iff.rfl
  constructor
  · rw [← Multiset.coe_nodup, h2]
    by_cases h1 : ∃ m ∈ mn, (n : Int) < m <;> by_cases h3 : ∃ m ∈ mx, m < (n : Int)
    · rw [if_pos h1, if_pos h3, Multiset.nodup_add]
      refine ⟨Multiset.nodup_singleton _, Multiset.nodup_singleton _, ?_⟩
      rw [Multiset.disjoint_left]
      intro a ha hb
      rw [Multiset.mem_singleton] at ha hb
      rw [ha] at hb
      injection hb with _ hb
      cases hb
    · rw [if_pos h1, if_neg h3, add_zero]; exact Multiset.nodup_singleton _
    · rw [if_neg h1, if_pos h3, zero_add]; exact Multiset.nodup_singleton _
    · rw [if_neg h1, if_neg h3, add_zero]; exact Multiset.nodup_zero
  · intro a
    rw [hmem, h2, Multiset.mem_add]
    by_cases h1 : ∃ m ∈ mn, (n : Int) < m <;> by_cases h3 : ∃ m ∈ mx, m < (n : Int) <;>
      simp only [h1, h3, if_true, if_false, Multiset.mem_singleton, Multiset.notMem_zero] <;>
      simp only [Option.mem_def] at h1 h3 <;> simp [h1, h3]

end

/-- Shapes for the examples: 0 and 1 as before; 2 and 3 are shapes with one component each. -/
def logical (c : Comp Unit) : Nat → Option (Shape Nat Unit)
  | 0 => some ⟨none, [.prim ()], [], false⟩
  | 1 => some ⟨none, [], [], false⟩
  | 2 => some ⟨some (.pred 7), [c], [], false⟩
  | _ => none

/-- C38 applies: the value node 5 of 0 fails shape 0 and conforms to shape 1. -/
example :
    (run ((sample (logical (.and [1, 0])) id).validate 3 2 [0]) fresh0).1 = .ret [⟨0, .and, some 5, none, 2⟩] ∧
    (run ((sample (logical (.or [0, 1])) id).validate 3 2 [0]) fresh0).1 = .ret [] ∧
    (run ((sample (logical (.not 1)) id).validate 3 2 [0]) fresh0).1 = .ret [⟨0, .not, some 5, none, 2⟩] ∧
    (run ((sample (logical (.xone [0, 1, 1])) id).validate 3 2 [0]) fresh0).1 = .ret [⟨0, .xone, some 5, none, 2⟩] ∧
    (run ((sample (logical (.node 0)) id).validate 3 2 [0]) fresh0).1 = .ret [⟨0, .node, some 5, none, 2⟩] ∧
    (run ((sample (logical (.qual 1 (some 2) (some 0) [0])) id).validate 3 2 [0]) fresh0).1 =
      .ret [⟨0, .qmin, none, none, 2⟩, ⟨0, .qmax, none, none, 2⟩] := by
  decide

/-! ## Termination -/

/-- No way through the computation is endless. -/
def NoLoop {K V A : Type} : Prog K V A → Prop
  | .ret _ => True
  | .fail => True
  | .loop => False
  | .look _ c => ∀ v, NoLoop (c v)
  | .has _ c => ∀ b, NoLoop (c b)
  | .record _ _ p => NoLoop p

section
variable {K V A B : Type}

theorem NoLoop.bind {p : Prog K V A} {f : A → Prog K V B} (hp : NoLoop p) (hf : ∀ a, NoLoop (f a)) :
    NoLoop (p.bind f) := by
  induction p with
  | ret a => exact hf a
  | fail => trivial
  | loop => exact hp
  | look k c ih => exact fun v => ih v (hp v)
  | has k c ih => exact fun v => ih v (hp v)
  | record k v p ih => exact ih hp

theorem NoLoop.attempt {p : Prog K V A} (hp : NoLoop p) : NoLoop p.attempt := by
  induction p with
  | ret a => trivial
  | fail => trivial
  | loop => exact hp
  | look k c ih => exact fun v => ih v (hp v)
  | has k c ih => exact fun v => ih v (hp v)
  | record k v p ih => exact ih hp

end

section
variable {W : World T O P Q} {val : Nat → List T → VProg O P Q (List (Res O P Q))}

theorem need_noLoop {A : Type} (j : Nat) (p : VProg O P Q A) (h : NoLoop p) : NoLoop (W.need j p) := by
  unfold World.need
  split
  · trivial
  · exact h

theorem conforms_noLoop (j : Nat) (y : T) (h : ∀ l, NoLoop (val j l)) : NoLoop (W.conforms val j y) :=
  need_noLoop j _ ((h [y]).attempt.bind fun _ => trivial)

theorem allConform_noLoop (y : T) : ∀ l : List Nat, (∀ j ∈ l, ∀ l, NoLoop (val j l)) → NoLoop (W.allConform val l y)
  | [], _ => trivial
  | j :: l, h => by
    refine need_noLoop j _ ((h j List.mem_cons_self [y]).attempt.bind fun r => ?_)
    split
    · exact allConform_noLoop y l fun j hj => h j (List.mem_cons_of_mem _ hj)
    · trivial

theorem someConforms_noLoop (y : T) : ∀ l : List Nat, (∀ j ∈ l, ∀ l, NoLoop (val j l)) → NoLoop (W.someConforms val l y)
  | [], _ => trivial
  | j :: l, h => by
    refine need_noLoop j _ ((h j List.mem_cons_self [y]).bind fun r => ?_)
    split
    · trivial
    · exact someConforms_noLoop y l fun j hj => h j (List.mem_cons_of_mem _ hj)

theorem countConform_noLoop (y : T) : ∀ l : List Nat, (∀ j ∈ l, ∀ l, NoLoop (val j l)) → NoLoop (W.countConform val l y)
  | [], _ => trivial
  | j :: l, h => (conforms_noLoop j y (h j List.mem_cons_self)).bind fun _ =>
      (countConform_noLoop y l fun j hj => h j (List.mem_cons_of_mem _ hj)).bind fun _ => trivial

theorem someSibling_noLoop (y : T) : ∀ l : List Nat, (∀ j ∈ l, ∀ l, NoLoop (val j l)) → NoLoop (W.someSibling val l y)
  | [], _ => trivial
  | j :: l, h => (conforms_noLoop j y (h j List.mem_cons_self)).bind fun b => by
      split
      · trivial
      · exact someSibling_noLoop y l fun j hj => h j (List.mem_cons_of_mem _ hj)

theorem countQualified_noLoop (j : Nat) (sib : List Nat) (hj : ∀ l, NoLoop (val j l))
    (hs : ∀ j ∈ sib, ∀ l, NoLoop (val j l)) : ∀ vs : List T, NoLoop (W.countQualified val j sib vs)
  | [] => trivial
  | y :: l => (conforms_noLoop j y hj).bind fun b => by
      refine NoLoop.bind ?_ fun c => (countQualified_noLoop j sib hj hs l).bind fun _ => trivial
      split
      · exact (someSibling_noLoop y sib hs).bind fun _ => trivial
      · trivial

theorem nodeViolates_noLoop (j : Nat) (y : T) (h : ∀ l, NoLoop (val j l)) : NoLoop (W.nodeViolates val j y) := by
  intro b
  cases b with
  | true => exact fun r => trivial
  | false => exact (h [y]).bind fun _ => trivial

theorem perValue_noLoop (i : Nat) (k : Kind Q) (x : T) (bad : T → VProg O P Q Bool) (h : ∀ y, NoLoop (bad y)) :
    ∀ vs : List T, NoLoop (W.perValue i k x bad vs)
  | [] => trivial
  | y :: l => (h y).bind fun _ => (perValue_noLoop i k x bad h l).bind fun _ => trivial

theorem evalComp_noLoop (i : Nat) (c : Comp Q) (x : T) (vs : List T) (h : ∀ j ∈ c.refs, ∀ l, NoLoop (val j l)) :
    NoLoop (W.evalComp val i c x vs) := by
  cases c with
  | prim q =>
    simp only [World.evalComp]
    split <;> trivial
  | and l => refine perValue_noLoop i _ x _ (fun y => ?_) _; exact (allConform_noLoop y l h).bind fun _ => trivial
  | or l => refine perValue_noLoop i _ x _ (fun y => ?_) _; exact (someConforms_noLoop y l h).bind fun _ => trivial
  | not j => exact perValue_noLoop i _ x _ (fun y => conforms_noLoop j y (h j (by simp [Comp.refs]))) _
  | xone l => refine perValue_noLoop i _ x _ (fun y => ?_) _; exact (countConform_noLoop y l h).bind fun _ => trivial
  | node j => exact perValue_noLoop i _ x _ (fun y => nodeViolates_noLoop j y (h j (by simp [Comp.refs]))) _
  | qual j mn mx sib =>
    exact (countQualified_noLoop j sib (h j (by simp [Comp.refs])) (fun s hs => h s (by simp [Comp.refs, hs])) _).bind
      fun _ => trivial

theorem evalLoop_noLoop (i : Nat) (c : Comp Q) (h : ∀ j ∈ c.refs, ∀ l, NoLoop (val j l)) :
    ∀ vn : List (T × List T), NoLoop (W.evalLoop val i c vn)
  | [] => trivial
  | e :: l => (evalComp_noLoop i c e.1 e.2 h).bind fun _ => (evalLoop_noLoop i c h l).bind fun _ => trivial

theorem evalAll_noLoop (i : Nat) (c : Comp Q) (h : ∀ j ∈ c.refs, ∀ l, NoLoop (val j l)) (vn : List (T × List T)) :
    NoLoop (W.evalAll val i c vn) := by
  have := evalLoop_noLoop (W := W) i c h vn
  cases c with
  | node j => exact need_noLoop j _ this
  | _ => exact this

theorem evalComps_noLoop (i : Nat) (vn : List (T × List T)) :
    ∀ cs : List (Comp Q), (∀ c ∈ cs, ∀ j ∈ c.refs, ∀ l, NoLoop (val j l)) → NoLoop (W.evalComps val i vn cs)
  | [], _ => trivial
  | c :: l, h => (evalAll_noLoop i c (h c List.mem_cons_self) vn).bind fun _ =>
      (evalComps_noLoop i vn l fun c hc => h c (List.mem_cons_of_mem _ hc)).bind fun _ => trivial

theorem nestedOne_noLoop (j : Nat) (h : ∀ l, NoLoop (val j l)) :
    ∀ vn : List (T × List T), NoLoop (World.nestedOne val j vn)
  | [] => trivial
  | e :: l => (h e.2).bind fun _ => (nestedOne_noLoop j h l).bind fun _ => trivial

theorem nested_noLoop (vn : List (T × List T)) :
    ∀ ps : List Nat, (∀ j ∈ ps, ∀ l, NoLoop (val j l)) → NoLoop (W.nested val vn ps)
  | [], _ => trivial
  | j :: l, h => need_noLoop j _ ((nestedOne_noLoop j (h j List.mem_cons_self) vn).bind fun _ =>
      (nested_noLoop vn l fun j hj => h j (List.mem_cons_of_mem _ hj)).bind fun _ => trivial)

theorem split_noLoop (i : Nat) : ∀ l : List T, NoLoop (W.split i l)
  | [] => trivial
  | _ :: l => fun _ => (split_noLoop i l).bind fun _ => trivial

theorem recordAll_noLoop (i : Nat) (new : List (Res O P Q)) : ∀ os : List O, NoLoop (recordAll i new os)
  | [] => trivial
  | _ :: l => recordAll_noLoop i new l

theorem validate_noLoop {rank : Nat → Nat}
    (hR : ∀ i sh, W.shape i = some sh → ∀ j ∈ sh.refs, rank j < rank i) :
    ∀ d i l, rank i < d → NoLoop (W.validate d i l) := by
  intro d
  induction d with
  | zero => intro i l h; omega
  | succ d ih =>
    intro i l hd
    simp only [World.validate]
    cases hi : W.shape i with
    | none => trivial
    | some sh =>
      simp only [World.body]
      split
      · trivial
      · refine (split_noLoop i _).bind fun s => ?_
        split
        · trivial
        · refine (evalComps_noLoop i _ _ ?_).bind fun r1 =>
            (nested_noLoop _ _ ?_).bind fun r2 => (recordAll_noLoop i _ _).bind fun _ => trivial
          · intro c hc j hj l
            have := hR i sh hi j (List.mem_append_left _ (List.mem_flatMap.2 ⟨c, hc, hj⟩))
            exact ih j l (by omega)
          · intro j hj l
            have := hR i sh hi j (List.mem_append_right _ hj)
            exact ih j l (by omega)

theorem run_noLoop {A : Type} {p : VProg O P Q A} : ∀ (c : Cache O P Q), NoLoop p → (run p c).1 ≠ .loop := by
  induction p with
  | ret a => intro c _ h; cases h
  | fail => intro c _ h; cases h
  | loop => intro c h; exact absurd h id
  | look k f ih => intro c h; exact ih _ c (h _)
  | has k f ih => intro c h; exact ih _ c (h _)
  | record k v p ih => intro c h; exact ih _ h

/-- **C67**. Validation of shapes whose references, including those to sibling shapes, go down in some rank ends:
with whatever data, constraints and cache, calls do not go deeper than the rank of the shape. -/
theorem C67_validation_terminates {rank : Nat → Nat}
    (hR : ∀ i sh, W.shape i = some sh → ∀ j ∈ sh.refs, rank j < rank i) (i : Nat) (l : List T) (c : Cache O P Q) :
    (run (W.validate (rank i + 1) i l) c).1 ≠ .loop :=
  run_noLoop c (validate_noLoop hR _ i l (by omega))

end

/-- C67 applies: three shapes that refer downwards, with a failing reference. -/
example : (run ((sample nestedShapes id).validate 3 3 [0]) fresh0).1 = .ret [⟨0, .node, some 0, none, 3⟩] := by decide

#print axioms C36_cached_results_partial
#print axioms C36_refuted
#print axioms C36_refuted_objects
#print axioms C37_schedules_partial
#print axioms C37_groupings_partial
#print axioms C37_progress_partial
#print axioms C37_refuted
#print axioms C38_and
#print axioms C38_or
#print axioms C38_not
#print axioms C38_xone
#print axioms C38_node
#print axioms C38_qualified
#print axioms C66_meaning_partial
#print axioms C67_validation_terminates

end Shacl
