import Verif.Part.LemmasClass
import Verif.Rbe.PropsTable

/-!
# Property C18: class partitions
-/

namespace Part
open CIter Rbe

/-! ## Helper facts -/

/-- The generic form: arbitrary eligibility and refutation functions. -/
theorem class_partitions {N : Type}
    (order : List (List Nat × List N) → List (List Nat × List N)) (ho : ∀ l, (order l).Perm l)
    (elig : N → List Nat) (hn : ∀ x, (elig x).Nodup) (feas : List (List N → Bool))
    (neighs its : List N) (hi : its = neighs.filter fun x => !(elig x).isEmpty) :
    ∃ (gs : List (List Nat)) (outs : List (List (List N))),
      Drains CIter.step (CIter.new order elig feas neighs) outs ∧
      List.Forall₂ (Realises feas.length its) gs outs ∧ gs.Nodup ∧
      (∀ g ∈ gs, AssignsEligible elig its g) ∧
      ∀ acc : Nat → List N → Prop,
        (∀ (b : Nat) (f : List N → Bool), feas[b]? = some f → ∀ pool sub : List N,
          sub.Sublist pool → acc b sub → f pool = true) →
        (∀ b l l', l.Perm l' → acc b l → acc b l') →
        ∀ g, AssignsEligible elig its g → (∀ b < feas.length, acc b (group its g b)) → g ∈ gs := by
  subst hi
  obtain ⟨hg, hc⟩ := mkClasses_grouped order ho elig neighs
  have hnd : ∀ c ∈ mkClasses order elig neighs, c.eligible.Nodup := by
    intro c h
    obtain ⟨_, x, _, hx⟩ := hc c h
    rw [← hx]; exact hn x
  have hd := drains_new order elig feas neighs (fun c h => (hc c h).1)
  generalize hcl : mkClasses order elig neighs = classes at *
  generalize hits : (neighs.filter fun x => !(elig x).isEmpty) = its at *
  have hvalid : ∀ P ∈ allPerms feas classes, List.Forall₂ ArrOf classes P :=
    fun P hP => ((mem_allPerms feas classes hnd P).1 hP).1
  have hJ : ∃ J : List (List Nat) → List Nat, ∀ P, List.Forall₂ ArrOf classes P →
      AssignsEligible elig its (J P) ∧ splitAll elig its classes (J P) = P := by
    classical
    refine ⟨fun P => if h : List.Forall₂ ArrOf classes P then (splitAll_surj hg h).choose else [], ?_⟩
    intro P hP
    simp only [dif_pos hP]
    exact (splitAll_surj hg hP).choose_spec
  obtain ⟨J, hJ⟩ := hJ
  refine ⟨(allPerms feas classes).map J, _, hd, ?_, ?_, ?_, ?_⟩
  · rw [List.forall₂_map_left_iff, List.forall₂_map_right_iff, List.forall₂_same]
    intro P hP
    obtain ⟨h1, h2⟩ := hJ P (hvalid P hP)
    have hp := placed_perm hg (g := J P) h1.length_eq.symm
    rw [h2] at hp
    have hs : subsets feas.length classes P = (List.range feas.length).map fun b =>
        ((placed classes P).filter fun x => x.2 == b).map Prod.fst := fill_spec _ _
    rw [hs]
    refine ⟨by simp, fun b hb => ?_⟩
    rw [List.getD_eq_getElem?_getD, List.getElem?_map, List.getElem?_range hb]
    exact (hp.filter _).map _
  · refine (List.nodup_map_iff_inj_on (nodup_allPerms feas classes hnd)).2 ?_
    intro P hP Q hQ he
    rw [← (hJ P (hvalid P hP)).2, ← (hJ Q (hvalid Q hQ)).2, he]
  · intro g hgm
    obtain ⟨P, hP, rfl⟩ := List.mem_map.1 hgm
    exact (hJ P (hvalid P hP)).1
  · intro acc hs hperm g hga hacc
    have harr := splitAll_arr hg hga
    have hp := placed_perm hg (g := g) hga.length_eq.symm
    refine List.mem_map.2 ⟨splitAll elig its classes g, ?_, ?_⟩
    · refine mem_allPerms_of_accepted feas classes hnd acc hs _ harr ?_
      intro b hb
      exact hperm b _ _ ((hp.filter _).map _).symm (hacc b hb)
    · obtain ⟨h1, h2⟩ := hJ _ harr
      exact splitAll_inj hg h1.length_eq.symm hga.length_eq.symm h2

section
variable {K V C R : Type} [DecidableEq K] [DecidableEq V] [DecidableEq R]

theorem any_key_iff {X Y : Type} [DecidableEq X] (l : List (X × Y)) (k : X) :
    (l.any fun p => decide (p.1 = k)) = true ↔ ∃ y, alookup k l = some y := by
  induction l with
  | nil => simp [alookup]
  | cons e l ih =>
    obtain ⟨z, v⟩ := e
    simp only [List.any_cons, alookup, Bool.or_eq_true, decide_eq_true_eq, ih]
    by_cases h : z = k <;> simp [h]

theorem made_nonempty {t : Table K V C R} (h : t.Made) (k : K) :
    alookup k t.keyComponents ≠ some [] := by
  induction h with
  | new => simp [Table.new, alookup]
  | withRbe t s hs h ih => exact ih
  | add t k' cond h ih =>
    simp only [Table.addComponent, alookup_upsert]
    split
    · intro h
      rw [Option.some.injEq] at h
      unfold sinsert at h
      split at h
      · rename_i hm; rw [h] at hm; simp at hm
      · simp at h
    · exact ih

theorem mentions_iff {b : List (Table K V C R)} (hm : ∀ t ∈ b, t.Made) (k : K) :
    mentions b k = true ↔ ∃ t ∈ b, ∃ c, t.getKey c = some k := by
  simp only [mentions, List.any_eq_true]
  refine exists_congr fun t => and_congr_right fun ht => ?_
  rw [← List.any_eq_true, any_key_iff]
  have hi := Table.inv_of_made (hm t ht)
  constructor
  · rintro ⟨l, hl⟩
    have hne : l ≠ [] := by rintro rfl; exact made_nonempty (hm t ht) k hl
    obtain ⟨c, hc⟩ := List.exists_mem_of_ne_nil _ hne
    exact ⟨c, (hi.mem k c).1 (by simp [Table.componentsOf, hl, hc])⟩
  · rintro ⟨c, hc⟩
    have := (hi.mem k c).2 hc
    unfold Table.componentsOf at this
    cases hl : alookup k t.keyComponents with
    | none => rw [hl] at this; simp at this
    | some l => exact ⟨l, rfl⟩

theorem mem_eligible {buckets : List (List (Table K V C R))}
    (hm : ∀ b ∈ buckets, ∀ t ∈ b, t.Made) (x : K × V × C) (b : Nat) :
    b ∈ eligible buckets x ↔ BucketTakes buckets x b := by
  unfold eligible BucketTakes
  rw [List.mem_filter, List.mem_range]
  constructor
  · rintro ⟨h1, h2⟩
    have hg : buckets[b]? = some buckets[b] := List.getElem?_eq_getElem h1
    rw [List.getD_eq_getElem?_getD, hg, Option.getD_some,
      mentions_iff (hm _ (List.getElem_mem h1))] at h2
    exact ⟨_, hg, h2⟩
  · rintro ⟨bucket, hg, h⟩
    obtain ⟨h1, h2⟩ := List.getElem?_eq_some_iff.1 hg
    refine ⟨h1, ?_⟩
    rw [List.getD_eq_getElem?_getD, hg, Option.getD_some,
      mentions_iff (hm _ (h2 ▸ List.getElem_mem h1))]
    exact h

/-! ## C18 -/

/-- C18: for tables made through the public interface and any iteration order of the hash map, the
class-based iterator stops; the partitions it yields realise pairwise different assignments; each
of them sends every triple that some bucket can take to exactly one such bucket; and every
assignment under which each expression of each bucket can be matched is among them. -/
theorem C18_class_partitions
    (order : List (List Nat × List (K × V × C)) → List (List Nat × List (K × V × C)))
    (ho : ∀ l, (order l).Perm l)
    (buckets : List (List (Table K V C R))) (hm : ∀ b ∈ buckets, ∀ t ∈ b, t.Made)
    (neighs its : List (K × V × C)) (q : K × V × C → Bool)
    (hq : ∀ x ∈ neighs, q x = true ↔ ∃ b, BucketTakes buckets x b) (hits : its = neighs.filter q) :
    ∃ (gs : List (List Nat)) (outs : List (List (List (K × V × C)))),
      Drains CIter.step (classPartitions order buckets neighs) outs ∧
      List.Forall₂ (Realises buckets.length its) gs outs ∧ gs.Nodup ∧
      (∀ g ∈ gs, List.Forall₂ (BucketTakes buckets) its g) ∧
      ((∀ b ∈ buckets, ∀ t ∈ b, Sane t.rbe.rbe ∧ (¬ SingleOcc t.rbe.rbe → WF t.rbe.rbe)) →
        ∀ g, List.Forall₂ (BucketTakes buckets) its g → AllBucketsMatch buckets its g → g ∈ gs) := by
  have hel : ∀ g : List Nat, AssignsEligible (eligible buckets) its g ↔
      List.Forall₂ (BucketTakes buckets) its g := by
    intro g
    unfold AssignsEligible
    simp only [mem_eligible hm]
  obtain ⟨gs, outs, h1, h2, h3, h4, h5⟩ := class_partitions order ho (eligible buckets)
    (fun x => List.nodup_range.filter _) (buckets.map bucketFeasible) neighs its (by
      rw [hits]
      apply List.filter_congr
      intro x hx
      rw [Bool.eq_iff_iff, hq x hx, Bool.not_eq_true', ← Bool.not_eq_true, List.isEmpty_iff,
        List.eq_nil_iff_forall_not_mem]
      push Not
      simp only [mem_eligible hm])
  rw [List.length_map] at h2 h5
  refine ⟨gs, outs, h1, h2, h3, fun g hg => (hel g).1 (h4 g hg), fun hs g hg ha => ?_⟩
  refine h5 (fun b l => ∀ bucket, buckets[b]? = some bucket → ∀ t ∈ bucket,
    ∃ enum, Enumerates enum ∧ ∃ vs, vs.Perm l ∧ ∃ p, some p ∈ t.items enum vs) ?_ ?_ g
    ((hel g).2 hg) (fun b _ => ha b)
  · intro b f hf pool sub hsub hacc
    rw [List.getElem?_map, Option.map_eq_some_iff] at hf
    obtain ⟨bucket, hb, rfl⟩ := hf
    have hbm := List.mem_of_getElem? hb
    unfold bucketFeasible
    rw [List.all_eq_true]
    intro t ht
    obtain ⟨enum, he, vs, hvs, p, hp⟩ := hacc bucket hb t ht
    by_contra hinf
    exact C11_precheck_never_hides_match t (hm _ hbm t ht) (hs _ hbm t ht).1 (hs _ hbm t ht).2 enum
      he pool vs (hvs.subperm.trans hsub.subperm) (by simpa using hinf) p hp
  · intro b l l' hll h bucket hb t ht
    obtain ⟨enum, he, vs, hvs, hp⟩ := h bucket hb t ht
    exact ⟨enum, he, vs, hvs.trans hll, hp⟩

end

/-- `{ :0 [2] }`. -/
def exOne (k v : Nat) : Table Nat Nat Unit Nat :=
  (Table.new.addComponent k (isVal v)).withRbe (Struct.symbol 0 1 (.intMax 1))

/-- Two buckets for the key 0 wanting one triple each: of the four assignments of two triples the
two unbalanced ones are refuted; the triple of key 5 fits nowhere and is left out. -/
example : drain CIter.step 40
      (classPartitions id [[exOne 0 2], [exOne 0 3]] [(0, 2, ()), (5, 1, ()), (0, 3, ())]) =
    some [[[(0, 2, ())], [(0, 3, ())]], [[(0, 3, ())], [(0, 2, ())]]] := by decide

example : (∀ b ∈ [[exOne 0 2], [exOne 0 3]], ∀ t ∈ b, t.Made ∧ Sane t.rbe.rbe ∧ WF t.rbe.rbe) := by
  have : ∀ k v, (exOne k v).Made ∧ Sane (exOne k v).rbe.rbe ∧ WF (exOne k v).rbe.rbe := fun k v =>
    ⟨.withRbe _ _ (.symbol 0 1 (.intMax 1)) (.add _ _ _ .new),
      by simp [exOne, Table.withRbe, Struct.symbol, Sane], by simp [exOne, Table.withRbe, Struct.symbol, WF]⟩
  intro b hb t ht
  simp only [List.mem_cons, List.not_mem_nil, or_false] at hb
  rcases hb with rfl | rfl <;> (rw [List.mem_singleton] at ht; subst ht; exact this _ _)

#print axioms C18_class_partitions

end Part
