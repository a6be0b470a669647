import Verif.Shex.SpecExtends
import Verif.Shex.LemmasShape
import Verif.Part.PropsClass
import Mathlib.Data.List.Flatten

/-!
# Lemmas: shapes that extend others
-/

namespace Shex
open Rbe Part

variable {N P : Type} [DecidableEq N] [DecidableEq P]

/-! ## Tables -/

theorem checkExprNeigh_accepts {enum : List Nat → List (Nat × Nat)} (he : Enumerates enum)
    {t : TExpr N P} (ht : Plain t) (vs : List (Neigh N P)) (T : N × Nat → Bool) :
    checkExprNeigh enum t vs T = true ↔ Accepts t vs (fun x => T x = true) := by
  have hi := Table.inv_of_made ht.made
  rw [checkExprNeigh_iff_item ht.made]
  constructor
  · rintro ⟨p, hp, hT⟩
    by_cases hu : ∀ x ∈ vs, t.Unplaceable x
    · rw [items_eq, if_pos fun x hx => (candidates_nil_iff hi x).2 (hu x hx)] at hp
      simp only [Table.emptyItems, condNullable_map, List.mem_singleton] at hp
      split at hp
      · rename_i hn
        exact Or.inr ⟨hu, (condNullable_iff _ (minMax_of_sane _ (sane_of_wf _ ht.wf))).1 hn⟩
      · cases hp
    · push Not at hu
      obtain ⟨cs, ha, hc⟩ := C12_success_from_assignment_partial t ht.made ht.wf ht.flat enum he
        vs (Or.inr hu) p hp
      exact Or.inl ⟨cs, ha, fun w r hr => hT w r ((hc.1 w r).2 hr)⟩
  · rintro (⟨cs, ha, hT⟩ | ⟨hu, hl⟩)
    · obtain ⟨p, hp, hc⟩ := C12_every_assignment_found t ht.made ht.wf ht.flat enum he vs cs ha
      exact ⟨p, hp, fun w r hd => hT w r ((hc.1 w r).1 hd)⟩
    · refine ⟨Pending.empty, ?_, ?_⟩
      · rw [items_eq, if_pos fun x hx => (candidates_nil_iff hi x).2 (hu x hx)]
        simp only [Table.emptyItems, condNullable_map, List.mem_singleton]
        rw [if_pos ((condNullable_iff _ (minMax_of_sane _ (sane_of_wf _ ht.wf))).2 hl)]
      · intro w r hd
        simp [dep_empty] at hd

theorem accepts_perm {t : TExpr N P} {vs vs' : List (Neigh N P)} (h : vs.Perm vs')
    {T : N × Nat → Prop} (ha : Accepts t vs T) : Accepts t vs' T := by
  rcases ha with ha | ⟨hu, hl⟩
  · exact Or.inl (assignment_reorder t h T ha)
  · exact Or.inr ⟨fun x hx => hu x (h.mem_iff.2 hx), hl⟩

theorem accepts_item {t : TExpr N P} (ht : Plain t) {vs : List (Neigh N P)} {T : N × Nat → Bool}
    {enum : List Nat → List (Nat × Nat)} (he : Enumerates enum)
    (ha : Accepts t vs (fun x => T x = true)) : ∃ p, some p ∈ t.items enum vs := by
  have := (checkExprNeigh_accepts he ht vs T).2 ha
  rw [checkExprNeigh_iff_item ht.made] at this
  obtain ⟨p, hp, _⟩ := this
  exact ⟨p, hp⟩

theorem checkExprsNeigh_accepts {enum : List Nat → List (Nat × Nat)} (he : Enumerates enum)
    {ts : List (TExpr N P)} (ht : ∀ t ∈ ts, Plain t) (vs : List (Neigh N P)) (T : N × Nat → Bool) :
    checkExprsNeigh enum ts vs T = true ↔ ∀ t ∈ ts, Accepts t vs (fun x => T x = true) := by
  unfold checkExprsNeigh
  rw [List.all_eq_true]
  exact forall_congr' fun t => forall_congr' fun h => checkExprNeigh_accepts he (ht t h) vs T

/-! ## Partitions as shares -/

theorem perm_lift {X Y : Type} (f : X → Y) {A B : List Y} (h : A.Perm B) :
    ∀ l : List X, l.map f = A → ∃ l', l.Perm l' ∧ l'.map f = B := by
  induction h with
  | nil => intro l hl; exact ⟨l, List.Perm.refl _, hl⟩
  | cons x _ ih =>
    intro l hl
    obtain ⟨a, as, rfl, rfl, h2⟩ := List.map_eq_cons_iff.1 hl
    obtain ⟨l', h1, h3⟩ := ih as h2
    exact ⟨a :: l', h1.cons a, by simp [h3]⟩
  | swap x y l =>
    intro l hl
    obtain ⟨a, as, rfl, rfl, h2⟩ := List.map_eq_cons_iff.1 hl
    obtain ⟨b, bs, rfl, rfl, h3⟩ := List.map_eq_cons_iff.1 h2
    exact ⟨b :: a :: bs, List.Perm.swap _ _ _, by simp [h3]⟩
  | trans _ _ ih1 ih2 =>
    intro l hl
    obtain ⟨l1, h1, h2⟩ := ih1 l hl
    obtain ⟨l2, h3, h4⟩ := ih2 l1 h2
    exact ⟨l2, h1.trans h3, h4⟩

/-- The parts with the number of their group attached. -/
def tagged {X : Type} : Nat → List (List X) → List (X × Nat)
  | _, [] => []
  | k, p :: ps => (p.map fun x => (x, k)) ++ tagged (k + 1) ps

theorem tagged_fst {X : Type} (ps : List (List X)) (k : Nat) :
    (tagged k ps).map Prod.fst = ps.flatten := by
  induction ps generalizing k with
  | nil => rfl
  | cons p ps ih =>
    simp only [tagged, List.map_append, List.map_map, List.flatten_cons, ih]
    congr 1
    exact List.map_id'' (fun _ => rfl) _

theorem tagged_ge {X : Type} (ps : List (List X)) (k : Nat) : ∀ x ∈ tagged k ps, k ≤ x.2 := by
  induction ps generalizing k with
  | nil => simp [tagged]
  | cons p ps ih =>
    intro x hx
    simp only [tagged, List.mem_append, List.mem_map] at hx
    rcases hx with ⟨_, _, rfl⟩ | hx
    · exact Nat.le_refl _
    · exact Nat.le_trans (Nat.le_succ k) (ih (k + 1) x hx)

theorem tagged_filter {X : Type} (ps : List (List X)) (k b : Nat) :
    ((tagged k ps).filter fun x => x.2 == k + b).map Prod.fst = ps.getD b [] := by
  induction ps generalizing k b with
  | nil => simp [tagged]
  | cons p ps ih =>
    simp only [tagged, List.filter_append, List.map_append]
    cases b with
    | zero =>
      have h1 : ((p.map fun x => (x, k)).filter fun x => x.2 == k + 0) = p.map fun x => (x, k) :=
        List.filter_eq_self.2 (by simp)
      have h2 : ((tagged (k + 1) ps).filter fun x => x.2 == k + 0) = [] :=
        List.filter_eq_nil_iff.2 fun x hx => by
          have := tagged_ge ps (k + 1) x hx
          simp; omega
      rw [h1, h2]
      simp [List.map_id'']
    | succ b =>
      have h1 : ((p.map fun x => (x, k)).filter fun x => x.2 == k + (b + 1)) = [] :=
        List.filter_eq_nil_iff.2 (by simp)
      have := ih (k + 1) b
      rw [h1]
      simp only [List.map_nil, List.nil_append]
      rw [show k + (b + 1) = k + 1 + b by omega, this]
      simp

/-- A way to share out `its` is an assignment. -/
theorem assign_of_parts {X : Type} {its : List X} {ps : List (List X)} (h : ps.flatten.Perm its) :
    ∃ g : List Nat, g.length = its.length ∧
      (∀ x d, (x, d) ∈ its.zip g → x ∈ ps.getD d []) ∧
      ∀ b, (group its g b).Perm (ps.getD b []) := by
  obtain ⟨l, h1, h2⟩ := perm_lift Prod.fst h (tagged 0 ps) (tagged_fst ps 0)
  have hz : its.zip (l.map Prod.snd) = l := by
    rw [← h2, List.zip_map']
    exact List.map_id'' (fun _ => rfl) l
  have hg : ∀ b, (group its (l.map Prod.snd) b).Perm (ps.getD b []) := by
    intro b
    unfold group
    rw [hz]
    have := tagged_filter ps 0 b
    rw [Nat.zero_add] at this
    rw [← this]
    exact ((h1.symm.filter _).map _)
  refine ⟨l.map Prod.snd, by rw [← h2]; simp, ?_, hg⟩
  intro x d hx
  rw [hz] at hx
  have hp := hg d
  unfold group at hp
  rw [hz] at hp
  exact hp.mem_iff.1 (List.mem_map.2 ⟨(x, d), List.mem_filter.2 ⟨hx, by simp⟩, rfl⟩)

/-- The parts of a realised assignment are the items. -/
theorem parts_of_assign {X : Type} {its : List X} {k : Nat} {g : List Nat} {p : List (List X)}
    (hl : g.length = its.length) (hd : ∀ d ∈ g, d < k) (hr : Realises k its g p) :
    p.flatten.Perm its := by
  obtain ⟨h1, h2⟩ := hr
  have hp : p = (List.range k).map fun b => p.getD b [] := by
    apply List.ext_getElem
    · simp [h1]
    · intro n hn hn'
      simp [List.getD_eq_getElem?_getD, hn]
  have e1 : p.flatten.Perm ((List.range k).flatMap fun b => group its g b) := by
    rw [hp, ← List.flatMap_def]
    exact List.Perm.flatMap_left _ fun b hb => h2 b (List.mem_range.1 hb)
  refine e1.trans ?_
  clear e1 hp h2 h1
  have key : ∀ l : List (X × Nat), (∀ x ∈ l, x.2 < k) →
      ((List.range k).flatMap fun b => (l.filter fun x => x.2 == b).map Prod.fst).Perm
        (l.map Prod.fst) := by
    intro l
    induction l with
    | nil => intro _; simp [List.flatMap]
    | cons a l ih =>
      intro hlt
      have ih := ih fun x hx => hlt x (by simp [hx])
      have ha := hlt a (by simp)
      refine List.Perm.trans ?_ (List.Perm.cons a.1 ih)
      have hs : ∀ rs : List Nat, rs.Nodup → a.2 ∈ rs →
          (rs.flatMap fun b => ((a :: l).filter fun x => x.2 == b).map Prod.fst).Perm
            (a.1 :: rs.flatMap fun b => (l.filter fun x => x.2 == b).map Prod.fst) := by
        intro rs
        induction rs with
        | nil => intro _ h; simp at h
        | cons r rs ihr =>
          intro hn hm
          rw [List.nodup_cons] at hn
          simp only [List.flatMap_cons]
          by_cases hr : a.2 = r
          · have hrest : (rs.flatMap fun b => ((a :: l).filter fun x => x.2 == b).map Prod.fst) =
                rs.flatMap fun b => (l.filter fun x => x.2 == b).map Prod.fst := by
              rw [List.flatMap_def, List.flatMap_def]
              congr 1
              apply List.map_congr_left
              intro b hb
              rw [List.filter_cons_of_neg]
              simp only [beq_iff_eq]
              rintro rfl
              exact hn.1 (hr ▸ hb)
            rw [hrest, List.filter_cons_of_pos (by simp [hr])]
            simp
          · rw [List.filter_cons_of_neg (by simp [hr])]
            have hm' : a.2 ∈ rs := by
              rcases List.mem_cons.1 hm with h | h
              · exact absurd h hr
              · exact h
            refine ((ihr hn.2 hm').append_left _).trans ?_
            exact List.perm_middle
      exact hs _ List.nodup_range (List.mem_range.2 ha)
  have := key (its.zip g) fun x hx => hd _ (List.of_mem_zip hx).2
  rw [List.map_fst_zip (by omega)] at this
  exact this

/-! ## The search -/

theorem alookup_zip_getD {L X : Type} [DecidableEq L] {labels : List L} (hn : labels.Nodup)
    {part : List (List X)} (hl : part.length = labels.length) {k : Nat} {l : L}
    (hk : labels[k]? = some l) : (alookup l (labels.zip part)).getD [] = part.getD k [] := by
  induction labels generalizing part k with
  | nil => simp at hk
  | cons a labels ih =>
    match part, hl with
    | p :: ps, hl =>
      rw [List.nodup_cons] at hn
      simp only [List.zip_cons_cons, alookup]
      cases k with
      | zero =>
        simp only [List.getElem?_cons_zero, Option.some.injEq] at hk
        subst hk
        simp
      | succ k =>
        rw [List.getElem?_cons_succ] at hk
        have hne : a ≠ l := by
          rintro rfl
          exact hn.1 (List.mem_of_getElem? hk)
        rw [if_neg hne]
        simpa using ih hn.2 (by simpa using hl) hk

theorem alookup_zip_none {L X : Type} [DecidableEq L] {labels : List L} {part : List (List X)} {l : L}
    (hk : l ∉ labels) : (alookup l (labels.zip part)).getD [] = [] := by
  induction labels generalizing part with
  | nil => rfl
  | cons a labels ih =>
    match part with
    | [] => rfl
    | p :: ps =>
      simp only [List.mem_cons, not_or] at hk
      simp only [List.zip_cons_cons, alookup]
      rw [if_neg (Ne.symm hk.1)]
      exact ih hk.2

theorem shared_perm {bs bs' : List (Option Nat × List (TExpr N P))} (h : bs.Perm bs')
    {splits : List (List Nat × List (TExpr N P))} {values : List (Neigh N P)} {T : N × Nat → Prop}
    (hs : Shared bs splits values T) : Shared bs' splits values T := by
  obtain ⟨share, dropped, h1, h2, h3, h4, h5⟩ := hs
  refine ⟨share, dropped, h1.trans ((h.flatMap_right _).append_right _), ?_, ?_, ?_, h5⟩
  · exact fun x hx b hb => h2 x hx b (h.mem_iff.2 hb)
  · exact fun l hl => h3 l fun hc => hl ((h.map _).mem_iff.1 hc)
  · exact fun b hb => h4 b (h.mem_iff.2 hb)

theorem mentioned_iff (bs : List (Option Nat × List (TExpr N P))) (x : Neigh N P) (k : Nat) :
    BucketTakes (bs.map Prod.snd) x k ↔ ∃ b, bs[k]? = some b ∧ Mentioned b.2 x := by
  unfold BucketTakes Mentioned
  simp only [List.getElem?_map, Option.map_eq_some_iff]
  constructor
  · rintro ⟨_, ⟨b, hb, rfl⟩, h⟩
    exact ⟨b, hb, h⟩
  · rintro ⟨b, hb, h⟩
    exact ⟨b.2, ⟨b, hb, rfl⟩, h⟩

theorem search_iff {S : Search N P} (hS : S.Fair) {enum : List Nat → List (Nat × Nat)}
    (he : Enumerates enum) {buckets : List (Option Nat × List (TExpr N P))}
    (hlab : (buckets.map Prod.fst).Nodup) (hb : ∀ b ∈ buckets, ∀ t ∈ b.2, Plain t)
    {splits : List (List Nat × List (TExpr N P))} (hc : ∀ c ∈ splits, ∀ t ∈ c.2, Plain t)
    (values : List (Neigh N P)) (T : N × Nat → Bool) :
    searchPartitions S enum buckets splits values T = true ↔
      Shared buckets splits values (fun x => T x = true) := by
  classical
  have hperm := hS.buckets buckets
  generalize hbs : S.bucketOrder buckets = bs at hperm
  have hlab' : (bs.map Prod.fst).Nodup := (hperm.map _).nodup_iff.2 hlab
  have hb' : ∀ b ∈ bs, ∀ t ∈ b.2, Plain t := fun b h => hb b (hperm.mem_iff.1 h)
  have hmade : ∀ b ∈ bs.map Prod.snd, ∀ t ∈ b, t.Made := by
    intro b hbm t ht
    obtain ⟨b', h1, rfl⟩ := List.mem_map.1 hbm
    exact (hb' b' h1 t ht).made
  obtain ⟨gs, outs, hdr, hreal, hnd, hasg, hcomp⟩ := C18_class_partitions S.classOrder hS.classes
    (bs.map Prod.snd) hmade values
    (values.filter fun x => decide (∃ k, BucketTakes (bs.map Prod.snd) x k))
    (fun x => decide (∃ k, BucketTakes (bs.map Prod.snd) x k)) (by simp) rfl
  have hcomp := hcomp (by
    intro b hbm t ht
    obtain ⟨b', h1, rfl⟩ := List.mem_map.1 hbm
    exact ⟨sane_of_wf _ (hb' b' h1 t ht).wf, fun _ => (hb' b' h1 t ht).wf⟩)
  generalize hits : (values.filter fun x => decide (∃ k, BucketTakes (bs.map Prod.snd) x k)) = its
    at hreal hasg hcomp
  rw [List.length_map] at hreal
  have hdrain : Part.drain Part.CIter.step (S.turns (bs.map Prod.snd) values)
      (Part.classPartitions S.classOrder (bs.map Prod.snd) values) = some outs := by
    cases h : Part.drain Part.CIter.step (S.turns (bs.map Prod.snd) values)
      (Part.classPartitions S.classOrder (bs.map Prod.snd) values) with
    | none => exact absurd h (hS.turns _ _)
    | some o => rw [Drains.unique (drains_of_drain h) hdr]
  have hred : searchPartitions S enum buckets splits values T = true ↔
      ∃ part ∈ outs, partitionOk enum bs splits T part = true := by
    unfold searchPartitions
    simp only [hbs, hdrain, List.any_eq_true]
  rw [hred]
  have hok : ∀ part : List (List (Neigh N P)), part.length = bs.length →
      (partitionOk enum bs splits T part = true ↔
        (∀ k b, bs[k]? = some b → ∀ t ∈ b.2, Accepts t (part.getD k []) (fun x => T x = true)) ∧
        ∀ c ∈ splits, ∀ t ∈ c.2, Accepts t
          (c.1.flatMap (allocatedTo (bs.map Prod.fst) part)) (fun x => T x = true)) := by
    intro part hlen
    unfold partitionOk
    rw [Bool.and_eq_true, List.all_eq_true, List.all_eq_true]
    refine and_congr ?_ ?_
    · constructor
      · intro h k b hk t ht
        have hlt : k < bs.length := (List.getElem?_eq_some_iff.1 hk).1
        have hm : (b, part.getD k []) ∈ bs.zip part := by
          rw [List.mem_iff_getElem?]
          refine ⟨k, ?_⟩
          rw [List.getElem?_zip_eq_some]
          refine ⟨hk, ?_⟩
          rw [List.getD_eq_getElem?_getD, List.getElem?_eq_getElem (by omega)]
          rfl
        exact (checkExprsNeigh_accepts he (hb' b (List.mem_of_getElem? hk)) _ T).1
          (h _ hm) t ht
      · intro h x hx
        obtain ⟨k, hk⟩ := List.mem_iff_getElem?.1 hx
        rw [List.getElem?_zip_eq_some] at hk
        refine (checkExprsNeigh_accepts he (hb' x.1 (List.mem_of_getElem? hk.1)) _ T).2 ?_
        intro t ht
        have := h k x.1 hk.1 t ht
        rwa [List.getD_eq_getElem?_getD, hk.2] at this
    · exact forall_congr' fun c => forall_congr' fun hcm =>
        checkExprsNeigh_accepts he (hc c hcm) _ T
  have hsplit : ∃ dropped, values.Perm (its ++ dropped) ∧
      ∀ x ∈ dropped, ∀ b ∈ bs, ¬ Mentioned b.2 x := by
    refine ⟨values.filter fun x => !decide (∃ k, BucketTakes (bs.map Prod.snd) x k), ?_, ?_⟩
    · rw [← hits]
      exact (List.filter_append_perm _ values).symm
    · intro x hx b hbm hmen
      rw [List.mem_filter] at hx
      have hx2 := hx.2
      simp only [Bool.not_eq_true', decide_eq_false_iff_not, not_exists] at hx2
      obtain ⟨k, hk⟩ := List.mem_iff_getElem?.1 hbm
      exact hx2 k ((mentioned_iff bs x k).2 ⟨b, hk, hmen⟩)
  obtain ⟨dropped, hd1, hd2⟩ := hsplit
  constructor
  · rintro ⟨part, hpo, hpk⟩
    refine shared_perm hperm ?_
    obtain ⟨k, hk⟩ := List.mem_iff_getElem?.1 hpo
    have hlen := hreal.length_eq
    have hkg : k < gs.length := by rw [hlen]; exact (List.getElem?_eq_some_iff.1 hk).1
    have hre : Realises bs.length its gs[k] part := by
      have := List.forall₂_iff_get.1 hreal
      have h := this.2 k hkg (by rw [← hlen]; exact hkg)
      have e : outs.get ⟨k, by rw [← hlen]; exact hkg⟩ = part := (List.getElem?_eq_some_iff.1 hk).2
      rw [e] at h
      exact h
    have hga := hasg _ (List.getElem_mem hkg)
    generalize gs[k] = g at hre hga
    have hgl : g.length = its.length := hga.length_eq.symm
    have hgt : ∀ x d, (x, d) ∈ its.zip g → BucketTakes (bs.map Prod.snd) x d :=
      fun x d hx => List.forall₂_zip hga hx
    have hgd : ∀ d ∈ g, d < bs.length := by
      intro d hdm
      obtain ⟨n, hn, rfl⟩ := List.getElem_of_mem hdm
      have := hgt (its[n]'(by omega)) g[n] (by
        rw [List.mem_iff_getElem?]
        refine ⟨n, ?_⟩
        rw [List.getElem?_zip_eq_some]
        exact ⟨List.getElem?_eq_getElem (by omega), List.getElem?_eq_getElem hn⟩)
      obtain ⟨b, hb1, _⟩ := (mentioned_iff bs _ _).1 this
      exact (List.getElem?_eq_some_iff.1 hb1).1
    have hpl := hre.1
    obtain ⟨hk1, hk2⟩ := (hok part hpl).1 hpk
    have hll : part.length = (bs.map Prod.fst).length := by simpa using hpl
    refine ⟨fun l => (alookup l ((bs.map Prod.fst).zip part)).getD [], dropped, ?_, hd2, ?_, ?_, ?_⟩
    · refine hd1.trans (List.Perm.append_right _ ?_)
      have e : (bs.flatMap fun b => (alookup b.1 ((bs.map Prod.fst).zip part)).getD []) =
          part.flatten := by
        rw [List.flatMap_def]
        congr 1
        apply List.ext_getElem
        · simp [hpl]
        · intro n h1 h2
          simp only [List.getElem_map]
          rw [alookup_zip_getD (k := n) hlab' hll]
          · simp [List.getD_eq_getElem?_getD, h2]
          · simp at h1
            simp [h1]
      rw [e]
      exact (parts_of_assign hgl hgd hre).symm
    · intro l hl
      exact alookup_zip_none hl
    · intro b hbm
      obtain ⟨n, hn⟩ := List.mem_iff_getElem?.1 hbm
      have hn' : (bs.map Prod.fst)[n]? = some b.1 := by simp [hn]
      beta_reduce
      rw [alookup_zip_getD hlab' hll hn']
      refine ⟨?_, hk1 n b hn⟩
      intro x hx
      have hlt : n < bs.length := (List.getElem?_eq_some_iff.1 hn).1
      have hx' := (hre.2 n hlt).mem_iff.1 hx
      unfold group at hx'
      obtain ⟨⟨y, d⟩, hy, rfl⟩ := List.mem_map.1 hx'
      rw [List.mem_filter] at hy
      have hd := beq_iff_eq.1 hy.2
      simp only at hd
      subst hd
      obtain ⟨b', hb1, hb2⟩ := (mentioned_iff bs _ _).1 (hgt y d hy.1)
      rw [hn, Option.some.injEq] at hb1
      subst hb1
      exact hb2
    · exact hk2
  · intro hsh
    obtain ⟨share, drop', h1, h2, h3, h4, h5⟩ := shared_perm hperm.symm hsh
    have hits' : (bs.flatMap fun b => share b.1).Perm its := by
      have e := h1.filter fun x => decide (∃ k, BucketTakes (bs.map Prod.snd) x k)
      rw [hits, List.filter_append] at e
      have e1 : (bs.flatMap fun b => share b.1).filter
          (fun x => decide (∃ k, BucketTakes (bs.map Prod.snd) x k)) =
          bs.flatMap fun b => share b.1 := by
        refine List.filter_eq_self.2 fun x hx => ?_
        obtain ⟨b, hbm, hx⟩ := List.mem_flatMap.1 hx
        obtain ⟨n, hn⟩ := List.mem_iff_getElem?.1 hbm
        exact decide_eq_true ⟨n, (mentioned_iff bs x n).2 ⟨b, hn, (h4 b hbm).1 x hx⟩⟩
      have e2 : drop'.filter (fun x => decide (∃ k, BucketTakes (bs.map Prod.snd) x k)) = [] := by
        refine List.filter_eq_nil_iff.2 fun x hx hc => ?_
        obtain ⟨n, hn⟩ := of_decide_eq_true hc
        obtain ⟨b, hn, hm⟩ := (mentioned_iff bs x n).1 hn
        exact h2 x hx b (List.mem_of_getElem? hn) hm
      rw [e1, e2, List.append_nil] at e
      exact e.symm
    have hget : ∀ n b, bs[n]? = some b → (bs.map fun b => share b.1).getD n [] = share b.1 := by
      intro n b hn
      simp [List.getD_eq_getElem?_getD, hn]
    obtain ⟨g, hg1, hg2, hg3⟩ := assign_of_parts
      (ps := bs.map fun b => share b.1) (its := its) (by rw [← List.flatMap_def]; exact hits')
    have htakes : List.Forall₂ (BucketTakes (bs.map Prod.snd)) its g := by
      rw [List.forall₂_iff_zip]
      refine ⟨hg1.symm, fun {x d} hx => ?_⟩
      have hm := hg2 x d hx
      cases hn : bs[d]? with
      | none =>
        rw [List.getD_eq_getElem?_getD, List.getElem?_map, hn] at hm
        simp at hm
      | some b =>
        rw [hget d b hn] at hm
        exact (mentioned_iff bs x d).2 ⟨b, hn, (h4 b (List.mem_of_getElem? hn)).1 x hm⟩
    have hin : g ∈ gs := by
      refine hcomp g htakes ?_
      intro k bucket hk t ht
      rw [List.getElem?_map, Option.map_eq_some_iff] at hk
      obtain ⟨b, hk, rfl⟩ := hk
      have hbm := List.mem_of_getElem? hk
      have hp := hg3 k
      rw [hget k b hk] at hp
      exact ⟨enum, he, share b.1, hp.symm, accepts_item (hb' b hbm t ht) he ((h4 b hbm).2 t ht)⟩
    obtain ⟨k, hk, rfl⟩ := List.getElem_of_mem hin
    have hlen := hreal.length_eq
    have hko : k < outs.length := by omega
    have hre : Realises bs.length its gs[k] outs[k] := (List.forall₂_iff_get.1 hreal).2 k hk hko
    refine ⟨outs[k], List.getElem_mem hko, ?_⟩
    have hpl := hre.1
    generalize outs[k] = part at hre hpl
    generalize gs[k] = g at hre hg3
    have hll : part.length = (bs.map Prod.fst).length := by simpa using hpl
    have hpart : ∀ n b, bs[n]? = some b → (part.getD n []).Perm (share b.1) := by
      intro n b hn
      have := (hre.2 n (List.getElem?_eq_some_iff.1 hn).1).trans (hg3 n)
      rwa [hget n b hn] at this
    rw [hok part hpl]
    refine ⟨?_, ?_⟩
    · intro n b hn t ht
      exact accepts_perm (hpart n b hn).symm ((h4 b (List.mem_of_getElem? hn)).2 t ht)
    · intro c hcm t ht
      refine accepts_perm ?_ (h5 c hcm t ht)
      refine List.Perm.flatMap_left _ fun b _ => ?_
      unfold allocatedTo
      by_cases hl : some b ∈ bs.map Prod.fst
      · obtain ⟨n, hn⟩ := List.mem_iff_getElem?.1 hl
        rw [alookup_zip_getD hlab' hll hn]
        rw [List.getElem?_map, Option.map_eq_some_iff] at hn
        obtain ⟨b', hn, hb1⟩ := hn
        have := hpart n b' hn
        rw [hb1] at this
        exact this.symm
      · rw [alookup_zip_none hl, h3 _ hl]

end Shex
