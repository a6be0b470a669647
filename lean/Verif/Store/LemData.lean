import Verif.Store.SpecData
import Verif.Store.Lemmas
import Mathlib.Data.List.Perm.Basic
import Mathlib.Data.List.Dedup

/-!
# Lemmas on neighbourhoods
-/

namespace Store
variable {N P : Type} [DecidableEq N] [DecidableEq P]

theorem mem_setPut (v w : N) (vs : List N) : w ∈ setPut v vs ↔ w = v ∨ w ∈ vs := by
  unfold setPut
  split
  · exact ⟨Or.inr, by rintro (rfl | h) <;> assumption⟩
  · simp [or_comm]

theorem nodup_setPut (v : N) {vs : List N} (h : vs.Nodup) : (setPut v vs).Nodup := by
  unfold setPut
  split
  · exact h
  · rename_i hn
    exact List.nodup_append.2 ⟨h, by simp, by rintro a ha b hb rfl; simp at hb; exact hn (hb ▸ ha)⟩

/-- The map has each key once, and each set has each element once. -/
def Arcs.Ok (a : Arcs N P) : Prop := (a.map Prod.fst).Nodup ∧ ∀ x ∈ a, x.2.Nodup

theorem Arcs.ok_nil : Arcs.Ok ([] : Arcs N P) := ⟨List.nodup_nil, nofun⟩

theorem Arcs.mem_pairs (a : Arcs N P) (p : P) (v : N) :
    (p, v) ∈ a.pairs ↔ ∃ vs, (p, vs) ∈ a ∧ v ∈ vs := by
  simp only [Arcs.pairs, List.mem_flatMap, List.mem_map, Prod.mk.injEq]
  constructor
  · rintro ⟨⟨q, vs⟩, hx, w, hw, rfl, rfl⟩
    exact ⟨vs, hx, hw⟩
  · rintro ⟨vs, hx, hv⟩
    exact ⟨(p, vs), hx, v, hv, rfl, rfl⟩

theorem Arcs.pairs_cons (x : P × List N) (a : Arcs N P) :
    Arcs.pairs (x :: a) = (x.2.map fun v => (x.1, v)) ++ Arcs.pairs a := rfl

theorem Arcs.nodup_pairs {a : Arcs N P} (h : a.Ok) : a.pairs.Nodup := by
  induction a with
  | nil => exact List.nodup_nil
  | cons x a ih =>
    obtain ⟨h1, h2⟩ := h
    rw [List.map_cons, List.nodup_cons] at h1
    rw [Arcs.pairs_cons, List.nodup_append]
    refine ⟨(h2 x (by simp)).map fun _ _ h => (Prod.mk.inj h).2,
      ih ⟨h1.2, fun y hy => h2 y (by simp [hy])⟩, ?_⟩
    rintro ⟨p, v⟩ hp y hy rfl
    obtain ⟨w, -, hw⟩ := List.mem_map.1 hp
    obtain ⟨vs, hv, -⟩ := (Arcs.mem_pairs a p v).1 hy
    exact h1.1 (List.mem_map.2 ⟨(p, vs), hv, (Prod.mk.inj hw).1.symm⟩)

theorem Arcs.keys_put (p : P) (v : N) (a : Arcs N P) (q : P) :
    q ∈ (a.put p v).map Prod.fst ↔ q = p ∨ q ∈ a.map Prod.fst := by
  induction a with
  | nil => simp [Arcs.put]
  | cons x a ih =>
    simp only [Arcs.put]
    split
    · rename_i h
      simp only [List.map_cons, List.mem_cons, h]
      tauto
    · simp only [List.map_cons, List.mem_cons, ih]
      tauto

theorem Arcs.ok_put (p : P) (v : N) {a : Arcs N P} (h : a.Ok) : (a.put p v).Ok := by
  induction a with
  | nil => exact ⟨by simp [Arcs.put], by simp [Arcs.put]⟩
  | cons x a ih =>
    obtain ⟨h1, h2⟩ := h
    simp only [Arcs.put]
    split
    · refine ⟨h1, fun y hy => ?_⟩
      rcases List.mem_cons.1 hy with rfl | hy
      · exact nodup_setPut _ (h2 x (by simp))
      · exact h2 y (by simp [hy])
    · rename_i hx
      rw [List.map_cons, List.nodup_cons] at h1
      obtain ⟨i1, i2⟩ := ih ⟨h1.2, fun y hy => h2 y (by simp [hy])⟩
      refine ⟨?_, fun y hy => ?_⟩
      · rw [List.map_cons, List.nodup_cons]
        refine ⟨fun hm => ?_, i1⟩
        rcases (Arcs.keys_put p v a x.1).1 hm with h | h
        · exact hx h
        · exact h1.1 h
      · rcases List.mem_cons.1 hy with rfl | hy
        · exact h2 _ (by simp)
        · exact i2 y hy

theorem Arcs.mem_put (p : P) (v : N) (a : Arcs N P) (q : P) (w : N) :
    (q, w) ∈ (a.put p v).pairs ↔ (q = p ∧ w = v) ∨ (q, w) ∈ a.pairs := by
  induction a with
  | nil => simp [Arcs.put, Arcs.pairs]
  | cons x a ih =>
    simp only [Arcs.put]
    split
    · rename_i h
      simp only [Arcs.pairs_cons, List.mem_append, List.mem_map, Prod.mk.injEq, mem_setPut]
      constructor
      · rintro (⟨u, hu, rfl, rfl⟩ | h')
        · rcases hu with rfl | hu
          · exact Or.inl ⟨h, rfl⟩
          · exact Or.inr (Or.inl ⟨u, hu, rfl, rfl⟩)
        · exact Or.inr (Or.inr h')
      · rintro (⟨rfl, rfl⟩ | ⟨u, hu, rfl, rfl⟩ | h')
        · exact Or.inl ⟨w, Or.inl rfl, h, rfl⟩
        · exact Or.inl ⟨u, Or.inr hu, rfl, rfl⟩
        · exact Or.inr h'
    · simp only [Arcs.pairs_cons, List.mem_append, ih]
      tauto

theorem Arcs.keys_touch (p : P) (a : Arcs N P) (q : P) :
    q ∈ (a.touch p).map Prod.fst ↔ q = p ∨ q ∈ a.map Prod.fst := by
  induction a with
  | nil => simp [Arcs.touch]
  | cons x a ih =>
    simp only [Arcs.touch]
    split
    · rename_i h
      simp only [List.map_cons, List.mem_cons, h]
      tauto
    · simp only [List.map_cons, List.mem_cons, ih]
      tauto

theorem Arcs.ok_touch (p : P) {a : Arcs N P} (h : a.Ok) : (a.touch p).Ok := by
  induction a with
  | nil => exact ⟨by simp [Arcs.touch], by simp [Arcs.touch]⟩
  | cons x a ih =>
    simp only [Arcs.touch]
    split
    · exact h
    · rename_i hx
      obtain ⟨h1, h2⟩ := h
      rw [List.map_cons, List.nodup_cons] at h1
      obtain ⟨i1, i2⟩ := ih ⟨h1.2, fun y hy => h2 y (by simp [hy])⟩
      refine ⟨?_, fun y hy => ?_⟩
      · rw [List.map_cons, List.nodup_cons]
        refine ⟨fun hm => ?_, i1⟩
        rcases (Arcs.keys_touch p a x.1).1 hm with h | h
        · exact hx h
        · exact h1.1 h
      · rcases List.mem_cons.1 hy with rfl | hy
        · exact h2 _ (by simp)
        · exact i2 y hy

theorem Arcs.mem_touch (p : P) (a : Arcs N P) (q : P) (w : N) :
    (q, w) ∈ (a.touch p).pairs ↔ (q, w) ∈ a.pairs := by
  induction a with
  | nil => simp [Arcs.touch, Arcs.pairs]
  | cons x a ih =>
    simp only [Arcs.touch]
    split
    · rfl
    · simp only [Arcs.pairs_cons, List.mem_append, ih]

theorem Arcs.putAll_spec (p : P) (vs : List N) (a : Arcs N P) (h : a.Ok) :
    (a.putAll p vs).Ok ∧
      ∀ q w, (q, w) ∈ (a.putAll p vs).pairs ↔ (q = p ∧ w ∈ vs) ∨ (q, w) ∈ a.pairs := by
  have key : ∀ (vs : List N) (a : Arcs N P), a.Ok →
      (vs.foldl (fun a v => Arcs.put p v a) a).Ok ∧
        ∀ q w, (q, w) ∈ (vs.foldl (fun a v => Arcs.put p v a) a).pairs ↔
          (q = p ∧ w ∈ vs) ∨ (q, w) ∈ a.pairs := by
    intro vs
    induction vs with
    | nil => intro a h; exact ⟨h, by simp⟩
    | cons v vs ih =>
      intro a h
      obtain ⟨h1, h2⟩ := ih _ (Arcs.ok_put p v h)
      refine ⟨h1, fun q w => ?_⟩
      rw [List.foldl_cons, h2, Arcs.mem_put, List.mem_cons]
      tauto
  obtain ⟨h1, h2⟩ := key vs _ (Arcs.ok_touch p h)
  refine ⟨h1, fun q w => ?_⟩
  rw [show a.putAll p vs = vs.foldl (fun a v => Arcs.put p v a) (a.touch p) from rfl, h2,
    Arcs.mem_touch]

theorem Arcs.rows_spec (rs : List (P × N)) (a : Arcs N P) (h : a.Ok) :
    (rs.foldl (fun a r => Arcs.put r.1 r.2 a) a).Ok ∧
      ∀ q w, (q, w) ∈ (rs.foldl (fun a r => Arcs.put r.1 r.2 a) a).pairs ↔
        (q, w) ∈ rs ∨ (q, w) ∈ a.pairs := by
  induction rs generalizing a with
  | nil => exact ⟨h, by simp⟩
  | cons r rs ih =>
    obtain ⟨h1, h2⟩ := ih _ (Arcs.ok_put r.1 r.2 h)
    refine ⟨h1, fun q w => ?_⟩
    rw [List.foldl_cons, h2, Arcs.mem_put, List.mem_cons, Prod.ext_iff]
    tauto

theorem Arcs.merge_spec (b a : Arcs N P) (h : a.Ok) :
    (b.foldl (fun a x => Arcs.putAll x.1 x.2 a) a).Ok ∧
      ∀ q w, (q, w) ∈ (b.foldl (fun a x => Arcs.putAll x.1 x.2 a) a).pairs ↔
        (q, w) ∈ b.pairs ∨ (q, w) ∈ a.pairs := by
  induction b generalizing a with
  | nil => exact ⟨h, by simp [Arcs.pairs]⟩
  | cons x b ih =>
    obtain ⟨p1, p2⟩ := Arcs.putAll_spec x.1 x.2 a h
    obtain ⟨h1, h2⟩ := ih _ p1
    refine ⟨h1, fun q w => ?_⟩
    rw [List.foldl_cons, h2, p2, Arcs.pairs_cons, List.mem_append, List.mem_map]
    simp only [Prod.mk.injEq]
    constructor
    · rintro (h | ⟨rfl, h⟩ | h)
      · exact Or.inl (Or.inr h)
      · exact Or.inl (Or.inl ⟨w, h, rfl, rfl⟩)
      · exact Or.inr h
    · rintro ((⟨u, hu, rfl, rfl⟩ | h) | h)
      · exact Or.inr (Or.inl ⟨rfl, hu⟩)
      · exact Or.inl h
      · exact Or.inr (Or.inr h)

/-- What `splitArcs` finds. -/
theorem splitArcs_spec (preds : List P) (ts : List (Tr N P)) :
    (splitArcs preds ts).1.Ok ∧
    (∀ p o, (p, o) ∈ (splitArcs preds ts).1.pairs ↔ p ∈ preds ∧ ∃ n, (n, p, o) ∈ ts) ∧
    (splitArcs preds ts).2 = (ts.filter fun t => decide (t.2.1 ∉ preds)).map fun t => t.2.1 := by
  have key : ∀ (ts : List (Tr N P)) (r : Arcs N P × List P), r.1.Ok →
      (ts.foldl (fun r t => if t.2.1 ∈ preds then (r.1.put t.2.1 t.2.2, r.2)
        else (r.1, r.2 ++ [t.2.1])) r).1.Ok ∧
      (∀ p o, (p, o) ∈ (Arcs.pairs (ts.foldl (fun r t => if t.2.1 ∈ preds
          then (r.1.put t.2.1 t.2.2, r.2) else (r.1, r.2 ++ [t.2.1])) r).1) ↔
        (p ∈ preds ∧ ∃ n, (n, p, o) ∈ ts) ∨ (p, o) ∈ r.1.pairs) ∧
      (ts.foldl (fun r t => if t.2.1 ∈ preds then (r.1.put t.2.1 t.2.2, r.2)
        else (r.1, r.2 ++ [t.2.1])) r).2 =
        r.2 ++ (ts.filter fun t => decide (t.2.1 ∉ preds)).map fun t => t.2.1 := by
    intro ts
    induction ts with
    | nil => intro r h; exact ⟨h, by simp, by simp⟩
    | cons t ts ih =>
      intro r h
      rw [List.foldl_cons]
      by_cases ht : t.2.1 ∈ preds
      · rw [if_pos ht]
        obtain ⟨h1, h2, h3⟩ := ih (r.1.put t.2.1 t.2.2, r.2) (Arcs.ok_put _ _ h)
        refine ⟨h1, fun p o => ?_, ?_⟩
        · rw [h2, Arcs.mem_put]
          constructor
          · rintro (⟨hp, n, hn⟩ | ⟨rfl, rfl⟩ | h')
            · exact Or.inl ⟨hp, n, by simp [hn]⟩
            · exact Or.inl ⟨ht, t.1, by simp⟩
            · exact Or.inr h'
          · rintro (⟨hp, n, hn⟩ | h')
            · rcases List.mem_cons.1 hn with rfl | hn
              · exact Or.inr (Or.inl ⟨rfl, rfl⟩)
              · exact Or.inl ⟨hp, n, hn⟩
            · exact Or.inr (Or.inr h')
        · rw [h3, List.filter_cons_of_neg (by simpa using ht)]
      · rw [if_neg ht]
        obtain ⟨h1, h2, h3⟩ := ih (r.1, r.2 ++ [t.2.1]) h
        refine ⟨h1, fun p o => ?_, ?_⟩
        · rw [h2]
          constructor
          · rintro (⟨hp, n, hn⟩ | h')
            · exact Or.inl ⟨hp, n, by simp [hn]⟩
            · exact Or.inr h'
          · rintro (⟨hp, n, hn⟩ | h')
            · rcases List.mem_cons.1 hn with rfl | hn
              · exact absurd hp ht
              · exact Or.inl ⟨hp, n, hn⟩
            · exact Or.inr h'
        · rw [h3, List.filter_cons_of_pos (by simpa using ht)]
          simp
  obtain ⟨h1, h2, h3⟩ := key ts ([], []) Arcs.ok_nil
  unfold splitArcs
  exact ⟨h1, fun p o => by rw [h2]; simp [Arcs.pairs], by rw [h3]; rfl⟩

/-- What `inArcs` finds. -/
theorem inArcs_spec (preds : List P) (ts : List (Tr N P)) :
    (inArcs preds ts).Ok ∧
    (∀ p n, (p, n) ∈ (inArcs preds ts).pairs ↔ p ∈ preds ∧ ∃ o, (n, p, o) ∈ ts) := by
  have key : ∀ (ts : List (Tr N P)) (a : Arcs N P), a.Ok →
      (ts.foldl (fun a t => if t.2.1 ∈ preds then Arcs.put t.2.1 t.1 a else a) a).Ok ∧
      (∀ p n, (p, n) ∈ (Arcs.pairs (ts.foldl (fun a t => if t.2.1 ∈ preds
          then Arcs.put t.2.1 t.1 a else a) a)) ↔
        (p ∈ preds ∧ ∃ o, (n, p, o) ∈ ts) ∨ (p, n) ∈ a.pairs) := by
    intro ts
    induction ts with
    | nil => intro r h; exact ⟨h, by simp⟩
    | cons t ts ih =>
      intro a h
      rw [List.foldl_cons]
      by_cases ht : t.2.1 ∈ preds
      · rw [if_pos ht]
        obtain ⟨h1, h2⟩ := ih (a.put t.2.1 t.1) (Arcs.ok_put _ _ h)
        refine ⟨h1, fun p n => ?_⟩
        rw [h2, Arcs.mem_put]
        constructor
        · rintro (⟨hp, o, hn⟩ | ⟨rfl, rfl⟩ | h')
          · exact Or.inl ⟨hp, o, by simp [hn]⟩
          · exact Or.inl ⟨ht, t.2.2, by simp⟩
          · exact Or.inr h'
        · rintro (⟨hp, o, hn⟩ | h')
          · rcases List.mem_cons.1 hn with rfl | hn
            · exact Or.inr (Or.inl ⟨rfl, rfl⟩)
            · exact Or.inl ⟨hp, o, hn⟩
          · exact Or.inr (Or.inr h')
      · rw [if_neg ht]
        obtain ⟨h1, h2⟩ := ih a h
        refine ⟨h1, fun p n => ?_⟩
        rw [h2]
        constructor
        · rintro (⟨hp, o, hn⟩ | h')
          · exact Or.inl ⟨hp, o, by simp [hn]⟩
          · exact Or.inr h'
        · rintro (⟨hp, o, hn⟩ | h')
          · rcases List.mem_cons.1 hn with rfl | hn
            · exact absurd hp ht
            · exact Or.inl ⟨hp, o, hn⟩
          · exact Or.inr h'
  obtain ⟨h1, h2⟩ := key ts [] Arcs.ok_nil
  unfold inArcs
  exact ⟨h1, fun p n => by rw [h2]; simp [Arcs.pairs]⟩

theorem memOutgoing_spec (g : List (Tr N P)) (s : N) (preds : List P) :
    (memOutgoing g s preds).1.Ok ∧
    (∀ p o, (p, o) ∈ (memOutgoing g s preds).1.pairs ↔ p ∈ preds ∧ (s, p, o) ∈ g) ∧
    (memOutgoing g s preds).2 =
      (g.filter fun t => decide (t.1 = s ∧ t.2.1 ∉ preds)).map fun t => t.2.1 := by
  obtain ⟨h1, h2, h3⟩ := splitArcs_spec preds (matching g (some s) none none)
  refine ⟨h1, fun p o => ?_, ?_⟩
  · rw [show memOutgoing g s preds = splitArcs preds (matching g (some s) none none) from rfl, h2]
    refine and_congr_right fun _ => ⟨?_, fun h => ⟨s, (matching_mem ..).2 ⟨h, by simp [Fits]⟩⟩⟩
    rintro ⟨n, hn⟩
    obtain ⟨h, hf, -⟩ := (matching_mem ..).1 hn
    have : n = s := hf s rfl
    exact this ▸ h
  · rw [show memOutgoing g s preds = splitArcs preds (matching g (some s) none none) from rfl, h3]
    simp only [matching, List.filter_filter]
    congr 1
    apply List.filter_congr
    intro t _
    simp [and_comm, Bool.and_comm]

/-! ## Services -/

/-- What is remembered of a service is what it tells. -/
def Endpoint.Coherent (K : Kinds N) (e : Endpoint N P) : Prop :=
  ∀ s p vs, e.cache s p = some vs → ∀ o, o ∈ vs ↔ Tells K e.content s p o

theorem mem_rows (K : Kinds N) (w : List (Tr N P)) (s : N) (preds : List P) (p : P) (o : N) :
    (p, o) ∈ rows K w s preds ↔ p ∈ preds ∧ Tells K w s p o := by
  simp only [rows, List.mem_map, List.mem_filter, stands, Bool.and_eq_true, Bool.or_eq_true,
    decide_eq_true_eq, Tells]
  constructor
  · rintro ⟨⟨n, q, v⟩, ⟨h1, h2, h3⟩, h4⟩
    cases h4
    exact ⟨h3, n, h1, h2.symm⟩
  · rintro ⟨h1, n, h2, h3⟩
    exact ⟨(n, p, o), ⟨h2, h3.symm, h1⟩, rfl⟩

theorem cacheFold (s : N) (rs : List (P × N)) (c : N → P → Option (List N)) (n : N) (p : P) :
    (n ≠ s → rs.foldl (fun c r => cachePut s r c) c n p = c n p) ∧
    ((c s p).isSome → ∃ vs, rs.foldl (fun c r => cachePut s r c) c s p = some vs ∧
      ∀ o, o ∈ vs ↔ (p, o) ∈ rs ∨ o ∈ (c s p).getD []) := by
  induction rs generalizing c with
  | nil =>
    refine ⟨fun _ => rfl, fun h => ?_⟩
    obtain ⟨vs, hv⟩ := Option.isSome_iff_exists.1 h
    exact ⟨vs, hv, by simp [hv]⟩
  | cons r rs ih =>
    obtain ⟨h1, h2⟩ := ih (cachePut s r c)
    refine ⟨fun hn => ?_, fun h => ?_⟩
    · rw [List.foldl_cons, h1 hn]
      simp [cachePut, hn]
    · obtain ⟨vs, hv, ho⟩ := h2 (by unfold cachePut; split <;> simp_all)
      refine ⟨vs, hv, fun o => ?_⟩
      rw [ho, List.mem_cons]
      unfold cachePut
      obtain ⟨q, v⟩ := r
      by_cases hq : p = q
      · simp only [hq, and_self, if_true, Option.getD_some, mem_setPut, Prod.mk.injEq, true_and]
        tauto
      · simp only [hq, and_false, if_false, Prod.mk.injEq, false_and, false_or]

theorem cached_spec (K : Kinds N) (e : Endpoint N P) (he : e.Coherent K) (s : N) (preds : List P)
    (a : Arcs N P) (ha : a.Ok) :
    (e.known s preds a).Ok ∧
    ∀ p o, (p, o) ∈ (e.known s preds a).pairs ↔
      (p ∈ preds ∧ (e.cache s p).isSome ∧ Tells K e.content s p o) ∨ (p, o) ∈ a.pairs := by
  induction preds generalizing a with
  | nil => exact ⟨ha, by simp [Endpoint.known]⟩
  | cons q preds ih =>
    cases hq : e.cache s q with
    | none =>
      rw [show e.known s (q :: preds) a = e.known s preds a by simp [Endpoint.known, hq]]
      obtain ⟨h1, h2⟩ := ih a ha
      refine ⟨h1, fun p o => ?_⟩
      rw [h2, List.mem_cons]
      refine or_congr_left ⟨fun h => ⟨Or.inr h.1, h.2⟩, fun h => ⟨h.1.resolve_left ?_, h.2⟩⟩
      rintro rfl
      simp [hq] at h
    | some vs =>
      rw [show e.known s (q :: preds) a = e.known s preds (a.putAll q vs) by
        simp [Endpoint.known, hq]]
      obtain ⟨p1, p2⟩ := Arcs.putAll_spec q vs a ha
      obtain ⟨h1, h2⟩ := ih _ p1
      refine ⟨h1, fun p o => ?_⟩
      rw [h2, p2, List.mem_cons]
      constructor
      · rintro (⟨h, h'⟩ | ⟨rfl, h⟩ | h)
        · exact Or.inl ⟨Or.inr h, h'⟩
        · exact Or.inl ⟨Or.inl rfl, by simp [hq], (he _ _ _ hq o).1 h⟩
        · exact Or.inr h
      · rintro (⟨rfl | h, h'⟩ | h)
        · exact Or.inr (Or.inl ⟨rfl, (he _ _ _ hq o).2 h'.2⟩)
        · exact Or.inl ⟨h, h'⟩
        · exact Or.inr (Or.inr h)

/-- A call to a service: it leaves the memory right, fails only for want of an answer, and tells
the arcs. -/
theorem Endpoint.outgoing_spec (K : Kinds N) (e : Endpoint N P) (he : e.Coherent K) (s : N)
    (preds : List P) :
    (e.outgoing K s preds).2.Coherent K ∧
    (e.outgoing K s preds).2.content = e.content ∧ (e.outgoing K s preds).2.up = e.up ∧
    ((e.outgoing K s preds).1 = none ↔ e.up = false ∧ ∃ p ∈ preds, e.cache s p = none) ∧
    (∀ a, (e.outgoing K s preds).1 = some a → a.Ok ∧
      (∀ p o, (p, o) ∈ a.pairs ↔ p ∈ preds ∧ Tells K e.content s p o) ∧
      (∀ p ∈ preds, ((e.outgoing K s preds).2.cache s p).isSome)) ∧
    (∀ n p, (e.cache n p).isSome → ((e.outgoing K s preds).2.cache n p).isSome) := by
  unfold Endpoint.outgoing
  by_cases h0 : preds.isEmpty = true
  · rw [if_pos h0, List.isEmpty_iff.1 h0]
    refine ⟨he, rfl, rfl, by simp, fun a ha => ?_, fun _ _ h => h⟩
    cases ha
    exact ⟨Arcs.ok_nil, by simp [Arcs.pairs], by simp⟩
  · rw [if_neg h0]
    obtain ⟨c1, c2⟩ := cached_spec K e he s preds [] Arcs.ok_nil
    have hun : (preds.filter fun p => (e.cache s p).isNone).isEmpty = true ↔
        ∀ p ∈ preds, (e.cache s p).isSome := by
      rw [List.isEmpty_iff, List.filter_eq_nil_iff]
      refine forall₂_congr fun p _ => ?_
      cases e.cache s p <;> simp
    simp only
    by_cases h1 : (preds.filter fun p => (e.cache s p).isNone).isEmpty = true
    · rw [if_pos h1]
      have hall := hun.1 h1
      refine ⟨he, rfl, rfl, ⟨by simp, ?_⟩, fun a ha => ?_, fun _ _ h => h⟩
      · rintro ⟨-, p, hp, hc⟩
        simpa [hc] using hall p hp
      · cases ha
        refine ⟨c1, fun p o => ?_, hall⟩
        rw [c2]
        simp only [Arcs.pairs, List.flatMap_nil, List.not_mem_nil, or_false]
        exact ⟨fun h => ⟨h.1, h.2.2⟩, fun h => ⟨h.1, hall p h.1, h.2⟩⟩
    · rw [if_neg h1]
      have hex : ∃ p ∈ preds, e.cache s p = none := by
        by_contra hc
        refine h1 (hun.2 fun p hp => ?_)
        rw [Option.isSome_iff_ne_none]
        exact fun h => hc ⟨p, hp, h⟩
      by_cases h2 : e.up = true
      · rw [if_neg (by simp [h2])]
        obtain ⟨r1, r2⟩ := Arcs.rows_spec (rows K e.content s
          (preds.filter fun p => (e.cache s p).isNone)) _ c1
        have hmark : ∀ n p, n = s → p ∈ (preds.filter fun p => (e.cache s p).isNone) →
            e.cache n p = none := by
          rintro n p rfl hp
          simpa using (List.mem_filter.1 hp).2
        have hnew : ∀ n p, ∃ vs', ((rows K e.content s
            (preds.filter fun p => (e.cache s p).isNone)).foldl (fun c r => cachePut s r c)
            (fun n p => if n = s ∧ p ∈ (preds.filter fun p => (e.cache s p).isNone)
              then some ((e.cache n p).getD []) else e.cache n p)) n p = vs' ∧
            (∀ vs, vs' = some vs → ∀ o, o ∈ vs ↔ Tells K e.content n p o) ∧
            ((e.cache n p).isSome → vs'.isSome) ∧ (n = s → p ∈ preds → vs'.isSome) := by
          intro n p
          refine ⟨_, rfl, ?_⟩
          obtain ⟨f1, f2⟩ := cacheFold s (rows K e.content s
            (preds.filter fun p => (e.cache s p).isNone))
            (fun n p => if n = s ∧ p ∈ (preds.filter fun p => (e.cache s p).isNone)
              then some ((e.cache n p).getD []) else e.cache n p) n p
          by_cases hn : n = s
          · subst hn
            by_cases hp : p ∈ preds.filter fun p => (e.cache n p).isNone
            · obtain ⟨vs, hv, ho⟩ := f2 (by simp only [hp, and_self, if_true, Option.isSome_some])
              rw [hv]
              refine ⟨fun vs' hvs o => ?_, fun _ => rfl, fun _ _ => rfl⟩
              cases hvs
              rw [ho, mem_rows]
              simp only [hp, and_self, if_true, Option.getD_some, hmark n p rfl hp,
                Option.getD_none, List.not_mem_nil, or_false, true_and]
            · cases hc : e.cache n p with
              | some ws =>
                obtain ⟨vs, hv, ho⟩ := f2 (by simp only [hp, and_false, if_false, hc,
                  Option.isSome_some])
                rw [hv]
                refine ⟨fun vs' hvs o => ?_, fun _ => rfl, fun _ _ => rfl⟩
                cases hvs
                rw [ho, mem_rows]
                simp only [hp, and_false, if_false, hc, Option.getD_some, false_and, false_or]
                exact he n p ws hc o
              | none =>
                have hpp : p ∉ preds := fun h => hp (List.mem_filter.2 ⟨h, by simp [hc]⟩)
                have hstay : ∀ (rs : List (P × N)) (c : N → P → Option (List N)),
                    (∀ o, (p, o) ∉ rs) → c n p = none →
                    rs.foldl (fun c r => cachePut n r c) c n p = none := by
                  intro rs
                  induction rs with
                  | nil => intro c _ h; exact h
                  | cons r rs ih =>
                    intro c hr hcn
                    rw [List.foldl_cons]
                    refine ih _ (fun o ho => hr o (by simp [ho])) ?_
                    have : p ≠ r.1 := fun h => hr r.2 (by rw [h]; simp)
                    simp [cachePut, this, hcn]
                rw [hstay _ _ (fun o ho => hp ((mem_rows ..).1 ho).1) (by simp [hp, hc])]
                exact ⟨nofun, nofun, fun _ h => absurd h hpp⟩
          · rw [f1 hn]
            simp only [hn, false_and, if_false]
            exact ⟨fun vs hv o => he n p vs hv o, id, fun h => h.elim⟩
        refine ⟨?_, by simp, by simp, by simp [h2], fun a ha => ?_, fun n p h => ?_⟩
        · intro n p vs hvs o
          obtain ⟨vs', e1, e2, -⟩ := hnew n p
          exact e2 vs (e1.symm.trans hvs) o
        · cases ha
          refine ⟨r1, fun p o => ?_, fun p hp => ?_⟩
          · rw [r2, mem_rows, c2, List.mem_filter]
            simp only [Arcs.pairs, List.flatMap_nil, List.not_mem_nil, or_false]
            cases hc : e.cache s p <;> simp
          · obtain ⟨vs', e1, -, -, e4⟩ := hnew s p
            have := e4 rfl hp
            rw [← e1] at this
            exact this
        · obtain ⟨vs', e1, -, e3, -⟩ := hnew n p
          have := e3 h
          rw [← e1] at this
          exact this
      · rw [if_pos (by simp [h2])]
        exact ⟨he, rfl, rfl, ⟨fun _ => ⟨by simpa using h2, hex⟩, fun _ => rfl⟩, nofun,
          fun _ _ h => h⟩

theorem Reach.coherent {K : Kinds N} {e : Endpoint N P} (h : Reach K e) : e.Coherent K := by
  induction h with
  | new w up => exact fun _ _ _ h => by cases h
  | turn up _ ih => exact ih
  | ask s preds _ ih => exact (Endpoint.outgoing_spec K _ ih s preds).1

theorem Endpoint.mem_matching (K : Kinds N) (e : Endpoint N P) (s : Option N) (p : Option P)
    (o : Option N) (ts : List (Tr N P)) (h : e.matching K s p o = some ts)
    (hs : ∀ x, s = some x → K.isBlank x = false) (ho : ∀ x, o = some x → K.isBlank x = false)
    (t : Tr N P) : t ∈ ts ↔ t ∈ e.content ∧ Fits s p o t := by
  unfold Endpoint.matching at h
  split at h
  · cases h
    have hm : ∀ t : Tr N P, svcMatch K s p o t = true ↔ Fits s p o t := by
      intro t
      simp only [svcMatch, stands, Bool.and_eq_true, Option.all_eq_true, Bool.or_eq_true,
        decide_eq_true_eq, Fits]
      constructor
      · rintro ⟨⟨⟨h1, h2⟩, h3⟩, -⟩
        exact ⟨fun x hx => (h1 x hx).resolve_left (by simp [hs x hx]), h2,
          fun x hx => (h3 x hx).resolve_left (by simp [ho x hx])⟩
      · rintro ⟨h1, h2, h3⟩
        refine ⟨⟨⟨fun x hx => Or.inr (h1 x hx), h2⟩, fun x hx => Or.inr (h3 x hx)⟩,
          fun x hx y hy => ?_⟩
        rw [if_neg (by simp [hs x hx])]
    have hid : ∀ t : Tr N P, Fits s p o t → (s.getD t.1, p.getD t.2.1, o.getD t.2.2) = t := by
      rintro ⟨a, b, c⟩ ⟨h1, h2, h3⟩
      cases s <;> cases p <;> cases o <;> simp_all
    simp only [List.mem_map, List.mem_filter, hm]
    constructor
    · rintro ⟨u, ⟨hu, hf⟩, rfl⟩
      rw [hid u hf]
      exact ⟨hu, hf⟩
    · rintro ⟨hu, hf⟩
      exact ⟨t, ⟨hu, hf⟩, hid t hf⟩
  · cases h

theorem usesMatching_mem (K : Kinds N) (s : Option N) (p : Option P) (o : Option N)
    (es : List (Endpoint N P)) (ts : List (Tr N P)) (h : usesMatching K s p o es = some ts)
    (hs : ∀ x, s = some x → K.isBlank x = false) (ho : ∀ x, o = some x → K.isBlank x = false)
    (t : Tr N P) : t ∈ ts ↔ (∃ e ∈ es, t ∈ e.content) ∧ Fits s p o t := by
  induction es generalizing ts with
  | nil => cases h; simp
  | cons e es ih =>
    simp only [usesMatching] at h
    cases hm : e.matching K s p o with
    | none => simp [hm] at h
    | some us =>
      rw [hm] at h
      obtain ⟨r, hr, rfl⟩ := Option.map_eq_some_iff.1 h
      rw [List.mem_append, Endpoint.mem_matching K e s p o us hm hs ho, ih r hr]
      simp only [List.mem_cons, exists_eq_or_imp]
      tauto

theorem usesMatching_none (K : Kinds N) (s : Option N) (p : Option P) (o : Option N)
    (es : List (Endpoint N P)) : usesMatching K s p o es = none ↔ ∃ e ∈ es, e.up = false := by
  induction es with
  | nil => simp [usesMatching]
  | cons e es ih =>
    simp only [usesMatching, List.mem_cons, exists_eq_or_imp, ← ih]
    cases hu : e.up <;> simp [Endpoint.matching, hu]

theorem usesOutgoing_spec (K : Kinds N) (s : N) (preds : List P) (es : List (Endpoint N P))
    (a : Arcs N P) (ha : a.Ok) (hc : ∀ e ∈ es, e.Coherent K) (b : Arcs N P)
    (h : (usesOutgoing K s preds a es).1 = some b) :
    b.Ok ∧ ∀ p o, (p, o) ∈ b.pairs ↔
      (p, o) ∈ a.pairs ∨ (p ∈ preds ∧ ∃ e ∈ es, Tells K e.content s p o) := by
  induction es generalizing a with
  | nil => cases h; exact ⟨ha, by simp⟩
  | cons e es ih =>
    obtain ⟨-, -, -, -, ho, -⟩ := Endpoint.outgoing_spec K e (hc e (by simp)) s preds
    simp only [usesOutgoing] at h
    cases hr : (e.outgoing K s preds).1 with
    | none => simp [hr] at h
    | some c =>
      rw [hr] at h
      obtain ⟨-, o2, -⟩ := ho c hr
      obtain ⟨m1, m2⟩ := Arcs.merge_spec c a ha
      obtain ⟨i1, i2⟩ := ih _ m1 (fun e he => hc e (by simp [he])) h
      refine ⟨i1, fun p o => ?_⟩
      rw [i2, m2, o2]
      simp only [List.mem_cons, exists_eq_or_imp]
      tauto

theorem usesOutgoing_some (K : Kinds N) (s : N) (preds : List P) (es : List (Endpoint N P))
    (a : Arcs N P) (hc : ∀ e ∈ es, e.Coherent K) (hu : ∀ e ∈ es, e.up = true) :
    ∃ b, (usesOutgoing K s preds a es).1 = some b := by
  induction es generalizing a with
  | nil => exact ⟨a, rfl⟩
  | cons e es ih =>
    obtain ⟨-, -, -, hn, -⟩ := Endpoint.outgoing_spec K e (hc e (by simp)) s preds
    simp only [usesOutgoing]
    cases hr : (e.outgoing K s preds).1 with
    | none => simpa [hu e (by simp)] using hn.1 hr
    | some c => exact ih _ (fun e he => hc e (by simp [he])) (fun e he => hu e (by simp [he]))

end Store
