import Verif.Visual.Spec
import Mathlib.Data.List.Nodup

/-! # Lemmas about drawings of graphs -/

namespace Visual

open List (Forall₂)

variable {I B L : Type} [DecidableEq I] [DecidableEq B] [DecidableEq L]

/-! ## Lookup -/

theorem lookup_none {α β : Type} [DecidableEq α] {m : List (α × β)} {a : α} :
    m.lookup a = none ↔ a ∉ m.map Prod.fst := by
  induction m with
  | nil => simp
  | cons e m ih =>
    obtain ⟨b, y⟩ := e
    rw [List.lookup_cons]
    by_cases h : a = b
    · subst h; simp
    · have : (a == b) = false := by simpa using h
      simp [this, ih, h]

theorem lookup_append {α β : Type} [DecidableEq α] (m m' : List (α × β)) (a : α) :
    (m ++ m').lookup a = (m.lookup a).or (m'.lookup a) := by
  induction m with
  | nil => simp
  | cons e m ih =>
    obtain ⟨b, y⟩ := e
    simp only [List.cons_append, List.lookup_cons]
    by_cases h : a = b
    · subst h; simp
    · have : (a == b) = false := by simpa using h
      simp [this, ih]

theorem mem_lookup {α β : Type} [DecidableEq α] {m : List (α × β)} (h : (m.map Prod.fst).Nodup)
    {a : α} {b : β} : (a, b) ∈ m ↔ m.lookup a = some b := by
  induction m with
  | nil => simp
  | cons e m ih =>
    obtain ⟨q, y⟩ := e
    simp only [List.map_cons, List.nodup_cons] at h
    simp only [List.mem_cons, Prod.mk.injEq, List.lookup_cons]
    by_cases hp : a = q
    · subst hp
      simp only [true_and, beq_self_eq_true, Option.some.injEq]
      constructor
      · rintro (rfl | h1)
        · rfl
        · exact (h.1 (List.mem_map.mpr ⟨_, h1, rfl⟩)).elim
      · rintro rfl
        exact .inl rfl
    · have : (a == q) = false := by simpa using hp
      rw [this]
      simp only [hp, false_and, false_or]
      exact ih h.2

/-! ## The pieces -/

theorem bumpIn_lookup (n m : VNode) (f : Usage → Usage) (us : List (VNode × Usage)) :
    (bumpIn n f us).lookup m = if m = n then some (f ((us.lookup n).getD {})) else us.lookup m := by
  induction us with
  | nil =>
    by_cases h : m = n
    · subst h; simp [bumpIn]
    · have : (m == n) = false := by simpa using h
      simp [bumpIn, List.lookup_cons, this, h]
  | cons e us ih =>
    obtain ⟨q, u⟩ := e
    simp only [bumpIn]
    by_cases hq : q = n
    · subst hq
      by_cases h : m = q
      · subst h; simp
      · have : (m == q) = false := by simpa using h
        simp [List.lookup_cons, this, h]
    · rw [if_neg hq]
      by_cases h : m = q
      · subst h; simp [hq]
      · have h1 : (m == q) = false := by simpa using h
        have h2 : (n == q) = false := by simpa using fun e : n = q => hq e.symm
        simp only [List.lookup_cons, h1, h2, ih]

theorem bump_use (g : G) (n m : VNode) (f : Usage → Usage) :
    (bump g n f).use m = if m = n then f (g.use n) else g.use m := by
  simp only [G.use, bump, bumpIn_lookup]
  split <;> rfl

/-- The nodes of a graph. -/
def keys (g : G) : List VNode := g.nodes.map Prod.fst

/-- Numbers are given one after the other. -/
structure Ok (g : G) : Prop where
  ids : g.nodes.map Prod.snd = List.range g.counter
  nodup : (keys g).Nodup

/-- What getting a node does. -/
structure Got (g : G) (n : VNode) (r : Nat × G) : Prop where
  ok : Ok r.2
  found : r.2.nodes.lookup n = some r.1
  kept : ∀ m i, g.nodes.lookup m = some i → r.2.nodes.lookup m = some i
  keys : ∀ m, m ∈ keys r.2 ↔ m ∈ Visual.keys g ∨ m = n
  edges : r.2.edges = g.edges
  use : ∀ m, r.2.use m = g.use m

theorem getOrCreate_got {g : G} (h : Ok g) (n : VNode) : Got g n (getOrCreate g n) := by
  unfold getOrCreate
  cases hl : g.nodes.lookup n with
  | some i =>
    have hn : n ∈ keys g := by
      by_contra hc
      rw [lookup_none.mpr hc] at hl
      cases hl
    exact ⟨h, hl, fun _ _ h => h, fun m => ⟨.inl, fun hm => hm.elim id fun e => e ▸ hn⟩, rfl,
      fun _ => rfl⟩
  | none =>
    have hn : n ∉ keys g := lookup_none.mp hl
    refine ⟨⟨?_, ?_⟩, ?_, ?_, ?_, rfl, fun _ => rfl⟩
    · simp [h.ids, List.range_succ]
    · simp only [keys, List.map_append, List.map_cons, List.map_nil]
      rw [List.nodup_append]
      refine ⟨h.nodup, by simp, ?_⟩
      intro a ha b hb
      simp only [List.mem_singleton] at hb
      subst hb
      rintro rfl
      exact hn ha
    · simp [lookup_append, hl]
    · intro m i hm
      simp [lookup_append, hm]
    · intro m
      simp [keys]

/-- The picture of a term. -/
def pic (C : Cfg I B L) (ts : List (Sub I B × I × Tm I B L)) : Tm I B L → VNode
  | .iri i => .iri (C.qual i) (C.iriStr i)
  | .bnode b => .bnode (C.showB b)
  | .lit l => .lit (C.showL l)
  | .triple s p o => if (s, p, o) ∈ ts then .asserted (subNode C s) (predNode C p) (pic C ts o)
      else .nonAsserted (subNode C s) (predNode C p) (pic C ts o)

/-- The nodes inside a term. -/
def Part (C : Cfg I B L) (ts : List (Sub I B × I × Tm I B L)) : Tm I B L → VNode → Prop
  | .iri _, _ => False
  | .bnode _, _ => False
  | .lit _, _ => False
  | .triple s p o, n => n = subNode C s ∨ n = predNode C p ∨ n = pic C ts o ∨ Part C ts o n

/-- Pictures of predicates. -/
def VNode.isPred : VNode → Bool
  | .pred _ _ => true
  | .reifies => true
  | _ => false

/-- Every picture of a predicate was counted in a triple term. -/
def Counted (g : G) : Prop := ∀ n ∈ keys g, n.isPred = true → 0 < (g.use n).predT

theorem subNode_isPred (C : Cfg I B L) (s : Sub I B) : (subNode C s).isPred = false := by
  cases s <;> rfl

theorem pic_isPred (C : Cfg I B L) (ts : List (Sub I B × I × Tm I B L)) (t : Tm I B L) :
    (pic C ts t).isPred = false := by
  cases t with
  | triple s p o =>
    simp only [pic]
    split <;> rfl
  | _ => rfl

/-- What drawing a term does. -/
structure Drew (C : Cfg I B L) (ts : List (Sub I B × I × Tm I B L)) (t : Tm I B L) (g : G)
    (r : VNode × G) : Prop where
  node : r.1 = pic C ts t
  ok : Ok r.2
  kept : ∀ m i, g.nodes.lookup m = some i → r.2.nodes.lookup m = some i
  keys : ∀ m, m ∈ keys r.2 ↔ m ∈ Visual.keys g ∨ Part C ts t m
  edges : r.2.edges = g.edges
  use : ∀ m, (r.2.use m).sub = (g.use m).sub ∧ (r.2.use m).pred = (g.use m).pred ∧
    (r.2.use m).obj = (g.use m).obj
  counted : Counted g → Counted r.2

theorem bump_ok {g : G} (h : Ok g) (n : VNode) (f : Usage → Usage) : Ok (bump g n f) :=
  ⟨h.ids, h.nodup⟩

theorem bump_counted {g : G} (h : Counted g) (n : VNode) (f : Usage → Usage)
    (hf : ∀ u, u.predT ≤ (f u).predT) : Counted (bump g n f) := by
  intro m hm hp
  rw [bump_use]
  have h1 := h m hm hp
  split
  · rename_i he
    subst he
    exact Nat.lt_of_lt_of_le h1 (hf _)
  · exact h1

theorem got_counted {g : G} {n : VNode} {r : Nat × G} (h : Counted g) (hg : Got g n r)
    (hn : n.isPred = true → 0 < (g.use n).predT) : Counted r.2 := by
  intro m hm hp
  rw [hg.use]
  rcases (hg.keys m).mp hm with h1 | rfl
  · exact h m h1 hp
  · exact hn hp

theorem objNode_drew (C : Cfg I B L) (ts : List (Sub I B × I × Tm I B L)) (t : Tm I B L) (g : G)
    (h : Ok g) : Drew C ts t g (objNode C ts t g) := by
  induction t generalizing g with
  | iri i => exact ⟨rfl, h, fun _ _ h => h, fun m => by simp [objNode, Part], rfl,
      fun _ => ⟨rfl, rfl, rfl⟩, id⟩
  | bnode b => exact ⟨rfl, h, fun _ _ h => h, fun m => by simp [objNode, Part], rfl,
      fun _ => ⟨rfl, rfl, rfl⟩, id⟩
  | lit l => exact ⟨rfl, h, fun _ _ h => h, fun m => by simp [objNode, Part], rfl,
      fun _ => ⟨rfl, rfl, rfl⟩, id⟩
  | triple s p o ih =>
    rw [objNode]
    generalize hg1 : bump g (subNode C s) (fun u => { u with subT := u.subT + 1 }) = g1
    have ok1 : Ok g1 := hg1 ▸ bump_ok h _ _
    have got2 := getOrCreate_got ok1 (subNode C s)
    generalize getOrCreate g1 (subNode C s) = r2 at got2
    generalize hg3 : bump r2.2 (predNode C p) (fun u => { u with predT := u.predT + 1 }) = g3
    have ok3 : Ok g3 := hg3 ▸ bump_ok got2.ok _ _
    have got4 := getOrCreate_got ok3 (predNode C p)
    generalize getOrCreate g3 (predNode C p) = r4 at got4
    have d5 := ih r4.2 got4.ok
    generalize objNode C ts o r4.2 = r5 at d5
    generalize hg6 : bump r5.2 r5.1 (fun u => { u with objT := u.objT + 1 }) = g6
    have ok6 : Ok g6 := hg6 ▸ bump_ok d5.ok _ _
    have got7 := getOrCreate_got ok6 r5.1
    generalize getOrCreate g6 r5.1 = r7 at got7
    have n1 : g1.nodes = g.nodes := hg1 ▸ rfl
    have n3 : g3.nodes = r2.2.nodes := hg3 ▸ rfl
    have n6 : g6.nodes = r5.2.nodes := hg6 ▸ rfl
    refine ⟨?_, got7.ok, ?_, ?_, ?_, ?_, ?_⟩
    · simp only [pic, d5.node]
    · intro m i hm
      refine got7.kept m i ?_
      rw [n6]
      refine d5.kept m i (got4.kept m i ?_)
      rw [n3]
      refine got2.kept m i ?_
      rw [n1]
      exact hm
    · intro m
      have k1 : keys g1 = keys g := by simp only [keys, n1]
      have k3 : keys g3 = keys r2.2 := by simp only [keys, n3]
      have k6 : keys g6 = keys r5.2 := by simp only [keys, n6]
      rw [got7.keys, k6, d5.keys, got4.keys, k3, got2.keys, k1, d5.node]
      simp only [Part]
      tauto
    · rw [got7.edges, ← hg6]
      show r5.2.edges = g.edges
      rw [d5.edges, got4.edges, ← hg3]
      show r2.2.edges = g.edges
      rw [got2.edges, ← hg1]
      rfl
    · intro m
      have u1 : (g1.use m).sub = (g.use m).sub ∧ (g1.use m).pred = (g.use m).pred ∧
          (g1.use m).obj = (g.use m).obj := by
        rw [← hg1, bump_use]
        split
        · rename_i e; subst e; exact ⟨rfl, rfl, rfl⟩
        · exact ⟨rfl, rfl, rfl⟩
      have u3 : (g3.use m).sub = (r2.2.use m).sub ∧ (g3.use m).pred = (r2.2.use m).pred ∧
          (g3.use m).obj = (r2.2.use m).obj := by
        rw [← hg3, bump_use]
        split
        · rename_i e; subst e; exact ⟨rfl, rfl, rfl⟩
        · exact ⟨rfl, rfl, rfl⟩
      have u6 : (g6.use m).sub = (r5.2.use m).sub ∧ (g6.use m).pred = (r5.2.use m).pred ∧
          (g6.use m).obj = (r5.2.use m).obj := by
        rw [← hg6, bump_use]
        split
        · rename_i e; subst e; exact ⟨rfl, rfl, rfl⟩
        · exact ⟨rfl, rfl, rfl⟩
      have u5 := d5.use m
      rw [got4.use] at u5
      rw [got2.use] at u3
      rw [got7.use]
      exact ⟨u6.1.trans (u5.1.trans (u3.1.trans u1.1)),
        u6.2.1.trans (u5.2.1.trans (u3.2.1.trans u1.2.1)),
        u6.2.2.trans (u5.2.2.trans (u3.2.2.trans u1.2.2))⟩
    · intro hc
      have c1 : Counted g1 := hg1 ▸ bump_counted hc _ _ fun _ => Nat.le_refl _
      have c2 := got_counted c1 got2 fun hp => by rw [subNode_isPred] at hp; cases hp
      have c3 : Counted g3 := hg3 ▸ bump_counted c2 _ _ fun _ => Nat.le_succ _
      have c4 := got_counted c3 got4 fun _ => by
        rw [← hg3, bump_use, if_pos rfl]
        exact Nat.succ_pos _
      have c5 := d5.counted c4
      have c6 : Counted g6 := hg6 ▸ bump_counted c5 _ _ fun _ => Nat.le_refl _
      exact got_counted c6 got7 fun hp => by rw [d5.node, pic_isPred] at hp; cases hp

/-- What is true after some triples with their objects converted. -/
structure Inv (C : Cfg I B L) (ts done : List (Sub I B × I × Tm I B L)) (g : G) : Prop where
  ok : Ok g
  keys : ∀ m, m ∈ keys g ↔ ∃ u ∈ done, m = subNode C u.1 ∨ m = pic C ts u.2.2 ∨ Part C ts u.2.2 m
  edges : ∀ e, e ∈ g.edges ↔ ∃ u ∈ done, g.nodes.lookup (subNode C u.1) = some e.1 ∧
    edgeOf C u.2.1 = e.2.1 ∧ g.nodes.lookup (pic C ts u.2.2) = some e.2.2
  once : g.edges.Nodup
  counted : Counted g
  sub : ∀ m, (g.use m).sub = done.countP fun u => decide (subNode C u.1 = m)
  pred : ∀ m, (g.use m).pred = done.countP fun u => decide (predNode C u.2.1 = m)
  obj : ∀ m, (g.use m).obj = done.countP fun u => decide (pic C ts u.2.2 = m)

theorem inv_nil (C : Cfg I B L) (ts : List (Sub I B × I × Tm I B L)) : Inv C ts [] {} :=
  ⟨⟨rfl, by simp [keys]⟩, by simp [keys], by simp, by simp, by simp [Counted, keys],
    fun _ => rfl, fun _ => rfl, fun _ => rfl⟩

theorem lookup_isSome {g : G} {m : VNode} (h : m ∈ keys g) : ∃ i, g.nodes.lookup m = some i := by
  cases hl : g.nodes.lookup m with
  | none => exact (lookup_none.mp hl h).elim
  | some i => exact ⟨i, rfl⟩

theorem addTriple_inv {C : Cfg I B L} {ts done : List (Sub I B × I × Tm I B L)} {g : G}
    (h : Inv C ts done g) (u : Sub I B × I × Tm I B L) :
    Inv C ts (done ++ [u]) (addTriple C ts g u.1 u.2.1 u.2.2) := by
  obtain ⟨s, p, o⟩ := u
  rw [addTriple]
  dsimp only
  generalize hg1 : bump g (subNode C s) (fun u => { u with sub := u.sub + 1 }) = g1
  have ok1 : Ok g1 := hg1 ▸ bump_ok h.ok _ _
  have got2 := getOrCreate_got ok1 (subNode C s)
  generalize getOrCreate g1 (subNode C s) = r2 at got2
  generalize hg3 : bump r2.2 (predNode C p) (fun u => { u with pred := u.pred + 1 }) = g3
  have ok3 : Ok g3 := hg3 ▸ bump_ok got2.ok _ _
  have d5 := objNode_drew C ts o g3 ok3
  generalize objNode C ts o g3 = r5 at d5
  generalize hg6 : bump r5.2 r5.1 (fun u => { u with obj := u.obj + 1 }) = g6
  have ok6 : Ok g6 := hg6 ▸ bump_ok d5.ok _ _
  have got7 := getOrCreate_got ok6 r5.1
  generalize getOrCreate g6 r5.1 = r7 at got7
  have n1 : g1.nodes = g.nodes := hg1 ▸ rfl
  have n3 : g3.nodes = r2.2.nodes := hg3 ▸ rfl
  have n6 : g6.nodes = r5.2.nodes := hg6 ▸ rfl
  have k1 : keys g1 = keys g := by simp only [keys, n1]
  have k3 : keys g3 = keys r2.2 := by simp only [keys, n3]
  have k6 : keys g6 = keys r5.2 := by simp only [keys, n6]
  have kept2 : ∀ m i, r2.2.nodes.lookup m = some i → r7.2.nodes.lookup m = some i := by
    intro m i hm
    refine got7.kept m i ?_
    rw [n6]
    refine d5.kept m i ?_
    rw [n3]
    exact hm
  have kept : ∀ m i, g.nodes.lookup m = some i → r7.2.nodes.lookup m = some i := by
    intro m i hm
    refine kept2 m i (got2.kept m i ?_)
    rw [n1]
    exact hm
  have hs : r7.2.nodes.lookup (subNode C s) = some r2.1 := kept2 _ _ got2.found
  have ho : r7.2.nodes.lookup (pic C ts o) = some r7.1 := d5.node ▸ got7.found
  have he : r7.2.edges = g.edges := by
    rw [got7.edges, ← hg6]
    show r5.2.edges = g.edges
    rw [d5.edges, ← hg3]
    show r2.2.edges = g.edges
    rw [got2.edges, ← hg1]
    rfl
  have hmem : ∀ e, e ∈ (if (r2.1, edgeOf C p, r7.1) ∈ r7.2.edges then r7.2.edges
      else r7.2.edges ++ [(r2.1, edgeOf C p, r7.1)]) ↔
      e ∈ g.edges ∨ e = (r2.1, edgeOf C p, r7.1) := by
    intro e
    rw [he]
    split
    · rename_i hm
      exact ⟨.inl, fun h => h.elim id fun e => e ▸ hm⟩
    · simp
  have huse : ∀ m, r7.2.use m = if m = pic C ts o
      then { r5.2.use m with obj := (r5.2.use m).obj + 1 } else r5.2.use m := by
    intro m
    rw [got7.use, ← hg6, bump_use, d5.node]
    split
    · rename_i e; subst e; rfl
    · rfl
  have huse3 : ∀ m, g3.use m = if m = predNode C p
      then { g1.use m with pred := (g1.use m).pred + 1 } else g1.use m := by
    intro m
    rw [← hg3, bump_use, got2.use, got2.use]
    split
    · rename_i e; subst e; rfl
    · rfl
  have huse1 : ∀ m, g1.use m = if m = subNode C s
      then { g.use m with sub := (g.use m).sub + 1 } else g.use m := by
    intro m
    rw [← hg1, bump_use]
    split
    · rename_i e; subst e; rfl
    · rfl
  refine ⟨⟨got7.ok.ids, got7.ok.nodup⟩, ?_, ?_, ?_, ?_, ?_, ?_, ?_⟩
  · intro m
    show m ∈ keys r7.2 ↔ _
    rw [got7.keys, k6, d5.keys, k3, got2.keys, k1, d5.node, h.keys]
    constructor
    · rintro (((⟨u, hu, h'⟩ | rfl) | hP) | rfl)
      · exact ⟨u, by simp [hu], h'⟩
      · exact ⟨(s, p, o), by simp, .inl rfl⟩
      · exact ⟨(s, p, o), by simp, .inr (.inr hP)⟩
      · exact ⟨(s, p, o), by simp, .inr (.inl rfl)⟩
    · rintro ⟨u, hu, h'⟩
      rcases List.mem_append.mp hu with hu | hu
      · exact .inl (.inl (.inl ⟨u, hu, h'⟩))
      · simp only [List.mem_singleton] at hu
        subst hu
        rcases h' with h' | h' | h'
        · exact .inl (.inl (.inr h'))
        · exact .inr h'
        · exact .inl (.inr h')
  · intro e
    rw [hmem, h.edges]
    show _ ↔ ∃ u ∈ done ++ [(s, p, o)], r7.2.nodes.lookup (subNode C u.1) = some e.1 ∧
      edgeOf C u.2.1 = e.2.1 ∧ r7.2.nodes.lookup (pic C ts u.2.2) = some e.2.2
    simp only [List.mem_append, List.mem_singleton, or_and_right, exists_or, exists_eq_left]
    refine or_congr ⟨?_, ?_⟩ ⟨?_, ?_⟩
    · rintro ⟨u, hu, h1, h2, h3⟩
      exact ⟨u, hu, kept _ _ h1, h2, kept _ _ h3⟩
    · rintro ⟨u, hu, h1, h2, h3⟩
      obtain ⟨i, hi⟩ := lookup_isSome ((h.keys (subNode C u.1)).mpr ⟨u, hu, .inl rfl⟩)
      obtain ⟨j, hj⟩ := lookup_isSome ((h.keys (pic C ts u.2.2)).mpr ⟨u, hu, .inr (.inl rfl)⟩)
      refine ⟨u, hu, ?_, h2, ?_⟩
      · rw [hi, ← h1, kept _ _ hi]
      · rw [hj, ← h3, kept _ _ hj]
    · rintro rfl
      exact ⟨hs, rfl, ho⟩
    · rintro ⟨h1, h2, h3⟩
      rw [hs] at h1
      rw [ho] at h3
      obtain ⟨a, b, c⟩ := e
      simp only [Option.some.injEq] at h1 h3 h2
      subst h1 h2 h3
      rfl
  · show (if (r2.1, edgeOf C p, r7.1) ∈ r7.2.edges then r7.2.edges
      else r7.2.edges ++ [(r2.1, edgeOf C p, r7.1)]).Nodup
    rw [he]
    split
    · exact h.once
    · rename_i hm
      rw [List.nodup_append]
      refine ⟨h.once, by simp, ?_⟩
      intro a ha b hb
      simp only [List.mem_singleton] at hb
      subst hb
      rintro rfl
      exact hm ha
  · have c1 : Counted g1 := hg1 ▸ bump_counted h.counted _ _ fun _ => Nat.le_refl _
    have c2 := got_counted c1 got2 fun hp => by rw [subNode_isPred] at hp; cases hp
    have c3 : Counted g3 := hg3 ▸ bump_counted c2 _ _ fun _ => Nat.le_refl _
    have c5 := d5.counted c3
    have c6 : Counted g6 := hg6 ▸ bump_counted c5 _ _ fun _ => Nat.le_refl _
    exact got_counted c6 got7 fun hp => by rw [d5.node, pic_isPred] at hp; cases hp
  · intro m
    show (r7.2.use m).sub = _
    have e1 : (r7.2.use m).sub = (r5.2.use m).sub := by rw [huse]; split <;> rfl
    have e3 : (g3.use m).sub = (g1.use m).sub := by rw [huse3]; split <;> rfl
    rw [e1, (d5.use m).1, e3, huse1, List.countP_append, ← h.sub m]
    by_cases hm : m = subNode C s
    · subst hm; simp
    · simp [hm, Ne.symm (show m ≠ subNode C s from hm)]
  · intro m
    show (r7.2.use m).pred = _
    have e1 : (r7.2.use m).pred = (r5.2.use m).pred := by rw [huse]; split <;> rfl
    have e3 : (g1.use m).pred = (g.use m).pred := by rw [huse1]; split <;> rfl
    rw [e1, (d5.use m).2.1, huse3, List.countP_append, ← h.pred m]
    by_cases hm : m = predNode C p
    · subst hm; simp [e3]
    · simp [hm, Ne.symm (show m ≠ predNode C p from hm), e3]
  · intro m
    show (r7.2.use m).obj = _
    have e3 : (g3.use m).obj = (g1.use m).obj := by rw [huse3]; split <;> rfl
    have e1 : (g1.use m).obj = (g.use m).obj := by rw [huse1]; split <;> rfl
    rw [huse, List.countP_append, ← h.obj m]
    by_cases hm : m = pic C ts o
    · subst hm; simp [e3, e1, (d5.use _).2.2]
    · simp [hm, Ne.symm (show m ≠ pic C ts o from hm), e3, e1, (d5.use _).2.2]

theorem toObj_reads (C : Cfg I B L) (t t' : Tm I B L) : toObj C t = some t' ↔ Reads C t t' := by
  induction t generalizing t' with
  | iri i =>
    simp only [toObj, Option.some.injEq]
    exact ⟨fun h => h ▸ .iri i, fun h => by cases h; rfl⟩
  | bnode b =>
    simp only [toObj, Option.some.injEq]
    exact ⟨fun h => h ▸ .bnode b, fun h => by cases h; rfl⟩
  | lit l =>
    simp only [toObj, Option.map_eq_some_iff]
    constructor
    · rintro ⟨l', h, rfl⟩
      exact .lit l l' h
    · intro h
      cases h with
      | lit _ l' h => exact ⟨l', h, rfl⟩
  | triple s p o ih =>
    simp only [toObj, Option.map_eq_some_iff, ih]
    constructor
    · rintro ⟨o', h, rfl⟩
      exact .triple s p o o' h
    · intro h
      cases h with
      | triple _ _ _ o' h => exact ⟨o', h, rfl⟩

/-- Triples with their objects read. -/
def ReadAll (C : Cfg I B L) (ts us : List (Sub I B × I × Tm I B L)) : Prop :=
  Forall₂ (fun t u => u.1 = t.1 ∧ u.2.1 = t.2.1 ∧ Reads C t.2.2 u.2.2) ts us

theorem addAll_ok (C : Cfg I B L) (ts rest : List (Sub I B × I × Tm I B L)) (g0 g : G) :
    addAll C ts rest g0 = some g ↔ ∃ us, ReadAll C rest us ∧
      g = us.foldl (fun g u => addTriple C ts g u.1 u.2.1 u.2.2) g0 := by
  induction rest generalizing g0 with
  | nil =>
    simp only [addAll, Option.some.injEq, ReadAll]
    constructor
    · rintro rfl
      exact ⟨[], .nil, rfl⟩
    · rintro ⟨us, h, rfl⟩
      cases h
      rfl
  | cons t rest ih =>
    simp only [addAll, createTriple]
    cases ho : toObj C t.2.2 with
    | none =>
      simp only [reduceCtorEq, false_iff]
      rintro ⟨us, h, _⟩
      cases h with
      | cons h1 _ =>
        rw [← toObj_reads, ho] at h1
        cases h1.2.2
    | some o' =>
      simp only [ih]
      constructor
      · rintro ⟨us, h, rfl⟩
        exact ⟨(t.1, t.2.1, o') :: us, .cons ⟨rfl, rfl, (toObj_reads C _ _).mp ho⟩ h, rfl⟩
      · rintro ⟨us, h, rfl⟩
        cases h with
        | @cons _ u _ us h1 h2 =>
          obtain ⟨a, b, c⟩ := u
          obtain ⟨h3, h4, h5⟩ := h1
          rw [← toObj_reads, ho] at h5
          simp only [Option.some.injEq] at h3 h4 h5
          subst h3 h4 h5
          exact ⟨us, h2, rfl⟩

theorem foldl_inv {C : Cfg I B L} {ts : List (Sub I B × I × Tm I B L)}
    (us done : List (Sub I B × I × Tm I B L)) (g : G) (h : Inv C ts done g) :
    Inv C ts (done ++ us) (us.foldl (fun g u => addTriple C ts g u.1 u.2.1 u.2.2) g) := by
  induction us generalizing done g with
  | nil => simpa using h
  | cons u us ih =>
    have := ih _ _ (addTriple_inv h u)
    simpa using this

theorem fromRdf_inv {C : Cfg I B L} {ts : List (Sub I B × I × Tm I B L)} {g : G}
    (h : fromRdf C ts = some g) : ∃ us, ReadAll C ts us ∧ Inv C ts us g := by
  obtain ⟨us, h1, rfl⟩ := (addAll_ok C ts ts {} g).mp h
  exact ⟨us, h1, by simpa using foldl_inv us [] {} (inv_nil C ts)⟩

end Visual
