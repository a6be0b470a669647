import Verif.Uml.Spec
import Verif.Rbe.LemmasTable

/-!
# Helper lemmas: the state of the conversion

`St.WF` is what always holds of the state between two calls; `Step` says how a call made for the node
`cur` changes it: nothing known is forgotten and only `cur` gets links.
-/

namespace Uml
open Rbe Shexc

theorem look_snoc {X Y : Type} [DecidableEq X] (x k : X) (y : Y) (l : List (X × Y)) :
    alookup k (l ++ [(x, y)]) = (alookup k l).or (if x = k then some y else none) := by
  induction l with
  | nil => simp [alookup]
  | cons e l ih =>
    obtain ⟨z, v⟩ := e
    simp only [List.cons_append, alookup]
    by_cases h : z = k
    · simp [h]
    · simp [h, ih]

theorem look_snoc_old {X Y : Type} [DecidableEq X] {x k : X} {y z : Y} {l : List (X × Y)}
    (h : alookup k l = some z) : alookup k (l ++ [(x, y)]) = some z := by
  rw [look_snoc, h]; rfl

theorem look_snoc_new {X Y : Type} [DecidableEq X] {x : X} {y : Y} {l : List (X × Y)}
    (h : alookup x l = none) : alookup x (l ++ [(x, y)]) = some y := by
  rw [look_snoc, h]; simp

theorem look_snoc_inv {X Y : Type} [DecidableEq X] {x k : X} {y z : Y} {l : List (X × Y)}
    (h : alookup k (l ++ [(x, y)]) = some z) : alookup k l = some z ∨ (k = x ∧ z = y) := by
  rw [look_snoc] at h
  cases h1 : alookup k l with
  | some w => rw [h1] at h; exact .inl h
  | none =>
    rw [h1] at h
    by_cases hx : x = k
    · simp only [hx, if_pos, Option.none_or, Option.some.injEq] at h
      exact .inr ⟨hx.symm, h.symm⟩
    · simp [hx] at h

/-- What holds of the state between two calls. -/
structure St.WF (u : St) : Prop where
  inj : ∀ l l' n, u.find l = some n → u.find l' = some n → l = l'
  le : ∀ l n, u.find l = some n → n ≤ u.next
  idxLe : ∀ x i, alookup x u.logical = some i → i ≤ u.nextLogic
  idxInj : ∀ x y i, alookup x u.logical = some i → alookup y u.logical = some i → x = y
  labelled : ∀ n c, u.comp n = some c → ∃ l, u.find l = some n
  isCls : ∀ s n c, u.find (.cls s) = some n → u.comp n = some c → ∃ d, c = .cls d
  isLogic : ∀ k i n, u.find (.logic k i) = some n → ∃ ids, u.comp n = some (.logic k ids) ∧
    alookup (k, ids) u.logical = some i ∧ u.from n = ids.map fun m => ⟨n, m, member, .oneOne⟩
  ends : ∀ l ∈ u.links, (∃ x, u.find x = some l.src) ∧ ∃ x, u.find x = some l.dst
  out : ∀ a b, (a, b) ∈ u.outgoing ↔ ∃ l ∈ u.links, l.src = a ∧ l.dst = b
  inc : ∀ a b, (b, a) ∈ u.incoming ↔ ∃ l ∈ u.links, l.src = a ∧ l.dst = b

theorem wf_init : St.init.WF where
  inj := by intro l l' n h; cases h
  le := by intro l n h; cases h
  idxLe := by intro l n h; cases h
  idxInj := by intro l n i h; cases h
  labelled := by intro l n h; cases h
  isCls := by intro s n c h; cases h
  isLogic := by intro l n i h; cases h
  ends := by intro l h; cases h
  out := by intro a b; simp [St.init]
  inc := by intro a b; simp [St.init]

/-- How a call made for `cur` changes the state: `L` are the links it adds to `cur`, `E` what it is said
to extend and `N` has the labels that may be new and
`B` the classes added. -/
structure Step (cur : Nat) (u v : St) (L : List Link) (E : List Nat) (N : List ULabel) (B : List (Nat × Cls)) :
    Prop where
  wf : v.WF
  lab : ∀ l n, u.find l = some n → v.find l = some n
  comp : ∀ n c, u.comp n = some c → v.comp n = some c
  cls : ∀ n, (∀ k i, v.find (.logic k i) ≠ some n) → v.from n = u.from n ++ if n = cur then L else []
  logic : ∀ n k ids, u.comp n = some (.logic k ids) → v.from n = u.from n
  exts : ∀ a b, (a, b) ∈ v.exts ↔ (a, b) ∈ u.exts ∨ (a = cur ∧ b ∈ E)
  new : ∀ l n, v.find l = some n → u.find l = some n ∨ l ∈ N
  bare : ∀ n c, v.comp n = some (.cls c) → u.comp n = some (.cls c) ∨ (n, c) ∈ B

theorem Step.refl {cur : Nat} {u : St} (h : u.WF) : Step cur u u [] [] [] [] where
  wf := h
  lab := fun _ _ h => h
  comp := fun _ _ h => h
  cls := by intro n _; simp
  logic := fun _ _ _ _ => rfl
  exts := by intro a b; simp
  new := fun _ _ h => .inl h
  bare := fun _ _ h => .inl h

theorem Step.trans {cur : Nat} {u v w : St} {L M : List Link} {E F : List Nat} {N O : List ULabel}
    {A B : List (Nat × Cls)} (h : Step cur u v L E N A) (g : Step cur v w M F O B) :
    Step cur u w (L ++ M) (E ++ F) (N ++ O) (A ++ B) where
  wf := g.wf
  lab := fun l n k => g.lab l n (h.lab l n k)
  comp := fun n c k => g.comp n c (h.comp n c k)
  cls := by
    intro n hn
    rw [g.cls n hn, h.cls n (fun k i hk => hn k i (g.lab _ _ hk))]
    by_cases hc : n = cur <;> simp [hc]
  logic := by
    intro n k ids hc
    rw [g.logic n k ids (h.comp _ _ hc), h.logic n k ids hc]
  exts := by
    intro a b
    rw [g.exts, h.exts, List.mem_append]
    constructor
    · rintro ((h | ⟨h1, h2⟩) | ⟨h1, h2⟩)
      · exact .inl h
      · exact .inr ⟨h1, .inl h2⟩
      · exact .inr ⟨h1, .inr h2⟩
    · rintro (h | ⟨h1, h2 | h2⟩)
      · exact .inl (.inl h)
      · exact .inl (.inr ⟨h1, h2⟩)
      · exact .inr ⟨h1, h2⟩
  new := by
    intro l n hl
    rcases g.new l n hl with h' | h'
    · rcases h.new l n h' with h' | h'
      · exact .inl h'
      · exact .inr (List.mem_append.2 (.inl h'))
    · exact .inr (List.mem_append.2 (.inr h'))
  bare := by
    intro n c hc
    rcases g.bare n c hc with h' | h'
    · rcases h.bare n c h' with h' | h'
      · exact .inl h'
      · exact .inr (List.mem_append.2 (.inl h'))
    · exact .inr (List.mem_append.2 (.inr h'))

/-- Targets stay where they are. -/
theorem Step.at {cur : Nat} {u v : St} {L : List Link} {E : List Nat} {N : List ULabel} {B : List (Nat × Cls)}
    (h : Step cur u v L E N B) {n : Nat}
    {t : Target} (ht : u.At n t) : v.At n t := by
  cases t with
  | one s => exact h.lab _ _ ht
  | group k ss =>
    obtain ⟨ids, h1, h2, h3, h4, h5⟩ := ht
    refine ⟨ids, h.comp _ _ h1, h2, ?_, ?_, ?_⟩
    · intro s hs
      obtain ⟨i, hi, hf⟩ := h3 s hs
      exact ⟨i, hi, h.lab _ _ hf⟩
    · intro i hi
      obtain ⟨s, hs, hf⟩ := h4 i hi
      exact ⟨s, hs, h.lab _ _ hf⟩
    · rw [h.logic n k ids h1, h5]

theorem St.WF.from_new {u : St} (h : u.WF) {n : Nat} (hn : ∀ l, u.find l ≠ some n) : u.from n = [] := by
  rw [St.from, List.filter_eq_nil_iff]
  intro l hl hs
  obtain ⟨⟨x, hx⟩, _⟩ := h.ends l hl
  rw [of_decide_eq_true hs] at hx
  exact hn x hx

theorem St.WF.comp_new {u : St} (h : u.WF) {n : Nat} (hn : ∀ l, u.find l ≠ some n) : u.comp n = none := by
  cases hc : u.comp n with
  | none => rfl
  | some c =>
    obtain ⟨l, hl⟩ := h.labelled n c hc
    exact absurd hl (hn l)

theorem St.WF.fresh {u : St} (h : u.WF) (l : ULabel) : u.find l ≠ some (u.next + 1) := by
  intro hl
  have := h.le _ _ hl
  omega

/-! ## Nodes of classes -/

theorem node_cls {cur : Nat} {u : St} (h : u.WF) (s : Str) :
    Step cur u (u.node (.cls s)).2.2 [] [] [.cls s] [] ∧ (u.node (.cls s)).2.2.find (.cls s) = some (u.node (.cls s)).1 ∧
      ((u.node (.cls s)).2.1 = false → (u.node (.cls s)).2.2.comp (u.node (.cls s)).1 = none) ∧
      (∀ c, u.comp (u.node (.cls s)).1 = some c → u.find (.cls s) = some (u.node (.cls s)).1) := by
  cases hf : alookup (ULabel.cls s) u.labels with
  | some n =>
    have hn : u.node (.cls s) = (n, true, u) := by unfold St.node; rw [hf]
    rw [hn]
    refine ⟨{ Step.refl h with new := fun _ _ h => .inl h }, hf, ?_, fun _ _ => hf⟩
    intro h; cases h
  | none =>
    have hn : u.node (.cls s) = (u.next + 1, false,
        { u with next := u.next + 1, labels := u.labels ++ [(.cls s, u.next + 1)] }) := by
      unfold St.node; rw [hf]
    rw [hn]
    have hfr := h.fresh
    have inv : ∀ {l n}, alookup l (u.labels ++ [(ULabel.cls s, u.next + 1)]) = some n →
        u.find l = some n ∨ (l = .cls s ∧ n = u.next + 1) := fun h => look_snoc_inv h
    have old : ∀ {l n}, u.find l = some n → alookup l (u.labels ++ [(ULabel.cls s, u.next + 1)]) = some n :=
      fun h => look_snoc_old h
    have cn : u.comp (u.next + 1) = none := h.comp_new hfr
    refine ⟨⟨⟨?_, ?_, h.idxLe, h.idxInj, ?_, ?_, ?_, ?_, h.out, h.inc⟩, fun _ _ h => old h, fun _ _ h => h, ?_,
      fun _ _ _ _ => rfl, ?_, ?_, fun _ _ h => .inl h⟩, ?_, ?_, ?_⟩
    · intro l l' n h1 h2
      rcases inv h1 with h1 | ⟨rfl, rfl⟩ <;> rcases inv h2 with h2 | ⟨rfl, hq⟩
      · exact h.inj _ _ _ h1 h2
      · subst hq; exact absurd h1 (hfr _)
      · exact absurd h2 (hfr _)
      · rfl
    · intro l n h1
      rcases inv h1 with h1 | ⟨rfl, rfl⟩
      · exact Nat.le_succ_of_le (h.le _ _ h1)
      · exact Nat.le_refl _
    · intro n c hc
      obtain ⟨l, hl⟩ := h.labelled n c hc
      exact ⟨l, old hl⟩
    · intro s' n c h1 hc
      rcases inv h1 with h1 | ⟨_, rfl⟩
      · exact h.isCls _ _ _ h1 hc
      · have : u.comp (u.next + 1) = some c := hc
        rw [cn] at this; cases this
    · intro k i n h1
      rcases inv h1 with h1 | ⟨h1, _⟩
      · exact h.isLogic _ _ _ h1
      · cases h1
    · intro l hl
      obtain ⟨⟨x, hx⟩, ⟨y, hy⟩⟩ := h.ends l hl
      exact ⟨⟨x, old hx⟩, ⟨y, old hy⟩⟩
    · intro n _; simp [St.from]
    · intro a b; simp
    · intro l n h1
      rcases inv h1 with h1 | ⟨h1, _⟩
      · exact .inl h1
      · exact .inr (List.mem_singleton.2 h1)
    · exact look_snoc_new hf
    · intro _; exact cn
    · intro c hc
      rw [cn] at hc; cases hc

/-! ## Links of classes -/

theorem from_snoc (u : St) (n : Nat) (l : Link) (L : List Link) (h : u.links = L ++ [l]) :
    u.from n = (L.filter fun l => l.src = n) ++ if l.src = n then [l] else [] := by
  rw [St.from, h, List.filter_append]
  by_cases hs : l.src = n <;> simp [hs]

theorem link_step {u : St} (h : u.WF) {cur dst : Nat} {s : Str} (hc : u.find (.cls s) = some cur)
    {x : ULabel} (hd : u.find x = some dst) (name : Name) (card : Card) :
    Step cur u (u.link cur dst name card) [⟨cur, dst, name, card⟩] [] [] [] := by
  have hcls : ∀ k i n, u.find (.logic k i) = some n → cur ≠ n := by
    intro k i n hn he
    subst he
    cases h.inj _ _ _ hn hc
  have hfrom : ∀ n, (u.link cur dst name card).from n =
      u.from n ++ if cur = n then [⟨cur, dst, name, card⟩] else [] :=
    fun n => from_snoc _ n ⟨cur, dst, name, card⟩ u.links rfl
  refine ⟨⟨h.inj, h.le, h.idxLe, h.idxInj, h.labelled, h.isCls, ?_, ?_, ?_, ?_⟩, fun _ _ h => h, fun _ _ h => h,
    ?_, ?_, ?_, fun _ _ h => .inl h, fun _ _ h => .inl h⟩
  · intro k i n hn
    obtain ⟨ids, h1, h2, h3⟩ := h.isLogic k i n hn
    refine ⟨ids, h1, h2, ?_⟩
    rw [hfrom, if_neg (hcls k i n hn), List.append_nil, h3]
  · intro l hl
    rcases List.mem_append.1 hl with hl | hl
    · exact h.ends l hl
    · rw [List.mem_singleton.1 hl]
      exact ⟨⟨_, hc⟩, ⟨_, hd⟩⟩
  · intro a b
    show (a, b) ∈ sinsert _ u.outgoing ↔ ∃ l ∈ u.links ++ [_], _
    rw [mem_sinsert, h.out]
    constructor
    · rintro (⟨l, hl, h1⟩ | h1)
      · exact ⟨l, List.mem_append.2 (.inl hl), h1⟩
      · cases h1
        exact ⟨_, List.mem_append.2 (.inr (List.mem_singleton.2 rfl)), rfl, rfl⟩
    · rintro ⟨l, hl, h1, h2⟩
      rcases List.mem_append.1 hl with hl | hl
      · exact .inl ⟨l, hl, h1, h2⟩
      · rw [List.mem_singleton.1 hl] at h1 h2
        exact .inr (by rw [← h1, ← h2])
  · intro a b
    show (b, a) ∈ sinsert _ u.incoming ↔ ∃ l ∈ u.links ++ [_], _
    rw [mem_sinsert, h.inc]
    constructor
    · rintro (⟨l, hl, h1⟩ | h1)
      · exact ⟨l, List.mem_append.2 (.inl hl), h1⟩
      · cases h1
        exact ⟨_, List.mem_append.2 (.inr (List.mem_singleton.2 rfl)), rfl, rfl⟩
    · rintro ⟨l, hl, h1, h2⟩
      rcases List.mem_append.1 hl with hl | hl
      · exact .inl ⟨l, hl, h1, h2⟩
      · rw [List.mem_singleton.1 hl] at h1 h2
        exact .inr (by rw [← h1, ← h2])
  · intro n _
    rw [hfrom]
    by_cases hn : cur = n
    · simp [hn]
    · have : ¬ n = cur := fun h => hn h.symm
      simp [hn, this]
  · intro n k ids hcomp
    have : cur ≠ n := by
      intro he
      subst he
      obtain ⟨d, hd⟩ := h.isCls _ _ _ hc hcomp
      cases hd
    rw [hfrom, if_neg this, List.append_nil]
  · intro a b; simp [St.link]

/-- `add_link` is the node of the class followed by the link. -/
theorem addLink_eq (u : St) (src : Nat) (s : Str) (name : Name) (card : Card) :
    u.addLink src (.cls s) name card = (u.node (.cls s)).2.2.link src (u.node (.cls s)).1 name card := by
  unfold St.addLink St.node
  cases alookup (ULabel.cls s) u.labels <;> rfl

/-! ## Nodes of operators -/

theorem logicIdx_step {cur : Nat} {u : St} (h : u.WF) (k : Kind) (ids : List Nat) :
    Step cur u (u.logicIdx k ids).2 [] [] [] [] ∧
      alookup (k, ids) (u.logicIdx k ids).2.logical = some (u.logicIdx k ids).1 := by
  cases hf : alookup (k, ids) u.logical with
  | some i =>
    have hn : u.logicIdx k ids = (i, u) := by unfold St.logicIdx; rw [hf]
    rw [hn]
    exact ⟨.refl h, hf⟩
  | none =>
    have hn : u.logicIdx k ids = (u.nextLogic + 1, { u with nextLogic := u.nextLogic + 1, logical := u.logical ++ [((k, ids), u.nextLogic + 1)] }) := by
      unfold St.logicIdx; rw [hf]
    rw [hn]
    have inv : ∀ {x i}, alookup x (u.logical ++ [((k, ids), u.nextLogic + 1)]) = some i →
        alookup x u.logical = some i ∨ (x = (k, ids) ∧ i = u.nextLogic + 1) := fun h => look_snoc_inv h
    refine ⟨⟨⟨h.inj, h.le, ?_, ?_, h.labelled, h.isCls, ?_, h.ends, h.out, h.inc⟩, fun _ _ h => h, fun _ _ h => h, ?_,
      fun _ _ _ _ => rfl, ?_, fun _ _ h => .inl h, fun _ _ h => .inl h⟩, look_snoc_new hf⟩
    · intro x i hx
      rcases inv hx with hx | ⟨_, rfl⟩
      · exact Nat.le_succ_of_le (h.idxLe _ _ hx)
      · exact Nat.le_refl _
    · intro x y i hx hy
      rcases inv hx with hx | ⟨rfl, rfl⟩ <;> rcases inv hy with hy | ⟨rfl, hq⟩
      · exact h.idxInj _ _ _ hx hy
      · subst hq
        have := h.idxLe _ _ hx
        omega
      · have := h.idxLe _ _ hy
        omega
      · rfl
    · intro k' i n hn
      obtain ⟨ids', h1, h2, h3⟩ := h.isLogic k' i n hn
      exact ⟨ids', h1, look_snoc_old h2, h3⟩
    · intro n _; simp [St.from]
    · intro a b; simp

theorem members_eq (n : Nat) (ids : List Nat) (u : St) :
    let v := ids.foldl (fun u m => u.link n m member .oneOne) u
    v.next = u.next ∧ v.nextLogic = u.nextLogic ∧ v.logical = u.logical ∧ v.labels = u.labels ∧
      v.comps = u.comps ∧ v.exts = u.exts ∧ v.links = u.links ++ ids.map (fun m => ⟨n, m, member, .oneOne⟩) ∧
      (∀ p, p ∈ v.outgoing ↔ p ∈ u.outgoing ∨ ∃ m ∈ ids, p = (n, m)) ∧
      (∀ p, p ∈ v.incoming ↔ p ∈ u.incoming ∨ ∃ m ∈ ids, p = (m, n)) := by
  induction ids generalizing u with
  | nil => simp
  | cons m ms ih =>
    obtain ⟨h1, h2, h3, h4, h5, h6, h7, h8, h9⟩ := ih (u.link n m member .oneOne)
    refine ⟨h1, h2, h3, h4, h5, h6, ?_, ?_, ?_⟩
    · simp only [List.foldl_cons, h7, List.map_cons]
      simp [St.link]
    · intro p
      simp only [List.foldl_cons]
      rw [h8]
      simp only [St.link, mem_sinsert, List.mem_cons, exists_eq_or_imp]
      tauto
    · intro p
      simp only [List.foldl_cons]
      rw [h9]
      simp only [St.link, mem_sinsert, List.mem_cons, exists_eq_or_imp]
      tauto

theorem logic_step {cur : Nat} {u : St} (h : u.WF) {k : Kind}
    {ids : List Nat} {i : Nat}
    (hi : alookup (k, ids) u.logical = some i) (hids : ∀ m ∈ ids, ∃ x, u.find x = some m) :
    ∃ v, logicAdd (u.node (.logic k i)).1 k ids (u.node (.logic k i)).2.2 = .ok v ∧ Step cur u v [] [] [.logic k i] [] ∧
      v.find (.logic k i) = some (u.node (.logic k i)).1 ∧
      v.comp (u.node (.logic k i)).1 = some (.logic k ids) ∧
      v.from (u.node (.logic k i)).1 = ids.map fun m => ⟨(u.node (.logic k i)).1, m, member, .oneOne⟩ := by
  cases hf : alookup (ULabel.logic k i) u.labels with
  | some n =>
    have hn : u.node (.logic k i) = (n, true, u) := by unfold St.node; rw [hf]
    rw [hn]
    obtain ⟨ids', h1, h2, h3⟩ := h.isLogic k i n hf
    have he := h.idxInj _ _ _ hi h2
    cases he
    refine ⟨u, ?_, { Step.refl h with new := fun _ _ h => .inl h }, hf, h1, h3⟩
    simp only [logicAdd, h1]
  | none =>
    have hn : u.node (.logic k i) = (u.next + 1, false,
        { u with next := u.next + 1, labels := u.labels ++ [(.logic k i, u.next + 1)] }) := by
      unfold St.node; rw [hf]
    rw [hn]
    have hfr := h.fresh
    have cn : u.comp (u.next + 1) = none := h.comp_new hfr
    have fn : u.from (u.next + 1) = [] := h.from_new hfr
    have inv : ∀ {l n}, alookup l (u.labels ++ [(ULabel.logic k i, u.next + 1)]) = some n →
        u.find l = some n ∨ (l = .logic k i ∧ n = u.next + 1) := fun h => look_snoc_inv h
    have old : ∀ {l n}, u.find l = some n → alookup l (u.labels ++ [(ULabel.logic k i, u.next + 1)]) = some n :=
      fun h => look_snoc_old h
    obtain ⟨e1, e2, e3, e4, e5, e6, e7, e8, e9⟩ := members_eq (u.next + 1) ids
      { u with next := u.next + 1, labels := u.labels ++ [(.logic k i, u.next + 1)], comps := u.comps ++ [(u.next + 1, .logic k ids)] }
    have hadd : logicAdd (u.next + 1) k ids
        { u with next := u.next + 1, labels := u.labels ++ [(.logic k i, u.next + 1)] } =
        .ok (ids.foldl (fun u' m => u'.link (u.next + 1) m member .oneOne)
          { u with next := u.next + 1, labels := u.labels ++ [(.logic k i, u.next + 1)], comps := u.comps ++ [(u.next + 1, .logic k ids)] }) := by
      have cn' : St.comp { u with next := u.next + 1, labels := u.labels ++ [(.logic k i, u.next + 1)] } (u.next + 1) = none := cn
      simp only [logicAdd, St.addComp, cn', Out.bind]
    refine ⟨_, hadd, ?_⟩
    clear hadd
    generalize List.foldl (fun (u' : St) m => u'.link (u.next + 1) m member .oneOne)
      { u with next := u.next + 1, labels := u.labels ++ [(ULabel.logic k i, u.next + 1)], comps := u.comps ++ [(u.next + 1, Comp.logic k ids)] } ids = v at e1 e2 e3 e4 e5 e6 e7 e8 e9 ⊢
    have hfind : ∀ l, v.find l = alookup l (u.labels ++ [(ULabel.logic k i, u.next + 1)]) := by
      intro l; rw [St.find, e4]
    have hcomp : ∀ n, v.comp n = alookup n (u.comps ++ [(u.next + 1, Comp.logic k ids)]) := by
      intro n; rw [St.comp, e5]
    have hfrom : ∀ n, v.from n = u.from n ++ if n = u.next + 1 then ids.map (fun m => ⟨n, m, member, .oneOne⟩) else [] := by
      intro n
      rw [St.from, e7, List.filter_append, ← St.from]
      congr 1
      by_cases hn : n = u.next + 1
      · subst hn
        rw [if_pos rfl, List.filter_eq_self]
        intro l hl
        obtain ⟨m, _, rfl⟩ := List.mem_map.1 hl
        simp
      · rw [if_neg hn, List.filter_eq_nil_iff]
        intro l hl
        obtain ⟨m, _, rfl⟩ := List.mem_map.1 hl
        simp only [decide_eq_true_eq]
        exact fun h => hn h.symm
    have hnew : v.find (.logic k i) = some (u.next + 1) := by rw [hfind]; exact look_snoc_new hf
    have hcnew : v.comp (u.next + 1) = some (.logic k ids) := by rw [hcomp]; exact look_snoc_new cn
    have hfnew : v.from (u.next + 1) = ids.map fun m => ⟨u.next + 1, m, member, .oneOne⟩ := by
      rw [hfrom, fn]; simp
    refine ⟨⟨⟨?_, ?_, ?_, ?_, ?_, ?_, ?_, ?_, ?_, ?_⟩, ?_, ?_, ?_, ?_, ?_, ?_, ?_⟩, hnew, hcnew, hfnew⟩
    · intro l l' n h1 h2
      rw [hfind] at h1 h2
      rcases inv h1 with h1 | ⟨rfl, rfl⟩ <;> rcases inv h2 with h2 | ⟨rfl, hq⟩
      · exact h.inj _ _ _ h1 h2
      · subst hq; exact absurd h1 (hfr _)
      · exact absurd h2 (hfr _)
      · rfl
    · intro l n h1
      rw [hfind] at h1
      rw [e1]
      rcases inv h1 with h1 | ⟨rfl, rfl⟩
      · exact Nat.le_succ_of_le (h.le _ _ h1)
      · exact Nat.le_refl _
    · rw [e2, e3]; exact h.idxLe
    · rw [e3]; exact h.idxInj
    · intro n c hc
      rw [hcomp] at hc
      rcases look_snoc_inv hc with hc | ⟨rfl, _⟩
      · obtain ⟨l, hl⟩ := h.labelled n c hc
        exact ⟨l, by rw [hfind]; exact old hl⟩
      · exact ⟨_, hnew⟩
    · intro s' n c h1 hc
      rw [hfind] at h1
      rw [hcomp] at hc
      rcases inv h1 with h1 | ⟨h1, _⟩
      · rcases look_snoc_inv hc with hc | ⟨rfl, _⟩
        · exact h.isCls _ _ _ h1 hc
        · exact absurd h1 (hfr _)
      · cases h1
    · intro k' i' n h1
      have h0 := h1
      rw [hfind] at h1
      rcases inv h1 with h1 | ⟨hq, rfl⟩
      · obtain ⟨ids', h2, h3, h4⟩ := h.isLogic _ _ _ h1
        have hne : n ≠ u.next + 1 := fun he => hfr _ (he ▸ h1)
        refine ⟨ids', by rw [hcomp]; exact look_snoc_old h2, by rw [e3]; exact h3, ?_⟩
        rw [hfrom, if_neg hne, List.append_nil, h4]
      · cases hq
        exact ⟨ids, hcnew, by rw [e3]; exact hi, hfnew⟩
    · intro l hl
      rw [e7] at hl
      rcases List.mem_append.1 hl with hl | hl
      · obtain ⟨⟨x, hx⟩, ⟨y, hy⟩⟩ := h.ends l hl
        exact ⟨⟨x, by rw [hfind]; exact old hx⟩, ⟨y, by rw [hfind]; exact old hy⟩⟩
      · obtain ⟨m, hm, rfl⟩ := List.mem_map.1 hl
        obtain ⟨x, hx⟩ := hids m hm
        exact ⟨⟨_, hnew⟩, ⟨x, by rw [hfind]; exact old hx⟩⟩
    · intro a b
      rw [e8, e7]
      show (a, b) ∈ u.outgoing ∨ _ ↔ ∃ l ∈ u.links ++ _, _
      rw [h.out]
      constructor
      · rintro (⟨l, hl, h1⟩ | ⟨m, hm, h1⟩)
        · exact ⟨l, List.mem_append.2 (.inl hl), h1⟩
        · cases h1
          exact ⟨_, List.mem_append.2 (.inr (List.mem_map.2 ⟨b, hm, rfl⟩)), rfl, rfl⟩
      · rintro ⟨l, hl, h1, h2⟩
        rcases List.mem_append.1 hl with hl | hl
        · exact .inl ⟨l, hl, h1, h2⟩
        · obtain ⟨m, hm, rfl⟩ := List.mem_map.1 hl
          exact .inr ⟨m, hm, by rw [← h1, ← h2]⟩
    · intro a b
      rw [e9, e7]
      show (b, a) ∈ u.incoming ∨ _ ↔ ∃ l ∈ u.links ++ _, _
      rw [h.inc]
      constructor
      · rintro (⟨l, hl, h1⟩ | ⟨m, hm, h1⟩)
        · exact ⟨l, List.mem_append.2 (.inl hl), h1⟩
        · cases h1
          exact ⟨_, List.mem_append.2 (.inr (List.mem_map.2 ⟨b, hm, rfl⟩)), rfl, rfl⟩
      · rintro ⟨l, hl, h1, h2⟩
        rcases List.mem_append.1 hl with hl | hl
        · exact .inl ⟨l, hl, h1, h2⟩
        · obtain ⟨m, hm, rfl⟩ := List.mem_map.1 hl
          exact .inr ⟨m, hm, by rw [← h1, ← h2]⟩
    · intro l n hl
      rw [hfind]; exact old hl
    · intro n c hc
      rw [hcomp]; exact look_snoc_old hc
    · intro n hn
      have hne : n ≠ u.next + 1 := fun he => hn _ _ (he ▸ hnew)
      rw [hfrom, if_neg hne]; simp
    · intro n k' ids' hc
      have hne : n ≠ u.next + 1 := by
        intro he
        rw [he, cn] at hc; cases hc
      rw [hfrom, if_neg hne, List.append_nil]
    · intro a b
      rw [e6]; simp
    · intro l n h1
      rw [hfind] at h1
      rcases inv h1 with h1 | ⟨h1, _⟩
      · exact .inl h1
      · exact .inr (List.mem_singleton.2 h1)
    · intro n c hc
      rw [hcomp] at hc
      rcases look_snoc_inv hc with hc | ⟨_, hq⟩
      · exact .inl hc
      · cases hq

/-! ## Extended classes -/

theorem addExt_step {cur : Nat} {u : St} (h : u.WF) (m : Nat) : Step cur u (u.addExt cur m) [] [m] [] [] := by
  refine ⟨⟨h.inj, h.le, h.idxLe, h.idxInj, h.labelled, h.isCls, h.isLogic, h.ends, h.out, h.inc⟩, fun _ _ h => h,
    fun _ _ h => h, ?_, fun _ _ _ _ => rfl, ?_, fun _ _ h => .inl h, fun _ _ h => .inl h⟩
  · intro n _; simp [St.from, St.addExt]
  · intro a b
    simp only [St.addExt, mem_sinsert, Prod.mk.injEq, List.mem_singleton]

/-- Setting the component of a class keeps everything but the component. -/
theorem compSet_wf {u v : St} (h : u.WF) {s : Str} {n : Nat} (hn : u.find (.cls s) = some n) (c : Cls)
    (hv : v = { u with comps := v.comps }) (hc : ∀ m, v.comp m = if m = n then some (.cls c) else u.comp m) :
    v.WF := by
  have hl : v.labels = u.labels := by rw [hv]
  have hfind : ∀ l, v.find l = u.find l := by intro l; rw [St.find, hl]; rfl
  have hfrom : ∀ m, v.from m = u.from m := by intro m; rw [hv]; rfl
  have hlinks : v.links = u.links := by rw [hv]
  have hlog : v.logical = u.logical := by rw [hv]
  refine ⟨?_, ?_, ?_, ?_, ?_, ?_, ?_, ?_, ?_, ?_⟩
  · intro l l' m h1 h2
    rw [hfind] at h1 h2
    exact h.inj _ _ _ h1 h2
  · intro l m h1
    rw [hfind] at h1
    have : v.next = u.next := by rw [hv]
    rw [this]; exact h.le _ _ h1
  · have : v.nextLogic = u.nextLogic := by rw [hv]
    rw [hlog, this]; exact h.idxLe
  · rw [hlog]; exact h.idxInj
  · intro m d hd
    rw [hc] at hd
    by_cases hm : m = n
    · subst hm; exact ⟨_, by rw [hfind]; exact hn⟩
    · rw [if_neg hm] at hd
      obtain ⟨l, hl⟩ := h.labelled _ _ hd
      exact ⟨l, by rw [hfind]; exact hl⟩
  · intro s' m d h1 hd
    rw [hc] at hd
    rw [hfind] at h1
    by_cases hm : m = n
    · rw [if_pos hm] at hd
      exact ⟨c, (Option.some.inj hd).symm⟩
    · rw [if_neg hm] at hd
      exact h.isCls _ _ _ h1 hd
  · intro k i m h1
    rw [hfind] at h1
    have hm : m ≠ n := by
      intro he
      subst he
      cases h.inj _ _ _ h1 hn
    rw [hc, if_neg hm, hlog, hfrom]
    exact h.isLogic _ _ _ h1
  · intro l hl
    rw [hlinks] at hl
    simp only [hfind]
    exact h.ends l hl
  · have : v.outgoing = u.outgoing := by rw [hv]
    rw [this, hlinks]; exact h.out
  · have : v.incoming = u.incoming := by rw [hv]
    rw [this, hlinks]; exact h.inc

theorem addComp_step {cur : Nat} {u : St} (h : u.WF) {s : Str} {n : Nat} (hn : u.find (.cls s) = some n) (c : Cls)
    (hc : u.comp n = none) : ∃ v, u.addComp n (.cls c) = .ok v ∧ Step cur u v [] [] [] [(n, c)] := by
  have hcm : ∀ m, St.comp { u with comps := u.comps ++ [(n, Comp.cls c)] } m =
      if m = n then some (.cls c) else u.comp m := by
    intro m
    show alookup m (u.comps ++ [(n, Comp.cls c)]) = _
    by_cases hm : m = n
    · subst hm; rw [if_pos rfl]; exact look_snoc_new hc
    · rw [if_neg hm, look_snoc]
      have : ¬ n = m := fun h => hm h.symm
      rw [if_neg this, Option.or_none]; rfl
  refine ⟨{ u with comps := u.comps ++ [(n, .cls c)] }, ?_, ?_⟩
  · rw [St.addComp, hc]
  · refine ⟨compSet_wf h hn c rfl hcm, fun _ _ h => h, ?_, ?_, fun _ _ _ _ => rfl, ?_, fun _ _ h => .inl h, ?_⟩
    · intro m d hd
      rw [hcm]
      by_cases hm : m = n
      · rw [hm, hc] at hd; cases hd
      · rw [if_neg hm]; exact hd
    · intro m _; simp [St.from]
    · intro a b; simp
    · intro m d hd
      rw [hcm] at hd
      by_cases hm : m = n
      · rw [if_pos hm] at hd
        cases hd
        exact .inr (List.mem_singleton.2 (by rw [hm]))
      · rw [if_neg hm] at hd
        exact .inl hd

theorem comp_setComp (u : St) (n m : Nat) (c : Comp) :
    (u.setComp n c).comp m = if m = n then some c else u.comp m := by
  show alookup m (upsert n c (fun _ => c) u.comps) = _
  rw [alookup_upsert]; rfl

end Uml
