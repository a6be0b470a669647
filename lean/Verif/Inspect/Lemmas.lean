import Verif.Inspect.Spec
import Mathlib.Data.List.Nodup

/-! # Lemmas about information about a node -/

namespace Inspect

open List (Forall₂)

section
variable {α β γ : Type}

theorem bind_ok {x : Out α} {f : α → Out β} {b : β} :
    x.bind f = .ok b ↔ ∃ a, x = .ok a ∧ f a = .ok b := by
  cases x <;> simp [Out.bind]

theorem all_ok {f : α → Out β} {l : List α} {r : List β} :
    Out.all f l = .ok r ↔ Forall₂ (fun a b => f a = .ok b) l r := by
  induction l generalizing r with
  | nil =>
    simp only [Out.all, Out.ok.injEq, List.forall₂_nil_left_iff]
    exact ⟨fun h => h.symm, fun h => h.symm⟩
  | cons a l ih =>
    simp only [Out.all, bind_ok, ih, Out.ok.injEq]
    constructor
    · rintro ⟨b, h1, bs, h2, rfl⟩
      exact .cons h1 h2
    · intro h
      cases h with
      | cons h1 h2 => exact ⟨_, h1, _, h2, rfl⟩

theorem all_total {f : α → Out β} {l : List α} (h : ∀ a ∈ l, ∃ b, f a = .ok b) :
    ∃ r, Out.all f l = .ok r := by
  induction l with
  | nil => exact ⟨[], rfl⟩
  | cons a l ih =>
    obtain ⟨b, hb⟩ := h a (by simp)
    obtain ⟨bs, hbs⟩ := ih fun c hc => h c (by simp [hc])
    exact ⟨b :: bs, by simp [Out.all, hb, hbs, Out.bind]⟩

theorem forall₂_flatten {R : α → List β → Prop} {S : γ → β → Prop} {g : α → List γ} {l : List α}
    {r : List (List β)} (h : Forall₂ R l r) (hs : ∀ a b, a ∈ l → R a b → Forall₂ S (g a) b) :
    Forall₂ S (l.flatMap g) r.flatten := by
  induction h with
  | nil => exact .nil
  | cons h1 h2 ih =>
    simp only [List.flatMap_cons, List.flatten_cons]
    exact List.rel_append (hs _ _ (by simp) h1) (ih fun a b ha => hs a b (by simp [ha]))

end

variable {T P : Type} [DecidableEq T] [DecidableEq P]

/-! ## Sorting -/

theorem insertP_perm (le : P → P → Bool) (p : P) (l : List P) : (insertP le p l).Perm (p :: l) := by
  induction l with
  | nil => exact .refl _
  | cons q l ih =>
    simp only [insertP]
    split
    · exact .refl _
    · exact (ih.cons q).trans (.swap p q l)

theorem sortP_perm (le : P → P → Bool) (l : List P) : (sortP le l).Perm l := by
  induction l with
  | nil => exact .refl _
  | cons q l ih => exact (insertP_perm le q _).trans (ih.cons q)

theorem insertP_sorted {D : Data T P} (hD : Sane D) (p : P) (l : List P)
    (h : l.Pairwise fun a b => D.le a b = true) :
    (insertP D.le p l).Pairwise fun a b => D.le a b = true := by
  induction l with
  | nil => simp [insertP]
  | cons q l ih =>
    rw [List.pairwise_cons] at h
    simp only [insertP]
    split
    · rename_i hpq
      rw [List.pairwise_cons, List.pairwise_cons]
      refine ⟨fun x hx => ?_, h⟩
      rcases List.mem_cons.mp hx with rfl | hx
      · exact hpq
      · exact hD.trans _ _ _ hpq (h.1 x hx)
    · rename_i hpq
      rw [List.pairwise_cons]
      refine ⟨fun x hx => ?_, ih h.2⟩
      rcases List.mem_cons.mp ((insertP_perm D.le p l).mem_iff.mp hx) with rfl | hx
      · exact (hD.total _ _).resolve_left hpq
      · exact h.1 x hx

theorem sortP_sorted {D : Data T P} (hD : Sane D) (l : List P) :
    (sortP D.le l).Pairwise fun a b => D.le a b = true := by
  induction l with
  | nil => exact .nil
  | cons p l ih => exact insertP_sorted hD p _ ih

/-! ## Arcs -/

/-- The map has the arcs of a relation. -/
structure Has (m : List (P × List T)) (E : P → T → Prop) : Prop where
  keys : (m.map Prod.fst).Nodup
  sets : ∀ e ∈ m, e.2.Nodup
  arcs : ∀ p o, (∃ os, (p, os) ∈ m ∧ o ∈ os) ↔ E p o

theorem insArc_keys (m : List (P × List T)) (p : P) (o : T) (q : P) :
    q ∈ (insArc m p o).map Prod.fst ↔ q ∈ m.map Prod.fst ∨ q = p := by
  induction m with
  | nil => simp [insArc]
  | cons e m ih =>
    obtain ⟨r, os⟩ := e
    simp only [insArc]
    split
    · rename_i h
      subst h
      simp only [List.map_cons, List.mem_cons]
      tauto
    · simp only [List.map_cons, List.mem_cons, ih]
      tauto

theorem insArc_has {m : List (P × List T)} {E : P → T → Prop} (h : Has m E) (p : P) (o : T) :
    Has (insArc m p o) (fun q x => E q x ∨ (q = p ∧ x = o)) := by
  induction m generalizing E with
  | nil =>
    have hE : ∀ q x, ¬ E q x := fun q x hq => by
      have := (h.arcs q x).mpr hq
      simp at this
    refine ⟨by simp [insArc], by simp [insArc], fun q x => ?_⟩
    simp only [insArc, List.mem_singleton, Prod.mk.injEq, hE, false_or]
    constructor
    · rintro ⟨os, ⟨rfl, rfl⟩, h2⟩
      exact ⟨rfl, by simpa using h2⟩
    · rintro ⟨rfl, rfl⟩
      exact ⟨[_], ⟨rfl, rfl⟩, by simp⟩
  | cons e m ih =>
    obtain ⟨r, os⟩ := e
    have hk := h.keys
    simp only [List.map_cons, List.nodup_cons] at hk
    have ht : Has m (fun q x => ∃ os, (q, os) ∈ m ∧ x ∈ os) :=
      ⟨hk.2, fun e he => h.sets e (by simp [he]), fun _ _ => Iff.rfl⟩
    have hE : ∀ q x, E q x ↔ (q = r ∧ x ∈ os) ∨ ∃ os, (q, os) ∈ m ∧ x ∈ os := by
      intro q x
      rw [← h.arcs]
      constructor
      · rintro ⟨os', h1, h2⟩
        rcases List.mem_cons.mp h1 with h1 | h1
        · cases h1; exact .inl ⟨rfl, h2⟩
        · exact .inr ⟨os', h1, h2⟩
      · rintro (⟨rfl, h2⟩ | ⟨os', h1, h2⟩)
        · exact ⟨os, by simp, h2⟩
        · exact ⟨os', by simp [h1], h2⟩
    simp only [insArc]
    split
    · rename_i hr
      subst hr
      refine ⟨h.keys, ?_, ?_⟩
      · intro e he
        rcases List.mem_cons.mp he with rfl | he
        · have h1 : os.Nodup := h.sets (r, os) (by simp)
          dsimp only
          split
          · exact h1
          · rename_i ho
            rw [List.nodup_append]
            refine ⟨h1, by simp, ?_⟩
            intro a ha b hb
            simp only [List.mem_singleton] at hb
            subst hb
            rintro rfl
            exact ho ha
        · exact h.sets e (by simp [he])
      · intro q x
        rw [hE]
        constructor
        · rintro ⟨os', h1, h2⟩
          rcases List.mem_cons.mp h1 with h1 | h1
          · cases h1
            by_cases ho : o ∈ os
            · rw [if_pos ho] at h2
              exact .inl (.inl ⟨rfl, h2⟩)
            · rw [if_neg ho] at h2
              rcases List.mem_append.mp h2 with h2 | h2
              · exact .inl (.inl ⟨rfl, h2⟩)
              · exact .inr ⟨rfl, by simpa using h2⟩
          · exact .inl (.inr ⟨os', h1, h2⟩)
        · rintro ((⟨rfl, h2⟩ | ⟨os', h1, h2⟩) | ⟨rfl, rfl⟩)
          · refine ⟨_, List.mem_cons_self, ?_⟩
            split
            · exact h2
            · simp [h2]
          · exact ⟨os', by simp [h1], h2⟩
          · refine ⟨_, List.mem_cons_self, ?_⟩
            split
            · assumption
            · simp
    · rename_i hr
      have hi := ih ht
      refine ⟨?_, ?_, ?_⟩
      · simp only [List.map_cons, List.nodup_cons]
        refine ⟨?_, hi.keys⟩
        rw [insArc_keys]
        rintro (h1 | h1)
        · exact hk.1 h1
        · exact hr h1
      · intro e he
        rcases List.mem_cons.mp he with rfl | he
        · exact h.sets _ (by simp)
        · exact hi.sets e he
      · intro q x
        rw [hE]
        constructor
        · rintro ⟨os', h1, h2⟩
          rcases List.mem_cons.mp h1 with h1 | h1
          · cases h1
            exact .inl (.inl ⟨rfl, h2⟩)
          · rcases (hi.arcs q x).mp ⟨os', h1, h2⟩ with h3 | h3
            · exact .inl (.inr h3)
            · exact .inr h3
        · rintro ((⟨rfl, h2⟩ | h2) | h2)
          · exact ⟨os, by simp, h2⟩
          · obtain ⟨os', h3, h4⟩ := (hi.arcs q x).mpr (.inl h2)
            exact ⟨os', by simp [h3], h4⟩
          · obtain ⟨os', h3, h4⟩ := (hi.arcs q x).mpr (.inr h2)
            exact ⟨os', by simp [h3], h4⟩

theorem Has.congr {m : List (P × List T)} {E F : P → T → Prop} (h : Has m E)
    (hEF : ∀ p o, E p o ↔ F p o) : Has m F :=
  ⟨h.keys, h.sets, fun p o => (h.arcs p o).trans (hEF p o)⟩

theorem has_nil : Has ([] : List (P × List T)) (fun _ _ => False) :=
  ⟨by simp, by simp, by simp⟩

theorem fold_has {τ : Type} (pred : τ → P) (term : τ → T) (ok : τ → Prop) [DecidablePred ok]
    (ts : List τ) (m : List (P × List T)) (E : P → T → Prop) (h : Has m E) :
    Has (ts.foldl (fun m t => if ok t then insArc m (pred t) (term t) else m) m)
      (fun p o => E p o ∨ ∃ t ∈ ts, ok t ∧ pred t = p ∧ term t = o) := by
  induction ts generalizing m E with
  | nil => exact h.congr fun p o => by simp
  | cons t ts ih =>
    simp only [List.foldl_cons]
    by_cases ht : ok t
    · rw [if_pos ht]
      refine (ih _ _ (insArc_has h (pred t) (term t))).congr fun p o => ?_
      simp only [List.mem_cons, exists_eq_or_imp, ht, true_and]
      constructor
      · rintro ((h1 | ⟨rfl, rfl⟩) | h1)
        · exact .inl h1
        · exact .inr (.inl ⟨rfl, rfl⟩)
        · exact .inr (.inr h1)
      · rintro (h1 | ⟨rfl, rfl⟩ | h1)
        · exact .inl (.inl h1)
        · exact .inl (.inr ⟨rfl, rfl⟩)
        · exact .inr h1
    · rw [if_neg ht]
      refine (ih _ _ h).congr fun p o => ?_
      simp only [List.mem_cons, exists_eq_or_imp, ht, false_and, false_or]

theorem outgoingFrom_has (D : Data T P) (s : T) (ps : List P) :
    Has (outgoingFrom D s ps) (fun p o => (s, p, o) ∈ D.triples ∧ p ∈ ps) := by
  refine (fold_has (fun t : T × P × T => t.2.1) (fun t => t.2.2) (fun t => t.2.1 ∈ ps)
    (D.triples.filter fun t => t.1 = s) [] _ has_nil).congr fun p o => ?_
  simp only [List.mem_filter, decide_eq_true_eq, false_or]
  constructor
  · rintro ⟨⟨a, b, c⟩, ⟨h1, rfl⟩, h2, rfl, rfl⟩
    exact ⟨h1, h2⟩
  · rintro ⟨h1, h2⟩
    exact ⟨(s, p, o), ⟨h1, rfl⟩, h2, rfl, rfl⟩

theorem outgoingArcs_has (D : Data T P) (s : T) :
    Has (outgoingArcs D s) (fun p o => (s, p, o) ∈ D.triples) := by
  have h := fold_has (fun t : T × P × T => t.2.1) (fun t => t.2.2) (fun _ => True)
    (D.triples.filter fun t => t.1 = s) [] _ has_nil
  simp only [if_true] at h
  refine h.congr fun p o => ?_
  simp only [List.mem_filter, decide_eq_true_eq, false_or, true_and]
  constructor
  · rintro ⟨⟨a, b, c⟩, ⟨h1, rfl⟩, rfl, rfl⟩
    exact h1
  · intro h1
    exact ⟨(s, p, o), ⟨h1, rfl⟩, rfl, rfl⟩

theorem incomingArcs_has (D : Data T P) (o : T) : Has (incomingArcs D o) (Reaches D o) := by
  have h := fold_has (fun t : T × P × T => t.2.1) (fun t => t.1) (fun _ => True)
    (D.triples.filter fun t => t.2.2 = o) [] _ has_nil
  simp only [if_true] at h
  refine h.congr fun p s => ?_
  simp only [List.mem_filter, decide_eq_true_eq, false_or, true_and, Reaches]
  constructor
  · rintro ⟨⟨a, b, c⟩, ⟨h1, rfl⟩, rfl, rfl⟩
    exact h1
  · intro h1
    exact ⟨(s, p, o), ⟨h1, rfl⟩, rfl, rfl⟩

theorem predicates_ok {D : Data T P} {ps : List String} {is : List P} :
    predicates D ps = .ok is ↔ Forall₂ (fun t i => D.predicate t = some i) ps is := by
  unfold predicates
  rw [all_ok]
  refine iff_of_eq (congrArg (fun R => Forall₂ R ps is) ?_)
  funext a b
  cases D.predicate a <;> simp

theorem predicates_total {D : Data T P} {ps : List String} :
    (∃ is, predicates D ps = .ok is) ↔ ∀ t ∈ ps, (D.predicate t).isSome := by
  constructor
  · rintro ⟨is, h⟩ t ht
    rw [predicates_ok] at h
    induction h with
    | nil => cases ht
    | cons h1 h2 ih =>
      rcases List.mem_cons.mp ht with rfl | ht
      · simp [h1]
      · exact ih ht
  · intro h
    refine all_total fun t ht => ?_
    obtain ⟨i, hi⟩ := Option.isSome_iff_exists.mp (h t ht)
    exact ⟨i, by simp [hi]⟩

theorem predicates_mem {D : Data T P} {ps : List String} {is : List P}
    (h : predicates D ps = .ok is) (p : P) : p ∈ is ↔ ∃ t ∈ ps, D.predicate t = some p := by
  rw [predicates_ok] at h
  induction h with
  | nil => simp
  | cons h1 h2 ih =>
    simp only [List.mem_cons, ih, exists_eq_or_imp, h1, Option.some.injEq]
    exact or_congr_left eq_comm

theorem outArcs_has {D : Data T P} {ps : List String} {s : T} {m : List (P × List T)}
    (h : outArcs D ps s = .ok m) : Has m (Follows D (Asked D ps) s) := by
  unfold outArcs at h
  split at h
  · rename_i hp
    cases h
    refine (outgoingArcs_has D s).congr fun p o => ?_
    have : ps = [] := by simpa using hp
    simp [Follows, Asked, this]
  · rename_i hp
    rw [bind_ok] at h
    obtain ⟨is, h1, h2⟩ := h
    cases h2
    refine (outgoingFrom_has D s is).congr fun p o => ?_
    have hne : ps ≠ [] := by simpa using hp
    simp [Follows, Asked, hne, predicates_mem h1]

/-! ## Collecting and building -/

/-- What is below a node. -/
def below (D : Data T P) (sep : String) : (n : Nat) → Nd T P n → Out (List Tree)
  | 0, _ => .ok []
  | n + 1, x => build D sep n x.2

theorem build_eq (D : Data T P) (sep : String) (n : Nat) (m : List (P × List (Nd T P n))) :
    build D sep n m = (Out.all (fun p => Out.all (fun x : Nd T P n => match D.showT x.term with
      | some t => (below D sep n x).bind fun ks =>
          Out.ok (Tree.node (label sep (D.showP p) t) ks)
      | none => .err) ((m.lookup p).getD [])) (sortP D.le (m.map Prod.fst))).bind fun ts =>
        .ok ts.flatten := by
  cases n with
  | zero => rfl
  | succ n => rfl

/-- The arcs below a node were collected. -/
def Collected (D : Data T P) (arcs : T → Out (List (P × List T))) (goes : T → Bool) :
    (n : Nat) → Nd T P n → Prop
  | 0, _ => True
  | n + 1, x => if goes x.1 then collect D arcs goes n x.1 = .ok x.2 else x.2 = []

theorem collect_ok {D : Data T P} {arcs : T → Out (List (P × List T))} {goes : T → Bool} {n : Nat}
    {s : T} {m' : List (P × List (Nd T P n))} (h : collect D arcs goes n s = .ok m') :
    ∃ m, arcs s = .ok m ∧ Forall₂ (fun e e' => e'.1 = e.1 ∧
      Forall₂ (fun o (x : Nd T P n) => x.term = o ∧ Collected D arcs goes n x) (D.hash e.2) e'.2)
      m m' := by
  cases n with
  | zero =>
    simp only [collect, bind_ok, Out.ok.injEq] at h
    obtain ⟨m, h1, rfl⟩ := h
    refine ⟨m, h1, ?_⟩
    rw [List.forall₂_map_right_iff, List.forall₂_same]
    intro e _
    refine ⟨rfl, ?_⟩
    exact (List.forall₂_same (Rₐ := fun (o : T) (x : T) => x = o ∧ True)).mpr
      fun o _ => ⟨rfl, trivial⟩
  | succ n =>
    simp only [collect, bind_ok, all_ok] at h
    obtain ⟨m, h1, h2⟩ := h
    refine ⟨m, h1, h2.imp ?_⟩
    rintro e e' ⟨ns, h3, h4⟩
    cases h4
    refine ⟨rfl, h3.imp ?_⟩
    rintro o x ⟨r, h5, h6⟩
    cases h6
    refine ⟨rfl, ?_⟩
    unfold Collected
    by_cases hg : goes o
    · rw [if_pos hg] at h5
      simp only [hg, if_true]
      exact h5
    · rw [if_neg hg] at h5
      cases h5
      simp [hg]

theorem lookup_mem {α β : Type} [DecidableEq α] {m : List (α × β)} (h : (m.map Prod.fst).Nodup)
    {p : α} {x : β} : (p, x) ∈ m ↔ m.lookup p = some x := by
  induction m with
  | nil => simp
  | cons e m ih =>
    obtain ⟨q, y⟩ := e
    simp only [List.map_cons, List.nodup_cons] at h
    simp only [List.mem_cons, Prod.mk.injEq, List.lookup_cons]
    by_cases hp : p = q
    · subst hp
      simp only [true_and, beq_self_eq_true, Option.some.injEq]
      constructor
      · rintro (rfl | h1)
        · rfl
        · exact (h.1 (List.mem_map.mpr ⟨_, h1, rfl⟩)).elim
      · rintro rfl
        exact .inl rfl
    · have : (p == q) = false := by simpa using hp
      rw [this]
      simp only [hp, false_and, false_or]
      exact ih h.2

theorem forall₂_mem_right {α β : Type} {R : α → β → Prop} {l : List α} {r : List β}
    (h : Forall₂ R l r) {b : β} (hb : b ∈ r) : ∃ a ∈ l, R a b := by
  induction h with
  | nil => cases hb
  | cons h1 h2 ih =>
    rcases List.mem_cons.mp hb with rfl | hb
    · exact ⟨_, by simp, h1⟩
    · obtain ⟨a, ha, hr⟩ := ih hb
      exact ⟨a, by simp [ha], hr⟩

theorem forall₂_mem_left {α β : Type} {R : α → β → Prop} {l : List α} {r : List β}
    (h : Forall₂ R l r) {a : α} (ha : a ∈ l) : ∃ b ∈ r, R a b := by
  induction h with
  | nil => cases ha
  | cons h1 h2 ih =>
    rcases List.mem_cons.mp ha with rfl | ha
    · exact ⟨_, by simp, h1⟩
    · obtain ⟨b, hb, hr⟩ := ih ha
      exact ⟨b, by simp [hb], hr⟩

theorem forall₂_map_fst {α β γ : Type} {R : α × β → α × γ → Prop} {l : List (α × β)}
    {r : List (α × γ)} (h : Forall₂ R l r) (hR : ∀ a b, R a b → b.1 = a.1) :
    r.map Prod.fst = l.map Prod.fst := by
  induction h with
  | nil => rfl
  | cons h1 h2 ih => simp [hR _ _ h1, ih]

theorem forall₂_terms {n : Nat} {l : List T} {r : List (Nd T P n)} {Q : Nd T P n → Prop}
    (h : Forall₂ (fun o x => x.term = o ∧ Q x) l r) : r.map Nd.term = l := by
  induction h with
  | nil => rfl
  | cons h1 h2 ih => simp [h1.1, ih]

theorem build_nil (D : Data T P) (sep : String) (n : Nat) : build D sep n [] = .ok [] := by
  cases n <;> rfl

theorem shown_section {D : Data T P} (hD : Sane D) {sep : String}
    {arcs : T → Out (List (P × List T))} {goes : T → Bool} {line : P → T → String → Prop}
    {E : T → P → T → Prop}
    (hl : ∀ p o t, D.showT o = some t → line p o (label sep (D.showP p) t))
    (ha : ∀ s m, arcs s = .ok m → Has m (E s)) (hg : ∀ o, goes o = false → ∀ p x, ¬ E o p x)
    (n : Nat) (s : T) (m : List (P × List (Nd T P n))) (ts : List Tree)
    (hc : collect D arcs goes n s = .ok m) (hb : build D sep n m = .ok ts) :
    Shown D line E (n + 1) s ts := by
  induction n generalizing s ts with
  | zero =>
    exact shown_step hD hl ha hc hb fun x ts _ h => by
      cases h
      rfl
  | succ n ih =>
    refine shown_step hD hl ha hc hb fun x ts hx h => ?_
    change if goes x.1 then collect D arcs goes n x.1 = .ok x.2 else x.2 = [] at hx
    change build D sep n x.2 = .ok ts at h
    by_cases hgo : goes x.1
    · rw [if_pos hgo] at hx
      exact ih x.1 x.2 ts hx h
    · rw [if_neg hgo] at hx
      rw [hx, build_nil] at h
      cases h
      exact ⟨[], by simp, fun p o => by simp [Nd.term, hg x.1 (by simpa using hgo)], .nil, .nil⟩
where
  shown_step {D : Data T P} (hD : Sane D) {sep : String}
      {arcs : T → Out (List (P × List T))} {goes : T → Bool} {line : P → T → String → Prop}
      {E : T → P → T → Prop}
      (hl : ∀ p o t, D.showT o = some t → line p o (label sep (D.showP p) t))
      (ha : ∀ s m, arcs s = .ok m → Has m (E s)) {n : Nat} {s : T}
      {m' : List (P × List (Nd T P n))} {ts : List Tree} (hc : collect D arcs goes n s = .ok m')
      (hb : build D sep n m' = .ok ts)
      (hk : ∀ (x : Nd T P n) ts, Collected D arcs goes n x → below D sep n x = .ok ts →
        Shown D line E n x.term ts) : Shown D line E (n + 1) s ts := by
    obtain ⟨m, hm, hmm⟩ := collect_ok hc
    have hH := ha s m hm
    have hkeys : m'.map Prod.fst = m.map Prod.fst := forall₂_map_fst hmm fun a b h => h.1
    have hnd : (m'.map Prod.fst).Nodup := hkeys ▸ hH.keys
    rw [build_eq] at hb
    simp only [bind_ok, all_ok, Out.ok.injEq] at hb
    obtain ⟨tss, h1, rfl⟩ := hb
    let g : P → List (P × T) := fun p => ((m'.lookup p).getD []).map fun x => (p, x.term)
    have hsn : (sortP D.le (m'.map Prod.fst)).Nodup := (sortP_perm _ _).nodup_iff.mpr hnd
    -- the parts of the map
    have hpart : ∀ p ∈ m'.map Prod.fst, ∃ os, (p, os) ∈ m ∧
        Forall₂ (fun o (x : Nd T P n) => x.term = o ∧ Collected D arcs goes n x) (D.hash os)
          ((m'.lookup p).getD []) := by
      intro p hp
      obtain ⟨e', he', rfl⟩ := List.mem_map.mp hp
      obtain ⟨e, he, h2, h3⟩ := forall₂_mem_right hmm he'
      refine ⟨e.2, ?_, ?_⟩
      · rw [h2]; exact he
      · have : m'.lookup e'.1 = some e'.2 := (lookup_mem hnd).mp he'
        rw [this]
        exact h3
    refine ⟨(sortP D.le (m'.map Prod.fst)).flatMap g, ?_, ?_, ?_, ?_⟩
    · rw [List.Nodup, List.pairwise_flatMap]
      refine ⟨fun p hp => ?_, hsn.imp ?_⟩
      · obtain ⟨os, h2, h3⟩ := hpart p ((sortP_perm _ _).mem_iff.mp hp)
        have h4 := forall₂_terms h3
        have h5 : g p = (D.hash os).map fun o => (p, o) := by
          rw [← h4, List.map_map]
          rfl
        rw [h5]
        exact ((hD.hash os).nodup_iff.mpr (hH.sets _ h2)).map fun a b h => (Prod.mk.inj h).2
      · intro p q hpq x hx y hy
        obtain ⟨a, _, rfl⟩ := List.mem_map.mp hx
        obtain ⟨b, _, rfl⟩ := List.mem_map.mp hy
        intro h
        exact hpq (Prod.mk.inj h).1
    · intro p o
      rw [← hH.arcs, List.mem_flatMap]
      constructor
      · rintro ⟨q, hq, hx⟩
        obtain ⟨a, ha', h2⟩ := List.mem_map.mp hx
        cases h2
        obtain ⟨os, h3, h4⟩ := hpart p ((sortP_perm _ _).mem_iff.mp hq)
        refine ⟨os, h3, ?_⟩
        have h5 : a.term ∈ D.hash os := by
          rw [← forall₂_terms h4]
          exact List.mem_map.mpr ⟨a, ha', rfl⟩
        exact (hD.hash os).mem_iff.mp h5
      · rintro ⟨os, h2, h3⟩
        have hp : p ∈ m'.map Prod.fst := by
          rw [hkeys]
          exact List.mem_map.mpr ⟨_, h2, rfl⟩
        refine ⟨p, (sortP_perm _ _).mem_iff.mpr hp, ?_⟩
        obtain ⟨os', h4, h5⟩ := hpart p hp
        have h6 : os' = os := by
          have e1 := (lookup_mem hH.keys).mp h4
          have e2 := (lookup_mem hH.keys).mp h2
          rw [e1] at e2
          exact Option.some.inj e2
        subst h6
        have h7 : o ∈ ((m'.lookup p).getD []).map Nd.term := by
          rw [forall₂_terms h5]
          exact (hD.hash os').mem_iff.mpr h3
        obtain ⟨x, hx, rfl⟩ := List.mem_map.mp h7
        exact List.mem_map.mpr ⟨x, hx, rfl⟩
    · rw [List.pairwise_flatMap]
      refine ⟨fun p _ => ?_, (sortP_sorted hD _).imp ?_⟩
      · rw [List.pairwise_map]
        exact List.pairwise_of_forall fun _ _ => (or_self_iff.mp (hD.total p p))
      · intro p q hpq x hx y hy
        obtain ⟨a, _, rfl⟩ := List.mem_map.mp hx
        obtain ⟨b, _, rfl⟩ := List.mem_map.mp hy
        exact hpq
    · refine forall₂_flatten h1 fun p ps hp h2 => ?_
      obtain ⟨os, _, h4⟩ := hpart p ((sortP_perm _ _).mem_iff.mp hp)
      rw [List.forall₂_map_left_iff]
      have h6 : ∀ x ∈ (m'.lookup p).getD [], Collected D arcs goes n x := fun x hx => by
        obtain ⟨_, _, h⟩ := forall₂_mem_right h4 hx
        exact h.2
      clear h4
      generalize (m'.lookup p).getD [] = xs0 at h2 h6
      induction h2 with
      | nil => exact .nil
      | @cons x t xs ts' hx hxs ih =>
        refine .cons ?_ (ih fun y hy => h6 y (by simp [hy]))
        cases hs : D.showT x.term with
        | none => simp [hs] at hx
        | some name =>
          simp only [hs, bind_ok, Out.ok.injEq] at hx
          obtain ⟨ks, h7, rfl⟩ := hx
          exact ⟨_, ks, hl p x.term name hs, rfl, hk x ks (h6 x (by simp)) h7⟩

end Inspect
