import Verif.Inspect.Lemmas

/-! # Lemmas about walks, failures and texts of nodes -/

namespace Inspect

open List (Forall₂)

section
variable {T P : Type}

theorem branch_walk {D : Data T P} {line : P → T → String → Prop} {E : T → P → T → Prop}
    (hf : ∀ p o l l', line p o l → line p o l' → l = l') (n : Nat)
    (s : T) (ts : List Tree) (h : Shown D line E n s ts) (ls : List String) :
    Branch ts ls ↔ ∃ w, Walk E s w ∧ w.length ≤ n ∧ Forall₂ (fun e l => line e.1 e.2 l) w ls := by
  induction n generalizing s ts ls with
  | zero =>
    have h' : ts = [] := h
    subst h'
    constructor
    · intro hb
      cases hb with
      | nil => exact ⟨[], .nil s, by simp, .nil⟩
      | cons _ _ _ _ hm => cases hm
    · rintro ⟨w, _, h2, h3⟩
      have : w = [] := by simpa using h2
      subst this
      cases h3
      exact .nil _
  | succ n ih =>
    obtain ⟨L, _, h2, _, h4⟩ := h
    constructor
    · intro hb
      cases hb with
      | nil => exact ⟨[], .nil s, by simp, .nil⟩
      | cons _ l kids ls' hm hk =>
        obtain ⟨⟨p, o⟩, he, l', kids', h5, h6, h7⟩ := forall₂_mem_right h4 hm
        cases h6
        obtain ⟨w, h8, h9, h10⟩ := (ih o kids h7 ls').mp hk
        exact ⟨(p, o) :: w, .cons s p o w ((h2 p o).mp he) h8, by simpa using h9, .cons h5 h10⟩
    · rintro ⟨w, h5, h6, h7⟩
      cases h5 with
      | nil =>
        cases h7
        exact .nil _
      | cons _ p o w hE hw =>
        cases h7 with
        | @cons _ l _ ls' hl hls =>
          obtain ⟨t, ht, l', kids, h8, h9, h10⟩ := forall₂_mem_left h4 ((h2 p o).mpr hE)
          have : l' = l := hf p o l' l h8 hl
          subst this
          subst h9
          exact .cons _ _ _ _ ht ((ih o kids h10 ls').mpr ⟨w, hw, by simpa using h6, hls⟩)

theorem outLine_unique (D : Data T P) (p : P) (o : T) (l l' : String) (h : outLine D p o l)
    (h' : outLine D p o l') : l = l' := by
  obtain ⟨t, h1, rfl⟩ := h
  obtain ⟨t', h2, rfl⟩ := h'
  rw [h1] at h2
  cases h2
  rfl

theorem inLine_unique (D : Data T P) (p : P) (o : T) (l l' : String) (h : inLine D p o l)
    (h' : inLine D p o l') : l = l' := by
  obtain ⟨t, h1, rfl⟩ := h
  obtain ⟨t', h2, rfl⟩ := h'
  rw [h1] at h2
  cases h2
  rfl

theorem label_out (p t : String) : label "─►" p t = "─ " ++ p ++ " ─► " ++ t := by
  unfold label
  simp only [String.append_assoc]
  rfl

theorem label_in (p t : String) : label "──" p t = "─ " ++ p ++ " ── " ++ t := by
  unfold label
  simp only [String.append_assoc]
  rfl

end

variable {T P : Type} [DecidableEq T] [DecidableEq P]

/-! ## What succeeds -/

omit [DecidableEq T] [DecidableEq P] in
theorem bind_some_ok {α β : Type} (a : α) (f : α → Out β) : (Out.ok a).bind f = f a := rfl

theorem collect_total {D : Data T P} {arcs : T → Out (List (P × List T))} {goes : T → Bool}
    (h : ∀ s, ∃ m, arcs s = .ok m) (n : Nat) (s : T) : ∃ m, collect D arcs goes n s = .ok m := by
  induction n generalizing s with
  | zero =>
    obtain ⟨m, hm⟩ := h s
    exact ⟨_, by simp only [collect, hm, Out.bind]; rfl⟩
  | succ n ih =>
    obtain ⟨m, hm⟩ := h s
    simp only [collect, hm, bind_some_ok]
    refine all_total fun e _ => ?_
    have : ∃ ns, Out.all (fun o => (if goes o then collect D arcs goes n o else .ok []).bind
        fun r => (.ok (o, r) : Out (Nd T P (n + 1)))) (D.hash e.2) = .ok ns := by
      refine all_total fun o _ => ?_
      by_cases hg : goes o
      · obtain ⟨r, hr⟩ := ih o
        exact ⟨(o, r), by simp [hg, hr, Out.bind]⟩
      · exact ⟨(o, []), by simp [hg, Out.bind]⟩
    obtain ⟨ns, hns⟩ := this
    exact ⟨(e.1, ns), by rw [hns]; rfl⟩

theorem build_total {D : Data T P} (hs : ∀ t, (D.showT t).isSome) (sep : String) (n : Nat)
    (m : List (P × List (Nd T P n))) : ∃ ts, build D sep n m = .ok ts := by
  induction n with
  | zero =>
    rw [build_eq]
    exact step hs sep 0 m fun x => ⟨[], rfl⟩
  | succ n ih =>
    rw [build_eq]
    exact step hs sep (n + 1) m fun x => ih x.2
where
  step {D : Data T P} (hs : ∀ t, (D.showT t).isSome) (sep : String) (n : Nat)
      (m : List (P × List (Nd T P n))) (hb : ∀ x, ∃ ts, below D sep n x = .ok ts) :
      ∃ ts, ((Out.all (fun p => Out.all (fun x : Nd T P n => match D.showT x.term with
      | some t => (below D sep n x).bind fun ks =>
          Out.ok (Tree.node (label sep (D.showP p) t) ks)
      | none => .err) ((m.lookup p).getD [])) (sortP D.le (m.map Prod.fst))).bind fun ts =>
        Out.ok ts.flatten) = .ok ts := by
    simp only [bind_ok]
    have := all_total (f := fun p => Out.all (fun x : Nd T P n => match D.showT x.term with
      | some t => (below D sep n x).bind fun ks =>
          Out.ok (Tree.node (label sep (D.showP p) t) ks)
      | none => .err) ((m.lookup p).getD [])) (l := sortP D.le (m.map Prod.fst)) fun p _ => by
        refine all_total fun x _ => ?_
        obtain ⟨t, ht⟩ := Option.isSome_iff_exists.mp (hs x.term)
        obtain ⟨ks, hks⟩ := hb x
        exact ⟨Tree.node (label sep (D.showP p) t) ks, by simp only [ht, hks, Out.bind]⟩
    obtain ⟨tss, h⟩ := this
    exact ⟨tss.flatten, tss, h, rfl⟩

theorem outArcs_total {D : Data T P} {ps : List String} (s : T) :
    (∃ m, outArcs D ps s = .ok m) ↔ ∀ t ∈ ps, (D.predicate t).isSome := by
  unfold outArcs
  cases ps with
  | nil => simp
  | cons t ps =>
    rw [← predicates_total]
    simp only [List.isEmpty_cons, Bool.false_eq_true, if_false, bind_ok]
    constructor
    · rintro ⟨m, is, h, _⟩
      exact ⟨is, h⟩
    · rintro ⟨is, h⟩
      exact ⟨_, is, h, rfl⟩

theorem section_total {D : Data T P} (hs : ∀ t, (D.showT t).isSome) (sep : String)
    {arcs : T → Out (List (P × List T))} (goes : T → Bool) (h : ∀ s, ∃ m, arcs s = .ok m) (n : Nat)
    (s : T) : ∃ ts, section' D sep arcs goes (n + 1) s = .ok ts := by
  obtain ⟨m, hm⟩ := collect_total (D := D) (goes := goes) h n s
  obtain ⟨ts, hts⟩ := build_total hs sep n m
  exact ⟨ts, by simp only [section', hm, Out.bind, hts]⟩

theorem section_arcs {D : Data T P} {sep : String} {arcs : T → Out (List (P × List T))}
    {goes : T → Bool} {n : Nat} {s : T} {ts : List Tree}
    (h : section' D sep arcs goes (n + 1) s = .ok ts) : ∃ m, arcs s = .ok m := by
  simp only [section', bind_ok] at h
  obtain ⟨m', h1, _⟩ := h
  obtain ⟨m, hm, _⟩ := collect_ok h1
  exact ⟨m, hm⟩

/-! ## What panics -/

section
variable {α β : Type}

theorem bind_calm {x : Out α} {f : α → Out β} (hx : x ≠ .panic) (hf : ∀ a, f a ≠ .panic) :
    x.bind f ≠ .panic := by
  cases x with
  | ok a => exact hf a
  | err => simp [Out.bind]
  | panic => exact (hx rfl).elim

theorem all_calm {f : α → Out β} {l : List α} (hf : ∀ a, f a ≠ .panic) : Out.all f l ≠ .panic := by
  induction l with
  | nil => simp [Out.all]
  | cons a l ih =>
    exact bind_calm (hf a) fun b => bind_calm ih fun bs => by simp

end

theorem build_calm (D : Data T P) (sep : String) (n : Nat) (m : List (P × List (Nd T P n))) :
    build D sep n m ≠ .panic := by
  induction n with
  | zero =>
    rw [build_eq]
    refine bind_calm (all_calm fun p => all_calm fun x => ?_) fun _ => by simp
    split
    · simp [below, Out.bind]
    · simp
  | succ n ih =>
    rw [build_eq]
    refine bind_calm (all_calm fun p => all_calm fun x => ?_) fun _ => by simp
    split
    · exact bind_calm (ih x.2) fun _ => by simp
    · simp

theorem collect_calm {D : Data T P} {arcs : T → Out (List (P × List T))} {goes : T → Bool}
    (h : ∀ s, arcs s ≠ .panic) (n : Nat) (s : T) : collect D arcs goes n s ≠ .panic := by
  induction n generalizing s with
  | zero => exact bind_calm (h s) fun _ => by simp
  | succ n ih =>
    refine bind_calm (h s) fun m => all_calm fun e => bind_calm (all_calm fun o => ?_) fun _ => by
      simp
    refine bind_calm ?_ fun _ => by simp
    split
    · exact ih o
    · simp

theorem outArcs_calm (D : Data T P) (ps : List String) (s : T) : outArcs D ps s ≠ .panic := by
  unfold outArcs
  split
  · simp
  · refine bind_calm (all_calm fun t => ?_) fun _ => by simp
    cases D.predicate t <;> simp

theorem section_calm {D : Data T P} {sep : String} {arcs : T → Out (List (P × List T))}
    {goes : T → Bool} (h : ∀ s, arcs s ≠ .panic) (n : Nat) (s : T) :
    section' D sep arcs goes (n + 1) s ≠ .panic :=
  bind_calm (collect_calm h n s) fun m => build_calm D sep n m

/-- With depth zero. -/
theorem section_zero {D : Data T P} (hs : ∀ t, (D.showT t).isSome) (sep : String)
    {arcs : T → Out (List (P × List T))} {goes : T → Bool} {E : P → T → Prop} {s : T}
    {m : List (P × List T)} (hm : arcs s = .ok m) (hE : Has m E) :
    (section' D sep arcs goes 0 s = .panic ↔ ∃ p o, E p o ∧ goes o = true) ∧
    (section' D sep arcs goes 0 s ≠ .panic → ∃ ts, section' D sep arcs goes 0 s = .ok ts) := by
  have hany : (m.any fun e => e.2.any goes) = true ↔ ∃ p o, E p o ∧ goes o = true := by
    simp only [List.any_eq_true]
    constructor
    · rintro ⟨⟨p, os⟩, h1, o, h2, h3⟩
      exact ⟨p, o, (hE.arcs p o).mp ⟨os, h1, h2⟩, h3⟩
    · rintro ⟨p, o, h1, h2⟩
      obtain ⟨os, h3, h4⟩ := (hE.arcs p o).mpr h1
      exact ⟨(p, os), h3, o, h4, h2⟩
  rw [← hany]
  simp only [section', collectZero, hm, Out.bind]
  by_cases h : (m.any fun e => e.2.any goes) = true
  · simp [h]
  · rw [if_neg h]
    simp only [Bool.not_eq_true] at h
    simp only [h, Bool.false_eq_true, iff_false]
    exact ⟨build_calm D sep 0 _, fun _ => build_total hs sep 0 _⟩

/-! ## Texts of nodes -/

theorem contains_iff (w s : List Char) : contains w s = true ↔ w <:+: s := by
  induction s with
  | nil => simp [contains, List.infix_nil]
  | cons c s ih =>
    simp only [contains, Bool.or_eq_true, ih, List.infix_cons_iff, List.isPrefixOf_iff_prefix]

theorem dropWhile_split {α : Type} (f : α → Bool) (s : List α) :
    ∃ a, s = a ++ s.dropWhile f ∧ (∀ c ∈ a, f c = true) ∧
      ∀ c, (s.dropWhile f).head? = some c → f c = false := by
  induction s with
  | nil => exact ⟨[], by simp⟩
  | cons c s ih =>
    by_cases h : f c
    · obtain ⟨a, h1, h2, h3⟩ := ih
      refine ⟨c :: a, ?_, ?_, ?_⟩
      · simp only [List.dropWhile_cons, h, if_true, List.cons_append]
        exact congrArg _ h1
      · intro d hd
        rcases List.mem_cons.mp hd with rfl | hd
        · exact h
        · exact h2 d hd
      · simpa [List.dropWhile_cons, h] using h3
    · refine ⟨[], by simp [List.dropWhile_cons, h], by simp, ?_⟩
      simp [List.dropWhile_cons, h]

theorem trim_spec (space : Char → Bool) (s : List Char) :
    ∃ a b, s = a ++ trim space s ++ b ∧ (∀ c ∈ a ++ b, space c = true) ∧
      (∀ c, (trim space s).head? = some c → space c = false) ∧
      (∀ c, (trim space s).getLast? = some c → space c = false) := by
  obtain ⟨a, h1, h2, h3⟩ := dropWhile_split space s
  obtain ⟨b, h4, h5, h6⟩ := dropWhile_split space (s.dropWhile space).reverse
  have h7 : s.dropWhile space = trim space s ++ b.reverse := by
    have := congrArg List.reverse h4
    simpa [trim] using this
  refine ⟨a, b.reverse, ?_, ?_, ?_, ?_⟩
  · rw [List.append_assoc, ← h7]
    exact h1
  · intro c hc
    rcases List.mem_append.mp hc with hc | hc
    · exact h2 c hc
    · exact h5 c (List.mem_reverse.mp hc)
  · intro c hc
    refine h3 c ?_
    rw [h7]
    cases ht : trim space s with
    | nil => rw [ht] at hc; cases hc
    | cons d ds => rw [ht] at hc; exact hc
  · intro c hc
    refine h6 c ?_
    rw [← List.getLast?_reverse]
    exact hc

theorem dropWhile_head {α : Type} (f : α → Bool) (s : List α)
    (h : ∀ c, s.head? = some c → f c = false) : s.dropWhile f = s := by
  cases s with
  | nil => rfl
  | cons c s => simp [List.dropWhile_cons, h c rfl]

theorem trim_fix (space : Char → Bool) (s : List Char)
    (h1 : ∀ c, s.head? = some c → space c = false)
    (h2 : ∀ c, s.getLast? = some c → space c = false) : trim space s = s := by
  unfold trim
  rw [dropWhile_head space s h1, dropWhile_head space s.reverse, List.reverse_reverse]
  intro c hc
  exact h2 c (by rwa [List.head?_reverse] at hc)

end Inspect
