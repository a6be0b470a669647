import Verif.Rd.Lemmas
import Mathlib.Tactic.FinCases

/-!
# Lemmas: ways through lists, and SHACL paths
-/

namespace Rd

section
variable {L A B : Type} [DecidableEq L] {g : Gr L}

/-- An item is moved to the front. -/
def front (o : Tm L) (l : List (Tm L)) : List (Tm L) := if o ∈ l then o :: l.erase o else l

theorem front_perm (o : Tm L) (l : List (Tm L)) : (front o l).Perm l := by
  unfold front
  split
  · rename_i h
    exact (List.perm_cons_erase h).symm
  · exact .refl _

theorem single_front {ts : List (Tm L × Iri × Tm L)} {ord : Nat → List (Tm L) → List (Tm L)} {p : Voc} {c o : Tm L}
    {k : Nat} (h : Gr.Has ⟨ts, ord⟩ c p o) (ho : ∀ l, o ∈ l → (ord k l).head? = some o) :
    single ⟨ts, ord⟩ (.v p) ⟨c, k⟩ = (.ok o, ⟨c, k + 1⟩) := by
  have := ho _ (mem_objs.2 h)
  cases hv : ord k (Gr.objs ⟨ts, ord⟩ c (.v p)) with
  | nil => simp [hv] at this
  | cons a l =>
    simp [hv] at this
    subst this
    simp [single, bind, andThen, values, hv, ret]

theorem way_reads {c : Tm L} {cs xs : List (Tm L)} (h : g.Way c cs xs) (hn : cs.Nodup) :
    ∃ ch : List (Tm L), ∀ (ord : Nat → List (Tm L) → List (Tm L)) (k n : Nat) (visited : List (Tm L)),
      (∀ i o, ch[i]? = some o → ∀ l, o ∈ l → (ord (k + i) l).head? = some o) → xs.length < n →
      (∀ v ∈ visited, v ∉ cs.tail ∧ v ≠ nilT ∨ v = c) →
      ∃ k', listRec ⟨g.ts, ord⟩ n visited ⟨c, k⟩ = (.ok xs, ⟨nilT, k'⟩) := by
  induction h with
  | nil =>
    refine ⟨[], fun ord k n visited _ hlen _ => ?_⟩
    cases n with
    | zero => exact absurd hlen (by simp)
    | succ n => exact ⟨k, by simp [listRec, bind, andThen, getFocus, nilT, ret]⟩
  | @cons c x r cs xs hc hf hr hw ih =>
    obtain ⟨hcn, hn⟩ := List.nodup_cons.1 hn
    obtain ⟨ch, ih⟩ := ih hn
    have hrn : r = nilT ∨ r ∈ cs := by
      cases hw with
      | nil => exact .inl rfl
      | cons => exact .inr List.mem_cons_self
    refine ⟨x :: r :: ch, fun ord k n visited ho hlen hv => ?_⟩
    cases n with
    | zero => exact absurd hlen (by simp)
    | succ n =>
      have hrv : r ∉ visited := by
        intro hm
        rcases hv r hm with ⟨h1, h2⟩ | h1
        · rcases hrn with h | h
          · exact h2 h
          · exact h1 h
        · subst h1
          rcases hrn with h | h
          · exact hc h
          · exact hcn h
      obtain ⟨k', hk⟩ := ih ord (k + 1 + 1) n (visited ++ [r]) (by
        intro i o hi l hl
        have := ho (i + 2) o (by simpa using hi) l hl
        rwa [show k + 1 + 1 + i = k + (i + 2) by omega]) (by simpa using hlen) (by
        intro v hm
        rcases List.mem_append.1 hm with hm | hm
        · rcases hv v hm with ⟨h1, h2⟩ | h1
          · exact .inl ⟨fun h => h1 (List.mem_of_mem_tail h), h2⟩
          · subst h1
            exact .inl ⟨fun h => hcn (List.mem_of_mem_tail h), hc⟩
        · exact .inr (List.mem_singleton.1 hm))
      refine ⟨k', ?_⟩
      rw [listRec, getFocus_bind, if_neg (by simpa [nilT] using hc),
        bind_ok (single_front (ts := g.ts) (ord := ord) (k := k) hf (ho 0 x rfl)),
        bind_ok (single_front (ts := g.ts) (ord := ord) (k := k + 1) hr (ho 1 r rfl)), if_neg hrv, setFocus_bind, bind_ok hk]
      rfl

theorem listP_way {c : Tm L} {cs xs : List (Tm L)} (h : g.Way c cs xs) (hn : cs.Nodup) (k : Nat) :
    ∃ ord, Gr.Orders ⟨g.ts, ord⟩ ∧ ∃ k', listP ⟨g.ts, ord⟩ ⟨c, k⟩ = (.ok xs, ⟨nilT, k'⟩) := by
  obtain ⟨ch, hch⟩ := way_reads h hn
  let ord : Nat → List (Tm L) → List (Tm L) := fun n l =>
    match ch[n - k]? with
    | some o => front o l
    | none => l
  have ho : Gr.Orders ⟨g.ts, ord⟩ := by
    intro n l
    show (ord n l).Perm l
    simp only [ord]
    split
    · exact front_perm _ _
    · exact .refl _
  refine ⟨ord, ho, ?_⟩
  obtain ⟨n, hn', hk⟩ : ∃ n, g.ts.length + 2 ≤ n ∧ xs.length < n := ⟨g.ts.length + 2 + xs.length, by omega, by omega⟩
  obtain ⟨k', hk'⟩ := hch ord k n [c] (by
    intro i o hi l hl
    simp only [ord, Nat.add_sub_cancel_left, hi, front, hl, if_true, List.head?_cons]) hk (by simp)
  refine ⟨k', ?_⟩
  rw [listP, getFocus_bind]
  rw [← listRec_mono (g := ⟨g.ts, ord⟩) (g.ts.length + 2) [c] ⟨c, k⟩ ?_ n hn']
  · exact hk'
  · rcases listRec_ends ho (g.ts.length + 2) [c] ⟨c, k⟩ (by simp) (by simp) (by simp) (by simp) with
      ⟨_, _, h⟩ | ⟨_, h⟩ <;> rw [h] <;> simp

/-- Lists of graphs whose cells have at most one member and rest. -/
theorem isList_of_way {c : Tm L} {cs xs : List (Tm L)} (h : g.Way c cs xs)
    (h1 : ∀ c, ∀ p ∈ [Voc.first, .rest], ∀ o o', g.Has c p o → g.Has c p o' → o = o') : g.IsList c xs := by
  induction h with
  | nil => exact .nil
  | cons hc hf hr _ ih =>
    exact .cons hc (fun o' => ⟨fun h => h1 _ .first (by simp) _ _ h hf, fun h => h ▸ hf⟩)
      (fun o' => ⟨fun h => h1 _ .rest (by simp) _ _ h hr, fun h => h ▸ hr⟩) ih

/-! ## Paths -/

/-- Among the properties of paths, the node has none. -/
def Dead (g : Gr L) (t : Tm L) : Prop := ∀ k ∈ pathVocs, g.Lacks t k

theorem unP_lacks (hg : g.Orders) {path : Tm L → Pr L (Shacl.Path Iri)} {p : Voc} {k : Shacl.Path Iri → Shacl.Path Iri}
    {s : St L} (h : g.Lacks s.focus p) : unP g path p k s = (.err, ⟨s.focus, s.reads + 1⟩) :=
  bind_err (single_lacks hg h)

theorem altP_lacks (hg : g.Orders) {path : Tm L → Pr L (Shacl.Path Iri)} {s : St L}
    (h : g.Lacks s.focus .alternativePath) : altP g path s = (.err, ⟨s.focus, s.reads + 1⟩) :=
  bind_err (single_lacks hg h)

theorem seqP_lacks (hg : g.Orders) {path : Tm L → Pr L (Shacl.Path Iri)} {s : St L} (hn : s.focus ≠ nilT)
    (h : g.Lacks s.focus .first) : seqP g path s = (.err, ⟨s.focus, s.reads + 1⟩) :=
  bind_err (listP_lacks hg hn h s.reads)

theorem each_ok {path : Tm L → Pr L (Shacl.Path Iri)} {R : Tm L → Shacl.Path Iri → Prop}
    (hR : ∀ t s q s', path t s = (.ok q, s') → R t q) :
    ∀ (ts : List (Tm L)) (s : St L) (ps : List (Shacl.Path Iri)) (s' : St L), each path ts s = (.ok ps, s') →
      List.Forall₂ R ts ps := by
  intro ts
  induction ts with
  | nil => intro s ps s' h; cases h; exact .nil
  | cons t ts ih =>
    intro s ps s' h
    obtain ⟨q, s1, h1, h2⟩ := bind_ok_iff.1 h
    obtain ⟨qs, s2, h3, h4⟩ := bind_ok_iff.1 h2
    cases h4
    exact .cons (hR _ _ _ _ h1) (ih _ _ _ h3)

theorem each_err {path : Tm L → Pr L (Shacl.Path Iri)} {D : Tm L → Prop}
    (hD : ∀ t s s', path t s = (.err, s') → D s'.focus) :
    ∀ (ts : List (Tm L)) (s s' : St L), each path ts s = (.err, s') → D s'.focus := by
  intro ts
  induction ts with
  | nil => intro s s' h; cases h
  | cons t ts ih =>
    intro s s' h
    rcases bind_err_iff.1 h with h1 | ⟨q, s1, h1, h2⟩
    · exact hD _ _ _ h1
    · rcases bind_err_iff.1 h2 with h3 | ⟨qs, s2, h3, h4⟩
      · exact ih _ _ h3
      · cases h4

theorem forall₂_are {ts : List (Tm L)} {ps : List (Shacl.Path Iri)} (h : List.Forall₂ g.IsPath ts ps) :
    g.ArePaths ts ps := by
  induction h with
  | nil => exact .nil
  | cons h _ ih => exact .cons h ih


theorem pathP_iri (n : Nat) (i : Iri) (s : St L) : pathP g (n + 1) (.iri i) s = (.ok (.pred i), ⟨.iri i, s.reads⟩) := rfl

theorem pathP_lit (n : Nat) (l : L) (s : St L) : pathP g (n + 1) (.lit l) s = (.err, ⟨.lit l, s.reads⟩) := rfl

theorem pathP_bnode (n : Nat) (b : String) (s : St L) :
    pathP g (n + 1) (.bnode b) s = complexP g (pathP g n) ⟨.bnode b, s.reads⟩ := rfl

theorem bnode_ne_nil (b : String) : (Tm.bnode b : Tm L) ≠ nilT := nofun

/-- When the list is read, the sequence is read or the reading of a member fails. -/
theorem seqP_list (hg : g.Orders) {path : Tm L → Pr L (Shacl.Path Iri)} {c : Tm L} {ts : List (Tm L)}
    (h : g.IsList c ts) (k : Nat) : ∃ k', seqP g path ⟨c, k⟩ =
      (each path ts >>= fun ps => ret (.seq ps)) ⟨nilT, k'⟩ := by
  obtain ⟨k', hk⟩ := listP_isList hg h k
  exact ⟨k', bind_ok hk⟩

theorem altP_list (hg : g.Orders) {path : Tm L → Pr L (Shacl.Path Iri)} {c l : Tm L} {ts : List (Tm L)}
    (ho : g.Only c .alternativePath l) (h : g.IsList l ts) (k : Nat) : ∃ k', altP g path ⟨c, k⟩ =
      (each path ts >>= fun ps => ret (.alt ps)) ⟨nilT, k'⟩ := by
  obtain ⟨k', hk⟩ := listP_isList hg h (k + 1)
  exact ⟨k', by rw [altP, bind_ok (single_only hg (s := ⟨c, k⟩) ho), setFocus_bind, bind_ok hk]⟩

theorem unP_only (hg : g.Orders) {path : Tm L → Pr L (Shacl.Path Iri)} {p : Voc} {f : Shacl.Path Iri → Shacl.Path Iri}
    {c t : Tm L} (ho : g.Only c p t) (k : Nat) : unP g path p f ⟨c, k⟩ =
      (path t >>= fun q => ret (f q)) ⟨c, k + 1⟩ := by
  rw [unP, bind_ok (single_only hg (s := ⟨c, k⟩) ho)]

/-- The attempts before the one for which the node has a property. -/
theorem complexP_alt (hg : g.Orders) {path : Tm L → Pr L (Shacl.Path Iri)} {b : String} {k : Nat}
    (h : g.Lacks (.bnode b) .first) :
    complexP g path ⟨.bnode b, k⟩ = orElse (altP g path) (
      orElse (unP g path .zeroOrMorePath .star) <| orElse (unP g path .oneOrMorePath .plus) <|
      orElse (unP g path .zeroOrOnePath .opt) (unP g path .inversePath .inv)) ⟨.bnode b, k + 1⟩ :=
  orElse_err (seqP_lacks hg (s := ⟨.bnode b, k⟩) (bnode_ne_nil b) h)

theorem complexP_star (hg : g.Orders) {path : Tm L → Pr L (Shacl.Path Iri)} {b : String} {k : Nat}
    (h : g.Lacks (.bnode b) .first) (h1 : g.Lacks (.bnode b) .alternativePath) :
    complexP g path ⟨.bnode b, k⟩ = orElse (unP g path .zeroOrMorePath .star) (
      orElse (unP g path .oneOrMorePath .plus) <|
      orElse (unP g path .zeroOrOnePath .opt) (unP g path .inversePath .inv)) ⟨.bnode b, k + 1 + 1⟩ := by
  rw [complexP_alt hg h]
  exact orElse_err (altP_lacks hg (s := ⟨.bnode b, k + 1⟩) h1)

theorem complexP_plus (hg : g.Orders) {path : Tm L → Pr L (Shacl.Path Iri)} {b : String} {k : Nat}
    (h : g.Lacks (.bnode b) .first) (h1 : g.Lacks (.bnode b) .alternativePath)
    (h2 : g.Lacks (.bnode b) .zeroOrMorePath) :
    complexP g path ⟨.bnode b, k⟩ = orElse (unP g path .oneOrMorePath .plus) (
      orElse (unP g path .zeroOrOnePath .opt) (unP g path .inversePath .inv)) ⟨.bnode b, k + 1 + 1 + 1⟩ := by
  rw [complexP_star hg h h1]
  exact orElse_err (unP_lacks hg (s := ⟨.bnode b, k + 1 + 1⟩) h2)

theorem complexP_opt (hg : g.Orders) {path : Tm L → Pr L (Shacl.Path Iri)} {b : String} {k : Nat}
    (h : g.Lacks (.bnode b) .first) (h1 : g.Lacks (.bnode b) .alternativePath)
    (h2 : g.Lacks (.bnode b) .zeroOrMorePath) (h3 : g.Lacks (.bnode b) .oneOrMorePath) :
    complexP g path ⟨.bnode b, k⟩ = orElse (unP g path .zeroOrOnePath .opt) (unP g path .inversePath .inv)
      ⟨.bnode b, k + 1 + 1 + 1 + 1⟩ := by
  rw [complexP_plus hg h h1 h2]
  exact orElse_err (unP_lacks hg (s := ⟨.bnode b, k + 1 + 1 + 1⟩) h3)

theorem complexP_inv (hg : g.Orders) {path : Tm L → Pr L (Shacl.Path Iri)} {b : String} {k : Nat}
    (h : g.Lacks (.bnode b) .first) (h1 : g.Lacks (.bnode b) .alternativePath)
    (h2 : g.Lacks (.bnode b) .zeroOrMorePath) (h3 : g.Lacks (.bnode b) .oneOrMorePath)
    (h4 : g.Lacks (.bnode b) .zeroOrOnePath) :
    complexP g path ⟨.bnode b, k⟩ = unP g path .inversePath .inv ⟨.bnode b, k + 1 + 1 + 1 + 1 + 1⟩ := by
  rw [complexP_opt hg h h1 h2 h3]
  exact orElse_err (unP_lacks hg (s := ⟨.bnode b, k + 1 + 1 + 1 + 1⟩) h4)

/-- Well-formed paths are read. -/
theorem isPath_reads (hg : g.Orders) {t : Tm L} {q : Shacl.Path Iri} (h : g.IsPath t q) :
    ∃ N, ∀ n, N ≤ n → ∀ s, ∃ s', pathP g n t s = (.ok q, s') := by
  refine Gr.IsPath.rec (g := g)
    (motive_1 := fun t q _ => ∃ N, ∀ n, N ≤ n → ∀ s, ∃ s', pathP g n t s = (.ok q, s'))
    (motive_2 := fun ts qs _ => ∃ N, ∀ n, N ≤ n → ∀ s, ∃ s', each (pathP g n) ts s = (.ok qs, s'))
    ?_ ?_ ?_ ?_ ?_ ?_ ?_ ?_ ?_ h
  · intro i
    refine ⟨1, fun n hn s => ?_⟩
    match n, hn with
    | n + 1, _ => exact ⟨_, pathP_iri n i s⟩
  · rintro b ts ps hj hl _ ⟨N, ih⟩
    refine ⟨N + 1, fun n hn s => ?_⟩
    match n, hn with
    | n + 1, hn =>
      obtain ⟨k', hk⟩ := seqP_list (path := pathP g n) hg hl s.reads
      obtain ⟨s', hs⟩ := ih n (by omega) ⟨nilT, k'⟩
      exact ⟨s', by rw [pathP_bnode]; exact orElse_ok (by rw [hk, bind_ok hs]; rfl)⟩
  · rintro b l ts ps hj ho hl _ ⟨N, ih⟩
    refine ⟨N + 1, fun n hn s => ?_⟩
    match n, hn with
    | n + 1, hn =>
      obtain ⟨k', hk⟩ := altP_list (path := pathP g n) hg ho hl (s.reads + 1)
      obtain ⟨s', hs⟩ := ih n (by omega) ⟨nilT, k'⟩
      refine ⟨s', ?_⟩
      rw [pathP_bnode, complexP_alt hg (hj .first (by decide) (by decide))]
      exact orElse_ok (by rw [hk, bind_ok hs]; rfl)
  · rintro b t q hj ho _ ⟨N, ih⟩
    refine ⟨N + 1, fun n hn s => ?_⟩
    match n, hn with
    | n + 1, hn =>
      obtain ⟨s', hs⟩ := ih n (by omega) ⟨.bnode b, s.reads + 1 + 1 + 1⟩
      refine ⟨s', ?_⟩
      rw [pathP_bnode, complexP_star hg (hj .first (by decide) (by decide)) (hj .alternativePath (by decide) (by decide))]
      exact orElse_ok (by rw [unP_only hg ho, bind_ok hs]; rfl)
  · rintro b t q hj ho _ ⟨N, ih⟩
    refine ⟨N + 1, fun n hn s => ?_⟩
    match n, hn with
    | n + 1, hn =>
      obtain ⟨s', hs⟩ := ih n (by omega) ⟨.bnode b, s.reads + 1 + 1 + 1 + 1⟩
      refine ⟨s', ?_⟩
      rw [pathP_bnode, complexP_plus hg (hj .first (by decide) (by decide)) (hj .alternativePath (by decide) (by decide))
        (hj .zeroOrMorePath (by decide) (by decide))]
      exact orElse_ok (by rw [unP_only hg ho, bind_ok hs]; rfl)
  · rintro b t q hj ho _ ⟨N, ih⟩
    refine ⟨N + 1, fun n hn s => ?_⟩
    match n, hn with
    | n + 1, hn =>
      obtain ⟨s', hs⟩ := ih n (by omega) ⟨.bnode b, s.reads + 1 + 1 + 1 + 1 + 1⟩
      refine ⟨s', ?_⟩
      rw [pathP_bnode, complexP_opt hg (hj .first (by decide) (by decide)) (hj .alternativePath (by decide) (by decide))
        (hj .zeroOrMorePath (by decide) (by decide)) (hj .oneOrMorePath (by decide) (by decide))]
      exact orElse_ok (by rw [unP_only hg ho, bind_ok hs]; rfl)
  · rintro b t q hj ho _ ⟨N, ih⟩
    refine ⟨N + 1, fun n hn s => ?_⟩
    match n, hn with
    | n + 1, hn =>
      obtain ⟨s', hs⟩ := ih n (by omega) ⟨.bnode b, s.reads + 1 + 1 + 1 + 1 + 1 + 1⟩
      refine ⟨s', ?_⟩
      rw [pathP_bnode, complexP_inv hg (hj .first (by decide) (by decide)) (hj .alternativePath (by decide) (by decide))
        (hj .zeroOrMorePath (by decide) (by decide)) (hj .oneOrMorePath (by decide) (by decide))
        (hj .zeroOrOnePath (by decide) (by decide))]
      rw [unP_only hg ho, bind_ok hs]
      rfl
  · exact ⟨0, fun n _ s => ⟨s, rfl⟩⟩
  · rintro t q ts qs _ _ ⟨N, ih⟩ ⟨M, ih'⟩
    refine ⟨N + M, fun n hn s => ?_⟩
    obtain ⟨s1, h1⟩ := ih n (by omega) s
    obtain ⟨s2, h2⟩ := ih' n (by omega) s1
    exact ⟨s2, by rw [each, bind_ok h1, bind_ok h2]; rfl⟩

/-- At a node without properties of paths all attempts fail and the focus stays. -/
theorem rest_dead (hg : g.Orders) {path : Tm L → Pr L (Shacl.Path Iri)} {s : St L} (h : Dead g s.focus) :
    (∃ k, altP g path s = (.err, ⟨s.focus, k⟩)) ∧
    ∀ p ∈ pathVocs, ∀ f, ∃ k, unP g path p f s = (.err, ⟨s.focus, k⟩) :=
  ⟨⟨_, altP_lacks hg (h _ (by decide))⟩, fun p hp _ => ⟨_, unP_lacks hg (h p hp)⟩⟩

/-- Attempts one after the other, from the point where all that is left fails at a dead node. -/
theorem orElse_dead {p q : Pr L (Shacl.Path Iri)} {s s' : St L} {r : Res (Shacl.Path Iri)}
    (h : orElse p q s = (r, s')) (hq : ∀ s1, p s = (.err, s1) → ∃ k, q s1 = (.err, ⟨s1.focus, k⟩)) :
    (r ≠ .err → p s = (r, s')) ∧ (r = .err → ∃ s1, p s = (.err, s1) ∧ s'.focus = s1.focus) := by
  simp only [orElse] at h
  rcases hp : p s with ⟨r1, s1⟩
  rw [hp] at h
  cases r1 with
  | err =>
    obtain ⟨k, hk⟩ := hq s1 hp
    simp only [hk, Prod.mk.injEq] at h
    obtain ⟨rfl, rfl⟩ := h
    exact ⟨fun h => absurd rfl h, fun _ => ⟨s1, rfl, rfl⟩⟩
  | _ =>
    simp only [Prod.mk.injEq] at h
    obtain ⟨rfl, rfl⟩ := h
    exact ⟨fun _ => rfl, nofun⟩

theorem orElse_all_dead {p q : Pr L (Shacl.Path Iri)} {s : St L} (hp : ∃ k, p s = (.err, ⟨s.focus, k⟩))
    (hq : ∀ k, ∃ k', q ⟨s.focus, k⟩ = (.err, ⟨s.focus, k'⟩)) : ∃ k, orElse p q s = (.err, ⟨s.focus, k⟩) := by
  obtain ⟨k, hk⟩ := hp
  obtain ⟨k', hk'⟩ := hq k
  exact ⟨k', by rw [orElse_err hk, hk']⟩

theorem tail_inv (hg : g.Orders) {path : Tm L → Pr L (Shacl.Path Iri)} {s : St L} (h : Dead g s.focus) :
    ∃ k, unP g path .inversePath .inv s = (.err, ⟨s.focus, k⟩) := (rest_dead hg h).2 _ (by decide) _

theorem tail_opt (hg : g.Orders) {path : Tm L → Pr L (Shacl.Path Iri)} {s : St L} (h : Dead g s.focus) :
    ∃ k, orElse (unP g path .zeroOrOnePath .opt) (unP g path .inversePath .inv) s = (.err, ⟨s.focus, k⟩) :=
  orElse_all_dead ((rest_dead hg h).2 _ (by decide) _) fun k => tail_inv hg (s := ⟨s.focus, k⟩) h

theorem tail_plus (hg : g.Orders) {path : Tm L → Pr L (Shacl.Path Iri)} {s : St L} (h : Dead g s.focus) :
    ∃ k, orElse (unP g path .oneOrMorePath .plus) (
      orElse (unP g path .zeroOrOnePath .opt) (unP g path .inversePath .inv)) s = (.err, ⟨s.focus, k⟩) :=
  orElse_all_dead ((rest_dead hg h).2 _ (by decide) _) fun k => tail_opt hg (s := ⟨s.focus, k⟩) h

theorem tail_star (hg : g.Orders) {path : Tm L → Pr L (Shacl.Path Iri)} {s : St L} (h : Dead g s.focus) :
    ∃ k, orElse (unP g path .zeroOrMorePath .star) (orElse (unP g path .oneOrMorePath .plus) <|
      orElse (unP g path .zeroOrOnePath .opt) (unP g path .inversePath .inv)) s = (.err, ⟨s.focus, k⟩) :=
  orElse_all_dead ((rest_dead hg h).2 _ (by decide) _) fun k => tail_plus hg (s := ⟨s.focus, k⟩) h

theorem tail_alt (hg : g.Orders) {path : Tm L → Pr L (Shacl.Path Iri)} {s : St L} (h : Dead g s.focus) :
    ∃ k, orElse (altP g path) (orElse (unP g path .zeroOrMorePath .star) <|
      orElse (unP g path .oneOrMorePath .plus) <|
      orElse (unP g path .zeroOrOnePath .opt) (unP g path .inversePath .inv)) s = (.err, ⟨s.focus, k⟩) :=
  orElse_all_dead (rest_dead hg h).1 fun k => tail_star hg (s := ⟨s.focus, k⟩) h

/-- In a tidy graph a node with a property of paths has just those of one kind. -/
theorem tidy_just (ht : g.Tidy) {b : String} {k : Voc} (hk : k ∈ pathVocs) (hb : ¬ g.Lacks (.bnode b) k)
    (hl : k ∉ [Voc.first, .rest]) : g.Just (.bnode b) [k] := by
  intro k' hk' hn
  refine Classical.byContradiction fun hc => ?_
  rcases ht.kind b k k' hk hk' hb hc with h | h
  · exact hn (by simp [h])
  · exact hl h.1

theorem tidy_list (ht : g.Tidy) {b : String} (hb : ¬ g.Lacks (.bnode b) .first) :
    g.Just (.bnode b) [.first, .rest] := by
  intro k' hk' hn
  refine Classical.byContradiction fun hc => ?_
  rcases ht.kind b .first k' (by decide) hk' hb hc with h | h
  · exact hn (by simp [← h])
  · exact hn h.2

omit [DecidableEq L] in
theorem tidy_only (ht : g.Tidy) {b : String} {k : Voc} (hk : k ∈ pathVocs) {o : Tm L} (ho : g.Has (.bnode b) k o) :
    g.Only (.bnode b) k o := fun _ => ⟨fun h => ht.one b k hk _ _ h ho, fun h => h ▸ ho⟩

omit [DecidableEq L] in
theorem not_lacks {s : Tm L} {k : Voc} : ¬ g.Lacks s k ↔ ∃ o, g.Has s k o := by
  simp [Gr.Lacks]

/-- One attempt with a property of which the value is read as a path. -/
theorem unP_sound (hg : g.Orders) {path : Tm L → Pr L (Shacl.Path Iri)} {p : Voc} {f : Shacl.Path Iri → Shacl.Path Iri}
    {c t : Tm L} {k : Nat} {r : Res (Shacl.Path Iri)} {s' : St L} (ho : g.Only c p t)
    (h : unP g path p f ⟨c, k⟩ = (r, s')) (hd : ∀ s s', path t s = (.err, s') → Dead g s'.focus) :
    (∀ q, r = .ok q → ∃ q' s s', path t s = (.ok q', s') ∧ q = f q') ∧ (r = .err → Dead g s'.focus) := by
  rw [unP_only hg ho] at h
  constructor
  · rintro q rfl
    obtain ⟨q', s1, h1, h2⟩ := bind_ok_iff.1 h
    cases h2
    exact ⟨q', _, _, h1, rfl⟩
  · rintro rfl
    rcases bind_err_iff.1 h with h1 | ⟨q', s1, h1, h2⟩
    · exact hd _ _ h1
    · cases h2

theorem each_sound {path : Tm L → Pr L (Shacl.Path Iri)} {ts : List (Tm L)} {f : List (Shacl.Path Iri) → Shacl.Path Iri}
    {s : St L} {r : Res (Shacl.Path Iri)} {s' : St L}
    (h : (each path ts >>= fun ps => ret (f ps)) s = (r, s'))
    (hR : ∀ t s q s', path t s = (.ok q, s') → g.IsPath t q)
    (hd : ∀ t s s', path t s = (.err, s') → Dead g s'.focus) :
    (∀ q, r = .ok q → ∃ ps, g.ArePaths ts ps ∧ q = f ps) ∧ (r = .err → Dead g s'.focus) := by
  constructor
  · rintro q rfl
    obtain ⟨ps, s1, h1, h2⟩ := bind_ok_iff.1 h
    cases h2
    exact ⟨ps, forall₂_are (each_ok hR _ _ _ _ h1), rfl⟩
  · rintro rfl
    rcases bind_err_iff.1 h with h1 | ⟨q', s1, h1, h2⟩
    · exact each_err hd _ _ _ h1
    · cases h2

/-- In a tidy graph what is read is what the node stands for, and a failure leaves the focus at a dead node. -/
theorem tidy_sound (hg : g.Orders) (ht : g.Tidy) : ∀ (n : Nat) (t : Tm L) (s s' : St L) (r : Res (Shacl.Path Iri)),
    pathP g n t s = (r, s') → (∀ q, r = .ok q → g.IsPath t q) ∧ (r = .err → Dead g s'.focus) := by
  intro n
  induction n with
  | zero =>
    intro t s s' r h
    cases h
    exact ⟨nofun, nofun⟩
  | succ n ih =>
    intro t s s' r h
    cases t with
    | iri i =>
      cases h
      exact ⟨fun q hq => by cases hq; exact .pred, nofun⟩
    | lit l =>
      cases h
      exact ⟨nofun, fun _ k _ o ho => by simp [Gr.Has, Tm.isLit] at ho⟩
    | bnode b =>
      rw [pathP_bnode] at h
      have hR : ∀ t s q s', pathP g n t s = (.ok q, s') → g.IsPath t q := fun t s q s' h => (ih t s s' _ h).1 q rfl
      have hD : ∀ t s s', pathP g n t s = (.err, s') → Dead g s'.focus := fun t s s' h => (ih t s s' _ h).2 rfl
      by_cases h0 : g.Lacks (.bnode b) .first
      · by_cases h1 : g.Lacks (.bnode b) .alternativePath
        · by_cases h2 : g.Lacks (.bnode b) .zeroOrMorePath
          · by_cases h3 : g.Lacks (.bnode b) .oneOrMorePath
            · by_cases h4 : g.Lacks (.bnode b) .zeroOrOnePath
              · rw [complexP_inv hg h0 h1 h2 h3 h4] at h
                by_cases h5 : g.Lacks (.bnode b) .inversePath
                · rw [unP_lacks hg h5] at h
                  cases h
                  refine ⟨nofun, fun _ => ?_⟩
                  intro k hk
                  by_cases hr : k = .rest
                  · subst hr
                    refine Classical.byContradiction fun hc => ?_
                    obtain ⟨ts, hl⟩ := ht.list b (.inr hc)
                    cases hl with
                    | cons _ hf _ _ => exact h0 _ ((hf _).2 rfl)
                  · fin_cases hk <;> first | assumption | exact absurd rfl hr
                · obtain ⟨o, ho⟩ := not_lacks.1 h5
                  have ho' := tidy_only ht (by decide) ho
                  obtain ⟨h6, h7⟩ := unP_sound hg ho' h (hD o)
                  refine ⟨fun q hq => ?_, h7⟩
                  obtain ⟨q', _, _, h8, rfl⟩ := h6 q hq
                  exact .inv (tidy_just ht (by decide) h5 (by decide)) ho' (hR _ _ _ _ h8)
              · obtain ⟨o, ho⟩ := not_lacks.1 h4
                have ho' := tidy_only ht (by decide) ho
                rw [complexP_opt hg h0 h1 h2 h3] at h
                obtain ⟨h8, h9⟩ := orElse_dead h fun s1 h5 => tail_inv hg ((unP_sound hg ho' h5 (hD o)).2 rfl)
                refine ⟨fun q hq => ?_, fun hr => ?_⟩
                · obtain ⟨q', _, _, h10, rfl⟩ := (unP_sound hg ho' (h8 (by simp [hq])) (hD o)).1 q hq
                  exact .opt (tidy_just ht (by decide) h4 (by decide)) ho' (hR _ _ _ _ h10)
                · obtain ⟨s1, h10, h11⟩ := h9 hr
                  rw [h11]
                  exact (unP_sound hg ho' h10 (hD o)).2 rfl
            · obtain ⟨o, ho⟩ := not_lacks.1 h3
              have ho' := tidy_only ht (by decide) ho
              rw [complexP_plus hg h0 h1 h2] at h
              obtain ⟨h8, h9⟩ := orElse_dead h fun s1 h5 => tail_opt hg ((unP_sound hg ho' h5 (hD o)).2 rfl)
              refine ⟨fun q hq => ?_, fun hr => ?_⟩
              · obtain ⟨q', _, _, h10, rfl⟩ := (unP_sound hg ho' (h8 (by simp [hq])) (hD o)).1 q hq
                exact .plus (tidy_just ht (by decide) h3 (by decide)) ho' (hR _ _ _ _ h10)
              · obtain ⟨s1, h10, h11⟩ := h9 hr
                rw [h11]
                exact (unP_sound hg ho' h10 (hD o)).2 rfl
          · obtain ⟨o, ho⟩ := not_lacks.1 h2
            have ho' := tidy_only ht (by decide) ho
            rw [complexP_star hg h0 h1] at h
            obtain ⟨h8, h9⟩ := orElse_dead h fun s1 h5 => tail_plus hg ((unP_sound hg ho' h5 (hD o)).2 rfl)
            refine ⟨fun q hq => ?_, fun hr => ?_⟩
            · obtain ⟨q', _, _, h10, rfl⟩ := (unP_sound hg ho' (h8 (by simp [hq])) (hD o)).1 q hq
              exact .star (tidy_just ht (by decide) h2 (by decide)) ho' (hR _ _ _ _ h10)
            · obtain ⟨s1, h10, h11⟩ := h9 hr
              rw [h11]
              exact (unP_sound hg ho' h10 (hD o)).2 rfl
        · obtain ⟨o, ho⟩ := not_lacks.1 h1
          have ho' := tidy_only ht (by decide) ho
          obtain ⟨ts, hl⟩ := ht.alts b o ho
          obtain ⟨k', hk⟩ := altP_list (path := pathP g n) hg ho' hl (s.reads + 1)
          rw [complexP_alt hg h0] at h
          obtain ⟨h8, h9⟩ := orElse_dead h fun s1 h5 => tail_star hg ((each_sound (hk ▸ h5) hR hD).2 rfl)
          refine ⟨fun q hq => ?_, fun hr => ?_⟩
          · obtain ⟨ps, h10, rfl⟩ := (each_sound (hk ▸ h8 (by simp [hq])) hR hD).1 q hq
            exact .alt (tidy_just ht (by decide) h1 (by decide)) ho' hl h10
          · obtain ⟨s1, h10, h11⟩ := h9 hr
            rw [h11]
            exact (each_sound (hk ▸ h10) hR hD).2 rfl
      · obtain ⟨ts, hl⟩ := ht.list b (.inl h0)
        obtain ⟨k', hk⟩ := seqP_list (path := pathP g n) hg hl s.reads
        obtain ⟨h8, h9⟩ := orElse_dead h fun s1 h5 => tail_alt hg ((each_sound (hk ▸ h5) hR hD).2 rfl)
        refine ⟨fun q hq => ?_, fun hr => ?_⟩
        · obtain ⟨ps, h10, rfl⟩ := (each_sound (hk ▸ h8 (by simp [hq])) hR hD).1 q hq
          exact .seq (tidy_list ht h0) hl h10
        · obtain ⟨s1, h10, h11⟩ := h9 hr
          rw [h11]
          exact (each_sound (hk ▸ h10) hR hD).2 rfl

end

end Rd
