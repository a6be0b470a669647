import Verif.Rd.Spec
import Mathlib.Logic.Relation
import Mathlib.Data.List.Forall2

/-!
# Lemmas: lists and SHACL paths
-/

namespace Rd

section
variable {L A B : Type}

theorem bind_ok {p : Pr L A} {f : A → Pr L B} {s s' : St L} {a : A} (h : p s = (.ok a, s')) :
    (p >>= f) s = f a s' := by
  simp only [bind, andThen, h]

theorem bind_err {p : Pr L A} {f : A → Pr L B} {s s' : St L} (h : p s = (.err, s')) :
    (p >>= f) s = (.err, s') := by
  simp only [bind, andThen, h]

theorem bind_ok_iff {p : Pr L A} {f : A → Pr L B} {s s' : St L} {b : B} :
    (p >>= f) s = (.ok b, s') ↔ ∃ a s1, p s = (.ok a, s1) ∧ f a s1 = (.ok b, s') := by
  simp only [bind, andThen]
  rcases h : p s with ⟨r, s1⟩
  cases r <;> simp

theorem bind_err_iff {p : Pr L A} {f : A → Pr L B} {s s' : St L} :
    (p >>= f) s = (.err, s') ↔ p s = (.err, s') ∨ ∃ a s1, p s = (.ok a, s1) ∧ f a s1 = (.err, s') := by
  simp only [bind, andThen]
  rcases h : p s with ⟨r, s1⟩
  cases r <;> simp

theorem bind_loop_iff {p : Pr L A} {f : A → Pr L B} {s : St L} :
    ((p >>= f) s).1 = .loop ↔ (p s).1 = .loop ∨ ∃ a s1, p s = (.ok a, s1) ∧ (f a s1).1 = .loop := by
  simp only [bind, andThen]
  rcases h : p s with ⟨r, s1⟩
  cases r <;> simp

theorem bind_panic_iff {p : Pr L A} {f : A → Pr L B} {s : St L} :
    ((p >>= f) s).1 = .panic ↔ (p s).1 = .panic ∨ ∃ a s1, p s = (.ok a, s1) ∧ (f a s1).1 = .panic := by
  simp only [bind, andThen]
  rcases h : p s with ⟨r, s1⟩
  cases r <;> simp

theorem getFocus_bind {f : Tm L → Pr L B} {s : St L} : (getFocus >>= f) s = f s.focus s := rfl

theorem setFocus_bind {t : Tm L} {f : Unit → Pr L B} {s : St L} :
    (setFocus t >>= f) s = f () ⟨t, s.reads⟩ := rfl

theorem orElse_ok {p q : Pr L A} {s s' : St L} {a : A} (h : p s = (.ok a, s')) : orElse p q s = (.ok a, s') := by
  simp only [orElse, h]

theorem orElse_err {p q : Pr L A} {s s' : St L} (h : p s = (.err, s')) : orElse p q s = q s' := by
  simp only [orElse, h]

variable [DecidableEq L] {g : Gr L}

theorem mem_objs {s : Tm L} {p : Voc} {o : Tm L} : o ∈ g.objs s (.v p) ↔ g.Has s p o := by
  unfold Gr.objs Gr.Has
  cases s.isLit
  · simp only [Bool.false_eq_true, if_false, List.mem_dedup, List.mem_map, List.mem_filter, decide_eq_true_eq,
      true_and]
    constructor
    · rintro ⟨⟨a, b, c⟩, ⟨h, rfl, rfl⟩, rfl⟩
      exact h
    · intro h
      exact ⟨_, ⟨h, rfl, rfl⟩, rfl⟩
  · simp

theorem nodup_objs (s : Tm L) (p : Iri) : (g.objs s p).Nodup := by
  unfold Gr.objs
  split
  · exact List.nodup_nil
  · exact List.nodup_dedup _

theorem objs_only {s : Tm L} {p : Voc} {o : Tm L} (h : g.Only s p o) : g.objs s (.v p) = [o] := by
  have hn := nodup_objs (g := g) s (.v p)
  have hm : ∀ x, x ∈ g.objs s (.v p) ↔ x = o := fun x => mem_objs.trans (h x)
  generalize g.objs s (.v p) = l at hn hm
  match l, hn, hm with
  | [], _, hm => exact absurd ((hm o).2 rfl) (by simp)
  | [x], _, hm => rw [(hm x).1 (by simp)]
  | x :: y :: l, hn, hm =>
    have h1 := (hm x).1 (by simp)
    have h2 := (hm y).1 (by simp)
    subst h1
    subst h2
    simp at hn

theorem objs_lacks {s : Tm L} {p : Voc} (h : g.Lacks s p) : g.objs s (.v p) = [] :=
  List.eq_nil_iff_forall_not_mem.2 fun x hx => h x (mem_objs.1 hx)

theorem values_mem (hg : g.Orders) {p : Voc} {s s' : St L} {vs : List (Tm L)}
    (h : values g (.v p) s = (.ok vs, s')) :
    (∀ o, o ∈ vs ↔ g.Has s.focus p o) ∧ s' = ⟨s.focus, s.reads + 1⟩ := by
  simp only [values, Prod.mk.injEq, Res.ok.injEq] at h
  obtain ⟨rfl, rfl⟩ := h
  exact ⟨fun o => (hg _ _).mem_iff.trans mem_objs, rfl⟩

theorem single_only (hg : g.Orders) {p : Voc} {s : St L} {o : Tm L} (h : g.Only s.focus p o) :
    single g (.v p) s = (.ok o, ⟨s.focus, s.reads + 1⟩) := by
  have : g.ord s.reads (g.objs s.focus (.v p)) = [o] := by
    rw [objs_only h]
    exact List.perm_singleton.1 (hg s.reads [o])
  simp [single, bind, andThen, values, this, ret]

theorem single_lacks (hg : g.Orders) {p : Voc} {s : St L} (h : g.Lacks s.focus p) :
    single g (.v p) s = (.err, ⟨s.focus, s.reads + 1⟩) := by
  have : g.ord s.reads (g.objs s.focus (.v p)) = [] := by
    rw [objs_lacks h]
    exact List.perm_nil.1 (hg s.reads [])
  simp [single, bind, andThen, values, this, fail]

theorem single_cases (hg : g.Orders) (p : Voc) (s : St L) :
    (∃ o, g.Has s.focus p o ∧ single g (.v p) s = (.ok o, ⟨s.focus, s.reads + 1⟩)) ∨
    (g.Lacks s.focus p ∧ single g (.v p) s = (.err, ⟨s.focus, s.reads + 1⟩)) := by
  cases hv : g.ord s.reads (g.objs s.focus (.v p)) with
  | nil =>
    refine .inr ⟨fun o ho => ?_, by simp [single, bind, andThen, values, hv, fail]⟩
    have := (hg s.reads _).mem_iff.2 (mem_objs.2 ho)
    simp [hv] at this
  | cons o l =>
    refine .inl ⟨o, ?_, by simp [single, bind, andThen, values, hv, ret]⟩
    exact mem_objs.1 ((hg s.reads _).mem_iff.1 (by rw [hv]; exact List.mem_cons_self))

/-! ## Lists -/

omit [DecidableEq L] in
theorem isList_unique {c : Tm L} {xs ys : List (Tm L)} (h : g.IsList c xs) (h' : g.IsList c ys) : xs = ys := by
  induction h generalizing ys with
  | nil =>
    cases h' with
    | nil => rfl
    | cons hn => exact absurd rfl hn
  | cons hn hf hr _ ih =>
    cases h' with
    | nil => exact absurd rfl hn
    | cons _ hf' hr' hl =>
      have h1 := (hf' _).1 ((hf _).2 rfl)
      have h2 := (hr' _).1 ((hr _).2 rfl)
      subst h1
      subst h2
      rw [ih hl]

theorem listRec_isList (hg : g.Orders) {c : Tm L} {xs : List (Tm L)} (h : g.IsList c xs) :
    ∀ (n : Nat) (visited : List (Tm L)) (k : Nat), xs.length < n →
      (∀ v ∈ visited, ∃ ys, g.IsList v ys ∧ xs.length ≤ ys.length) →
      ∃ k', listRec g n visited ⟨c, k⟩ = (.ok xs, ⟨nilT, k'⟩) := by
  induction h with
  | nil =>
    intro n visited k hn hv
    cases n with
    | zero => exact absurd hn (by simp)
    | succ n => exact ⟨k, by simp [listRec, bind, andThen, getFocus, nilT, ret]⟩
  | @cons c x r xs hc hf hr hl ih =>
    intro n visited k hn hv
    cases n with
    | zero => exact absurd hn (by simp)
    | succ n =>
      have hrv : r ∉ visited := by
        intro hm
        obtain ⟨ys, hy, hlen⟩ := hv r hm
        rw [← isList_unique hl hy] at hlen
        simp at hlen
        omega
      obtain ⟨k', hk⟩ := ih n (visited ++ [r]) (k + 1 + 1) (by simpa using hn) (by
        intro v hm
        rcases List.mem_append.1 hm with hm | hm
        · obtain ⟨ys, hy, hlen⟩ := hv v hm
          exact ⟨ys, hy, by simp at hlen; omega⟩
        · rw [List.mem_singleton.1 hm]
          exact ⟨xs, hl, Nat.le_refl _⟩)
      refine ⟨k', ?_⟩
      rw [listRec, getFocus_bind, if_neg (by simpa [nilT] using hc),
        bind_ok (single_only hg (s := ⟨c, k⟩) hf), bind_ok (single_only hg (s := ⟨c, k + 1⟩) hr), if_neg hrv,
        setFocus_bind, bind_ok hk]
      rfl

/-- Some terms without repetition that are objects of the graph: no more than it has triples. -/
theorem length_le_triples {l : List (Tm L)} (hl : l.Nodup) (h : ∀ x ∈ l, ∃ s p, (s, p, x) ∈ g.ts) :
    l.length ≤ g.ts.length := by
  have hs : l ⊆ g.ts.map fun t => t.2.2 := by
    intro x hx
    obtain ⟨s, p, hm⟩ := h x hx
    exact List.mem_map.2 ⟨_, hm, rfl⟩
  have := (List.subperm_of_subset hl hs).length_le
  simpa using this

theorem isList_cells {c : Tm L} {xs : List (Tm L)} (h : g.IsList c xs) :
    ∃ rs : List (Tm L), rs.length = xs.length ∧ rs.Nodup ∧ (∀ r ∈ rs, ∃ s p, (s, p, r) ∈ g.ts) ∧
      (∀ r ∈ rs, ∃ ys, g.IsList r ys ∧ ys.length < xs.length) := by
  induction h with
  | nil => exact ⟨[], rfl, List.nodup_nil, by simp, by simp⟩
  | @cons c x r xs hc hf hr hl ih =>
    obtain ⟨rs, h1, h2, h3, h4⟩ := ih
    refine ⟨r :: rs, by simp [h1], List.nodup_cons.2 ⟨?_, h2⟩, ?_, ?_⟩
    · intro hm
      obtain ⟨ys, hy, hlt⟩ := h4 r hm
      rw [isList_unique hl hy] at hlt
      omega
    · intro y hy
      rcases List.mem_cons.1 hy with rfl | hy
      · exact ⟨c, .v .rest, ((hr _).2 rfl).2⟩
      · exact h3 y hy
    · intro y hy
      rcases List.mem_cons.1 hy with rfl | hy
      · exact ⟨xs, hl, by simp⟩
      · obtain ⟨ys, hy, hlt⟩ := h4 y hy
        exact ⟨ys, hy, by simp; omega⟩

theorem listP_isList (hg : g.Orders) {c : Tm L} {xs : List (Tm L)} (h : g.IsList c xs) (k : Nat) :
    ∃ k', listP g ⟨c, k⟩ = (.ok xs, ⟨nilT, k'⟩) := by
  obtain ⟨rs, h1, h2, h3, _⟩ := isList_cells h
  have := length_le_triples h2 h3
  obtain ⟨k', hk⟩ := listRec_isList hg h (g.ts.length + 2) [c] k (by omega) (by
    intro v hv
    rw [List.mem_singleton.1 hv]
    exact ⟨xs, h, Nat.le_refl _⟩)
  exact ⟨k', by rw [listP, getFocus_bind, hk]⟩

theorem listP_lacks (hg : g.Orders) {c : Tm L} (hc : c ≠ nilT) (h : g.Lacks c .first) (k : Nat) :
    listP g ⟨c, k⟩ = (.err, ⟨c, k + 1⟩) := by
  rw [listP, getFocus_bind, listRec, getFocus_bind, if_neg hc]
  exact bind_err (single_lacks hg (s := ⟨c, k⟩) h)

/-- Reading a list ends. -/
theorem listRec_ends (hg : g.Orders) : ∀ (n : Nat) (visited : List (Tm L)) (s : St L), visited.Nodup →
    (∀ v ∈ visited, v ∈ visited.head? ∨ ∃ s p, (s, p, v) ∈ g.ts) → visited ≠ [] →
    g.ts.length + 2 ≤ n + visited.length → (∃ xs s', listRec g n visited s = (.ok xs, s')) ∨
      ∃ s', listRec g n visited s = (.err, s') := by
  intro n
  induction n with
  | zero =>
    intro visited s hn hv hne hlen
    exfalso
    match visited, hn, hv, hne, hlen with
    | v :: vs, hn, hv, _, hlen =>
      have := length_le_triples (g := g) (List.nodup_cons.1 hn).2 (fun x hx => by
        rcases hv x (List.mem_cons_of_mem _ hx) with h | h
        · simp at h
          subst h
          exact absurd hx (List.nodup_cons.1 hn).1
        · exact h)
      simp at hlen
      omega
  | succ n ih =>
    intro visited s hn hv hne hlen
    rw [listRec]
    rw [getFocus_bind]
    split
    · exact .inl ⟨[], s, rfl⟩
    · rcases single_cases hg .first s with ⟨x, hx, he⟩ | ⟨_, he⟩
      · rw [bind_ok he]
        rcases single_cases hg .rest ⟨s.focus, s.reads + 1⟩ with ⟨r, hr, he⟩ | ⟨_, he⟩
        · rw [bind_ok he]
          split
          · exact .inr ⟨_, rfl⟩
          · rename_i hrv
            rw [setFocus_bind]
            rcases ih (visited ++ [r]) ⟨r, s.reads + 1 + 1⟩ (by
                rw [List.nodup_append]
                refine ⟨hn, by simp, ?_⟩
                intro a ha b hb
                rw [List.mem_singleton.1 hb]
                rintro rfl
                exact hrv ha) (by
                intro v hm
                rcases List.mem_append.1 hm with hm | hm
                · rcases hv v hm with h | h
                  · refine .inl ?_
                    match visited, hne, h with
                    | w :: ws, _, h => simpa using h
                  · exact .inr h
                · rw [List.mem_singleton.1 hm]
                  exact .inr ⟨_, _, hr.2⟩) (by simp) (by simp; omega) with ⟨xs, s', h⟩ | ⟨s', h⟩
            · exact .inl ⟨x :: xs, s', by rw [bind_ok h]; rfl⟩
            · exact .inr ⟨s', bind_err h⟩
        · exact .inr ⟨_, bind_err he⟩
      · exact .inr ⟨_, bind_err he⟩

theorem listP_ends (hg : g.Orders) (s : St L) :
    (∃ xs s', listP g s = (.ok xs, s')) ∨ ∃ s', listP g s = (.err, s') := by
  rw [listP, getFocus_bind]
  exact listRec_ends hg _ _ _ (by simp) (by simp) (by simp) (by simp)

/-- More calls than are needed make no difference. -/
theorem listRec_mono : ∀ (n : Nat) (visited : List (Tm L)) (s : St L), (listRec g n visited s).1 ≠ .loop →
    ∀ m, n ≤ m → listRec g m visited s = listRec g n visited s := by
  intro n
  induction n with
  | zero => intro visited s h; exact absurd rfl h
  | succ n ih =>
    intro visited s h m hm
    match m, hm with
    | m + 1, hm =>
      have hm : n ≤ m := by omega
      rw [listRec] at h
      rw [listRec, listRec]
      rw [getFocus_bind] at h ⊢
      rw [getFocus_bind]
      split
      · rfl
      · rename_i hf
        rw [if_neg hf] at h
        simp only [bind, andThen] at h ⊢
        rcases h1 : single g (.v .first) s with ⟨r1, s1⟩
        rw [h1] at h
        cases r1 with
        | ok x =>
          simp only at h ⊢
          rcases h2 : single g (.v .rest) s1 with ⟨r2, s2⟩
          rw [h2] at h
          cases r2 with
          | ok r =>
            simp only at h ⊢
            split
            · rfl
            · rename_i hrv
              rw [if_neg hrv] at h
              simp only [andThen, setFocus] at h ⊢
              have := ih (visited ++ [r]) { s2 with focus := r } (by
                intro hl
                rcases h3 : listRec g n (visited ++ [r]) { s2 with focus := r } with ⟨r3, s3⟩
                rw [h3] at h hl
                simp only at hl
                subst hl
                exact h rfl) m hm
              rw [this]
          | _ => rfl
        | _ => rfl

/-- What is read is a way through the cells. -/
theorem listRec_ok (hg : g.Orders) : ∀ (n : Nat) (visited : List (Tm L)) (s s' : St L) (xs : List (Tm L)),
    visited.Nodup → s.focus ∈ visited → listRec g n visited s = (.ok xs, s') →
    s'.focus = nilT ∧ ∃ cs, g.Way s.focus cs xs ∧ cs.Nodup ∧
      ∀ c ∈ cs, c = s.focus ∨ c ∉ visited := by
  intro n
  induction n with
  | zero => intro visited s s' xs _ _ h; simp [listRec] at h
  | succ n ih =>
    intro visited s s' xs hn hfv h
    rw [listRec, getFocus_bind] at h
    split at h
    · rename_i hf
      cases h
      refine ⟨hf, [], ?_, by simp, by simp⟩
      rw [hf]
      exact .nil
    · rename_i hf
      rcases single_cases hg .first s with ⟨x, hx, he⟩ | ⟨_, he⟩
      · rw [bind_ok he] at h
        rcases single_cases hg .rest ⟨s.focus, s.reads + 1⟩ with ⟨r, hr, he⟩ | ⟨_, he⟩
        · rw [bind_ok he] at h
          split at h
          · cases h
          · rename_i hrv
            rw [setFocus_bind] at h
            obtain ⟨l, s1, h1, h2⟩ := bind_ok_iff.1 h
            cases h2
            obtain ⟨h3, cs, h4, h5, h6⟩ := ih (visited ++ [r]) ⟨r, s.reads + 1 + 1⟩ s' l (by
              rw [List.nodup_append]
              refine ⟨hn, by simp, ?_⟩
              intro a ha b hb
              rw [List.mem_singleton.1 hb]
              rintro rfl
              exact hrv ha) (by simp) h1
            refine ⟨h3, s.focus :: cs, .cons hf hx hr h4, List.nodup_cons.2 ⟨?_, h5⟩, ?_⟩
            · intro hm
              rcases h6 _ hm with h7 | h7
              · simp only at h7
                exact hrv (h7 ▸ hfv)
              · exact h7 (by simp [hfv])
            · intro c hc
              rcases List.mem_cons.1 hc with rfl | hc
              · exact .inl rfl
              · rcases h6 c hc with h7 | h7
                · simp only at h7
                  exact .inr (h7 ▸ hrv)
                · exact .inr fun h8 => h7 (by simp [h8])
        · rw [bind_err he] at h
          cases h
      · rw [bind_err he] at h
        cases h

theorem listP_ok (hg : g.Orders) {s s' : St L} {xs : List (Tm L)} (h : listP g s = (.ok xs, s')) :
    s'.focus = nilT ∧ ∃ cs, g.Way s.focus cs xs ∧ cs.Nodup := by
  rw [listP, getFocus_bind] at h
  obtain ⟨h1, cs, h2, h3, _⟩ := listRec_ok hg _ _ _ _ _ (by simp) (by simp) h
  exact ⟨h1, cs, h2, h3⟩

end

end Rd
