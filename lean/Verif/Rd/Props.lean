import Verif.Rd.LemEnds

/-!
# C116, C117: lists and SHACL paths are read as written
-/

namespace Rd

section
variable {L : Type} [DecidableEq L]

/-! ## Lists -/

/-- A well-formed list is read as its members in their order, in whatever order hash sets come; the focus is then at
`rdf:nil`. -/
theorem C116_reads {g : Gr L} (hg : g.Orders) {c : Tm L} {xs : List (Tm L)} (h : g.IsList c xs) (k : Nat) :
    ∃ k', listP g ⟨c, k⟩ = (.ok xs, ⟨.iri (.v .nil), k'⟩) := listP_isList hg h k

/-- Reading a list ends with a result or with an error, in every graph; and more calls than the model allows would
make no difference. -/
theorem C116_ends {g : Gr L} (hg : g.Orders) (s : St L) :
    ((∃ xs s', listP g s = (.ok xs, s')) ∨ ∃ s', listP g s = (.err, s')) ∧
    ∀ n, g.ts.length + 2 ≤ n → listRec g n [s.focus] s = listP g s := by
  refine ⟨listP_ends hg s, fun n hn => ?_⟩
  have h := listP_ends hg s
  rw [listP, getFocus_bind] at h ⊢
  refine listRec_mono _ _ _ ?_ n hn
  rcases h with ⟨_, _, h⟩ | ⟨_, h⟩ <;> simp [h]

/-- What can be read from a node, for some order of the hash sets, is exactly the members met on a way through cells
that passes no cell twice and ends at `rdf:nil`. -/
theorem C116_ways (g : Gr L) (c : Tm L) (xs : List (Tm L)) (k : Nat) :
    (∃ ord, Gr.Orders ⟨g.ts, ord⟩ ∧ ∃ s', listP ⟨g.ts, ord⟩ ⟨c, k⟩ = (.ok xs, s')) ↔
      ∃ cs, g.Way c cs xs ∧ cs.Nodup := by
  constructor
  · rintro ⟨ord, ho, s', h⟩
    obtain ⟨_, cs, hw, hn⟩ := listP_ok ho h
    refine ⟨cs, ?_, hn⟩
    clear h hn
    change Gr.Way _ c cs xs at hw
    induction hw with
    | nil => exact .nil
    | cons h1 h2 h3 _ ih => exact .cons h1 h2 h3 ih
  · rintro ⟨cs, hw, hn⟩
    obtain ⟨ord, ho, k', h⟩ := listP_way hw hn k
    exact ⟨ord, ho, _, h⟩

/-- Everything else is rejected, if no cell has more than one member or rest: the reading fails exactly at nodes that
are not well-formed lists (in particular at all cyclic ones). Missing: cells with more than one member or rest, which
are not rejected (`C116_refuted`). -/
theorem C116_rejects_partial {g : Gr L} (hg : g.Orders)
    (h1 : ∀ c, ∀ p ∈ [Voc.first, .rest], ∀ o o', g.Has c p o → g.Has c p o' → o = o') (s : St L) :
    (∃ s', listP g s = (.err, s')) ↔ ¬ ∃ xs, g.IsList s.focus xs := by
  constructor
  · rintro ⟨s', h⟩ ⟨xs, hx⟩
    obtain ⟨k', hk⟩ := listP_isList hg hx s.reads
    rw [h] at hk
    cases hk
  · intro hn
    rcases listP_ends hg s with ⟨xs, s', h⟩ | h
    · obtain ⟨_, cs, hw, _⟩ := listP_ok hg h
      exact absurd ⟨xs, isList_of_way hw h1⟩ hn
    · exact h

/-! ## Paths -/

/-- A well-formed path is read as what it stands for, in whatever order hash sets come. -/
theorem C117_reads {g : Gr L} (hg : g.Orders) {t : Tm L} {q : Shacl.Path Iri} (h : g.IsPath t q) :
    ∃ N, ∀ n, N ≤ n → ∀ s, ∃ s', pathP g n t s = (.ok q, s') := isPath_reads hg h

/-- The reading ends, with a path or an error, if no way down along the properties of paths is infinite; once it ends,
more calls make no difference. -/
theorem C117_ends {g : Gr L} (hg : g.Orders) {t : Tm L} (h : g.Ends t) :
    ∃ N, ∀ s, ((∃ q s', pathP g N t s = (.ok q, s')) ∨ ∃ s', pathP g N t s = (.err, s')) ∧
      ∀ n, N ≤ n → pathP g n t s = pathP g N t s := by
  obtain ⟨N, hN⟩ := pathP_fine hg h
  refine ⟨N, fun s => ?_⟩
  have hf := (hN N (Nat.le_refl _) s).1
  refine ⟨?_, fun n hn => pathP_mono hn t s hf.1⟩
  rcases hp : pathP g N t s with ⟨r, s'⟩
  rw [hp] at hf
  cases r with
  | ok q => exact .inl ⟨q, s', rfl⟩
  | err => exact .inr ⟨s', rfl⟩
  | panic => exact absurd rfl hf.2
  | loop => exact absurd rfl hf.1

/-- In a tidy graph a node is read as a path if and only if it stands for that path, and otherwise rejected if no way
down is infinite. Missing: graphs that are not tidy (`C117_refuted`). -/
theorem C117_exact_partial {g : Gr L} (hg : g.Orders) (ht : g.Tidy) (t : Tm L) (s : St L) :
    (∀ q, (∃ n s', pathP g n t s = (.ok q, s')) ↔ g.IsPath t q) ∧
    (g.Ends t → ((∃ n s', pathP g n t s = (.err, s')) ↔ ¬ ∃ q, g.IsPath t q)) := by
  refine ⟨fun q => ⟨fun ⟨n, s', h⟩ => (tidy_sound hg ht n t s s' _ h).1 q rfl, fun h => ?_⟩, fun he => ⟨?_, fun h => ?_⟩⟩
  · obtain ⟨N, hN⟩ := isPath_reads hg h
    obtain ⟨s', h⟩ := hN N (Nat.le_refl _) s
    exact ⟨N, s', h⟩
  · rintro ⟨n, s', h⟩ ⟨q, hq⟩
    obtain ⟨N, hN⟩ := isPath_reads hg hq
    obtain ⟨s1, h1⟩ := hN (N + n) (by omega) s
    rw [pathP_mono (by omega : n ≤ N + n) t s (by simp [h]), h] at h1
    cases h1
  · obtain ⟨N, hN⟩ := C117_ends hg he
    rcases (hN s).1 with ⟨q, s', h1⟩ | ⟨s', h1⟩
    · exact absurd ⟨q, (tidy_sound hg ht N t s s' _ h1).1 q rfl⟩ h
    · exact ⟨N, s', h1⟩

end

/-! ## Examples and what is false -/

/-- Sets in the order of the triples. -/
def plain (ts : List (Tm Unit × Iri × Tm Unit)) : Gr Unit := ⟨ts, fun _ l => l⟩

/-- Sets backwards. -/
def backwards (ts : List (Tm Unit × Iri × Tm Unit)) : Gr Unit := ⟨ts, fun _ l => l.reverse⟩

theorem plain_orders (ts : List (Tm Unit × Iri × Tm Unit)) : (plain ts).Orders := fun _ l => .refl l

theorem backwards_orders (ts : List (Tm Unit × Iri × Tm Unit)) : (backwards ts).Orders := fun _ l => l.reverse_perm

def ex (s : String) : Tm Unit := .iri (.o s)

/-- A cell with two members. -/
def twoFirsts : List (Tm Unit × Iri × Tm Unit) :=
  [(.bnode "l", .v .first, ex "a"), (.bnode "l", .v .first, ex "b"), (.bnode "l", .v .rest, nilT)]

/-- A node with two members is read, and as one of two lists according to the order in which a hash set comes. -/
theorem C116_refuted :
    ¬ (∀ (g : Gr Unit), g.Orders → ∀ s, (∃ xs s', listP g s = (.ok xs, s')) → ∃ xs, g.IsList s.focus xs) ∧
    (listP (plain twoFirsts) ⟨.bnode "l", 0⟩).1 = .ok [ex "a"] ∧
    (listP (backwards twoFirsts) ⟨.bnode "l", 0⟩).1 = .ok [ex "b"] := by
  refine ⟨fun h => ?_, by decide +kernel, by decide +kernel⟩
  obtain ⟨xs, hx⟩ := h (plain twoFirsts) (plain_orders _) ⟨.bnode "l", 0⟩
    ⟨[ex "a"], ⟨nilT, 2⟩, by rfl⟩
  cases hx with
  | cons _ hf _ _ =>
    have h1 := (hf (ex "a")).1 ⟨rfl, by decide⟩
    have h2 := (hf (ex "b")).1 ⟨rfl, by decide⟩
    exact absurd (h1.trans h2.symm) (by decide)

/-- A list that breaks off at a node that is an inverse path. -/
def broken : List (Tm Unit × Iri × Tm Unit) :=
  [(.bnode "t", .v .first, ex "a"), (.bnode "t", .v .rest, .bnode "u"), (.bnode "u", .v .inversePath, ex "p")]

/-- A node that is its own inverse path. -/
def circle : List (Tm Unit × Iri × Tm Unit) := [(.bnode "t", .v .inversePath, .bnode "t")]

/-- As the focus is not put back after a failed attempt, the node of a broken list is read as the path of the node
where it breaks off, although it stands for no path; and there are nodes at which the reading never ends. -/
theorem C117_refuted :
    (∃ g : Gr Unit, g.Orders ∧ ∃ n t s s' q, pathP g n t s = (.ok q, s') ∧ ¬ ∃ q, g.IsPath t q) ∧
    (∃ g : Gr Unit, g.Orders ∧ ∃ t, ∀ n s, (pathP g n t s).1 = .loop) := by
  refine ⟨⟨plain broken, plain_orders _, 2, .bnode "t", ⟨.bnode "t", 0⟩, _, .inv (.pred (.o "p")), Prod.ext (by rfl) rfl, ?_⟩,
    ⟨plain circle, plain_orders _, .bnode "t", ?_⟩⟩
  · rintro ⟨q, hq⟩
    have hf : (plain broken).Has (.bnode "t") .first (ex "a") := ⟨rfl, by decide⟩
    cases hq with
    | seq _ hl _ =>
      cases hl with
      | cons _ _ hr hl =>
        have := (hr (.bnode "u")).1 ⟨rfl, by decide⟩
        subst this
        cases hl with
        | cons _ hf _ _ =>
          have := ((hf _).2 rfl).2
          simp [plain, broken] at this
    | alt hj => exact hj .first (by decide) (by decide) _ hf
    | star hj => exact hj .first (by decide) (by decide) _ hf
    | plus hj => exact hj .first (by decide) (by decide) _ hf
    | opt hj => exact hj .first (by decide) (by decide) _ hf
    | inv hj => exact hj .first (by decide) (by decide) _ hf
  · intro n
    induction n with
    | zero => intro s; rfl
    | succ n ih =>
      intro s
      have hl : ∀ k, k ≠ Voc.inversePath → (plain circle).Lacks (.bnode "t") k := by
        intro k hk o ho
        have := ho.2
        simp [plain, circle] at this
        exact hk this.1
      have ho : (plain circle).Only (.bnode "t") .inversePath (.bnode "t") := by
        intro o'
        simp [Gr.Has, plain, circle, Tm.isLit]
      rw [pathP_bnode, complexP_inv (plain_orders _) (hl _ (by decide)) (hl _ (by decide)) (hl _ (by decide))
        (hl _ (by decide)) (hl _ (by decide)), unP_only (plain_orders _) ho]
      exact bind_loop_iff.2 (.inl (ih _))

/-- The path `(ex:a [ sh:inversePath ex:b ])`. -/
def sample : List (Tm Unit × Iri × Tm Unit) :=
  [(.bnode "1", .v .first, ex "a"), (.bnode "1", .v .rest, .bnode "2"), (.bnode "2", .v .first, .bnode "3"),
    (.bnode "2", .v .rest, nilT), (.bnode "3", .v .inversePath, ex "b")]

theorem sample_list : (plain sample).IsList (.bnode "1") [ex "a", .bnode "3"] := by
  refine .cons nofun (r := .bnode "2") ?_ ?_ (.cons nofun (r := nilT) ?_ ?_ .nil) <;>
    · intro o'
      simp [Gr.Has, plain, sample, Tm.isLit]

theorem sample_path : (plain sample).IsPath (.bnode "1") (.seq [.pred (.o "a"), .inv (.pred (.o "b"))]) := by
  refine .seq ?_ sample_list (.cons .pred (.cons (.inv (t := ex "b") ?_ ?_ .pred) .nil))
  · intro k _ hk o ho
    have := ho.2
    simp only [plain, sample, List.mem_cons, Prod.mk.injEq, Tm.bnode.injEq, Iri.v.injEq, List.not_mem_nil] at this
    simp at this hk
    rcases this with h | h <;> simp [h] at hk
  · intro k _ hk o ho
    have := ho.2
    simp [plain, sample] at this
    simp [this] at hk
  · intro o'
    simp [Gr.Has, plain, sample, Tm.isLit]

/-- `C116_reads`, `C116_ways` and `C117_reads` are about this graph. -/
example : ∃ N, ∀ n, N ≤ n → ∀ s, ∃ s', pathP (plain sample) n (.bnode "1") s =
    (.ok (.seq [.pred (.o "a"), .inv (.pred (.o "b"))]), s') := C117_reads (plain_orders _) sample_path

example : ∃ k', listP (plain sample) ⟨.bnode "1", 0⟩ = (.ok [ex "a", .bnode "3"], ⟨nilT, k'⟩) :=
  C116_reads (plain_orders _) sample_list 0

/-- `C116_rejects_partial`: a cyclic list. -/
example : ∃ s', listP (plain [(.bnode "c", .v .first, ex "a"), (.bnode "c", .v .rest, .bnode "c")]) ⟨.bnode "c", 0⟩ =
    (.err, s') := ⟨_, by rfl⟩

/-- `C117_ends`: the sample has no infinite way down. -/
example : (plain sample).Ends (.bnode "1") := by
  have h : ∀ u s, (plain sample).Down u s → (s, u) ∈ sample.map fun t => (t.1, t.2.2) := by
    rintro u s ⟨k, _, h⟩
    exact List.mem_map.2 ⟨_, h.2, rfl⟩
  have leaf : ∀ t, (∀ u, (t, u) ∉ sample.map fun t => (t.1, t.2.2)) → (plain sample).Ends t :=
    fun t ht => ⟨_, fun u hu => absurd (h u t hu) (ht u)⟩
  have ha : (plain sample).Ends (ex "a") := leaf _ (by simp [sample, ex])
  have hb : (plain sample).Ends (ex "b") := leaf _ (by simp [sample, ex])
  have hn : (plain sample).Ends nilT := leaf _ (by simp [sample, nilT])
  have h3 : (plain sample).Ends (.bnode "3") := ⟨_, fun u hu => by
    have := h u _ hu
    simp [sample] at this
    subst this
    exact hb⟩
  have h2 : (plain sample).Ends (.bnode "2") := ⟨_, fun u hu => by
    have := h u _ hu
    simp [sample] at this
    rcases this with rfl | rfl <;> assumption⟩
  exact ⟨_, fun u hu => by
    have := h u _ hu
    simp [sample] at this
    rcases this with rfl | rfl <;> assumption⟩

/-- `C117_exact_partial`: the graph of an inverse path is tidy. -/
example : (plain [(.bnode "3", .v .inversePath, ex "b")]).Tidy where
  one b k _ o o' h h' := by
    have := h.2
    have := h'.2
    simp_all [plain]
  kind b k k' _ _ h h' := by
    obtain ⟨o, h⟩ := not_lacks.1 h
    obtain ⟨o', h'⟩ := not_lacks.1 h'
    have := h.2
    have := h'.2
    simp_all [plain]
  list b h := by
    exfalso
    rcases h with h | h <;> obtain ⟨o, h⟩ := not_lacks.1 h <;> have := h.2 <;> simp [plain] at this
  alts b l h := by
    have := h.2
    simp [plain] at this

end Rd
