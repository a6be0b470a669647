import Verif.Load.LemmasLoad

/-!
# Properties of loading of data (C145)

`e` is any surroundings: any readers, any parser of property graphs, any configuration whose endpoints
have distinct names (they are keys of a hash map).
-/

namespace Load

open Prefix (Str PrefixMap)

section
variable {G P : Type}

/-! ## Surroundings for the examples -/

/-- White space of the examples. -/
def sp (c : Char) : Bool := c == ' ' || c == '\n' || c == '\t'

/-- Surroundings for the examples: a graph is the list of texts read, an IRI is a text starting with
`h`, a text starting with `!` is not RDF, a property graph is a list of texts. -/
def demo : Env (List Str) (List Str) where
  ws := sp
  validIri := fun s => s.head? == some 'h'
  reachable := fun _ => true
  configBase := none
  cwdBase := some (chars "file:///")
  configEndpoints := [(chars "wd", ⟨chars "http://ex.org/a", .new⟩)]
  defaults := none
  emptyGraph := []
  read := fun _ _ _ t s =>
    match t with
    | some t => ((s.1 ++ [t], s.2), t.head? != some '!')
    | none => (s, false)
  emptyPg := []
  parsePg := fun t => if t.head? == some '!' then none else some [t]
  mergePg := fun a b => a ++ b

theorem demo_names : DistinctNames demo := by simp [DistinctNames, demo]

/-- A text given directly. -/
def txt (s : String) : Input := ⟨.str (chars s), some (some (chars s))⟩

/-- A file that cannot be opened. -/
def noFile : Input := ⟨.path (chars "gone"), none⟩

/-- A call with these inputs. -/
def call (l : List Input) : Args := ⟨some l, none, none, none, none, none, none⟩

/-- Data that hold one text. -/
def oldData : Data (List Str) (List Str) := .rdf ⟨([chars "old"], .new), [], []⟩

/-! ## RDF inputs, merged -/

/-- **C145** (merging). A call for one or more RDF inputs that does not ask for replacement succeeds
exactly if there is a base, there are data to read into, the inputs are opened and read one after the
other, and the declarations of prefixes are well formed. Then the graph is what these readings make of
the one there was (a new one if there were no RDF data), the prefixes are those found, with those
declared by the user in their place, and the endpoints are unchanged. -/
theorem C145_merged (e : Env G P) (hn : DistinctNames e) (a : Args) (l : List Input) (f : Format) (mode : Mode)
    (h : a.IsRdf l f mode) (hm : a.merge ≠ some false) (hl : l ≠ []) (st : Option (Data G P)) :
    ((loadData e a st).2 = .ok ↔ ∃ base r s ds, UsedBase e a.base base ∧ Start e st r ∧
        Reads e f base mode r.store l s ∧ ArgDecls e.ws e.validIri a.prefixes ds) ∧
      ∀ base r s ds, UsedBase e a.base base → Start e st r → Reads e f base mode r.store l s →
        ArgDecls e.ws e.validIri a.prefixes ds → Loaded r s ds (loadData e a st).1 := by
  have hmt : a.merge.getD true = true := by
    cases hx : a.merge with
    | none => rfl
    | some b => cases b <;> simp_all
  obtain ⟨i, l, rfl⟩ := List.exists_cons_of_ne_nil hl
  have main : ∀ base r, UsedBase e a.base base → Start e st r →
      (∃ s, Reads e f base mode r.store (i :: l) s ∧
        ((∃ ds, ArgDecls e.ws e.validIri a.prefixes ds ∧ (loadData e a st).2 = .ok ∧
          Loaded r s ds (loadData e a st).1) ∨
        ((∀ ds, ¬ ArgDecls e.ws e.validIri a.prefixes ds) ∧ (loadData e a st).2 = .err))) ∨
      ((∀ s, ¬ Reads e f base mode r.store (i :: l) s) ∧ (loadData e a st).2 = .err) := by
    intro base r hb hs
    have ht := (target_true_iff e hn st r).2 hs
    rw [loadData_rdf e a (i :: l) f mode h base hb st, hmt]
    cases ho : i.opened with
    | none =>
      refine Or.inr ⟨?_, ?_⟩
      · intro s hr
        cases hr with
        | cons ho' _ _ _ =>
          rw [ho] at ho'
          simp at ho'
      · simp [loadRdf, readAllRdf, ho]
    | some text =>
      have hst := readAll_start e f base mode i l st r ht (by simp [ho])
      rcases readAll_rdf e f base mode (i :: l) r with ⟨s, hr, hq⟩ | ⟨done, j, rest, s, s', hl', hr, hstop, hq⟩
      · left
        refine ⟨s, hr, ?_⟩
        rw [← hst] at hq
        rcases loadRdf_prefixes e (i :: l) f base mode true a.prefixes st _ hq with
          ⟨ds, hd, st', hst', hld⟩ | ⟨hnd, hst'⟩
        · left
          refine ⟨ds, hd, ?_, ?_⟩
          · rw [hst']
          · rw [hst']
            exact hld
        · right
          exact ⟨hnd, by rw [hst']⟩
      · right
        rw [← hst] at hq
        refine ⟨?_, by simp [loadRdf, hq]⟩
        intro s2 hr2
        rw [hst] at hq
        -- a run that stops is not a run to the end
        have : ∀ (done : List Input) (s0 s1 s2 s' : G × PrefixMap) (j : Input) (rest : List Input),
            Reads e f base mode s0 done s1 → Stops e f base mode s1 j s' →
              ¬ Reads e f base mode s0 (done ++ j :: rest) s2 := by
          intro done
          induction done with
          | nil =>
            intro s0 s1 s2 s' j rest h1 h2 h3
            cases h1
            cases h3 with
            | cons ho3 hg3 hr3 hs3 =>
              cases h2 with
              | closed h => rw [h] at ho3; simp at ho3
              | binary h hg => rw [h] at ho3; cases ho3; exact hg _ hg3
              | failed h hg hr =>
                rw [h] at ho3
                cases ho3
                cases given_unique hg hg3
                rw [hr] at hr3
                simp at hr3
          | cons d done ih =>
            intro s0 s1 s2 s' j rest h1 h2 h3
            cases h1 with
            | cons ho1 hg1 hr1 hs1 =>
              cases h3 with
              | cons ho3 hg3 hr3 hs3 =>
                rw [ho1] at ho3
                cases ho3
                cases given_unique hg1 hg3
                rw [hr1] at hr3
                cases hr3
                exact ih _ _ _ _ _ _ hs1 h2 hs3
        rw [hl'] at hr2
        exact this done _ _ _ _ j rest hr hstop hr2
  refine ⟨⟨?_, ?_⟩, ?_⟩
  · intro hok
    cases hb : getBase e a.base with
    | none =>
      have : loadData e a st = (st, .err) := by simp [loadData, hb]
      rw [this] at hok
      simp at hok
    | some base =>
      have hb' := (getBase_iff _ _ _).1 hb
      cases ht : target e true st with
      | none =>
        rw [loadData_rdf e a _ f mode h base hb' st, hmt] at hok
        have : (loadRdf e (i :: l) f base mode true a.prefixes st).2 = .err := by
          cases ho : i.opened with
          | none => simp [loadRdf, readAllRdf, ho]
          | some text => simp [loadRdf, readAllRdf, ho, readRdf_none e f base mode true text st ht]
        rw [this] at hok
        simp at hok
      | some r =>
        have hs := (target_true_iff e hn st r).1 ht
        rcases main base r hb' hs with ⟨s, hr, ⟨ds, hd, -, -⟩ | ⟨-, hx⟩⟩ | ⟨-, hx⟩
        · exact ⟨base, r, s, ds, hb', hs, hr, hd⟩
        · rw [hx] at hok
          simp at hok
        · rw [hx] at hok
          simp at hok
  · rintro ⟨base, r, s, ds, hb, hs, hr, hd⟩
    rcases main base r hb hs with ⟨s', -, ⟨-, -, hx, -⟩ | ⟨hx, -⟩⟩ | ⟨hx, -⟩
    · exact hx
    · exact absurd hd (hx ds)
    · exact absurd hr (hx s)
  · intro base r s ds hb hs hr hd
    rcases main base r hb hs with ⟨s', hr', ⟨ds', hd', -, hx⟩ | ⟨hx, -⟩⟩ | ⟨hx, -⟩
    · rw [reads_unique hr hr', argDecls_unique hd hd']
      exact hx
    · exact absurd hd (hx ds)
    · exact absurd hr (hx s)

/-- Two texts are read into the data there were. -/
example : (call [txt "x", txt "y"]).IsRdf [txt "x", txt "y"] .turtle .strict ∧
    ∃ r, (loadData demo (call [txt "x", txt "y"]) (some oldData)).1 = some (.rdf r) ∧
      r.store.1 = [chars "old", chars "x", chars "y"] :=
  ⟨⟨rfl, rfl, by simp, Or.inr ⟨rfl, rfl⟩, Or.inr ⟨rfl, rfl⟩⟩, _, rfl, rfl⟩

/-! ## RDF inputs, replacing -/

/-- **C145** (replacing). A call for RDF inputs that asks for replacement reads **each** input into new
data: it succeeds exactly if each can be read alone, and what is left is what the last one gives. -/
theorem C145_replaced (e : Env G P) (hn : DistinctNames e) (a : Args) (l : List Input) (i : Input) (f : Format)
    (mode : Mode) (h : a.IsRdf (l ++ [i]) f mode) (hm : a.merge = some false) (st : Option (Data G P)) :
    ((loadData e a st).2 = .ok ↔ ∃ base r ds, UsedBase e a.base base ∧ Fresh e r ∧
        (∀ j ∈ l ++ [i], ∃ s, Reads e f base mode r.store [j] s) ∧ ArgDecls e.ws e.validIri a.prefixes ds) ∧
      ∀ base r s ds, UsedBase e a.base base → Fresh e r →
        (∀ j ∈ l, ∃ s', Reads e f base mode r.store [j] s') → Reads e f base mode r.store [i] s →
        ArgDecls e.ws e.validIri a.prefixes ds → Loaded r s ds (loadData e a st).1 := by
  have hmt : a.merge.getD true = false := by rw [hm]; rfl
  have noPanic : ∀ base, (readAllRdf e f base mode false (l ++ [i]) st).2 ≠ .ok →
      (loadRdf e (l ++ [i]) f base mode false a.prefixes st).2 ≠ .ok := by
    intro base hne
    unfold loadRdf
    cases hr : readAllRdf e f base mode false (l ++ [i]) st with
    | mk st1 o =>
      rw [hr] at hne
      cases o with
      | ok => exact absurd rfl hne
      | err => simp
      | panic => simp
  refine ⟨⟨?_, ?_⟩, ?_⟩
  · intro hok
    cases hb : getBase e a.base with
    | none =>
      have : loadData e a st = (st, .err) := by simp [loadData, hb]
      rw [this] at hok
      simp at hok
    | some base =>
      have hb' := (getBase_iff _ _ _).1 hb
      rw [loadData_rdf e a _ f mode h base hb' st, hmt] at hok
      cases hr : readAllRdf e f base mode false (l ++ [i]) st with
      | mk st1 o =>
        by_cases ho : o = .ok
        · subst ho
          obtain ⟨r, s, hi, hl, hs, rfl⟩ := (readAll_replace e f base mode l i st st1).1 hr
          rcases loadRdf_prefixes e (l ++ [i]) f base mode false a.prefixes st _ hr with
            ⟨ds, hd, -⟩ | ⟨-, hx⟩
          · refine ⟨base, r, ds, hb', (initRdf_iff e hn r).1 hi, ?_, hd⟩
            intro j hj
            rcases List.mem_append.1 hj with hj | hj
            · exact hl j hj
            · simp only [List.mem_singleton] at hj
              subst hj
              exact ⟨s, hs⟩
          · rw [hx] at hok
            simp at hok
        · exact absurd hok (noPanic base (by rw [hr]; exact ho))
  · rintro ⟨base, r, ds, hb, hf, hl, hd⟩
    obtain ⟨s, hs⟩ := hl i (by simp)
    rw [loadData_rdf e a _ f mode h base hb st, hmt]
    have hr := (readAll_replace e f base mode l i st _).2
      ⟨r, s, (initRdf_iff e hn r).2 hf, fun j hj => hl j (by simp [hj]), hs, rfl⟩
    rcases loadRdf_prefixes e (l ++ [i]) f base mode false a.prefixes st _ hr with
      ⟨ds', hd', st', hx, -⟩ | ⟨hx, -⟩
    · rw [hx]
    · exact absurd hd (hx ds)
  · intro base r s ds hb hf hl hs hd
    rw [loadData_rdf e a _ f mode h base hb st, hmt]
    have hr := (readAll_replace e f base mode l i st _).2 ⟨r, s, (initRdf_iff e hn r).2 hf, hl, hs, rfl⟩
    rcases loadRdf_prefixes e (l ++ [i]) f base mode false a.prefixes st _ hr with
      ⟨ds', hd', st', hx, hx'⟩ | ⟨hx, -⟩
    · rw [hx, argDecls_unique hd hd']
      exact hx'
    · exact absurd hd (hx ds)

/-- The call with two inputs and replacement. -/
example : ({ call [txt "x", txt "y"] with merge := some false } : Args).IsRdf ([txt "x"] ++ [txt "y"]) .turtle .strict :=
  ⟨rfl, rfl, by simp, Or.inr ⟨rfl, rfl⟩, Or.inr ⟨rfl, rfl⟩⟩

/-- **C145** (replacing, refuted). It is not so that a call with replacement leaves what all its inputs
give, read one after the other into new data. -/
theorem C145_replaced_refuted :
    ¬ ∀ (e : Env (List Str) (List Str)), DistinctNames e → ∀ (a : Args) (l : List Input) (f : Format) (mode : Mode),
      a.IsRdf l f mode → a.merge = some false → ∀ (st : Option (Data (List Str) (List Str))) base r s,
        UsedBase e a.base base → Fresh e r → Reads e f base mode r.store l s → a.prefixes = none →
        Loaded r s [] (loadData e a st).1 := by
  intro h
  have hfresh : Fresh demo ⟨([], .new), demo.configEndpoints, []⟩ := ⟨by simp [demo], rfl⟩
  have hr : Reads demo .turtle (chars "file:///") .strict ([], .new) [txt "x", txt "y"] ([chars "x", chars "y"], .new) :=
    .cons rfl .turtle rfl (.cons rfl .turtle rfl .nil)
  obtain ⟨pm, hpm, -⟩ := h demo demo_names { call [txt "x", txt "y"] with merge := some false }
    [txt "x", txt "y"] .turtle .strict ⟨rfl, rfl, by simp, Or.inr ⟨rfl, rfl⟩, Or.inr ⟨rfl, rfl⟩⟩ rfl none
    (chars "file:///") _ _ (.cwd rfl rfl) hfresh hr rfl
  have h1 : (loadData demo { call [txt "x", txt "y"] with merge := some false } none).1 =
      some (.rdf ⟨([chars "y"], .new), demo.configEndpoints, []⟩) := rfl
  rw [h1] at hpm
  simp only [Option.some.injEq, Data.rdf.injEq, Rdf.mk.injEq, Prod.mk.injEq] at hpm
  exact absurd hpm.1.1 (by decide +kernel)

/-! ## Property graphs -/

theorem loadPg_true (e : Env G P) (l : List Input) (p : P) :
    (∀ qs, PgInputs e l qs → loadPg e true l (some (.pg p)) = (some (.pg (qs.foldl e.mergePg p)), .ok)) ∧
      ((∀ qs, ¬ PgInputs e l qs) → (loadPg e true l (some (.pg p))).2 = .err) := by
  induction l generalizing p with
  | nil =>
    refine ⟨?_, fun h => absurd .nil (h [])⟩
    intro qs h
    cases h
    rfl
  | cons i l ih =>
    refine ⟨?_, ?_⟩
    · intro qs h
      cases h with
      | cons h hs =>
        obtain ⟨t, ho, hp⟩ := h
        simp only [loadPg, ho, readPg, hp]
        exact (ih _).1 _ hs
    · intro h
      unfold loadPg
      cases ho : i.opened with
      | none => rfl
      | some text =>
        cases text with
        | none => simp [readPg]
        | some t =>
          simp only [readPg]
          cases hp : e.parsePg t with
          | none => rfl
          | some q =>
            simp only
            refine (ih _).2 ?_
            intro qs hqs
            exact h (q :: qs) (.cons ⟨t, ho, hp⟩ hqs)

/-- **C145** (property graphs). A call for one or more property graphs succeeds exactly if there is a
base and each input is opened and is the text of a property graph. If replacement is not asked for, the
graphs are merged in turn with the one there was (an empty one if there was none); else what is left is
the last one, merged with an empty graph. -/
theorem C145_property_graphs (e : Env G P) (a : Args) (l : List Input) (i : Input) (h : a.IsPg (l ++ [i]))
    (st : Option (Data G P)) :
    ((loadData e a st).2 = .ok ↔ (∃ base, UsedBase e a.base base) ∧ ∃ qs, PgInputs e (l ++ [i]) qs) ∧
      ∀ base qs q, UsedBase e a.base base → PgInputs e (l ++ [i]) (qs ++ [q]) →
        (a.merge ≠ some false → ∀ p, (st = some (.pg p) ∨ (∀ p', st ≠ some (.pg p')) ∧ p = e.emptyPg) →
          (loadData e a st).1 = some (.pg ((qs ++ [q]).foldl e.mergePg p))) ∧
        (a.merge = some false → (loadData e a st).1 = some (.pg (e.mergePg e.emptyPg q))) := by
  obtain ⟨hd, he, hf⟩ := h
  have hload : ∀ base, UsedBase e a.base base →
      loadData e a st = loadPg e (a.merge.getD true) (l ++ [i]) st := by
    intro base hb
    simp [loadData, (getBase_iff _ _ _).2 hb, hd, he, hf]
  have hstart : ∀ j k p, (st = some (.pg p) ∨ (∀ p', st ≠ some (.pg p')) ∧ p = e.emptyPg) → j :: k = l ++ [i] →
      (j.opened ≠ none → loadPg e true (l ++ [i]) st = loadPg e true (l ++ [i]) (some (.pg p))) := by
    rintro j k p (rfl | ⟨hp, rfl⟩) hjk ho
    · rfl
    · rw [← hjk]
      unfold loadPg
      cases ho' : j.opened with
      | none => exact absurd ho' ho
      | some text =>
        simp only
        have : readPg e true text st = readPg e true text (some (.pg e.emptyPg)) := by
          unfold readPg
          rcases st with _ | (r | p)
          · rfl
          · rfl
          · exact absurd rfl (hp p)
        rw [this]
  have hrep : ∀ (l : List Input) (st : Option (Data G P)),
      (∀ qs q, PgInputs e (l ++ [i]) (qs ++ [q]) →
        loadPg e false (l ++ [i]) st = (some (.pg (e.mergePg e.emptyPg q)), .ok)) ∧
      ((∀ qs, ¬ PgInputs e (l ++ [i]) qs) → (loadPg e false (l ++ [i]) st).2 = .err) := by
    intro l
    induction l with
    | nil =>
      intro st
      refine ⟨?_, ?_⟩
      · intro qs q h
        cases qs with
        | nil =>
          cases h with
          | cons h hs =>
            obtain ⟨t, ho, hp⟩ := h
            simp [loadPg, ho, readPg, hp]
        | cons x qs =>
          cases h with
          | cons h hs => cases qs <;> cases hs
      · intro h
        simp only [List.nil_append, loadPg]
        cases ho : i.opened with
        | none => rfl
        | some text =>
          cases text with
          | none => simp [readPg]
          | some t =>
            simp only [readPg]
            cases hp : e.parsePg t with
            | none => rfl
            | some q => exact absurd (.cons ⟨t, ho, hp⟩ .nil) (h [q])
    | cons j l ih =>
      intro st
      refine ⟨?_, ?_⟩
      · intro qs q h
        cases qs with
        | nil =>
          cases h with
          | cons h hs => cases l <;> cases hs
        | cons x qs =>
          cases h with
          | cons h hs =>
            obtain ⟨t, ho, hp⟩ := h
            simp only [List.cons_append, loadPg, ho, readPg, hp]
            exact (ih _).1 qs q hs
      · intro h
        simp only [List.cons_append, loadPg]
        cases ho : j.opened with
        | none => rfl
        | some text =>
          cases text with
          | none => simp [readPg]
          | some t =>
            simp only [readPg]
            cases hp : e.parsePg t with
            | none => rfl
            | some q =>
              simp only
              refine (ih _).2 ?_
              intro qs hqs
              exact h (q :: qs) (.cons ⟨t, ho, hp⟩ hqs)
  have hmerge : a.merge ≠ some false → a.merge.getD true = true := by
    intro hm
    cases hx : a.merge with
    | none => rfl
    | some b => cases b <;> simp_all
  have hpp : ∃ p, st = some (.pg p) ∨ (∀ p', st ≠ some (.pg p')) ∧ p = e.emptyPg := by
    rcases st with _ | (r | p)
    · exact ⟨_, Or.inr ⟨by simp, rfl⟩⟩
    · exact ⟨_, Or.inr ⟨by simp, rfl⟩⟩
    · exact ⟨p, Or.inl rfl⟩
  have hcons : ∃ j k, j :: k = l ++ [i] := by
    cases l with
    | nil => exact ⟨i, [], rfl⟩
    | cons j l => exact ⟨j, l ++ [i], rfl⟩
  obtain ⟨j, k, hjk⟩ := hcons
  have hopen : ∀ qs, PgInputs e (l ++ [i]) qs → j.opened ≠ none := by
    intro qs hq
    rw [← hjk] at hq
    cases hq with
    | cons h _ =>
      obtain ⟨t, ho, -⟩ := h
      simp [ho]
  refine ⟨⟨?_, ?_⟩, ?_⟩
  · intro hok
    cases hb : getBase e a.base with
    | none =>
      have : loadData e a st = (st, .err) := by simp [loadData, hb]
      rw [this] at hok
      simp at hok
    | some base =>
      have hb' := (getBase_iff _ _ _).1 hb
      refine ⟨⟨base, hb'⟩, ?_⟩
      by_contra hno
      push_neg at hno
      rw [hload base hb'] at hok
      cases hx : a.merge.getD true with
      | false =>
        rw [hx, (hrep l st).2 hno] at hok
        simp at hok
      | true =>
        rw [hx] at hok
        obtain ⟨p, hp⟩ := hpp
        by_cases ho : j.opened = none
        · rw [← hjk] at hok
          simp [loadPg, ho] at hok
        · rw [hstart j k p hp hjk ho, (loadPg_true e (l ++ [i]) p).2 hno] at hok
          simp at hok
  · rintro ⟨⟨base, hb⟩, qs, hq⟩
    rw [hload base hb]
    cases hx : a.merge.getD true with
    | false =>
      have : qs ≠ [] := by
        rintro rfl
        rw [← hjk] at hq
        cases hq
      obtain ⟨qs', q, rfl⟩ := List.eq_nil_or_concat qs |>.resolve_left this
      rw [(hrep l st).1 qs' q (by simpa using hq)]
    | true =>
      obtain ⟨p, hp⟩ := hpp
      rw [hstart j k p hp hjk (hopen _ hq), (loadPg_true e (l ++ [i]) p).1 _ hq]
  · intro base qs q hb hq
    rw [hload base hb]
    refine ⟨?_, ?_⟩
    · intro hm p hp
      rw [hmerge hm, hstart j k p hp hjk (hopen _ hq), (loadPg_true e (l ++ [i]) p).1 _ hq]
    · intro hm
      rw [hm]
      simp only [Option.getD_some]
      rw [(hrep l st).1 qs q hq]

/-- Two property graphs, merged into nothing. -/
example : ({ call [txt "x", txt "y"] with format := some .pg } : Args).IsPg ([txt "x"] ++ [txt "y"]) ∧
    (loadData demo { call [txt "x", txt "y"] with format := some .pg } (some oldData)).1 =
      some (.pg [chars "x", chars "y"]) :=
  ⟨⟨rfl, rfl, rfl⟩, rfl⟩

/-! ## Endpoints -/

/-- **C145** (endpoints). A call for an endpoint succeeds exactly if there is a base, the endpoints of
the configuration can be used and the text stands for an endpoint. Then, whatever the data were and
whatever the other arguments say, the data are an empty graph with the endpoints of the configuration
and that endpoint alone, under the text given, in use. -/
theorem C145_endpoint (e : Env G P) (hn : DistinctNames e) (a : Args) (s : Str) (hd : a.data = none)
    (he : a.endpoint = some s) (st : Option (Data G P)) :
    ((loadData e a st).2 = .ok ↔ ∃ base r ep, UsedBase e a.base base ∧ Fresh e r ∧
        StandsFor e.ws e.validIri e.reachable e.configEndpoints s ep) ∧
      ∀ base r ep, UsedBase e a.base base → Fresh e r →
        StandsFor e.ws e.validIri e.reachable e.configEndpoints s ep →
        (loadData e a st).1 = some (.rdf ⟨(e.emptyGraph, .new), e.configEndpoints, [(s, ep)]⟩) := by
  have hload : ∀ base, UsedBase e a.base base → loadData e a st = loadEndpoint e s st := by
    intro base hb
    simp [loadData, (getBase_iff _ _ _).2 hb, hd, he]
  have hr : ∀ r ep, Fresh e r → StandsFor e.ws e.validIri e.reachable e.configEndpoints s ep →
      loadEndpoint e s st = (some (.rdf ⟨(e.emptyGraph, .new), e.configEndpoints, [(s, ep)]⟩), .ok) := by
    intro r ep hf hs
    unfold loadEndpoint
    rw [(initRdf_iff e hn r).2 hf]
    obtain ⟨-, rfl⟩ := hf
    simp only
    rw [(getEndpoint_iff _ _ _ _ hn _ _).2 hs]
    rfl
  refine ⟨⟨?_, ?_⟩, ?_⟩
  · intro hok
    cases hb : getBase e a.base with
    | none =>
      have : loadData e a st = (st, .err) := by simp [loadData, hb]
      rw [this] at hok
      simp at hok
    | some base =>
      have hb' := (getBase_iff _ _ _).1 hb
      rw [hload base hb'] at hok
      unfold loadEndpoint at hok
      cases hi : initRdf e with
      | none =>
        rw [hi] at hok
        simp at hok
      | some r =>
        rw [hi] at hok
        have hf := (initRdf_iff e hn r).1 hi
        simp only at hok
        cases hg : getEndpoint e.ws e.validIri e.reachable r.endpoints s with
        | none =>
          rw [hg] at hok
          simp at hok
        | some ep =>
          refine ⟨base, r, ep, hb', hf, ?_⟩
          obtain ⟨-, rfl⟩ := hf
          exact (getEndpoint_iff _ _ _ _ hn _ _).1 hg
  · rintro ⟨base, r, ep, hb, hf, hs⟩
    rw [hload base hb, hr r ep hf hs]
  · intro base r ep hb hf hs
    rw [hload base hb, hr r ep hf hs]

/-- The text is the name of an endpoint of the configuration. -/
example : StandsFor demo.ws demo.validIri demo.reachable demo.configEndpoints (chars "wd")
      ⟨chars "http://ex.org/a", .new⟩ ∧
    ∃ r, Fresh demo r :=
  ⟨Or.inl (by simp [demo]), _, by simp [demo], rfl⟩

/-- **C145** (endpoints told apart, refuted). It is not so that an address stands for an endpoint at this
address: letters of the path count as equal in both cases, and so do `http` and `https`. -/
theorem C145_address_refuted :
    ¬ ∀ (ws : Char → Bool) (valid reachable : Str → Bool) (known : List (Str × Endpoint)) (s : Str) (ep : Endpoint),
      (∀ k ∈ known, k.1 ≠ s) → valid s = true → StandsFor ws valid reachable known s ep → ep.iri = s := by
  intro h
  have hs := (getEndpoint_iff sp (fun _ => true) (fun _ => true) demo.configEndpoints (by decide +kernel)
    (chars "https://ex.org/A") ⟨chars "http://ex.org/a", .new⟩).1 (by decide +kernel)
  have := h sp (fun _ => true) (fun _ => true) demo.configEndpoints _ _ (by decide +kernel) rfl hs
  exact absurd this (by decide +kernel)

/-! ## Calls that fail -/

/-- **C145** (nothing changes). If there is no base, or both inputs and an endpoint are given, or
neither, or the first input cannot be opened, the call fails and the data stay as they were. -/
theorem C145_unchanged (e : Env G P) (a : Args) (st : Option (Data G P))
    (h : (∀ b, ¬ UsedBase e a.base b) ∨ (a.data ≠ none ∧ a.endpoint ≠ none) ∨
      (a.data = none ∧ a.endpoint = none) ∨
      (a.endpoint = none ∧ ∃ i l, a.data = some (i :: l) ∧ i.opened = none)) :
    loadData e a st = (st, .err) := by
  rcases h with h | ⟨h1, h2⟩ | ⟨h1, h2⟩ | ⟨h1, i, l, h2, ho⟩
  · exact loadData_nobase e a h st
  · unfold loadData
    cases getBase e a.base with
    | none => rfl
    | some b =>
      cases hd : a.data with
      | none => exact absurd hd h1
      | some d =>
        cases he : a.endpoint with
        | none => exact absurd he h2
        | some s => rfl
  · unfold loadData
    cases getBase e a.base with
    | none => rfl
    | some b => rw [h1, h2]
  · unfold loadData
    cases getBase e a.base with
    | none => rfl
    | some b =>
      rw [h1, h2]
      simp only
      split
      · simp [loadPg, ho]
      · simp [loadRdf, readAllRdf, ho]

/-- A call whose first file is missing. -/
example : (call [noFile, txt "x"]).data = some (noFile :: [txt "x"]) ∧ noFile.opened = none := ⟨rfl, rfl⟩

/-- **C145** (what a failure leaves). If a call for RDF inputs that does not ask for replacement fails
though there is a base and there are data to read into, then either reading stopped at some input, and
the data hold what was read before it and what the reader left of it, or all was read and a declaration
of a prefix is wrong, and the data hold all that was read. Only if no input was opened are they as they
were. -/
theorem C145_failed_partial (e : Env G P) (hn : DistinctNames e) (a : Args) (l : List Input) (f : Format) (mode : Mode)
    (h : a.IsRdf l f mode) (hm : a.merge ≠ some false) (st : Option (Data G P)) (base : Str) (r : Rdf G)
    (hb : UsedBase e a.base base) (hs : Start e st r) (hf : (loadData e a st).2 = .err) :
    (∃ done i rest s s', l = done ++ i :: rest ∧ Reads e f base mode r.store done s ∧
        Stops e f base mode s i s' ∧
        ((loadData e a st).1 = some (.rdf { r with store := s' }) ∨
          done = [] ∧ i.opened = none ∧ (loadData e a st).1 = st)) ∨
      (∃ s, Reads e f base mode r.store l s ∧ (∀ ds, ¬ ArgDecls e.ws e.validIri a.prefixes ds) ∧
        ((loadData e a st).1 = some (.rdf { r with store := s }) ∨ l = [] ∧ (loadData e a st).1 = st)) := by
  have hmt : a.merge.getD true = true := by
    cases hx : a.merge with
    | none => rfl
    | some b => cases b <;> simp_all
  rw [loadData_rdf e a l f mode h base hb st, hmt] at hf ⊢
  have ht := (target_true_iff e hn st r).2 hs
  cases l with
  | nil =>
    right
    refine ⟨r.store, .nil, ?_, Or.inr ⟨rfl, ?_⟩⟩
    · rintro ds (⟨hp, rfl⟩ | ⟨ps, hp, hd⟩)
      · rw [hp] at hf
        simp [loadRdf, readAllRdf] at hf
      · rw [hp] at hf
        obtain ⟨pm, hpm⟩ := (allUserPrefixes_iff e ps PrefixMap.new (by simp [PrefixMap.new])).2 ds hd
        simp only [loadRdf, readAllRdf, hpm] at hf
        split at hf <;> simp at hf
    · unfold loadRdf readAllRdf
      simp only
      cases hp : a.prefixes with
      | none => rfl
      | some ps =>
        simp only
        cases hq : allUserPrefixes e PrefixMap.new ps with
        | none => rfl
        | some pm =>
          rw [hp] at hf
          simp only [loadRdf, readAllRdf, hq] at hf
          split at hf <;> simp at hf
  | cons i l =>
    cases ho : i.opened with
    | none =>
      left
      refine ⟨[], i, l, r.store, r.store, rfl, .nil, .closed ho, Or.inr ⟨rfl, ho, ?_⟩⟩
      simp [loadRdf, readAllRdf, ho]
    | some text =>
      have hst := readAll_start e f base mode i l st r ht (by simp [ho])
      rcases readAll_rdf e f base mode (i :: l) r with ⟨s, hr, hq⟩ | ⟨done, j, rest, s, s', hl', hr, hstop, hq⟩
      · right
        rw [← hst] at hq
        rcases loadRdf_prefixes e (i :: l) f base mode true a.prefixes st _ hq with
          ⟨ds, hd, st', hst', -⟩ | ⟨hnd, hst'⟩
        · rw [hst'] at hf
          simp at hf
        · exact ⟨s, hr, hnd, Or.inl (by rw [hst'])⟩
      · left
        rw [← hst] at hq
        exact ⟨done, j, rest, s, s', hl', hr, hstop, Or.inl (by simp [loadRdf, hq])⟩

/-- The second of two files is missing. -/
example : (loadData demo (call [txt "x", noFile]) (some oldData)).2 = .err := rfl

/-- **C145** (all or nothing, refuted). A call that fails may change the data: inputs before the one that
fails stay loaded, and a text that stands for no endpoint loses the data there were. -/
theorem C145_atomic_refuted :
    (¬ ∀ (e : Env (List Str) (List Str)), DistinctNames e → ∀ (a : Args) (st : Option (Data (List Str) (List Str))),
        a.endpoint = none → (loadData e a st).2 = .err → (loadData e a st).1 = st) ∧
      ¬ ∀ (e : Env (List Str) (List Str)), DistinctNames e → ∀ (a : Args) (st : Option (Data (List Str) (List Str))),
        a.data = none → (loadData e a st).2 = .err → (loadData e a st).1 = st := by
  refine ⟨?_, ?_⟩
  · intro h
    have h1 := h demo demo_names (call [txt "x", noFile]) (some oldData) rfl rfl
    have h2 : (loadData demo (call [txt "x", noFile]) (some oldData)).1 =
        some (.rdf ⟨([chars "old", chars "x"], .new), [], []⟩) := rfl
    rw [h2] at h1
    simp [oldData] at h1
  · intro h
    have h1 := h demo demo_names ⟨none, none, none, some (chars "nowhere"), none, none, none⟩ (some oldData) rfl
      (by decide +kernel)
    have h2 : (loadData demo ⟨none, none, none, some (chars "nowhere"), none, none, none⟩ (some oldData)).1 =
        some (.rdf ⟨([], .new), demo.configEndpoints, []⟩) := rfl
    rw [h2] at h1
    simp [oldData] at h1

/-- **C145** (an endpoint overrides inputs, refuted). The documentation of `load_data` says that an
endpoint overrides the inputs; the call with both always fails. -/
theorem C145_override_refuted (e : Env G P) (a : Args) (st : Option (Data G P)) (l : List Input) (s : Str)
    (hd : a.data = some l) (he : a.endpoint = some s) : loadData e a st = (st, .err) :=
  C145_unchanged e a st (Or.inr (Or.inl ⟨by simp [hd], by simp [he]⟩))

/-- Both are given. -/
example : ({ call [txt "x"] with endpoint := some (chars "wd") } : Args).data = some [txt "x"] ∧
    ({ call [txt "x"] with endpoint := some (chars "wd") } : Args).endpoint = some (chars "wd") := ⟨rfl, rfl⟩

/-! ## Calls that panic -/

/-- **C145** (panics). A call panics exactly if it is for RDF inputs, there is a base, there is no input at
all, prefixes are declared, without mistakes, and there are no RDF data to declare them in. -/
theorem C145_panic (e : Env G P) (a : Args) (st : Option (Data G P)) :
    (loadData e a st).2 = .panic ↔
      (∃ f mode, a.IsRdf [] f mode) ∧ (∃ base, UsedBase e a.base base) ∧
        (∃ ps ds, a.prefixes = some ps ∧ AllDecls e.ws e.validIri ps ds) ∧ ∀ r, st ≠ some (.rdf r) := by
  have hread : ∀ f base mode merge (l : List Input) (st : Option (Data G P)),
      (readAllRdf e f base mode merge l st).2 ≠ .panic ∧
        (l ≠ [] → (readAllRdf e f base mode merge l st).2 = .ok →
          ∃ r, (readAllRdf e f base mode merge l st).1 = some (.rdf r)) := by
    intro f base mode merge l
    induction l with
    | nil =>
      intro st
      exact ⟨by simp [readAllRdf], fun h => absurd rfl h⟩
    | cons i l ih =>
      intro st
      unfold readAllRdf
      cases ho : i.opened with
      | none => simp
      | some text =>
        simp only
        cases ht : target e merge st with
        | none => simp [readRdf_none e f base mode merge text st ht]
        | some r =>
          rcases readRdf_spec e f base mode merge text st r ht with
            ⟨g, s1, hg, hr, hq⟩ | ⟨g, s1, hg, hr, hq⟩ | ⟨hg, hq⟩
          · rw [hq]
            simp only
            refine ⟨(ih _).1, fun _ hok => ?_⟩
            cases l with
            | nil => exact ⟨_, rfl⟩
            | cons j l => exact (ih _).2 (by simp) hok
          · simp [hq]
          · simp [hq]
  have hpg : ∀ merge (l : List Input) (st : Option (Data G P)), (loadPg e merge l st).2 ≠ .panic := by
    intro merge l
    induction l with
    | nil => intro st; simp [loadPg]
    | cons i l ih =>
      intro st
      unfold loadPg
      cases ho : i.opened with
      | none => simp
      | some text =>
        cases text with
        | none => simp [readPg]
        | some t =>
          simp only [readPg]
          cases e.parsePg t with
          | none => simp
          | some q => exact ih _
  have hep : ∀ s (st : Option (Data G P)), (loadEndpoint e s st).2 ≠ .panic := by
    intro s st
    unfold loadEndpoint
    split
    · simp
    · split <;> simp
  constructor
  · intro hp
    cases hb : getBase e a.base with
    | none =>
      have : loadData e a st = (st, .err) := by simp [loadData, hb]
      rw [this] at hp
      simp at hp
    | some base =>
      have hb' := (getBase_iff _ _ _).1 hb
      cases hd : a.data with
      | none =>
        cases he : a.endpoint with
        | none => simp [loadData, hb, hd, he] at hp
        | some s =>
          simp only [loadData, hb, hd, he] at hp
          exact absurd hp (hep _ _)
      | some l =>
        cases he : a.endpoint with
        | some s => simp [loadData, hb, hd, he] at hp
        | none =>
          by_cases hf : a.format = some .pg
          · simp only [loadData, hb, hd, he, hf, Option.getD_some] at hp
            exact absurd hp (hpg _ _ _)
          · have hrdf : a.IsRdf l (a.format.getD .turtle) (a.mode.getD .strict) := by
              refine ⟨hd, he, ?_, ?_, ?_⟩
              · cases hx : a.format with
                | none => simp
                | some x => simpa [hx] using hf
              · cases a.format <;> simp
              · cases a.mode <;> simp
            rw [loadData_rdf e a l _ _ hrdf base hb' st] at hp
            unfold loadRdf at hp
            have hrd := hread (a.format.getD .turtle) base (a.mode.getD .strict) (a.merge.getD true) l st
            cases hr : readAllRdf e (a.format.getD .turtle) base (a.mode.getD .strict) (a.merge.getD true) l st with
            | mk st1 o =>
              rw [hr] at hp hrd
              cases o with
              | panic => exact absurd rfl hrd.1
              | err => simp at hp
              | ok =>
                simp only at hp
                cases hps : a.prefixes with
                | none => simp [hps] at hp
                | some ps =>
                  rw [hps] at hp
                  simp only at hp
                  cases hq : allUserPrefixes e PrefixMap.new ps with
                  | none => simp [hq] at hp
                  | some pm =>
                    rw [hq] at hp
                    simp only at hp
                    have hnot : ∀ r, st1 ≠ some (.rdf r) := by
                      rintro r rfl
                      simp at hp
                    have hl : l = [] := by
                      by_contra hl
                      obtain ⟨r, h⟩ := hrd.2 hl rfl
                      exact hnot r h
                    subst hl
                    have hst : st1 = st := by
                      simp only [readAllRdf, Prod.mk.injEq, and_true] at hr
                      exact hr.symm
                    subst hst
                    obtain ⟨ds, hds, -, -⟩ :=
                      (allUserPrefixes_iff e ps PrefixMap.new (by simp [PrefixMap.new])).1 pm hq
                    exact ⟨⟨_, _, hrdf⟩, ⟨base, hb'⟩, ⟨ps, ds, rfl, hds⟩, hnot⟩
  · rintro ⟨⟨f, mode, h⟩, ⟨base, hb⟩, ⟨ps, ds, hps, hds⟩, hst⟩
    rw [loadData_rdf e a [] f mode h base hb st]
    obtain ⟨pm, hpm⟩ := (allUserPrefixes_iff e ps PrefixMap.new (by simp [PrefixMap.new])).2 ds hds
    rcases st with _ | (r | p)
    · simp [loadRdf, readAllRdf, hps, hpm]
    · exact absurd rfl (hst r)
    · simp [loadRdf, readAllRdf, hps, hpm]

/-- No input, a prefix, and no data. -/
example : (loadData demo { call [] with prefixes := some [txt "ex: <http://ex.org/>"] } none).2 = .panic := by
  decide +kernel

end

#print axioms C145_merged
#print axioms C145_replaced
#print axioms C145_replaced_refuted
#print axioms C145_property_graphs
#print axioms C145_endpoint
#print axioms C145_address_refuted
#print axioms C145_unchanged
#print axioms C145_failed_partial
#print axioms C145_atomic_refuted
#print axioms C145_override_refuted
#print axioms C145_panic

end Load
