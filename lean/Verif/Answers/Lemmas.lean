import Verif.Answers.Spec
import Verif.Prefix.Lemmas

/-! # Lemmas on answers to queries -/

namespace Answers
open Prefix (PrefixMap)

variable {T L U : Type}

theorem needsQuotes_cons {c : Char} {f : Str} (h : needsQuotes (c :: f) = false) :
    (c ≠ ',' ∧ c ≠ '"' ∧ c ≠ '\r' ∧ c ≠ '\n') ∧ needsQuotes f = false := by
  simp only [needsQuotes, List.any_cons, Bool.or_eq_false_iff, beq_eq_false_iff_ne] at h
  exact ⟨⟨h.1.1.1.1, h.1.1.1.2, h.1.1.2, h.1.2⟩, by simpa [needsQuotes] using h.2⟩

theorem readGo_plain (f : Str) : needsQuotes f = false → ∀ (g : Str) (r : List Str) (rest : Str),
    readGo .plain g r (f ++ rest) = readGo .plain (g ++ f) r rest := by
  induction f with
  | nil => intro _ g r rest; simp
  | cons c f ih =>
    intro h g r rest
    obtain ⟨⟨h1, h2, h3, h4⟩, hf⟩ := needsQuotes_cons h
    rw [List.cons_append, readGo]
    · simp [h1, h2, h3, h4, ih hf]
    · exact fun h => nomatch h

theorem readGo_quoted (f : Str) : ∀ (g : Str) (r : List Str) (rest : Str),
    readGo .quoted g r ((f.flatMap fun c => if c = '"' then ['"', '"'] else [c]) ++ '"' :: rest) =
      readGo .closed (g ++ f) r rest := by
  induction f with
  | nil => intro g r rest; simp [readGo]
  | cons c f ih =>
    intro g r rest
    by_cases hc : c = '"'
    · subst hc
      have := ih (g ++ ['"']) r rest
      simp only [List.append_assoc, List.singleton_append] at this
      simp [readGo, this]
    · have := ih (g ++ [c]) r rest
      simp only [List.append_assoc, List.singleton_append] at this
      simp [readGo, hc, this]

theorem csvField_nil {f : Str} (h : csvField f = []) : f = [] := by
  unfold csvField at h
  split at h
  · simp at h
  · exact h

theorem readGo_field (f : Str) (r : List Str) (rest : Str) :
    ∃ m, m ≠ Mode.quoted ∧ (m = .start → csvField f = []) ∧
      readGo .start [] r (csvField f ++ rest) = readGo m f r rest := by
  by_cases h : needsQuotes f = true
  · refine ⟨.closed, by simp, by simp, ?_⟩
    have := readGo_quoted f [] r rest
    simp only [List.nil_append] at this
    rw [csvField, if_pos h, List.cons_append, List.cons_append, List.append_assoc, List.singleton_append, readGo]
    · simpa using this
    · exact fun h => nomatch h
  · have h' : needsQuotes f = false := by simpa using h
    cases f with
    | nil => exact ⟨.start, by simp, fun _ => by simp [csvField, h'], by simp [csvField, h']⟩
    | cons c f =>
      refine ⟨.plain, by simp, by simp, ?_⟩
      obtain ⟨⟨h1, h2, h3, h4⟩, hf⟩ := needsQuotes_cons h'
      have := readGo_plain f hf [c] r rest
      simp only [List.singleton_append] at this
      rw [csvField, if_neg h, List.cons_append, readGo]
      · simp [h1, h2, h3, h4, this]
      · exact fun h => nomatch h

theorem readGo_comma {m : Mode} (hm : m ≠ .quoted) (f : Str) (r : List Str) (rest : Str) :
    readGo m f r (',' :: rest) = readGo .start [] (r ++ [f]) rest := by
  cases m <;> simp_all [readGo]

theorem readGo_end {m : Mode} (hm : m ≠ .quoted) (f : Str) (r : List Str) (rest : Str) (h : m = .start → r ≠ []) :
    readGo m f r ('\n' :: rest) = (r ++ [f]) :: readGo .start [] [] rest := by
  cases m <;> simp_all [readGo]

theorem csvFields_ne {f g : Str} {fs : List Str} : csvFields (f :: g :: fs) ≠ [] := by
  simp [csvFields]

theorem readGo_fields (fs : List Str) : fs ≠ [] → ∀ (r : List Str) (rest : Str), (r ≠ [] ∨ csvFields fs ≠ []) →
    readGo .start [] r (csvFields fs ++ '\n' :: rest) = (r ++ fs) :: readGo .start [] [] rest := by
  induction fs with
  | nil => intro h; exact absurd rfl h
  | cons f fs ih =>
    intro _ r rest h
    cases fs with
    | nil =>
      simp only [csvFields] at h ⊢
      obtain ⟨m, hm, hs, he⟩ := readGo_field f r ('\n' :: rest)
      rw [he, readGo_end hm]
      intro e
      exact h.resolve_right (fun hne => hne (hs e))
    | cons g fs =>
      obtain ⟨m, hm, _, he⟩ := readGo_field f r (',' :: (csvFields (g :: fs) ++ '\n' :: rest))
      simp only [csvFields, List.append_assoc, List.cons_append]
      rw [he, readGo_comma hm, ih (by simp) _ _ (.inl (by simp))]
      simp

theorem readGo_record {fs : List Str} (h : fs ≠ []) (rest : Str) :
    readGo .start [] [] (csvRecord fs ++ rest) = fs :: readGo .start [] [] rest := by
  unfold csvRecord
  split
  · rename_i he
    have he' : csvFields fs = [] := by simpa using he
    cases fs with
    | nil => exact absurd rfl h
    | cons f fs =>
      cases fs with
      | nil =>
        have : f = [] := csvField_nil he'
        subst this
        simp [readGo]
      | cons g fs => exact absurd he' csvFields_ne
  · rename_i he
    have he' : csvFields fs ≠ [] := by simpa using he
    have := readGo_fields fs h [] rest (.inr he')
    simpa using this

/-! ## Cells -/

theorem cell_spec {O : Outside T L} {pm : PrefixMap} {v : Option T} {c : Str} (h : cell O pm v = some c) :
    CellOf O pm v c := by
  cases v with
  | none => simp only [cell, Option.some.injEq] at h; subst h; exact .unbound
  | some t =>
    simp only [cell, Option.map_eq_some_iff] at h
    obtain ⟨o, ho, rfl⟩ := h
    cases o with
    | iri i => exact .iri ho
    | bnode b => exact .bnode ho
    | lit l => exact .lit ho
    | triple s p o =>
      have := CellOf.triple (pm := pm) ho
      simpa [Obj.cell] using this

theorem cellsFrom_spec {O : Outside T L} {pm : PrefixMap} {s : Sol T} (vs : List Str) : ∀ (i : Nat) (cs : List Str),
    cellsFrom O pm s i vs = some cs →
    cs.length = vs.length ∧ ∀ k, k < vs.length → ∃ c, cs[k]? = some c ∧ CellOf O pm (s.at (i + k)) c := by
  induction vs with
  | nil => intro i cs h; simp only [cellsFrom, Option.some.injEq] at h; subst h; simp
  | cons v vs ih =>
    intro i cs h
    simp only [cellsFrom] at h
    split at h
    · simp at h
    · rename_i c hc
      split at h
      · simp at h
      · rename_i cs' hcs
        simp only [Option.some.injEq] at h
        subst h
        obtain ⟨h1, h2⟩ := ih _ _ hcs
        refine ⟨by simp [h1], fun k hk => ?_⟩
        cases k with
        | zero => exact ⟨c, rfl, by simpa using cell_spec hc⟩
        | succ k =>
          obtain ⟨d, hd, hd'⟩ := h2 k (by simpa using hk)
          exact ⟨d, by simpa using hd, by rw [show i + (k + 1) = i + 1 + k by omega]; exact hd'⟩

theorem cellsFrom_some {O : Outside T L} {pm : PrefixMap} {s : Sol T} (vs : List Str) : ∀ (i : Nat),
    (cellsFrom O pm s i vs ≠ none ↔ ∀ k, k < vs.length → ∀ t, s.at (i + k) = some t → O.obj t ≠ none) := by
  induction vs with
  | nil => intro i; simp [cellsFrom]
  | cons v vs ih =>
    intro i
    simp only [cellsFrom]
    constructor
    · intro h k hk t ht hn
      cases hc : cell O pm (s.at i) with
      | none => simp [hc] at h
      | some c =>
        cases k with
        | zero =>
          simp only [Nat.add_zero] at ht
          simp [ht, cell, hn] at hc
        | succ k =>
          cases hcs : cellsFrom O pm s (i + 1) vs with
          | none => simp [hc, hcs] at h
          | some cs =>
            exact (ih (i + 1)).1 (by simp [hcs]) k (by simpa using hk) t
              (by rw [show i + 1 + k = i + (k + 1) by omega]; exact ht) hn
    · intro h
      have h0 : cell O pm (s.at i) ≠ none := by
        cases hv : s.at i with
        | none => simp [cell]
        | some t =>
          have := h 0 (by simp) t (by simpa using hv)
          cases ho : O.obj t with
          | none => exact absurd ho this
          | some o => simp [cell, ho]
      have h1 : cellsFrom O pm s (i + 1) vs ≠ none :=
        (ih (i + 1)).2 fun k hk t ht => h (k + 1) (by simpa using hk) t
          (by rw [show i + (k + 1) = i + 1 + k by omega]; exact ht)
      cases hc : cell O pm (s.at i) with
      | none => exact absurd hc h0
      | some c =>
        cases hcs : cellsFrom O pm s (i + 1) vs with
        | none => exact absurd hcs h1
        | some cs => simp

theorem cells_some {O : Outside T L} {pm : PrefixMap} {s : Sol T} : cells O pm s ≠ none ↔ Readable O s := by
  rw [cells, cellsFrom_some]
  simp [Readable]

theorem cells_length {O : Outside T L} {pm : PrefixMap} {s : Sol T} {cs : List Str} (h : cells O pm s = some cs) :
    cs.length = s.vars.length := (cellsFrom_spec _ _ _ h).1

theorem findIdx_nodup {vs : List Str} (hn : vs.Nodup) {i : Nat} {v : Str} (h : vs[i]? = some v) :
    vs.findIdx? (fun x => decide (x = v)) = some i := by
  rw [List.findIdx?_eq_some_iff_getElem]
  obtain ⟨hi, rfl⟩ := List.getElem?_eq_some_iff.1 h
  refine ⟨hi, by simp, fun j hj => ?_⟩
  simp only [decide_eq_true_eq]
  intro he
  have := (List.Nodup.getElem_inj_iff hn).1 he
  omega

theorem get_at {s : Sol T} (hn : s.vars.Nodup) {i : Nat} {v : Str} (h : s.vars[i]? = some v) : s.get v = s.at i := by
  rw [Sol.get, findIdx_nodup hn h]

theorem forall2_of {A B : Type} {R : A → B → Prop} {l : List A} {m : List B} (hl : m.length = l.length)
    (h : ∀ (k : Nat) (a : A), l[k]? = some a → ∃ b, m[k]? = some b ∧ R a b) : List.Forall₂ R l m := by
  induction l generalizing m with
  | nil =>
    have : m = [] := by simpa using hl
    subst this; exact .nil
  | cons a l ih =>
    cases m with
    | nil => simp at hl
    | cons b m =>
      refine .cons ?_ (ih (by simpa using hl) fun k x hx => by simpa using h (k + 1) x (by simpa using hx))
      obtain ⟨c, hc, hr⟩ := h 0 a rfl
      simp only [List.getElem?_cons_zero, Option.some.injEq] at hc
      exact hc ▸ hr

theorem cells_row {O : Outside T L} {pm : PrefixMap} {s : Sol T} {cs : List Str} (h : cells O pm s = some cs)
    (hn : s.vars.Nodup) : List.Forall₂ (fun v c => CellOf O pm (s.get v) c) s.vars cs := by
  obtain ⟨h1, h2⟩ := cellsFrom_spec _ _ _ h
  refine forall2_of h1 fun k v hv => ?_
  obtain ⟨hk, _⟩ := List.getElem?_eq_some_iff.1 hv
  obtain ⟨c, hc, hr⟩ := h2 k hk
  exact ⟨c, hc, by rw [get_at hn hv]; simpa using hr⟩

/-! ## Rows -/

theorem csvRows_ok {O : Outside T L} {pm : PrefixMap} {n : Nat} (rows : List (Sol T)) :
    ((csvRows O pm n rows).2 = true ↔ ∀ s ∈ rows, Readable O s ∧ s.vars.length = n) := by
  induction rows with
  | nil => simp [csvRows]
  | cons s rows ih =>
    simp only [csvRows]
    cases hc : cells O pm s with
    | none =>
      have : ¬ Readable O s := fun hr => (cells_some (pm := pm)).2 hr hc
      simp [this]
    | some cs =>
      have hr : Readable O s := (cells_some (pm := pm)).1 (by simp [hc])
      have hl := cells_length hc
      by_cases hn : cs.length = n
      · simp only [hn, if_true]
        rw [ih]
        simp [hr, hl ▸ hn]
      · simp only [hn, if_false, Bool.false_eq_true, false_iff]
        intro h
        exact hn (hl.trans (h s (by simp)).2)

theorem csvRows_read {O : Outside T L} {pm : PrefixMap} {vs : List Str} (hn : vs.Nodup) (hv : vs ≠ []) (rows : List (Sol T)) :
    (∀ s ∈ rows, Readable O s ∧ s.vars = vs) →
    ∃ g, Grid O pm vs rows g ∧ readCsv (csvRows O pm vs.length rows).1 = g := by
  induction rows with
  | nil => intro _; exact ⟨[], .nil, by simp [csvRows, readCsv, readGo]⟩
  | cons s rows ih =>
    intro h
    obtain ⟨g, hg, hr⟩ := ih fun s hs => h s (List.mem_cons_of_mem _ hs)
    obtain ⟨hs, rfl⟩ := h s (by simp)
    cases hc : cells O pm s with
    | none => exact absurd hc (cells_some.2 hs)
    | some cs =>
      have hl := cells_length hc
      refine ⟨cs :: g, .cons (cells_row hc hn) hg, ?_⟩
      have hne : cs ≠ [] := by
        intro e; subst e
        simp only [List.length_nil] at hl
        exact hv (List.length_eq_zero_iff.1 hl.symm)
      simp only [csvRows, hc, hl, if_true]
      rw [readCsv, readGo_record hne]
      exact congrArg _ hr

theorem gridRows_ok {O : Outside T L} {pm : PrefixMap} (rows : List (Sol T)) : ∀ i,
    (gridRows O pm i rows ≠ none ↔ ∀ s ∈ rows, Readable O s) := by
  induction rows with
  | nil => simp [gridRows]
  | cons s rows ih =>
    intro i
    simp only [gridRows]
    cases hc : cells O pm s with
    | none =>
      have : ¬ Readable O s := fun hr => (cells_some (pm := pm)).2 hr hc
      simp [this]
    | some cs =>
      have hr : Readable O s := (cells_some (pm := pm)).1 (by simp [hc])
      have := ih (i + 1)
      cases hg : gridRows O pm (i + 1) rows with
      | none =>
        rw [hg] at this
        simp only [ne_eq, not_true_eq_false, false_iff] at this
        simp only [ne_eq, not_true_eq_false, List.mem_cons, forall_eq_or_imp, hr, true_and, this]
      | some g =>
        rw [hg] at this
        simp only [ne_eq, reduceCtorEq, not_false_eq_true, true_iff] at this
        simp [hr]
        exact this

theorem gridRows_read {O : Outside T L} {pm : PrefixMap} {vs : List Str} (hn : vs.Nodup) (rows : List (Sol T)) : ∀ i rs,
    gridRows O pm i rows = some rs → (∀ s ∈ rows, s.vars = vs) →
    ∃ g, Grid O pm vs rows g ∧
      rs = (g.zipIdx i).map fun e => Nat.toDigits 10 (e.2 + 1) :: e.1 := by
  induction rows with
  | nil =>
    intro i rs h _
    simp only [gridRows, Option.some.injEq] at h
    subst h
    exact ⟨[], .nil, rfl⟩
  | cons s rows ih =>
    intro i rs h hs
    simp only [gridRows] at h
    split at h
    · simp at h
    · rename_i cs hc
      split at h
      · simp at h
      · rename_i rs' hrs
        simp only [Option.some.injEq] at h
        subst h
        obtain ⟨g, hg, he⟩ := ih _ _ hrs fun s h => hs s (List.mem_cons_of_mem _ h)
        have := hs s (by simp)
        subst this
        exact ⟨cs :: g, .cons (cells_row hc hn) hg, by simp [he]⟩

/-! ## Sources -/

theorem merge_find {m o : PrefixMap} (ho : (o.map.map Prod.fst).Nodup) (al : Str) :
    (m.merge o).find al = (o.find al).or (m.find al) := by
  rw [Prefix.merge_eq]
  simp only [PrefixMap.find]
  rw [Prefix.imGet_foldl ho]

theorem selectFrom_iff {f : T → U} (es : List (Option (Sols T) × PrefixMap)) : ∀ (q r : Sols U),
    (selectFrom f q es = some r ↔
      ∃ as : List (Sols T), es.map Prod.fst = as.map some ∧
        r.rows = q.rows ++ as.flatMap (fun a => a.rows.map (Sol.convert f)) ∧
        r.pm = es.foldl (fun m e => m.merge e.2) q.pm) := by
  induction es with
  | nil =>
    intro q r
    constructor
    · intro h
      simp only [selectFrom, Option.some.injEq] at h
      subst h
      exact ⟨[], rfl, by simp, rfl⟩
    · rintro ⟨as, h1, h2, h3⟩
      have : as = [] := by simpa using h1.symm
      subst this
      cases q; cases r
      simp_all [selectFrom]
  | cons e es ih =>
    intro q r
    obtain ⟨e, pm⟩ := e
    cases e with
    | none =>
      simp only [selectFrom, reduceCtorEq, List.map_cons, false_iff, not_exists]
      rintro as ⟨h, _⟩
      cases as <;> simp at h
    | some a =>
      simp only [selectFrom]
      rw [ih]
      constructor
      · rintro ⟨as, h1, h2, h3⟩
        exact ⟨a :: as, by simp [h1], by simpa [Sols.extend] using h2, by simpa [Sols.extend] using h3⟩
      · rintro ⟨as, h1, h2, h3⟩
        cases as with
        | nil => simp at h1
        | cons b as =>
          simp only [List.map_cons, List.cons.injEq, Option.some.injEq] at h1
          obtain ⟨rfl, h1⟩ := h1
          exact ⟨as, h1, by simpa [Sols.extend] using h2, by simpa [Sols.extend] using h3⟩

theorem foldl_merge_find (pms : List PrefixMap) (hp : ∀ m ∈ pms, (m.map.map Prod.fst).Nodup) (al : Str) : ∀ m : PrefixMap,
    (pms.foldl (fun m e => m.merge e) m).find al = (lastFind pms al).or (m.find al) := by
  induction pms with
  | nil => intro m; simp [lastFind]
  | cons o pms ih =>
    intro m
    rw [List.foldl_cons, ih (fun m h => hp m (List.mem_cons_of_mem _ h)), merge_find (hp o (by simp))]
    simp only [lastFind, List.reverse_cons, List.findSome?_append, List.findSome?_cons, List.findSome?_nil]
    cases List.findSome? (fun m => m.find al) pms.reverse <;> cases o.find al <;> simp

end Answers
