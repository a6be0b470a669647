import Verif.Store.Spec
import Mathlib.Data.List.Basic
import Mathlib.Data.List.Induction
import Mathlib.Data.List.Nodup

/-!
# Lemmas on the graph in memory
-/

namespace Store
variable {N P : Type} [DecidableEq N] [DecidableEq P]

theorem mem_insert (t u : Tr N P) (g : List (Tr N P)) : u ∈ insert t g ↔ u = t ∨ u ∈ g := by
  unfold insert
  split
  · constructor
    · exact Or.inr
    · rintro (rfl | h) <;> assumption
  · simp [or_comm]

theorem nodup_insert (t : Tr N P) {g : List (Tr N P)} (h : g.Nodup) : (insert t g).Nodup := by
  unfold insert
  split
  · exact h
  · rename_i hn
    exact List.nodup_append.2 ⟨h, by simp, by rintro a ha b hb rfl; simp at hb; exact hn (hb ▸ ha)⟩

theorem mem_remove (t u : Tr N P) (g : List (Tr N P)) : u ∈ remove t g ↔ u ∈ g ∧ u ≠ t := by
  simp [remove]

theorem readLoop_mem (valid : Tr N P → Bool) (m : Mode) (ds : List (Option (Tr N P)))
    (g : List (Tr N P)) (t : Tr N P) :
    t ∈ (readLoop valid m ds g).2 ↔ t ∈ g ∨
      ∃ pre post, ds = pre ++ some t :: post ∧ valid t = true ∧
        (m = .strict → ∀ x ∈ pre, ∃ u, x = some u ∧ valid u = true) := by
  induction ds generalizing g with
  | nil => simp [readLoop]
  | cons x ds ih =>
    cases x with
    | none =>
      cases m with
      | strict =>
        simp only [readLoop]
        refine ⟨Or.inl, ?_⟩
        rintro (h | ⟨pre, post, he, -, hp⟩)
        · exact h
        · cases pre with
          | nil => simp at he
          | cons y pre =>
            simp only [List.cons_append, List.cons.injEq] at he
            obtain ⟨u, hu, -⟩ := hp trivial y (by simp)
            rw [← he.1] at hu
            cases hu
      | lax =>
        simp only [readLoop]
        rw [ih]
        refine or_congr_right ⟨?_, ?_⟩
        · rintro ⟨pre, post, rfl, hv, -⟩
          exact ⟨none :: pre, post, rfl, hv, nofun⟩
        · rintro ⟨pre, post, he, hv, -⟩
          cases pre with
          | nil => simp at he
          | cons y pre =>
            simp only [List.cons_append, List.cons.injEq] at he
            exact ⟨pre, post, he.2, hv, nofun⟩
    | some u =>
      by_cases hu : valid u = true
      · simp only [readLoop, hu, if_true]
        rw [ih, mem_insert]
        constructor
        · rintro ((rfl | h) | ⟨pre, post, rfl, hv, hp⟩)
          · exact Or.inr ⟨[], ds, rfl, hu, by simp⟩
          · exact Or.inl h
          · refine Or.inr ⟨some u :: pre, post, rfl, hv, fun hm x hx => ?_⟩
            rcases List.mem_cons.1 hx with rfl | hx
            · exact ⟨u, rfl, hu⟩
            · exact hp hm x hx
        · rintro (h | ⟨pre, post, he, hv, hp⟩)
          · exact Or.inl (Or.inr h)
          · cases pre with
            | nil =>
              simp only [List.nil_append, List.cons.injEq, Option.some.injEq] at he
              exact Or.inl (Or.inl he.1.symm)
            | cons y pre =>
              simp only [List.cons_append, List.cons.injEq] at he
              exact Or.inr ⟨pre, post, he.2, hv, fun hm x hx => hp hm x (by simp [hx])⟩
      · cases m with
        | strict =>
          simp only [readLoop, hu]
          refine ⟨Or.inl, ?_⟩
          rintro (h | ⟨pre, post, he, hv, hp⟩)
          · exact h
          · cases pre with
            | nil =>
              simp only [List.nil_append, List.cons.injEq, Option.some.injEq] at he
              rw [he.1] at hu
              exact absurd hv hu
            | cons y pre =>
              simp only [List.cons_append, List.cons.injEq] at he
              obtain ⟨w, hw, hw'⟩ := hp trivial y (by simp)
              rw [← he.1] at hw
              cases hw
              exact absurd hw' hu
        | lax =>
          simp only [readLoop, hu]
          rw [if_neg (by simp), ih]
          refine or_congr_right ⟨?_, ?_⟩
          · rintro ⟨pre, post, rfl, hv, -⟩
            exact ⟨some u :: pre, post, rfl, hv, nofun⟩
          · rintro ⟨pre, post, he, hv, -⟩
            cases pre with
            | nil =>
              simp only [List.nil_append, List.cons.injEq, Option.some.injEq] at he
              rw [he.1] at hu
              exact absurd hv hu
            | cons y pre =>
              simp only [List.cons_append, List.cons.injEq] at he
              exact ⟨pre, post, he.2, hv, nofun⟩

theorem readLoop_ok (valid : Tr N P → Bool) (m : Mode) (ds : List (Option (Tr N P)))
    (g : List (Tr N P)) :
    (readLoop valid m ds g).1 = true ↔
      (m = .strict → ∀ x ∈ ds, ∃ u, x = some u ∧ valid u = true) := by
  induction ds generalizing g with
  | nil => simp [readLoop]
  | cons x ds ih =>
    cases m with
    | lax =>
      have ih' : ∀ g, (readLoop valid .lax ds g).1 = true := fun g => (ih g).2 nofun
      refine ⟨fun _ => nofun, fun _ => ?_⟩
      cases x with
      | none => exact ih' g
      | some u =>
        simp only [readLoop]
        split <;> exact ih' _
    | strict =>
      rw [List.forall_mem_cons]
      cases x with
      | none => exact ⟨fun h => (by simp [readLoop] at h), fun h => by
          obtain ⟨⟨u, hu, -⟩, -⟩ := h rfl
          cases hu⟩
      | some u =>
        by_cases hu : valid u = true
        · simp only [readLoop, hu, if_true]
          rw [ih]
          exact ⟨fun h _ => ⟨⟨u, rfl, hu⟩, h rfl⟩, fun h _ => (h trivial).2⟩
        · simp only [readLoop, hu]
          refine ⟨fun h => (by simp at h), fun h => ?_⟩
          obtain ⟨⟨w, hw, hw'⟩, -⟩ := h trivial
          cases hw
          exact absurd hw' hu

theorem readLoop_nodup (valid : Tr N P → Bool) (m : Mode) (ds : List (Option (Tr N P)))
    {g : List (Tr N P)} (h : g.Nodup) : (readLoop valid m ds g).2.Nodup := by
  induction ds generalizing g with
  | nil => exact h
  | cons x ds ih =>
    cases x with
    | none =>
      cases m with
      | strict => exact h
      | lax => exact ih h
    | some u =>
      by_cases hu : valid u = true
      · simp only [readLoop, hu, if_true]
        exact ih (nodup_insert u h)
      · cases m with
        | strict => simpa [readLoop, hu] using h
        | lax =>
          simp only [readLoop, hu]
          exact ih h

theorem merge_snd (valid : Tr N P → Bool) (f : Format) (m : Mode) (d : Doc N P)
    (base : Option String) (g : Mem N P) :
    (g.merge valid f m d base).1 = (g.parse valid f m d base).1 ∧
    (g.merge valid f m d base).2.graph = (g.parse valid f m d base).2.graph ∧
    (g.merge valid f m d base).2.store = (g.parse valid f m d base).2.store ∧
    (g.merge valid f m d base).2.counter = (g.parse valid f m d base).2.counter := by
  unfold Mem.merge
  generalize g.parse valid f m d base = r
  obtain ⟨e, g'⟩ := r
  cases e <;> cases base <;> exact ⟨rfl, rfl, rfl, rfl⟩

theorem parseTurtle_graph (valid : Tr N P → Bool) (m : Mode) (d : Doc N P)
    (base : Option String) (g : Mem N P) (hb : ¬(base.isSome && d.badBase) = true) :
    (g.parseTurtle valid m d base).2.graph = (readLoop valid m d.items g.graph).2 := by
  unfold Mem.parseTurtle
  rw [if_neg hb]
  simp only
  split
  · rfl
  · split <;> rfl

theorem base_iff {base : Option String} {d : Doc N P} :
    (base.isSome && d.badBase) = true ↔ base ≠ none ∧ d.badBase = true := by
  cases base <;> simp

theorem parsePlain_mem (valid : Tr N P → Bool) {f : Format} (m : Mode) (d : Doc N P)
    (base : Option String) (g : Mem N P) (t : Tr N P) (h1 : f ≠ .turtle) (h2 : f ≠ .trig)
    (h3 : f ≠ .n3) :
    t ∈ (g.parsePlain m d).2.graph ↔ t ∈ g.graph ∨ Reads valid f m d base t := by
  simp only [Mem.parsePlain]
  rw [readLoop_mem]
  refine or_congr_right ⟨?_, ?_⟩
  · rintro ⟨pre, post, he, -, hp⟩
    refine ⟨⟨h2, h3, fun h => h1 h.1⟩, pre, post, he, fun h => absurd h h1, fun hm x hx => ?_⟩
    obtain ⟨u, hu, -⟩ := hp hm x hx
    exact ⟨u, hu, fun h => absurd h h1⟩
  · rintro ⟨-, pre, post, he, -, hp⟩
    refine ⟨pre, post, he, rfl, fun hm x hx => ?_⟩
    obtain ⟨u, hu, -⟩ := hp hm x hx
    exact ⟨u, hu, rfl⟩

/-- What reading does to the graph. -/
theorem merge_mem (valid : Tr N P → Bool) (f : Format) (m : Mode) (d : Doc N P)
    (base : Option String) (g : Mem N P) (t : Tr N P) :
    t ∈ (g.merge valid f m d base).2.graph ↔ t ∈ g.graph ∨ Reads valid f m d base t := by
  rw [(merge_snd valid f m d base g).2.1]
  cases f with
  | turtle =>
    simp only [Mem.parse]
    by_cases hb : (base.isSome && d.badBase) = true
    · unfold Mem.parseTurtle
      rw [if_pos hb]
      refine ⟨Or.inl, ?_⟩
      rintro (h | ⟨⟨-, -, h⟩, -⟩)
      · exact h
      · exact absurd ⟨rfl, base_iff.1 hb⟩ h
    · rw [parseTurtle_graph _ _ _ _ _ hb, readLoop_mem]
      refine or_congr_right ⟨?_, ?_⟩
      · rintro ⟨pre, post, he, hv, hp⟩
        refine ⟨⟨by simp, by simp, fun h => hb (base_iff.2 h.2)⟩, pre, post, he, fun _ => hv,
          fun hm x hx => ?_⟩
        obtain ⟨u, hu, hv⟩ := hp hm x hx
        exact ⟨u, hu, fun _ => hv⟩
      · rintro ⟨-, pre, post, he, hv, hp⟩
        refine ⟨pre, post, he, hv rfl, fun hm x hx => ?_⟩
        obtain ⟨u, hu, hv⟩ := hp hm x hx
        exact ⟨u, hu, hv rfl⟩
  | ntriples => exact parsePlain_mem _ _ _ _ _ _ (by simp) (by simp) (by simp)
  | rdfxml => exact parsePlain_mem _ _ _ _ _ _ (by simp) (by simp) (by simp)
  | nquads => exact parsePlain_mem _ _ _ _ _ _ (by simp) (by simp) (by simp)
  | jsonld => exact parsePlain_mem _ _ _ _ _ _ (by simp) (by simp) (by simp)
  | trig => exact ⟨Or.inl, fun h => h.elim id fun h => absurd rfl h.1.1⟩
  | n3 => exact ⟨Or.inl, fun h => h.elim id fun h => absurd rfl h.1.2.1⟩

theorem merge_nodup (valid : Tr N P → Bool) (f : Format) (m : Mode) (d : Doc N P)
    (base : Option String) (g : Mem N P) (h : g.graph.Nodup) :
    (g.merge valid f m d base).2.graph.Nodup := by
  rw [(merge_snd valid f m d base g).2.1]
  cases f with
  | turtle =>
    simp only [Mem.parse]
    by_cases hb : (base.isSome && d.badBase) = true
    · unfold Mem.parseTurtle
      rwa [if_pos hb]
    · rw [parseTurtle_graph _ _ _ _ _ hb]
      exact readLoop_nodup _ _ _ h
  | trig => exact h
  | n3 => exact h
  | _ => exact readLoop_nodup _ _ _ h

/-- Reading touches neither the store nor the counter. -/
theorem merge_rest (valid : Tr N P → Bool) (f : Format) (m : Mode) (d : Doc N P)
    (base : Option String) (g : Mem N P) :
    (g.merge valid f m d base).2.store = g.store ∧
      (g.merge valid f m d base).2.counter = g.counter := by
  obtain ⟨-, -, h1, h2⟩ := merge_snd valid f m d base g
  rw [h1, h2]
  cases f with
  | turtle =>
    simp only [Mem.parse, Mem.parseTurtle]
    split
    · simp
    · split
      · simp
      · split <;> simp
  | _ => simp [Mem.parse, Mem.parsePlain]

theorem parsePlain_end (valid : Tr N P → Bool) {f : Format} (m : Mode) (d : Doc N P)
    (base : Option String) (g : Mem N P) (h1 : f ≠ .turtle) (h2 : f ≠ .trig) (h3 : f ≠ .n3) :
    ((g.parsePlain m d).1 = .panic ↔ f = .trig ∨ f = .n3) ∧
    ((g.parsePlain m d).1 = .ok ↔ Opens f d base ∧
      (m = .strict → ∀ x ∈ d.items, ∃ u, x = some u ∧ Good valid f u) ∧
      (f = .turtle → d.badPrefixes = false)) := by
  have := readLoop_ok (fun _ : Tr N P => true) m d.items g.graph
  simp only [Mem.parsePlain]
  constructor
  · split <;> simp [h2, h3]
  · have h4 : (if (readLoop (fun _ => true) m d.items g.graph).1 = true then End.ok else End.err)
        = .ok ↔ (readLoop (fun _ => true) m d.items g.graph).1 = true := by
      split <;> simp_all
    rw [h4, this]
    have hG : (∀ x ∈ d.items, ∃ u, x = some u ∧ Good valid f u) ↔
        ∀ x ∈ d.items, ∃ u : Tr N P, x = some u ∧ true = true :=
      ⟨fun h x hx => (h x hx).imp fun u hu => ⟨hu.1, rfl⟩,
        fun h x hx => (h x hx).imp fun u hu => ⟨hu.1, fun he => absurd he h1⟩⟩
    rw [hG]
    exact ⟨fun h => ⟨⟨h2, h3, fun h => h1 h.1⟩, h, fun he => absurd he h1⟩, fun h => h.2.1⟩

theorem merge_end (valid : Tr N P → Bool) (f : Format) (m : Mode) (d : Doc N P)
    (base : Option String) (g : Mem N P) :
    ((g.merge valid f m d base).1 = .panic ↔ f = .trig ∨ f = .n3) ∧
    ((g.merge valid f m d base).1 = .ok ↔ Opens f d base ∧
      (m = .strict → ∀ x ∈ d.items, ∃ u, x = some u ∧ Good valid f u) ∧
      (f = .turtle → d.badPrefixes = false)) := by
  rw [(merge_snd valid f m d base g).1]
  cases f with
  | turtle =>
    have := readLoop_ok valid m d.items g.graph
    simp only [Mem.parse, Mem.parseTurtle]
    by_cases hb : (base.isSome && d.badBase) = true
    · rw [if_pos hb]
      refine ⟨by simp, by simp, ?_⟩
      rintro ⟨⟨-, -, h⟩, -⟩
      exact absurd ⟨rfl, base_iff.1 hb⟩ h
    · rw [if_neg hb]
      have ho : Opens .turtle d base := ⟨by simp, by simp, fun h => hb (base_iff.2 h.2)⟩
      have hG : (∀ x ∈ d.items, ∃ u, x = some u ∧ Good valid .turtle u) ↔
          ∀ x ∈ d.items, ∃ u, x = some u ∧ valid u = true :=
        ⟨fun h x hx => (h x hx).imp fun u hu => ⟨hu.1, hu.2 rfl⟩,
          fun h x hx => (h x hx).imp fun u hu => ⟨hu.1, fun _ => hu.2⟩⟩
      rw [hG, ← this]
      cases (readLoop valid m d.items g.graph).1 <;> cases d.badPrefixes <;> simp [ho]
  | ntriples => exact parsePlain_end _ _ _ _ _ (by simp) (by simp) (by simp)
  | rdfxml => exact parsePlain_end _ _ _ _ _ (by simp) (by simp) (by simp)
  | nquads => exact parsePlain_end _ _ _ _ _ (by simp) (by simp) (by simp)
  | jsonld => exact parsePlain_end _ _ _ _ _ (by simp) (by simp) (by simp)
  | trig => simp [Mem.parse, Opens]
  | n3 => simp [Mem.parse, Opens]

theorem run_append (rdfType : P) (valid : Tr N P → Bool) (a b : List (Op N P)) :
    run rdfType valid (a ++ b) = b.foldl (step rdfType valid) (run rdfType valid a) := by
  simp [run, List.foldl_append]

theorem step_mem (rdfType : P) (valid : Tr N P → Bool) (g : Mem N P) (op : Op N P) (t : Tr N P) :
    t ∈ (step rdfType valid g op).graph ↔
      Puts rdfType valid op t ∨ (t ∈ g.graph ∧ op ≠ .del t) := by
  cases op with
  | add u =>
    simp only [step, Mem.add, mem_insert]
    constructor
    · rintro (rfl | h)
      · exact Or.inl (.add _)
      · exact Or.inr ⟨h, by simp⟩
    · rintro (h | h)
      · cases h; exact Or.inl rfl
      · exact Or.inr h.1
  | del u =>
    simp only [step, Mem.del, mem_remove]
    constructor
    · rintro ⟨h, hn⟩
      exact Or.inr ⟨h, fun he => hn (by simpa using he.symm)⟩
    · rintro (h | ⟨h, hn⟩)
      · cases h
      · exact ⟨h, fun he => hn (by rw [he])⟩
  | type n c =>
    simp only [step, Mem.addType, Mem.add, mem_insert]
    constructor
    · rintro (rfl | h)
      · exact Or.inl (.type _ _)
      · exact Or.inr ⟨h, by simp⟩
    · rintro (h | h)
      · cases h; exact Or.inl rfl
      · exact Or.inr h.1
  | read f m d base =>
    simp only [step, merge_mem]
    constructor
    · rintro (h | h)
      · exact Or.inr ⟨h, by simp⟩
      · exact Or.inl (.read h)
    · rintro (h | h)
      · cases h with | read h => exact Or.inr h
      · exact Or.inl h.1
  | ensure =>
    have : (step rdfType valid g .ensure).graph = g.graph := by
      simp only [step, Mem.ensureStore]
      split <;> rfl
    rw [this]
    exact ⟨fun h => Or.inr ⟨h, by simp⟩, fun h => h.elim (fun h => by cases h) And.left⟩
  | bnode =>
    exact ⟨fun h => Or.inr ⟨h, by simp⟩, fun h => h.elim (fun h => by cases h) And.left⟩

theorem step_nodup (rdfType : P) (valid : Tr N P → Bool) (g : Mem N P) (op : Op N P)
    (h : g.graph.Nodup) : (step rdfType valid g op).graph.Nodup := by
  cases op with
  | add u => exact nodup_insert _ h
  | del u => exact h.filter _
  | type n c => exact nodup_insert _ h
  | read f m d base => exact merge_nodup _ _ _ _ _ _ h
  | ensure =>
    simp only [step, Mem.ensureStore]
    split <;> exact h
  | bnode => exact h

theorem holds_snoc (rdfType : P) (valid : Tr N P → Bool) (ops : List (Op N P)) (op : Op N P)
    (t : Tr N P) : Holds rdfType valid (ops ++ [op]) t ↔
      Puts rdfType valid op t ∨ (Holds rdfType valid ops t ∧ op ≠ .del t) := by
  constructor
  · rintro ⟨pre, o, post, he, hp, hn⟩
    rcases List.eq_nil_or_concat post with rfl | ⟨post', o', rfl⟩
    · have := List.append_inj' he rfl
      simp only [List.cons.injEq, and_true] at this
      exact Or.inl (this.2 ▸ hp)
    · rw [List.concat_eq_append] at he hn
      rw [show pre ++ o :: (post' ++ [o']) = (pre ++ o :: post') ++ [o'] by simp] at he
      have := List.append_inj' he rfl
      simp only [List.cons.injEq, and_true] at this
      refine Or.inr ⟨⟨pre, o, post', this.1, hp, fun h => hn (by simp [h])⟩, fun h => hn ?_⟩
      rw [← this.2, h]
      simp
  · rintro (h | ⟨⟨pre, o, post, rfl, hp, hn⟩, hd⟩)
    · exact ⟨ops, op, [], rfl, h, by simp⟩
    · refine ⟨pre, o, post ++ [op], by simp, hp, fun h => ?_⟩
      rcases List.mem_append.1 h with h | h
      · exact hn h
      · exact hd (List.mem_singleton.1 h).symm

/-- The contents of the graph after any calls. -/
theorem run_graph (rdfType : P) (valid : Tr N P → Bool) (ops : List (Op N P)) :
    (run rdfType valid ops).graph.Nodup ∧
      ∀ t, t ∈ (run rdfType valid ops).graph ↔ Holds rdfType valid ops t := by
  induction ops using List.reverseRecOn with
  | nil =>
    refine ⟨List.nodup_nil, fun t => ⟨nofun, ?_⟩⟩
    rintro ⟨pre, op, post, h, -⟩
    simp at h
  | append_singleton ops op ih =>
    rw [run_append]
    refine ⟨step_nodup _ _ _ _ ih.1, fun t => ?_⟩
    rw [holds_snoc, List.foldl_cons, List.foldl_nil, step_mem, ih.2]

theorem step_store (rdfType : P) (valid : Tr N P → Bool) (g : Mem N P) (op : Op N P) :
    (step rdfType valid g op).store =
      match g.store, op with
      | none, .ensure => some g.graph
      | st, _ => st := by
  cases op with
  | add u => cases h : g.store <;> simp [step, Mem.add, h]
  | del u => cases h : g.store <;> simp [step, Mem.del, h]
  | type n c => cases h : g.store <;> simp [step, Mem.addType, Mem.add, h]
  | read f m d base =>
    have := (merge_rest valid f m d base g).1
    cases h : g.store <;> simp [step, this, h]
  | ensure => cases h : g.store <;> simp [step, Mem.ensureStore, h]
  | bnode => cases h : g.store <;> simp [step, Mem.bnode, h]

theorem fold_store_some (rdfType : P) (valid : Tr N P → Bool) (ops : List (Op N P)) (g : Mem N P)
    {st : List (Tr N P)} (h : g.store = some st) :
    (ops.foldl (step rdfType valid) g).store = some st := by
  induction ops generalizing g with
  | nil => exact h
  | cons op ops ih => exact ih _ (by rw [step_store, h])

theorem fold_store_none (rdfType : P) (valid : Tr N P → Bool) (ops : List (Op N P)) (g : Mem N P)
    (h : g.store = none) (hn : Op.ensure ∉ ops) :
    (ops.foldl (step rdfType valid) g).store = none := by
  induction ops generalizing g with
  | nil => exact h
  | cons op ops ih =>
    simp only [List.mem_cons, not_or] at hn
    refine ih _ ?_ hn.2
    rw [step_store, h]
    cases op <;> first | rfl | exact absurd rfl hn.1

theorem fold_idle (rdfType : P) (valid : Tr N P → Bool) (ops : List (Op N P)) (g : Mem N P)
    (h : ∀ op ∈ ops, Idle op) : (ops.foldl (step rdfType valid) g).graph = g.graph := by
  induction ops generalizing g with
  | nil => rfl
  | cons op ops ih =>
    rw [List.foldl_cons, ih _ fun o ho => h o (by simp [ho])]
    cases h op (by simp) with
    | ensure =>
      simp only [step, Mem.ensureStore]
      split <;> rfl
    | bnode => rfl

theorem names_gt (rdfType : P) (valid : Tr N P → Bool) (ops : List (Op N P)) (g : Mem N P) :
    (∀ n ∈ names rdfType valid g ops, g.counter < n) ∧ (names rdfType valid g ops).Nodup := by
  induction ops generalizing g with
  | nil => simp [names]
  | cons op ops ih =>
    have same : (step rdfType valid g op).counter = g.counter →
        (∀ n ∈ names rdfType valid (step rdfType valid g op) ops, g.counter < n) ∧
          (names rdfType valid (step rdfType valid g op) ops).Nodup := by
      intro h
      obtain ⟨h1, h2⟩ := ih (step rdfType valid g op)
      exact ⟨fun n hn => h ▸ h1 n hn, h2⟩
    cases op with
    | bnode =>
      obtain ⟨h1, h2⟩ := ih g.bnode.2
      simp only [Mem.bnode] at h1
      refine ⟨fun n hn => ?_, ?_⟩
      · rcases List.mem_cons.1 hn with rfl | hn
        · exact Nat.lt_succ_self _
        · exact Nat.lt_of_succ_lt (h1 n hn)
      · exact List.nodup_cons.2 ⟨fun h => Nat.lt_irrefl _ (h1 _ h), h2⟩
    | add u => exact same rfl
    | del u => exact same rfl
    | type n c => exact same rfl
    | read f m d base => exact same (merge_rest valid f m d base g).2
    | ensure =>
      refine same ?_
      simp only [step, Mem.ensureStore]
      split <;> rfl

theorem matching_mem (g : List (Tr N P)) (s : Option N) (p : Option P) (o : Option N)
    (t : Tr N P) : t ∈ matching g s p o ↔ t ∈ g ∧ Fits s p o t := by
  obtain ⟨a, b, c⟩ := t
  unfold matching
  cases s <;> cases p <;> cases o <;> simp only [Fits] <;> (try split) <;>
    simp_all [Prod.ext_iff] <;> aesop

theorem matching_nodup (g : List (Tr N P)) (h : g.Nodup) (s : Option N) (p : Option P)
    (o : Option N) : (matching g s p o).Nodup := by
  unfold matching
  split
  · split <;> simp
  · refine (h.filterMap ?_).map ?_
    · rintro ⟨a, b, c⟩ ⟨a', b', c'⟩ x hx hy
      simp only [Option.mem_def] at hx hy
      split at hx <;> split at hy <;> simp_all
    · intro a b hab
      simpa using hab
  · exact (h.filter _).filter _
  · exact h.filter _
  · refine (h.filterMap ?_).map ?_
    · rintro ⟨a, b, c⟩ ⟨a', b', c'⟩ x hx hy
      simp only [Option.mem_def] at hx hy
      split at hx <;> split at hy <;> simp_all
    · intro a b hab
      simpa using hab
  · exact h.filter _
  · exact h.filter _
  · exact h

end Store
