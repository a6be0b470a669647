import Verif.Prefix.Lemmas
import Mathlib.Data.List.Induction

/-!
# Properties: prefix maps and IRI registries (C27–C30, C55, C56)
-/

namespace Prefix

/-! ## C28 -/

/-- **C28**. An IRI that starts with a declared namespace is shown as alias, colon and rest, for a
namespace that extends every other declared namespace the IRI starts with; any other IRI is shown
whole. The other forms of compaction agree. -/
theorem C28_longest_namespace (m : PrefixMap) (hb : Built m) (hh : m.hyperlink = false) (iri : Str) :
    (∃ al ns rest, Matches m iri al ns rest ∧ Longest m iri ns ∧
      m.qualify iri = al ++ [':'] ++ rest ∧ m.qualifyOptional iri = some (al ++ [':'] ++ rest) ∧
      m.qualifyLocal iri = some rest) ∨
    ((∀ al ns rest, ¬ Matches m iri al ns rest) ∧ m.qualify iri = ['<'] ++ iri ++ ['>'] ∧
      m.qualifyOptional iri = none ∧ m.qualifyLocal iri = none) := by
  have hm := built_nodup hb
  cases h : m.longestMatch iri with
  | none =>
    refine Or.inr ⟨(longestMatch_none hm iri).1 h, ?_, ?_, ?_⟩ <;>
      simp [PrefixMap.qualify, PrefixMap.qualifyOptional, PrefixMap.qualifyLocal, h]
  | some r =>
    obtain ⟨al, rest⟩ := r
    obtain ⟨ns, h1, h2⟩ := longestMatch_some hm h
    refine Or.inl ⟨al, ns, rest, h1, h2, ?_, ?_, ?_⟩ <;>
      simp [PrefixMap.qualify, PrefixMap.qualifyOptional, PrefixMap.qualifyLocal, h, hh, PrefixMap.format]

/-- **C28** (length). The length reported with a compacted IRI is the length in bytes of its text
without hyperlink, and with hyperlinks off the text is the one `qualify` gives. -/
theorem C28_length (m : PrefixMap) (iri : Str) :
    (m.qualifyAndLength iri).2 = blen ({ m with hyperlink := false }.qualify iri) ∧
      (m.hyperlink = false → (m.qualifyAndLength iri).1 = m.qualify iri) := by
  have hc : blen [':'] = 1 ∧ blen ['<'] = 1 ∧ blen ['>'] = 1 := by decide
  have hlm : ({ m with hyperlink := false } : PrefixMap).longestMatch iri = m.longestMatch iri := rfl
  have hcons : ∀ (c : Char) (s : Str), blen (c :: s) = blen [c] + blen s := fun c s => blen_append [c] s
  cases h : m.longestMatch iri with
  | none =>
    rw [h] at hlm
    refine ⟨?_, fun hh => ?_⟩
    · simp only [PrefixMap.qualifyAndLength, PrefixMap.qualify, PrefixMap.qualifyOptional, hlm, h]
      simp only [Option.bind_none, Option.getD_none, Option.bind_eq_bind]
      rw [List.cons_append, hcons, blen_append, hc.2.1, hc.2.2]
      split <;> simp <;> omega
    · simp [PrefixMap.qualifyAndLength, PrefixMap.qualify, PrefixMap.qualifyOptional, h, hh]
  | some r =>
    obtain ⟨al, rest⟩ := r
    rw [h] at hlm
    refine ⟨?_, fun hh => ?_⟩
    · simp only [PrefixMap.qualifyAndLength, PrefixMap.qualify, PrefixMap.qualifyOptional, hlm, h]
      simp only [Option.bind_some, Option.bind_eq_bind, Option.pure_def, Option.getD_some,
        PrefixMap.format, Bool.false_eq_true, if_false]
      rw [blen_append, hcons, hc.1]
      split <;> simp <;> omega
    · simp [PrefixMap.qualifyAndLength, PrefixMap.qualify, PrefixMap.qualifyOptional, h, hh]

/-! ## C27 -/

theorem iriExtend_some {valid : Str → Bool} {ns loc iri : Str} (h : iriExtend valid ns loc = some iri) :
    iri = ns ++ loc ∨ iri = ns ++ ('/' :: loc) := by
  unfold iriExtend iriFromStr at h
  split at h <;> split at h <;> first | cases h | skip
  · exact Or.inl rfl
  · exact Or.inr (by simp)

/-- **C27**, the part that holds, with its exact extent. An IRI that starts with a declared namespace
comes back from its compacted form exactly when what follows the namespace has no colon and is either
empty, or follows a slash or a hash and the IRI is valid. Missing: the other IRIs, which do not come
back (`C27_whole_never_returns`, `C27_refuted`). -/
theorem C27_round_trip_iff_partial (m : PrefixMap) (hb : Built m) (hh : m.hyperlink = false)
    (valid : Str → Bool) (iri al ns rest : Str) (hmt : Matches m iri al ns rest)
    (hq : m.qualify iri = al ++ [':'] ++ rest) (hlong : Longest m iri ns) :
    m.resolve valid (m.qualify iri) = some iri ↔
      ':' ∉ rest ∧ (rest = [] ∨
        ((ns.getLast? = some '/' ∨ ns.getLast? = some '#') ∧ valid iri = true)) := by
  have _ := hh
  obtain ⟨hf, hiri⟩ := hmt
  rw [hq, List.append_assoc, List.singleton_append]
  by_cases hcol : ':' ∈ rest
  · simp only [hcol, not_true_eq_false, false_and, iff_false]
    intro h
    unfold PrefixMap.resolve at h
    cases hs : rsplitOnce ':' (al ++ ':' :: rest) with
    | none => exact absurd (by simp) ((rsplitOnce_none _ _).1 hs)
    | some r =>
      obtain ⟨pfx, loc⟩ := r
      rw [hs] at h
      obtain ⟨h1, h2⟩ := (rsplitOnce_some _ _ _ _).1 hs
      obtain ⟨r1, hr1⟩ : ∃ r1, rest = r1 ++ ':' :: loc := by
        rcases List.append_eq_append_iff.1 h1 with ⟨t, ht, ht'⟩ | ⟨t, ht, ht'⟩
        · cases t with
          | nil =>
            simp only [List.nil_append, List.cons.injEq, true_and] at ht'
            exact absurd (ht' ▸ hcol) h2
          | cons c t =>
            simp only [List.cons_append, List.cons.injEq] at ht'
            exact ⟨t, ht'.2⟩
        · cases t with
          | nil =>
            simp only [List.nil_append, List.cons.injEq, true_and] at ht'
            exact absurd (ht' ▸ hcol) h2
          | cons c t =>
            simp only [List.cons_append, List.cons.injEq] at ht'
            exact absurd (by rw [ht'.2]; simp) h2
      simp only [PrefixMap.resolvePrefixLocal] at h
      cases hf' : m.find pfx with
      | none => rw [hf'] at h; cases h
      | some ns' =>
        rw [hf'] at h
        simp only at h
        -- the namespace found would be a longer match
        have key : ∀ more, iri = ns' ++ more → more.length < rest.length → False := by
          intro more hmore hlt
          obtain ⟨ext, hext⟩ := hlong pfx ns' more ⟨hf', hmore⟩
          have e1 := congrArg List.length hiri
          have e2 := congrArg List.length hmore
          have e3 := congrArg List.length hext
          simp only [List.length_append] at e1 e2 e3
          omega
        have hlen : loc.length < rest.length := by rw [hr1]; simp; omega
        split at h
        · rename_i hl
          exact key [] (by simpa using (Option.some.inj h).symm) (by rw [hl] at hlen; simpa using hlen)
        · rcases iriExtend_some h with h | h
          · exact key loc h hlen
          · rw [hiri, hr1] at h
            have h' : (ns' ++ ['/']) ++ loc = (ns ++ r1 ++ [':']) ++ loc := by simpa using h.symm
            have := List.append_cancel_right h'
            have := congrArg List.getLast? this
            simp at this
  · have hs : rsplitOnce ':' (al ++ ':' :: rest) = some (al, rest) :=
      (rsplitOnce_some _ _ _ _).2 ⟨rfl, hcol⟩
    simp only [PrefixMap.resolve, hs, PrefixMap.resolvePrefixLocal, hf, hcol, not_false_eq_true, true_and]
    by_cases hr : rest = []
    · subst hr
      simp [hiri]
    · simp only [hr, if_false, false_or, iriExtend, iriFromStr]
      by_cases he : ns.getLast? = some '/' ∨ ns.getLast? = some '#'
      · rw [if_pos he, ← hiri]
        simp [he]
      · rw [if_neg he]
        simp only [he, false_and, iff_false]
        intro h
        split at h
        · have := congrArg List.length (Option.some.inj h)
          rw [hiri] at this
          simp at this
        · cases h

/-- **C27** (prefixed names). Resolving the alias and the rest of a compacted IRI gives back the IRI
exactly when the rest is empty, or follows a slash or a hash and the IRI is valid. -/
theorem C27_prefixed_name_iff (m : PrefixMap) (valid : Str → Bool) (iri al ns rest : Str)
    (hmt : Matches m iri al ns rest) :
    m.resolvePrefixLocal valid al rest = some iri ↔
      rest = [] ∨ ((ns.getLast? = some '/' ∨ ns.getLast? = some '#') ∧ valid iri = true) := by
  obtain ⟨hf, hiri⟩ := hmt
  simp only [PrefixMap.resolvePrefixLocal, hf]
  by_cases hr : rest = []
  · subst hr
    simp [hiri]
  · simp only [hr, if_false, false_or, iriExtend, iriFromStr]
    by_cases he : ns.getLast? = some '/' ∨ ns.getLast? = some '#'
    · rw [if_pos he, ← hiri]
      simp [he]
    · rw [if_neg he]
      simp only [he, false_and, iff_false]
      intro h
      split at h
      · have := congrArg List.length (Option.some.inj h)
        rw [hiri] at this
        simp at this
      · cases h

/-- **C27** (no namespace). An IRI shown whole never comes back from `resolve`; reading it as Turtle
does, when it is valid. -/
theorem C27_whole_never_returns (m : PrefixMap) (valid : Str → Bool) (ws : Char → Bool)
    (hws : ws '<' = false ∧ ws '>' = false) (iri : Str)
    (hno : ∀ al ns rest, ¬ Matches m iri al ns rest) (hq : m.qualify iri = ['<'] ++ iri ++ ['>']) :
    m.resolve valid (m.qualify iri) ≠ some iri ∧
      parseTurtle ws valid (m.qualify iri) = if valid iri then some iri else none := by
  rw [hq]
  constructor
  · intro h
    unfold PrefixMap.resolve at h
    cases hs : rsplitOnce ':' (['<'] ++ iri ++ ['>']) with
    | none =>
      rw [hs] at h
      simp only [iriFromStr] at h
      split at h
      · have := congrArg List.length (Option.some.inj h)
        simp only [List.length_append, List.length_cons, List.length_nil] at this
        omega
      · cases h
    | some r =>
      obtain ⟨pfx, loc⟩ := r
      rw [hs] at h
      simp only [PrefixMap.resolvePrefixLocal] at h
      cases hf : m.find pfx with
      | none => rw [hf] at h; cases h
      | some ns =>
        rw [hf] at h
        simp only at h
        split at h
        · exact hno pfx ns [] ⟨hf, by simpa using (Option.some.inj h).symm⟩
        · rcases iriExtend_some h with h | h
          · exact hno pfx ns _ ⟨hf, h⟩
          · exact hno pfx ns _ ⟨hf, h⟩
  · have ht : trim ws (['<'] ++ iri ++ ['>']) = ['<'] ++ iri ++ ['>'] := by
      simp [trim, hws.1, hws.2, List.dropWhile]
    have hl : ('<' :: (iri ++ ['>'])).getLast? = some '>' := by
      rw [← List.cons_append, List.getLast?_concat]
    simp only [parseTurtle, ht]
    simp [iriFromStr, hl]

/-- **C27** (Turtle). Reading a text as a Turtle IRI gives an IRI exactly when the text is that IRI
in angle brackets with nothing but white space around, and the IRI is valid. -/
theorem C27_turtle_iff (valid : Str → Bool) (ws : Char → Bool) (hws : ws '<' = false ∧ ws '>' = false)
    (s iri : Str) :
    parseTurtle ws valid s = some iri ↔
      valid iri = true ∧ ∃ a b, s = a ++ ['<'] ++ iri ++ ['>'] ++ b ∧
        (∀ c ∈ a, ws c = true) ∧ ∀ c ∈ b, ws c = true := by
  have htw : ∀ (t : Str), ∀ c ∈ t.takeWhile ws, ws c = true := by
    intro t c hc
    have := List.all_takeWhile (l := t) (p := ws)
    exact List.all_eq_true.1 this c hc
  have htrim : ∃ a b, s = a ++ trim ws s ++ b ∧ (∀ c ∈ a, ws c = true) ∧ ∀ c ∈ b, ws c = true := by
    refine ⟨s.takeWhile ws, ((s.dropWhile ws).reverse.takeWhile ws).reverse, ?_,
      fun c hc => htw _ c hc, fun c hc => htw _ c (List.mem_reverse.1 hc)⟩
    have h := List.takeWhile_append_dropWhile (p := ws) (l := (s.dropWhile ws).reverse)
    have h' := congrArg List.reverse h
    rw [List.reverse_append, List.reverse_reverse] at h'
    rw [trim, List.append_assoc, h', List.takeWhile_append_dropWhile]
  constructor
  · intro h
    rw [parseTurtle] at h
    split at h
    · rename_i hc
      obtain ⟨a, b, hs, ha, hb⟩ := htrim
      generalize trim ws s = t at *
      obtain ⟨h1, h2⟩ := hc
      rcases t with _ | ⟨x, t⟩
      · simp at h1
      · simp only [List.head?_cons, Option.some.injEq] at h1
        subst h1
        rcases List.eq_nil_or_concat t with rfl | ⟨t, y, rfl⟩
        · simp at h2
        · rw [List.concat_eq_append] at *
          rw [← List.cons_append, List.getLast?_concat, Option.some.injEq] at h2
          subst h2
          simp only [List.drop_succ_cons, List.drop_zero, List.dropLast_concat, iriFromStr] at h
          split at h
          · rename_i hv
            cases h
            exact ⟨hv, a, b, by simpa using hs, ha, hb⟩
          · cases h
    · cases h
  · rintro ⟨hv, a, b, hs, ha, hb⟩
    have hdrop : ∀ (a t : Str), (∀ c ∈ a, ws c = true) → (a ++ t).dropWhile ws = t.dropWhile ws := by
      intro a t ha
      induction a with
      | nil => rfl
      | cons c a ih =>
        rw [List.cons_append, List.dropWhile_cons_of_pos (ha c (by simp)),
          ih (fun c hc => ha c (by simp [hc]))]
    have ht : trim ws s = '<' :: (iri ++ ['>']) := by
      rw [hs, trim]
      simp only [List.append_assoc]
      rw [hdrop a _ ha]
      have : ((['<'] ++ (iri ++ (['>'] ++ b))).dropWhile ws) = ['<'] ++ (iri ++ (['>'] ++ b)) := by
        simp [List.dropWhile, hws.1]
      rw [this]
      simp only [List.reverse_append]
      simp only [List.append_assoc]
      rw [hdrop b.reverse _ (fun c hc => hb c (List.mem_reverse.1 hc))]
      simp [List.dropWhile, hws.2]
    have hl : ('<' :: (iri ++ ['>'])).getLast? = some '>' := by
      rw [← List.cons_append, List.getLast?_concat]
    simp [parseTurtle, ht, hl, iriFromStr, hv]

/-- The Turtle reading applies: ` <a> ` is read, `<a` is not. -/
example : parseTurtle (· == ' ') (fun _ => true) " <a> ".toList = some ['a'] ∧
    parseTurtle (· == ' ') (fun _ => true) "<a".toList = none := by decide

/-! ## C29 -/

/-- **C29** (history). After any sequence of declarations and removals, an alias has a namespace
exactly when that is the namespace of a declaration after which nothing was done to the alias. -/
theorem C29_last_declaration (ops : List Op) (al iri : Str) :
    (ops.foldl Op.run .new).find al = some iri ↔
      ∃ pre post, ops = pre ++ Op.declare al iri :: post ∧ ∀ op ∈ post, op.name ≠ al := by
  have hb : ∀ ops : List Op, Built (ops.foldl Op.run .new) := by
    intro ops
    induction ops using List.reverseRecOn with
    | nil => exact .new
    | append_singleton ops op ih => rw [List.foldl_append]; exact .change op ih
  induction ops using List.reverseRecOn with
  | nil => simp [PrefixMap.new, PrefixMap.find, imGet]
  | append_singleton ops op ih =>
    have hn := built_nodup (hb ops)
    rw [List.foldl_append]
    simp only [List.foldl_cons, List.foldl_nil]
    by_cases ha : op.name = al
    · constructor
      · intro h
        cases op with
        | declare a i =>
          simp only [Op.name] at ha
          subst ha
          simp only [Op.run, PrefixMap.addPrefix, PrefixMap.find, imGet_insert, if_true,
            Option.some.injEq] at h
          subst h
          exact ⟨ops, [], rfl, by simp⟩
        | remove a =>
          simp only [Op.name] at ha
          subst ha
          simp [Op.run, PrefixMap.removePrefix, PrefixMap.find, imGet_remove hn] at h
      · rintro ⟨pre, post, h, hp⟩
        rcases List.eq_nil_or_concat post with rfl | ⟨post', x, rfl⟩
        · obtain ⟨_, h⟩ := List.append_inj' h rfl
          simp only [List.cons.injEq, and_true] at h
          subst h
          simp [Op.run, PrefixMap.addPrefix, PrefixMap.find, imGet_insert]
        · rw [List.concat_eq_append, ← List.cons_append, ← List.append_assoc] at h
          obtain ⟨_, h⟩ := List.append_inj' h rfl
          simp only [List.cons.injEq, and_true] at h
          subst h
          exact absurd ha (hp op (by simp))
    · have hsame : (op.run (ops.foldl Op.run .new)).find al = (ops.foldl Op.run .new).find al := by
        cases op with
        | declare a i =>
          simp only [Op.name] at ha
          simp [Op.run, PrefixMap.addPrefix, PrefixMap.find, imGet_insert, Ne.symm ha]
        | remove a =>
          simp only [Op.name] at ha
          simp [Op.run, PrefixMap.removePrefix, PrefixMap.find, imGet_remove hn, Ne.symm ha]
      rw [hsame]
      refine Iff.trans ih ?_
      constructor
      · rintro ⟨pre, post, rfl, hp⟩
        refine ⟨pre, post ++ [op], by simp, fun o ho => ?_⟩
        rcases List.mem_append.1 ho with ho | ho
        · exact hp o ho
        · rw [List.mem_singleton] at ho; subst ho; exact ha
      · rintro ⟨pre, post, h, hp⟩
        rcases List.eq_nil_or_concat post with rfl | ⟨post', x, rfl⟩
        · obtain ⟨_, h⟩ := List.append_inj' h rfl
          simp only [List.cons.injEq, and_true] at h
          subst h
          exact absurd rfl ha
        · rw [List.concat_eq_append, ← List.cons_append, ← List.append_assoc] at h
          obtain ⟨h, _⟩ := List.append_inj' h rfl
          exact ⟨pre, post', h, fun o ho => hp o (by simp [ho])⟩

/-- **C29** (answers and merging). Removing answers what was declared; after a merge the aliases of
the merged map have its namespaces and the others keep theirs. -/
theorem C29_remove_and_merge (m n : PrefixMap) (hn : Built n) (al : Str) :
    (m.removePrefix al).2 = m.find al ∧
      (∀ iri, n.find al = some iri → (m.merge n).find al = some iri) ∧
      (n.find al = none → (m.merge n).find al = m.find al) := by
  have h : (m.merge n).find al = (n.find al).or (m.find al) := by
    rw [merge_eq]
    exact imGet_foldl (built_nodup hn) _ _
  refine ⟨rfl, fun iri hi => ?_, fun hi => ?_⟩ <;> rw [h, hi] <;> rfl

/-- **C29** (equality). Two prefix maps are equal exactly when every alias has the same namespace in
both, and equal maps give the same data to the hasher, for the total order of strings. -/
theorem C29_equality (m n : PrefixMap) (hm : Built m) (hn : Built n) :
    (m.eq n = true ↔ ∀ al, m.find al = n.find al) ∧
      ∀ le : Str → Str → Bool, (∀ a b, le a b = true ∨ le b a = true) →
        (∀ a b c, le a b = true → le b c = true → le a c = true) →
        (∀ a b, le a b = true → le b a = true → a = b) →
        m.eq n = true → m.hashed le = n.hashed le := by
  have km := built_nodup hm
  have kn := built_nodup hn
  have hp : m.eq n = true ↔ m.map.Perm n.map := imEq_iff km kn
  refine ⟨?_, fun le htot htr hanti he => ?_⟩
  · rw [hp, List.perm_ext_iff_of_nodup (List.Nodup.of_map _ km) (List.Nodup.of_map _ kn)]
    constructor
    · intro h al
      apply Option.ext
      intro v
      rw [PrefixMap.find, PrefixMap.find, imGet_mem km, imGet_mem kn]
      exact h _
    · rintro h ⟨k, v⟩
      rw [← imGet_mem km, ← imGet_mem kn]
      exact iff_of_eq (congrArg (· = some v) (h k))
  · have hperm := hp.1 he
    have hs : ∀ l : List (Str × Str), (l.mergeSort fun a b => le a.1 b.1).Pairwise
        fun a b => le a.1 b.1 = true := fun l =>
      List.pairwise_mergeSort (le := fun a b : Str × Str => le a.1 b.1)
        (fun a b c h1 h2 => htr a.1 b.1 c.1 h1 h2) (fun a b => by simpa using htot a.1 b.1) l
    have hpp : (m.hashed le).Perm (n.hashed le) :=
      (List.mergeSort_perm _ _).trans (hperm.trans (List.mergeSort_perm _ _).symm)
    refine List.Perm.eq_of_pairwise ?_ (hs _) (hs _) hpp
    intro a b ha hb h1 h2
    have hk := hanti _ _ h1 h2
    have ha' : a ∈ m.map := (List.mergeSort_perm _ _).subset ha
    have hb' : b ∈ m.map := hperm.symm.subset ((List.mergeSort_perm _ _).subset hb)
    have e1 := (imGet_mem km a.1 a.2).2 ha'
    have e2 := (imGet_mem km b.1 b.2).2 hb'
    rw [hk, e2] at e1
    exact Prod.ext hk (Option.some.inj e1).symm

/-! ## C55 -/

/-- **C55**. Reading back the entries a prefix map is written to gives the same declarations in the
same order. -/
theorem C55_serialisation (m : PrefixMap) (hb : Built m) :
    (PrefixMap.deserialize m.serialize).map = m.map ∧ (PrefixMap.deserialize m.serialize).eq m = true := by
  have h : (PrefixMap.deserialize m.serialize).map = m.map := by
    simpa [PrefixMap.deserialize, PrefixMap.serialize] using foldl_insert_append (m := []) (by simpa [PrefixMap.serialize] using built_nodup hb)
  refine ⟨h, ?_⟩
  rw [(C29_equality _ _ (.read _) hb).1]
  intro al
  rw [PrefixMap.find, h, PrefixMap.find]

/-! ## C30 -/

section
variable {I : Type} [DecidableEq I]

theorem insertFull_spec (i : I) (reg : List I) :
    (register reg i).1[(register reg i).2]? = some i ∧ ∃ new, (register reg i).1 = reg ++ new := by
  unfold register insertFull
  cases h : reg.findIdx? (fun x => decide (x = i)) with
  | none => exact ⟨by simp, [i], rfl⟩
  | some k =>
    rw [List.findIdx?_eq_some_iff_getElem] at h
    obtain ⟨hk, h1, _⟩ := h
    refine ⟨?_, [], by simp⟩
    simp only [decide_eq_true_eq] at h1
    simp [hk, h1]

theorem insertFull_nodup (i : I) {reg : List I} (h : reg.Nodup) : (register reg i).1.Nodup := by
  unfold register insertFull
  cases hf : reg.findIdx? (fun x => decide (x = i)) with
  | some k => exact h
  | none =>
    rw [List.findIdx?_eq_none_iff] at hf
    rw [List.nodup_append]
    refine ⟨h, by simp, fun a ha b hb => ?_⟩
    rw [List.mem_singleton] at hb
    subst hb
    simpa using hf a ha

/-- **C30**. In any sequence of registrations from an empty registry, the same index is given exactly
to the same IRI, and every index resolves to its IRI at the end and after any further registrations. -/
theorem C30_indices_stable (irs more : List I) :
    let r := registerAll [] irs
    r.2.length = irs.length ∧
    (∀ (j k : Nat) (a b : I) (x y : Nat), irs[j]? = some a → irs[k]? = some b → r.2[j]? = some x →
      r.2[k]? = some y → (x = y ↔ a = b)) ∧
    ∀ (j : Nat) (a : I) (x : Nat), irs[j]? = some a → r.2[j]? = some x →
      getIri r.1 x = some a ∧ getIri (registerAll r.1 more).1 x = some a := by
  have key : ∀ (irs reg : List I), reg.Nodup →
      (registerAll reg irs).1.Nodup ∧ (∃ new, (registerAll reg irs).1 = reg ++ new) ∧
      (registerAll reg irs).2.length = irs.length ∧
      ∀ (j : Nat) (a : I) (x : Nat), irs[j]? = some a → (registerAll reg irs).2[j]? = some x →
        getIri (registerAll reg irs).1 x = some a := by
    intro irs
    induction irs with
    | nil => intro reg h; exact ⟨h, ⟨[], by simp [registerAll]⟩, rfl, by simp⟩
    | cons i is ih =>
      intro reg h
      obtain ⟨h1, new, h2⟩ := insertFull_spec i reg
      obtain ⟨g1, ⟨new', g2⟩, g3, g4⟩ := ih (register reg i).1 (insertFull_nodup i h)
      refine ⟨g1, ⟨new ++ new', by simp only [registerAll]; rw [g2, h2, List.append_assoc]⟩,
        by simp [registerAll, g3], ?_⟩
      intro j a x ha hx
      cases j with
      | zero =>
        simp only [registerAll, List.getElem?_cons_zero, Option.some.injEq] at ha hx
        subst ha hx
        simp only [getIri, registerAll]
        rw [g2, List.getElem?_append_left]
        · exact h1
        · exact (List.getElem?_eq_some_iff.1 h1).1
      | succ j =>
        simp only [registerAll, List.getElem?_cons_succ] at ha hx
        exact g4 j a x ha hx
  obtain ⟨h1, _, h3, h4⟩ := key irs [] List.nodup_nil
  refine ⟨h3, ?_, fun j a x ha hx => ⟨h4 j a x ha hx, ?_⟩⟩
  · intro j k a b x y ha hb hx hy
    have e1 := h4 j a x ha hx
    have e2 := h4 k b y hb hy
    constructor
    · rintro rfl
      exact Option.some.inj (e1.symm.trans e2)
    · rintro rfl
      obtain ⟨l1, p1⟩ := List.getElem?_eq_some_iff.1 e1
      obtain ⟨l2, p2⟩ := List.getElem?_eq_some_iff.1 e2
      exact (List.Nodup.getElem_inj_iff h1).1 (p1.trans p2.symm)
  · have e := h4 j a x ha hx
    obtain ⟨_, ⟨new, h⟩, _, _⟩ := key more _ h1
    simp only [getIri] at e ⊢
    rw [h, List.getElem?_append_left (List.getElem?_eq_some_iff.1 e).1]
    exact e

end

/-! ## C56 -/

/-- **C56**. An IRI made relative to a base it starts with and appended to the base again is the IRI;
relative to any other base it is left whole. -/
theorem C56_relative (iri base : Str) :
    ((∃ rest, iri = base ++ rest) → iriExtendUnchecked base (iriRelativeFrom iri base) = iri) ∧
      ((¬ ∃ rest, iri = base ++ rest) → iriRelativeFrom iri base = iri) := by
  constructor
  · rintro ⟨rest, h⟩
    rw [iriRelativeFrom, (stripPrefix_iff base iri rest).2 h]
    exact h.symm
  · intro h
    cases hs : stripPrefix base iri with
    | none => simp [iriRelativeFrom, hs]
    | some r => exact absurd ⟨r, (stripPrefix_iff _ _ _).1 hs⟩ h

/-- **C56** (fragments). Two IRIs are equal without fragment exactly when they have a common part
without hash that is followed, in each, by nothing or by a hash. -/
theorem C56_equal_without_fragment (a b : Str) :
    equalWithoutFragment a b = true ↔ ∃ p x y, '#' ∉ p ∧ a = p ++ x ∧ b = p ++ y ∧
      (x = [] ∨ ∃ x', x = '#' :: x') ∧ (y = [] ∨ ∃ y', y = '#' :: y') := by
  have hsplit : ∀ s : Str, '#' ∉ beforeFragment s ∧ ∃ x, s = beforeFragment s ++ x ∧
      (x = [] ∨ ∃ x', x = '#' :: x') := by
    intro s
    induction s with
    | nil => exact ⟨by simp [beforeFragment], [], rfl, Or.inl rfl⟩
    | cons c s ih =>
      by_cases hc : c = '#'
      · subst hc
        exact ⟨by simp [beforeFragment], '#' :: s, by simp [beforeFragment], Or.inr ⟨s, rfl⟩⟩
      · have : beforeFragment (c :: s) = c :: beforeFragment s := by simp [beforeFragment, hc]
        rw [this]
        obtain ⟨h1, x, h2, h3⟩ := ih
        refine ⟨by simp [Ne.symm hc, h1], x, ?_, h3⟩
        rw [List.cons_append, ← h2]
  have hback : ∀ p x : Str, '#' ∉ p → (x = [] ∨ ∃ x', x = '#' :: x') → beforeFragment (p ++ x) = p := by
    intro p x hp hx
    induction p with
    | nil => rcases hx with rfl | ⟨x', rfl⟩ <;> simp [beforeFragment]
    | cons c p ih =>
      simp only [List.mem_cons, not_or] at hp
      have := ih hp.2
      simp only [beforeFragment, List.cons_append] at this ⊢
      rw [List.takeWhile_cons_of_pos (by simpa using Ne.symm hp.1), this]
  simp only [equalWithoutFragment, beq_iff_eq]
  constructor
  · intro h
    obtain ⟨h1, x, h2, h3⟩ := hsplit a
    obtain ⟨_, y, h5, h6⟩ := hsplit b
    exact ⟨beforeFragment a, x, y, h1, h2, by rw [h]; exact h5, h3, h6⟩
  · rintro ⟨p, x, y, hp, rfl, rfl, hx, hy⟩
    rw [hback p x hp hx, hback p y hp hy]

/-! ## Cases -/

/-- `e:` for `h/`, `x:` for `h/x`, nothing else. -/
def exMap : PrefixMap := (PrefixMap.new.addPrefix ['e'] ['h', '/']).addPrefix ['x'] ['h', '/', 'x']

theorem exMap_built : Built exMap := .change (.declare _ _) (.change (.declare _ _) .new)

/-- **C27** is false of the code: a rest with a colon, a namespace that ends in neither slash nor
hash, and an IRI without namespace do not come back. -/
theorem C27_refuted :
    Built exMap ∧
      exMap.resolve (fun _ => true) (exMap.qualify ['h', '/', 'a', ':', 'b']) = none ∧
      exMap.resolve (fun _ => true) (exMap.qualify ['h', '/', 'x', 'y']) =
        some ['h', '/', 'x', '/', 'y'] ∧
      exMap.resolve (fun _ => true) (exMap.qualify ['k', ':', 'z']) = none :=
  ⟨exMap_built, by decide, by decide, by decide⟩

/-- C27 and C28 apply: `h/a` becomes `e:a` and comes back, and `h/xy` uses the longer namespace. -/
example : exMap.qualify ['h', '/', 'a'] = ['e', ':', 'a'] ∧
    exMap.resolve (fun _ => true) ['e', ':', 'a'] = some ['h', '/', 'a'] ∧
    exMap.qualify ['h', '/', 'x', 'y'] = ['x', ':', 'y'] ∧ exMap.hyperlink = false ∧
    Matches exMap ['h', '/', 'a'] ['e'] ['h', '/'] ['a'] := by
  refine ⟨by decide, by decide, by decide, rfl, by decide, rfl⟩

/-- C29 applies: a declaration that survives, one replaced and one removed. -/
example : ([Op.declare ['a'] ['1'], .declare ['b'] ['2'], .declare ['a'] ['3'], .remove ['b']].foldl
    Op.run .new).map = [(['a'], ['3'])] := by decide

/-- C29 applies: the same declarations in another order. -/
example : exMap.eq ((PrefixMap.new.addPrefix ['x'] ['h', '/', 'x']).addPrefix ['e'] ['h', '/']) = true ∧
    (exMap.merge (PrefixMap.new.addPrefix ['e'] ['k'])).find ['e'] = some ['k'] := by decide

/-- C30 applies: three registrations, two of the same IRI. -/
example : registerAll [] ['a', 'b', 'a'] = (['a', 'b'], [0, 1, 0]) := by decide

/-- C56 applies. -/
example : iriRelativeFrom ['h', '/', 'a'] ['h', '/'] = ['a'] ∧
    equalWithoutFragment ['h', '#', 'a'] ['h', '#', 'b'] = true ∧
    equalWithoutFragment ['h', '#', 'a'] ['k', '#', 'a'] = false := by decide

#print axioms C27_round_trip_iff_partial
#print axioms C27_prefixed_name_iff
#print axioms C27_whole_never_returns
#print axioms C27_turtle_iff
#print axioms C27_refuted
#print axioms C28_longest_namespace
#print axioms C28_length
#print axioms C29_last_declaration
#print axioms C29_remove_and_merge
#print axioms C29_equality
#print axioms C30_indices_stable
#print axioms C55_serialisation
#print axioms C56_relative
#print axioms C56_equal_without_fragment

end Prefix
