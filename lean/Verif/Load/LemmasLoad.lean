import Verif.Load.Lemmas

/-!
# Lemmas: endpoints and the steps of loading
-/

namespace Load

open Prefix (Str PrefixMap)

/-! ## Endpoints -/

theorem asciiLower_eq (c : Char) : asciiLower c = c.toLower := by
  unfold asciiLower Char.toLower
  by_cases h : 'A' ≤ c ∧ c ≤ 'Z'
  · have h' : c.val ≥ 'A'.val ∧ c.val ≤ 'Z'.val := h
    rw [if_pos h, dif_pos h']
    have hn : 65 ≤ c.toNat ∧ c.toNat ≤ 90 := by
      refine ⟨?_, ?_⟩
      · exact h.1
      · exact h.2
    apply Char.ext
    apply UInt32.toNat_inj.1
    have hv : (c.toNat + 32).isValidChar := by
      left
      omega
    rw [Char.ofNat, dif_pos hv]
    have h1 : (Char.ofNatAux (c.toNat + 32) hv).val.toNat = c.toNat + 32 := rfl
    rw [h1]
    have h0 : ('a'.val - 'A'.val : UInt32) = 32 := by decide
    have h2 : (c.val + 32).toNat = (c.val.toNat + 32) % 2 ^ 32 := UInt32.toNat_add _ _
    have h3 : c.val.toNat = c.toNat := rfl
    simp only [h0, h2, h3]
    omega
  · have h' : ¬ (c.val ≥ 'A'.val ∧ c.val ≤ 'Z'.val) := h
    rw [if_neg h, dif_neg h']

theorem trimEnd_iff (c : Char) (s v : Str) :
    trimEnd c s = v ↔ ∃ k : Nat, s = v ++ List.replicate k c ∧ v.getLast? ≠ some c := by
  unfold trimEnd
  constructor
  · rintro rfl
    refine ⟨(s.reverse.takeWhile (· == c)).length, ?_, ?_⟩
    · have h1 : (s.reverse.takeWhile (· == c)).reverse =
          List.replicate (s.reverse.takeWhile (· == c)).length c := by
        rw [List.eq_replicate_iff]
        exact ⟨by simp, fun x hx => by simpa using takeWhile_mem x (List.mem_reverse.1 hx)⟩
      rw [← h1, ← List.reverse_append, List.takeWhile_append_dropWhile, List.reverse_reverse]
    · intro h
      rw [List.getLast?_reverse] at h
      have := dropWhile_not_head (p := (· == c)) c h
      simp at this
  · rintro ⟨k, rfl, hv⟩
    rw [List.reverse_append, dropWhile_all (by
      intro x hx
      have := List.eq_of_mem_replicate (List.mem_reverse.1 hx)
      simp [this]), dropWhile_head, List.reverse_reverse]
    intro x hx
    rw [List.head?_reverse] at hx
    rw [beq_eq_false_iff_ne]
    rintro rfl
    exact hv hx

theorem normalizeId_iff (ws : Char → Bool) (s t : Str) : IdOf ws s t ↔ normalizeId ws s = t := by
  have hl : ∀ w : Str, w.map asciiLower = w.map Char.toLower := by
    intro w
    exact List.map_congr_left fun c _ => asciiLower_eq c
  unfold normalizeId
  simp only [hl]
  constructor
  · rintro ⟨u, v, w, k, hu, hv, hg, hw, rfl⟩
    rw [(trim_iff _ _ _).1 hu, (trimEnd_iff _ _ _).2 ⟨k, hv, hg⟩]
    congr 1
    rcases hw with rfl | rfl | ⟨rfl, h1, h2⟩
    · rw [(Prefix.stripPrefix_iff _ _ _).2 rfl]
      rfl
    · have hn : Prefix.stripPrefix (chars "http://") (chars "https://" ++ w) = none := by
        cases h : Prefix.stripPrefix (chars "http://") (chars "https://" ++ w) with
        | none => rfl
        | some r =>
          have h' := (Prefix.stripPrefix_iff _ _ _).1 h
          simp [chars] at h'
      rw [hn, (Prefix.stripPrefix_iff _ _ _).2 rfl]
      rfl
    · have e1 : Prefix.stripPrefix (chars "http://") v = none := by
        cases h : Prefix.stripPrefix (chars "http://") v with
        | none => rfl
        | some r => exact absurd ((Prefix.stripPrefix_iff _ _ _).1 h) (h1 r)
      have e2 : Prefix.stripPrefix (chars "https://") v = none := by
        cases h : Prefix.stripPrefix (chars "https://") v with
        | none => rfl
        | some r => exact absurd ((Prefix.stripPrefix_iff _ _ _).1 h) (h2 r)
      rw [e1, e2]
      rfl
  · rintro rfl
    obtain ⟨k, hk, hg⟩ := (trimEnd_iff '/' (Prefix.trim ws s) _).1 rfl
    refine ⟨_, _, _, k, (trim_iff _ _ _).2 rfl, hk, hg, ?_, rfl⟩
    generalize trimEnd '/' (Prefix.trim ws s) = v
    cases h1 : Prefix.stripPrefix (chars "http://") v with
    | some r => exact Or.inl ((Prefix.stripPrefix_iff _ _ _).1 h1)
    | none =>
      cases h2 : Prefix.stripPrefix (chars "https://") v with
      | some r => exact Or.inr (Or.inl ((Prefix.stripPrefix_iff _ _ _).1 h2))
      | none =>
        refine Or.inr (Or.inr ⟨rfl, ?_, ?_⟩)
        · intro x hx
          rw [(Prefix.stripPrefix_iff _ _ _).2 hx] at h1
          simp at h1
        · intro x hx
          rw [(Prefix.stripPrefix_iff _ _ _).2 hx] at h2
          simp at h2

theorem sameId_iff (ws : Char → Bool) (a b : Str) : SameId ws a b ↔ normalizeId ws a = normalizeId ws b := by
  constructor
  · rintro ⟨t, h1, h2⟩
    rw [(normalizeId_iff _ _ _).1 h1, (normalizeId_iff _ _ _).1 h2]
  · intro h
    exact ⟨_, (normalizeId_iff _ _ _).2 h, (normalizeId_iff _ _ _).2 rfl⟩

theorem getEndpoint_iff (ws : Char → Bool) (valid reachable : Str → Bool) (known : List (Str × Endpoint))
    (hn : (known.map Prod.fst).Nodup) (s : Str) (ep : Endpoint) :
    getEndpoint ws valid reachable known s = some ep ↔ StandsFor ws valid reachable known s ep := by
  unfold getEndpoint StandsFor
  cases hg : Prefix.imGet s known with
  | some e0 =>
    have hm := (Prefix.imGet_mem hn s e0).1 hg
    simp only [Option.some.injEq]
    constructor
    · rintro rfl
      exact Or.inl hm
    · rintro (h | ⟨h, -⟩ | ⟨h, -⟩)
      · have := (Prefix.imGet_mem hn s ep).2 h
        rw [hg] at this
        exact Option.some.inj this
      · exact absurd rfl (h _ hm)
      · exact absurd rfl (h _ hm).1
  | none =>
    have hk : ∀ k ∈ known, k.1 ≠ s := by
      rintro k hk rfl
      have := (Prefix.imGet_none k.1 known).1 hg
      exact this (List.mem_map_of_mem hk)
    have h1 : (s, ep) ∉ known := fun h => hk _ h rfl
    cases hf : known.find? fun k => normalizeId ws k.1 == normalizeId ws s || normalizeId ws k.2.iri == normalizeId ws s with
    | some k =>
      simp only [Option.some.injEq]
      obtain ⟨hp, pre, post, he, hpre⟩ := List.find?_eq_some_iff_append.1 hf
      simp only [Bool.or_eq_true, beq_iff_eq, Bool.not_eq_true', Bool.or_eq_false_iff, beq_eq_false_iff_ne,
        ← sameId_iff, ne_eq] at hp hpre
      constructor
      · rintro rfl
        exact Or.inr (Or.inl ⟨hk, pre, post, k.1, he, hp, hpre⟩)
      · rintro (h | ⟨-, pre', post', n, he', hp', hpre'⟩ | ⟨h, -⟩)
        · exact absurd h h1
        · have : known.find? (fun k => normalizeId ws k.1 == normalizeId ws s || normalizeId ws k.2.iri == normalizeId ws s) = some (n, ep) := by
            rw [List.find?_eq_some_iff_append]
            refine ⟨?_, pre', post', he', ?_⟩
            · simpa [sameId_iff] using hp'
            · simpa [sameId_iff] using hpre'
          rw [hf] at this
          rw [Option.some.inj this]
        · have hmem : k ∈ known := by rw [he]; simp
          have := h k hmem
          exact absurd hp (by rintro (h' | h'); exacts [this.2.1 h', this.2.2 h'])
    | none =>
      have hno : ∀ k ∈ known, ¬ SameId ws k.1 s ∧ ¬ SameId ws k.2.iri s := by
        intro k hk'
        have := List.find?_eq_none.1 hf k hk'
        simp only [Bool.or_eq_true, beq_iff_eq, ← sameId_iff, not_or] at this
        exact this
      simp only
      constructor
      · intro h
        split at h
        · rename_i hv
          simp only [Bool.and_eq_true] at hv
          simp only [Option.some.injEq] at h
          exact Or.inr (Or.inr ⟨fun k hk' => ⟨hk k hk', hno k hk'⟩, hv.1, hv.2, h.symm⟩)
        · simp at h
      · rintro (h | ⟨-, pre', post', n, he', hp', -⟩ | ⟨-, hv, hr, rfl⟩)
        · exact absurd h h1
        · have hmem : (n, ep) ∈ known := by rw [he']; simp
          exact absurd hp' (by rintro (h' | h'); exacts [(hno _ hmem).1 h', (hno _ hmem).2 h'])
        · simp [hv, hr]

/-! ## New data -/

section
variable {G P : Type}

theorem imInsert_new (n : Str) (ep : Endpoint) (l : List (Str × Endpoint)) (h : n ∉ l.map Prod.fst) :
    Prefix.imInsert n ep l = l ++ [(n, ep)] := by
  induction l with
  | nil => rfl
  | cons e l ih =>
    simp only [List.map_cons, List.mem_cons, not_or] at h
    simp only [Prefix.imInsert, List.cons_append]
    rw [if_neg (fun he => h.1 he.symm), ih h.2]

theorem addEndpoints_iff (reachable : Str → Bool) (rest known : List (Str × Endpoint))
    (hn : ((known ++ rest).map Prod.fst).Nodup) (r : List (Str × Endpoint)) :
    addEndpoints reachable known rest = some r ↔
      (∀ c ∈ rest, reachable c.2.iri = true) ∧ r = known ++ rest := by
  induction rest generalizing known with
  | nil =>
    simp only [addEndpoints, Option.some.injEq, List.append_nil]
    exact ⟨fun h => ⟨by simp, h.symm⟩, fun h => h.2.symm⟩
  | cons c rest ih =>
    obtain ⟨n, ep⟩ := c
    have hnot : n ∉ known.map Prod.fst := by
      rw [List.map_append, List.nodup_append] at hn
      intro hmem
      exact hn.2.2 n hmem n (by simp) rfl
    simp only [addEndpoints]
    split
    · rename_i hr
      rw [imInsert_new _ _ _ hnot, ih _ (by simpa using hn)]
      simp [hr]
    · rename_i hr
      simp [hr]

theorem initRdf_iff (e : Env G P) (hn : DistinctNames e) (r : Rdf G) : initRdf e = some r ↔ Fresh e r := by
  unfold initRdf Fresh
  cases h : addEndpoints e.reachable [] e.configEndpoints with
  | none =>
    simp only [reduceCtorEq, false_iff, not_and]
    intro hr _
    have := (addEndpoints_iff e.reachable e.configEndpoints [] (by simpa [DistinctNames] using hn) _).2 ⟨hr, rfl⟩
    rw [h] at this
    simp at this
  | some eps =>
    obtain ⟨hr, rfl⟩ := (addEndpoints_iff e.reachable e.configEndpoints [] (by simpa [DistinctNames] using hn) _).1 h
    simp only [Option.some.injEq, List.nil_append]
    exact ⟨fun h => ⟨hr, h.symm⟩, fun h => h.2.symm⟩

theorem target_true_iff (e : Env G P) (hn : DistinctNames e) (st : Option (Data G P)) (r : Rdf G) :
    target e true st = some r ↔ Start e st r := by
  unfold target Start
  rcases st with _ | (r' | p)
  · simp [initRdf_iff e hn]
  · simp
  · simp [initRdf_iff e hn]

theorem start_unique {e : Env G P} {st : Option (Data G P)} {r r' : Rdf G} (h : Start e st r) (h' : Start e st r') :
    r = r' := by
  rcases h with rfl | ⟨hn, hf⟩
  · rcases h' with h' | ⟨hn', -⟩
    · simpa using h'
    · exact absurd rfl (hn' r)
  · rcases h' with rfl | ⟨-, hf'⟩
    · exact absurd rfl (hn r')
    · rw [hf.2, hf'.2]

theorem getBase_iff (e : Env G P) (b : Option Str) (r : Str) : getBase e b = some r ↔ UsedBase e b r := by
  unfold getBase
  constructor
  · intro h
    split at h
    · split at h
      · rename_i hv
        simp only [Option.some.injEq] at h
        subst h
        exact .given hv
      · simp at h
    · split at h
      · rename_i hc
        simp only [Option.some.injEq] at h
        subst h
        exact .config hc
      · rename_i hc
        exact .cwd hc h
  · rintro (h | h | ⟨hc, h⟩)
    · simp [h]
    · simp [h]
    · simp [hc, h]

/-! ## Steps -/

theorem given_unique {e : Env G P} {f : Format} {t g g' : Option Str} (h : Given e f t g) (h' : Given e f t g') :
    g = g' := by
  cases h with
  | turtle =>
    cases h' with
    | turtle => rfl
    | other h => exact absurd rfl h
  | other hf =>
    cases h' with
    | turtle => exact absurd rfl hf
    | other _ => rfl

/-- What reading one input does to the data read into. -/
theorem readRdf_spec (e : Env G P) (f : Format) (base : Str) (mode : Mode) (merge : Bool) (text : Option Str)
    (st : Option (Data G P)) (r : Rdf G) (ht : target e merge st = some r) :
    (∃ g s', Given e f text g ∧ e.read f base mode g r.store = (s', true) ∧
        readRdf e f base mode merge text st = (some (.rdf { r with store := s' }), .ok)) ∨
      (∃ g s', Given e f text g ∧ e.read f base mode g r.store = (s', false) ∧
        readRdf e f base mode merge text st = (some (.rdf { r with store := s' }), .err)) ∨
      ((∀ g, ¬ Given e f text g) ∧ readRdf e f base mode merge text st = (some (.rdf r), .err)) := by
  unfold readRdf
  rw [ht]
  simp only
  by_cases hf : f = .turtle
  · subst hf
    rw [if_pos rfl]
    cases text with
    | none =>
      refine Or.inr (Or.inr ⟨?_, rfl⟩)
      rintro g (_ | ⟨h⟩)
      exact h rfl
    | some t =>
      simp only
      cases hr : e.read .turtle base mode (some (header e.ws e.defaults t .turtle ++ t)) r.store with
      | mk s' ok =>
        cases ok with
        | true => exact Or.inl ⟨_, s', .turtle, hr, rfl⟩
        | false => exact Or.inr (Or.inl ⟨_, s', .turtle, hr, rfl⟩)
  · rw [if_neg hf]
    cases hr : e.read f base mode text r.store with
    | mk s' ok =>
      cases ok with
      | true => exact Or.inl ⟨_, s', .other hf, hr, rfl⟩
      | false => exact Or.inr (Or.inl ⟨_, s', .other hf, hr, rfl⟩)

theorem readRdf_none (e : Env G P) (f : Format) (base : Str) (mode : Mode) (merge : Bool) (text : Option Str)
    (st : Option (Data G P)) (ht : target e merge st = none) :
    readRdf e f base mode merge text st = (st, .err) := by
  simp [readRdf, ht]

theorem reads_unique {e : Env G P} {f : Format} {base : Str} {mode : Mode} {s s1 s2 : G × PrefixMap}
    {l : List Input} (h : Reads e f base mode s l s1) (h' : Reads e f base mode s l s2) : s1 = s2 := by
  induction h with
  | nil => cases h'; rfl
  | cons ho hg hr hs ih =>
    cases h' with
    | cons ho' hg' hr' hs' =>
      rw [ho] at ho'
      cases ho'
      cases given_unique hg hg'
      rw [hr] at hr'
      cases hr'
      exact ih hs'

/-- The loop with merging, from RDF data. -/
theorem readAll_rdf (e : Env G P) (f : Format) (base : Str) (mode : Mode) (l : List Input) (r : Rdf G) :
    (∃ s, Reads e f base mode r.store l s ∧
        readAllRdf e f base mode true l (some (.rdf r)) = (some (.rdf { r with store := s }), .ok)) ∨
      (∃ done i rest s s', l = done ++ i :: rest ∧ Reads e f base mode r.store done s ∧ Stops e f base mode s i s' ∧
        readAllRdf e f base mode true l (some (.rdf r)) = (some (.rdf { r with store := s' }), .err)) := by
  induction l generalizing r with
  | nil => exact Or.inl ⟨r.store, .nil, rfl⟩
  | cons i l ih =>
    unfold readAllRdf
    cases ho : i.opened with
    | none => exact Or.inr ⟨[], i, l, r.store, r.store, rfl, .nil, .closed ho, rfl⟩
    | some text =>
      simp only
      rcases readRdf_spec e f base mode true text (some (.rdf r)) r rfl with
        ⟨g, s1, hg, hr, hq⟩ | ⟨g, s1, hg, hr, hq⟩ | ⟨hg, hq⟩
      · rw [hq]
        simp only
        rcases ih { r with store := s1 } with ⟨s, hs, hs'⟩ | ⟨done, j, rest, s, s', hl, hs, hst, hs'⟩
        · exact Or.inl ⟨s, .cons ho hg hr hs, hs'⟩
        · exact Or.inr ⟨i :: done, j, rest, s, s', by rw [hl]; rfl, .cons ho hg hr hs, hst, hs'⟩
      · rw [hq]
        exact Or.inr ⟨[], i, l, r.store, s1, rfl, .nil, .failed ho hg hr, rfl⟩
      · rw [hq]
        exact Or.inr ⟨[], i, l, r.store, r.store, rfl, .nil, .binary ho hg, rfl⟩

theorem readRdf_start (e : Env G P) (f : Format) (base : Str) (mode : Mode) (text : Option Str)
    (st : Option (Data G P)) (r : Rdf G) (ht : target e true st = some r) :
    readRdf e f base mode true text st = readRdf e f base mode true text (some (.rdf r)) := by
  unfold readRdf
  rw [ht]
  rfl

/-- The loop with merging, from any data, over at least one input that can be opened. -/
theorem readAll_start (e : Env G P) (f : Format) (base : Str) (mode : Mode) (i : Input) (l : List Input)
    (st : Option (Data G P)) (r : Rdf G) (ht : target e true st = some r) (ho : i.opened ≠ none) :
    readAllRdf e f base mode true (i :: l) st = readAllRdf e f base mode true (i :: l) (some (.rdf r)) := by
  cases h : i.opened with
  | none => exact absurd h ho
  | some text =>
    simp only [readAllRdf, h]
    rw [readRdf_start e f base mode text st r ht]

/-- The loop without merging: every input is read into new data. -/
theorem readAll_replace (e : Env G P) (f : Format) (base : Str) (mode : Mode) (l : List Input) (i : Input)
    (st st' : Option (Data G P)) :
    readAllRdf e f base mode false (l ++ [i]) st = (st', .ok) ↔
      ∃ r s, initRdf e = some r ∧ (∀ j ∈ l, ∃ s', Reads e f base mode r.store [j] s') ∧
        Reads e f base mode r.store [i] s ∧ st' = some (.rdf { r with store := s }) := by
  have one : ∀ (j : Input) (st : Option (Data G P)) (r : Rdf G), initRdf e = some r →
      ∀ text, j.opened = some text →
        ((∃ s, Reads e f base mode r.store [j] s ∧
          readRdf e f base mode false text st = (some (.rdf { r with store := s }), .ok)) ∨
        ((∀ s, ¬ Reads e f base mode r.store [j] s) ∧ ∃ st1, readRdf e f base mode false text st = (st1, .err))) := by
    intro j st r hr text ho
    rcases readRdf_spec e f base mode false text st r (by simpa [target] using hr) with
      ⟨g, s1, hg, hrd, hq⟩ | ⟨g, s1, hg, hrd, hq⟩ | ⟨hg, hq⟩
    · exact Or.inl ⟨s1, .cons ho hg hrd .nil, hq⟩
    · refine Or.inr ⟨?_, _, hq⟩
      intro s h
      cases h with
      | cons ho' hg' hr' hs' =>
        rw [ho] at ho'
        cases ho'
        cases given_unique hg hg'
        rw [hrd] at hr'
        simp at hr'
    · refine Or.inr ⟨?_, _, hq⟩
      intro s h
      cases h with
      | cons ho' hg' hr' hs' =>
        rw [ho] at ho'
        cases ho'
        exact hg _ hg'
  cases hi : initRdf e with
  | none =>
    have : ∀ (l : List Input) (st st' : Option (Data G P)), l ≠ [] → readAllRdf e f base mode false l st ≠ (st', .ok) := by
      intro l st st' hl
      cases l with
      | nil => exact absurd rfl hl
      | cons j l =>
        unfold readAllRdf
        cases ho : j.opened with
        | none => simp
        | some text =>
          simp only
          rw [readRdf_none e f base mode false text st (by simpa [target] using hi)]
          simp
    constructor
    · intro h
      exact absurd h (this _ _ _ (by simp))
    · rintro ⟨r, s, h, -⟩
      simp at h
  | some r =>
    induction l generalizing st with
    | nil =>
      simp only [List.nil_append, readAllRdf]
      cases ho : i.opened with
      | none =>
        simp only [Prod.mk.injEq, reduceCtorEq, and_false, false_iff]
        rintro ⟨r', s, -, -, h, -⟩
        cases h with
        | cons ho' _ _ _ =>
          rw [ho] at ho'
          simp at ho'
      | some text =>
        simp only
        rcases one i st r hi text ho with ⟨s, hs, hq⟩ | ⟨hn, st1, hq⟩
        · rw [hq]
          simp only [Prod.mk.injEq, and_true]
          constructor
          · rintro rfl
            exact ⟨r, s, rfl, by simp, hs, rfl⟩
          · rintro ⟨r', s', h, -, hs', rfl⟩
            cases h
            rw [reads_unique hs hs']
        · rw [hq]
          simp only [Prod.mk.injEq, reduceCtorEq, and_false, false_iff]
          rintro ⟨r', s', h, -, hs', -⟩
          cases h
          exact hn _ hs'
    | cons j l ih =>
      simp only [List.cons_append, readAllRdf]
      cases ho : j.opened with
      | none =>
        simp only [Prod.mk.injEq, reduceCtorEq, and_false, false_iff]
        rintro ⟨r', s, -, hl, -, -⟩
        obtain ⟨s', h⟩ := hl j (by simp)
        cases h with
        | cons ho' _ _ _ =>
          rw [ho] at ho'
          simp at ho'
      | some text =>
        simp only
        rcases one j st r hi text ho with ⟨s, hs, hq⟩ | ⟨hn, st1, hq⟩
        · rw [hq]
          simp only
          refine (ih _).trans ?_
          constructor
          · rintro ⟨r', s', h, hl, hs', rfl⟩
            cases h
            refine ⟨r, s', rfl, ?_, hs', rfl⟩
            intro j' hj'
            rcases List.mem_cons.1 hj' with rfl | hj'
            · exact ⟨s, hs⟩
            · exact hl j' hj'
          · rintro ⟨r', s', h, hl, hs', rfl⟩
            exact ⟨r', s', h, fun j' hj' => hl j' (by simp [hj']), hs', rfl⟩
        · rw [hq]
          simp only [Prod.mk.injEq, reduceCtorEq, and_false, false_iff]
          rintro ⟨r', s', h, hl, -, -⟩
          cases h
          obtain ⟨s', h⟩ := hl j (by simp)
          exact hn _ h

/-- What the declarations of the argument do to data. -/
theorem loadRdf_prefixes (e : Env G P) (l : List Input) (f : Format) (base : Str) (mode : Mode) (merge : Bool)
    (ps : Option (List Input)) (st : Option (Data G P)) (r : Rdf G)
    (h : readAllRdf e f base mode merge l st = (some (.rdf r), .ok)) :
    (∃ ds, ArgDecls e.ws e.validIri ps ds ∧ ∃ st', loadRdf e l f base mode merge ps st = (st', .ok) ∧
        Loaded r r.store ds st') ∨
      ((∀ ds, ¬ ArgDecls e.ws e.validIri ps ds) ∧ loadRdf e l f base mode merge ps st = (some (.rdf r), .err)) := by
  unfold loadRdf
  rw [h]
  simp only
  cases ps with
  | none =>
    exact Or.inl ⟨[], Or.inl ⟨rfl, rfl⟩, _, rfl, r.store.2, rfl, by simp [lastOf]⟩
  | some ps =>
    simp only
    have hnew : ((PrefixMap.new).map.map Prod.fst).Nodup := by simp [PrefixMap.new]
    have hiff := allUserPrefixes_iff e ps PrefixMap.new hnew
    cases hp : allUserPrefixes e PrefixMap.new ps with
    | none =>
      refine Or.inr ⟨?_, rfl⟩
      rintro ds (⟨h', -⟩ | ⟨l', h', hd⟩)
      · simp at h'
      · cases h'
        obtain ⟨pm', h'⟩ := hiff.2 ds hd
        rw [hp] at h'
        simp at h'
    | some pm =>
      obtain ⟨ds, hd, hnd, hf⟩ := hiff.1 pm hp
      refine Or.inl ⟨ds, Or.inr ⟨ps, rfl, hd⟩, _, rfl, _, rfl, ?_⟩
      intro al
      rw [find_merge _ _ hnd, hf]
      simp [PrefixMap.new, PrefixMap.find, Prefix.imGet]

theorem argDecls_unique {ws : Char → Bool} {valid : Str → Bool} {ps : Option (List Input)} {d d' : List (Str × Str)}
    (h : ArgDecls ws valid ps d) (h' : ArgDecls ws valid ps d') : d = d' := by
  rcases h with ⟨rfl, rfl⟩ | ⟨l, rfl, h⟩
  · rcases h' with ⟨-, rfl⟩ | ⟨l, h', -⟩
    · rfl
    · simp at h'
  · rcases h' with ⟨h', -⟩ | ⟨l', h', h1⟩
    · simp at h'
    · cases h'
      exact allDecls_unique h h1

/-- A call for RDF inputs. -/
theorem loadData_rdf (e : Env G P) (a : Args) (l : List Input) (f : Format) (mode : Mode) (h : a.IsRdf l f mode)
    (base : Str) (hb : UsedBase e a.base base) (st : Option (Data G P)) :
    loadData e a st = loadRdf e l f base mode (a.merge.getD true) a.prefixes st := by
  obtain ⟨hd, he, hf, hfmt, hm⟩ := h
  unfold loadData
  rw [(getBase_iff _ _ _).2 hb, hd, he]
  simp only
  have h1 : a.format.getD .turtle = f := by rcases hfmt with h | ⟨h, rfl⟩ <;> simp [h]
  have h2 : a.mode.getD .strict = mode := by rcases hm with h | ⟨h, rfl⟩ <;> simp [h]
  rw [h1, h2]
  cases f <;> first | rfl | exact absurd rfl hf

theorem loadData_nobase (e : Env G P) (a : Args) (hb : ∀ b, ¬ UsedBase e a.base b) (st : Option (Data G P)) :
    loadData e a st = (st, .err) := by
  unfold loadData
  cases h : getBase e a.base with
  | none => rfl
  | some b => exact absurd ((getBase_iff _ _ _).1 h) (hb b)

end

end Load
