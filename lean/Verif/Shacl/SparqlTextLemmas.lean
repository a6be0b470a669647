import Verif.Shacl.SparqlTextSpec

/-!
# Lemmas: texts in SPARQL queries
-/

namespace Shacl
open Lit

/-! ## Terms -/

theorem stringText_escape (v : Str) : StringText (escape v) v := by
  induction v with
  | nil => exact .nil
  | cons c v ih =>
    simp only [escape, List.flatMap_cons] at ih ⊢
    unfold escapeChar
    split_ifs with h1 h2 h3 h4 h5
    · subst h1; exact .escaped (by decide) ih
    · subst h2; exact .escaped (by decide) ih
    · subst h3; exact .escaped (by decide) ih
    · subst h4; exact .escaped (by decide) ih
    · subst h5; exact .escaped (by decide) ih
    · exact .plain (by simp [h1, h2, h3, h4]) ih

theorem stringText_det {s v : Str} (h : StringText s v) : ∀ {s' v' r r' : Str}, StringText s' v' →
    s ++ '"' :: r = s' ++ '"' :: r' → s = s' ∧ v = v' ∧ r = r' := by
  induction h with
  | nil =>
    intro s' v' r r' h' e
    cases h' with
    | nil => simpa using e
    | plain hc _ => simp at e; rw [← e.1] at hc; simp at hc
    | escaped hc _ => simp at e
  | plain hc _ ih =>
    intro s' v' r r' h' e
    cases h' with
    | nil => simp at e; rw [e.1] at hc; simp at hc
    | plain hc' h' =>
      simp only [List.cons_append, List.cons.injEq] at e
      obtain ⟨rfl, e⟩ := e
      obtain ⟨rfl, rfl, rfl⟩ := ih h' e
      exact ⟨rfl, rfl, rfl⟩
    | escaped hc' _ => simp at e; rw [e.1] at hc; simp at hc
  | escaped hc _ ih =>
    intro s' v' r r' h' e
    cases h' with
    | nil => simp at e
    | plain hc' _ => simp at e; rw [← e.1] at hc'; simp at hc'
    | escaped hc' h' =>
      simp only [List.cons_append, List.cons.injEq, true_and] at e
      obtain ⟨rfl, e⟩ := e
      rw [hc] at hc'
      cases hc'
      obtain ⟨rfl, rfl, rfl⟩ := ih h' e
      exact ⟨rfl, rfl, rfl⟩

theorem span_det (P : Char → Prop) : ∀ {a b r r' : Str}, (∀ c ∈ a, P c) → (∀ c ∈ b, P c) →
    (∀ c, r.head? = some c → ¬ P c) → (∀ c, r'.head? = some c → ¬ P c) → a ++ r = b ++ r' → a = b ∧ r = r'
  | [], [], r, r', _, _, _, _, e => ⟨rfl, e⟩
  | [], c :: b, r, r', _, hb, hr, _, e => by
    simp only [List.nil_append, List.cons_append] at e
    subst e
    exact absurd (hb c List.mem_cons_self) (hr c rfl)
  | c :: a, [], r, r', ha, _, _, hr', e => by
    simp only [List.nil_append, List.cons_append] at e
    subst e
    exact absurd (ha c List.mem_cons_self) (hr' c rfl)
  | c :: a, d :: b, r, r', ha, hb, hr, hr', e => by
    simp only [List.cons_append, List.cons.injEq] at e
    obtain ⟨rfl, e⟩ := e
    obtain ⟨rfl, rfl⟩ := span_det P (fun c h => ha c (List.mem_cons_of_mem _ h))
      (fun c h => hb c (List.mem_cons_of_mem _ h)) hr hr' e
    exact ⟨rfl, rfl⟩

theorem iri_det {a b r r' : Str} (ha : ∀ c ∈ a, IriChar c) (hb : ∀ c ∈ b, IriChar c)
    (e : a ++ '>' :: r = b ++ '>' :: r') : a = b ∧ r = r' := by
  have := span_det IriChar ha hb (r := '>' :: r) (r' := '>' :: r') (by simp [IriChar]) (by simp [IriChar]) e
  simpa using this

theorem reads_text {t : WTerm} (ht : t.Fine) {rest : Str} (hr : ∀ c, rest.head? = some c → ¬ TagChar c) :
    ReadsTerm (t.text ++ rest) t rest := by
  cases t with
  | iri i => simpa [WTerm.text] using ReadsTerm.iri (rest := rest) ht
  | lit lex a =>
    cases a with
    | lang g => simpa [WTerm.text] using ReadsTerm.lang (stringText_escape lex) ht.1 ht.2 hr
    | type d => simpa [WTerm.text] using ReadsTerm.typed (rest := rest) (stringText_escape lex) ht

theorem reads_det {s : Str} {t t' : WTerm} {r r' : Str} (h : ReadsTerm s t r) (h' : ReadsTerm s t' r') : t = t' ∧ r = r' := by
  cases h with
  | iri hi =>
    generalize he : '<' :: _ ++ '>' :: _ = s at h'
    cases h' with
    | iri hi' =>
      simp only [List.cons_append, List.cons.injEq, true_and] at he
      obtain ⟨rfl, rfl⟩ := iri_det hi hi' he
      exact ⟨rfl, rfl⟩
    | lang _ _ _ _ => simp at he
    | typed _ _ => simp at he
  | lang hs ht hc hr =>
    generalize he : '"' :: _ ++ '"' :: '@' :: _ ++ _ = s at h'
    cases h' with
    | iri hi' => simp at he
    | lang hs' ht' hc' hr' =>
      simp only [List.cons_append, List.cons.injEq, true_and, List.append_assoc] at he
      obtain ⟨rfl, rfl, e⟩ := stringText_det hs hs' he
      simp only [List.cons.injEq, true_and] at e
      obtain ⟨rfl, rfl⟩ := span_det TagChar hc hc' hr hr' e
      exact ⟨rfl, rfl⟩
    | typed hs' hd' =>
      simp only [List.cons_append, List.cons.injEq, true_and, List.append_assoc] at he
      obtain ⟨rfl, rfl, e⟩ := stringText_det hs hs' he
      simp at e
  | typed hs hd =>
    generalize he : '"' :: _ ++ '"' :: '^' :: '^' :: '<' :: _ ++ '>' :: _ = s at h'
    cases h' with
    | iri hi' => simp at he
    | lang hs' ht' hc' hr' =>
      simp only [List.cons_append, List.cons.injEq, true_and, List.append_assoc] at he
      obtain ⟨rfl, rfl, e⟩ := stringText_det hs hs' he
      simp at e
    | typed hs' hd' =>
      simp only [List.cons_append, List.cons.injEq, true_and, List.append_assoc] at he
      obtain ⟨rfl, rfl, e⟩ := stringText_det hs hs' he
      simp only [List.cons.injEq, true_and] at e
      obtain ⟨rfl, rfl⟩ := iri_det hd hd' e
      exact ⟨rfl, rfl⟩

/-! ## Paths -/

theorem readIri_append {i : Str} (hi : ∀ c ∈ i, IriChar c) (rest : Str) : readIri (i ++ '>' :: rest) = some (i, rest) := by
  induction i with
  | nil => rfl
  | cons c i ih =>
    have hc := hi c List.mem_cons_self
    have hne : c ≠ '>' := by rintro rfl; simp [IriChar] at hc
    rw [List.cons_append, readIri, ih fun c h => hi c (List.mem_cons_of_mem _ h)]
    · rfl
    · intro h; exact hne h

/-- The rest does not go on with the path. -/
def Stops (rest : Str) : Prop := ∀ c, rest.head? = some c → c ∉ ['*', '+', '?']

/-- The same nodes, in all graphs. -/
def SameRel (p q : Path Str) : Prop := ∀ (g : Graph Term Str) x y, Rel g p x y ↔ Rel g q x y

theorem readMod_prim {n : Nat} {s : Str} {p : Path Str} {rest : Str} (h : readPrim n s = some (p, rest)) (hr : Stops rest) :
    readMod (n + 1) s = some (p, rest) := by
  rw [readMod, h]
  cases rest with
  | nil => rfl
  | cons c rest =>
    have := hr c rfl
    simp only [List.mem_cons, List.not_mem_nil, or_false, not_or] at this
    split <;> simp_all

theorem readElt_mod {n : Nat} {s : Str} {r} (h : readMod n s = r) (hs : ∀ c, s.head? = some c → c ≠ '^') :
    readElt (n + 1) s = r := by
  cases s with
  | nil => rw [readElt, h]; simp
  | cons c s =>
    rw [readElt, h]
    intro t e
    cases e
    exact hs _ rfl rfl

theorem readSeq_elt {n : Nat} {s : Str} {p : Path Str} {rest : Str} (h : readElt n s = some (p, rest))
    (hr : ∀ c, rest.head? = some c → c ≠ '/') : readSeq (n + 1) s = some (p, rest) := by
  rw [readSeq, h]
  split
  · rename_i e
    simp only [Option.some.injEq, Prod.mk.injEq] at e
    rw [e.2] at hr
    exact absurd rfl (hr '/' rfl)
  · rfl

theorem readAlt_seq {n : Nat} {s : Str} {p : Path Str} {rest : Str} (h : readSeq n s = some (p, rest))
    (hr : ∀ c, rest.head? = some c → c ≠ '|') : readAlt (n + 1) s = some (p, rest) := by
  rw [readAlt, h]
  split
  · rename_i e
    simp only [Option.some.injEq, Prod.mk.injEq] at e
    rw [e.2] at hr
    exact absurd rfl (hr '|' rfl)
  · rfl

/-- What is read of a text, with any number of calls that is large enough. -/
def ReadsAs (read : Nat → Str → Option (Path Str × Str)) (s : Str) (p : Path Str) (rest : Str) : Prop :=
  ∃ q, SameRel q p ∧ ∃ N, ∀ n, N ≤ n → read n s = some (q, rest)

theorem prim_group {s : Str} {p : Path Str} {rest : Str} (h : ReadsAs readAlt s p (')' :: rest)) :
    ReadsAs readPrim ('(' :: s) p rest := by
  obtain ⟨q, hq, N, hn⟩ := h
  refine ⟨q, hq, N + 1, fun n hle => ?_⟩
  obtain ⟨m, rfl⟩ : ∃ m, n = m + 1 := ⟨n - 1, by omega⟩
  rw [readPrim, hn m (by omega)]
  rfl

theorem elt_prim {s : Str} {p : Path Str} {rest : Str} (h : ReadsAs readPrim s p rest)
    (hs : ∀ c, s.head? = some c → c ≠ '^') (hr : Stops rest) : ReadsAs readElt s p rest := by
  obtain ⟨q, hq, N, hn⟩ := h
  refine ⟨q, hq, N + 2, fun n hle => ?_⟩
  obtain ⟨m, rfl⟩ : ∃ m, n = m + 2 := ⟨n - 2, by omega⟩
  exact readElt_mod (readMod_prim (hn m (by omega)) hr) hs

theorem elt_mod {s : Str} {p : Path Str} {rest : Str} (c : Char) (k : Path Str → Path Str)
    (hk : (c = '*' ∧ k = .star) ∨ (c = '+' ∧ k = .plus) ∨ (c = '?' ∧ k = .opt))
    (hsame : ∀ q, SameRel q p → SameRel (k q) (k p)) (h : ReadsAs readPrim s p (c :: rest))
    (hs : ∀ c, s.head? = some c → c ≠ '^') : ReadsAs readElt s (k p) rest := by
  obtain ⟨q, hq, N, hn⟩ := h
  refine ⟨k q, hsame q hq, N + 2, fun n hle => ?_⟩
  obtain ⟨m, rfl⟩ : ∃ m, n = m + 2 := ⟨n - 2, by omega⟩
  refine readElt_mod ?_ hs
  rw [readMod, hn m (by omega)]
  rcases hk with ⟨rfl, rfl⟩ | ⟨rfl, rfl⟩ | ⟨rfl, rfl⟩ <;> rfl

theorem elt_inv {s : Str} {p : Path Str} {rest : Str} (h : ReadsAs readPrim s p rest) (hr : Stops rest) :
    ReadsAs readElt ('^' :: s) (.inv p) rest := by
  obtain ⟨q, hq, N, hn⟩ := h
  refine ⟨.inv q, fun g x y => ?_, N + 2, fun n hle => ?_⟩
  · simp only [Rel]; exact hq g y x
  · obtain ⟨m, rfl⟩ : ∃ m, n = m + 2 := ⟨n - 2, by omega⟩
    rw [readElt, readMod_prim (hn m (by omega)) hr]
    rfl

theorem alt_elt {s : Str} {p : Path Str} {rest : Str} (h : ReadsAs readElt s p rest)
    (hr : ∀ c, rest.head? = some c → c ≠ '/' ∧ c ≠ '|') : ReadsAs readAlt s p rest := by
  obtain ⟨q, hq, N, hn⟩ := h
  refine ⟨q, hq, N + 2, fun n hle => ?_⟩
  obtain ⟨m, rfl⟩ : ∃ m, n = m + 2 := ⟨n - 2, by omega⟩
  exact readAlt_seq (readSeq_elt (hn m (by omega)) fun c h => (hr c h).1) fun c h => (hr c h).2

theorem same_star {p q : Path Str} (h : SameRel q p) : SameRel (.star q) (.star p) := by
  intro g x y
  have : Rel g q = Rel g p := by funext a b; exact propext (h g a b)
  simp only [Rel, this]

theorem same_plus {p q : Path Str} (h : SameRel q p) : SameRel (.plus q) (.plus p) := by
  intro g x y
  have : Rel g q = Rel g p := by funext a b; exact propext (h g a b)
  simp only [Rel, this]

theorem same_opt {p q : Path Str} (h : SameRel q p) : SameRel (.opt q) (.opt p) := by
  intro g x y
  simp only [Rel, h g x y]

theorem stops_paren (rest : Str) : Stops (')' :: rest) := by
  intro c h; cases h; simp

theorem join_cons (sep : Char) (q q' : Path Str) (l : List (Path Str)) :
    joinText sep (q :: q' :: l) = pathText q ++ sep :: joinText sep (q' :: l) := by
  rw [joinText]
  simp

mutual
theorem elt_text : ∀ (p : Path Str), PathFine p → ∀ rest, Stops rest → ReadsAs readElt (pathText p ++ rest) p rest
  | .pred i, hp, rest, hr => by
    rw [PathFine] at hp
    refine elt_prim ⟨.pred i, fun _ _ _ => Iff.rfl, 1, fun n hle => ?_⟩ (by simp [pathText]) hr
    obtain ⟨m, rfl⟩ : ∃ m, n = m + 1 := ⟨n - 1, by omega⟩
    simp only [pathText, List.cons_append, List.append_assoc, List.nil_append]
    rw [readPrim, readIri_append hp]
    rfl
  | .alt l, hp, rest, hr => by
    rw [PathFine] at hp
    have h := alt_text l hp.1 hp.2 rest
    have := elt_prim (prim_group h) (by simp) hr
    simpa [pathText] using this
  | .seq l, hp, rest, hr => by
    rw [PathFine] at hp
    have h := seq_text l hp.1 hp.2 rest
    obtain ⟨q, hq, N, hn⟩ := h
    have h : ReadsAs readAlt (joinText '/' l ++ ')' :: rest) (.seq l) (')' :: rest) := by
      refine ⟨q, hq, N + 1, fun n hle => ?_⟩
      obtain ⟨m, rfl⟩ : ∃ m, n = m + 1 := ⟨n - 1, by omega⟩
      exact readAlt_seq (hn m (by omega)) (by simp)
    have := elt_prim (prim_group h) (by simp) hr
    simpa [pathText] using this
  | .inv q, hp, rest, hr => by
    rw [PathFine] at hp
    have h := elt_text q hp (')' :: rest) (stops_paren rest)
    have := elt_inv (prim_group (alt_elt h (by simp))) hr
    simpa [pathText] using this
  | .star q, hp, rest, hr => by
    rw [PathFine] at hp
    have h := elt_text q hp (')' :: '*' :: rest) (stops_paren _)
    have := elt_mod '*' .star (Or.inl ⟨rfl, rfl⟩) (fun _ => same_star) (prim_group (alt_elt h (by simp))) (by simp)
    simpa [pathText] using this
  | .plus q, hp, rest, hr => by
    rw [PathFine] at hp
    have h := elt_text q hp (')' :: '+' :: rest) (stops_paren _)
    have := elt_mod '+' .plus (Or.inr (Or.inl ⟨rfl, rfl⟩)) (fun _ => same_plus) (prim_group (alt_elt h (by simp)))
      (by simp)
    simpa [pathText] using this
  | .opt q, hp, rest, hr => by
    rw [PathFine] at hp
    have h := elt_text q hp (')' :: '?' :: rest) (stops_paren _)
    have := elt_mod '?' .opt (Or.inr (Or.inr ⟨rfl, rfl⟩)) (fun _ => same_opt) (prim_group (alt_elt h (by simp)))
      (by simp)
    simpa [pathText] using this
theorem alt_text : ∀ (l : List (Path Str)), l ≠ [] → PathsFine l → ∀ rest,
    ReadsAs readAlt (joinText '|' l ++ ')' :: rest) (.alt l) (')' :: rest)
  | [], h, _, _ => absurd rfl h
  | [q], _, hp, rest => by
    rw [PathsFine] at hp
    obtain ⟨q', hq, N, hn⟩ := alt_elt (elt_text q hp.1 (')' :: rest) (stops_paren rest)) (by simp)
    refine ⟨q', fun g x y => ?_, N, fun n h => ?_⟩
    · rw [hq]; simp [Rel, RelAlt]
    · rw [joinText]; exact hn n h
  | q :: q' :: l, _, hp, rest => by
    rw [PathsFine] at hp
    obtain ⟨r, hr, N, hn⟩ := elt_text q hp.1 ('|' :: (joinText '|' (q' :: l) ++ ')' :: rest)) (by intro c h; cases h; simp)
    obtain ⟨r', hr', N', hn'⟩ := alt_text (q' :: l) (by simp) hp.2 rest
    refine ⟨.alt [r, r'], fun g x y => ?_, N + N' + 2, fun n h => ?_⟩
    · have h1 := hr g x y
      have h2 := hr' g x y
      simp only [Rel, RelAlt, or_false] at h1 h2 ⊢
      rw [h1, h2]
    · obtain ⟨m, rfl⟩ : ∃ m, n = m + 2 := ⟨n - 2, by omega⟩
      rw [join_cons, List.append_assoc, List.cons_append, readAlt,
        readSeq_elt (hn m (by omega)) (by simp)]
      simp only [hn' (m + 1) (by omega), Option.map_some]
theorem seq_text : ∀ (l : List (Path Str)), l ≠ [] → PathsFine l → ∀ rest,
    ReadsAs readSeq (joinText '/' l ++ ')' :: rest) (.seq l) (')' :: rest)
  | [], h, _, _ => absurd rfl h
  | [q], _, hp, rest => by
    rw [PathsFine] at hp
    obtain ⟨q', hq, N, hn⟩ := elt_text q hp.1 (')' :: rest) (stops_paren rest)
    refine ⟨q', fun g x y => ?_, N + 1, fun n h => ?_⟩
    · rw [hq]; simp [Rel, RelSeq]
    · obtain ⟨m, rfl⟩ : ∃ m, n = m + 1 := ⟨n - 1, by omega⟩
      rw [joinText]
      exact readSeq_elt (hn m (by omega)) (by simp)
  | q :: q' :: l, _, hp, rest => by
    rw [PathsFine] at hp
    obtain ⟨r, hr, N, hn⟩ := elt_text q hp.1 ('/' :: (joinText '/' (q' :: l) ++ ')' :: rest)) (by intro c h; cases h; simp)
    obtain ⟨r', hr', N', hn'⟩ := seq_text (q' :: l) (by simp) hp.2 rest
    refine ⟨.seq [r, r'], fun g x y => ?_, N + N' + 1, fun n h => ?_⟩
    · simp only [Rel, RelSeq]
      constructor
      · rintro ⟨z, h1, w, h2, rfl⟩
        have := (hr' g z y).1 h2
        simp only [Rel, RelSeq] at this
        exact ⟨z, (hr g x z).1 h1, this⟩
      · rintro ⟨z, h1, h2⟩
        refine ⟨z, (hr g x z).2 h1, y, (hr' g z y).2 ?_, rfl⟩
        simpa only [Rel, RelSeq] using h2
    · obtain ⟨m, rfl⟩ : ∃ m, n = m + 1 := ⟨n - 1, by omega⟩
      rw [join_cons, List.append_assoc, List.cons_append, readSeq, hn m (by omega)]
      simp only [hn' m (by omega), Option.map_some]
end

end Shacl
