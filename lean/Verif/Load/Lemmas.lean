import Verif.Load.Spec
import Verif.Prefix.Lemmas
import Mathlib.Data.List.Basic

/-!
# Lemmas: texts read when data are loaded
-/

namespace Load

open Prefix (Str PrefixMap)

/-! ## White space -/

theorem dropWhile_head {p : Char → Bool} {s : Str} (h : ∀ c, s.head? = some c → p c = false) :
    s.dropWhile p = s := by
  cases s with
  | nil => rfl
  | cons c cs => simp [List.dropWhile, h c rfl]

theorem dropWhile_all {p : Char → Bool} {l s : Str} (h : ∀ c ∈ l, p c = true) :
    (l ++ s).dropWhile p = s.dropWhile p := by
  induction l with
  | nil => rfl
  | cons c cs ih =>
    simp only [List.cons_append, List.dropWhile, h c (by simp)]
    exact ih fun x hx => h x (by simp [hx])

theorem takeWhile_all {p : Char → Bool} {l s : Str} (h : ∀ c ∈ l, p c = true) :
    (l ++ s).takeWhile p = l ++ s.takeWhile p := by
  induction l with
  | nil => rfl
  | cons c cs ih =>
    simp only [List.cons_append, List.takeWhile, h c (by simp)]
    rw [ih fun x hx => h x (by simp [hx])]

theorem takeWhile_mem {p : Char → Bool} {s : Str} : ∀ c ∈ s.takeWhile p, p c = true := by
  induction s with
  | nil => simp
  | cons c cs ih =>
    simp only [List.takeWhile]
    split
    · intro x hx
      rcases List.mem_cons.1 hx with rfl | hx
      · assumption
      · exact ih x hx
    · simp

theorem dropWhile_not_head {p : Char → Bool} {s : Str} : ∀ c, (s.dropWhile p).head? = some c → p c = false := by
  induction s with
  | nil => simp
  | cons c cs ih =>
    simp only [List.dropWhile]
    split
    · exact ih
    · intro x hx
      simp only [List.head?_cons, Option.some.injEq] at hx
      subst hx
      simpa using ‹_›

theorem trim_iff (ws : Char → Bool) (s t : Str) : Trimmed ws s t ↔ Prefix.trim ws s = t := by
  constructor
  · rintro ⟨l, r, rfl, hl, hr, hh, ht⟩
    rw [Prefix.trim, List.append_assoc, dropWhile_all hl]
    cases t with
    | nil =>
      have : (r.dropWhile ws) = [] := by
        have := dropWhile_all (p := ws) (l := r) (s := []) hr
        simpa using this
      simp [this]
    | cons c cs =>
      rw [dropWhile_head (s := c :: cs ++ r) (by simpa using hh), List.reverse_append,
        dropWhile_all (by simpa using hr), dropWhile_head, List.reverse_reverse]
      intro x hx
      rw [List.head?_reverse] at hx
      exact ht x hx
  · rintro rfl
    refine ⟨s.takeWhile ws, ((s.dropWhile ws).reverse.takeWhile ws).reverse, ?_, takeWhile_mem, ?_, ?_, ?_⟩
    · rw [Prefix.trim, List.append_assoc, ← List.reverse_append, List.takeWhile_append_dropWhile,
        List.reverse_reverse, List.takeWhile_append_dropWhile]
    · intro c hc
      exact takeWhile_mem c (List.mem_reverse.1 hc)
    · intro c hc
      refine dropWhile_not_head (p := ws) (s := s) c ?_
      have hcat : s.dropWhile ws = Prefix.trim ws s ++ ((s.dropWhile ws).reverse.takeWhile ws).reverse := by
        rw [Prefix.trim, ← List.reverse_append, List.takeWhile_append_dropWhile, List.reverse_reverse]
      rw [hcat, List.head?_append, hc]
      rfl
    · intro c hc
      rw [Prefix.trim, List.getLast?_reverse] at hc
      exact dropWhile_not_head c hc

theorem trim_empty (ws : Char → Bool) (s : Str) : Prefix.trim ws s = [] ↔ ∀ c ∈ s, ws c = true := by
  rw [← trim_iff]
  constructor
  · rintro ⟨l, r, rfl, hl, hr, -, -⟩ c hc
    simp only [List.append_nil, List.mem_append] at hc
    exact hc.elim (hl c) (hr c)
  · intro h
    exact ⟨s, [], by simp, h, by simp, by simp, by simp⟩

/-! ## Declarations -/

/-- What `lastDecl` looks for. -/
def Open (s a b : Str) : Prop := ∃ k : Nat, s = a ++ ':' :: (List.replicate k ' ' ++ '<' :: b)

theorem open_nil_iff (c : Char) (cs b : Str) :
    Open (c :: cs) [] b ↔ c = ':' ∧ cs.dropWhile (· == ' ') = '<' :: b := by
  constructor
  · rintro ⟨k, h⟩
    simp only [List.nil_append, List.cons.injEq] at h
    obtain ⟨rfl, rfl⟩ := h
    refine ⟨rfl, ?_⟩
    rw [dropWhile_all (by intro x hx; simp [List.eq_of_mem_replicate hx])]
    rfl
  · rintro ⟨rfl, h⟩
    refine ⟨(cs.takeWhile (· == ' ')).length, ?_⟩
    have : cs.takeWhile (· == ' ') = List.replicate (cs.takeWhile (· == ' ')).length ' ' := by
      rw [List.eq_replicate_iff]
      exact ⟨rfl, fun x hx => by simpa using takeWhile_mem x hx⟩
    rw [List.nil_append, ← this, ← h, List.takeWhile_append_dropWhile]

theorem open_cons_iff (c : Char) (cs a b : Str) (x : Char) : Open (c :: cs) (x :: a) b ↔ x = c ∧ Open cs a b := by
  constructor
  · rintro ⟨k, h⟩
    simp only [List.cons_append, List.cons.injEq] at h
    exact ⟨h.1.symm, k, h.2⟩
  · rintro ⟨rfl, k, h⟩
    exact ⟨k, by rw [h]; rfl⟩

theorem lastDecl_spec (s : Str) :
    (∀ a b, lastDecl s = some (a, b) → Open s a b ∧ ∀ a' b', Open s a' b' → a'.length ≤ a.length) ∧
      (lastDecl s = none → ∀ a b, ¬ Open s a b) := by
  induction s with
  | nil =>
    refine ⟨by simp [lastDecl], ?_⟩
    rintro - a b ⟨k, h⟩
    simp at h
  | cons c cs ih =>
    cases hl : lastDecl cs with
    | some ab =>
      obtain ⟨a0, b0⟩ := ab
      obtain ⟨ho, hm⟩ := ih.1 a0 b0 hl
      refine ⟨?_, by simp [lastDecl, hl]⟩
      intro a b h
      simp only [lastDecl, hl, Option.some.injEq, Prod.mk.injEq] at h
      obtain ⟨rfl, rfl⟩ := h
      refine ⟨(open_cons_iff _ _ _ _ _).2 ⟨rfl, ho⟩, ?_⟩
      intro a' b' h'
      cases a' with
      | nil => simp
      | cons x a' =>
        have := hm a' b' ((open_cons_iff _ _ _ _ _).1 h').2
        simpa using this
    | none =>
      have hn := ih.2 hl
      have key : ∀ a b, Open (c :: cs) a b → a = [] ∧ c = ':' ∧ cs.dropWhile (· == ' ') = '<' :: b := by
        intro a b h
        cases a with
        | nil => exact ⟨rfl, (open_nil_iff _ _ _).1 h⟩
        | cons x a => exact absurd ((open_cons_iff _ _ _ _ _).1 h).2 (hn a b)
      simp only [lastDecl, hl]
      split
      · rename_i hc
        split
        · rename_i hd
          refine ⟨by simp, ?_⟩
          rintro - a b h
          have := (key a b h).2.2
          rw [hd] at this
          simp at this
        · rename_i d r hd
          split
          · rename_i hlt
            subst hlt hc
            refine ⟨?_, by simp⟩
            intro a b h
            simp only [Option.some.injEq, Prod.mk.injEq] at h
            obtain ⟨rfl, rfl⟩ := h
            refine ⟨(open_nil_iff _ _ _).2 ⟨rfl, hd⟩, ?_⟩
            intro a' b' h'
            rw [(key a' b' h').1]
            exact Nat.le_refl _
          · rename_i hlt
            refine ⟨by simp, ?_⟩
            rintro - a b h
            have := (key a b h).2.2
            rw [hd] at this
            simp only [List.cons.injEq] at this
            exact hlt this.1
      · rename_i hc
        refine ⟨by simp, ?_⟩
        rintro - a b h
        exact hc (key a b h).2.1

theorem shape_iff (s a b : Str) : Shape s a b ↔ s.getLast? = some '>' ∧ Open s.dropLast a b := by
  constructor
  · rintro ⟨k, rfl⟩
    have : a ++ ':' :: (List.replicate k ' ' ++ '<' :: (b ++ ['>'])) =
        (a ++ ':' :: (List.replicate k ' ' ++ '<' :: b)) ++ ['>'] := by simp
    rw [this]
    refine ⟨List.getLast?_concat, k, ?_⟩
    rw [List.dropLast_concat]
  · rintro ⟨hl, k, h⟩
    refine ⟨k, ?_⟩
    have := List.dropLast_append_getLast? '>' hl
    rw [← this, h]
    simp

theorem open_unique {s a b b' : Str} (h : Open s a b) (h' : Open s a b') : b = b' := by
  obtain ⟨k, hk⟩ := h
  obtain ⟨k', hk'⟩ := h'
  have h1 : List.replicate k ' ' ++ '<' :: b = List.replicate k' ' ' ++ '<' :: b' := by
    have := hk.symm.trans hk'
    simpa using this
  have h2 := congrArg (List.dropWhile (· == ' ')) h1
  rw [dropWhile_all (by intro x hx; simp [List.eq_of_mem_replicate hx]),
    dropWhile_all (by intro x hx; simp [List.eq_of_mem_replicate hx])] at h2
  simpa [List.dropWhile] using h2

theorem open_prefix {s a b a' b' : Str} (h : Open s a b) (h' : Open s a' b') (hl : a.length = a'.length) :
    a = a' := by
  obtain ⟨k, hk⟩ := h
  obtain ⟨k', hk'⟩ := h'
  exact (List.append_inj (hk.symm.trans hk') hl).1

/-- Exactly the declarations are added. -/
theorem captures_iff (ws : Char → Bool) (s p i : Str) :
    DeclText ws s p i ↔ ∃ a b, captures s = some (a, b) ∧ Prefix.trim ws a = p ∧ Prefix.trim ws b = i := by
  unfold DeclText captures
  by_cases hn : '\n' ∈ s
  · simp [hn]
  have hc : s.contains '\n' = false := by simpa using hn
  rw [hc]
  simp only [Bool.false_eq_true, if_false]
  by_cases hg : s.getLast? = some '>'
  · rw [if_pos hg]
    constructor
    · rintro ⟨-, a, b, hs, hm, hp, hi⟩
      refine ⟨a, b, ?_, (trim_iff _ _ _).1 hp, (trim_iff _ _ _).1 hi⟩
      have ho := ((shape_iff _ _ _).1 hs).2
      cases hl : lastDecl s.dropLast with
      | none => exact absurd ho ((lastDecl_spec _).2 hl a b)
      | some ab =>
        obtain ⟨a0, b0⟩ := ab
        obtain ⟨h0, h1⟩ := (lastDecl_spec _).1 a0 b0 hl
        have e1 := h1 a b ho
        have e2 := hm a0 b0 ((shape_iff _ _ _).2 ⟨hg, h0⟩)
        have e3 := open_prefix h0 ho (by omega)
        subst e3
        rw [open_unique h0 ho]
    · rintro ⟨a, b, hl, hp, hi⟩
      obtain ⟨h0, h1⟩ := (lastDecl_spec _).1 a b hl
      refine ⟨hn, a, b, (shape_iff _ _ _).2 ⟨hg, h0⟩, ?_, (trim_iff _ _ _).2 hp, (trim_iff _ _ _).2 hi⟩
      intro a' b' h'
      exact h1 a' b' ((shape_iff _ _ _).1 h').2
  · rw [if_neg hg]
    constructor
    · rintro ⟨-, a, b, hs, -⟩
      exact absurd ((shape_iff _ _ _).1 hs).1 hg
    · rintro ⟨a, b, h, -⟩
      simp at h

theorem addDecl_iff (ws : Char → Bool) (valid : Str → Bool) (pm pm' : PrefixMap) (s : Str) :
    addDecl ws valid pm s = some pm' ↔
      ∃ p i, DeclText ws s p i ∧ valid i = true ∧ pm' = pm.addPrefix p i := by
  unfold addDecl
  constructor
  · intro h
    split at h
    · simp at h
    · rename_i a b hc
      simp only at h
      split at h
      · rename_i hv
        simp only [Option.some.injEq] at h
        exact ⟨_, _, (captures_iff _ _ _ _).2 ⟨a, b, hc, rfl, rfl⟩, hv, h.symm⟩
      · simp at h
  · rintro ⟨p, i, hd, hv, rfl⟩
    obtain ⟨a, b, hc, rfl, rfl⟩ := (captures_iff _ _ _ _).1 hd
    simp [hc, hv]

theorem declText_unique {ws : Char → Bool} {s p i p' i' : Str} (h : DeclText ws s p i)
    (h' : DeclText ws s p' i') : p = p' ∧ i = i' := by
  obtain ⟨a, b, hc, rfl, rfl⟩ := (captures_iff _ _ _ _).1 h
  obtain ⟨a', b', hc', rfl, rfl⟩ := (captures_iff _ _ _ _).1 h'
  rw [hc] at hc'
  simp only [Option.some.injEq, Prod.mk.injEq] at hc'
  obtain ⟨rfl, rfl⟩ := hc'
  exact ⟨rfl, rfl⟩

/-! ## Lines -/

theorem splitLines_ne (s : Str) : splitLines s ≠ [] := by
  cases s with
  | nil => simp [splitLines]
  | cons c cs =>
    simp only [splitLines]
    split
    · simp
    · split <;> simp

theorem linesOf_split (s : Str) : LinesOf s (splitLines s) := by
  induction s with
  | nil => exact ⟨by simp [splitLines], by simp [splitLines], by simp [splitLines, List.intercalate]⟩
  | cons c cs ih =>
    obtain ⟨h1, h2, h3⟩ := ih
    cases hs : splitLines cs with
    | nil => exact absurd hs h1
    | cons l ls =>
      rw [hs] at h2 h3
      simp only [splitLines, hs]
      split
      · rename_i hc
        subst hc
        refine ⟨by simp, ?_, ?_⟩
        · intro x hx
          rcases List.mem_cons.1 hx with rfl | hx
          · simp
          · exact h2 x hx
        · simp only [List.intercalate, List.intersperse_cons₂, List.flatten_cons, List.nil_append,
            List.singleton_append]
          congr 1
      · rename_i hc
        refine ⟨by simp, ?_, ?_⟩
        · intro x hx
          rcases List.mem_cons.1 hx with rfl | hx
          · simp only [List.mem_cons, not_or]
            exact ⟨fun h => hc h.symm, h2 l (by simp)⟩
          · exact h2 x (by simp [hx])
        · rw [h3]
          cases ls with
          | nil => simp [List.intercalate]
          | cons l' ls => simp [List.intercalate]

theorem splitLines_line (l : Str) (h : '\n' ∉ l) : splitLines l = [l] := by
  induction l with
  | nil => rfl
  | cons c cs ih =>
    simp only [List.mem_cons, not_or] at h
    simp only [splitLines, ih h.2]
    rw [if_neg (fun hc => h.1 hc.symm)]

theorem splitLines_append (l s : Str) (h : '\n' ∉ l) : splitLines (l ++ '\n' :: s) = l :: splitLines s := by
  induction l with
  | nil => simp [splitLines]
  | cons c cs ih =>
    simp only [List.mem_cons, not_or] at h
    simp only [List.cons_append, splitLines, ih h.2]
    rw [if_neg (fun hc => h.1 hc.symm)]

theorem linesOf_iff (s : Str) (ls : List Str) : LinesOf s ls ↔ ls = splitLines s := by
  constructor
  · rintro ⟨h1, h2, rfl⟩
    induction ls with
    | nil => exact absurd rfl h1
    | cons l ls ih =>
      cases ls with
      | nil =>
        simp only [List.intercalate, List.intersperse_singleton, List.flatten_cons, List.flatten_nil,
          List.append_nil]
        exact (splitLines_line l (h2 l (by simp))).symm
      | cons l' ls =>
        have := ih (by simp) fun x hx => h2 x (by simp [hx])
        simp only [List.intercalate, List.intersperse_cons₂, List.flatten_cons, List.singleton_append] at this ⊢
        rw [splitLines_append l _ (h2 l (by simp)), ← this]
  · rintro rfl
    exact linesOf_split s

/-! ## Prefix maps of a user -/

/-- The map after declarations. -/
def addAll (pm : PrefixMap) (ds : List (Str × Str)) : PrefixMap := ds.foldl (fun m d => m.addPrefix d.1 d.2) pm

theorem addLines_iff (ws : Char → Bool) (valid : Str → Bool) (ls : List Str) (pm pm' : PrefixMap) :
    addLines ws valid pm ls = some pm' ↔ ∃ ds, LineDecls ws valid ls ds ∧ pm' = addAll pm ds := by
  induction ls generalizing pm with
  | nil =>
    simp only [addLines, Option.some.injEq]
    constructor
    · rintro rfl
      exact ⟨[], .nil, rfl⟩
    · rintro ⟨ds, h, rfl⟩
      cases h
      rfl
  | cons l ls ih =>
    by_cases hb : ∀ c ∈ l, ws c = true
    · have ht := (trim_empty ws l).2 hb
      simp only [addLines, ht, List.isEmpty_nil, if_true]
      rw [ih]
      constructor
      · rintro ⟨ds, h, rfl⟩
        exact ⟨ds, .blank hb h, rfl⟩
      · rintro ⟨ds, h, rfl⟩
        cases h with
        | blank _ h => exact ⟨ds, h, rfl⟩
        | decl hn _ _ _ _ => exact absurd hb hn
    · have ht : (Prefix.trim ws l).isEmpty = false := by
        rw [Bool.eq_false_iff]
        intro h
        exact hb ((trim_empty ws l).1 (List.isEmpty_iff.1 h))
      simp only [addLines, ht, Bool.false_eq_true, if_false]
      constructor
      · intro h
        split at h
        · simp at h
        · rename_i pm1 h1
          obtain ⟨p, i, hd, hv, rfl⟩ := (addDecl_iff _ _ _ _ _).1 h1
          obtain ⟨ds, hds, rfl⟩ := (ih _).1 h
          exact ⟨(p, i) :: ds, .decl hb ((trim_iff _ _ _).2 rfl) hd hv hds, rfl⟩
      · rintro ⟨ds, h, rfl⟩
        cases h with
        | blank h _ => exact absurd h hb
        | decl _ ht' hd hv hs =>
          have := (trim_iff _ _ _).1 ht'
          subst this
          rw [(addDecl_iff _ _ _ _ _).2 ⟨_, _, hd, hv, rfl⟩]
          exact (ih _).2 ⟨_, hs, rfl⟩

theorem userPrefixes_iff {G P : Type} (e : Env G P) (i : Input) (pm : PrefixMap) :
    userPrefixes e i = some pm ↔ ∃ ds, InputDecls e.ws e.validIri i ds ∧ pm = addAll .new ds := by
  obtain ⟨src, op⟩ := i
  unfold userPrefixes
  constructor
  · intro h
    split at h
    · simp at h
    · rename_i hs
      split at h
      · simp at h
      · simp at h
      · rename_i t ht
        simp only at ht hs h
        subst ht
        cases src with
        | stdin => exact absurd rfl hs
        | str s =>
          obtain ⟨p, j, hd, hv, rfl⟩ := (addDecl_iff _ _ _ _ _).1 h
          exact ⟨[(p, j)], .str ((trim_iff _ _ _).2 rfl) hd hv, rfl⟩
        | path s =>
          obtain ⟨ds, hd, rfl⟩ := (addLines_iff _ _ _ _ _).1 h
          exact ⟨ds, .path ((linesOf_iff _ _).2 rfl) hd, rfl⟩
        | url s =>
          obtain ⟨ds, hd, rfl⟩ := (addLines_iff _ _ _ _ _).1 h
          exact ⟨ds, .url ((linesOf_iff _ _).2 rfl) hd, rfl⟩
  · rintro ⟨ds, h, rfl⟩
    cases h with
    | str hu hd hv =>
      simp only [reduceCtorEq, if_false]
      rw [(trim_iff _ _ _).1 hu]
      exact (addDecl_iff _ _ _ _ _).2 ⟨_, _, hd, hv, rfl⟩
    | path hl hd =>
      simp only [reduceCtorEq, if_false]
      rw [← (linesOf_iff _ _).1 hl]
      exact (addLines_iff _ _ _ _ _).2 ⟨_, hd, rfl⟩
    | url hl hd =>
      simp only [reduceCtorEq, if_false]
      rw [← (linesOf_iff _ _).1 hl]
      exact (addLines_iff _ _ _ _ _).2 ⟨_, hd, rfl⟩

theorem find_addPrefix (m : PrefixMap) (a i al : Str) :
    (m.addPrefix a i).find al = if al = a then some i else m.find al := by
  simp only [PrefixMap.addPrefix, PrefixMap.find]
  exact Prefix.imGet_insert _ _ _ _

theorem lastOf_cons (al : Str) (d : Str × Str) (ds : List (Str × Str)) :
    lastOf al (d :: ds) = (lastOf al ds).or (if al = d.1 then some d.2 else none) := by
  simp only [lastOf, List.reverse_cons, List.find?_append]
  cases h : ds.reverse.find? fun d => d.1 == al with
  | some x => simp
  | none =>
    by_cases hd : al = d.1
    · simp [hd]
    · have : (d.1 == al) = false := by simpa using fun h => hd h.symm
      simp [hd, this]

theorem lastOf_append (al : Str) (ds ds' : List (Str × Str)) :
    lastOf al (ds ++ ds') = (lastOf al ds').or (lastOf al ds) := by
  induction ds with
  | nil => simp [lastOf]
  | cons d ds ih => rw [List.cons_append, lastOf_cons, ih, lastOf_cons, Option.or_assoc]

theorem find_addAll (m : PrefixMap) (ds : List (Str × Str)) (al : Str) :
    (addAll m ds).find al = (lastOf al ds).or (m.find al) := by
  induction ds generalizing m with
  | nil => simp [addAll, lastOf]
  | cons d ds ih =>
    have : addAll m (d :: ds) = addAll (m.addPrefix d.1 d.2) ds := rfl
    rw [this, ih, lastOf_cons, find_addPrefix]
    cases lastOf al ds with
    | some x => simp
    | none => by_cases h : al = d.1 <;> simp [h]

theorem nodup_addAll (m : PrefixMap) (ds : List (Str × Str)) (h : (m.map.map Prod.fst).Nodup) :
    ((addAll m ds).map.map Prod.fst).Nodup := by
  induction ds generalizing m with
  | nil => exact h
  | cons d ds ih =>
    refine ih _ ?_
    simp only [PrefixMap.addPrefix]
    exact Prefix.imInsert_nodup _ _ h

theorem find_merge (m n : PrefixMap) (h : (n.map.map Prod.fst).Nodup) (al : Str) :
    (m.merge n).find al = (n.find al).or (m.find al) := by
  rw [Prefix.merge_eq]
  exact Prefix.imGet_foldl h _ _

theorem nodup_merge (m n : PrefixMap) (h : (m.map.map Prod.fst).Nodup) :
    ((m.merge n).map.map Prod.fst).Nodup := by
  rw [Prefix.merge_eq]
  simp only
  generalize n.map = l
  generalize hk : m.map = k at *
  clear hk
  induction l generalizing k with
  | nil => exact h
  | cons e l ih => exact ih _ (Prefix.imInsert_nodup _ _ h)

theorem allUserPrefixes_iff {G P : Type} (e : Env G P) (is : List Input) (pm : PrefixMap)
    (hn : (pm.map.map Prod.fst).Nodup) :
    (∀ pm', allUserPrefixes e pm is = some pm' → ∃ ds, AllDecls e.ws e.validIri is ds ∧
      (pm'.map.map Prod.fst).Nodup ∧ ∀ al, pm'.find al = (lastOf al ds).or (pm.find al)) ∧
    (∀ ds, AllDecls e.ws e.validIri is ds → ∃ pm', allUserPrefixes e pm is = some pm') := by
  induction is generalizing pm with
  | nil =>
    refine ⟨?_, ?_⟩
    · intro pm' h
      simp only [allUserPrefixes, Option.some.injEq] at h
      subst h
      exact ⟨[], .nil, hn, by simp [lastOf]⟩
    · intro ds _
      exact ⟨pm, rfl⟩
  | cons i is ih =>
    refine ⟨?_, ?_⟩
    · intro pm' h
      simp only [allUserPrefixes] at h
      split at h
      · simp at h
      · rename_i p hp
        obtain ⟨d, hd, rfl⟩ := (userPrefixes_iff _ _ _).1 hp
        obtain ⟨ds, hds, hnd, hf⟩ := (ih _ (nodup_merge pm _ hn)).1 pm' h
        refine ⟨d ++ ds, .cons hd hds, hnd, ?_⟩
        intro al
        rw [hf, find_merge _ _ (nodup_addAll _ _ (by simp [PrefixMap.new])), find_addAll, lastOf_append]
        simp [PrefixMap.new, PrefixMap.find, Prefix.imGet, Option.or_assoc]
    · intro ds h
      cases h with
      | cons h hs =>
        simp only [allUserPrefixes, (userPrefixes_iff _ _ _).2 ⟨_, h, rfl⟩]
        exact (ih _ (nodup_merge pm _ hn)).2 _ hs

theorem inputDecls_unique {ws : Char → Bool} {valid : Str → Bool} {i : Input} {d d' : List (Str × Str)}
    (h : InputDecls ws valid i d) (h' : InputDecls ws valid i d') : d = d' := by
  have lines : ∀ ls d d', LineDecls ws valid ls d → LineDecls ws valid ls d' → d = d' := by
    intro ls
    induction ls with
    | nil => intro d d' h h'; cases h; cases h'; rfl
    | cons l ls ih =>
      intro d d' h h'
      cases h with
      | blank hb hs =>
        cases h' with
        | blank _ hs' => exact ih _ _ hs hs'
        | decl hn _ _ _ _ => exact absurd hb hn
      | decl hn ht hd _ hs =>
        cases h' with
        | blank hb _ => exact absurd hb hn
        | decl _ ht' hd' _ hs' =>
          have e1 := ((trim_iff _ _ _).1 ht).symm.trans ((trim_iff _ _ _).1 ht')
          subst e1
          obtain ⟨rfl, rfl⟩ := declText_unique hd hd'
          rw [ih _ _ hs hs']
  cases h with
  | str hu hd hv =>
    cases h' with
    | str hu' hd' hv' =>
      have e1 := ((trim_iff _ _ _).1 hu).symm.trans ((trim_iff _ _ _).1 hu')
      subst e1
      obtain ⟨rfl, rfl⟩ := declText_unique hd hd'
      rfl
  | path hl hd =>
    cases h' with
    | path hl' hd' =>
      have e1 := ((linesOf_iff _ _).1 hl).trans ((linesOf_iff _ _).1 hl').symm
      subst e1
      exact lines _ _ _ hd hd'
  | url hl hd =>
    cases h' with
    | url hl' hd' =>
      have e1 := ((linesOf_iff _ _).1 hl).trans ((linesOf_iff _ _).1 hl').symm
      subst e1
      exact lines _ _ _ hd hd'

theorem allDecls_unique {ws : Char → Bool} {valid : Str → Bool} {is : List Input} {d d' : List (Str × Str)}
    (h : AllDecls ws valid is d) (h' : AllDecls ws valid is d') : d = d' := by
  induction is generalizing d d' with
  | nil => cases h; cases h'; rfl
  | cons i is ih =>
    cases h with
    | cons h hs =>
      cases h' with
      | cons h1 hs1 => rw [inputDecls_unique h h1, ih hs hs1]

end Load
