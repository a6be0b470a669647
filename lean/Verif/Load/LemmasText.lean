import Verif.Load.LemmasLoad

/-!
# Lemmas: declarations in documents and sources
-/

namespace Load

open Prefix (Str PrefixMap)

/-! ## The keyword -/

theorem toLower_keyword (c : Char) (h : c.toLower ∈ chars "prefix") : c ∈ chars "@prefixPREFIX:" := by
  rw [← asciiLower_eq] at h
  unfold asciiLower at h
  split at h
  · rename_i hc
    have h1 : 65 ≤ c.toNat := hc.1
    have h2 : c.toNat ≤ 90 := hc.2
    have key : ∀ n : Fin 91, 65 ≤ n.val → Char.ofNat (n.val + 32) ∈ chars "prefix" →
        Char.ofNat n.val ∈ chars "@prefixPREFIX:" := by decide +kernel
    have := key ⟨c.toNat, by omega⟩ h1 h
    simpa using this
  · have : ∀ x ∈ chars "prefix", x ∈ chars "@prefixPREFIX:" := by decide +kernel
    exact this _ h

theorem keyword_chars {d : Directive} {k : Str} (h : IsKeyword d k) :
    ∀ c ∈ k, c ∈ chars "@prefixPREFIX:" ∧ c ≠ ':' := by
  cases d with
  | turtle =>
    have : k = chars "@prefix" := h
    subst this
    decide +kernel
  | sparql =>
    have h' : k.map Char.toLower = chars "prefix" := h
    intro c hc
    have hm : c.toLower ∈ chars "prefix" := by
      rw [← h']
      exact List.mem_map_of_mem hc
    refine ⟨toLower_keyword c hm, ?_⟩
    rintro rfl
    exact absurd hm (by decide +kernel)

theorem keyword_ne {d : Directive} {k : Str} (h : IsKeyword d k) : k ≠ [] := by
  rintro rfl
  cases d with
  | turtle => exact absurd (show ([] : Str) = chars "@prefix" from h) (by decide +kernel)
  | sparql => exact absurd (show ([] : Str).map Char.toLower = chars "prefix" from h) (by decide +kernel)

theorem keyword_space {ws : Char → Bool} (hw : SaneSpace ws) {d : Directive} {k : Str} (h : IsKeyword d k) :
    ∀ c ∈ k, ws c = false ∧ c ≠ ':' := fun c hc =>
  ⟨hw.2 c (keyword_chars h c hc).1, (keyword_chars h c hc).2⟩

theorem keyword_iff (d : Directive) (s r : Str) : keyword d s = some r ↔ ∃ k, IsKeyword d k ∧ s = k ++ r := by
  cases d with
  | turtle =>
    simp only [keyword, IsKeyword, Prefix.stripPrefix_iff]
    constructor
    · intro h
      exact ⟨_, rfl, h⟩
    · rintro ⟨k, rfl, h⟩
      exact h
  | sparql =>
    have hl : ∀ w : Str, w.map asciiLower = w.map Char.toLower := fun w =>
      List.map_congr_left fun c _ => asciiLower_eq c
    simp only [keyword, IsKeyword, hl]
    constructor
    · intro h
      split at h
      · rename_i hk
        simp only [Option.some.injEq] at h
        exact ⟨s.take 6, hk, by rw [← h, List.take_append_drop]⟩
      · simp at h
    · rintro ⟨k, hk, rfl⟩
      have hlen : k.length = 6 := by
        have := congrArg List.length hk
        simpa [chars] using this
      have h1 : (k ++ r).take 6 = k := by rw [← hlen]; simp
      have h2 : (k ++ r).drop 6 = r := by rw [← hlen]; simp
      rw [h1, h2, if_pos hk]

/-! ## One declaration -/

/-- A declaration at the start of a text and what follows it. -/
def DeclHere (ws : Char → Bool) (d : Directive) (s name rest : Str) : Prop :=
  ∃ w1 k w2 w3 : Str, s = w1 ++ (k ++ (w2 ++ (name ++ (w3 ++ ':' :: rest)))) ∧
    (∀ c ∈ w1, ws c = true) ∧ IsKeyword d k ∧ w2 ≠ [] ∧
    (∀ c ∈ w2, ws c = true) ∧ (∀ c ∈ name, ws c = false ∧ c ≠ ':') ∧ ∀ c ∈ w3, ws c = true

theorem colon_space {ws : Char → Bool} (hw : SaneSpace ws) : ws ':' = false := hw.2 ':' (by decide +kernel)

theorem declAt_iff {ws : Char → Bool} (hw : SaneSpace ws) (d : Directive) (s name rest : Str) :
    declAt ws d s = some (name, rest) ↔ DeclHere ws d s name rest := by
  have hc := colon_space hw
  constructor
  · intro h
    unfold declAt at h
    split at h
    · simp at h
    · rename_i r hr
      obtain ⟨k, hk, hs⟩ := (keyword_iff _ _ _).1 hr
      split at h
      · simp at h
      · rename_i hne
        simp only at h
        split at h
        · simp at h
        · rename_i c rest' hrest
          split at h
          · rename_i hcol
            subst hcol
            simp only [Option.some.injEq, Prod.mk.injEq] at h
            obtain ⟨rfl, rfl⟩ := h
            refine ⟨s.takeWhile ws, k, r.takeWhile ws,
              (((r.dropWhile ws).dropWhile fun c => !ws c && c != ':').takeWhile ws), ?_, takeWhile_mem, hk, ?_,
              takeWhile_mem, ?_, takeWhile_mem⟩
            · rw [← hrest, List.takeWhile_append_dropWhile, List.takeWhile_append_dropWhile,
                List.takeWhile_append_dropWhile, ← hs, List.takeWhile_append_dropWhile]
            · intro h0
              rw [h0] at hne
              simp at hne
            · intro c hc'
              have := takeWhile_mem c hc'
              simpa using this
          · simp at h
  · rintro ⟨w1, k, w2, w3, rfl, h1, hk, h2, h2', hn, h3⟩
    have hkw := keyword_space hw hk
    unfold declAt
    have e1 : (w1 ++ (k ++ (w2 ++ (name ++ (w3 ++ ':' :: rest))))).dropWhile ws =
        k ++ (w2 ++ (name ++ (w3 ++ ':' :: rest))) := by
      rw [dropWhile_all h1]
      refine dropWhile_head ?_
      intro c hc'
      obtain ⟨x, k', rfl⟩ := List.exists_cons_of_ne_nil (keyword_ne hk)
      simp only [List.cons_append, List.head?_cons, Option.some.injEq] at hc'
      subst hc'
      exact (hkw x (by simp)).1
    rw [e1, (keyword_iff _ _ _).2 ⟨k, hk, rfl⟩]
    simp only
    have e2 : ((w2 ++ (name ++ (w3 ++ ':' :: rest))).takeWhile ws).isEmpty = false := by
      rw [takeWhile_all h2']
      obtain ⟨x, w, rfl⟩ := List.exists_cons_of_ne_nil h2
      rfl
    rw [e2]
    simp only [Bool.false_eq_true, if_false]
    have hp : ∀ c ∈ name, (!ws c && c != ':') = true := by
      intro c hc'
      simp [hn c hc']
    have hstop : ∀ c, (w3 ++ ':' :: rest).head? = some c → (!ws c && c != ':') = false := by
      intro c hc'
      cases w3 with
      | nil =>
        simp only [List.nil_append, List.head?_cons, Option.some.injEq] at hc'
        subst hc'
        simp
      | cons x w =>
        simp only [List.cons_append, List.head?_cons, Option.some.injEq] at hc'
        subst hc'
        simp [h3 x (by simp)]
    have htake : (w3 ++ ':' :: rest).takeWhile (fun c => !ws c && c != ':') = [] := by
      cases hx : w3 ++ ':' :: rest with
      | nil => rfl
      | cons x xs =>
        have := hstop x (by rw [hx]; rfl)
        simp [List.takeWhile, this]
    have e5 : (w3 ++ ':' :: rest).dropWhile ws = ':' :: rest := by
      rw [dropWhile_all h3]
      simp [List.dropWhile, hc]
    cases name with
    | nil =>
      have e3 : (w2 ++ ([] ++ (w3 ++ ':' :: rest))).dropWhile ws = ':' :: rest := by
        rw [dropWhile_all h2', List.nil_append, e5]
      rw [e3]
      simp [List.takeWhile, List.dropWhile, hc]
    | cons x name =>
      have e3 : (w2 ++ (x :: name ++ (w3 ++ ':' :: rest))).dropWhile ws = x :: name ++ (w3 ++ ':' :: rest) := by
        rw [dropWhile_all h2']
        refine dropWhile_head ?_
        intro c hc'
        simp only [List.cons_append, List.head?_cons, Option.some.injEq] at hc'
        subst hc'
        exact (hn x (by simp)).1
      rw [e3, takeWhile_all hp, htake, dropWhile_all hp, dropWhile_head hstop, e5]
      simp

theorem declHere_unique {ws : Char → Bool} (hw : SaneSpace ws) {d : Directive} {s n r n' r' : Str}
    (h : DeclHere ws d s n r) (h' : DeclHere ws d s n' r') : n = n' ∧ r = r' := by
  have h1 := (declAt_iff hw d s n r).2 h
  have h2 := (declAt_iff hw d s n' r').2 h'
  rw [h1] at h2
  simpa using h2

/-! ## All declarations -/

theorem declsGo_sound {ws : Char → Bool} (hw : SaneSpace ws) (d : Directive) (n : Nat) (bol : Bool) (s name : Str)
    (h : name ∈ declsGo ws d n bol s) :
    ∃ pre t rest : Str, s = pre ++ t ∧ (pre = [] ∧ bol = true ∨ pre.getLast? = some '\n') ∧ DeclHere ws d t name rest := by
  induction n generalizing bol s with
  | zero => simp [declsGo] at h
  | succ n ih =>
    unfold declsGo at h
    split at h
    · rename_i nm rest hm
      have hbol : bol = true := by
        cases bol with
        | true => rfl
        | false => simp at hm
      subst hbol
      simp only [if_true] at hm
      have hd := (declAt_iff hw d s nm rest).1 hm
      rcases List.mem_cons.1 h with rfl | h
      · exact ⟨[], s, rest, rfl, Or.inl ⟨rfl, rfl⟩, hd⟩
      · obtain ⟨pre, t, rest', rfl, hp, ht⟩ := ih _ _ h
        rcases hp with ⟨-, hb⟩ | hp
        · simp at hb
        · obtain ⟨w1, k, w2, w3, rfl, -⟩ := hd
          refine ⟨w1 ++ (k ++ (w2 ++ (nm ++ (w3 ++ ':' :: pre)))), t, rest', by simp, Or.inr ?_, ht⟩
          have : w1 ++ (k ++ (w2 ++ (nm ++ (w3 ++ ':' :: pre)))) = (w1 ++ (k ++ (w2 ++ (nm ++ (w3 ++ [':']))))) ++ pre := by
            simp
          rw [this, List.getLast?_append, hp]
          rfl
    · cases s with
      | nil => simp at h
      | cons c cs =>
        simp only at h
        obtain ⟨pre, t, rest', rfl, hp, ht⟩ := ih _ _ h
        refine ⟨c :: pre, t, rest', rfl, Or.inr ?_, ht⟩
        rcases hp with ⟨rfl, hb⟩ | hp
        · simpa using hb
        · rw [show c :: pre = [c] ++ pre from rfl, List.getLast?_append, hp]
          rfl

/-- A declaration that starts inside another one has its name or is inside its space, the name being the
keyword. -/
theorem declHere_inside {ws : Char → Bool} (hw : SaneSpace ws) {d : Directive} {s n r pre t n' r' : Str}
    (h : DeclHere ws d s n r) (hs : s = pre ++ t) (hp : pre.getLast? = some '\n') (h' : DeclHere ws d t n' r') :
    n' = n ∨ IsKeyword d n ∨ ∃ q : Str, r = q ++ t ∧ q.getLast? = some '\n' := by
  obtain ⟨w1, k, w2, w3, hd, h1, hk, h2, h2', hn, h3⟩ := h
  have hc := colon_space hw
  have hkw := keyword_space hw hk
  have hnl := hw.1
  have memLast : ∀ q : Str, q.getLast? = some '\n' → '\n' ∈ q := fun q hq => List.mem_of_getLast? hq
  have passOn : ∀ a b q : Str, a = b ++ q → a.getLast? = some '\n' → q ≠ [] → q.getLast? = some '\n' := by
    intro a b q ha hl hq
    subst ha
    rw [List.getLast?_append] at hl
    cases hx : q.getLast? with
    | none => exact absurd (List.getLast?_eq_none_iff.1 hx) hq
    | some x =>
      rw [hx] at hl
      simpa using hl
  rw [hs] at hd
  -- in the space before the keyword
  have c1 : ∀ a, w1 = pre ++ a → t = a ++ (k ++ (w2 ++ (n ++ (w3 ++ ':' :: r)))) → n' = n := by
    intro a ha ht
    have : DeclHere ws d t n r := by
      refine ⟨a, k, w2, w3, ht, ?_, hk, h2, h2', hn, h3⟩
      intro c hc'
      exact h1 c (by rw [ha]; simp [hc'])
    exact (declHere_unique hw h' this).1
  -- in the space after the keyword
  have c3 : ∀ a, (∀ c ∈ a, ws c = true) → t = a ++ (n ++ (w3 ++ ':' :: r)) → IsKeyword d n := by
    intro a ha ht
    obtain ⟨v1, k', v2, v3, he, g1, gk, g2, g2', -, -⟩ := h'
    have gkw := keyword_space hw gk
    have e1 : t.dropWhile ws = k' ++ (v2 ++ (n' ++ (v3 ++ ':' :: r'))) := by
      rw [he, dropWhile_all g1]
      refine dropWhile_head ?_
      intro c hc'
      obtain ⟨x, k0, rfl⟩ := List.exists_cons_of_ne_nil (keyword_ne gk)
      simp only [List.cons_append, List.head?_cons, Option.some.injEq] at hc'
      subst hc'
      exact (gkw x (by simp)).1
    have stop : ∀ (w x : Str), (∀ c ∈ w, ws c = true) → (w = [] → ∃ y, x = ':' :: y) →
        (w ++ x).takeWhile (fun c => !ws c && c != ':') = [] := by
      intro w x hw' hx
      cases w with
      | nil =>
        obtain ⟨y, rfl⟩ := hx rfl
        simp [List.takeWhile]
      | cons c w => simp [List.takeWhile, hw' c (by simp)]
    have e2 : (t.dropWhile ws).takeWhile (fun c => !ws c && c != ':') = k' := by
      rw [e1, takeWhile_all (by intro c hc'; simp [gkw c hc']), stop v2 _ g2' (fun h0 => absurd h0 g2)]
      simp
    cases n with
    | nil =>
      exfalso
      rw [ht, List.nil_append, dropWhile_all ha, dropWhile_all h3] at e2
      simp only [List.dropWhile, hc] at e2
      simp only [List.takeWhile, hc] at e2
      simp only [bne_self_eq_false, Bool.and_false] at e2
      exact keyword_ne gk e2.symm
    | cons x n =>
      rw [ht, dropWhile_all ha, dropWhile_head (by
        intro c hc'
        simp only [List.cons_append, List.head?_cons, Option.some.injEq] at hc'
        subst hc'
        exact (hn x (by simp)).1), takeWhile_all (by intro c hc'; simp [hn c hc']),
        stop w3 _ h3 (fun _ => ⟨r, rfl⟩), List.append_nil] at e2
      rw [e2]
      exact gk
  -- before the colon
  have c5 : ∀ a, (∀ c ∈ a, ws c = true) → t ≠ a ++ ':' :: r := by
    intro a ha ht
    obtain ⟨v1, k', v2, v3, he, g1, gk, -⟩ := h'
    have gkw := keyword_space hw gk
    have e1 : t.dropWhile ws = k' ++ (v2 ++ (n' ++ (v3 ++ ':' :: r'))) := by
      rw [he, dropWhile_all g1]
      refine dropWhile_head ?_
      intro c hc'
      obtain ⟨x, k0, rfl⟩ := List.exists_cons_of_ne_nil (keyword_ne gk)
      simp only [List.cons_append, List.head?_cons, Option.some.injEq] at hc'
      subst hc'
      exact (gkw x (by simp)).1
    rw [ht, dropWhile_all ha] at e1
    simp only [List.dropWhile, hc] at e1
    obtain ⟨x, k0, rfl⟩ := List.exists_cons_of_ne_nil (keyword_ne gk)
    simp only [List.cons_append, List.cons.injEq] at e1
    exact (gkw x (by simp)).2 e1.1.symm
  have step : ∀ seg X q : Str, q ++ t = seg ++ X → q.getLast? = some '\n' →
      ('\n' ∈ seg ∧ ∃ b, seg = q ++ b ∧ t = b ++ X) ∨ ∃ q', q' ++ t = X ∧ q'.getLast? = some '\n' := by
    intro seg X q he hl
    rcases List.append_eq_append_iff.1 he with ⟨b, hb, ht⟩ | ⟨q', hq, hx⟩
    · exact Or.inl ⟨by rw [hb]; simp [memLast q hl], b, hb, ht⟩
    · by_cases hq' : q' = []
      · subst hq'
        simp only [List.append_nil, List.nil_append] at hq hx
        subst hq
        exact Or.inl ⟨memLast q hl, [], by simp, hx.symm⟩
      · exact Or.inr ⟨q', hx.symm, passOn _ _ _ hq hl hq'⟩
  rcases step _ _ _ hd hp with ⟨-, b, hb, ht⟩ | ⟨q1, hq1, l1⟩
  · exact Or.inl (c1 b hb ht)
  rcases step _ _ _ hq1 l1 with ⟨hm, -⟩ | ⟨q2, hq2, l2⟩
  · have := (hkw _ hm).1
    rw [hnl] at this
    simp at this
  rcases step _ _ _ hq2 l2 with ⟨-, b, hb, ht⟩ | ⟨q3, hq3, l3⟩
  · exact Or.inr (Or.inl (c3 b (fun c hc' => h2' c (by rw [hb]; simp [hc'])) ht))
  rcases step _ _ _ hq3 l3 with ⟨hm, -⟩ | ⟨q4, hq4, l4⟩
  · have := (hn _ hm).1
    rw [hnl] at this
    simp at this
  rcases step _ _ _ hq4 l4 with ⟨-, b, hb, ht⟩ | ⟨q5, hq5, l5⟩
  · exact absurd ht (c5 b (fun c hc' => h3 c (by rw [hb]; simp [hc'])))
  rcases step [':'] r q5 hq5 l5 with ⟨hm, -⟩ | ⟨q6, hq6, l6⟩
  · simp at hm
  · exact Or.inr (Or.inr ⟨q6, hq6.symm, l6⟩)

theorem declsGo_complete {ws : Char → Bool} (hw : SaneSpace ws) (d : Directive) (n : Nat) (bol : Bool)
    (s pre t name rest : Str) (hn : s.length < n) (hs : s = pre ++ t)
    (hp : pre = [] ∧ bol = true ∨ pre.getLast? = some '\n') (h : DeclHere ws d t name rest) :
    name ∈ declsGo ws d n bol s ∨ ∃ k ∈ declsGo ws d n bol s, IsKeyword d k := by
  induction n generalizing bol s pre with
  | zero => omega
  | succ n ih =>
    unfold declsGo
    split
    · rename_i nm rest' hm
      have hbol : bol = true := by
        cases bol with
        | true => rfl
        | false => simp at hm
      subst hbol
      simp only [if_true] at hm
      have hd := (declAt_iff hw d s nm rest').1 hm
      rcases hp with ⟨rfl, -⟩ | hp
      · rw [List.nil_append] at hs
        subst hs
        left
        rw [(declHere_unique hw hd h).1]
        simp
      · rcases declHere_inside hw hd hs hp h with rfl | hk | ⟨q, hq, hl⟩
        · simp
        · exact Or.inr ⟨nm, by simp, hk⟩
        · have hlen : rest'.length < n := by
            obtain ⟨w1, k, w2, w3, rfl, -⟩ := hd
            simp only [List.length_append, List.length_cons] at hn
            omega
          rcases ih false rest' q hlen hq (Or.inr hl) with h1 | ⟨k, h1, h2⟩
          · exact Or.inl (by simp [h1])
          · exact Or.inr ⟨k, by simp [h1], h2⟩
    · rename_i hm
      cases s with
      | nil =>
        exfalso
        obtain ⟨rfl, rfl⟩ := List.append_eq_nil_iff.1 hs.symm
        obtain ⟨w1, k, w2, w3, he, -⟩ := h
        simp at he
      | cons c cs =>
        simp only
        cases pre with
        | nil =>
          exfalso
          rcases hp with ⟨-, rfl⟩ | hp
          · rw [List.nil_append] at hs
            rw [← hs] at h
            rw [if_pos rfl, (declAt_iff hw d _ _ _).2 h] at hm
            simp at hm
          · simp at hp
        | cons x pre =>
          simp only [List.cons_append, List.cons.injEq] at hs
          obtain ⟨rfl, hs⟩ := hs
          refine ih _ cs pre (by simp only [List.length_cons] at hn; omega) hs ?_
          rcases hp with ⟨hp, -⟩ | hp
          · simp at hp
          · cases pre with
            | nil =>
              left
              simp only [List.getLast?_singleton, Option.some.injEq] at hp
              exact ⟨rfl, by simp [hp]⟩
            | cons y pre =>
              right
              rw [List.getLast?_cons_cons] at hp
              exact hp

theorem declaresAtLine_iff (ws : Char → Bool) (d : Directive) (s name : Str) :
    DeclaresAtLine ws d s name ↔
      ∃ pre t rest : Str, s = pre ++ t ∧ (pre = [] ∨ pre.getLast? = some '\n') ∧ DeclHere ws d t name rest := by
  constructor
  · rintro ⟨pre, w1, k, w2, w3, post, rfl, hp, h⟩
    exact ⟨pre, _, post, rfl, hp, w1, k, w2, w3, rfl, h⟩
  · rintro ⟨pre, t, rest, rfl, hp, w1, k, w2, w3, rfl, h⟩
    exact ⟨pre, w1, k, w2, w3, rest, rfl, hp, h⟩

theorem declared_sound {ws : Char → Bool} (hw : SaneSpace ws) (d : Directive) (s name : Str)
    (h : name ∈ declared ws d s) : DeclaresAtLine ws d s name := by
  obtain ⟨pre, t, rest, hs, hp, hd⟩ := declsGo_sound hw d _ _ _ _ h
  refine (declaresAtLine_iff _ _ _ _).2 ⟨pre, t, rest, hs, ?_, hd⟩
  rcases hp with ⟨hp, -⟩ | hp
  · exact Or.inl hp
  · exact Or.inr hp

theorem declared_iff {ws : Char → Bool} (hw : SaneSpace ws) (d : Directive) (s name : Str)
    (hk : ∀ k, IsKeyword d k → ¬ DeclaresAtLine ws d s k) :
    name ∈ declared ws d s ↔ DeclaresAtLine ws d s name := by
  refine ⟨declared_sound hw d s name, ?_⟩
  intro h
  obtain ⟨pre, t, rest, hs, hp, hd⟩ := (declaresAtLine_iff _ _ _ _).1 h
  have hp' : pre = [] ∧ true = true ∨ pre.getLast? = some '\n' := by
    rcases hp with hp | hp
    · exact Or.inl ⟨hp, rfl⟩
    · exact Or.inr hp
  rcases declsGo_complete hw d (s.length + 1) true s pre t name rest (by omega) hs hp' hd with h1 | ⟨k, h1, h2⟩
  · exact h1
  · exact absurd (declared_sound hw d s k h1) (hk k h2)

/-! ## Sources -/

theorem alnum_eq (c : Char) : alnum c = c.isAlphanum := by
  simp only [alnum, Char.isAlphanum, Char.isAlpha, Char.isUpper, Char.isLower, Char.isDigit]
  have e : ∀ a b : Char, decide (a ≤ b) = decide (a.val ≤ b.val) := fun _ _ => rfl
  simp only [e, ge_iff_le, Bool.decide_and]
  congr 1
  exact Bool.or_comm _ _

theorem pathRest_iff (c : Char) : pathRest c = true ↔ c.isAlphanum = true ∨ c ∈ chars "/\\._:-" := by
  have : chars "/\\._:-" = ['/', '\\', '.', '_', ':', '-'] := by decide +kernel
  rw [this]
  simp only [pathRest, Bool.or_eq_true, beq_iff_eq, alnum_eq, List.mem_cons, List.not_mem_nil, or_false]
  tauto

theorem pathLike_iff (s : Str) : pathLike s = true ↔ FileLike s := by
  unfold FileLike
  cases s with
  | nil => simp [pathLike]
  | cons c cs =>
    simp only [pathLike, Bool.or_eq_true, Bool.and_eq_true, List.all_eq_true, ← pathRest_iff]
    constructor
    · rintro (⟨h1, h2⟩ | h)
      · by_cases hc : c = '~'
        · subst hc
          exact Or.inr ⟨cs, rfl, h2⟩
        · left
          intro x hx
          rcases List.mem_cons.1 hx with rfl | hx
          · simp only [pathFirst, Bool.or_eq_true, beq_iff_eq, hc, or_false] at h1
            simp only [pathRest, Bool.or_eq_true, beq_iff_eq]
            tauto
          · exact h2 x hx
      · exact Or.inl h
    · rintro (h | ⟨t, ht, h⟩)
      · exact Or.inr h
      · simp only [List.cons.injEq] at ht
        obtain ⟨rfl, rfl⟩ := ht
        exact Or.inl ⟨by simp [pathFirst], h⟩

theorem webLike_iff (s : Str) :
    WebLike s ↔ (chars "http://").isPrefixOf s = true ∨ (chars "https://").isPrefixOf s = true := by
  simp only [WebLike, List.isPrefixOf_iff_prefix, List.IsPrefix]
  constructor
  · rintro ⟨t, h | h⟩
    · exact Or.inl ⟨t, h.symm⟩
    · exact Or.inr ⟨t, h.symm⟩
  · rintro (⟨t, h⟩ | ⟨t, h⟩)
    · exact ⟨t, Or.inl h.symm⟩
    · exact ⟨t, Or.inr h.symm⟩

end Load
