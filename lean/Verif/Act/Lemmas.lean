import Verif.Act.Spec
import Verif.Prefix.Props

namespace Act

theorem spaces_sp (n : Nat) (cs : Text) (h : cs.head? ≠ some ' ') : spaces (sp n ++ cs) = cs := by
  induction n with
  | zero =>
    cases cs with
    | nil => rfl
    | cons c cs =>
      simp only [List.head?_cons, ne_eq, Option.some.injEq] at h
      show spaces (c :: cs) = c :: cs
      unfold spaces
      split
      · rename_i heq
        exact absurd (List.cons.inj heq).1 h
      · rfl
  | succ n ih => exact ih

theorem spaces_spec (cs : Text) : ∃ n, cs = sp n ++ spaces cs := by
  induction cs with
  | nil => exact ⟨0, rfl⟩
  | cons c cs ih =>
    by_cases hc : c = ' '
    · subst hc
      obtain ⟨n, hn⟩ := ih
      exact ⟨n + 1, congrArg (' ' :: ·) hn⟩
    · refine ⟨0, ?_⟩
      show c :: cs = spaces (c :: cs)
      unfold spaces
      split
      · rename_i heq
        exact absurd (List.cons.inj heq).1 hc
      · rfl

theorem word_iff (w : Text) : ∀ cs r, word w cs = some r ↔ cs = w ++ r := by
  induction w with
  | nil => intro cs r; simp [word]
  | cons x w ih =>
    intro cs r
    cases cs with
    | nil => simp [word]
    | cons c cs =>
      simp only [word]
      split
      · rename_i h
        subst h
        simp [ih]
      · rename_i h
        simp only [reduceCtorEq, List.cons_append, List.cons.injEq, false_iff, not_and]
        intro hc
        exact absurd hc.symm h

theorem directive_iff (cs : Text) (d : Directive) (r : Text) :
    directive cs = some (d, r) ↔ cs = d.written ++ r := by
  unfold directive
  cases hf : word ['f', 'a', 'i', 'l'] cs with
  | some r' =>
    rw [word_iff] at hf
    subst hf
    simp only [Option.some.injEq, Prod.mk.injEq]
    cases d with
    | fail =>
      simp [Directive.written]
    | print =>
      simp [Directive.written]
  | none =>
    have hn : ∀ r', cs ≠ ['f', 'a', 'i', 'l'] ++ r' := by
      intro r' h
      rw [(word_iff _ _ _).2 h] at hf
      cases hf
    cases d with
    | fail =>
      simp only [Option.map_eq_some_iff, Prod.mk.injEq, reduceCtorEq, false_and, and_false,
        exists_false, false_iff]
      exact hn r
    | print =>
      simp only [Option.map_eq_some_iff, Prod.mk.injEq, true_and, exists_eq_right, word_iff]
      rfl

theorem quotedBody_escape (m r : Text) : quotedBody (escape m ++ '"' :: r) = some (escape m, r) := by
  induction m with
  | nil => rfl
  | cons c m ih =>
    by_cases h1 : c = '\\'
    · subst h1
      show quotedBody ('\\' :: '\\' :: (escape m ++ '"' :: r)) = some ('\\' :: '\\' :: escape m, r)
      simp [quotedBody, ih]
    · by_cases h2 : c = '"'
      · subst h2
        show quotedBody ('\\' :: '"' :: (escape m ++ '"' :: r)) = some ('\\' :: '"' :: escape m, r)
        simp [quotedBody, ih]
      · have he : escape (c :: m) = c :: escape m := by simp [escape, h1, h2]
        rw [he, List.cons_append, quotedBody.eq_def]
        split
        · simp_all
        · rename_i heq; exact absurd (List.cons.inj heq).1 h2
        · rename_i heq; exact absurd (List.cons.inj heq).1 h1
        · rename_i heq; exact absurd (List.cons.inj heq).1 h1
        · rename_i heq
          obtain ⟨rfl, rfl⟩ := List.cons.inj heq
          simp [ih]

theorem quotedBody_spec : ∀ (cs inner r : Text), quotedBody cs = some (inner, r) →
    ∃ m, inner = escape m ∧ cs = escape m ++ '"' :: r := by
  intro cs
  induction cs using quotedBody.induct with
  | case1 => simp [quotedBody]
  | case2 cs =>
    intro inner r h
    simp only [quotedBody, Option.some.injEq, Prod.mk.injEq] at h
    obtain ⟨rfl, rfl⟩ := h
    exact ⟨[], rfl, rfl⟩
  | case3 => simp [quotedBody]
  | case4 c cs hc ih =>
    intro inner r h
    simp only [quotedBody, if_pos hc, Option.map_eq_some_iff] at h
    obtain ⟨⟨i, r'⟩, h1, h2⟩ := h
    obtain ⟨rfl, rfl⟩ := Prod.mk.inj h2
    obtain ⟨m, rfl, rfl⟩ := ih _ _ h1
    rcases hc with rfl | rfl
    · exact ⟨'\\' :: m, rfl, rfl⟩
    · exact ⟨'"' :: m, rfl, rfl⟩
  | case5 c cs hc =>
    intro inner r h
    simp [quotedBody, if_neg hc] at h
  | case6 c cs h1 h2 h3 ih =>
    intro inner r h
    have hq : c ≠ '"' := fun hc => h1 hc
    have hb : c ≠ '\\' := by
      intro hc
      cases cs with
      | nil => exact h2 hc rfl
      | cons d cs => exact h3 d cs hc rfl
    rw [quotedBody.eq_def] at h
    split at h
    · simp_all
    · rename_i heq; exact absurd (List.cons.inj heq).1 hq
    · rename_i heq; exact absurd (List.cons.inj heq).1 hb
    · rename_i heq; exact absurd (List.cons.inj heq).1 hb
    · rename_i heq
      obtain ⟨rfl, rfl⟩ := List.cons.inj heq
      simp only [Option.map_eq_some_iff] at h
      obtain ⟨⟨i, r'⟩, h4, h5⟩ := h
      obtain ⟨rfl, rfl⟩ := Prod.mk.inj h5
      obtain ⟨m, rfl, rfl⟩ := ih _ _ h4
      exact ⟨c :: m, by simp [escape, hb, hq], by simp [escape, hb, hq]⟩

/-- The argument that a message is. -/
def Msg.arg : Msg → Arg
  | .text m => .quoted (escape m)
  | .var x => .particle x

theorem arg_written (m : Msg) (r : Text) : Act.arg (m.written ++ r) = some (m.arg, r) := by
  cases m with
  | text m =>
    show Act.arg ('"' :: (escape m ++ ['"'] ++ r)) = _
    simp only [Act.arg, List.append_assoc, List.cons_append, List.nil_append, quotedBody_escape]
    rfl
  | var x => cases x <;> rfl

theorem arg_spec (cs : Text) (a : Arg) (r : Text) (h : Act.arg cs = some (a, r)) :
    ∃ m : Msg, a = m.arg ∧ cs = m.written ++ r := by
  unfold Act.arg at h
  split at h
  · obtain ⟨⟨i, r'⟩, h1, h2⟩ := Option.map_eq_some_iff.1 h
    obtain ⟨rfl, rfl⟩ := Prod.mk.inj h2
    obtain ⟨m, rfl, rfl⟩ := quotedBody_spec _ _ _ h1
    exact ⟨.text m, rfl, by simp [Msg.written]⟩
  · cases h; exact ⟨.var .s, rfl, rfl⟩
  · cases h; exact ⟨.var .p, rfl, rfl⟩
  · cases h; exact ⟨.var .o, rfl, rfl⟩
  · cases h

theorem captures_written {code : Text} {d : Directive} {m : Msg} (h : Written code d m) :
    captures code = some (d, m.arg) := by
  obtain ⟨i, j, k, l, n, rfl⟩ := h
  have h1 : spaces (sp i ++ d.written ++ sp j ++ ['('] ++ sp k ++ m.written ++ sp l ++ [')'] ++ sp n) =
      d.written ++ (sp j ++ ('(' :: (sp k ++ (m.written ++ (sp l ++ (')' :: sp n)))))) := by
    simp only [List.append_assoc]
    rw [spaces_sp]
    · rfl
    · cases d <;> simp [Directive.written]
  have h2 := (directive_iff _ d _).2 h1
  have h3 : spaces (sp j ++ ('(' :: (sp k ++ (m.written ++ (sp l ++ (')' :: sp n)))))) =
      ['('] ++ (sp k ++ (m.written ++ (sp l ++ (')' :: sp n)))) := spaces_sp j _ (by simp)
  have h4 : spaces (sp k ++ (m.written ++ (sp l ++ (')' :: sp n)))) =
      m.written ++ (sp l ++ (')' :: sp n)) := by
    apply spaces_sp
    cases m with
    | text m => simp [Msg.written]
    | var x => cases x <;> simp [Msg.written]
  have h5 : spaces (sp l ++ (')' :: sp n)) = [')'] ++ sp n := spaces_sp l _ (by simp)
  have h6 : spaces (sp n) = [] := by
    have := spaces_sp n [] (by simp)
    simpa using this
  simp only [captures, h2, (word_iff _ _ _).2 h3, h4, arg_written, (word_iff _ _ _).2 h5, h6, if_true]

theorem captures_spec {code : Text} {d : Directive} {a : Arg} (h : captures code = some (d, a)) :
    ∃ m, Written code d m := by
  unfold captures at h
  split at h
  · cases h
  rename_i d' r1 e1
  split at h
  · cases h
  rename_i r2 e2
  split at h
  · cases h
  rename_i a' r3 e3
  split at h
  · cases h
  rename_i r4 e4
  split at h
  · rename_i e5
    obtain ⟨rfl, rfl⟩ := Prod.mk.inj (Option.some.inj h)
    rw [directive_iff] at e1
    rw [word_iff] at e2 e4
    obtain ⟨m, -, e3⟩ := arg_spec _ _ _ e3
    obtain ⟨i, hi⟩ := spaces_spec code
    obtain ⟨j, hj⟩ := spaces_spec r1
    obtain ⟨k, hk⟩ := spaces_spec r2
    obtain ⟨l, hl⟩ := spaces_spec r3
    obtain ⟨n, hn⟩ := spaces_spec r4
    rw [e5, List.append_nil] at hn
    refine ⟨m, i, j, k, l, n, ?_⟩
    rw [hi, e1, hj, e2, hk, e3, hl, e4, hn]
    simp only [List.append_assoc]
  · cases h

/-- A text with its quotes escaped only. -/
def half (m : Text) : Text := m.flatMap fun c => if c = '"' then ['\\', '"'] else [c]

theorem replace2_cons_ne {a b : Char} {new : Text} {x : Char} (h : x ≠ a) (cs : Text) :
    replace2 a b new (x :: cs) = x :: replace2 a b new cs := by
  cases cs with
  | nil => rfl
  | cons y cs => simp [replace2, h]

theorem replace_first (m : Text) : replace2 '\\' '\\' ['\\'] (escape m) = half m := by
  induction m with
  | nil => rfl
  | cons c m ih =>
    by_cases h1 : c = '\\'
    · subst h1
      show replace2 '\\' '\\' ['\\'] ('\\' :: '\\' :: escape m) = '\\' :: half m
      simp [replace2, ih]
    · by_cases h2 : c = '"'
      · subst h2
        show replace2 '\\' '\\' ['\\'] ('\\' :: '"' :: escape m) = '\\' :: '"' :: half m
        rw [replace2, if_neg (by simp), replace2_cons_ne (by decide), ih]
      · have he : escape (c :: m) = c :: escape m := by simp [escape, h1, h2]
        have hh : half (c :: m) = c :: half m := by simp [half, h2]
        rw [he, hh, replace2_cons_ne h1, ih]

theorem half_head (m : Text) : (half m).head? ≠ some '"' := by
  cases m with
  | nil => simp [half]
  | cons c m =>
    by_cases h : c = '"'
    · subst h; simp [half]
    · simp [half, h]

theorem replace_second (m : Text) : replace2 '\\' '"' ['"'] (half m) = m := by
  induction m with
  | nil => rfl
  | cons c m ih =>
    by_cases h2 : c = '"'
    · subst h2
      show replace2 '\\' '"' ['"'] ('\\' :: '"' :: half m) = '"' :: m
      simp [replace2, ih]
    · have hh : half (c :: m) = c :: half m := by simp [half, h2]
      rw [hh]
      cases hm : half m with
      | nil =>
        rw [hm] at ih
        simp only [replace2] at ih ⊢
        rw [← ih]
      | cons y ys =>
        have hy : y ≠ '"' := by
          have := half_head m
          rw [hm] at this
          simpa using this
        rw [replace2, if_neg (by simp [hy]), ← hm, ih]

theorem message_arg {N P : Type} (S : Shows N P) (ctx : Ctx N P) (m : Msg) :
    message S ctx m.arg = m.says S ctx := by
  cases m with
  | text m => simp only [message, Msg.arg, Msg.says, replace_first, replace_second]
  | var x => cases x <;> rfl

/-! ## Map -/

theorem trim_ws {ws : Char → Bool} {a b t : Text} (ha : ∀ c ∈ a, ws c = true)
    (hb : ∀ c ∈ b, ws c = true) (h1 : ∀ c, t.head? = some c → ws c = false)
    (h2 : ∀ c, t.getLast? = some c → ws c = false) (hne : t ≠ []) : trim ws (a ++ t ++ b) = t := by
  have drop : ∀ (a t : Text), (∀ c ∈ a, ws c = true) → (∀ c, t.head? = some c → ws c = false) →
      (a ++ t).dropWhile ws = t := by
    intro a t ha ht
    induction a with
    | nil =>
      cases t with
      | nil => rfl
      | cons c t => simp [ht c rfl]
    | cons c a ih =>
      simp only [List.cons_append, List.dropWhile_cons, ha c (by simp), if_true]
      exact ih fun c hc => ha c (by simp [hc])
  unfold trim
  rw [List.append_assoc, drop a (t ++ b) ha, List.reverse_append, drop, List.reverse_reverse]
  · intro c hc; exact hb c (by simpa using hc)
  · intro c hc; exact h2 c (by simpa using hc)
  · intro c hc
    cases t with
    | nil => exact absurd rfl hne
    | cons d t => exact h1 c (by simpa using hc)

theorem dropWhile_split (ws : Char → Bool) (t : Text) :
    ∃ a, (∀ c ∈ a, ws c = true) ∧ t = a ++ t.dropWhile ws := by
  refine ⟨t.takeWhile ws, fun c hc => ?_, (List.takeWhile_append_dropWhile).symm⟩
  induction t with
  | nil => simp at hc
  | cons d t ih =>
    rw [List.takeWhile_cons] at hc
    split at hc
    · rename_i hd
      rcases List.mem_cons.1 hc with rfl | hc
      · exact hd
      · exact ih hc
    · simp at hc

theorem trim_split (ws : Char → Bool) (t : Text) :
    ∃ a b, (∀ c ∈ a, ws c = true) ∧ (∀ c ∈ b, ws c = true) ∧ t = a ++ trim ws t ++ b := by
  obtain ⟨a, ha, h1⟩ := dropWhile_split ws t
  obtain ⟨b, hb, h2⟩ := dropWhile_split ws (t.dropWhile ws).reverse
  refine ⟨a, b.reverse, ha, fun c hc => hb c (by simpa using hc), ?_⟩
  have h3 : t.dropWhile ws = ((t.dropWhile ws).reverse.dropWhile ws).reverse ++ b.reverse := by
    rw [← List.reverse_append, ← h2, List.reverse_reverse]
  unfold trim
  rw [List.append_assoc, ← h3]
  exact h1

theorem parseTurtle_iff {N P : Type} (S : Shows N P) (hl : S.ws '<' = false) (hg : S.ws '>' = false)
    (t iri : Text) : parseTurtle S (trim S.ws t) = some iri ↔ Key S t iri := by
  have key : ∀ iri : Text, ∀ a b, (∀ c ∈ a, S.ws c = true) → (∀ c ∈ b, S.ws c = true) →
      trim S.ws (a ++ '<' :: (iri ++ '>' :: b)) = '<' :: (iri ++ ['>']) := by
    intro iri a b ha hb
    have : a ++ '<' :: (iri ++ '>' :: b) = a ++ ('<' :: (iri ++ ['>'])) ++ b := by simp
    rw [this]
    refine trim_ws ha hb ?_ ?_ (by simp)
    · intro c hc
      simp only [List.head?_cons, Option.some.injEq] at hc
      exact hc ▸ hl
    · intro c hc
      rw [← List.cons_append, List.getLast?_concat, Option.some.injEq] at hc
      exact hc ▸ hg
  constructor
  · intro h
    obtain ⟨a, b, ha, hb, ht⟩ := trim_split S.ws t
    obtain ⟨a', b', ha', hb', ht'⟩ := trim_split S.ws (trim S.ws t)
    unfold parseTurtle at h
    simp only at h
    split at h
    · rename_i hc
      split at h
      · rename_i hi
        cases h
        refine ⟨hi, a ++ a', b' ++ b, ?_, ?_, ?_⟩
        · intro c hc
          rcases List.mem_append.1 hc with hc | hc
          · exact ha c hc
          · exact ha' c hc
        · intro c hc
          rcases List.mem_append.1 hc with hc | hc
          · exact hb' c hc
          · exact hb c hc
        · generalize trim S.ws (trim S.ws t) = u at *
          obtain ⟨h1, h2⟩ := hc
          have hu : u = '<' :: ((u.drop 1).dropLast ++ ['>']) := by
            cases u with
            | nil => simp at h1
            | cons c u =>
              simp only [List.head?_cons, Option.some.injEq] at h1
              subst h1
              cases u with
              | nil => simp at h2
              | cons d u =>
                rw [List.getLast?_cons_cons] at h2
                simp only [List.drop_succ_cons, List.drop_zero, List.cons.injEq, true_and]
                exact (List.dropLast_append_getLast? '>' h2).symm
          rw [ht, ht']
          conv_lhs => rw [hu]
          simp
      · cases h
    · cases h
  · rintro ⟨hi, a, b, ha, hb, rfl⟩
    rw [key iri a b ha hb]
    have h2 : trim S.ws ('<' :: (iri ++ ['>'])) = '<' :: (iri ++ ['>']) := by
      have := key iri [] [] (by simp) (by simp)
      simpa using this
    have h3 : ('<' :: (iri ++ ['>'])).getLast? = some '>' := by
      rw [← List.cons_append, List.getLast?_concat]
    simp [parseTurtle, h2, h3, hi]

/-! ## The registry -/

theorem sameBut_iff (a b : Text) : Prefix.equalWithoutFragment a b = true ↔ SameBut a b :=
  Prefix.C56_equal_without_fragment a b

theorem runAction_iff {N P : Type} (reg : List (Extension N P)) (a : SemAct) (ctx : Ctx N P)
    (w : World N) (e : Option Err) (w' : World N) :
    runAction reg a.name a.code ctx w = (e, w') ↔ RunsAs reg ctx a w e w' := by
  unfold runAction
  cases hf : find reg a.name with
  | none =>
    have hn : ∀ x ∈ reg, ¬SameBut x.iri a.name := by
      intro x hx hs
      have := List.find?_eq_none.1 hf x hx
      exact this ((sameBut_iff _ _).2 hs)
    constructor
    · intro h
      obtain ⟨rfl, rfl⟩ := Prod.mk.inj h
      exact .inl ⟨hn, rfl, rfl⟩
    · rintro (⟨-, rfl, rfl⟩ | ⟨pre, x, post, rfl, -, hs, -⟩)
      · rfl
      · exact absurd hs (hn x (by simp))
  | some x =>
    obtain ⟨hx, pre, post, rfl, hpre⟩ := List.find?_eq_some_iff_append.1 hf
    have hx := (sameBut_iff _ _).1 hx
    have hpre : ∀ y ∈ pre, ¬SameBut y.iri a.name := by
      intro y hy hs
      have := hpre y hy
      simp [(sameBut_iff _ _).2 hs] at this
    constructor
    · intro h
      exact .inr ⟨pre, x, post, rfl, hpre, hx, h⟩
    · rintro (⟨hn, -, -⟩ | ⟨pre', x', post', heq, hpre', hs, hr⟩)
      · exact absurd hx (hn x (by simp))
      · have : x = x' := by
          rcases List.append_eq_append_iff.1 heq with ⟨l, h1, h2⟩ | ⟨l, h1, h2⟩
          · cases l with
            | nil => simp at h2; exact h2.1
            | cons z l =>
              simp only [List.cons_append, List.cons.injEq] at h2
              obtain ⟨rfl, -⟩ := h2
              exact absurd hx (hpre' x (by simp [h1]))
          · cases l with
            | nil => simp at h2; exact h2.1.symm
            | cons z l =>
              simp only [List.cons_append, List.cons.injEq] at h2
              obtain ⟨rfl, -⟩ := h2
              exact absurd hs (hpre x' (by simp [h1]))
        subst this
        exact hr

theorem find_none_iff {N P : Type} (reg : List (Extension N P)) (name : Text) :
    find reg name = none ↔ ∀ x ∈ reg, ¬SameBut x.iri name := by
  simp only [find, List.find?_eq_none]
  exact forall_congr' fun x => imp_congr_right fun _ => not_congr (sameBut_iff _ _)

end Act
