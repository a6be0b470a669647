import Verif.Shexc.LemTerm2

/-!
# Lemmas: patterns, cardinalities and code are read as they are written
-/

namespace Shexc

open P Spec

/-! ## Patterns -/

/-- One piece of a pattern. -/
def patPiece : P Str :=
  alt (do let c ← noneOf ['/', '\\', '\n', '\r']; return [c])
    (alt (do tag ['\\']; let c ← oneOf "nrt\\|.?*+(){}$-[]^/".toList; return ['\\', c])
      (do let c ← uchar; return [c]))

theorem unescapeGo_plain {c : Char} {s t : Str} {n : Nat} (hc : c ≠ '\\') (h : unescapeGo n t = some s) :
    unescapeGo (n + 1) (c :: t) = some (c :: s) := by simp [unescapeGo, hc, h]

theorem patBody_steps {s w r : Str} (h : PatBody s w) :
    ∃ as, Steps patPiece as (w ++ '/' :: r) ('/' :: r) ∧ (w ≠ [] → as ≠ []) ∧
      ∀ n, as.flatten.length ≤ n → unescapeGo n as.flatten = some s := by
  induction h with
  | nil =>
    refine ⟨[], .nil, by simp, fun n _ => ?_⟩
    cases n <;> rfl
  | @cons p s v ws h hs ih =>
    obtain ⟨as, h1, -, h3⟩ := ih
    rw [List.append_assoc]
    cases h with
    | @plain c h =>
      refine ⟨[c] :: as, .cons (j := ws ++ '/' :: r) (alt_left ?_) (by simp) h1, by simp, ?_⟩
      · rw [List.singleton_append, bind_ok (noneOf_ok h)]
        rfl
      · intro n hn
        simp only [List.flatten_cons, List.length_append, List.length_cons, List.length_nil] at hn
        obtain ⟨n, rfl⟩ : ∃ m, n = m + 1 := ⟨n - 1, by omega⟩
        exact unescapeGo_plain (by rintro rfl; exact h (by simp)) (h3 n (by omega))
    | @kept c h =>
      have h0 : (do let c ← noneOf ['/', '\\', '\n', '\r']; return [c] : P Str) ('\\' :: c :: (ws ++ '/' :: r)) = .err :=
        bind_err (noneOf_err (Off.cons (by decide)))
      refine ⟨['\\', c] :: as, .cons (j := ws ++ '/' :: r) ?_ (by simp) h1, by simp, ?_⟩
      · show patPiece ('\\' :: c :: (ws ++ '/' :: r)) = _
        unfold patPiece
        rw [alt_right h0]
        refine alt_left ?_
        rw [bind_ok (tag_ok1 _ _), bind_ok (oneOf_ok ?_)]
        · rfl
        · have e : "nrt\\|.?*+(){}$-[]^/".toList = "nrt\\|.?*+(){}$-[]^".toList ++ ['/'] := by decide
          rw [e]
          exact List.mem_append_left _ h
      · intro n hn
        simp only [List.flatten_cons, List.length_append, List.length_cons, List.length_nil] at hn
        obtain ⟨n, rfl⟩ : ∃ m, n = m + 1 := ⟨n - 1, by omega⟩
        have : keptEscapes.contains c = true := List.contains_iff_mem.2 h
        simp only [List.flatten_cons, List.cons_append, List.nil_append, unescapeGo, ne_eq, not_true, if_false, this,
          if_true]
        rw [h3 n (by omega)]
        rfl
    | slash =>
      have h0 : (do let c ← noneOf ['/', '\\', '\n', '\r']; return [c] : P Str) ('\\' :: '/' :: (ws ++ '/' :: r)) =
          .err := bind_err (noneOf_err (Off.cons (by decide)))
      refine ⟨['\\', '/'] :: as, .cons (j := ws ++ '/' :: r) ?_ (by simp) h1, by simp, ?_⟩
      · show patPiece ('\\' :: '/' :: (ws ++ '/' :: r)) = _
        unfold patPiece
        rw [alt_right h0]
        refine alt_left ?_
        rw [bind_ok (tag_ok1 _ _), bind_ok (oneOf_ok (by decide))]
        rfl
      · intro n hn
        simp only [List.flatten_cons, List.length_append, List.length_cons, List.length_nil] at hn
        obtain ⟨n, rfl⟩ : ∃ m, n = m + 1 := ⟨n - 1, by omega⟩
        have : keptEscapes.contains '/' = false := by decide
        simp only [List.flatten_cons, List.cons_append, List.nil_append, unescapeGo, ne_eq, not_true, if_false, this]
        rw [if_neg (by simp), if_neg (by decide), if_neg (by decide), h3 n (by omega)]
        rfl
    | @numbered c _ h hc =>
      obtain ⟨d, u, e, hd⟩ := numbered_head h
      have h0 : (do let c ← noneOf ['/', '\\', '\n', '\r']; return [c] : P Str) (v ++ (ws ++ '/' :: r)) = .err := by
        rw [e]
        exact bind_err (noneOf_err (Off.cons (by decide)))
      have h2 : (do tag ['\\']; let c ← oneOf "nrt\\|.?*+(){}$-[]^/".toList; return ['\\', c] : P Str)
          (v ++ (ws ++ '/' :: r)) = .err := by
        rw [e]
        refine (bind_ok (tag_ok1 _ _)).trans (bind_err (oneOf_err (Off.cons ?_)))
        rcases hd with rfl | rfl <;> decide
      refine ⟨[c] :: as, .cons (j := ws ++ '/' :: r) ?_ ?_ h1, by simp, ?_⟩
      · unfold patPiece
        rw [alt_right h0, alt_right h2, bind_ok (uchar_ok h _)]
        rfl
      · rw [e]
        simp only [List.length_append, List.length_cons]
        omega
      · intro n hn
        simp only [List.flatten_cons, List.length_append, List.length_cons, List.length_nil] at hn
        obtain ⟨n, rfl⟩ : ∃ m, n = m + 1 := ⟨n - 1, by omega⟩
        exact unescapeGo_plain hc (h3 n (by omega))

theorem patPiece_err (r : Str) : patPiece ('/' :: r) = .err := by
  unfold patPiece
  rw [alt_right (bind_err (noneOf_err (Off.cons (by decide)))), alt_right (bind_err (tag_err (Off.cons (by decide))))]
  exact bind_err (uchar_err (Off.cons (by decide)))

theorem flags_steps {fs r : Str} (h : ∀ c ∈ fs, c ∈ "smix".toList) :
    Steps (oneOf ['s', 'm', 'i', 'x']) fs (fs ++ r) r := by
  induction fs with
  | nil => exact .nil
  | cons c fs ih =>
    refine .cons (oneOf_ok ?_) (by simp) (ih fun d hd => h d (List.mem_cons_of_mem _ hd))
    have := h c List.mem_cons_self
    have e : "smix".toList = ['s', 'm', 'i', 'x'] := by decide
    rwa [e] at this

theorem regexp_ok {f : Facet} {w r : Str} (h : RegexText f w) (hr : Off Stk r) : regexp (w ++ r) = .ok f r := by
  cases h with
  | @mk s w fs h hne hs hf =>
    obtain ⟨as, h1, h2, h3⟩ := patBody_steps (r := fs ++ r) h
    obtain ⟨a, as, rfl⟩ := List.exists_cons_of_ne_nil (h2 hne)
    simp only [List.cons_append, List.append_assoc]
    unfold regexp
    have hp : patternText (w ++ '/' :: (fs ++ r)) = .ok (a :: as).flatten ('/' :: (fs ++ r)) := by
      show (many1 patPiece >>= _) _ = _
      rw [bind_ok (many1_steps h1 (patPiece_err _))]
      rfl
    have hfl : recognize (many0 (oneOf ['s', 'm', 'i', 'x'])) (fs ++ r) = .ok fs r := by
      refine recognize_ok (many0_steps (flags_steps hf) (oneOf_err (hr.mono ?_)))
      intro c hc
      have : letter c := by
        have : c = 's' ∨ c = 'm' ∨ c = 'i' ∨ c = 'x' := by simpa using hc
        rcases this with rfl | rfl | rfl | rfl <;> decide
      exact .inl (letter_name this)
    have hu : unescapePattern (a :: as).flatten = some s := h3 _ Nat.le.refl
    rw [bind_ok (char_ok _ _), bind_ok hp, bind_ok (cut_ok (char_ok _ _)), bind_ok hfl, hu]
    show (P.pure s >>= _) r = _
    rw [bind_ok (show P.pure s r = .ok s r from rfl)]
    cases fs <;> rfl

theorem regexp_err {r : Str} (h : Off (· = '/') r) : regexp r = .err := bind_err (char_err h)

theorem regexp_err_slashes (r : Str) : regexp ('/' :: '/' :: r) = .err := by
  unfold regexp
  rw [bind_ok (char_ok _ _)]
  exact bind_err (bind_err (many1_err (patPiece_err r)))

/-! ## Cardinalities -/

theorem wrap32_ok {n : Int} (h : -(2 ^ 31) ≤ n) (h' : n < 2 ^ 31) : wrap32 n = n := by
  unfold wrap32
  rw [Int.emod_eq_of_lt (by omega) (by omega)]
  omega

theorem noGap_cons {c : Char} {r : Str} (h : ¬ space c) (h1 : c ≠ '#') (h2 : c ≠ '/') : NoGap (c :: r) :=
  ⟨Off.cons (by simp [h, h1]), fun b e => h2 (List.cons.inj e).1⟩

theorem tokenTws_ok {c : Char} {s g k r : Str} {b b' : Bool} (hg : Gap b g) (hk : Gap b' k) (hr : NoGap r)
    (hn : NoGap (c :: s ++ (k ++ r))) : tokenTws (c :: s) (g ++ (c :: s ++ (k ++ r))) = .ok () r := by
  unfold tokenTws
  rw [bind_ok (tws0_ok hg hn), bind_ok (tag_ok _ _), tws0_ok hk hr]

theorem tokenTws1_ok {c : Char} {g k r : Str} {b b' : Bool} (hg : Gap b g) (hk : Gap b' k) (hr : NoGap r)
    (hn : NoGap (c :: (k ++ r))) : tokenTws [c] (g ++ c :: (k ++ r)) = .ok () r := tokenTws_ok hg hk hr hn

theorem tokenTws_err {c : Char} {s g r : Str} {b : Bool} (hg : Gap b g) (hn : NoGap r) (hc : Off (· = c) r) :
    tokenTws (c :: s) (g ++ r) = .err := by
  unfold tokenTws
  rw [bind_ok (tws0_ok hg hn)]
  exact bind_err (tag_err hc)

theorem gap_digit {g r : Str} (h : Gap false g) (hr : Off digit r) : Off digit (g ++ r) := by
  by_cases hn : g = []
  · subst hn; exact hr
  · obtain ⟨c, t, rfl, hc⟩ := gap_head h hn
    refine Off.cons ?_
    rcases hc with hc | rfl
    · rcases hc with rfl | rfl | rfl | rfl <;> decide
    · decide

theorem int_head {n : Int} {w : Str} (h : IntText n w) : ∃ c t, w = c :: t ∧ (c = '+' ∨ c = '-' ∨ digit c) := by
  cases h with
  | @mk b s ds hs hd =>
    obtain ⟨c, t, rfl⟩ := List.exists_cons_of_ne_nil hd.1
    cases hs with
    | none => exact ⟨c, t, rfl, .inr (.inr (hd.2 c List.mem_cons_self))⟩
    | plus => exact ⟨_, _, rfl, .inl rfl⟩
    | minus => exact ⟨_, _, rfl, .inr (.inl rfl)⟩

theorem digit_noGap {c : Char} (h : c = '+' ∨ c = '-' ∨ digit c) : ¬ space c ∧ c ≠ '#' ∧ c ≠ '/' := by
  rcases h with rfl | rfl | h
  · decide
  · decide
  · refine ⟨?_, digit_ne h (by decide), digit_ne h (by decide)⟩
    rintro (rfl | rfl | rfl | rfl) <;> exact absurd h (by decide)

theorem card_integer {n : Int} {w r : Str} (h : CardNum n w) (hr : Off digit r) :
    integer (w ++ r) = .ok n r ∧ wrap32 n = n :=
  ⟨integer_ok h.1 (by have := h.2; omega) hr, wrap32_ok h.2.1 h.2.2⟩

theorem repeatRange_ok {m n : Int} {w r : Str} (h : CardText m n w) : repeatRange (w ++ r) = .ok (m, n) r := by
  unfold repeatRange
  have hb : ∀ r, NoGap ('}' :: r) := fun r => noGap_cons (by decide) (by decide) (by decide)
  have hcomma : ∀ r, NoGap (',' :: r) := fun r => noGap_cons (by decide) (by decide) (by decide)
  have hstar : ∀ r, NoGap ('*' :: r) := fun r => noGap_cons (by decide) (by decide) (by decide)
  cases h with
  | @exact w h =>
    simp only [List.cons_append, List.append_assoc, List.nil_append]
    have h1 := card_integer (r := '}' :: r) h (Off.cons (by decide))
    have h2 : restRange ('}' :: r) = .err := bind_err (tokenTws_err (g := []) (b := false) .nil (hb r) (Off.cons (by decide)))
    rw [bind_ok (tag_ok1 _ _), bind_ok h1.1, bind_ok (opt_none h2), bind_ok (cut_ok (tag_ok1 _ _))]
    simp only [h1.2]
    rfl
  | @atLeast w g k hm hg hk =>
    simp only [List.cons_append, List.append_assoc, List.nil_append]
    have h1 := card_integer (r := g ++ ',' :: (k ++ '}' :: r)) hm (gap_digit hg (Off.cons (by decide)))
    have h2 : restRange (g ++ ',' :: (k ++ '}' :: r)) = .ok none ('}' :: r) := by
      unfold restRange
      rw [bind_ok (tokenTws1_ok (c := ',') hg hk (hb r) (hcomma _))]
      refine opt_none ?_
      rw [alt_right (bind_err (integer_err (Off.cons (by decide))))]
      exact bind_err (tokenTws_err (g := []) (b := false) .nil (hb r) (Off.cons (by decide)))
    rw [bind_ok (tag_ok1 _ _), bind_ok h1.1, bind_ok (opt_some h2), bind_ok (cut_ok (tag_ok1 _ _))]
    simp only [h1.2]
    rfl
  | @star w g k l hm hg hk hl =>
    simp only [List.cons_append, List.append_assoc, List.nil_append]
    have h1 := card_integer (r := g ++ ',' :: (k ++ '*' :: (l ++ '}' :: r))) hm (gap_digit hg (Off.cons (by decide)))
    have h2 : restRange (g ++ ',' :: (k ++ '*' :: (l ++ '}' :: r))) = .ok (some (-1)) ('}' :: r) := by
      unfold restRange
      rw [bind_ok (tokenTws1_ok (c := ',') hg hk (hstar _) (hcomma _))]
      refine opt_some ?_
      rw [alt_right (bind_err (integer_err (Off.cons (by decide)))),
        bind_ok (show tokenTws ['*'] ('*' :: (l ++ '}' :: r)) = _ from tokenTws1_ok (g := []) (b := false) .nil hl (hb r) (hstar _))]
      rfl
    rw [bind_ok (tag_ok1 _ _), bind_ok h1.1, bind_ok (opt_some h2), bind_ok (cut_ok (tag_ok1 _ _))]
    simp only [h1.2]
    rfl
  | @range _ w v g k hm hn hg hk =>
    simp only [List.cons_append, List.append_assoc, List.nil_append]
    have h1 := card_integer (r := g ++ ',' :: (k ++ (v ++ '}' :: r))) hm (gap_digit hg (Off.cons (by decide)))
    have h3 := card_integer (r := '}' :: r) hn (Off.cons (by decide))
    have h2 : restRange (g ++ ',' :: (k ++ (v ++ '}' :: r))) = .ok (some n) ('}' :: r) := by
      unfold restRange
      obtain ⟨c, t, e, hc⟩ := int_head hn.1
      have hx := digit_noGap hc
      rw [bind_ok (tokenTws1_ok (c := ',') hg hk (by rw [e]; exact noGap_cons hx.1 hx.2.1 hx.2.2) (hcomma _))]
      refine opt_some (alt_left ?_)
      rw [bind_ok h3.1, h3.2]
      rfl
    rw [bind_ok (tag_ok1 _ _), bind_ok h1.1, bind_ok (opt_some h2), bind_ok (cut_ok (tag_ok1 _ _))]
    simp only [h1.2]
    rfl

/-! ## Code -/

theorem code_ok {s w r : Str} (h : CodeText s w) : code (w ++ r) = .ok (some s) r := by
  cases h with
  | @mk w g h hg =>
    simp only [List.cons_append, List.append_assoc, List.nil_append]
    unfold code
    have h1 : many0 (alt (noneOf ['%', '\\']) (alt (do tag ['\\']; oneOf ['%', '\\']) uchar))
        (w ++ '%' :: (g ++ '}' :: r)) = .ok s ('%' :: (g ++ '}' :: r)) := by
      refine many0_steps (steps_chars h ?_) ?_
      · intro c v r hc
        cases hc with
        | plain h h' => exact ⟨alt_left (noneOf_ok (by simp [h, h'])), by simp⟩
        | escaped h =>
          refine ⟨?_, by simp⟩
          show alt _ _ ('\\' :: c :: r) = _
          rw [alt_right (noneOf_err (Off.cons (by decide)))]
          refine alt_left ?_
          rw [bind_ok (tag_ok1 _ _)]
          exact oneOf_ok (by simpa using h)
        | numbered h =>
          refine ⟨?_, numbered_ne h⟩
          obtain ⟨d, u, e, hd⟩ := numbered_head h
          have h2 : (do tag ['\\']; oneOf ['%', '\\'] : P Char) (v ++ r) = .err := by
            rw [e]
            refine (bind_ok (tag_ok1 _ _)).trans (oneOf_err (Off.cons ?_))
            rcases hd with rfl | rfl <;> decide
          rw [alt_right, alt_right h2, uchar_ok h]
          rw [e]
          exact noneOf_err (Off.cons (by decide))
      · rw [alt_right (noneOf_err (Off.cons (by decide))), alt_right (bind_err (tag_err (Off.cons (by decide))))]
        exact uchar_err (Off.cons (by decide))
    rw [bind_ok (char_ok _ _), bind_ok (cut_ok h1), bind_ok (cut_ok (char_ok _ _)),
      bind_ok (tws0_ok hg (noGap_cons (by decide) (by decide) (by decide))), bind_ok (cut_ok (char_ok _ _))]
    rfl

end Shexc
