import Verif.Shexc.LemTerm
import Mathlib.Data.Nat.Digits.Lemmas

/-!
# Lemmas: numbers, literals, patterns and gaps are read as they are written
-/

namespace Shexc

open P Spec

/-! ## Numbers in facets -/

theorem decNum_append (ds fs : Str) : decNum (ds ++ fs) = decNum ds * 10 ^ fs.length + decNum fs := by
  unfold decNum
  rw [List.reverse_append, List.map_append, Nat.ofDigits_append]
  simp only [List.length_map, List.length_reverse]
  ring

theorem decNum_lt {ds : Str} (h : ∀ c ∈ ds, digit c) : decNum ds < 10 ^ ds.length := by
  have := Nat.ofDigits_lt_base_pow_length (b := 10) (l := ds.reverse.map fun c => c.toNat - 0x30) (by norm_num) (by
    intro x hx
    simp only [List.mem_map, List.mem_reverse] at hx
    obtain ⟨c, hc, rfl⟩ := hx
    have := h c hc
    unfold digit within at this
    omega)
  simpa [decNum] using this

theorem decNum_ge {c : Char} {ds : Str} (hc : digit c) (h0 : c ≠ '0') : 10 ^ ds.length ≤ decNum (c :: ds) := by
  have e : decNum (c :: ds) = decNum [c] * 10 ^ ds.length + decNum ds := decNum_append [c] ds
  have h1 : decNum [c] = c.toNat - 0x30 := by simp [decNum]
  have h2 : c.toNat ≠ '0'.toNat := fun h => h0 ((char_eq c '0').2 h)
  have h3 : '0'.toNat = 0x30 := by decide
  unfold digit within at hc
  rw [e, h1]
  have : 1 ≤ c.toNat - 0x30 := by omega
  nlinarith [Nat.pow_pos (n := ds.length) (show 0 < 10 by norm_num)]

theorem numDigits_eq {n k : Nat} (h1 : 10 ^ k ≤ n) (h2 : n < 10 ^ (k + 1)) : numDigits n = k + 1 := by
  unfold numDigits
  have a := (Nat.length_toDigits_le_iff (n := n) (k := k + 1) (b := 10) (by norm_num) (by omega)).2 h2
  by_cases hk : k = 0
  · subst hk
    have := Nat.length_toDigits_pos (b := 10) (n := n)
    omega
  · have b := (Nat.length_toDigits_le_iff (n := n) (k := k) (b := 10) (by norm_num) (by omega)).not.2 (by omega)
    omega

theorem numDigits_dec {fs : Str} (h : Digits fs) (h0 : fs = ['0'] ∨ fs.head? ≠ some '0') :
    numDigits (decNum fs) = fs.length := by
  rcases h0 with rfl | h0
  · decide
  · obtain ⟨c, t, rfl⟩ := List.exists_cons_of_ne_nil h.1
    exact numDigits_eq (decNum_ge (h.2 c List.mem_cons_self) (by simpa using h0)) (decNum_lt h.2)

theorem decimal_ok {b : Bool} {ds fs w r : Str} (h : DecText b ds fs w) (h0 : fs = ['0'] ∨ fs.head? ≠ some '0')
    (hz : b = true → decNum ds ≠ 0) (hd : decNum ds < 2 ^ 63) (hf : decNum fs < 2 ^ 32)
    (hm : decNum (ds ++ fs) < 2 ^ 96) (hr : Off digit r) :
    decimal (w ++ r) = .ok (.dec (if b then -(decNum (ds ++ fs) : Int) else decNum (ds ++ fs)) fs.length) r := by
  cases h with
  | mk hs hds hfs =>
    rename_i s
    have h1 := sign_ok hs (digits_nosign (r := '.' :: (fs ++ r)) hds)
    simp only [List.append_assoc, List.cons_append]
    unfold decimal
    rw [bind_ok h1.1, bind_ok (dig0_ok hds (Off.cons (by decide))), bind_ok (tag_ok1 _ _), bind_ok (dig1_ok hfs hr)]
    have hne : ds.isEmpty = false := by simpa using hds.1
    have e1 : parseI64 (signOf s) ds = some (if b then -(decNum ds : Int) else decNum ds) := by
      unfold parseI64
      rw [hne]
      simp only [Bool.false_eq_true, if_false, decVal_eq]
      cases b
      · have h2 : ¬ signOf s = some '-' := by simp [h1.2]
        rw [if_neg h2, if_pos]
        · rfl
        · constructor <;> [skip; exact_mod_cast hd]
          have : (0 : Int) ≤ decNum ds := by positivity
          norm_num
      · have h2 : signOf s = some '-' := by simp [h1.2]
        rw [if_pos h2, if_pos]
        · rfl
        · have : (decNum ds : Int) < 2 ^ 63 := by exact_mod_cast hd
          constructor
          · omega
          · have : (0 : Int) ≤ decNum ds := by positivity
            norm_num
            omega
    have e2 : decimalOfParts (if b then -(decNum ds : Int) else decNum ds) (decNum fs) =
        some (.dec (if b then -(decNum (ds ++ fs) : Int) else decNum (ds ++ fs)) fs.length) := by
      unfold decimalOfParts
      have ha : (if b then -(decNum ds : Int) else decNum ds).natAbs = decNum ds := by cases b <;> simp
      simp only [ha, numDigits_dec hfs h0]
      rw [← decNum_append, if_pos hm]
      cases b
      · have : ¬ ((decNum ds : Int) < 0) := by omega
        simp [this]
      · have : (-(decNum ds : Int)) < 0 := by have := hz rfl; omega
        simp only [if_true]
        rw [if_pos this]
    simp only [e1, decVal_eq, if_pos hf, e2]
    rfl

theorem decimal_err_int {n : Int} {w r : Str} (h : IntText n w) (hr : Off expish r) : decimal (w ++ r) = .err := by
  cases h with
  | @mk b s ds hs hd =>
    unfold decimal
    rw [List.append_assoc, bind_ok (sign_ok hs (digits_nosign hd)).1,
      bind_ok (dig0_ok hd (hr.mono fun c hc => .inl hc))]
    exact bind_err (tag_err (hr.mono fun c hc => by unfold expish; tauto))

/-- The parameters of the reader as the specification has them. -/
def Ext.spec (X : Ext) : Spec.Ext := ⟨X.lang, X.double⟩

theorem rawNumeric_ok (X : Ext) {n : Num} {w r : Str} (h : NumText X.double n w) (hr : Off expish r) :
    rawNumeric X (w ++ r) = .ok n r := by
  have hd : Off digit r := hr.mono fun c hc => .inl hc
  unfold rawNumeric
  cases h with
  | int h hv =>
    rw [alt_right (bind_err (doubleText_err_int h hr)), alt_right (decimal_err_int h hr), bind_ok (integer_ok h hv hd)]
    rfl
  | dec h h0 hz h1 h2 h3 =>
    rw [alt_right (bind_err (doubleText_err_dec h hr))]
    exact alt_left (decimal_ok h h0 hz h1 h2 h3 hd)
  | double h hn =>
    refine alt_left ?_
    rw [bind_ok (doubleText_ok h hd)]
    simp only [hn]
    rfl

theorem numericLit_int {n : Int} {w r : Str} (h : IntText n w) (hr : Off expish r) :
    numericLit (w ++ r) = .ok (.typed w (xsdName "integer")) r := by
  have hx : Off digit r := hr.mono fun c hc => .inl hc
  have h1 : decimalText (w ++ r) = .err := by
    cases h with
    | @mk b s ds hs hd =>
      refine recognize_err ?_
      rw [List.append_assoc, bind_ok (sign_ok hs (digits_nosign hd)).1, bind_ok (dig0_ok hd hx)]
      exact bind_err (char_err (hr.mono fun c hc => by unfold expish; tauto))
  have h2 : integerText (w ++ r) = .ok w r := by
    cases h with
    | @mk b s ds hs hd =>
      refine recognize_ok (a := ()) ?_
      rw [List.append_assoc, bind_ok (sign_ok hs (digits_nosign hd)).1, bind_ok (dig1_ok hd hx)]
      rfl
  unfold numericLit
  rw [alt_right (bind_err (doubleText_err_int h hr)), alt_right (bind_err h1), bind_ok h2]
  rfl

theorem numericLit_dec {b : Bool} {ds fs w r : Str} (h : DecText b ds fs w) (hr : Off expish r) :
    numericLit (w ++ r) = .ok (.typed w (xsdName "decimal")) r := by
  have hx : Off digit r := hr.mono fun c hc => .inl hc
  have h1 : decimalText (w ++ r) = .ok w r := by
    cases h with
    | mk hs hd hf =>
      refine recognize_ok (a := ()) ?_
      simp only [List.append_assoc, List.cons_append]
      rw [bind_ok (sign_ok hs (digits_nosign hd)).1, bind_ok (dig0_ok hd (Off.cons (by decide))), bind_ok (char_ok _ _),
        bind_ok (dig1_ok hf hx)]
      rfl
  unfold numericLit
  rw [alt_right (bind_err (doubleText_err_dec h hr))]
  refine alt_left ?_
  rw [bind_ok h1]
  rfl

theorem numericLit_double {w r : Str} (h : DoubleText w) (hr : Off digit r) :
    numericLit (w ++ r) = .ok (.typed w (xsdName "double")) r := by
  refine alt_left ?_
  rw [bind_ok (doubleText_ok h hr)]
  rfl

theorem numericLit_err {r : Str} (h : Off (fun c => c = '+' ∨ c = '-' ∨ c = '.' ∨ digit c) r) : numericLit r = .err := by
  have h1 : opt (oneOf ['+', '-']) r = .ok none r := opt_none (oneOf_err (h.mono fun c hc => by
    have : c = '+' ∨ c = '-' := by simpa using hc
    tauto))
  have h2 : takeWhile1 isDigit r = .err := takeWhile1_err (h.bool fun c hc => .inr (.inr (.inr ((isDigit_iff c).1 hc))))
  have h3 : P.takeWhile isDigit r = .ok [] r :=
    takeWhile_ok (ds := []) (by simp) (h.bool fun c hc => .inr (.inr (.inr ((isDigit_iff c).1 hc))))
  have h4 : decimalText r = .err := recognize_err (by
    rw [bind_ok h1, bind_ok h3]
    exact bind_err (char_err (h.mono fun c hc => by tauto)))
  have h5 : integerText r = .err := recognize_err (by rw [bind_ok h1]; exact bind_err h2)
  unfold numericLit
  rw [alt_right (bind_err (doubleText_err h)), alt_right (bind_err h4)]
  exact bind_err h5

/-! ## Language tags -/

theorem langGo {rs : List Str} (h : ∀ a ∈ rs, a ≠ [] ∧ ∀ c ∈ a, letter c ∨ digit c) {r : Str} (hr : Off StkN r) :
    Steps (do tag ['-']; takeWhile1 fun c => isAlpha c || isDigit c : P Str) rs
      ((rs.map fun r => '-' :: r).flatten ++ r) r := by
  induction rs with
  | nil => exact .nil
  | cons a rs ih =>
    have ha := h a List.mem_cons_self
    have hs := ih fun b hb => h b (List.mem_cons_of_mem _ hb)
    have hoff : Off (fun c => (isAlpha c || isDigit c) = true) ((rs.map fun r => '-' :: r).flatten ++ r) := by
      cases rs with
      | nil =>
        refine hr.bool fun c hc => ?_
        simp only [Bool.or_eq_true, isAlpha_iff, isDigit_iff] at hc
        rcases hc with hc | hc
        · exact .inl (letter_name hc)
        · exact .inl (digit_name hc)
      | cons b rs => exact Off.cons (by decide)
    simp only [List.map_cons, List.flatten_cons, List.cons_append, List.append_assoc]
    refine .cons (j := (rs.map fun r => '-' :: r).flatten ++ r) ?_ ?_ hs
    · rw [bind_ok (tag_ok1 _ _)]
      exact takeWhile1_ok ha.1 (fun c hc => by
        simpa [isAlpha_iff, isDigit_iff] using ha.2 c hc) hoff
    · simp only [List.length_cons, List.length_append]; omega

theorem langTag_ok (X : Ext) {t t' r : Str} (h : LangName t) (hn : X.lang t = some t') (hr : Off StkN r) :
    langTag X ('@' :: (t ++ r)) = .ok t' r := by
  obtain ⟨a, rs, rfl, ha, hl, hrs⟩ := h
  have h1 : recognize (do
      let _ ← takeWhile1 isAlpha
      let _ ← many0 (do tag ['-']; takeWhile1 fun c => isAlpha c || isDigit c) : P Unit)
        ((a ++ (rs.map fun r => '-' :: r).flatten) ++ r) = .ok (a ++ (rs.map fun r => '-' :: r).flatten) r := by
    refine recognize_ok (a := ()) ?_
    rw [List.append_assoc, bind_ok (takeWhile1_ok ha (fun c hc => (isAlpha_iff c).2 (hl c hc)) ?_),
      bind_ok (many0_steps (langGo hrs hr) (bind_err (tag_err (hr.mono ?_))))]
    · rfl
    · rintro c rfl
      exact .inl (by decide)
    · cases rs with
      | nil => exact hr.bool fun c hc => .inl (letter_name ((isAlpha_iff c).1 hc))
      | cons b rs => exact Off.cons (by decide)
  unfold langTag
  rw [bind_ok (tag_ok1 _ _), bind_ok h1]
  simp only [hn]
  rfl

theorem langTag_err (X : Ext) {r : Str} (h : Off (· = '@') r) : langTag X r = .err := bind_err (tag_err h)

/-! ## Literals -/

theorem string_err {r : Str} (h : Off quoteish r) : string r = .err := by
  have h1 : Off (· = '\'') r := h.mono fun c hc => .inr hc
  have h2 : Off (· = '"') r := h.mono fun c hc => .inl hc
  have e1 : stringLong1 r = .err := bind_err (tag_err h1)
  have e2 : stringLong2 r = .err := bind_err (tag_err h2)
  have e3 : string1 r = .err := bind_err (tag_err h1)
  unfold string
  rw [alt_right e1, alt_right e2, alt_right e3]
  exact bind_err (tag_err h2)

theorem rdfLit_strN (X : Ext) {s w r : Str} (h : StringText s w) (hr : Off (· ∈ ['"', '\'', '@', '^']) r) :
    rdfLit X (w ++ r) = .ok (.str s) r := by
  unfold rdfLit
  rw [bind_ok (string_ok h (hr.mono ?_)), bind_ok (opt_none ?_)]
  · rfl
  · rw [alt_right (bind_err (langTag_err X (hr.mono fun c hc => by simp [hc])))]
    exact bind_err (tag_err (hr.mono fun c hc => by simp [hc]))
  · rintro c (rfl | rfl)
    · simp
    · simp

theorem rdfLit_str (X : Ext) {s w r : Str} (h : StringText s w) (hr : Off Stk r) : rdfLit X (w ++ r) = .ok (.str s) r :=
  rdfLit_strN X h (hr.mono fun c hc => .inr (by
    simp only [List.mem_cons, List.not_mem_nil, or_false] at hc ⊢
    tauto))

theorem rdfLit_lang (X : Ext) {s w t t' r : Str} (h : StringText s w) (ht : LangName t) (hn : X.lang t = some t')
    (hr : Off StkN r) : rdfLit X (w ++ ('@' :: (t ++ r))) = .ok (.lang s t') r := by
  unfold rdfLit
  have h1 : (do let l ← langTag X; return Lit.lang s l : P Lit) ('@' :: (t ++ r)) = .ok (.lang s t') r := by
    rw [bind_ok (langTag_ok X ht hn hr)]
    rfl
  rw [bind_ok (string_ok h (Off.cons (by unfold quoteish; decide))), bind_ok (opt_some (alt_left h1))]
  rfl

theorem rdfLit_typed (X : Ext) {s w v r : Str} {d : IriRef} (h : StringText s w) (hd : RefText d v)
    (hr : d.endsN r) : rdfLit X (w ++ ('^' :: '^' :: (v ++ r))) = .ok (.typed s d) r := by
  unfold rdfLit
  have h1 : (do tag ['^', '^']; let d ← iri; return Lit.typed s d : P Lit) ('^' :: '^' :: (v ++ r)) =
      .ok (.typed s d) r := by
    rw [bind_ok (tag_ok2 _ _ _), bind_ok (iri_ref hd hr)]
    rfl
  have h0 : (do let l ← langTag X; return Lit.lang s l : P Lit) ('^' :: '^' :: (v ++ r)) = .err :=
    bind_err (langTag_err X (Off.cons (by decide)))
  rw [bind_ok (string_ok h (Off.cons (by unfold quoteish; decide))), bind_ok (opt_some ((alt_right h0).trans h1))]
  rfl

theorem rdfLit_err (X : Ext) {r : Str} (h : Off quoteish r) : rdfLit X r = .err := bind_err (string_err h)

theorem string_head {s w r : Str} (h : StringText s w) {f : Char → Prop} (h1 : ¬ f '"') (h2 : ¬ f '\'') :
    Off f (w ++ r) := by
  cases h <;> exact Off.cons (by assumption)

/-! ## Gaps -/

/-- What begins a gap. -/
def NoGap (r : Str) : Prop := Off (fun c => space c ∨ c = '#') r ∧ ∀ b, r ≠ '/' :: '*' :: b

theorem afterClose_ok {cs : Str} (h : ¬ ['*', '/'] <:+: cs ++ ['*']) (r : Str) :
    afterClose (cs ++ '*' :: '/' :: r) = some r := by
  induction cs with
  | nil => rfl
  | cons c cs ih =>
    have h' : ¬ ['*', '/'] <:+: cs ++ ['*'] := fun hx => h (hx.trans (List.suffix_cons _ _).isInfix)
    rw [List.cons_append, afterClose]
    · exact ih h'
    · rintro r' rfl e
      refine h ?_
      cases cs with
      | nil => simp at e
      | cons d cs =>
        simp only [List.cons_append, List.cons.injEq] at e
        obtain ⟨rfl, -⟩ := e
        exact ⟨[], cs ++ ['*'], by simp⟩

/-- One piece of a gap. -/
def gapPiece : P Unit := alt (do let _ ← takeWhile1 isSpace) comment

theorem gapPiece_err {r : Str} (h : NoGap r) : gapPiece r = .err := by
  have h1 : Off (· = '#') r := h.1.mono fun c hc => .inr hc
  unfold gapPiece comment
  rw [alt_right (bind_err (takeWhile1_err (h.1.bool fun c hc => .inl ((isSpace_iff c).1 hc)))),
    alt_right (bind_err (tag_err h1)), alt_right (tag_err h1)]
  exact bind_err (tag_two_err h.2)

theorem Spec.Gap.weaken {g : Str} {b : Bool} (h : Gap b g) : Gap true g := by
  cases h with
  | nil => exact .nil
  | space hc hg => exact .space hc hg
  | line h1 h2 h3 => exact .line h1 h2 h3
  | block h1 h2 => exact .block h1 h2

theorem Spec.Gap.drop {g : Str} : ∀ {b : Bool}, Gap b g → Gap true (g.dropWhile isSpace) := by
  induction g with
  | nil => intro b _; exact .nil
  | cons c g ih =>
    intro b h
    rw [List.dropWhile_cons]
    split
    · next hc =>
      cases h with
      | space _ hg => exact ih hg
      | line => exact absurd hc (by decide)
      | block => exact absurd hc (by decide)
    · exact h.weaken

theorem gap_steps (n : Nat) : ∀ (g r : Str) (b : Bool), g.length ≤ n → Gap b g → NoGap r → ∃ as, Steps gapPiece as (g ++ r) r := by
  induction n with
  | zero =>
    intro g r b hl _ _
    have : g = [] := List.length_eq_zero_iff.1 (by omega)
    subst this
    exact ⟨[], .nil⟩
  | succ n ih =>
    intro g r b hl hg hr
    cases hg with
    | nil => exact ⟨[], .nil⟩
    | @space _ c g hc hg =>
      have hd := Gap.drop hg
      have e := List.takeWhile_append_dropWhile (p := isSpace) (l := g)
      have hlen : (g.takeWhile isSpace).length + (g.dropWhile isSpace).length = g.length := by
        rw [← List.length_append, e]
      simp only [List.length_cons] at hl
      obtain ⟨as, has⟩ := ih (g.dropWhile isSpace) r true (by omega) hd hr
      refine ⟨() :: as, .cons (j := g.dropWhile isSpace ++ r) (alt_left ?_) ?_ has⟩
      · have e' : (c :: g) ++ r = (c :: g.takeWhile isSpace) ++ (g.dropWhile isSpace ++ r) := by
          rw [List.cons_append, List.cons_append, ← List.append_assoc, e]
        rw [e', bind_ok (takeWhile1_ok (by simp) ?_ ?_)]
        · rfl
        · intro d hd
          rcases List.mem_cons.1 hd with rfl | hd
          · exact (isSpace_iff _).2 hc
          · exact takeWhile_mem hd
        · refine Off.app ?_ fun _ => hr.1.bool fun c hc => .inl ((isSpace_iff c).1 hc)
          intro d h hd
          have := List.head?_dropWhile_not isSpace g
          rw [Option.mem_def.1 h] at this
          exact absurd (show isSpace d = false from this) (by simp [hd])
      · simp only [List.length_append, List.length_cons]; omega
    | @line _ cs g e hcs he hg =>
      have hs : Gap true (e :: g) := .space (by rcases he with rfl | rfl <;> simp [Spec.space]) hg
      simp only [List.length_cons, List.length_append] at hl
      obtain ⟨as, has⟩ := ih (e :: g) r true (by simp only [List.length_cons]; omega) hs hr
      have e' : ('#' :: (cs ++ e :: g)) ++ r = '#' :: (cs ++ (e :: g ++ r)) := by simp
      have hn : Off (fun c => (c != '\n' && c != '\r') = true) (e :: g ++ r) := Off.cons (by
        rcases he with rfl | rfl <;> decide)
      have h0 : gapPiece ('#' :: (cs ++ (e :: g ++ r))) = .ok () (e :: g ++ r) := by
        unfold gapPiece comment
        rw [alt_right (bind_err (takeWhile1_err (Off.cons (by decide))))]
        by_cases hc : cs = []
        · subst hc
          rw [alt_right, List.nil_append]
          · exact alt_left (tag_ok1 _ _)
          · rw [bind_ok (tag_ok1 _ _), List.nil_append]
            exact bind_err (takeWhile1_err hn)
        · refine alt_left ?_
          rw [bind_ok (tag_ok1 _ _), bind_ok (takeWhile1_ok hc (fun c h => by simpa using hcs c h) hn)]
          rfl
      rw [e']
      exact ⟨() :: as, .cons h0 (by simp only [List.length_cons, List.length_append]; omega) has⟩
    | @block cs g hcs hg =>
      simp only [List.length_cons, List.length_append] at hl
      obtain ⟨as, has⟩ := ih g r true (by omega) hg hr
      have e' : ('/' :: '*' :: (cs ++ '*' :: '/' :: g)) ++ r = '/' :: '*' :: (cs ++ '*' :: '/' :: (g ++ r)) := by simp
      have h0 : gapPiece ('/' :: '*' :: (cs ++ '*' :: '/' :: (g ++ r))) = .ok () (g ++ r) := by
        unfold gapPiece comment
        rw [alt_right (bind_err (takeWhile1_err (Off.cons (by decide)))),
          alt_right (bind_err (tag_err (Off.cons (by decide)))), alt_right (tag_err (Off.cons (by decide)))]
        unfold multiComment
        rw [bind_ok (tag_ok2 _ _ _)]
        simp only [afterClose_ok hcs]
      rw [e']
      exact ⟨() :: as, .cons h0 (by simp only [List.length_cons, List.length_append]; omega) has⟩

theorem tws0_ok {g r : Str} {b : Bool} (hg : Gap b g) (hr : NoGap r) : tws0 (g ++ r) = .ok () r := by
  obtain ⟨as, has⟩ := gap_steps _ g r b Nat.le.refl hg hr
  unfold tws0
  show (many0 gapPiece >>= _) _ = _
  rw [bind_ok (many0_steps has (gapPiece_err hr))]
  rfl

theorem gap_head {g : Str} (h : Gap false g) (hn : g ≠ []) : ∃ c t, g = c :: t ∧ (space c ∨ c = '#') := by
  cases h with
  | nil => exact absurd rfl hn
  | space hc hg => exact ⟨_, _, rfl, .inl hc⟩
  | line h1 h2 h3 => exact ⟨_, _, rfl, .inr rfl⟩

theorem skip_ok {g r : Str} {b : Bool} (hg : Gap b g) (hr : NoGap r) : skip (g ++ r) = r := by
  rw [skip, tws0_ok hg hr]

end Shexc
