import Verif.Shexc.LemText

/-!
# Lemmas: names and numbers are read as they are written
-/

namespace Shexc

open P Spec

/-! ## Characters -/

instance (c : Char) (a b : Nat) : Decidable (within c a b) := by unfold within; infer_instance
instance (c : Char) : Decidable (letter c) := by unfold letter; infer_instance
instance (c : Char) : Decidable (digit c) := by unfold digit; infer_instance
instance (c : Char) : Decidable (nameStart c) := by unfold nameStart; infer_instance
instance (c : Char) : Decidable (nameChar c) := by unfold nameChar; infer_instance
instance (c : Char) : Decidable (space c) := by unfold space; infer_instance

/-- What may not follow a word that could go on. -/
def Stk (c : Char) : Prop := nameChar c ∨ c ∈ [':', '.', '%', '\\', '"', '\'', '@', '^']

instance (c : Char) : Decidable (Stk c) := by unfold Stk; infer_instance

/-- What may not follow a name. -/
def StkN (c : Char) : Prop := nameChar c ∨ c ∈ [':', '.', '%', '\\']

instance (c : Char) : Decidable (StkN c) := by unfold StkN; infer_instance

theorem letter_name {c : Char} (h : letter c) : nameChar c := .inl (.inl h)
theorem start_name {c : Char} (h : nameStart c) : nameChar c := .inl h
theorem digit_name {c : Char} (h : digit c) : nameChar c := .inr (.inr (.inr (.inl h)))

theorem Off.app {f : Char → Prop} {v r : Str} (hv : ∀ c ∈ v.head?, ¬ f c) (hr : v = [] → Off f r) : Off f (v ++ r) := by
  cases v with
  | nil => exact hr rfl
  | cons c v => exact Off.cons (hv c (by simp))

theorem Off.stkN {r : Str} (h : Off Stk r) : Off StkN r := h.mono fun c hc => by
  rcases hc with hc | hc
  · exact .inl hc
  · refine .inr ?_
    simp only [List.mem_cons, List.not_mem_nil, or_false] at hc ⊢
    tauto

theorem Off.bool {f : Char → Bool} {g : Char → Prop} {r : Str} (h : Off g r) (hf : ∀ c, f c = true → g c) :
    Off (fun c => f c = true) r := h.mono hf

theorem oneOf_ok {s r : Str} {c : Char} (h : c ∈ s) : oneOf s (c :: r) = .ok c r := satisfy_ok (by simpa using h)

theorem oneOf_err {s r : Str} (h : Off (· ∈ s) r) : oneOf s r = .err :=
  satisfy_err (h.bool fun c hc => by simpa using hc)

theorem noneOf_ok {s r : Str} {c : Char} (h : c ∉ s) : noneOf s (c :: r) = .ok c r := satisfy_ok (by simpa using h)

theorem noneOf_err {s r : Str} (h : Off (· ∉ s) r) : noneOf s r = .err :=
  satisfy_err (h.bool fun c hc => by simpa using hc)

theorem recognize_err {α : Type} {p : P α} {i : Str} (h : p i = .err) : recognize p i = .err := by simp [recognize, h]

/-! ## Names -/

theorem iriRef_ok {s w : Str} (h : IriText s w) (r : Str) : iriRef (w ++ r) = .ok s r := by
  cases h with
  | @mk w h =>
    simp only [List.cons_append, List.append_assoc, List.nil_append]
    unfold iriRef
    have h1 : many0 (alt (satisfy isIriChar) uchar) (w ++ '>' :: r) = .ok s ('>' :: r) := by
      refine many0_steps (steps_chars h ?_) ?_
      · intro c v r hc
        cases hc with
        | plain h h' =>
          refine ⟨alt_left (satisfy_ok ?_), by simp⟩
          simp only [isIriChar, Bool.and_eq_true, decide_eq_true_eq, lt_char, Bool.not_eq_true', List.contains_eq_mem,
            decide_eq_false_iff_not]
          exact ⟨h, h'⟩
        | numbered h =>
          refine ⟨?_, numbered_ne h⟩
          obtain ⟨d, u, e, hd⟩ := numbered_head h
          rw [alt_right, uchar_ok h]
          rw [e]
          exact satisfy_err (Off.cons (by decide))
      · rw [alt_right (satisfy_err (Off.cons (by decide)))]
        exact uchar_err (Off.cons (by decide))
    rw [bind_ok (char_ok _ _), bind_ok h1, bind_ok (char_ok _ _)]
    rfl

theorem iriRef_err {r : Str} (h : Off (· = '<') r) : iriRef r = .err := bind_err (char_err h)

theorem pnPrefix_ok {p r : Str} {c : Char} (hc : nameStart c) (hp : ∀ d ∈ p, nameChar d) (hr : Off nameChar r)
    (hd : Off (· = '.') r) : pnPrefix (c :: (p ++ r)) = .ok (c :: p) r := by
  unfold pnPrefix
  refine recognize_ok (w := c :: p) (a := ()) ?_
  rw [List.cons_append]
  rw [bind_ok (satisfy_ok ((isPnCharsBase_iff c).2 hc)),
    bind_ok (takeWhile_ok (fun d h => (isPnChars_iff d).2 (hp d h)) (hr.bool fun c => (isPnChars_iff c).1)),
    bind_ok (many0_steps .nil (bind_err (char_err hd)))]
  rfl

theorem pnPrefix_err {r : Str} (h : Off nameStart r) : pnPrefix r = .err := by
  unfold pnPrefix recognize
  rw [bind_err (satisfy_err (h.bool fun c => (isPnCharsBase_iff c).1))]

theorem pnameNs_ok {p : Str} (h : PrefixName p) (r : Str) : pnameNs (p ++ ':' :: r) = .ok p r := by
  unfold pnameNs
  rcases h with rfl | ⟨c, q, rfl, hc, hq⟩
  · rw [List.nil_append, bind_ok (opt_none (pnPrefix_err (Off.cons (by decide)))), bind_ok (char_ok _ _)]
    rfl
  · rw [List.cons_append, bind_ok (opt_some (pnPrefix_ok hc hq (Off.cons (by decide)) (Off.cons (by decide)))),
      bind_ok (char_ok _ _)]
    rfl

theorem pnameNs_err {r : Str} (h : Off (fun c => nameStart c ∨ c = ':') r) : pnameNs r = .err := by
  unfold pnameNs
  rw [bind_ok (opt_none (pnPrefix_err (h.mono fun c hc => .inl hc)))]
  exact bind_err (char_err (h.mono fun c hc => .inr hc))

/-- A word of letters without a colon after it is not a prefixed name. -/
theorem pnameNs_err_word {p r : Str} {c : Char} (hc : nameStart c) (hp : ∀ d ∈ p, nameChar d) (hr : Off StkN r) :
    pnameNs (c :: (p ++ r)) = .err := by
  unfold pnameNs
  rw [bind_ok (opt_some (pnPrefix_ok hc hp (hr.mono fun c h => .inl h) (hr.mono fun c h => .inr (by simp [h]))))]
  exact bind_err (char_err (hr.mono fun c h => .inr (by simp [h])))

theorem utf8Size_ascii {c : Char} (h : c.toNat < 128) : c.utf8Size = 1 := by
  unfold Char.utf8Size
  rw [if_pos]
  exact UInt32.le_iff_toNat_le.2 (show c.toNat ≤ 127 by omega)

theorem oneIf_ok {f : Char → Bool} {c : Char} {r : Str} (h : f c = true) (ha : c.toNat < 128) :
    oneIf f (c :: r) = .ok c r := by simp [oneIf, h, utf8Size_ascii ha]

theorem oneIf_err {f : Char → Bool} {r : Str} (h : Off (fun c => f c = true) r) : oneIf f r = .err := by
  cases r with
  | nil => rfl
  | cons c r => simp [oneIf, show f c = false by simpa [Off] using h]

theorem plx_err {r : Str} (h : Off (fun c => c = '%' ∨ c = '\\') r) : plx r = .err := by
  unfold plx
  rw [alt_right (bind_err (char_err (h.mono fun c hc => .inl hc)))]
  exact bind_err (char_err (h.mono fun c hc => .inr hc))

/-- The pieces of the rest of a local name. -/
def localPiece : P Unit :=
  alt (do let _ ← takeWhile1 fun c => c == ':' || isPnChars c) (alt plx (do let _ ← char '.'))

theorem localPiece_err {r : Str} (h : Off StkN r) : localPiece r = .err := by
  unfold localPiece
  rw [alt_right (bind_err (takeWhile1_err (h.bool ?_))), alt_right (plx_err (h.mono ?_))]
  · exact bind_err (char_err (h.mono fun c hc => .inr (by simp [hc])))
  · rintro c (rfl | rfl)
    · exact .inr (by simp)
    · exact .inr (by simp)
  · intro c hc
    simp only [Bool.or_eq_true, beq_iff_eq, isPnChars_iff] at hc
    rcases hc with rfl | hc
    · exact .inr (by simp)
    · exact .inl hc

theorem takeWhile_mem {f : Char → Bool} {l : Str} {d : Char} (h : d ∈ l.takeWhile f) : f d = true := by
  induction l with
  | nil => simp at h
  | cons c l ih =>
    rw [List.takeWhile_cons] at h
    split at h
    · rcases List.mem_cons.1 h with rfl | h
      · assumption
      · exact ih h
    · simp at h

theorem dot_not_name : ¬ nameChar '.' := by decide

theorem localPieces (n : Nat) : ∀ (t r : Str), t.length ≤ n → (∀ d ∈ t, nameChar d ∨ d = ':' ∨ d = '.') → Off StkN r →
    ∃ as, Steps localPiece as (t ++ r) r := by
  induction n with
  | zero =>
    intro t r ht _ _
    have : t = [] := List.length_eq_zero_iff.1 (by omega)
    subst this
    exact ⟨[], .nil⟩
  | succ n ih =>
    intro t r ht hd hr
    cases t with
    | nil => exact ⟨[], .nil⟩
    | cons c t =>
      by_cases hc : c = '.'
      · subst hc
        obtain ⟨as, has⟩ := ih t r (by simpa using ht) (fun d h => hd d (List.mem_cons_of_mem _ h)) hr
        refine ⟨() :: as, .cons ?_ (by simp) has⟩
        show localPiece ('.' :: (t ++ r)) = _
        unfold localPiece
        rw [alt_right (bind_err (takeWhile1_err (Off.cons (by decide)))), alt_right (plx_err (Off.cons (by decide))),
          bind_ok (char_ok _ _)]
        rfl
      · let f : Char → Bool := fun c => c == ':' || isPnChars c
        have hf : ∀ d, f d = true ↔ d = ':' ∨ nameChar d := by
          intro d; simp [f, isPnChars_iff]
        have hfc : f c = true := by
          rw [hf]
          rcases hd c List.mem_cons_self with h | h | h
          · exact .inr h
          · exact .inl h
          · exact absurd h hc
        have e := List.takeWhile_append_dropWhile (p := f) (l := c :: t)
        have ha : (c :: t).takeWhile f ≠ [] := by simp [List.takeWhile_cons, hfc]
        have hl : ((c :: t).takeWhile f).length + ((c :: t).dropWhile f).length = (c :: t).length := by
          rw [← List.length_append, e]
        have hp := List.length_pos_iff.2 ha
        obtain ⟨as, has⟩ := ih ((c :: t).dropWhile f) r (by simp only [List.length_cons] at hl ht; omega)
          (fun d h => hd d (List.dropWhile_subset _ h)) hr
        refine ⟨() :: as, .cons (j := (c :: t).dropWhile f ++ r) ?_ (by simp only [List.length_append]; omega) has⟩
        have e' : (c :: t) ++ r = (c :: t).takeWhile f ++ ((c :: t).dropWhile f ++ r) := by
          rw [← List.append_assoc, e]
        rw [e']
        unfold localPiece
        refine alt_left ?_
        rw [bind_ok (takeWhile1_ok ha (fun d h => takeWhile_mem h) ?_)]
        · rfl
        · refine Off.app ?_ fun _ => (hr.mono ?_)
          · intro d h hd
            have := List.head?_dropWhile_not f (c :: t)
            rw [Option.mem_def.1 h] at this
            exact absurd (show f d = false from this) (by simp [hd])
          · intro d h
            rcases (hf d).1 h with rfl | h
            · exact .inr (by simp)
            · exact .inl h

theorem pnLocal_ok {l r : Str} (h : LocalName l) (hr : Off StkN r) : pnLocal (l ++ r) = .ok l r := by
  obtain ⟨c, t, rfl, ha, hc, ht, -⟩ := h
  obtain ⟨as, has⟩ := localPieces _ t r Nat.le.refl (by tauto) hr
  unfold pnLocal
  refine recognize_ok (w := c :: t) (a := ()) ?_
  rw [List.cons_append]
  have hf : (c == ':' || isDigit c || isPnCharsU c) = true := by
    simp only [Bool.or_eq_true, beq_iff_eq, isDigit_iff, isPnCharsU_iff]
    tauto
  have h1 : (do let _ ← oneIf fun c => c == ':' || isDigit c || isPnCharsU c : P Unit) (c :: (t ++ r)) =
      .ok () (t ++ r) := by
    rw [bind_ok (oneIf_ok hf ha)]
    rfl
  rw [bind_ok (alt_left h1)]
  show (many0 localPiece >>= _) _ = _
  rw [bind_ok (many0_steps has (localPiece_err hr))]
  rfl

theorem pnLocal_err {r : Str} (hr : Off StkN r) : pnLocal r = .err := by
  unfold pnLocal recognize
  rw [bind_err]
  rw [alt_right (bind_err (oneIf_err (hr.bool ?_)))]
  · refine plx_err (hr.mono ?_)
    rintro c (rfl | rfl)
    · exact .inr (by simp)
    · exact .inr (by simp)
  · intro c hc
    simp only [Bool.or_eq_true, beq_iff_eq, isDigit_iff, isPnCharsU_iff] at hc
    rcases hc with (rfl | h) | rfl | h
    · exact .inr (by simp)
    · exact .inl (digit_name h)
    · exact .inl (by decide)
    · exact .inl (start_name h)

theorem prefix_head {p v : Str} (h : PrefixName p) {f : Char → Prop} (h1 : ∀ c, nameStart c → ¬ f c) (h2 : ¬ f ':') :
    Off f (p ++ ':' :: v) := by
  rcases h with rfl | ⟨c, q, rfl, hc, hq⟩
  · exact Off.cons h2
  · exact Off.cons (h1 c hc)

theorem start_ne {c d : Char} (h : nameStart c) (hd : ¬ nameStart d) : ¬ c = d := fun e => hd (e ▸ h)

/-- The name between angle brackets needs nothing after it, others do. -/
def IriRef.ends (n : IriRef) (r : Str) : Prop := match n with | .iri _ => True | .prefixed .. => Off Stk r

/-- The same with less that may not follow. -/
def IriRef.endsN (n : IriRef) (r : Str) : Prop := match n with | .iri _ => True | .prefixed .. => Off StkN r

theorem IriRef.ends.n {n : IriRef} {r : Str} (h : n.ends r) : n.endsN r := by
  cases n with
  | iri => trivial
  | prefixed => exact Off.stkN h

theorem Spec.NameText.ref {n : IriRef} {w : Str} (h : NameText n w) : RefText n w := by
  cases h with
  | iri h => exact .iri h
  | ns hp _ => exact .ns hp
  | «local» hp hl _ => exact .local hp hl

theorem iri_ref {n : IriRef} {w r : Str} (h : RefText n w) (hr : n.endsN r) : iri (w ++ r) = .ok n r := by
  unfold iri
  cases h with
  | iri h => exact alt_left (by rw [bind_ok (iriRef_ok h r)]; rfl)
  | @ns p hp =>
    rw [List.append_assoc, List.singleton_append]
    have h0 : iriRef (p ++ ':' :: r) = .err := iriRef_err (prefix_head hp (fun c hc => start_ne hc (by decide)) (by decide))
    have h1 : pnameLn (p ++ ':' :: r) = .err := (bind_ok (pnameNs_ok hp r)).trans (bind_err (pnLocal_err hr))
    rw [alt_right (bind_err h0), alt_right h1]
    unfold pnameNsIri
    rw [bind_ok (pnameNs_ok hp r)]
    rfl
  | @«local» p l hp hl =>
    rw [List.append_assoc, List.cons_append]
    have h0 : iriRef (p ++ ':' :: (l ++ r)) = .err :=
      iriRef_err (prefix_head hp (fun c hc => start_ne hc (by decide)) (by decide))
    rw [alt_right (bind_err h0)]
    refine alt_left ?_
    unfold pnameLn
    rw [bind_ok (pnameNs_ok hp _), bind_ok (pnLocal_ok hl hr)]
    rfl

theorem iri_ok {n : IriRef} {w r : Str} (h : NameText n w) (hr : n.ends r) : iri (w ++ r) = .ok n r :=
  iri_ref h.ref hr.n

theorem iri_err {r : Str} (h : Off (fun c => nameStart c ∨ c = ':' ∨ c = '<') r) : iri r = .err := by
  have h1 : pnameNs r = .err := pnameNs_err (h.mono fun c hc => by tauto)
  have h2 : pnameLn r = .err := bind_err h1
  unfold iri
  rw [alt_right (bind_err (iriRef_err (h.mono fun c hc => .inr (.inr hc)))), alt_right h2]
  exact bind_err h1

theorem iri_err_wordN {p r : Str} {c : Char} (hc : nameStart c) (hp : ∀ d ∈ p, nameChar d) (hr : Off StkN r) :
    iri (c :: (p ++ r)) = .err := by
  have h1 := pnameNs_err_word hc hp hr
  have h2 : pnameLn (c :: (p ++ r)) = .err := bind_err h1
  unfold iri
  rw [alt_right (bind_err (iriRef_err (Off.cons (start_ne hc (by decide))))), alt_right h2]
  exact bind_err h1

theorem iri_err_word {p r : Str} {c : Char} (hc : nameStart c) (hp : ∀ d ∈ p, nameChar d) (hr : Off Stk r) :
    iri (c :: (p ++ r)) = .err := iri_err_wordN hc hp hr.stkN

theorem bnodeLabel_ok {b r : Str} (h : BnodeName b) (hr : Off StkN r) :
    bnodeLabel ('_' :: ':' :: (b ++ r)) = .ok b r := by
  obtain ⟨c, t, rfl, ha, hc, ht, -⟩ := h
  unfold bnodeLabel
  rw [bind_ok (tag_ok2 _ _ _)]
  refine recognize_ok (w := c :: t) (a := ()) ?_
  rw [List.cons_append]
  have hf : (isDigit c || isPnCharsU c) = true := by
    simp only [Bool.or_eq_true, isDigit_iff, isPnCharsU_iff]
    tauto
  rw [bind_ok (oneIf_ok hf ha), bind_ok (takeWhile_ok (f := fun c => c == '.' || isPnChars c) ?_ (hr.bool ?_))]
  · rfl
  · intro d hd
    simp only [Bool.or_eq_true, beq_iff_eq, isPnChars_iff]
    exact (ht d hd).symm
  · intro d hd
    simp only [Bool.or_eq_true, beq_iff_eq, isPnChars_iff] at hd
    rcases hd with rfl | hd
    · exact .inr (by simp)
    · exact .inl hd

/-- What has to follow a label. -/
def Label.ends (l : Label) (r : Str) : Prop := match l with | .iri n => n.ends r | .bnode _ => Off Stk r | .start => True

theorem shapeLabel_ok {l : Label} {w r : Str} (h : LabelText l w) (hr : l.ends r) : shapeLabel (w ++ r) = .ok l r := by
  unfold shapeLabel
  cases h with
  | iri h => exact alt_left (by rw [bind_ok (iri_ok h hr)]; rfl)
  | bnode h =>
    simp only [List.cons_append]
    rw [alt_right (bind_err (iri_err (Off.cons (by decide)))), bind_ok (bnodeLabel_ok h (Off.stkN hr))]
    rfl

theorem shapeLabel_err {r : Str} (h : Off (fun c => nameStart c ∨ c = ':' ∨ c = '<' ∨ c = '_') r) :
    shapeLabel r = .err := by
  unfold shapeLabel
  rw [alt_right (bind_err (iri_err (h.mono fun c hc => by tauto)))]
  exact bind_err (bind_err (tag_err (h.mono fun c hc => by tauto)))

/-! ## Numbers -/

theorem digits_ok {ds r : Str} (h : Digits ds) (hv : decNum ds < 2 ^ 127) (hr : Off digit r) :
    digits (ds ++ r) = .ok (decNum ds : Int) r := by
  unfold digits
  rw [bind_ok (takeWhile1_ok h.1 (fun c hc => (isDigit_iff c).2 (h.2 c hc)) (hr.bool fun c => (isDigit_iff c).1))]
  simp only [decVal_eq]
  rw [if_pos hv]
  rfl

/-- What the reader keeps of a sign. -/
def signOf (s : Str) : Option Char := s.head?

theorem sign_ok {b : Bool} {s r : Str} (h : Sign b s) (hr : Off (fun c => c = '+' ∨ c = '-') r) :
    opt (oneOf ['+', '-']) (s ++ r) = .ok (signOf s) r ∧ (signOf s = some '-' ↔ b = true) := by
  cases h with
  | none =>
    refine ⟨opt_none (satisfy_err (hr.bool ?_)), by simp [signOf]⟩
    intro c hc
    simpa using hc
  | plus => exact ⟨opt_some (satisfy_ok (by decide)), by simp [signOf]⟩
  | minus => exact ⟨opt_some (satisfy_ok (by decide)), by simp [signOf]⟩

theorem digits_head {ds r : Str} (h : Digits ds) {f : Char → Prop} (hf : ∀ c, digit c → ¬ f c) : Off f (ds ++ r) := by
  obtain ⟨c, t, rfl⟩ := List.exists_cons_of_ne_nil h.1
  exact Off.cons (hf c (h.2 c List.mem_cons_self))

theorem digit_ne {c d : Char} (h : digit c) (hd : ¬ digit d) : ¬ c = d := fun e => hd (e ▸ h)

theorem digits_nosign {ds r : Str} (h : Digits ds) : Off (fun c => c = '+' ∨ c = '-') (ds ++ r) :=
  digits_head h fun c hc => by
    rintro (rfl | rfl)
    · exact absurd hc (by decide)
    · exact absurd hc (by decide)

theorem integer_ok {n : Int} {w r : Str} (h : IntText n w) (hv : n.natAbs < 2 ^ 127) (hr : Off digit r) :
    integer (w ++ r) = .ok n r := by
  cases h with
  | @mk b s ds hs hd =>
    have h1 := sign_ok hs (digits_nosign (r := r) hd)
    unfold integer
    rw [List.append_assoc, bind_ok h1.1, bind_ok (digits_ok hd ?_ hr)]
    · cases b
      · have h2 : ¬ signOf s = some '-' := by simp [h1.2]
        simp only [if_neg h2]
        rfl
      · have h2 : signOf s = some '-' := by simp [h1.2]
        simp only [if_pos h2]
        rfl
    · cases b <;> simpa using hv

theorem integer_err {r : Str} (h : Off (fun c => c = '+' ∨ c = '-' ∨ digit c) r) : integer r = .err := by
  unfold integer
  rw [bind_ok (opt_none (oneOf_err (h.mono ?_)))]
  · exact bind_err (bind_err (takeWhile1_err (h.bool fun c hc => .inr (.inr ((isDigit_iff c).1 hc)))))
  · intro c hc
    have : c = '+' ∨ c = '-' := by simpa using hc
    tauto

theorem exponent_ok {e r : Str} (h : Exponent e) (hr : Off digit r) : exponent (e ++ r) = .ok () r := by
  cases h with
  | @mk e b s ds he hs hd =>
    simp only [List.cons_append, List.append_assoc]
    unfold exponent
    rw [bind_ok (oneOf_ok (by simpa using he)), bind_ok (sign_ok hs (digits_nosign hd)).1,
      bind_ok (takeWhile1_ok hd.1 (fun c hc => (isDigit_iff c).2 (hd.2 c hc)) (hr.bool fun c => (isDigit_iff c).1))]
    rfl

theorem exponent_err {r : Str} (h : Off (fun c => c = 'e' ∨ c = 'E') r) : exponent r = .err :=
  bind_err (oneOf_err (h.mono fun c hc => by simpa using hc))

theorem dig1_ok {ds r : Str} (h : Digits ds) (hr : Off digit r) : takeWhile1 isDigit (ds ++ r) = .ok ds r :=
  takeWhile1_ok h.1 (fun c hc => (isDigit_iff c).2 (h.2 c hc)) (hr.bool fun c => (isDigit_iff c).1)

theorem dig0_ok {ds r : Str} (h : Digits ds) (hr : Off digit r) : P.takeWhile isDigit (ds ++ r) = .ok ds r :=
  takeWhile_ok (fun c hc => (isDigit_iff c).2 (h.2 c hc)) (hr.bool fun c => (isDigit_iff c).1)

theorem exp_head {e r : Str} (h : Exponent e) {f : Char → Prop} (h1 : ¬ f 'e') (h2 : ¬ f 'E') : Off f (e ++ r) := by
  cases h with
  | mk he hs hd => rcases he with rfl | rfl <;> exact Off.cons (by assumption)

theorem doubleText_ok {w r : Str} (h : DoubleText w) (hr : Off digit r) : doubleText (w ++ r) = .ok w r := by
  unfold doubleText
  refine recognize_ok (a := ()) ?_
  cases h with
  | @whole b s ds e hs hd he =>
    simp only [List.append_assoc]
    rw [bind_ok (sign_ok hs (digits_nosign hd)).1]
    have hx : Off digit (e ++ r) := exp_head he (by decide) (by decide)
    rw [alt_right, alt_right, bind_ok (dig1_ok hd hx)]
    · exact exponent_ok he hr
    · exact bind_err (tag_err (digits_head hd fun c hc => digit_ne hc (by decide)))
    · refine (bind_ok (dig1_ok hd hx)).trans (bind_err (tag_err ?_))
      exact exp_head he (by decide) (by decide)
  | @dot b s ds fs e hs hd hf he =>
    simp only [List.append_assoc, List.cons_append]
    rw [bind_ok (sign_ok hs (digits_nosign hd)).1]
    refine alt_left ?_
    rw [bind_ok (dig1_ok hd (Off.cons (by decide))), bind_ok (tag_ok1 _ _),
      bind_ok (dig0_ok hf (exp_head he (by decide) (by decide)))]
    exact exponent_ok he hr

/-- No exponent after a number. -/
def expish (c : Char) : Prop := digit c ∨ c = 'e' ∨ c = 'E' ∨ c = '.'

theorem doubleText_err_dec {b : Bool} {ds fs w r : Str} (h : DecText b ds fs w) (hr : Off expish r) :
    doubleText (w ++ r) = .err := by
  cases h with
  | mk hs hd hf =>
    unfold doubleText
    refine recognize_err ?_
    simp only [List.append_assoc, List.cons_append]
    rw [bind_ok (sign_ok hs (digits_nosign hd)).1]
    have hx : Off digit ('.' :: (fs ++ r)) := Off.cons (by decide)
    have he : exponent r = .err := exponent_err (hr.mono fun c hc => by unfold expish; tauto)
    rw [alt_right, alt_right, bind_ok (dig1_ok hd hx), exponent_err (Off.cons (by decide))]
    · exact bind_err (tag_err (digits_head hd fun c hc => digit_ne hc (by decide)))
    · rw [bind_ok (dig1_ok hd hx), bind_ok (tag_ok1 _ _), bind_ok (dig0_ok hf (hr.mono fun c hc => .inl hc)), he]

theorem doubleText_err_int {n : Int} {w r : Str} (h : IntText n w) (hr : Off expish r) : doubleText (w ++ r) = .err := by
  cases h with
  | @mk b s ds hs hd =>
    unfold doubleText
    refine recognize_err ?_
    simp only [List.append_assoc]
    rw [bind_ok (sign_ok hs (digits_nosign hd)).1]
    have hx : Off digit r := hr.mono fun c hc => .inl hc
    have he : exponent r = .err := exponent_err (hr.mono fun c hc => by unfold expish; tauto)
    rw [alt_right, alt_right, bind_ok (dig1_ok hd hx), he]
    · exact bind_err (tag_err (digits_head hd fun c hc => digit_ne hc (by decide)))
    · rw [bind_ok (dig1_ok hd hx), bind_err (tag_err (hr.mono fun c hc => by unfold expish; tauto))]

theorem doubleText_err {r : Str} (h : Off (fun c => c = '+' ∨ c = '-' ∨ c = '.' ∨ digit c) r) : doubleText r = .err := by
  unfold doubleText
  refine recognize_err ?_
  have hd : takeWhile1 isDigit r = .err := takeWhile1_err (h.bool fun c hc => .inr (.inr (.inr ((isDigit_iff c).1 hc))))
  rw [bind_ok (opt_none (oneOf_err (h.mono ?_)))]
  · rw [alt_right (bind_err hd), alt_right (bind_err (tag_err (h.mono fun c hc => by tauto))), bind_err hd]
  · intro c hc
    have : c = '+' ∨ c = '-' := by simpa using hc
    tauto

end Shexc
