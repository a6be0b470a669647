import Verif.Gen.Pattern
import Verif.Gen.FieldsProps
import Mathlib.Data.List.Infix

/-!
# Properties: texts for patterns (C135)
-/

namespace Gen

/-! ## Specification -/

/-- Characters with a meaning in regular expressions. -/
def metaChars : Str := "\\[].{}+*?|^$()".toList

/-- What stands for one character in a regular expression. -/
inductive Atom where
  | chr (c : Char)
  | digit
  | word
  | space
  | esc (c : Char)
  | dot
  | cls (lower upper digits : Bool)
  | set (cs : Str)

/-- How often. -/
inductive Quant where
  | one
  | times (n : Nat)
  | between (m n : Nat)
  | atLeast (m : Nat)
  | plus
  | star
  | opt

/-- The text of an atom. -/
def Atom.text : Atom → Str
  | .chr c => [c]
  | .digit => ['\\', 'd']
  | .word => ['\\', 'w']
  | .space => ['\\', 's']
  | .esc c => ['\\', c]
  | .dot => ['.']
  | .cls l u d => '[' :: ((if l then ['a', '-', 'z'] else []) ++ (if u then ['A', '-', 'Z'] else []) ++
      (if d then ['0', '-', '9'] else [])) ++ [']']
  | .set cs => '[' :: cs ++ [']']

/-- The text of a quantifier. -/
def Quant.text : Quant → Str
  | .one => []
  | .times n => '{' :: digits n ++ ['}']
  | .between m n => '{' :: digits m ++ ',' :: digits n ++ ['}']
  | .atLeast m => '{' :: digits m ++ ",}".toList
  | .plus => ['+']
  | .star => ['*']
  | .opt => ['?']

/-- Letters and digits. -/
def Alnum (c : Char) : Prop := c.isLower = true ∨ c.isUpper = true ∨ c.isDigit = true

/-- The characters of an atom. -/
def Atom.Holds (c : Char) : Atom → Prop
  | .chr d => c = d
  | .digit => c.isDigit = true
  | .word => Alnum c ∨ c = '_'
  | .space => c ∈ [' ', '\t', '\n', '\r']
  | .esc d => c = d
  | .dot => c ≠ '\n'
  | .cls l u d => (l = true ∧ c.isLower = true) ∨ (u = true ∧ c.isUpper = true) ∨ (d = true ∧ c.isDigit = true)
  | .set cs => c ∈ cs

/-- The numbers that a quantifier allows. -/
def Quant.Allows (k : Nat) : Quant → Prop
  | .one => k = 1
  | .times n => k = n
  | .between m n => m ≤ k ∧ k ≤ n
  | .atLeast m => m ≤ k
  | .plus => 1 ≤ k
  | .star => True
  | .opt => k ≤ 1

/-- The texts of a sequence of atoms with quantifiers. -/
inductive Lang : List (Atom × Quant) → Str → Prop
  | nil : Lang [] []
  | cons {a q ps s t} : (∀ c ∈ s, a.Holds c) → q.Allows s.length → Lang ps t → Lang ((a, q) :: ps) (s ++ t)

/-- The regular expression. -/
def render (ps : List (Atom × Quant)) : Str := ps.flatMap fun p => p.1.text ++ p.2.text

/-- Atoms of regular expressions: plain characters, escaped ones that are not letters or digits, classes and sets that are not
empty. -/
def Atom.Wf : Atom → Prop
  | .chr c => c ∉ metaChars
  | .esc c => ¬ Alnum c
  | .cls l u d => l = true ∨ u = true ∨ d = true
  | .set cs => cs ≠ [] ∧ ∀ c ∈ cs, c ∉ metaChars ∧ c ≠ '-'
  | _ => True

/-- Quantifiers with numbers that are in order, not zero, and fit into 64 bits. -/
def Quant.Wf : Quant → Prop
  | .times n => 1 ≤ n ∧ n < 2 ^ 63
  | .between m n => m ≤ n ∧ 1 ≤ n ∧ n < 2 ^ 63
  | .atLeast m => m < 2 ^ 63
  | _ => True

/-- An atom that is repeated stands for itself, and not for other letters or digits. -/
def Repeatable : Atom → Prop
  | .chr c => ¬ Alnum c
  | .set cs => ∀ c ∈ cs, ¬ Alnum c
  | _ => True

/-- The regular expressions of C135. -/
structure Fine (ps : List (Atom × Quant)) : Prop where
  wf : ∀ p ∈ ps, p.1.Wf ∧ p.2.Wf
  again : ∀ p ∈ ps, p.2 = .one ∨ p.2 = .opt ∨ Repeatable p.1
  some : ∃ p ∈ ps, p.2 ≠ .opt

/-- The texts that are looked for in patterns. -/
def specials : List Str :=
  ["\\+1-\\d{3}-\\d{3}-\\d{4}", "\\+1\\-\\d{3}\\-\\d{3}\\-\\d{4}", "\\d{3}-\\d{3}-\\d{4}", "\\d{3}\\-\\d{3}\\-\\d{4}", "@",
    "[A-Z]{2,3}\\d{4,6}", "\\d{4}-\\d{2}-\\d{2}", "\\d{1,3}\\.\\d{1,3}\\.\\d{1,3}\\.\\d{1,3}", "https?://",
    "#[0-9A-Fa-f]{6}", "#[0-9A-F]{6}", "[A-Z]{3}\\d{3}", "\\d{3}-\\d{2}-\\d{4}"].map String.toList

/-- With anchors or without. -/
def anchored (b : Bool) (p : Str) : Str := if b then '^' :: p ++ ['$'] else p

/-! ## Lemmas -/

theorem has_iff (sub p : Str) : has sub p = true ↔ sub <:+: p := by
  simp only [has, List.any_eq_true, List.mem_tails, List.isPrefixOf_iff_prefix]
  constructor
  · rintro ⟨t, h1, h2⟩
    exact List.infix_iff_prefix_suffix.2 ⟨t, h2, h1⟩
  · intro h
    obtain ⟨t, h1, h2⟩ := List.infix_iff_prefix_suffix.1 h
    exact ⟨t, h2, h1⟩

variable {rnd : Rnd}

theorem nat_range (hr : rnd.Lawful) (place : List Nat) {lo hi : Nat} (h : lo ≤ hi) :
    lo ≤ nat rnd place lo hi ∧ nat rnd place lo hi ≤ hi := by
  have := hr place lo hi (by omega)
  unfold nat
  omega

theorem pick_mem (hr : rnd.Lawful) (place : List Nat) {l : Str} (h : l ≠ []) : pick rnd place l ∈ l := by
  have hl : 0 < l.length := List.length_pos_iff.2 h
  have := nat_range hr place (Nat.zero_le (l.length - 1))
  have hlt : nat rnd place 0 (l.length - 1) < l.length := by omega
  rw [pick, List.getD_eq_getElem?_getD, List.getElem?_eq_getElem hlt]
  exact List.getElem_mem hlt

theorem digitChars_digit : ∀ c ∈ digitChars, c.isDigit = true := by decide
theorem upperChars_upper : ∀ c ∈ upperChars, c.isUpper = true := by decide
theorem lowerChars_lower : ∀ c ∈ lowerChars, c.isLower = true := by decide
theorem alnumChars_alnum : ∀ c ∈ alnumChars, Alnum c := by
  unfold Alnum
  decide
theorem dotChars_dot : ∀ c ∈ dotChars, c ≠ '\n' := by decide

theorem pick_digit (hr : rnd.Lawful) (place : List Nat) : (pick rnd place digitChars).isDigit = true :=
  digitChars_digit _ (pick_mem hr place (by decide))
theorem pick_upper (hr : rnd.Lawful) (place : List Nat) : (pick rnd place upperChars).isUpper = true :=
  upperChars_upper _ (pick_mem hr place (by decide))
theorem pick_lower (hr : rnd.Lawful) (place : List Nat) : (pick rnd place lowerChars).isLower = true :=
  lowerChars_lower _ (pick_mem hr place (by decide))

/-- What comes for a character again. -/
theorem kin_cases (hr : rnd.Lawful) (place : List Nat) (c : Char) :
    (c.isDigit = true ∧ (kin rnd place c).isDigit = true) ∨ (c.isUpper = true ∧ (kin rnd place c).isUpper = true) ∨
    (c.isLower = true ∧ (kin rnd place c).isLower = true) ∨ (¬ Alnum c ∧ kin rnd place c = c) := by
  unfold kin Alnum
  split
  · next h => exact Or.inl ⟨h, pick_digit hr _⟩
  · split
    · next h => exact Or.inr (Or.inl ⟨h, pick_upper hr _⟩)
    · split
      · next h => exact Or.inr (Or.inr (Or.inl ⟨h, pick_lower hr _⟩))
      · exact Or.inr (Or.inr (Or.inr ⟨by tauto, rfl⟩))

theorem take_until {cls rest : Str} {d : Char} (h : d ∉ cls) : (cls ++ d :: rest).takeWhile (· ≠ d) = cls := by
  induction cls with
  | nil => simp
  | cons c cls ih =>
    have hc : c ≠ d := fun e => h (by rw [e]; exact List.mem_cons_self)
    rw [List.cons_append, List.takeWhile_cons_of_pos (by simpa using hc), ih fun hm => h (List.mem_cons_of_mem _ hm)]

theorem drop_until {cls rest : Str} {d : Char} (h : d ∉ cls) : (cls ++ d :: rest).dropWhile (· ≠ d) = d :: rest := by
  induction cls with
  | nil => simp
  | cons c cls ih =>
    have hc : c ≠ d := fun e => h (by rw [e]; exact List.mem_cons_self)
    rw [List.cons_append, List.dropWhile_cons_of_pos (by simpa using hc), ih fun hm => h (List.mem_cons_of_mem _ hm)]

theorem simple_esc (place : List Nat) (d : Char) (rest acc : Str) :
    simple rnd place ('\\' :: d :: rest) acc = simple rnd place rest (acc ++ [escape rnd (rest.length :: place) d]) := by
  rw [simple]
  simp

theorem simple_class (place : List Nat) {cls : Str} (h : ']' ∉ cls) (rest acc : Str) :
    ∃ pl, simple rnd place ('[' :: cls ++ [']'] ++ rest) acc = simple rnd place rest (acc ++ (fromClass rnd pl cls).toList) := by
  have e : '[' :: cls ++ [']'] ++ rest = '[' :: (cls ++ ']' :: rest) := by simp
  refine ⟨(cls ++ ']' :: rest).length :: place, ?_⟩
  rw [e, simple.eq_def]
  dsimp only
  rw [if_neg (by decide), if_pos rfl, if_pos (by simp), take_until h, drop_until h]
  rfl

theorem simple_dot (place : List Nat) (rest acc : Str) :
    simple rnd place ('.' :: rest) acc = simple rnd place rest (acc ++ [pick rnd (rest.length :: place) dotChars]) := by
  rw [simple.eq_def]
  dsimp only
  rw [if_neg (by decide), if_neg (by decide), if_pos rfl]

theorem simple_quant (place : List Nat) {q : Str} (h : '}' ∉ q) (rest acc : Str) :
    ∃ pl, simple rnd place ('{' :: q ++ ['}'] ++ rest) acc =
      (quantCount rnd pl q).bind fun n => simple rnd place rest (acc ++ again rnd pl acc (n - 1)) := by
  have e : '{' :: q ++ ['}'] ++ rest = '{' :: (q ++ '}' :: rest) := by simp
  refine ⟨(q ++ '}' :: rest).length :: place, ?_⟩
  rw [e, simple.eq_def]
  dsimp only
  rw [if_neg (by decide), if_neg (by decide), if_neg (by decide), if_pos rfl, if_pos (by simp), take_until h,
    drop_until h]
  split
  · next h => rw [h]; rfl
  · next h => rw [h]; rfl

theorem simple_rep (place : List Nat) {c : Char} (h : c = '+' ∨ c = '*') (rest acc : Str) :
    simple rnd place (c :: rest) acc =
      simple rnd place rest (acc ++ again rnd (rest.length :: place) acc (nat rnd (rest.length :: place) 0 2)) := by
  rw [simple.eq_def]
  dsimp only
  rcases h with rfl | rfl <;> simp

theorem simple_opt (place : List Nat) (rest acc : Str) :
    simple rnd place ('?' :: rest) acc =
      simple rnd place rest (if rnd.flip (rest.length :: place) then acc.dropLast else acc) := by
  rw [simple.eq_def]
  dsimp only
  simp

theorem simple_chr (place : List Nat) {c : Char} (h : c ∉ metaChars) (rest acc : Str) :
    simple rnd place (c :: rest) acc = simple rnd place rest (acc ++ [c]) := by
  have e : metaChars = ['\\', '[', ']', '.', '{', '}', '+', '*', '?', '|', '^', '$', '(', ')'] := by decide
  rw [e] at h
  simp only [List.mem_cons, List.not_mem_nil, or_false, not_or] at h
  rw [simple.eq_def]
  dsimp only
  simp [h]

theorem simple_skip (place : List Nat) {c : Char} (h : c ∈ ['|', '^', '$', '(', ')']) (rest acc : Str) :
    simple rnd place (c :: rest) acc = simple rnd place rest acc := by
  simp only [List.mem_cons, List.not_mem_nil, or_false] at h
  rw [simple.eq_def]
  dsimp only
  rcases h with rfl | rfl | rfl | rfl | rfl <;> simp

/-- What is pushed for an atom. -/
theorem atom_step (hr : rnd.Lawful) (place : List Nat) {a : Atom} (hw : a.Wf) (rest acc : Str) :
    ∃ c, a.Holds c ∧ (Repeatable a → ∀ pl, a.Holds (kin rnd pl c)) ∧
      simple rnd place (a.text ++ rest) acc = simple rnd place rest (acc ++ [c]) := by
  have hkin := fun pl c => kin_cases hr pl c
  cases a with
  | chr c =>
    refine ⟨c, rfl, fun h pl => ?_, simple_chr place hw rest acc⟩
    rcases hkin pl c with h' | h' | h' | h'
    · exact absurd (Or.inr (Or.inr h'.1)) h
    · exact absurd (Or.inr (Or.inl h'.1)) h
    · exact absurd (Or.inl h'.1) h
    · exact h'.2
  | digit =>
    refine ⟨_, pick_digit hr _, fun _ pl => ?_, simple_esc place 'd' rest acc⟩
    have := pick_digit hr (rest.length :: place)
    show (kin rnd pl (pick rnd (rest.length :: place) digitChars)).isDigit = true
    rw [kin, if_pos this]
    exact pick_digit hr _
  | word =>
    have ha : Alnum (pick rnd (rest.length :: place) alnumChars) := alnumChars_alnum _ (pick_mem hr _ (by decide))
    refine ⟨_, Or.inl ha, fun _ pl => ?_, simple_esc place 'w' rest acc⟩
    rcases hkin pl (pick rnd (rest.length :: place) alnumChars) with h | h | h | h
    · exact Or.inl (Or.inr (Or.inr h.2))
    · exact Or.inl (Or.inr (Or.inl h.2))
    · exact Or.inl (Or.inl h.2)
    · exact absurd ha h.1
  | space =>
    refine ⟨' ', by simp [Atom.Holds], fun _ pl => ?_, simple_esc place 's' rest acc⟩
    have : kin rnd pl ' ' = ' ' := rfl
    rw [this]
    simp [Atom.Holds]
  | esc c =>
    have hc : ¬ Alnum c := hw
    have e : escape rnd (rest.length :: place) c = c := by
      unfold escape
      rw [if_neg, if_neg, if_neg]
      · rintro rfl; exact hc (Or.inl rfl)
      · rintro rfl; exact hc (Or.inl rfl)
      · rintro rfl; exact hc (Or.inl rfl)
    refine ⟨c, rfl, fun h pl => ?_, ?_⟩
    · rcases hkin pl c with h' | h' | h' | h'
      · exact absurd (Or.inr (Or.inr h'.1)) hc
      · exact absurd (Or.inr (Or.inl h'.1)) hc
      · exact absurd (Or.inl h'.1) hc
      · exact h'.2
    · have := simple_esc (rnd := rnd) place c rest acc
      rwa [e] at this
  | dot =>
    have hd : pick rnd (rest.length :: place) dotChars ≠ '\n' := dotChars_dot _ (pick_mem hr _ (by decide))
    refine ⟨_, hd, fun _ pl => ?_, simple_dot place rest acc⟩
    rcases hkin pl (pick rnd (rest.length :: place) dotChars) with h | h | h | h
    · intro e; rw [e] at h; exact absurd h.2 (by decide)
    · intro e; rw [e] at h; exact absurd h.2 (by decide)
    · intro e; rw [e] at h; exact absurd h.2 (by decide)
    · rw [h.2]; exact hd
  | cls l u d =>
    obtain ⟨pl0, e⟩ := simple_class (rnd := rnd) place (cls := (if l then ['a', '-', 'z'] else []) ++
      (if u then ['A', '-', 'Z'] else []) ++ (if d then ['0', '-', '9'] else [])) (by cases l <;> cases u <;> cases d <;> decide)
      rest acc
    have low : ∀ pl pl', (kin rnd pl (pick rnd pl' lowerChars)).isLower = true := by
      intro pl pl'
      have h0 := pick_lower hr pl'
      have h1 := lowerChars_lower _ (pick_mem hr pl' (show lowerChars ≠ [] by decide))
      have hn : ∀ c ∈ lowerChars, c.isDigit = false ∧ c.isUpper = false := by decide
      obtain ⟨n1, n2⟩ := hn _ (pick_mem hr pl' (show lowerChars ≠ [] by decide))
      rw [kin, if_neg (by simp [n1]), if_neg (by simp [n2]), if_pos h0]
      exact pick_lower hr _
    have upp : ∀ pl pl', (kin rnd pl (pick rnd pl' upperChars)).isUpper = true := by
      intro pl pl'
      have h0 := pick_upper hr pl'
      have hn : ∀ c ∈ upperChars, c.isDigit = false := by decide
      have n1 := hn _ (pick_mem hr pl' (show upperChars ≠ [] by decide))
      rw [kin, if_neg (by simp [n1]), if_pos h0]
      exact pick_upper hr _
    have dig : ∀ pl pl', (kin rnd pl (pick rnd pl' digitChars)).isDigit = true := by
      intro pl pl'
      rw [kin, if_pos (pick_digit hr pl')]
      exact pick_digit hr _
    have aln : ∀ pl', Alnum (pick rnd pl' alnumChars) := fun pl' => alnumChars_alnum _ (pick_mem hr _ (by decide))
    have alk : ∀ pl pl', Alnum (kin rnd pl (pick rnd pl' alnumChars)) := by
      intro pl pl'
      rcases hkin pl (pick rnd pl' alnumChars) with h | h | h | h
      · exact Or.inr (Or.inr h.2)
      · exact Or.inr (Or.inl h.2)
      · exact Or.inl h.2
      · exact absurd (aln pl') h.1
    have fin : ∀ c, fromClass rnd pl0 ((if l then ['a', '-', 'z'] else []) ++
        (if u then ['A', '-', 'Z'] else []) ++ (if d then ['0', '-', '9'] else [])) = some c →
        (Atom.cls l u d).Holds c → (∀ pl, (Atom.cls l u d).Holds (kin rnd pl c)) →
        ∃ c, (Atom.cls l u d).Holds c ∧ (Repeatable (.cls l u d) → ∀ pl, (Atom.cls l u d).Holds (kin rnd pl c)) ∧
          simple rnd place ((Atom.cls l u d).text ++ rest) acc = simple rnd place rest (acc ++ [c]) := by
      intro c h1 h2 h3
      refine ⟨c, h2, fun _ => h3, ?_⟩
      rw [h1] at e
      exact e
    cases l <;> cases u <;> cases d
    · simp [Atom.Wf] at hw
    · exact fin (pick rnd pl0 digitChars) (by rfl) (Or.inr (Or.inr ⟨rfl, pick_digit hr _⟩))
        fun pl => Or.inr (Or.inr ⟨rfl, dig _ _⟩)
    · exact fin (pick rnd pl0 upperChars) (by rfl) (Or.inr (Or.inl ⟨rfl, pick_upper hr _⟩))
        fun pl => Or.inr (Or.inl ⟨rfl, upp _ _⟩)
    · exact fin (pick rnd pl0 upperChars) (by rfl) (Or.inr (Or.inl ⟨rfl, pick_upper hr _⟩))
        fun pl => Or.inr (Or.inl ⟨rfl, upp _ _⟩)
    · exact fin (pick rnd pl0 lowerChars) (by rfl) (Or.inl ⟨rfl, pick_lower hr _⟩) fun pl => Or.inl ⟨rfl, low _ _⟩
    · exact fin (pick rnd pl0 lowerChars) (by rfl) (Or.inl ⟨rfl, pick_lower hr _⟩) fun pl => Or.inl ⟨rfl, low _ _⟩
    · exact fin (pick rnd pl0 lowerChars) (by rfl) (Or.inl ⟨rfl, pick_lower hr _⟩) fun pl => Or.inl ⟨rfl, low _ _⟩
    · refine fin (pick rnd pl0 alnumChars) (by rfl) ?_ fun pl => ?_
      · have := aln pl0
        simpa [Atom.Holds, Alnum] using this
      · have := alk pl pl0
        simpa [Atom.Holds, Alnum] using this
  | set cs =>
    obtain ⟨hne, hcs⟩ := hw
    have hno : ∀ c ∈ metaChars, c ∉ cs := fun c hm hc => (hcs c hc).1 hm
    obtain ⟨pl0, e⟩ := simple_class (rnd := rnd) place (hno ']' (by decide)) rest acc
    have hdash : ∀ x y, has [x, '-', y] cs = false := by
      intro x y
      rw [Bool.eq_false_iff, ne_eq, has_iff]
      intro h
      exact (hcs '-' (h.subset (by simp))).2 rfl
    cases cs with
    | nil => exact absurd rfl hne
    | cons c cs =>
      have hf : fromClass rnd pl0 (c :: cs) = some c := by
        have h1 : has "a-z".toList (c :: cs) = false := hdash _ _
        have h2 : has "A-Z".toList (c :: cs) = false := hdash _ _
        have h3 : has "0-9".toList (c :: cs) = false := hdash _ _
        simp only [fromClass, h1, h2, h3, Bool.false_eq_true, false_and, if_false, List.head?_cons]
      rw [hf] at e
      refine ⟨c, List.mem_cons_self, fun h pl => ?_, e⟩
      have hc : ¬ Alnum c := h c List.mem_cons_self
      rcases hkin pl c with h' | h' | h' | h'
      · exact absurd (Or.inr (Or.inr h'.1)) hc
      · exact absurd (Or.inr (Or.inl h'.1)) hc
      · exact absurd (Or.inl h'.1) hc
      · rw [h'.2]; exact List.mem_cons_self

theorem parseUsize_digits {n : Nat} (h : n < 2 ^ 64) : parseUsize (digits n) = some n := by
  have hnum : Nat.ofDigitChars 10 (digits n) 0 = n := number_digits n
  have hall : (digits n).all Char.isDigit = true := List.all_eq_true.2 (digits_digits n)
  have hne := digits_ne n
  have e : noPlus (digits n) = digits n := by
    unfold noPlus
    split
    · next ds hd => exact absurd (digits_digits n '+' (by rw [hd]; exact List.mem_cons_self)) (by decide)
    · rfl
  unfold parseUsize
  simp only [e]
  rw [if_pos ⟨hne, hall, by rw [hnum]; exact h⟩, hnum]

theorem parseUsize_comma {m : Nat} (t : Str) : parseUsize (digits m ++ ',' :: t) = none := by
  have e : noPlus (digits m ++ ',' :: t) = digits m ++ ',' :: t := by
    unfold noPlus
    split
    · next ds hd =>
      cases hm : digits m with
      | nil => exact absurd hm (digits_ne m)
      | cons c l =>
        rw [hm] at hd
        have := digits_digits m c (by rw [hm]; exact List.mem_cons_self)
        rw [(List.cons.inj hd).1] at this
        exact absurd this (by decide)
    · rfl
  unfold parseUsize
  simp only [e]
  rw [if_neg]
  rintro ⟨-, h, -⟩
  have := List.all_eq_true.1 h ',' (by simp)
  exact absurd this (by decide)

theorem digits_no {c : Char} (h : c.isDigit = false) (n : Nat) : c ∉ digits n := by
  intro hm
  rw [digits_digits n c hm] at h
  cases h

theorem quantCount_between (place : List Nat) {m n : Nat} (h : m ≤ n) (hn : n < 2 ^ 63) :
    quantCount rnd place (digits m ++ ',' :: digits n) = some (nat rnd place m n) := by
  have hno : ',' ∉ digits m := digits_no (by decide) m
  unfold quantCount
  rw [parseUsize_comma]
  dsimp only
  rw [take_until hno, drop_until hno, parseUsize_digits (by omega), if_pos ⟨by simp, digits_no (by decide) n⟩,
    Option.getD_some, if_pos (by omega), List.tail_cons, parseUsize_digits (by omega), Option.getD_some, if_pos h]

theorem quantCount_atLeast (place : List Nat) {m : Nat} (hm : m < 2 ^ 63) :
    quantCount rnd place (digits m ++ [',']) = some (nat rnd place m (m + 2)) := by
  have hno : ',' ∉ digits m := digits_no (by decide) m
  have h0 : parseUsize [] = none := by decide
  unfold quantCount
  rw [parseUsize_comma]
  dsimp only
  rw [take_until hno, drop_until hno, parseUsize_digits (by omega), if_pos ⟨by simp, by simp⟩,
    Option.getD_some, if_pos (by omega), List.tail_cons, h0, Option.getD_none, if_pos (by omega)]

theorem again_spec (pl : List Nat) (acc : Str) (c : Char) (k : Nat) {a : Atom} (h : ∀ pl, a.Holds (kin rnd pl c)) :
    (again rnd pl (acc ++ [c]) k).length = k ∧ ∀ x ∈ again rnd pl (acc ++ [c]) k, a.Holds x := by
  simp only [again, List.getLast?_append, List.getLast?_singleton, Option.some_or]
  refine ⟨by simp, ?_⟩
  intro x hx
  obtain ⟨j, _, rfl⟩ := List.mem_map.1 hx
  exact h _

/-- What is done for a quantifier. -/
theorem quant_step (hr : rnd.Lawful) (place : List Nat) {a : Atom} {q : Quant} (hq : q.Wf) {c : Char} (hc : a.Holds c)
    (hk : q = .one ∨ q = .opt ∨ ∀ pl, a.Holds (kin rnd pl c)) (rest acc : Str) :
    ∃ s, (∀ x ∈ s, a.Holds x) ∧ q.Allows s.length ∧ (q ≠ .opt → s ≠ []) ∧
      simple rnd place (q.text ++ rest) (acc ++ [c]) = simple rnd place rest (acc ++ s) := by
  -- One character, and some that come again.
  have more : (∀ pl, a.Holds (kin rnd pl c)) → ∀ pl k, (∀ x ∈ c :: again rnd pl (acc ++ [c]) k, a.Holds x) ∧
      (c :: again rnd pl (acc ++ [c]) k).length = k + 1 := by
    intro h pl k
    obtain ⟨h1, h2⟩ := again_spec pl acc c k h
    refine ⟨fun x hx => ?_, by rw [List.length_cons, h1]⟩
    rcases List.mem_cons.1 hx with rfl | hx
    · exact hc
    · exact h2 x hx
  have assoc : ∀ t : Str, acc ++ [c] ++ t = acc ++ c :: t := by simp
  cases q with
  | one => exact ⟨[c], by simpa using hc, rfl, by simp, rfl⟩
  | opt =>
    have e := simple_opt (rnd := rnd) place rest (acc ++ [c])
    by_cases hf : rnd.flip (rest.length :: place) = true
    · refine ⟨[], by simp, by simp [Quant.Allows], by simp, ?_⟩
      rw [if_pos hf, List.dropLast_concat] at e
      simpa [Quant.text] using e
    · refine ⟨[c], by simpa using hc, by simp [Quant.Allows], by simp, ?_⟩
      rwa [if_neg hf] at e
  | times n =>
    have hk' := (hk.resolve_left (by simp)).resolve_left (by simp)
    obtain ⟨pl, e⟩ := simple_quant (rnd := rnd) place (digits_no (c := '}') (by decide) n) rest (acc ++ [c])
    have hcount : quantCount rnd pl (digits n) = some n := by
      unfold quantCount
      rw [parseUsize_digits (by have := hq.2; omega)]
    rw [hcount, Option.bind_some, assoc] at e
    obtain ⟨h1, h2⟩ := more hk' pl (n - 1)
    exact ⟨_, h1, by rw [h2]; have := hq.1; show n - 1 + 1 = n; omega, by simp, e⟩
  | between m n =>
    have hk' := (hk.resolve_left (by simp)).resolve_left (by simp)
    obtain ⟨w1, w2, w3⟩ := hq
    have hno : '}' ∉ digits m ++ ',' :: digits n := by
      simp [digits_no (c := '}') (by decide)]
    obtain ⟨pl, e⟩ := simple_quant (rnd := rnd) place hno rest (acc ++ [c])
    rw [quantCount_between pl w1 w3, Option.bind_some, assoc] at e
    have hb := nat_range hr pl w1
    obtain ⟨h1, h2⟩ := more hk' pl (nat rnd pl m n - 1)
    refine ⟨_, h1, ?_, by simp, ?_⟩
    · rw [h2]
      show m ≤ _ ∧ _ ≤ n
      omega
    · simpa [Quant.text] using e
  | atLeast m =>
    have hk' := (hk.resolve_left (by simp)).resolve_left (by simp)
    have w1 : m < 2 ^ 63 := hq
    have hno : '}' ∉ digits m ++ [','] := by
      simp [digits_no (c := '}') (by decide)]
    obtain ⟨pl, e⟩ := simple_quant (rnd := rnd) place hno rest (acc ++ [c])
    rw [quantCount_atLeast pl w1, Option.bind_some, assoc] at e
    have hb := nat_range hr pl (show m ≤ m + 2 by omega)
    obtain ⟨h1, h2⟩ := more hk' pl (nat rnd pl m (m + 2) - 1)
    refine ⟨_, h1, ?_, by simp, ?_⟩
    · rw [h2]
      show m ≤ _
      omega
    · simpa [Quant.text] using e
  | plus =>
    have hk' := (hk.resolve_left (by simp)).resolve_left (by simp)
    have e := simple_rep (rnd := rnd) place (Or.inl rfl) rest (acc ++ [c])
    rw [assoc] at e
    obtain ⟨h1, h2⟩ := more hk' (rest.length :: place) (nat rnd (rest.length :: place) 0 2)
    exact ⟨_, h1, by rw [h2]; show 1 ≤ _; omega, by simp, e⟩
  | star =>
    have hk' := (hk.resolve_left (by simp)).resolve_left (by simp)
    have e := simple_rep (rnd := rnd) place (Or.inr rfl) rest (acc ++ [c])
    rw [assoc] at e
    obtain ⟨h1, h2⟩ := more hk' (rest.length :: place) (nat rnd (rest.length :: place) 0 2)
    exact ⟨_, h1, trivial, by simp, e⟩

theorem simple_render (hr : rnd.Lawful) (place : List Nat) {ps : List (Atom × Quant)} (hw : ∀ p ∈ ps, p.1.Wf ∧ p.2.Wf)
    (ha : ∀ p ∈ ps, p.2 = .one ∨ p.2 = .opt ∨ Repeatable p.1) (acc : Str) :
    ∃ s, simple rnd place (render ps) acc = some (acc ++ s) ∧ Lang ps s ∧ ((∃ p ∈ ps, p.2 ≠ .opt) → s ≠ []) := by
  induction ps generalizing acc with
  | nil => exact ⟨[], by simp [render, simple], .nil, by simp⟩
  | cons p ps ih =>
    obtain ⟨a, q⟩ := p
    have e : render ((a, q) :: ps) = a.text ++ (q.text ++ render ps) := by simp [render]
    obtain ⟨wa, wq⟩ := hw _ List.mem_cons_self
    obtain ⟨c, h1, h2, h3⟩ := atom_step hr place wa (q.text ++ render ps) acc
    have hk : q = .one ∨ q = .opt ∨ ∀ pl, a.Holds (kin rnd pl c) := by
      rcases ha _ List.mem_cons_self with h | h | h
      · exact Or.inl h
      · exact Or.inr (Or.inl h)
      · exact Or.inr (Or.inr (h2 h))
    obtain ⟨s, s1, s2, s3, s4⟩ := quant_step hr place wq h1 hk (render ps) acc
    obtain ⟨t, t1, t2, t3⟩ := ih (fun p hp => hw p (List.mem_cons_of_mem _ hp)) (fun p hp => ha p (List.mem_cons_of_mem _ hp))
      (acc ++ s)
    refine ⟨s ++ t, by rw [e, h3, s4, t1, List.append_assoc], .cons s1 s2 t2, ?_⟩
    rintro ⟨p, hp, hpo⟩ h0
    rcases List.mem_cons.1 hp with rfl | hp
    · exact s3 hpo (List.append_eq_nil_iff.1 h0).1
    · exact t3 ⟨p, hp, hpo⟩ (List.append_eq_nil_iff.1 h0).2

theorem special_none {p : Str} (h : ∀ s ∈ specials, ¬ s <:+: p) (place : List Nat) : special rnd place p = none := by
  have h' : ∀ s ∈ specials, has s p = false := fun s hs => by
    rw [Bool.eq_false_iff, ne_eq, has_iff]
    exact h s hs
  simp only [specials, List.map_cons, List.map_nil, List.mem_cons, List.not_mem_nil, or_false, forall_eq_or_imp, forall_eq] at h'
  obtain ⟨h1, h2, h3, h4, h5, h6, h7, h8, h9, h10, h11, h12, h13⟩ := h'
  simp only [special, h1, h2, h3, h4, h5, h6, h7, h8, h9, h10, h11, h12, h13, Bool.false_eq_true, or_self, if_false]

theorem fromPattern_anchored (place : List Nat) {p : Str} (h : ∀ s ∈ specials, ¬ s <:+: ('^' :: p ++ ['$'])) :
    fromPattern rnd place ('^' :: p ++ ['$']) = fromPattern rnd place p := by
  have hl : ('^' :: p ++ ['$']).getLast? = some '$' := by rw [List.getLast?_append]; rfl
  conv => lhs; rw [fromPattern, special_none h]
  dsimp only
  rw [if_pos ⟨rfl, hl⟩]
  congr 1
  simp

theorem render_head {ps : List (Atom × Quant)} (hw : ∀ p ∈ ps, p.1.Wf ∧ p.2.Wf) : (render ps).head? ≠ some '^' := by
  cases ps with
  | nil => simp [render]
  | cons p ps =>
    obtain ⟨a, q⟩ := p
    have hwa := (hw _ List.mem_cons_self).1
    cases a with
    | chr c =>
      have hc : c ∉ metaChars := hwa
      have hm : '^' ∈ metaChars := by decide
      simp only [render, List.flatMap_cons, Atom.text, List.cons_append, List.head?_cons]
      intro e
      cases e
      exact hc hm
    | _ => simp [render, Atom.text]

theorem padded_block (hr : rnd.Lawful) (place : List Nat) {w lo hi : Nat} (h : lo ≤ hi) (hw : 0 < w) (hh : hi < 10 ^ w) :
    (∀ c ∈ padded rnd place w lo hi, Atom.digit.Holds c) ∧ (padded rnd place w lo hi).length = w := by
  refine ⟨digits_pad _ _, ?_⟩
  rw [padded, length_pad]
  have hb := nat_range hr place h
  have : (digits (nat rnd place lo hi)).length ≤ w := (Nat.length_toDigits_le_iff (by omega) hw).2 (by omega)
  exact Nat.max_eq_left this

theorem plain_block (hr : rnd.Lawful) (place : List Nat) {w lo hi : Nat} (h : lo ≤ hi) (hw : 0 < w) (hh : hi < 10 ^ w) :
    (∀ c ∈ plainNum rnd place lo hi, Atom.digit.Holds c) ∧
      1 ≤ (plainNum rnd place lo hi).length ∧ (plainNum rnd place lo hi).length ≤ w := by
  have hb := nat_range hr place h
  refine ⟨digits_digits _, List.length_pos_iff.2 (digits_ne _), ?_⟩
  exact (Nat.length_toDigits_le_iff (by omega) hw).2 (by omega)

theorem picks_block (hr : rnd.Lawful) (place : List Nat) {l : Str} (hl : l ≠ []) (k : Nat) :
    (∀ c ∈ picks rnd place l k, c ∈ l) ∧ (picks rnd place l k).length = k := by
  refine ⟨fun c hc => ?_, by simp [picks]⟩
  obtain ⟨j, _, rfl⟩ := List.mem_map.1 hc
  exact pick_mem hr _ hl

theorem lang_one {a : Atom} {c : Char} {ps : List (Atom × Quant)} {t : Str} (h : a.Holds c) (ht : Lang ps t) :
    Lang ((a, .one) :: ps) (c :: t) :=
  .cons (s := [c]) (by simpa using h) rfl ht

theorem lang_end {a : Atom} {q : Quant} {s : Str} (h : ∀ c ∈ s, a.Holds c) (hq : q.Allows s.length) : Lang [(a, q)] s := by
  have := Lang.cons h hq .nil
  simpa using this

/-! ## C135 -/

/-- Digits, some times. -/
def ds (n : Nat) : Atom × Quant := (.digit, .times n)
/-- A character. -/
def ch (c : Char) : Atom × Quant := (.chr c, .one)
/-- An escaped character. -/
def ec (c : Char) : Atom × Quant := (.esc c, .one)
/-- One to three digits. -/
def ds13 : Atom × Quant := (.digit, .between 1 3)
/-- Capital letters. -/
def caps (q : Quant) : Atom × Quant := (.cls false true false, q)

/-- The patterns that are looked for, as far as they have atoms as above. -/
def whole : List (List (Atom × Quant)) :=
  [[ec '+', ch '1', ch '-', ds 3, ch '-', ds 3, ch '-', ds 4], [ec '+', ch '1', ec '-', ds 3, ec '-', ds 3, ec '-', ds 4],
    [ds 3, ch '-', ds 3, ch '-', ds 4], [ds 3, ec '-', ds 3, ec '-', ds 4], [caps (.between 2 3), (.digit, .between 4 6)],
    [ds 4, ch '-', ds 2, ch '-', ds 2], [ds13, ec '.', ds13, ec '.', ds13, ec '.', ds13], [caps (.times 3), ds 3],
    [ds 3, ch '-', ds 2, ch '-', ds 4]]

/-- **C135** (partial). For regular expressions that are sequences of atoms with quantifiers, with or without anchors, the text
that is made is a text of the regular expression, for all random numbers: if letters and digits that stand for themselves are
not repeated, no number is zero, not all parts are optional, and none of the patterns that are looked for is in it.

Missing: alternatives and groups (`C135_alternative_refuted`, `C135_group_refuted`), classes that are negated
(`C135_negated_refuted`), letters that are repeated (`C135_repeated_refuted`), `{0}` (`C135_zero_refuted`), patterns that may
be empty (`C135_empty_refuted`), and patterns in which one of those that are looked for is found (`C135_inside_refuted`,
`C135_at_refuted`). -/
theorem C135_pattern_partial (hr : rnd.Lawful) (place : List Nat) (b : Bool) (ps : List (Atom × Quant)) (hf : Fine ps)
    (hs : ∀ s ∈ specials, ¬ s <:+: anchored b (render ps)) :
    ∃ s, fromPattern rnd place (anchored b (render ps)) = some s ∧ Lang ps s := by
  obtain ⟨s, h1, h2, h3⟩ := simple_render hr place hf.wf hf.again []
  have hne := h3 hf.some
  have key : (∀ s ∈ specials, ¬ s <:+: render ps) → fromPattern rnd place (render ps) = some s := by
    intro hs
    rw [fromPattern, special_none hs]
    dsimp only
    rw [if_neg (fun h => render_head hf.wf h.1), generic, h1, List.nil_append, Option.map_some, if_neg hne]
  refine ⟨s, ?_, h2⟩
  cases b with
  | false => exact key hs
  | true =>
    refine (fromPattern_anchored place hs).trans (key fun s' h' hi => hs s' h' (hi.trans ?_))
    exact ⟨['^'], ['$'], rfl⟩

/-- **C135**, for patterns that are looked for and are the whole regular expression, with or without anchors: phone numbers,
identifiers, dates, addresses and plates are texts of it. -/
theorem C135_whole (hr : rnd.Lawful) (place : List Nat) (b : Bool) (ps : List (Atom × Quant)) (h : ps ∈ whole) :
    ∃ s, fromPattern rnd place (anchored b (render ps)) = some s ∧ Lang ps s := by
  have fin : ∀ s, special rnd place (anchored b (render ps)) = some s → Lang ps s →
      ∃ s, fromPattern rnd place (anchored b (render ps)) = some s ∧ Lang ps s := by
    intro s h1 h2
    refine ⟨s, ?_, h2⟩
    rw [fromPattern, h1]
  have p3 := fun i => padded_block hr (i :: place) (w := 3) (lo := 100) (hi := 998) (by omega) (by omega) (by omega)
  have p4 := fun i => padded_block hr (i :: place) (w := 4) (lo := 1000) (hi := 9998) (by omega) (by omega) (by omega)
  have m : ∀ {a : Atom} {n : Nat} {s t : Str} {ps}, (∀ c ∈ s, a.Holds c) ∧ s.length = n → Lang ps t →
      Lang ((a, .times n) :: ps) (s ++ t) := fun h ht => .cons h.1 h.2 ht
  simp only [whole, List.mem_cons, List.not_mem_nil, or_false] at h
  rcases h with rfl | rfl | rfl | rfl | rfl | rfl | rfl | rfl | rfl
  · refine fin ('+' :: '1' :: '-' :: padded rnd (0 :: place) 3 100 998 ++ '-' :: padded rnd (1 :: place) 3 100 998 ++
      '-' :: padded rnd (2 :: place) 4 1000 9998) ?_ ?_
    · rw [special, if_pos (by cases b <;> decide +kernel)]
    · simp only [List.append_assoc, List.cons_append]
      exact lang_one rfl (lang_one rfl (lang_one rfl (m (p3 0) (lang_one rfl (m (p3 1) (lang_one rfl
        (lang_end (p4 2).1 (p4 2).2)))))))
  · refine fin ('+' :: '1' :: '-' :: padded rnd (0 :: place) 3 100 998 ++ '-' :: padded rnd (1 :: place) 3 100 998 ++
      '-' :: padded rnd (2 :: place) 4 1000 9998) ?_ ?_
    · rw [special, if_pos (by cases b <;> decide +kernel)]
    · simp only [List.append_assoc, List.cons_append]
      exact lang_one rfl (lang_one rfl (lang_one rfl (m (p3 0) (lang_one rfl (m (p3 1) (lang_one rfl
        (lang_end (p4 2).1 (p4 2).2)))))))
  · refine fin (padded rnd (0 :: place) 3 100 998 ++ '-' :: padded rnd (1 :: place) 3 100 998 ++
      '-' :: padded rnd (2 :: place) 4 1000 9998) ?_ ?_
    · rw [special, if_neg (by cases b <;> decide +kernel), if_pos (by cases b <;> decide +kernel)]
    · simp only [List.append_assoc, List.cons_append]
      exact m (p3 0) (lang_one rfl (m (p3 1) (lang_one rfl (lang_end (p4 2).1 (p4 2).2))))
  · refine fin (padded rnd (0 :: place) 3 100 998 ++ '-' :: padded rnd (1 :: place) 3 100 998 ++
      '-' :: padded rnd (2 :: place) 4 1000 9998) ?_ ?_
    · rw [special, if_neg (by cases b <;> decide +kernel), if_pos (by cases b <;> decide +kernel)]
    · simp only [List.append_assoc, List.cons_append]
      exact m (p3 0) (lang_one rfl (m (p3 1) (lang_one rfl (lang_end (p4 2).1 (p4 2).2))))
  · refine fin (picks rnd (0 :: place) upperChars (nat rnd (1 :: place) 2 3) ++
      picks rnd (2 :: place) digitChars (nat rnd (3 :: place) 4 6)) ?_ ?_
    · rw [special, if_neg (by cases b <;> decide +kernel), if_neg (by cases b <;> decide +kernel),
        if_neg (by cases b <;> decide +kernel), if_pos (by cases b <;> decide +kernel)]
    · obtain ⟨u1, u2⟩ := picks_block hr (0 :: place) (l := upperChars) (by decide) (nat rnd (1 :: place) 2 3)
      obtain ⟨d1, d2⟩ := picks_block hr (2 :: place) (l := digitChars) (by decide) (nat rnd (3 :: place) 4 6)
      refine .cons (fun c hc => Or.inr (Or.inl ⟨rfl, upperChars_upper c (u1 c hc)⟩)) ?_
        (lang_end (fun c hc => digitChars_digit c (d1 c hc)) ?_)
      · rw [u2]; exact nat_range hr _ (by omega)
      · rw [d2]; exact nat_range hr _ (by omega)
  · refine fin (padded rnd (0 :: place) 4 1980 2024 ++ '-' :: padded rnd (1 :: place) 2 1 12 ++
      '-' :: padded rnd (2 :: place) 2 1 28) ?_ ?_
    · rw [special, if_neg (by cases b <;> decide +kernel), if_neg (by cases b <;> decide +kernel),
        if_neg (by cases b <;> decide +kernel), if_neg (by cases b <;> decide +kernel), if_pos (by cases b <;> decide +kernel)]
    · simp only [List.append_assoc, List.cons_append]
      have h3 := padded_block hr (2 :: place) (w := 2) (lo := 1) (hi := 28) (by omega) (by omega) (by omega)
      exact m (padded_block hr _ (by omega) (by omega) (by omega)) (lang_one rfl
        (m (padded_block hr _ (by omega) (by omega) (by omega)) (lang_one rfl (lang_end h3.1 h3.2))))
  · refine fin (plainNum rnd (0 :: place) 1 254 ++ '.' :: plainNum rnd (1 :: place) 0 254 ++ '.' ::
      plainNum rnd (2 :: place) 0 254 ++ '.' :: plainNum rnd (3 :: place) 1 254) ?_ ?_
    · rw [special, if_neg (by cases b <;> decide +kernel), if_neg (by cases b <;> decide +kernel),
        if_neg (by cases b <;> decide +kernel), if_neg (by cases b <;> decide +kernel), if_neg (by cases b <;> decide +kernel),
        if_pos (by cases b <;> decide +kernel)]
    · simp only [List.append_assoc, List.cons_append]
      have q0 := plain_block hr (0 :: place) (w := 3) (lo := 1) (hi := 254) (by omega) (by omega) (by omega)
      have q1 := plain_block hr (1 :: place) (w := 3) (lo := 0) (hi := 254) (by omega) (by omega) (by omega)
      have q2 := plain_block hr (2 :: place) (w := 3) (lo := 0) (hi := 254) (by omega) (by omega) (by omega)
      have q3 := plain_block hr (3 :: place) (w := 3) (lo := 1) (hi := 254) (by omega) (by omega) (by omega)
      exact .cons q0.1 q0.2 (lang_one rfl (.cons q1.1 q1.2 (lang_one rfl (.cons q2.1 q2.2 (lang_one rfl
        (lang_end q3.1 q3.2))))))
  · refine fin (picks rnd (0 :: place) upperChars 3 ++ picks rnd (1 :: place) digitChars 3) ?_ ?_
    · rw [special, if_neg (by cases b <;> decide +kernel), if_neg (by cases b <;> decide +kernel),
        if_neg (by cases b <;> decide +kernel), if_neg (by cases b <;> decide +kernel), if_neg (by cases b <;> decide +kernel),
        if_neg (by cases b <;> decide +kernel), if_neg (by cases b <;> decide +kernel), if_neg (by cases b <;> decide +kernel),
        if_pos (by cases b <;> decide +kernel)]
    · obtain ⟨u1, u2⟩ := picks_block hr (0 :: place) (l := upperChars) (by decide) 3
      obtain ⟨d1, d2⟩ := picks_block hr (1 :: place) (l := digitChars) (by decide) 3
      exact .cons (fun c hc => Or.inr (Or.inl ⟨rfl, upperChars_upper c (u1 c hc)⟩)) u2
        (lang_end (fun c hc => digitChars_digit c (d1 c hc)) d2)
  · refine fin (padded rnd (0 :: place) 3 100 998 ++ '-' :: padded rnd (1 :: place) 2 10 98 ++
      '-' :: padded rnd (2 :: place) 4 1000 9998) ?_ ?_
    · rw [special, if_neg (by cases b <;> decide +kernel), if_neg (by cases b <;> decide +kernel),
        if_neg (by cases b <;> decide +kernel), if_neg (by cases b <;> decide +kernel), if_neg (by cases b <;> decide +kernel),
        if_neg (by cases b <;> decide +kernel), if_neg (by cases b <;> decide +kernel), if_neg (by cases b <;> decide +kernel),
        if_neg (by cases b <;> decide +kernel), if_pos (by cases b <;> decide +kernel)]
    · simp only [List.append_assoc, List.cons_append]
      exact m (p3 0) (lang_one rfl (m (padded_block hr _ (by omega) (by omega) (by omega)) (lang_one rfl
        (lang_end (p4 2).1 (p4 2).2))))

/-- The digits of colours. -/
def colourDigits : Str := ['0', '1', '2', '3', '4', '5', '6', '7', '8', '9', 'A', 'B', 'C', 'D', 'E', 'F']

theorem toDigits_hex (n : Nat) : ∀ c ∈ Nat.toDigits 16 n, c.toUpper ∈ colourDigits := by
  induction n using Nat.strong_induction_on with
  | _ n ih =>
    have key : ∀ m < 16, (Nat.digitChar m).toUpper ∈ colourDigits := by decide
    rcases Nat.lt_or_ge n 16 with h | h
    · rw [Nat.toDigits_of_lt_base h]
      intro c hc
      rw [List.mem_singleton.1 hc]
      exact key n h
    · rw [Nat.toDigits_of_base_le (by omega) h]
      intro c hc
      rcases List.mem_append.1 hc with hc | hc
      · exact ih (n / 16) (by omega) c hc
      · rw [List.mem_singleton.1 hc]
        exact key _ (by omega)

theorem hex6_block {n : Nat} (h : n ≤ 0xFFFFFF) : (hex6 n).length = 6 ∧ ∀ c ∈ hex6 n, c ∈ colourDigits := by
  have hl : (Nat.toDigits 16 n).length ≤ 6 := (Nat.length_toDigits_le_iff (by omega) (by omega)).2 (by omega)
  constructor
  · simp only [hex6, List.length_append, List.length_replicate, List.length_map]
    omega
  · intro c hc
    rcases List.mem_append.1 hc with hc | hc
    · rw [List.eq_of_mem_replicate hc]
      decide
    · obtain ⟨d, hd, rfl⟩ := List.mem_map.1 hc
      exact toDigits_hex n d hd

/-- **C135**, for colours, with or without anchors: the text is `#` and six digits from `0` to `9` and `A` to `F`, so it is a
text of both regular expressions that are looked for. -/
theorem C135_colour (hr : rnd.Lawful) (place : List Nat) (b : Bool) (p : Str)
    (hp : p = "#[0-9A-Fa-f]{6}".toList ∨ p = "#[0-9A-F]{6}".toList) :
    ∃ ds, fromPattern rnd place (anchored b p) = some ('#' :: ds) ∧ ds.length = 6 ∧ ∀ c ∈ ds, c ∈ colourDigits := by
  have hn := nat_range hr (0 :: place) (lo := 0) (hi := 0xFFFFFF) (by omega)
  refine ⟨hex6 (nat rnd (0 :: place) 0 0xFFFFFF), ?_, hex6_block hn.2⟩
  have h1 : special rnd place (anchored b p) = some ('#' :: hex6 (nat rnd (0 :: place) 0 0xFFFFFF)) := by
    rcases hp with rfl | rfl <;>
      rw [special, if_neg (by cases b <;> decide +kernel), if_neg (by cases b <;> decide +kernel),
        if_neg (by cases b <;> decide +kernel), if_neg (by cases b <;> decide +kernel), if_neg (by cases b <;> decide +kernel),
        if_neg (by cases b <;> decide +kernel), if_neg (by cases b <;> decide +kernel), if_pos (by cases b <;> decide +kernel)]
  rw [fromPattern, h1]

/-- **C135** is false of the code for alternatives: both are in the text. -/
theorem C135_alternative_refuted (place : List Nat) : fromPattern rnd place "^(x|y)$".toList = some ['x', 'y'] := by
  have hs : ∀ s ∈ specials, ¬ s <:+: ('^' :: "(x|y)".toList ++ ['$']) := by decide +kernel
  have h0 : special rnd place "(x|y)".toList = none := special_none (by decide +kernel) place
  have e : "^(x|y)$".toList = '^' :: "(x|y)".toList ++ ['$'] := by decide
  rw [e, fromPattern_anchored place hs, fromPattern, h0]
  have h1 : simple rnd place ['(', 'x', '|', 'y', ')'] [] = some ['x', 'y'] := by
    rw [simple_skip place (by decide), simple_chr place (by decide), simple_skip place (by decide), simple_chr place (by decide),
      simple_skip place (by decide), simple]
    rfl
  exact congrArg (Option.map _) h1

/-- **C135** is false of the code for groups that are repeated: only the last character is. -/
theorem C135_group_refuted (place : List Nat) :
    ∃ c, fromPattern rnd place "^(ab){2}$".toList = some ['a', 'b', c] := by
  have hs : ∀ s ∈ specials, ¬ s <:+: ('^' :: "(ab){2}".toList ++ ['$']) := by decide +kernel
  have h0 : special rnd place "(ab){2}".toList = none := special_none (by decide +kernel) place
  have e : "^(ab){2}$".toList = '^' :: "(ab){2}".toList ++ ['$'] := by decide
  have h2 : parseUsize ['2'] = some 2 := by decide
  rw [e, fromPattern_anchored place hs, fromPattern, h0]
  obtain ⟨pl, h1⟩ := simple_quant (rnd := rnd) place (q := ['2']) (by decide) [] ['a', 'b']
  rw [quantCount, h2] at h1
  have h3 : simple rnd place ['(', 'a', 'b', ')', '{', '2', '}'] [] = some ['a', 'b', kin rnd (0 :: pl) 'b'] := by
    rw [simple_skip place (by decide), simple_chr place (by decide), simple_chr place (by decide),
      simple_skip place (by decide)]
    refine h1.trans ?_
    rw [Option.bind_some, simple]
    rfl
  exact ⟨_, congrArg (Option.map _) h3⟩

/-- **C135** is false of the code for classes that are negated: the text for `[^a-z]` is a small letter. -/
theorem C135_negated_refuted (hr : rnd.Lawful) (place : List Nat) :
    ∃ c, c.isLower = true ∧ fromPattern rnd place "^[^a-z]$".toList = some [c] := by
  have hs : ∀ s ∈ specials, ¬ s <:+: ('^' :: "[^a-z]".toList ++ ['$']) := by decide +kernel
  have h0 : special rnd place "[^a-z]".toList = none := special_none (by decide +kernel) place
  have e : "^[^a-z]$".toList = '^' :: "[^a-z]".toList ++ ['$'] := by decide
  rw [e, fromPattern_anchored place hs, fromPattern, h0]
  obtain ⟨pl, h1⟩ := simple_class (rnd := rnd) place (cls := ['^', 'a', '-', 'z']) (by decide) [] []
  have h2 : fromClass rnd pl ['^', 'a', '-', 'z'] = some (pick rnd pl lowerChars) := rfl
  rw [h2, simple] at h1
  exact ⟨_, pick_lower hr pl, congrArg (Option.map _) h1⟩

/-- The greatest of each range. -/
def maxRnd : Rnd := ⟨fun _ _ hi => hi, fun _ => true⟩

/-- **C135** is false of the code for letters that are repeated: `aa` is the only text of `a{2}`, and there may be `az`. -/
theorem C135_repeated_refuted (place : List Nat) :
    render [(.chr 'a', .times 2)] = "a{2}".toList ∧ fromPattern maxRnd place "^a{2}$".toList = some ['a', 'z'] ∧
    ¬ Lang [(.chr 'a', .times 2)] ['a', 'z'] := by
  refine ⟨by decide +kernel, ?_, ?_⟩
  · have hs : ∀ s ∈ specials, ¬ s <:+: ('^' :: "a{2}".toList ++ ['$']) := by decide +kernel
    have h0 : special maxRnd place "a{2}".toList = none := special_none (by decide +kernel) place
    have e : "^a{2}$".toList = '^' :: "a{2}".toList ++ ['$'] := by decide
    have h2 : parseUsize ['2'] = some 2 := by decide
    rw [e, fromPattern_anchored place hs, fromPattern, h0]
    obtain ⟨pl, h1⟩ := simple_quant (rnd := maxRnd) place (q := ['2']) (by decide) [] ['a']
    rw [quantCount, h2] at h1
    have h3 : simple maxRnd place ['a', '{', '2', '}'] [] = some ['a', 'z'] := by
      rw [simple_chr place (by decide)]
      refine h1.trans ?_
      rw [Option.bind_some, simple]
      rfl
    exact congrArg (Option.map _) h3
  · intro h
    generalize ht : ['a', 'z'] = t at h
    cases h with
    | @cons _ _ _ s t' h1 _ h3 =>
      cases h3
      rw [List.append_nil] at ht
      have := h1 'z' (by rw [← ht]; simp)
      exact absurd this (by simp [Atom.Holds])

/-- **C135** is false of the code for `{0}`: the character is there. -/
theorem C135_zero_refuted (place : List Nat) :
    render [ch 'a', (.chr 'b', .times 0)] = "ab{0}".toList ∧ fromPattern rnd place "^ab{0}$".toList = some ['a', 'b'] := by
  refine ⟨by decide +kernel, ?_⟩
  have hs : ∀ s ∈ specials, ¬ s <:+: ('^' :: "ab{0}".toList ++ ['$']) := by decide +kernel
  have h0 : special rnd place "ab{0}".toList = none := special_none (by decide +kernel) place
  have e : "^ab{0}$".toList = '^' :: "ab{0}".toList ++ ['$'] := by decide
  have h2 : parseUsize ['0'] = some 0 := by decide
  rw [e, fromPattern_anchored place hs, fromPattern, h0]
  obtain ⟨pl, h1⟩ := simple_quant (rnd := rnd) place (q := ['0']) (by decide) [] ['a', 'b']
  rw [quantCount, h2] at h1
  have h3 : simple rnd place ['a', 'b', '{', '0', '}'] [] = some ['a', 'b'] := by
    rw [simple_chr place (by decide), simple_chr place (by decide)]
    refine h1.trans ?_
    rw [Option.bind_some, simple]
    rfl
  exact congrArg (Option.map _) h3

/-- **C135** is false of the code for patterns that may be empty: the text for `^-?$` may be `PATTERN_MATCH_9998`. -/
theorem C135_empty_refuted (place : List Nat) :
    render [(.chr '-', .opt)] = "-?".toList ∧ fromPattern maxRnd place "^-?$".toList = some "PATTERN_MATCH_9998".toList := by
  refine ⟨by decide, ?_⟩
  have hs : ∀ s ∈ specials, ¬ s <:+: ('^' :: "-?".toList ++ ['$']) := by decide +kernel
  have h0 : special maxRnd place "-?".toList = none := special_none (by decide +kernel) place
  have e : "^-?$".toList = '^' :: "-?".toList ++ ['$'] := by decide
  rw [e, fromPattern_anchored place hs, fromPattern, h0]
  have h3 : simple maxRnd place ['-', '?'] [] = some [] := by
    rw [simple_chr place (by decide), simple_opt, simple]
    rfl
  have h4 : "PATTERN_MATCH_".toList ++ digits 9998 = "PATTERN_MATCH_9998".toList := by decide +kernel
  refine (congrArg (Option.map _) h3).trans ?_
  rw [Option.map_some, if_pos rfl]
  exact congrArg some h4

/-- **C135** is false of the code for patterns that are looked for and are not the whole regular expression: what stands
before is lost. -/
theorem C135_inside_refuted (hr : rnd.Lawful) (place : List Nat) :
    let ps := [ch 'T', ch ':', ds 3, ch '-', ds 3, ch '-', ds 4]
    render ps = "T:\\d{3}-\\d{3}-\\d{4}".toList ∧
    ∃ s, fromPattern rnd place (anchored true (render ps)) = some s ∧ ¬ Lang ps s := by
  refine ⟨by decide +kernel, ?_⟩
  refine ⟨padded rnd (0 :: place) 3 100 998 ++ '-' :: padded rnd (1 :: place) 3 100 998 ++
      '-' :: padded rnd (2 :: place) 4 1000 9998, ?_, ?_⟩
  · rw [fromPattern, special, if_neg (by decide +kernel), if_pos (by decide +kernel)]
  · intro h
    have p3 := padded_block hr (0 :: place) (w := 3) (lo := 100) (hi := 998) (by omega) (by omega) (by omega)
    cases hp : padded rnd (0 :: place) 3 100 998 with
    | nil => rw [hp] at p3; exact absurd p3.2 (by decide)
    | cons c l =>
      rw [hp] at h p3
      have hc : c.isDigit = true := p3.1 c List.mem_cons_self
      generalize ht : c :: l ++ '-' :: padded rnd (1 :: place) 3 100 998 ++ '-' :: padded rnd (2 :: place) 4 1000 9998 = t at h
      cases h with
      | @cons _ _ _ s t' h1 h2 h3 =>
        have h2' : s.length = 1 := h2
        cases s with
        | nil => cases h2'
        | cons d s =>
          have hd : d = 'T' := h1 d List.mem_cons_self
          have : c = d := by
            simp only [List.cons_append] at ht
            exact (List.cons.inj ht).1
          rw [this, hd] at hc
          exact absurd hc (by decide)

/-- **C135** is false of the code for patterns with `@`: the text for `^@$` is never `@`. -/
theorem C135_at_refuted (place : List Nat) : ∃ s, fromPattern rnd place "^@$".toList = some s ∧ s ≠ ['@'] := by
  refine ⟨oneOf rnd (0 :: place) (["user", "admin", "test", "demo", "john.doe", "jane.smith"].map String.toList) ++
      plainNum rnd (1 :: place) 1 99 ++
      '@' :: oneOf rnd (2 :: place) (["example.com", "test.org", "sample.edu", "demo.net"].map String.toList), ?_, ?_⟩
  · rw [fromPattern, special, if_neg (by decide +kernel), if_neg (by decide +kernel), if_pos (by decide +kernel)]
  · intro h
    have hl := congrArg List.length h
    have hne : 0 < (plainNum rnd (1 :: place) 1 99).length := List.length_pos_iff.2 (digits_ne _)
    rw [List.length_append, List.length_append, List.length_cons, List.length_singleton] at hl
    omega

/-! ## Examples -/

/-- A regular expression with all kinds of atoms and quantifiers. -/
example : let ps := [(.cls true true false, .plus), (.space, .opt), (.digit, .between 2 4), (.chr '/', .star), (.esc '.', .times 2),
      (.set ['x', 'y'], .one), (.word, .atLeast 3), (.dot, .one)]
    Fine ps ∧ render ps = "[a-zA-Z]+\\s?\\d{2,4}/*\\.{2}[xy]\\w{3,}.".toList ∧ ∀ s ∈ specials, ¬ s <:+: anchored true (render ps) := by
  refine ⟨⟨?_, ?_, ?_⟩, by decide +kernel, by decide +kernel⟩
  · have h1 : '/' ∉ metaChars := by decide
    have h2 : 'x' ∉ metaChars := by decide
    have h3 : 'y' ∉ metaChars := by decide
    simp [Atom.Wf, Quant.Wf, h1, h2, h3, Alnum]
  · simp [Repeatable, Alnum]
  · exact ⟨_, List.mem_cons_self, by simp⟩

/-- Random numbers for which a colour is made: the digits are padded. -/
example : hex6 0xAB = "0000AB".toList ∧ anchored true "#[0-9A-F]{6}".toList = "^#[0-9A-F]{6}$".toList := by decide +kernel

end Gen
