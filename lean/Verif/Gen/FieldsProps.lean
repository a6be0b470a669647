import Verif.Gen.Fields
import Verif.Gen.Lemmas
import Verif.Gen.MetricsProps

/-!
# Properties: texts of values (C134)
-/

namespace Gen
variable {F : Type}

/-! ## Specification -/

/-- Digits. -/
def Digits (s : Str) : Prop := ∀ c ∈ s, c.isDigit = true

/-- The number that digits stand for. -/
def number (s : Str) : Nat := Nat.ofDigitChars 10 s 0

/-- A text of `xsd:integer`, and its number. -/
inductive IntegerText : Str → Int → Prop
  | plain {ds} : ds ≠ [] → Digits ds → IntegerText ds (number ds)
  | plus {ds} : ds ≠ [] → Digits ds → IntegerText ('+' :: ds) (number ds)
  | minus {ds} : ds ≠ [] → Digits ds → IntegerText ('-' :: ds) (-(number ds))

/-- Two digits between two numbers. -/
def Two (s : Str) (lo hi : Nat) : Prop := s.length = 2 ∧ Digits s ∧ lo ≤ number s ∧ number s ≤ hi

/-- The days of a month. -/
def daysIn (year month : Nat) : Nat :=
  if month = 2 then (if year % 4 = 0 ∧ (year % 100 ≠ 0 ∨ year % 400 = 0) then 29 else 28)
  else if month ∈ [4, 6, 9, 11] then 30 else 31

/-- A text of `xsd:date`, without a sign and a time zone: a year of four digits, or of more if the first is not 0. -/
def DateText (s : Str) : Prop :=
  ∃ y m d, s = y ++ '-' :: m ++ '-' :: d ∧ Digits y ∧ 4 ≤ y.length ∧ (4 < y.length → y.head? ≠ some '0') ∧ Two m 1 12 ∧
    Two d 1 (daysIn (number y) (number m))

/-- A text of `xsd:dateTime` in UTC. -/
def DateTimeText (s : Str) : Prop :=
  ∃ d h m sec, s = d ++ 'T' :: h ++ ':' :: m ++ ':' :: sec ++ ['Z'] ∧ DateText d ∧ Two h 0 23 ∧ Two m 0 59 ∧ Two sec 0 59

/-- Bounds from below. -/
def UConstraint.Lower : UConstraint → Prop
  | .minInclusive _ => True
  | .minExclusive _ => True
  | _ => False

/-- Bounds from above. -/
def UConstraint.Upper : UConstraint → Prop
  | .maxInclusive _ => True
  | .maxExclusive _ => True
  | _ => False

/-- The value of a bound is an integer, for which 32 bits are enough. -/
inductive Bounded : UValue → Int → Prop
  | mk {v dt b} : IntegerText v b → -2 ^ 31 < b → b < 2 ^ 31 - 1 → Bounded (.lit v dt) b

/-- A number is within a bound. -/
def InBound (i : Int) : UConstraint → Prop
  | .minInclusive v => ∀ b, Bounded v b → b ≤ i
  | .minExclusive v => ∀ b, Bounded v b → b < i
  | .maxInclusive v => ∀ b, Bounded v b → i ≤ b
  | .maxExclusive v => ∀ b, Bounded v b → i < b
  | _ => True

/-! ## Lemmas -/

theorem parseI64_text {v : Str} {b : Int} (h : IntegerText v b) (h1 : -2 ^ 63 ≤ b) (h2 : b < 2 ^ 63) : parseI64 v = some b := by
  have hall : ∀ {ds : Str}, Digits ds → ds.all Char.isDigit = true := fun hd => List.all_eq_true.2 hd
  cases h with
  | @plain ds hne hd =>
    cases v with
    | nil => exact absurd rfl hne
    | cons c ds =>
      have hc := hd c List.mem_cons_self
      have e1 : c ≠ '-' := by rintro rfl; exact absurd hc (by decide)
      have e2 : c ≠ '+' := by rintro rfl; exact absurd hc (by decide)
      have h3 : -2 ^ 63 ≤ (number (c :: ds) : Int) ∧ (number (c :: ds) : Int) < 2 ^ 63 := ⟨h1, h2⟩
      unfold parseI64
      split
      · next e => exact absurd (List.cons.inj e).1 e1
      · next e => exact absurd (List.cons.inj e).1 e2
      · simp only [if_pos (And.intro hne (hall hd)), Bool.false_eq_true, if_false]
        exact if_pos h3
  | @plus ds hne hd =>
    have h3 : -2 ^ 63 ≤ (number ds : Int) ∧ (number ds : Int) < 2 ^ 63 := ⟨h1, h2⟩
    simp only [parseI64, if_pos (And.intro hne (hall hd)), Bool.false_eq_true, if_false]
    exact if_pos h3
  | @minus ds hne hd =>
    have h3 : -2 ^ 63 ≤ -(number ds : Int) ∧ -(number ds : Int) < 2 ^ 63 := ⟨h1, h2⟩
    simp only [parseI64, if_pos (And.intro hne (hall hd)), if_true]
    exact if_pos h3

theorem wrap32_id {b : Int} (h1 : -2 ^ 31 ≤ b) (h2 : b < 2 ^ 31) : wrap32 b = b := by
  unfold wrap32
  omega

theorem toParams_last (P : Floats F) {pre post : List UConstraint} {c : UConstraint} {ps : Params F}
    (h : toParams P (pre ++ c :: post) = some ps) :
    ∃ a b, paramStep P a c = some b ∧ ((∀ c' ∈ post, ¬ c'.Lower) → ps.min = b.min) ∧
      ((∀ c' ∈ post, ¬ c'.Upper) → ps.max = b.max) := by
  have key : ∀ (cs : List UConstraint) (a b : Params F), cs.foldlM (paramStep P) a = some b →
      ((∀ c' ∈ cs, ¬ c'.Lower) → b.min = a.min) ∧ ((∀ c' ∈ cs, ¬ c'.Upper) → b.max = a.max) := by
    intro cs
    induction cs with
    | nil => intro a b h; cases h; exact ⟨fun _ => rfl, fun _ => rfl⟩
    | cons c cs ih =>
      intro a b h
      rw [List.foldlM_cons] at h
      obtain ⟨a', ha, h⟩ := Option.bind_eq_some_iff.1 h
      obtain ⟨i1, i2⟩ := ih a' b h
      have hstep : (¬ c.Lower → a'.min = a.min) ∧ (¬ c.Upper → a'.max = a.max) := by
        unfold paramStep at ha
        split at ha
        case h_5 => cases ha; exact ⟨fun _ => rfl, fun _ => rfl⟩
        case h_6 => cases ha; exact ⟨fun _ => rfl, fun _ => rfl⟩
        all_goals
          obtain ⟨x, _, rfl⟩ := Option.map_eq_some_iff.1 ha
          simp [UConstraint.Lower, UConstraint.Upper]
      refine ⟨fun hl => ?_, fun hu => ?_⟩
      · rw [i1 fun c' h' => hl c' (List.mem_cons_of_mem _ h'), hstep.1 (hl c List.mem_cons_self)]
      · rw [i2 fun c' h' => hu c' (List.mem_cons_of_mem _ h'), hstep.2 (hu c List.mem_cons_self)]
  rw [toParams, List.foldlM_append] at h
  obtain ⟨a, _, h⟩ := Option.bind_eq_some_iff.1 h
  rw [List.foldlM_cons] at h
  obtain ⟨b, hb, h⟩ := Option.bind_eq_some_iff.1 h
  exact ⟨a, b, hb, key post b ps h⟩

theorem step_bound (P : Floats F) {a b : Params F} {c : UConstraint} (h : paramStep P a c = some b) :
    (∀ v i, Bounded v i → c = .minInclusive v → b.min = some (.int i)) ∧
    (∀ v i, Bounded v i → c = .minExclusive v → b.min = some (.int (i + 1))) ∧
    (∀ v i, Bounded v i → c = .maxInclusive v → b.max = some (.int i)) ∧
    (∀ v i, Bounded v i → c = .maxExclusive v → b.max = some (.int (i - 1))) := by
  refine ⟨?_, ?_, ?_, ?_⟩
  all_goals
    rintro _ i ⟨ht, h1, h2⟩ rfl
    have hp := parseI64_text ht (by omega) (by omega)
    simp only [paramStep, bound, hp] at h
    rw [if_pos (by omega)] at h
    simp only [Option.map_some, Option.some.injEq] at h
    subst h
    simp [Int.sub_eq_add_neg]

theorem digits_digits (n : Nat) : Digits (digits n) := fun _ h => Nat.isDigit_of_mem_toDigits (by omega) (by omega) h

theorem digits_ne (n : Nat) : digits n ≠ [] := Nat.toDigits_ne_nil

theorem number_digits (n : Nat) : number (digits n) = n := Nat.ofDigitChars_ten_toDigits

theorem number_pad (w n : Nat) : number (padNat w n) = n := by
  rw [number, padNat, Nat.ofDigitChars_append, Nat.ofDigitChars_replicate_zero, Nat.mul_zero]
  exact number_digits n

theorem digits_pad (w n : Nat) : Digits (padNat w n) := by
  intro c hc
  rcases List.mem_append.1 hc with h | h
  · rw [(List.mem_replicate.1 h).2]
    rfl
  · exact digits_digits n c h

theorem length_pad (w n : Nat) : (padNat w n).length = Nat.max w (digits n).length := by
  rw [padNat, List.length_append, List.length_replicate]
  show _ = max w (digits n).length
  omega

theorem two_pad {i : Int} {lo hi : Nat} (h1 : (lo : Int) ≤ i) (h2 : i ≤ hi) (h3 : hi < 100) : Two (pad 2 i) lo hi := by
  have h0 : ¬ i < 0 := by omega
  rw [pad, if_neg h0]
  refine ⟨?_, digits_pad _ _, ?_, ?_⟩
  · rw [length_pad]
    have : (digits i.natAbs).length ≤ 2 := (Nat.length_toDigits_le_iff (by omega) (by omega)).2 (by
      have : i.natAbs < 100 := by omega
      simpa using this)
    exact Nat.max_eq_left this
  · rw [number_pad]; omega
  · rw [number_pad]; omega

theorem head_digits {n : Nat} (h : 1 < (digits n).length) : (digits n).head? ≠ some '0' := by
  intro h0
  obtain ⟨rest, hr⟩ : ∃ rest, digits n = '0' :: rest := by
    cases hd : digits n with
    | nil => rw [hd] at h0; cases h0
    | cons c rest =>
      rw [hd] at h0
      simp only [List.head?_cons, Option.some.injEq] at h0
      exact ⟨rest, by rw [h0]⟩
  have hn : number rest = n := by
    have := number_digits n
    rw [hr, number, Nat.ofDigitChars_cons] at this
    simpa [number] using this
  have hlen : rest.length + 1 = (digits n).length := by rw [hr]; rfl
  -- The digits that are left are too few.
  have hlt : n < 10 ^ rest.length := by
    rw [← hn]
    have hd : Digits rest := fun c hc => digits_digits n c (by rw [hr]; exact List.mem_cons_of_mem _ hc)
    have key : ∀ (l : Str) (init : Nat), Digits l → Nat.ofDigitChars 10 l init < 10 ^ l.length * (init + 1) := by
      intro l
      induction l with
      | nil => intro init _; simp [Nat.ofDigitChars]
      | cons c l ih =>
        intro init hd
        rw [Nat.ofDigitChars_cons]
        have hc := hd c List.mem_cons_self
        have hc9 : c.toNat - '0'.toNat ≤ 9 := by
          simp only [Char.isDigit, Bool.and_eq_true, decide_eq_true_eq] at hc
          have h2 : c.val.toNat ≤ 57 := by simpa using UInt32.le_iff_toNat_le.1 hc.2
          have e : c.toNat = c.val.toNat := rfl
          have e' : '0'.toNat = 48 := rfl
          rw [e, e']
          omega
        refine (ih _ fun x hx => hd x (List.mem_cons_of_mem _ hx)).trans_le ?_
        rw [List.length_cons, pow_succ, mul_assoc]
        exact Nat.mul_le_mul_left _ (by omega)
    simpa [number] using key rest 0 hd
  have := (Nat.length_toDigits_le_iff (b := 10) (n := n) (k := rest.length) (by omega) (by
    have : (digits n).length = rest.length + 1 := hlen.symm
    omega)).2 hlt
  have e : (digits n).length ≤ rest.length := this
  omega

theorem intText_text (i : Int) : IntegerText (intText i) i := by
  rw [intText]
  split
  · have := IntegerText.minus (digits_ne i.natAbs) (digits_digits i.natAbs)
    rw [number_digits] at this
    have e : -((i.natAbs : Nat) : Int) = i := by omega
    rwa [e] at this
  · have := IntegerText.plain (digits_ne i.natAbs) (digits_digits i.natAbs)
    rw [number_digits] at this
    have e : ((i.natAbs : Nat) : Int) = i := by omega
    rwa [e] at this

theorem daysIn_le (y m : Nat) : 28 ≤ daysIn y m := by
  unfold daysIn
  split
  · split <;> omega
  · split <;> omega

theorem two_mono {s : Str} {lo hi hi' : Nat} (h : Two s lo hi) (hh : hi ≤ hi') : Two s lo hi' :=
  ⟨h.1, h.2.1, h.2.2.1, h.2.2.2.trans hh⟩

theorem dateText_date {rnd : Rnd} (hr : rnd.Lawful) (place : List Nat) (ps : Params F)
    (hstart : ∀ i, (ps.startYear.bind Num.asU64) = some i → i < 2 ^ 31) {s : Str} (h : dateText rnd place ps = some s) :
    DateText s := by
  simp only [dateText, Option.map_eq_some_iff] at h
  obtain ⟨y, hy, rfl⟩ := h
  have hm := hr (1 :: place) 1 12 (by decide)
  have hd := hr (2 :: place) 1 28 (by decide)
  have hy0 : 0 ≤ y := by
    simp only [Rnd.draw] at hy
    split at hy
    · next hle =>
      cases hy
      refine le_trans ?_ (hr (0 :: place) _ _ hle).1
      cases hb : ps.startYear.bind Num.asU64 with
      | none => simp only [Option.getD_none]; decide
      | some i =>
        have h1 := hstart i hb
        have h2 : 0 ≤ i := by
          obtain ⟨n, _, hn⟩ := Option.bind_eq_some_iff.1 hb
          cases n with
          | int j =>
            simp only [Num.asU64] at hn
            split at hn
            · cases hn; assumption
            · cases hn
          | float f => cases hn
        simp only [Option.getD_some, wrap32]
        omega
    · cases hy
  refine ⟨pad 4 y, _, _, rfl, ?_, ?_, ?_, two_pad hm.1 hm.2 (by omega), two_mono (two_pad (hi := 28) hd.1 hd.2 (by omega)) (daysIn_le _ _)⟩
  · rw [pad, if_neg (by omega)]
    exact digits_pad _ _
  · rw [pad, if_neg (by omega), length_pad]
    exact Nat.le_max_left _ _
  · rw [pad, if_neg (by omega), length_pad]
    intro hlen
    have hlen' : 4 < (digits y.natAbs).length := by
      rcases Nat.lt_or_ge 4 (digits y.natAbs).length with h | h
      · exact h
      · have e : Nat.max 4 (digits y.natAbs).length = 4 := Nat.max_eq_left h
        rw [e] at hlen
        omega
    have e : padNat 4 y.natAbs = digits y.natAbs := by
      have h0 : 4 - (digits y.natAbs).length = 0 := by omega
      rw [padNat, h0]
      rfl
    rw [e]
    exact head_digits (by omega)

/-! ## C134 -/

/-- `x` is `c` if that is given, and `p` otherwise. -/
def Prefers {α : Type} (c p x : Option α) : Prop := (∀ v, c = some v → x = some v) ∧ (c = none → x = p)

/-- Parameters `qs` are those that are configured, and those of the constraints where nothing is configured. -/
def Overrides (ofConstraints configured qs : Params F) : Prop :=
  Prefers configured.min ofConstraints.min qs.min ∧ Prefers configured.max ofConstraints.max qs.max ∧
  Prefers configured.startYear ofConstraints.startYear qs.startYear ∧
  Prefers configured.endYear ofConstraints.endYear qs.endYear ∧ Prefers configured.pattern ofConstraints.pattern qs.pattern

theorem prefers_iff {α : Type} (c p x : Option α) : Prefers c p x ↔ x = c.or p := by
  cases c <;> simp [Prefers]

theorem overrides_iff (ps cs qs : Params F) : Overrides ps cs qs ↔ qs = ps.over cs := by
  cases qs
  simp [Overrides, prefers_iff, Params.over]

/-- **C134**, the choice of the generator. The one that is configured for the property is taken, otherwise the one that is
configured for the datatype, otherwise one that was registered for the datatype; without any there is an error, as there is
for names that are not known. Parameters that are configured come before those of the constraints. -/
theorem C134_choice (run : Str → Params F → Option Str) (props types : Str → Option (Chosen F)) (property dt : Str)
    (ps : Params F) (s : Str) :
    generateField run props types property dt ps = some s ↔
      (∃ c, props property = some c ∧ known c.generator = true ∧
        ∃ qs, Overrides ps c.params qs ∧ run c.generator qs = some s) ∨
      (props property = none ∧ ∃ c, types dt = some c ∧ known c.generator = true ∧
        ∃ qs, Overrides ps c.params qs ∧ run c.generator qs = some s) ∨
      (props property = none ∧ types dt = none ∧ ∃ g, defaultFor dt = some g ∧ run g ps = some s) := by
  simp only [overrides_iff, exists_eq_left]
  unfold generateField
  cases h1 : props property with
  | some c => by_cases hk : known c.generator = true <;> simp [hk]
  | none =>
    cases h2 : types dt with
    | some c => by_cases hk : known c.generator = true <;> simp [hk]
    | none =>
      cases h3 : defaultFor dt with
      | none => simp
      | some g => simp

/-- **C134**, what is registered: seven datatypes have a generator, and the one for `xsd:string` is for patterns. -/
theorem C134_registered (dt : Str) : ((defaultFor dt).isSome ↔ dt ∈ keptDatatypes) ∧ defaultFor xsdString = some "pattern".toList := by
  refine ⟨?_, by decide⟩
  have e1 : (defaultFor dt).isSome = (defaultGenerators.reverse.find? fun e => decide (e.2 = dt)).isSome := by
    rw [defaultFor, Option.isSome_map]
  rw [e1, List.find?_isSome]
  simp only [List.mem_reverse, decide_eq_true_eq]
  have e2 : ∀ d, (∃ x ∈ defaultGenerators, x.2 = d) ↔ d ∈ defaultGenerators.map (·.2) := by simp
  rw [e2]
  have e3 : defaultGenerators.map (·.2) = keptDatatypes ++ [xsd "string"] := by decide
  have e4 : xsd "string" ∈ keptDatatypes := by decide
  rw [e3, List.mem_append, List.mem_singleton]
  constructor
  · rintro (h | rfl)
    · exact h
    · exact e4
  · exact Or.inl

/-- **C134**, texts. Without configurations for generators, texts for integers, booleans, dates and times are texts of these
datatypes, for all constraints and all random numbers. -/
theorem C134_texts (P : Floats F) {rnd : Rnd} (hr : rnd.Lawful) (place : List Nat) (other : Str → Params F → Option Str)
    (property dt : Str) (cs : List UConstraint) (s : Str)
    (h : fieldText P (runBasic rnd place other) (fun _ => none) (fun _ => none) property dt cs = some s) :
    (dt = xsd "integer" → ∃ i, IntegerText s i) ∧ (dt = xsd "boolean" → s = "true".toList ∨ s = "false".toList) ∧
    (dt = xsd "date" → DateText s) ∧ (dt = xsd "dateTime" → DateTimeText s) := by
  obtain ⟨ps, hps, h⟩ := Option.bind_eq_some_iff.1 h
  have hyear : ps.startYear = none := by
    have key : ∀ (cs : List UConstraint) (a b : Params F), cs.foldlM (paramStep P) a = some b → b.startYear = a.startYear := by
      intro cs
      induction cs with
      | nil => intro a b h; cases h; rfl
      | cons c cs ih =>
        intro a b h
        rw [List.foldlM_cons] at h
        obtain ⟨a', ha, h⟩ := Option.bind_eq_some_iff.1 h
        rw [ih a' b h]
        unfold paramStep at ha
        split at ha
        case h_5 => cases ha; rfl
        case h_6 => cases ha; rfl
        all_goals
          obtain ⟨x, _, rfl⟩ := Option.map_eq_some_iff.1 ha
          rfl
    exact key cs {} ps hps
  refine ⟨?_, ?_, ?_, ?_⟩
  · rintro rfl
    have e : defaultFor (xsd "integer") = some "integer".toList := by decide
    simp only [generateField, e, runBasic, if_true, integerText, Option.map_eq_some_iff] at h
    obtain ⟨i, _, rfl⟩ := h
    exact ⟨i, intText_text i⟩
  · rintro rfl
    have e : defaultFor (xsd "boolean") = some "boolean".toList := by decide
    have n1 : ¬ "boolean".toList = "integer".toList := by decide
    simp only [generateField, e, runBasic, if_neg n1, if_true, booleanText, Option.some.injEq] at h
    subst h
    split
    · exact Or.inl rfl
    · exact Or.inr rfl
  · rintro rfl
    have e : defaultFor (xsd "date") = some "date".toList := by decide
    have n1 : ¬ "date".toList = "integer".toList := by decide
    have n2 : ¬ "date".toList = "boolean".toList := by decide
    simp only [generateField, e, runBasic, if_neg n1, if_neg n2, if_true] at h
    exact dateText_date hr place ps (by simp [hyear]) h
  · rintro rfl
    have e : defaultFor (xsd "dateTime") = some "datetime".toList := by decide
    have n1 : ¬ "datetime".toList = "integer".toList := by decide
    have n2 : ¬ "datetime".toList = "boolean".toList := by decide
    have n3 : ¬ "datetime".toList = "date".toList := by decide
    simp only [generateField, e, runBasic, if_neg n1, if_neg n2, if_neg n3, if_true] at h
    obtain ⟨d, hd, rfl⟩ := Option.map_eq_some_iff.1 h
    have h3 := hr (3 :: place) 0 23 (by decide)
    have h4 := hr (4 :: place) 0 59 (by decide)
    have h5 := hr (5 :: place) 0 59 (by decide)
    exact ⟨d, _, _, _, rfl, dateText_date hr place ps (by simp [hyear]) hd, two_pad h3.1 h3.2 (by omega),
      two_pad h4.1 h4.2 (by omega), two_pad h5.1 h5.2 (by omega)⟩

/-- **C134** (partial), bounds. Without configurations for generators, the number that is made for `xsd:integer` is within the
last bound from below and the last bound from above, if these are integers of 32 bits.

Missing: bounds before the last (`C134_bounds_refuted`), bounds that are not integers (`C134_fraction_refuted`) or have more
bits (`C134_wrap_refuted`), and other constraints, which are ignored (`C134_ignored_refuted`). -/
theorem C134_bounds_partial (P : Floats F) {rnd : Rnd} (hr : rnd.Lawful) (place : List Nat)
    (other : Str → Params F → Option Str) (property : Str) (cs : List UConstraint) (s : Str)
    (h : fieldText P (runBasic rnd place other) (fun _ => none) (fun _ => none) property (xsd "integer") cs = some s) :
    ∃ i, IntegerText s i ∧ ∀ pre c post, cs = pre ++ c :: post →
      (c.Lower ∧ (∀ c' ∈ post, ¬ c'.Lower)) ∨ (c.Upper ∧ (∀ c' ∈ post, ¬ c'.Upper)) → InBound i c := by
  obtain ⟨ps, hps, h⟩ := Option.bind_eq_some_iff.1 h
  have e : defaultFor (xsd "integer") = some "integer".toList := by decide
  simp only [generateField, e, runBasic, if_true, integerText, Option.map_eq_some_iff] at h
  obtain ⟨i, hi, rfl⟩ := h
  refine ⟨i, intText_text i, ?_⟩
  have hrange : wrap32 ((ps.min.bind Num.asI64).getD (-1000)) ≤ i ∧ i ≤ wrap32 ((ps.max.bind Num.asI64).getD 10000) := by
    simp only [Rnd.draw] at hi
    split at hi
    · next hle =>
      cases hi
      exact hr _ _ _ hle
    · cases hi
  rintro pre c post rfl hc
  obtain ⟨a, b, hb, hmin, hmax⟩ := toParams_last P hps
  obtain ⟨s1, s2, s3, s4⟩ := step_bound P hb
  cases c with
  | minInclusive v =>
    intro k hk
    have hm := hmin (hc.elim (·.2) fun h => absurd h.1 id)
    rw [hm, s1 v k hk rfl] at hrange
    cases hk with | mk _ h1 h2 =>
    have := hrange.1
    simp only [Option.bind_some, Num.asI64, Option.getD_some] at this
    rwa [wrap32_id (by omega) (by omega)] at this
  | minExclusive v =>
    intro k hk
    have hm := hmin (hc.elim (·.2) fun h => absurd h.1 id)
    rw [hm, s2 v k hk rfl] at hrange
    cases hk with | mk _ h1 h2 =>
    have := hrange.1
    simp only [Option.bind_some, Num.asI64, Option.getD_some] at this
    rw [wrap32_id (by omega) (by omega)] at this
    omega
  | maxInclusive v =>
    intro k hk
    have hm := hmax (hc.elim (fun h => absurd h.1 id) (·.2))
    rw [hm, s3 v k hk rfl] at hrange
    cases hk with | mk _ h1 h2 =>
    have := hrange.2
    simp only [Option.bind_some, Num.asI64, Option.getD_some] at this
    rwa [wrap32_id (by omega) (by omega)] at this
  | maxExclusive v =>
    intro k hk
    have hm := hmax (hc.elim (fun h => absurd h.1 id) (·.2))
    rw [hm, s4 v k hk rfl] at hrange
    cases hk with | mk _ h1 h2 =>
    have := hrange.2
    simp only [Option.bind_some, Num.asI64, Option.getD_some] at this
    rw [wrap32_id (by omega) (by omega)] at this
    omega
  | datatype | shape | kind | pattern | minLength | maxLength | oneIn | hasValue => exact True.intro

/-- Draws with a range of one number. -/
theorem draw_one {rnd : Rnd} (hr : rnd.Lawful) (place : List Nat) (i : Int) : rnd.draw place i i = some i := by
  have := hr place i i (le_refl i)
  rw [Rnd.draw, if_pos (le_refl i)]
  exact congrArg some (by omega)

/-- The text for an integer is drawn from a range of one number. -/
theorem fieldText_one (P : Floats F) {rnd : Rnd} (hr : rnd.Lawful) (place : List Nat)
    (other : Str → Params F → Option Str) (property : Str) {cs : List UConstraint} {ps : Params F} {lo hi i : Int}
    (hps : toParams P cs = some ps) (hlo : ps.min = some (.int lo)) (hhi : ps.max = some (.int hi)) (h1 : wrap32 lo = i)
    (h2 : wrap32 hi = i) :
    fieldText P (runBasic rnd place other) (fun _ => none) (fun _ => none) property (xsd "integer") cs = some (intText i) := by
  have e : defaultFor (xsd "integer") = some "integer".toList := by decide
  simp only [fieldText, hps, Option.bind_some, generateField, e, runBasic, if_true, integerText, hlo, hhi, Num.asI64,
    Option.getD_some, h1, h2, draw_one hr, Option.map_some]

/-- A bound, as a value. -/
def iv (s : String) : UValue := .lit s.toList (xsd "integer")

/-- **C134** is false of the code for all bounds: with two from below the last counts, even if it is weaker. -/
theorem C134_bounds_refuted (P : Floats F) {rnd : Rnd} (hr : rnd.Lawful) (place : List Nat)
    (other : Str → Params F → Option Str) (property : Str) :
    let cs := [.minInclusive (iv "5"), .minInclusive (iv "0"), .maxInclusive (iv "0")]
    fieldText P (runBasic rnd place other) (fun _ => none) (fun _ => none) property (xsd "integer") cs = some ['0'] ∧
    ∀ i, IntegerText ['0'] i → ¬ ∀ c ∈ cs, InBound i c := by
  refine ⟨fieldText_one P hr place other property (ps := ⟨some (.int 0), some (.int 0), none, none, none⟩) (lo := 0) (hi := 0) (i := 0) rfl rfl rfl
    (by decide) (by decide), ?_⟩
  intro i hi h
  have h5 : Bounded (iv "5") 5 := .mk (.plain (ds := ['5']) (by decide) (by simp [Digits])) (by decide) (by decide)
  have := h _ List.mem_cons_self 5 h5
  cases hi with
  | plain => exact absurd this (by decide)

/-- **C134** is false of the code for bounds that need more than 32 bits: `4294967296` becomes `0`. -/
theorem C134_wrap_refuted (P : Floats F) {rnd : Rnd} (hr : rnd.Lawful) (place : List Nat)
    (other : Str → Params F → Option Str) (property : Str) :
    fieldText P (runBasic rnd place other) (fun _ => none) (fun _ => none) property (xsd "integer")
      [.minInclusive (iv "4294967296"), .maxInclusive (iv "4294967296")] = some ['0'] :=
  fieldText_one P hr place other property (ps := ⟨some (.int 4294967296), some (.int 4294967296), none, none, none⟩)
    (lo := 4294967296) (hi := 4294967296) (i := 0) (by rfl) rfl rfl (by decide) (by decide)

/-- **C134** is false of the code for bounds with a fraction: they are ignored for integers. -/
theorem C134_fraction_refuted (P : Floats F) (f : F) (hf : P.parse "0.5".toList = some f) (place : List Nat)
    (other : Str → Params F → Option Str) (property : Str) :
    fieldText P (runBasic ⟨fun _ lo _ => lo, fun _ => true⟩ place other) (fun _ => none) (fun _ => none) property
      (xsd "integer") [.minInclusive (iv "0.5"), .maxInclusive (iv "5")] = some "-1000".toList := by
  have hn : parseI64 "0.5".toList = none := by decide
  have h5 : parseI64 "5".toList = some 5 := by decide
  have hp : toParams P [.minInclusive (iv "0.5"), .maxInclusive (iv "5")] =
      some ⟨some (.float f), some (.int 5), none, none, none⟩ := by
    simp only [toParams, List.foldlM_cons, List.foldlM_nil, iv, paramStep, bound, hn, hf, h5, id, Option.map_some]
    rfl
  have e : defaultFor (xsd "integer") = some "integer".toList := by decide
  simp only [fieldText, hp, Option.bind_some, generateField, e, runBasic, if_true, integerText, Num.asI64, Option.getD_some,
    Option.getD_none]
  have h1 : wrap32 (-1000) = -1000 := by decide
  have h2 : wrap32 5 = 5 := by decide
  have h3 : intText (-1000) = "-1000".toList := by decide +kernel
  simp [Rnd.draw, h1, h2, h3, Num.asI64]

/-- **C134** is false of the code for other constraints: lengths, lists of values and fixed values are ignored. -/
theorem C134_ignored_refuted (P : Floats F) {rnd : Rnd} (hr : rnd.Lawful) (place : List Nat)
    (other : Str → Params F → Option Str) (property : Str) (O : Outside F) (types : UTerm → Option Str) :
    let cs := [.minInclusive (iv "0"), .maxInclusive (iv "0")]
    let more := [.minLength 3, .maxLength 0, .oneIn [iv "5"], .hasValue (iv "5")]
    fieldText P (runBasic rnd place other) (fun _ => none) (fun _ => none) property (xsd "integer") (cs ++ more) = some ['0'] ∧
    ∀ c ∈ more, evalConstraint O types c (.lit ['0'] (xsd "integer")) = false := by
  refine ⟨fieldText_one P hr place other property (ps := ⟨some (.int 0), some (.int 0), none, none, none⟩) (lo := 0) (hi := 0) (i := 0) rfl rfl rfl
    (by decide) (by decide), ?_⟩
  intro c hc
  simp only [List.mem_cons, List.not_mem_nil, or_false] at hc
  rcases hc with rfl | rfl | rfl | rfl <;> rfl

/-- **C134** is false of the code for bounds that the defaults of the other side do not allow: there is a panic, though there
are numbers within the bounds. -/
theorem C134_panic_refuted (P : Floats F) (rnd : Rnd) (place : List Nat) (other : Str → Params F → Option Str)
    (property : Str) :
    fieldText P (runBasic rnd place other) (fun _ => none) (fun _ => none) property (xsd "integer")
      [.maxInclusive (iv "-2000")] = none ∧ InBound (-3000) (.maxInclusive (iv "-2000")) := by
  constructor
  · have hp : toParams P [.maxInclusive (iv "-2000")] = some ⟨none, some (.int (-2000)), none, none, none⟩ := rfl
    have e : defaultFor (xsd "integer") = some "integer".toList := by decide
    simp only [fieldText, hp, Option.bind_some, generateField, e, runBasic, if_true, integerText, Num.asI64,
      Option.getD_some, Option.bind_none, Option.getD_none]
    have hw : ¬ wrap32 (-1000) ≤ wrap32 (-2000) := by decide
    simp only [Rnd.draw, if_neg hw, Option.map_none]
  · intro b hb
    cases hb with | mk ht h1 h2 =>
    have h3 := parseI64_text ht (by omega) (by omega)
    have h4 : parseI64 "-2000".toList = some (-2000) := by decide
    rw [h4] at h3
    cases h3
    decide

/-! ## Examples -/

/-- The least of each range. -/
def exRnd : Rnd := ⟨fun _ lo _ => lo, fun _ => true⟩

theorem exRnd_lawful : exRnd.Lawful := fun _ _ _ h => ⟨le_refl _, h⟩

/-- Bounds that are met, and a time. -/
example (P : Floats Unit) (other : Str → Params Unit → Option Str) :
    fieldText P (runBasic exRnd [] other) (fun _ => none) (fun _ => none) ['p'] (xsd "integer")
      [.datatype (xsd "integer"), .minExclusive (iv "+017"), .maxInclusive (iv "30")] = some ['1', '8'] ∧
    Bounded (iv "+017") 17 ∧
    fieldText P (runBasic exRnd [] other) (fun _ => none) (fun _ => none) ['p'] (xsd "dateTime") [] =
      some "1950-01-01T00:00:00Z".toList := by
  refine ⟨?_, .mk (.plus (ds := ['0', '1', '7']) (by decide) (by simp [Digits])) (by decide) (by decide), ?_⟩
  · have hp : toParams P [.datatype (xsd "integer"), .minExclusive (iv "+017"), .maxInclusive (iv "30")] =
        some ⟨some (.int 18), some (.int 30), none, none, none⟩ := rfl
    have e : defaultFor (xsd "integer") = some "integer".toList := by decide
    simp only [fieldText, hp, Option.bind_some, generateField, e, runBasic, if_true]
    decide +kernel
  · have e : defaultFor (xsd "dateTime") = some "datetime".toList := by decide
    have n1 : ¬ "datetime".toList = "integer".toList := by decide
    have n2 : ¬ "datetime".toList = "boolean".toList := by decide
    have n3 : ¬ "datetime".toList = "date".toList := by decide
    have h : dateTimeText exRnd [] ({} : Params Unit) = some "1950-01-01T00:00:00Z".toList := by decide +kernel
    simpa only [fieldText, toParams, List.foldlM_nil, Option.pure_def, Option.bind_some, generateField, e, runBasic, if_neg n1,
      if_neg n2, if_neg n3, if_true] using h

/-- A generator that is configured for a property. -/
example : generateField (F := F) (fun g _ => some g) (fun p => if p = ['p'] then some ⟨"uri".toList, {}⟩ else none)
    (fun _ => some ⟨"nothing".toList, {}⟩) ['p'] xsdString {} = some "uri".toList := by
  rw [C134_choice]
  exact Or.inl ⟨_, rfl, show known "uri".toList = true by decide, _, (overrides_iff _ _ _).2 rfl, rfl⟩

end Gen
