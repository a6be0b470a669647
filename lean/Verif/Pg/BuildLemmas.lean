import Verif.Pg.BuildSpec
import Verif.Pg.MergeProps
import Verif.Pg.NodeProps

/-!
# Lemmas: the builders against the reading of the texts
-/

namespace Pg

/-! ## Tokens -/

theorem foldl_decimal (cs : List Char) (a : Nat) :
    cs.foldl (fun a c => 10 * a + (c.toNat - 48)) a = a * 10 ^ cs.length + decimal cs := by
  induction cs generalizing a with
  | nil => simp [decimal]
  | cons c cs ih =>
    rw [List.foldl_cons, ih, decimal, List.length_cons, pow_succ]
    have : '0'.toNat = 48 := rfl
    rw [this]
    ring

/-- A number token is read as the decimal number it shows, or refused. -/
theorem rustParse_number (signed : Bool) (lo hi : Int) (t : String) (ht : IsNumber t) (n : Int) :
    Lit.rustParse signed lo hi t.toList = some n ↔
      t.toList ≠ [] ∧ (∀ c ∈ t.toList, c.isDigit = true) ∧ n = decimal t.toList ∧ lo ≤ n ∧ n ≤ hi := by
  unfold IsNumber at ht
  generalize t.toList = cs at ht
  cases cs with
  | nil => simp [Lit.rustParse]
  | cons c cs =>
    have hc := ht c (by simp)
    have : Lit.rustParse signed lo hi (c :: cs) = (Lit.digitsVal (c :: cs)).bind fun n => Lit.ranged lo hi n := by
      simp [Lit.rustParse, hc.1, hc.2]
    rw [this]
    unfold Lit.digitsVal Lit.ranged
    by_cases hd : (c :: cs).all Char.isDigit = true
    · rw [if_pos hd, foldl_decimal]
      rw [List.all_eq_true] at hd
      simp only [Option.bind_some, Nat.zero_mul, Nat.zero_add]
      constructor
      · intro h
        split at h
        · cases h
          exact ⟨by simp, hd, rfl, by assumption⟩
        · cases h
      · rintro ⟨_, _, rfl, h⟩
        rw [if_pos h]
    · rw [if_neg hd]
      rw [List.all_eq_true] at hd
      simp only [Option.bind_none, reduceCtorEq, false_iff]
      rintro ⟨_, h, _⟩
      exact hd h

theorem removeQuotes_quoted (t : String) (body : List Char) (h : Quoted t body) :
    removeQuotes t = String.ofList body := by
  unfold Quoted at h
  simp [removeQuotes, h]

theorem quoted_inj (t : String) (a b : List Char) (ha : Quoted t a) (hb : Quoted t b) : a = b := by
  unfold Quoted at ha hb
  rw [ha] at hb
  simpa using hb

theorem unescape_plain (body : List Char) (h : '"' ∉ body) : unescape body = body := by
  fun_induction unescape body with
  | case1 => rfl
  | case2 cs ih => simp at h
  | case3 c cs hne ih => rw [ih (fun hm => h (List.mem_cons_of_mem _ hm))]

/-- A value of the text is built as the value its token stands for. -/
theorem buildValue_denotes (D : Dates) (w : SrcValue) (hw : w.Plain) (x : Value) (h : buildValue D w = some x)
    (y : Value) : Denotes D w y ↔ y = x := by
  cases w with
  | str t =>
    obtain ⟨body, hq, hb⟩ := hw
    simp only [buildValue, Option.some.injEq] at h
    subst h
    constructor
    · rintro ⟨hq'⟩
      rw [quoted_inj t _ _ hq' hq, removeQuotes_quoted t body hq, unescape_plain body hb]
    · rintro rfl
      rw [removeQuotes_quoted t body hq]
      have := Denotes.str (D := D) hq
      rwa [unescape_plain body hb] at this
  | num t =>
    simp only [buildValue, Option.map_eq_some_iff] at h
    obtain ⟨n, hn, rfl⟩ := h
    rw [rustParse_number _ _ _ t hw] at hn
    obtain ⟨h1, h2, rfl, _⟩ := hn
    constructor
    · rintro ⟨⟩
      rfl
    · rintro rfl
      exact .num h1 h2
  | date t =>
    obtain ⟨body, hq⟩ := hw
    simp only [buildValue, Option.map_eq_some_iff] at h
    obtain ⟨d, hd, rfl⟩ := h
    rw [removeQuotes_quoted t body hq] at hd
    constructor
    · rintro (_ | _ | ⟨hq', hd'⟩)
      rw [quoted_inj t _ _ hq' hq, hd] at hd'
      cases hd'
      rfl
    · rintro rfl
      exact .date hq hd
  | bool b =>
    simp only [buildValue, Option.some.injEq] at h
    subst h
    constructor
    · rintro ⟨⟩
      rfl
    · rintro rfl
      exact .bool b

/-! ## Conditions and types -/

/-- A condition of the text is built as a condition with the same meaning. -/
theorem buildCond_meets (X : Ext) (D : Dates) (c : SrcCond) (hc : c.Plain) (e : BExpr) (h : buildCond D c = some e)
    (v : Value) : (SrcMeets X D c v ↔ Meets X e v) ∧ (SrcApplicable X D c v ↔ Applicable X e v) := by
  have val : ∀ (w : SrcValue) (hw : w.Plain) (x : Value), buildValue D w = some x → ∀ P : Value → Prop,
      (∃ y, Denotes D w y ∧ P y) ↔ P x := by
    intro w hw x hx P
    simp only [buildValue_denotes D w hw x hx, exists_eq_left]
  induction c generalizing e with
  | tt => simp only [buildCond, Option.some.injEq] at h; subst h; exact ⟨Iff.rfl, Iff.rfl⟩
  | ff => simp only [buildCond, Option.some.injEq] at h; subst h; exact ⟨Iff.rfl, Iff.rfl⟩
  | gt w =>
    simp only [buildCond, Option.map_eq_some_iff] at h
    obtain ⟨x, hx, rfl⟩ := h
    exact ⟨val w hc x hx _, val w hc x hx _⟩
  | ge w =>
    simp only [buildCond, Option.map_eq_some_iff] at h
    obtain ⟨x, hx, rfl⟩ := h
    exact ⟨val w hc x hx _, val w hc x hx _⟩
  | lt w =>
    simp only [buildCond, Option.map_eq_some_iff] at h
    obtain ⟨x, hx, rfl⟩ := h
    exact ⟨val w hc x hx _, val w hc x hx _⟩
  | le w =>
    simp only [buildCond, Option.map_eq_some_iff] at h
    obtain ⟨x, hx, rfl⟩ := h
    exact ⟨val w hc x hx _, val w hc x hx _⟩
  | eq w =>
    simp only [buildCond, Option.map_eq_some_iff] at h
    obtain ⟨x, hx, rfl⟩ := h
    exact ⟨buildValue_denotes D w hc x hx v, Iff.rfl⟩
  | regex t =>
    simp only [buildCond, Option.some.injEq] at h
    subst h
    obtain ⟨body, hq⟩ := hc
    simp only [SrcMeets, SrcApplicable, Meets, Applicable, removeQuotes_quoted t body hq]
    constructor
    · constructor
      · rintro ⟨b, s, hb, h⟩
        rw [quoted_inj t _ _ hb hq] at h
        exact ⟨s, h⟩
      · rintro ⟨s, h⟩
        exact ⟨body, s, hq, h⟩
    · constructor
      · rintro ⟨b, s, hb, h⟩
        rw [quoted_inj t _ _ hb hq] at h
        exact ⟨s, h⟩
      · rintro ⟨s, h⟩
        exact ⟨body, s, hq, h⟩
  | and a b iha ihb =>
    simp only [buildCond, Option.bind_eq_bind, Option.bind_eq_some_iff, Option.pure_def, Option.some.injEq] at h
    obtain ⟨x, hx, y, hy, rfl⟩ := h
    obtain ⟨a1, a2⟩ := iha hc.1 x hx
    obtain ⟨b1, b2⟩ := ihb hc.2 y hy
    exact ⟨and_congr a1 b1, and_congr a2 b2⟩
  | or a b iha ihb =>
    simp only [buildCond, Option.bind_eq_bind, Option.bind_eq_some_iff, Option.pure_def, Option.some.injEq] at h
    obtain ⟨x, hx, y, hy, rfl⟩ := h
    obtain ⟨a1, a2⟩ := iha hc.1 x hx
    obtain ⟨b1, b2⟩ := ihb hc.2 y hy
    exact ⟨or_congr a1 b1, and_congr a2 b2⟩
  | not a ih =>
    simp only [buildCond, Option.map_eq_some_iff] at h
    obtain ⟨x, hx, rfl⟩ := h
    obtain ⟨a1, a2⟩ := ih hc x hx
    exact ⟨not_congr a1, a2⟩
  | paren a ih => exact ih hc e h

theorem checked_some (X : Ext) (D : Dates) (c : SrcCond) (hc : c.Plain) (e : BExpr) (h : buildCond D c = some e)
    (vs : Finset Value) : Checked X D (some c) vs ↔ ∀ v ∈ vs, Holds X e v := by
  simp only [Checked, Option.some.injEq, forall_eq', Holds]
  refine forall_congr' fun v => imp_congr_right fun _ => ?_
  obtain ⟨a, b⟩ := buildCond_meets X D c hc e h v
  rw [a, b]

theorem checked_none (X : Ext) (D : Dates) (vs : Finset Value) : Checked X D none vs ↔ True := by
  simp [Checked]

theorem buildNumber_eq (t : String) (ht : IsNumber t) (n : Nat) (h : buildNumber t = some n) : n = decimal t.toList := by
  simp only [buildNumber, Option.map_eq_some_iff] at h
  obtain ⟨i, hi, rfl⟩ := h
  rw [rustParse_number _ _ _ t ht] at hi
  obtain ⟨_, _, rfl, _⟩ := hi
  rfl

/-- A cardinality of the text is built as the interval it shows. -/
theorem buildCardOpt_within (c : Option SrcCard) (hc : ∀ x, c = some x → x.Plain) (k : Card)
    (h : buildCardOpt c = some k) (n : Nat) : Counted c n ↔ Within k n := by
  match c with
  | none =>
    simp only [buildCardOpt, Option.some.injEq] at h
    subst h
    simp [Counted, Within, Card.lower, Card.upper]
    omega
  | some .optional =>
    simp only [buildCardOpt, buildCard, Option.some.injEq] at h
    subst h
    simp [Counted, Within, Card.lower, Card.upper]
  | some .oneOrMore =>
    simp only [buildCardOpt, buildCard, Option.some.injEq] at h
    subst h
    simp [Counted, Within, Card.lower, Card.upper]
  | some .zeroOrMore =>
    simp only [buildCardOpt, buildCard, Option.some.injEq] at h
    subst h
    simp [Counted, Within, Card.lower, Card.upper]
  | some (.range lo .star) =>
    simp only [buildCardOpt, buildCard, buildMax, Option.bind_eq_bind, Option.bind_eq_some_iff, Option.pure_def,
      Option.some.injEq] at h
    obtain ⟨m, hm, _, rfl, rfl⟩ := h
    have := hc _ rfl
    rw [buildNumber_eq lo this m hm]
    simp [Counted, Within, Card.lower, Card.upper]
  | some (.range lo (.num hi)) =>
    simp only [buildCardOpt, buildCard, buildMax, Option.bind_eq_bind, Option.bind_eq_some_iff, Option.pure_def,
      Option.some.injEq, Option.map_eq_some_iff] at h
    obtain ⟨m, hm, _, ⟨u, hu, rfl⟩, rfl⟩ := h
    have := hc _ rfl
    rw [buildNumber_eq lo this.1 m hm, buildNumber_eq hi this.2 u hu]
    simp [Counted, Within, Card.lower, Card.upper]

theorem kind_accepts (X : Ext) (k : SrcKind) (c : Card) (vs : Finset Value) :
    Accepts X (k.valueType c) vs ↔ Within c vs.card ∧ ∀ v ∈ vs, OfKind k v := by
  cases k <;> rfl

/-- A simple type of the text is built as a type with the same sets of values. -/
theorem buildSimple_accepts (X : Ext) (D : Dates) (s : SrcSimple) (hs : s.Plain) (t : TypeSpec)
    (h : buildSimple D s = some t) (vs : Finset Value) : SaysSimple X D s vs ↔ AcceptsSpec X t vs := by
  match s with
  | .kind k c none =>
    simp only [buildSimple, Option.bind_eq_bind, Option.bind_eq_some_iff, Option.pure_def, Option.some.injEq] at h
    obtain ⟨card, hk, rfl⟩ := h
    simp only [SaysSimple, AcceptsSpec, checked_none, and_true, kind_accepts, buildCardOpt_within c hs.1 card hk]
  | .kind k c (some e) =>
    simp only [buildSimple, Option.bind_eq_bind, Option.bind_eq_some_iff, Option.pure_def, Option.some.injEq] at h
    obtain ⟨card, hk, e', he, rfl⟩ := h
    simp only [SaysSimple, AcceptsSpec, checked_some X D e (hs.2 e rfl) e' he, kind_accepts,
      buildCardOpt_within c hs.1 card hk, and_assoc]
  | .any none =>
    simp only [buildSimple, Option.some.injEq] at h
    subst h
    simp [SaysSimple, AcceptsSpec, checked_none, Accepts]
  | .any (some e) =>
    simp only [buildSimple, Option.map_eq_some_iff] at h
    obtain ⟨e', he, rfl⟩ := h
    simp only [SaysSimple, AcceptsSpec, checked_some X D e (hs e rfl) e' he, Accepts, true_and]
  | .check e =>
    simp only [buildSimple, Option.map_eq_some_iff] at h
    obtain ⟨e', he, rfl⟩ := h
    simp only [SaysSimple, AcceptsSpec, checked_some X D e hs e' he, Accepts, true_and]

/-- A type of at most two parts is built as a type with the same sets of values. -/
theorem buildType_accepts (X : Ext) (D : Dates) (s : SrcType) (hs : s.Plain) (t : TypeSpec)
    (h : buildType D s = some t) (vs : Finset Value) : SaysType X D s vs ↔ AcceptsSpec X t vs := by
  obtain ⟨first, more⟩ := s
  obtain ⟨hf, hm⟩ := hs
  simp only [buildType, Option.bind_eq_bind, Option.bind_eq_some_iff] at h
  obtain ⟨a, ha, h⟩ := h
  have e1 := buildSimple_accepts X D first hf a ha
  rcases hm with hm | ⟨s, hp, hm | hm⟩ <;> simp only at hm <;> subst hm
  · simp only [Option.pure_def, Option.some.injEq] at h
    subst h
    exact e1 vs
  · simp only [Option.bind_eq_some_iff, Option.pure_def, Option.some.injEq] at h
    obtain ⟨b, hb, rfl⟩ := h
    exact and_congr (e1 vs) (buildSimple_accepts X D s hp b hb vs)
  · simp only [Option.bind_eq_some_iff, Option.pure_def, Option.some.injEq] at h
    obtain ⟨b, hb, rfl⟩ := h
    exact or_congr (e1 vs) (buildSimple_accepts X D s hp b hb vs)

/-- The properties of the text are built as properties with the same choices of keys. -/
theorem buildProps_choice (X : Ext) (D : Dates) (r : Record) (s : SrcProps) (hs : s.Plain) (p : PropValue)
    (h : buildProps D s = some p) : NoEmpty p ∧ ∀ K, SaysProps X D r s K ↔ Choice X r p K := by
  induction s generalizing p with
  | paren a ih => exact ih hs p h
  | eachOf a b iha ihb =>
    simp only [buildProps, Option.bind_eq_bind, Option.bind_eq_some_iff, Option.pure_def, Option.some.injEq] at h
    obtain ⟨x, hx, y, hy, rfl⟩ := h
    obtain ⟨a1, a2⟩ := iha hs.1 x hx
    obtain ⟨b1, b2⟩ := ihb hs.2 y hy
    exact ⟨⟨a1, b1⟩, fun K => by simp only [SaysProps, Choice, a2, b2]⟩
  | oneOf a b iha ihb =>
    simp only [buildProps, Option.bind_eq_bind, Option.bind_eq_some_iff, Option.pure_def, Option.some.injEq] at h
    obtain ⟨x, hx, y, hy, rfl⟩ := h
    obtain ⟨a1, a2⟩ := iha hs.1 x hx
    obtain ⟨b1, b2⟩ := ihb hs.2 y hy
    exact ⟨⟨a1, b1⟩, fun K => by simp only [SaysProps, Choice, a2, b2]⟩
  | base o k t =>
    simp only [buildProps, Option.bind_eq_bind, Option.bind_eq_some_iff, Option.pure_def, Option.some.injEq] at h
    obtain ⟨ts, ht, rfl⟩ := h
    have := buildType_accepts X D t hs ts ht
    cases o
    · exact ⟨trivial, fun K => by simp [SaysProps, Choice, this]⟩
    · exact ⟨trivial, fun K => by simp [SaysProps, Choice, this]⟩

/-! ## Specifications -/

theorem buildLabels_labelled (l : SrcLabels) : Labelled (buildLabels l) := by
  induction l with
  | conj a b iha ihb => exact .and iha ihb
  | disj a b iha ihb => exact .or iha ihb
  | paren a ih => exact ih
  | square a ih => exact ih
  | label n => exact .label n
  | typeName n => exact .ref n

theorem buildSpec_labelled (D : Dates) (s : SrcSpec) (hs : s.Plain) (t : Spec) (h : buildSpec D s = some t) :
    Labelled t := by
  obtain ⟨labels, props⟩ := s
  obtain ⟨⟨l, hl, _⟩, hp⟩ := hs
  simp only at hl
  subst hl
  cases props with
  | none =>
    simp only [buildSpec, Option.some.injEq] at h
    subst h
    exact buildLabels_labelled l
  | some ps =>
    simp only [buildSpec, Option.map_eq_some_iff] at h
    obtain ⟨pv, hpv, rfl⟩ := h
    exact .content (buildLabels_labelled l) (buildProps_choice ⟨fun _ _ => none⟩ D ∅ ps (hp ps rfl) pv hpv).1

theorem buildLabels_noOr (l : SrcLabels) : NoOr (buildLabels l) ↔ l.NoBar := by
  induction l with
  | conj a b iha ihb => exact and_congr iha ihb
  | disj a b _ _ => exact Iff.rfl
  | paren a ih => exact ih
  | square a ih => exact ih
  | label n => exact Iff.rfl
  | typeName n => exact Iff.rfl

/-! ## What is read -/

theorem rustParse_isSome (signed : Bool) (lo : Int) (hi : Nat) (hlo : lo ≤ 0) (t : String) (ht : IsNumber t) :
    (∃ n, Lit.rustParse signed lo hi t.toList = some n) ↔ Digits hi t := by
  simp only [rustParse_number _ _ _ t ht, Digits]
  constructor
  · rintro ⟨n, h1, h2, rfl, _, h3⟩
    exact ⟨h1, h2, by omega⟩
  · rintro ⟨h1, h2, h3⟩
    exact ⟨_, h1, h2, rfl, by omega, by omega⟩

theorem buildValue_isSome (D : Dates) (w : SrcValue) (hw : w.Plain) :
    (∃ x, buildValue D w = some x) ↔ w.Readable D := by
  cases w with
  | str t => simp [buildValue, SrcValue.Readable]
  | bool b => simp [buildValue, SrcValue.Readable]
  | num t =>
    have := rustParse_isSome true (-2 ^ 31) (2 ^ 31 - 1) (by omega) t hw
    simp only [SrcValue.Readable, ← this, buildValue, Option.map_eq_some_iff]
    constructor
    · rintro ⟨_, n, h, _⟩
      exact ⟨n, h⟩
    · rintro ⟨n, h⟩
      exact ⟨_, n, h, rfl⟩
  | date t =>
    obtain ⟨body, hq⟩ := hw
    simp only [SrcValue.Readable, buildValue, Option.map_eq_some_iff, removeQuotes_quoted t body hq]
    constructor
    · rintro ⟨_, d, h, _⟩
      exact ⟨body, d, hq, h⟩
    · rintro ⟨b, d, hb, h⟩
      rw [quoted_inj t _ _ hb hq] at h
      exact ⟨_, d, h, rfl⟩

theorem map_isSome {α β : Type} (f : α → β) (o : Option α) : (∃ y, o.map f = some y) ↔ ∃ x, o = some x := by
  cases o <;> simp

theorem bind1_isSome {α β : Type} (f : α → β) (o : Option α) :
    (∃ y, (o.bind fun a => some (f a)) = some y) ↔ ∃ x, o = some x := by
  cases o <;> simp

theorem bind2_isSome {α β γ : Type} (f : α → β → γ) (o : Option α) (q : Option β) :
    (∃ y, (o.bind fun a => q.bind fun b => some (f a b)) = some y) ↔ (∃ x, o = some x) ∧ ∃ x, q = some x := by
  cases o <;> cases q <;> simp

theorem buildCond_isSome (D : Dates) (c : SrcCond) (hc : c.Plain) : (∃ e, buildCond D c = some e) ↔ c.Readable D := by
  induction c with
  | tt => simp [buildCond, SrcCond.Readable]
  | ff => simp [buildCond, SrcCond.Readable]
  | regex t => simp [buildCond, SrcCond.Readable]
  | gt w => rw [buildCond, map_isSome, buildValue_isSome D w hc]; rfl
  | ge w => rw [buildCond, map_isSome, buildValue_isSome D w hc]; rfl
  | lt w => rw [buildCond, map_isSome, buildValue_isSome D w hc]; rfl
  | le w => rw [buildCond, map_isSome, buildValue_isSome D w hc]; rfl
  | eq w => rw [buildCond, map_isSome, buildValue_isSome D w hc]; rfl
  | and a b iha ihb => exact (bind2_isSome _ _ _).trans (and_congr (iha hc.1) (ihb hc.2))
  | or a b iha ihb => exact (bind2_isSome _ _ _).trans (and_congr (iha hc.1) (ihb hc.2))
  | not a ih => rw [buildCond, map_isSome]; exact ih hc
  | paren a ih => exact ih hc

theorem buildNumber_isSome (t : String) (ht : IsNumber t) : (∃ n, buildNumber t = some n) ↔ Digits (2 ^ 64 - 1) t := by
  rw [buildNumber, map_isSome]
  exact rustParse_isSome false 0 (2 ^ 64 - 1) le_rfl t ht

theorem buildCardOpt_isSome (c : Option SrcCard) (hc : ∀ x, c = some x → x.Plain) :
    (∃ k, buildCardOpt c = some k) ↔ ∀ x, c = some x → x.Readable := by
  match c with
  | none => simp [buildCardOpt]
  | some .optional => simp [buildCardOpt, buildCard, SrcCard.Readable]
  | some .oneOrMore => simp [buildCardOpt, buildCard, SrcCard.Readable]
  | some .zeroOrMore => simp [buildCardOpt, buildCard, SrcCard.Readable]
  | some (.range lo .star) =>
    simp only [Option.some.injEq, forall_eq']
    refine (bind2_isSome _ _ _).trans ?_
    rw [buildNumber_isSome lo (hc _ rfl)]
    simp [buildMax, SrcCard.Readable]
  | some (.range lo (.num hi)) =>
    simp only [Option.some.injEq, forall_eq']
    refine (bind2_isSome _ _ _).trans ?_
    rw [buildNumber_isSome lo (hc _ rfl).1, buildMax, map_isSome, buildNumber_isSome hi (hc _ rfl).2]
    rfl

theorem buildSimple_isSome (D : Dates) (s : SrcSimple) (hs : s.Plain) :
    (∃ t, buildSimple D s = some t) ↔ s.Readable D := by
  match s with
  | .kind k c none =>
    refine (bind1_isSome (fun card => TypeSpec.value (k.valueType card)) (buildCardOpt c)).trans ?_
    rw [buildCardOpt_isSome c hs.1]
    simp [SrcSimple.Readable]
  | .kind k c (some e) =>
    refine (bind2_isSome _ _ _).trans ?_
    rw [buildCardOpt_isSome c hs.1, buildCond_isSome D e (hs.2 e rfl)]
    simp [SrcSimple.Readable]
  | .any none => simp [buildSimple, SrcSimple.Readable]
  | .any (some e) =>
    rw [buildSimple, map_isSome, buildCond_isSome D e (hs e rfl)]
    simp [SrcSimple.Readable]
  | .check e =>
    rw [buildSimple, map_isSome, buildCond_isSome D e hs]
    rfl

theorem buildType_isSome (D : Dates) (s : SrcType) (hs : s.Plain) :
    (∃ t, buildType D s = some t) ↔ s.first.Readable D ∧ s.more.Readable D := by
  obtain ⟨first, more⟩ := s
  obtain ⟨hf, hm⟩ := hs
  rw [← buildSimple_isSome D first hf]
  rcases hm with hm | ⟨s, hp, hm | hm⟩ <;> simp only at hm <;> subst hm
  · simp only [SrcMore.Readable, and_true, buildType]
    cases buildSimple D first <;> simp
  · refine (bind2_isSome TypeSpec.conj _ _).trans ?_
    simp only [SrcMore.Readable, and_true, buildSimple_isSome D s hp]
  · refine (bind2_isSome TypeSpec.disj _ _).trans ?_
    simp only [SrcMore.Readable, and_true, buildSimple_isSome D s hp]

theorem buildProps_isSome (D : Dates) (s : SrcProps) (hs : s.Plain) :
    (∃ p, buildProps D s = some p) ↔ s.Readable D := by
  induction s with
  | paren a ih => exact ih hs
  | eachOf a b iha ihb => exact (bind2_isSome _ _ _).trans (and_congr (iha hs.1) (ihb hs.2))
  | oneOf a b iha ihb => exact (bind2_isSome _ _ _).trans (and_congr (iha hs.1) (ihb hs.2))
  | base o k t =>
    refine (bind1_isSome (fun ts => if o then PropValue.optionalProperty k ts else .property k ts) _).trans ?_
    exact buildType_isSome D t hs

theorem buildSpec_isSome (D : Dates) (s : SrcSpec) (hs : s.Plain) : (∃ t, buildSpec D s = some t) ↔ s.Readable D := by
  obtain ⟨labels, props⟩ := s
  obtain ⟨⟨l, hl, _⟩, hp⟩ := hs
  simp only at hl
  subst hl
  cases props with
  | none => simp [buildSpec, SrcSpec.Readable]
  | some ps =>
    simp only [buildSpec]
    rw [map_isSome, buildProps_isSome D ps (hp ps rfl)]
    simp [SrcSpec.Readable]

theorem buildEdge_isSome (D : Dates) (s e t : SrcSpec) (hs : s.Plain) (he : e.Plain) (ht : t.Plain) :
    (∃ T, buildEdge D s e t = some T) ↔ s.Readable D ∧ e.Readable D ∧ t.Readable D := by
  rw [← buildSpec_isSome D s hs, ← buildSpec_isSome D e he, ← buildSpec_isSome D t ht]
  unfold buildEdge
  cases buildSpec D s <;> cases buildSpec D e <;> cases buildSpec D t <;> simp

/-! ## Statements -/

theorem repr_ident (n : Nat) : ¬ IsIdent (toString n) := by
  rintro ⟨c, cs, h, hc⟩
  have hd : ∀ c ∈ (toString n).toList, c.isDigit = true := by
    intro c hc
    rw [Nat.toString_eq_repr, Nat.toList_repr] at hc
    exact Nat.isDigit_of_mem_toDigits (by omega) (by omega) hc
  rw [hd c (by rw [h]; simp)] at hc
  cases hc

theorem repr_inj (a b : Nat) (h : (toString a : String) = toString b) : a = b := by
  rw [Nat.toString_eq_repr, Nat.toString_eq_repr] at h
  have := congrArg String.toList h
  rw [Nat.toList_repr, Nat.toList_repr] at this
  rw [← Nat.ofDigitChars_ten_toDigits (n := a), this, Nat.ofDigitChars_ten_toDigits]

theorem lastNode_snoc (p : List Stmt) (st : Stmt) (name : String) (spec : SrcSpec) :
    LastNode (p ++ [st]) name spec ↔
      st = .node (some name) spec ∨ ((∀ spec', st ≠ .node (some name) spec') ∧ LastNode p name spec) := by
  constructor
  · rintro ⟨pre, post, h, hn⟩
    rcases List.eq_nil_or_concat post with rfl | ⟨post', x, rfl⟩
    · left
      have := List.append_inj' h rfl
      simpa using this.2
    · right
      have h' : p ++ [st] = (pre ++ Stmt.node (some name) spec :: post') ++ [x] := by simp [h]
      have := List.append_inj' h' rfl
      obtain ⟨rfl, h2⟩ := this
      simp only [List.cons.injEq, and_true] at h2
      subst h2
      refine ⟨fun spec' he => hn spec' (by simp [he]), pre, post', rfl, fun spec' hm => hn spec' (by simp [hm])⟩
  · rintro (rfl | ⟨hne, pre, post, rfl, hn⟩)
    · exact ⟨p, [], rfl, by simp⟩
    · refine ⟨pre, post ++ [st], by simp, fun spec' hm => ?_⟩
      rcases List.mem_append.1 hm with hm | hm
      · exact hn spec' hm
      · exact hne spec' (List.mem_singleton.1 hm).symm

theorem lastNode_unique (p : List Stmt) (name : String) (a b : SrcSpec) (ha : LastNode p name a)
    (hb : LastNode p name b) : a = b := by
  induction p using List.reverseRecOn with
  | nil =>
    obtain ⟨pre, post, h, _⟩ := ha
    simp at h
  | append_singleton p st ih =>
    rw [lastNode_snoc] at ha hb
    rcases ha with rfl | ⟨ha, ha'⟩ <;> rcases hb with hb | ⟨hb, hb'⟩
    · cases hb
      rfl
    · exact absurd rfl (hb a)
    · exact absurd hb (ha b)
    · exact ih ha' hb'

theorem lastNode_mem (p : List Stmt) (name : String) (a : SrcSpec) (h : LastNode p name a) :
    Stmt.node (some name) a ∈ p := by
  obtain ⟨pre, post, rfl, _⟩ := h
  simp

theorem mem_lastNode (p : List Stmt) (name : String) (a : SrcSpec) (h : Stmt.node (some name) a ∈ p) :
    ∃ b, LastNode p name b := by
  induction p using List.reverseRecOn with
  | nil => cases h
  | append_singleton p st ih =>
    by_cases hst : ∃ b, st = .node (some name) b
    · obtain ⟨b, rfl⟩ := hst
      exact ⟨b, (lastNode_snoc _ _ _ _).2 (Or.inl rfl)⟩
    · rcases List.mem_append.1 h with h | h
      · obtain ⟨b, hb⟩ := ih h
        exact ⟨b, (lastNode_snoc _ _ _ _).2 (Or.inr ⟨fun c hc => hst ⟨c, hc⟩, hb⟩)⟩
      · exact absurd ⟨a, (List.mem_singleton.1 h).symm⟩ hst

theorem buildStmts_append (D : Dates) (S : Schema) (p q : List Stmt) :
    buildStmts D S (p ++ q) = match buildStmts D S p with
      | .ok S' => buildStmts D S' q
      | .error => .error
      | .panic => .panic := by
  induction p generalizing S with
  | nil => rfl
  | cons st p ih =>
    simp only [List.cons_append, buildStmts]
    cases buildStmt D S st <;> simp [ih]

theorem edgeTypeNames_append (p q : List Stmt) : edgeTypeNames (p ++ q) = edgeTypeNames p ++ edgeTypeNames q := by
  induction p with
  | nil => rfl
  | cons st p ih =>
    rcases st with _ | ⟨_ | n, _⟩ | _ <;> simp [edgeTypeNames, ih]

theorem mem_edgeTypeNames (p : List Stmt) (n : String) :
    n ∈ edgeTypeNames p ↔ ∃ s e t, Stmt.edge (some n) s e t ∈ p := by
  induction p with
  | nil => simp [edgeTypeNames]
  | cons st p ih =>
    rcases st with ⟨_, _⟩ | ⟨_ | m, s, e, t⟩ | _ <;> simp [edgeTypeNames, ih]
    constructor
    · rintro (rfl | ⟨s', e', t', h⟩)
      · exact ⟨s, e, t, Or.inl ⟨rfl, rfl, rfl, rfl⟩⟩
      · exact ⟨s', e', t', Or.inr h⟩
    · rintro ⟨s', e', t', ⟨rfl, _⟩ | h⟩
      · exact Or.inl rfl
      · exact Or.inr ⟨s', e', t', h⟩

/-- What the schema of a text contains. -/
structure FromText (D : Dates) (p : List Stmt) (S : Schema) : Prop where
  node : ∀ name id, IsIdent name → S.nodeNames.lookup name = some id →
    ∃ spec s, LastNode p name spec ∧ S.nodeTypes.lookup id = some s ∧ buildSpec D spec = some s
  last : ∀ name spec, LastNode p name spec → ∃ id, S.nodeNames.lookup name = some id
  types : ∀ id s, S.nodeTypes.lookup id = some s →
    id < S.nodeCounter ∧ ∃ name spec, Stmt.node name spec ∈ p ∧ buildSpec D spec = some s
  bound : ∀ name id, S.nodeNames.lookup name = some id → id < S.nodeCounter
  edge : ∀ name s e t, Stmt.edge (some name) s e t ∈ p →
    ∃ id T, S.edgeNames.lookup name = some id ∧ S.edgeTypes.lookup id = some T ∧ buildEdge D s e t = some T
  kept : ∀ name s e t, Stmt.edge name s e t ∈ p →
    ∃ id T, S.edgeTypes.lookup id = some T ∧ buildEdge D s e t = some T
  enames : ∀ name id, S.edgeNames.lookup name = some id →
    id < S.edgeCounter ∧ (name ∈ edgeTypeNames p ∨ ∃ k, k < S.edgeCounter ∧ name = toString k)
  ebound : ∀ id T, S.edgeTypes.lookup id = some T → id < S.edgeCounter
  nodup : (edgeTypeNames p).Nodup
  noGraph : Stmt.graph ∉ p

theorem fromText_new (D : Dates) : FromText D [] Schema.new where
  node := by intro name id _ h; simp [Schema.new] at h
  last := by
    rintro name spec ⟨pre, post, h, _⟩
    simp at h
  types := by intro id s h; simp [Schema.new] at h
  bound := by intro name id h; simp [Schema.new] at h
  edge := by intro name s e t h; cases h
  kept := by intro name s e t h; cases h
  enames := by intro name id h; simp [Schema.new] at h
  ebound := by intro id T h; simp [Schema.new] at h
  nodup := List.nodup_nil
  noGraph := by simp

/-- Adding a node type under the name `x` keeps what the other statements have built. -/
theorem fromText_node (D : Dates) (p : List Stmt) (S : Schema) (h : FromText D p S) (name : Option String)
    (spec : SrcSpec) (s : Spec) (hs : buildSpec D spec = some s) (x : String)
    (hx : name = some x ∨ name = none ∧ ¬ IsIdent x) (hid : ∀ n spec, Stmt.node (some n) spec ∈ p → IsIdent n) :
    FromText D (p ++ [.node name spec]) (S.addNodeSpec x s) where
  node := by
    intro n id hn hl
    simp only [Schema.addNodeSpec, lookup_insert_if] at hl ⊢
    rcases hx with rfl | ⟨rfl, hx⟩
    · split at hl
      · cases hl
        subst n
        exact ⟨spec, s, (lastNode_snoc _ _ _ _).2 (Or.inl rfl), by simp, hs⟩
      · rename_i hne
        obtain ⟨spec', s', h1, h2, h3⟩ := h.node n id hn hl
        refine ⟨spec', s', (lastNode_snoc _ _ _ _).2 (Or.inr ⟨fun c hc => hne ?_, h1⟩), ?_, h3⟩
        · simp only [Stmt.node.injEq, Option.some.injEq] at hc
          exact hc.1.symm
        · rw [if_neg (Nat.ne_of_lt (h.types id s' h2).1), h2]
    · split at hl
      · subst n
        exact absurd hn hx
      · obtain ⟨spec', s', h1, h2, h3⟩ := h.node n id hn hl
        refine ⟨spec', s', (lastNode_snoc _ _ _ _).2 (Or.inr ⟨fun c hc => ?_, h1⟩), ?_, h3⟩
        · cases hc
        · rw [if_neg (Nat.ne_of_lt (h.types id s' h2).1), h2]
  last := by
    intro n spec' hl
    simp only [Schema.addNodeSpec, lookup_insert_if]
    rcases (lastNode_snoc _ _ _ _).1 hl with hc | ⟨_, hl⟩
    · simp only [Stmt.node.injEq] at hc
      rcases hx with rfl | ⟨rfl, hx⟩
      · simp only [Option.some.injEq] at hc
        rw [if_pos hc.1.symm]
        exact ⟨_, rfl⟩
      · cases hc.1
    · split
      · exact ⟨_, rfl⟩
      · exact h.last n spec' hl
  types := by
    intro id s' hl
    simp only [Schema.addNodeSpec, lookup_insert_if] at hl ⊢
    split at hl
    · cases hl
      subst id
      exact ⟨Nat.lt_succ_self _, name, spec, by simp, hs⟩
    · obtain ⟨h1, n, sp, h2, h3⟩ := h.types id s' hl
      exact ⟨Nat.lt_succ_of_lt h1, n, sp, by simp [h2], h3⟩
  bound := by
    intro n id hl
    simp only [Schema.addNodeSpec, lookup_insert_if] at hl ⊢
    split at hl
    · cases hl
      exact Nat.lt_succ_self _
    · exact Nat.lt_succ_of_lt (h.bound n id hl)
  edge := by
    intro n s' e' t' hm
    simp only [List.mem_append, List.mem_singleton, reduceCtorEq, or_false] at hm
    exact h.edge n s' e' t' hm
  kept := by
    intro n s' e' t' hm
    simp only [List.mem_append, List.mem_singleton, reduceCtorEq, or_false] at hm
    exact h.kept n s' e' t' hm
  enames := by
    intro n id hl
    rw [edgeTypeNames_append]
    simp only [edgeTypeNames, List.append_nil]
    exact h.enames n id hl
  ebound := h.ebound
  nodup := by
    rw [edgeTypeNames_append]
    simpa [edgeTypeNames] using h.nodup
  noGraph := by simpa using h.noGraph

/-- Adding an edge type under a new name keeps what the other statements have built. -/
theorem fromText_edge (D : Dates) (p : List Stmt) (S : Schema) (h : FromText D p S) (name : Option String)
    (s e t : SrcSpec) (T : EdgeType) (hT : buildEdge D s e t = some T) (x : String)
    (hx : name = some x ∨ name = none ∧ x = toString S.edgeCounter) (hn : S.edgeNames.lookup x = none) :
    FromText D (p ++ [.edge name s e t])
      { S with edgeTypes := S.edgeTypes.insert S.edgeCounter T
               edgeNames := S.edgeNames.insert x S.edgeCounter
               edgeCounter := S.edgeCounter + 1 } where
  node := by
    intro n id hn' hl
    obtain ⟨spec', s', h1, h2, h3⟩ := h.node n id hn' hl
    exact ⟨spec', s', (lastNode_snoc _ _ _ _).2 (Or.inr ⟨fun c hc => (by cases hc), h1⟩), h2, h3⟩
  last := by
    intro n spec' hl
    rcases (lastNode_snoc _ _ _ _).1 hl with hc | ⟨_, hl⟩
    · cases hc
    · exact h.last n spec' hl
  types := by
    intro id s' hl
    obtain ⟨h1, n, sp, h2, h3⟩ := h.types id s' hl
    exact ⟨h1, n, sp, by simp [h2], h3⟩
  bound := h.bound
  edge := by
    intro n s' e' t' hm
    simp only [lookup_insert_if]
    rcases List.mem_append.1 hm with hm | hm
    · obtain ⟨id, T', h1, h2, h3⟩ := h.edge n s' e' t' hm
      have hne : n ≠ x := by
        rintro rfl
        rw [hn] at h1
        cases h1
      exact ⟨id, T', by rw [if_neg hne, h1], by rw [if_neg (Nat.ne_of_lt (h.ebound id T' h2)), h2], h3⟩
    · simp only [List.mem_singleton, Stmt.edge.injEq] at hm
      obtain ⟨h0, rfl, rfl, rfl⟩ := hm
      rcases hx with rfl | ⟨rfl, _⟩
      · cases h0
        exact ⟨_, T, by rw [if_pos rfl], by rw [if_pos rfl], hT⟩
      · cases h0
  kept := by
    intro n s' e' t' hm
    simp only [lookup_insert_if]
    rcases List.mem_append.1 hm with hm | hm
    · obtain ⟨id, T', h2, h3⟩ := h.kept n s' e' t' hm
      exact ⟨id, T', by rw [if_neg (Nat.ne_of_lt (h.ebound id T' h2)), h2], h3⟩
    · simp only [List.mem_singleton, Stmt.edge.injEq] at hm
      obtain ⟨_, rfl, rfl, rfl⟩ := hm
      exact ⟨_, T, by rw [if_pos rfl], hT⟩
  enames := by
    intro n id hl
    simp only [lookup_insert_if] at hl ⊢
    rw [edgeTypeNames_append]
    split at hl
    · cases hl
      subst n
      refine ⟨Nat.lt_succ_self _, ?_⟩
      rcases hx with rfl | ⟨rfl, rfl⟩
      · left
        simp [edgeTypeNames]
      · right
        exact ⟨_, Nat.lt_succ_self _, rfl⟩
    · obtain ⟨h1, h2⟩ := h.enames n id hl
      refine ⟨Nat.lt_succ_of_lt h1, ?_⟩
      rcases h2 with h2 | ⟨k, hk, h2⟩
      · left
        simp [h2]
      · right
        exact ⟨k, Nat.lt_succ_of_lt hk, h2⟩
  ebound := by
    intro id T' hl
    simp only [lookup_insert_if] at hl ⊢
    split at hl
    · subst id
      exact Nat.lt_succ_self _
    · exact Nat.lt_succ_of_lt (h.ebound id T' hl)
  nodup := by
    rw [edgeTypeNames_append]
    rcases hx with rfl | ⟨rfl, _⟩
    · simp only [edgeTypeNames]
      rw [List.nodup_append]
      refine ⟨h.nodup, by simp, fun a ha b hb => ?_⟩
      simp only [List.mem_singleton] at hb
      subst hb
      rintro rfl
      obtain ⟨s', e', t', hm⟩ := (mem_edgeTypeNames p a).1 ha
      obtain ⟨id, T', h1, _⟩ := h.edge a s' e' t' hm
      rw [hn] at h1
      cases h1
    · simpa [edgeTypeNames] using h.nodup
  noGraph := by simpa using h.noGraph

/-- The names that statements give are as the lexer makes them. -/
def NamedText (p : List Stmt) : Prop :=
  (∀ n spec, Stmt.node (some n) spec ∈ p → IsIdent n) ∧ ∀ n s e t, Stmt.edge (some n) s e t ∈ p → IsIdent n

theorem plain_named (p : List Stmt) (h : PlainText p) : NamedText p :=
  ⟨fun n spec hm => (h _ hm).1 n rfl, fun n s e t hm => (h _ hm).1 n rfl⟩

theorem not_mem_keys {V : Type} (m : HMap String V) (x : String) : x ∉ m.keys ↔ m.lookup x = none := by
  rw [AList.lookup_eq_none, AList.mem_keys]

/-- A name that no edge type has, in the schema of a text. -/
theorem edgeNames_none (D : Dates) (p : List Stmt) (S : Schema) (h : FromText D p S) (x : String) (hx : IsIdent x)
    (hn : x ∉ edgeTypeNames p) : S.edgeNames.lookup x = none := by
  cases hl : S.edgeNames.lookup x with
  | none => rfl
  | some id =>
    rcases (h.enames x id hl).2 with h2 | ⟨k, _, rfl⟩
    · exact absurd h2 hn
    · exact absurd hx (repr_ident k)

theorem blank_none (D : Dates) (p : List Stmt) (hp : NamedText p) (S : Schema) (h : FromText D p S) :
    S.edgeNames.lookup (toString S.edgeCounter) = none := by
  cases hl : S.edgeNames.lookup (toString S.edgeCounter) with
  | none => rfl
  | some id =>
    rcases (h.enames _ id hl).2 with h2 | ⟨k, hk, h2⟩
    · obtain ⟨s, e, t, hm⟩ := (mem_edgeTypeNames p _).1 h2
      exact absurd (hp.2 _ s e t hm) (repr_ident _)
    · exact absurd (repr_inj _ _ h2) (Nat.ne_of_gt hk)

/-- One statement on the schema of the statements before it. -/
theorem buildStmt_fromText (D : Dates) (p : List Stmt) (st : Stmt) (hp : NamedText (p ++ [st])) (S S' : Schema)
    (h : FromText D p S) (hb : buildStmt D S st = .ok S') : FromText D (p ++ [st]) S' := by
  have hp' : NamedText p := ⟨fun n s hm => hp.1 n s (by simp [hm]), fun n s e t hm => hp.2 n s e t (by simp [hm])⟩
  rcases st with ⟨name, spec⟩ | ⟨name, s, e, t⟩ | _
  · simp only [buildStmt] at hb
    cases hs : buildSpec D spec with
    | none => rw [hs] at hb; cases hb
    | some s =>
      rw [hs] at hb
      cases name with
      | some n =>
        cases hb
        exact fromText_node D p S h (some n) spec s hs n (Or.inl rfl) hp'.1
      | none =>
        cases hb
        exact fromText_node D p S h none spec s hs _ (Or.inr ⟨rfl, repr_ident _⟩) hp'.1
  · simp only [buildStmt] at hb
    cases hT : buildEdge D s e t with
    | none => rw [hT] at hb; cases hb
    | some T =>
      rw [hT] at hb
      cases name with
      | some n =>
        simp only [Schema.addEdgeSpec] at hb
        by_cases hk : n ∈ S.edgeNames.keys
        · simp only [hk, if_true] at hb
          cases hb
        · simp only [hk, if_false, Parsed.ok.injEq] at hb
          subst hb
          exact fromText_edge D p S h (some n) s e t T hT n (Or.inl rfl) ((not_mem_keys _ _).1 hk)
      | none =>
        have hk := blank_none D p hp' S h
        simp only [Schema.addBlankEdgeSpec, Schema.addEdgeSpec, (not_mem_keys _ _).2 hk, if_false,
          Parsed.ok.injEq] at hb
        subst hb
        exact fromText_edge D p S h none s e t T hT _ (Or.inr ⟨rfl, rfl⟩) hk
  · cases hb

/-- The schema of a text is as the text. -/
theorem buildSchema_fromText (D : Dates) (p : List Stmt) (hp : NamedText p) (S : Schema)
    (h : buildSchema D p = .ok S) : FromText D p S := by
  induction p using List.reverseRecOn generalizing S with
  | nil =>
    cases h
    exact fromText_new D
  | append_singleton p st ih =>
    have hp' : NamedText p := ⟨fun n s hm => hp.1 n s (by simp [hm]), fun n s e t hm => hp.2 n s e t (by simp [hm])⟩
    simp only [buildSchema, buildStmts_append] at h
    cases hq : buildStmts D Schema.new p with
    | ok S0 =>
      rw [hq] at h
      simp only [buildStmts] at h
      cases hs : buildStmt D S0 st with
      | ok S1 =>
        rw [hs] at h
        simp only [Parsed.ok.injEq] at h
        subst h
        exact buildStmt_fromText D p st hp S0 S1 (ih hp' S0 hq) hs
      | error => rw [hs] at h; cases h
      | panic => rw [hs] at h; cases h
    | error => rw [hq] at h; cases h
    | panic => rw [hq] at h; cases h

/-! ## Descriptions -/

theorem says_describes (X : Ext) (D : Dates) (p : List Stmt) (hp : PlainText p) (S : Schema) (h : FromText D p S)
    (r : Record) (spec : SrcSpec) (L : LabelSet) (K : Finset String) (hd : Says X D p r spec L K) (hs : spec.Plain)
    (s : Spec) (hb : buildSpec D spec = some s) : Describes X S r s L K := by
  have pl : ∀ l : SrcLabels, l.Named → SrcSpec.Plain ⟨some l, none⟩ := fun l hl => ⟨⟨l, rfl, hl⟩, by simp⟩
  induction hd generalizing s with
  | nothing =>
    obtain ⟨⟨l, hl, _⟩, _⟩ := hs
    cases hl
  | label l => cases hb; exact .label l
  | @typeName name sp L K hl _ ih =>
    cases hb
    have hm := hp _ (lastNode_mem p name sp hl)
    obtain ⟨id, hid⟩ := h.last name sp hl
    obtain ⟨sp', s', h1, h2, h3⟩ := h.node name id (hm.1 name rfl) hid
    cases lastNode_unique p name sp sp' hl h1
    exact .ref hid h2 (ih hm.2 s' h3)
  | paren _ ih =>
    obtain ⟨⟨l, hl, hn⟩, _⟩ := hs
    cases hl
    exact ih (pl _ hn) s hb
  | square _ ih =>
    obtain ⟨⟨l, hl, hn⟩, _⟩ := hs
    cases hl
    exact ih (pl _ hn) s hb
  | conj _ _ iha ihb =>
    obtain ⟨⟨l, hl, hn⟩, _⟩ := hs
    cases hl
    cases hb
    exact .and (iha (pl _ hn.1) _ rfl) (ihb (pl _ hn.2) _ rfl)
  | left _ ih =>
    obtain ⟨⟨l, hl, hn⟩, _⟩ := hs
    cases hl
    cases hb
    exact .left (ih (pl _ hn.1) _ rfl)
  | right _ ih =>
    obtain ⟨⟨l, hl, hn⟩, _⟩ := hs
    cases hl
    cases hb
    exact .right (ih (pl _ hn.2) _ rfl)
  | @props l ps L K1 K2 _ hK ih =>
    obtain ⟨⟨l', hl, hn⟩, hps⟩ := hs
    simp only at hl
    subst hl
    simp only [buildSpec, Option.map_eq_some_iff] at hb
    obtain ⟨pv, hpv, rfl⟩ := hb
    exact .content (ih (pl _ hn) _ rfl) (((buildProps_choice X D r ps (hps ps rfl) pv hpv).2 K2).1 hK)

theorem buildLabels_ne_content (l : SrcLabels) (s : Spec) (p : PropSpec) : buildLabels l ≠ .content s p := by
  induction l with
  | paren a ih => exact ih
  | square a ih => exact ih
  | _ => intro h; cases h

theorem describes_says (X : Ext) (D : Dates) (p : List Stmt) (hp : PlainText p) (S : Schema) (h : FromText D p S)
    (r : Record) (s : Spec) (L : LabelSet) (K : Finset String) (hd : Describes X S r s L K) :
    ∀ spec : SrcSpec, spec.Plain → buildSpec D spec = some s → Says X D p r spec L K := by
  have lift : ∀ (s : Spec) (L : LabelSet) (K : Finset String), (∀ s' q, s ≠ .content s' q) →
      (∀ l : SrcLabels, l.Named → buildLabels l = s → Says X D p r ⟨some l, none⟩ L K) →
      ∀ spec : SrcSpec, spec.Plain → buildSpec D spec = some s → Says X D p r spec L K := by
    rintro s L K hc hl ⟨_, props⟩ ⟨⟨l, rfl, hn⟩, _⟩ hb
    cases props with
    | none =>
      simp only [buildSpec, Option.some.injEq] at hb
      exact hl l hn hb
    | some ps =>
      simp only [buildSpec, Option.map_eq_some_iff] at hb
      obtain ⟨pv, _, rfl⟩ := hb
      exact absurd rfl (hc _ _)
  have plain : ∀ l : SrcLabels, l.Named → SrcSpec.Plain ⟨some l, none⟩ := fun l hl => ⟨⟨l, rfl, hl⟩, by simp⟩
  induction hd with
  | label n =>
    refine lift _ _ _ (by simp) fun l hn hb => ?_
    induction l with
    | paren a ih => exact .paren (ih hn hb)
    | square a ih => exact .square (ih hn hb)
    | label m => cases hb; exact .label _
    | _ => cases hb
  | @ref name id s L K h1 h2 _ ih =>
    refine lift _ _ _ (by simp) fun l hn hb => ?_
    induction l with
    | paren a ih => exact .paren (ih hn hb)
    | square a ih => exact .square (ih hn hb)
    | typeName m =>
      cases hb
      obtain ⟨sp, s', h3, h4, h5⟩ := h.node name id hn h1
      rw [h2] at h4
      cases h4
      exact .typeName h3 (ih sp (hp _ (lastNode_mem p name sp h3)).2 h5)
    | _ => cases hb
  | @and a b L1 L2 K1 K2 _ _ iha ihb =>
    refine lift _ _ _ (by simp) fun l hn hb => ?_
    induction l with
    | paren a ih => exact .paren (ih hn hb)
    | square a ih => exact .square (ih hn hb)
    | conj x y _ _ =>
      cases hb
      exact .conj (iha ⟨some x, none⟩ (plain x hn.1) rfl) (ihb ⟨some y, none⟩ (plain y hn.2) rfl)
    | _ => cases hb
  | @left a b L K _ ih =>
    refine lift _ _ _ (by simp) fun l hn hb => ?_
    induction l with
    | paren a ih => exact .paren (ih hn hb)
    | square a ih => exact .square (ih hn hb)
    | disj x y _ _ =>
      cases hb
      exact .left (ih ⟨some x, none⟩ (plain x hn.1) rfl)
    | _ => cases hb
  | @right a b L K _ ih =>
    refine lift _ _ _ (by simp) fun l hn hb => ?_
    induction l with
    | paren a ih => exact .paren (ih hn hb)
    | square a ih => exact .square (ih hn hb)
    | disj x y _ _ =>
      cases hb
      exact .right (ih ⟨some y, none⟩ (plain y hn.2) rfl)
    | _ => cases hb
  | @content s q L K1 K2 _ hK ih =>
    rintro ⟨_, props⟩ ⟨⟨l, rfl, hn⟩, hps⟩ hb
    cases props with
    | none =>
      simp only [buildSpec, Option.some.injEq] at hb
      exact absurd hb (buildLabels_ne_content l _ _)
    | some ps =>
      simp only [buildSpec, Option.map_eq_some_iff] at hb
      obtain ⟨pv, hpv, he⟩ := hb
      simp only [Spec.content.injEq, PropSpec.closed.injEq] at he
      obtain ⟨rfl, rfl⟩ := he
      exact .props (ih ⟨some l, none⟩ (plain l hn) rfl)
        (((buildProps_choice X D r ps (hps ps rfl) pv hpv).2 K2).2 hK)

theorem grounded_resolves (D : Dates) (p : List Stmt) (hp : PlainText p) (S : Schema) (h : FromText D p S)
    (spec : SrcSpec) (hg : Grounded p spec) (s : Spec) (hb : buildSpec D spec = some s) : Resolves S s := by
  have lift : ∀ (l : SrcLabels) (ps : Option SrcProps) (s : Spec), Resolves S (buildLabels l) →
      buildSpec D ⟨some l, ps⟩ = some s → Resolves S s := by
    intro l ps s hr hb
    cases ps with
    | none => cases hb; exact hr
    | some ps =>
      simp only [buildSpec, Option.map_eq_some_iff] at hb
      obtain ⟨pv, _, rfl⟩ := hb
      exact .content hr
  induction hg generalizing s with
  | nothing ps => cases hb; exact .empty
  | label l ps => exact lift _ _ _ (.label l) hb
  | @typeName name sp ps hl _ ih =>
    refine lift _ _ _ ?_ hb
    have hm := hp _ (lastNode_mem p name sp hl)
    obtain ⟨id, hid⟩ := h.last name sp hl
    obtain ⟨sp', s', h1, h2, h3⟩ := h.node name id (hm.1 name rfl) hid
    cases lastNode_unique p name sp sp' hl h1
    exact .ref hid h2 (ih s' h3)
  | paren ps _ ih => exact lift _ _ _ (ih _ rfl) hb
  | square ps _ ih => exact lift _ _ _ (ih _ rfl) hb
  | conj ps _ _ iha ihb => exact lift (.conj _ _) _ _ (.and (iha _ rfl) (ihb _ rfl)) hb
  | disj ps _ _ iha ihb => exact lift (.disj _ _) _ _ (.or (iha _ rfl) (ihb _ rfl)) hb

end Pg
