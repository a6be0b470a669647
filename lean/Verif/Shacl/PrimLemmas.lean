import Verif.Shacl.PrimSpec
import Verif.Lit.PropsNum
import Verif.Lit.PropsLex

/-!
# Lemmas: SHACL constraints that do not refer to shapes
-/

namespace Shacl
open Lit

section
variable {D : Type} {E : Env D}

theorem each_eq {x : Term} {vs : List Term} {bad : Term → Bool} {Bad : Term → Prop} (hx : E.obj x ≠ none)
    (h : ∀ v ∈ vs, bad v = true ↔ Bad v) : E.each x vs bad = violations E vs Bad := by
  unfold Env.each violations
  cases ho : E.obj x with
  | none => exact absurd ho hx
  | some o =>
    simp only
    congr 1
    apply List.filter_congr
    intro v hv
    rw [Bool.eq_iff_iff, h v hv]
    simp

theorem once_eq {x : Term} (hx : E.obj x ≠ none) (b : Bool) : E.once x b = if b then [⟨none, none⟩] else [] := by
  unfold Env.once
  cases ho : E.obj x with
  | none => exact absurd ho hx
  | some o => rfl

theorem intLex_parse {k : IntKind} (hk : k ≠ .nonNegativeInteger) {s : Str}
    (h : ∀ minus n, IntLex s minus n → n.natAbs < 2 ^ 96 ∧ (minus = true → ¬ Unsigned k)) (n : Int) :
    parseInt k s = some n ↔ ∃ minus, IntLex s minus n ∧ XsdRange k n := by
  rw [parseInt_iff k hk]
  constructor
  · rintro ⟨m, h1, h2, _, _⟩; exact ⟨m, h1, h2⟩
  · rintro ⟨m, h1, h2⟩
    obtain ⟨h3, h4⟩ := h m n h1
    refine ⟨m, h1, h2, ?_, h4⟩
    have : -2 ^ 127 ≤ n ∧ n < 2 ^ 127 := by omega
    cases k <;> simp only [Fits] <;> first | exact this | omega

/-- A literal for a number is read as the number it denotes. -/
theorem denotes_iff {r : RdfLiteral} {d : Dt} (hn : Numeric r) (hr : Readable E.X r) (hd : r.dt = some d) (q : ℚ) :
    Denotes E.X r q ↔ ∃ n, checkDatatype E.X r.lex d = some (.num n) ∧ n.val E.X = some q := by
  obtain ⟨hl, hn⟩ := hn
  obtain ⟨h1, h2, h3⟩ := hr
  rcases hn with ⟨k, hk⟩ | hk | hk | hk <;> rw [hk] at hd <;> cases hd
  · obtain ⟨hk', hlex⟩ := h1 k hk
    simp only [Denotes, hk, checkDatatype, validate]
    constructor
    · rintro ⟨_, ⟨k', m, n, e, h, hx, rfl⟩ | ⟨d, e, _⟩ | ⟨b, d, e, _⟩ | ⟨b, d, e, _⟩⟩
      · cases e
        rw [(intLex_parse hk' hlex n).2 ⟨m, h, hx⟩]
        refine ⟨_, rfl, ?_⟩
        have := (hlex m n h).1
        simp only [Num.val, Num.toDec, decOfInt, if_pos this, Option.map_some, Dec.val, pow_zero, div_one]
      all_goals cases e
    · rintro ⟨n, hc, hv⟩
      refine ⟨hl, Or.inl ?_⟩
      cases hp : parseInt k r.lex with
      | none => rw [hp] at hc; cases hc
      | some i =>
        rw [hp] at hc
        simp only [Option.some.injEq, Literal.num.injEq] at hc
        subst hc
        obtain ⟨m, h4, h5⟩ := (intLex_parse hk' hlex i).1 hp
        refine ⟨k, m, i, rfl, h4, h5, ?_⟩
        have := (hlex m i h4).1
        simp only [Num.val, Num.toDec, decOfInt, if_pos this, Option.map_some, Option.some.injEq, Dec.val] at hv
        rw [← hv]; simp
  · simp only [Denotes, hk, checkDatatype, validate]
    constructor
    · rintro ⟨_, ⟨k', m, n, e, h, hx, rfl⟩ | ⟨d, e, he, hE, hp, rfl⟩ | ⟨b, d, e, _⟩ | ⟨b, d, e, _⟩⟩
      · cases e
      · refine ⟨.decimal d, ?_, rfl⟩
        simp [he, hE, hp]
      all_goals cases e
    · rintro ⟨n, hc, hv⟩
      refine ⟨hl, Or.inr (Or.inl ?_)⟩
      by_cases hc' : (r.lex.contains 'e' || r.lex.contains 'E') = true
      · rw [if_pos hc'] at hc; cases hc
      · rw [if_neg hc'] at hc
        simp only [List.contains_iff_mem, Bool.or_eq_true, not_or] at hc'
        cases hp : E.X.parseDec r.lex with
        | none => rw [hp] at hc; cases hc
        | some dd =>
          rw [hp] at hc
          simp only [Option.some.injEq, Literal.num.injEq] at hc
          subst hc
          simp only [Num.val, Num.toDec, Option.map_some, Option.some.injEq] at hv
          exact ⟨dd, trivial, hc'.1, hc'.2, rfl, hv.symm⟩
  · simp only [Denotes, hk, checkDatatype, validate]
    constructor
    · rintro ⟨_, ⟨k', m, n, e, h, hx, rfl⟩ | ⟨d, e, he, hE, hp, rfl⟩ | ⟨b, d, e, hp, hc, rfl⟩ | ⟨b, d, e, _⟩⟩
      · cases e
      · cases e
      · refine ⟨.double b, ?_, by simp [Num.val, Num.toDec, hc]⟩
        simp [(h2 b hk hp).1, hp]
      · cases e
    · rintro ⟨n, hc, hv⟩
      refine ⟨hl, Or.inr (Or.inr (Or.inl ?_))⟩
      cases hp : E.X.parseF64 r.lex with
      | none => rw [hp] at hc; simp at hc
      | some b =>
        rw [hp, (h2 b hk hp).1] at hc
        simp only [Bool.false_eq_true, if_false, Option.some.injEq, Literal.num.injEq] at hc
        subst hc
        simp only [Num.val, Num.toDec, Option.map_eq_some_iff] at hv
        obtain ⟨d, hd, hv⟩ := hv
        exact ⟨b, d, trivial, rfl, hd, hv.symm⟩
  · simp only [Denotes, hk, checkDatatype, validate]
    constructor
    · rintro ⟨_, ⟨k', m, n, e, h, hx, rfl⟩ | ⟨d, e, he, hE, hp, rfl⟩ | ⟨b, d, e, _⟩ | ⟨b, d, e, hp, hc, rfl⟩⟩
      · cases e
      · cases e
      · cases e
      · refine ⟨.float b, ?_, by simp [Num.val, Num.toDec, hc]⟩
        simp [(h3 b hk hp).1, hp]
    · rintro ⟨n, hc, hv⟩
      refine ⟨hl, Or.inr (Or.inr (Or.inr ?_))⟩
      cases hp : E.X.parseF32 r.lex with
      | none => rw [hp] at hc; simp at hc
      | some b =>
        rw [hp, (h3 b hk hp).1] at hc
        simp only [Bool.false_eq_true, if_false, Option.some.injEq, Literal.num.injEq] at hc
        subst hc
        simp only [Num.val, Num.toDec, Option.map_eq_some_iff] at hv
        obtain ⟨d, hd, hv⟩ := hv
        exact ⟨b, d, trivial, rfl, hd, hv.symm⟩

/-- A number that is read can be converted. -/
theorem readable_val {r : RdfLiteral} {d : Dt} (hr : Readable E.X r) (hd : r.dt = some d) {n : Num}
    (hc : checkDatatype E.X r.lex d = some (.num n)) : n.val E.X ≠ none := by
  obtain ⟨h1, h2, h3⟩ := hr
  cases d with
  | int k =>
    obtain ⟨hk', hlex⟩ := h1 k hd
    simp only [checkDatatype, validate] at hc
    cases hp : parseInt k r.lex with
    | none => rw [hp] at hc; cases hc
    | some i =>
      rw [hp] at hc
      simp only [Option.some.injEq, Literal.num.injEq] at hc
      subst hc
      obtain ⟨m, h4, h5⟩ := (intLex_parse hk' hlex i).1 hp
      have := (hlex m i h4).1
      simp only [Num.val, Num.toDec, decOfInt, if_pos this]
      exact Option.some_ne_none _
  | decimal =>
    simp only [checkDatatype, validate] at hc
    split at hc <;> simp only [Option.some.injEq, Literal.num.injEq, reduceCtorEq] at hc
    subst hc
    simp [Num.val, Num.toDec]
  | double =>
    simp only [checkDatatype, validate] at hc
    cases hp : E.X.parseF64 r.lex with
    | none => rw [hp] at hc; simp at hc
    | some b =>
      rw [hp, (h2 b hd hp).1] at hc
      simp only [Bool.false_eq_true, if_false, Option.some.injEq, Literal.num.injEq] at hc
      subst hc
      simpa [Num.val, Num.toDec] using (h2 b hd hp).2
  | float =>
    simp only [checkDatatype, validate] at hc
    cases hp : E.X.parseF32 r.lex with
    | none => rw [hp] at hc; simp at hc
    | some b =>
      rw [hp, (h3 b hd hp).1] at hc
      simp only [Bool.false_eq_true, if_false, Option.some.injEq, Literal.num.injEq] at hc
      subst hc
      simpa [Num.val, Num.toDec] using (h3 b hd hp).2
  | boolean => simp only [checkDatatype, validate] at hc; split at hc <;> simp at hc
  | dateTime => simp only [checkDatatype, validate] at hc; split at hc <;> simp at hc
  | string => simp [checkDatatype] at hc
  | langString => simp [checkDatatype] at hc
  | other s => simp [checkDatatype] at hc
  | prefixed a b => simp [checkDatatype] at hc

/-- What a number is converted to. -/
theorem ofRdf_numeric {r : RdfLiteral} {d : Dt} (hn : Numeric r) (hd : r.dt = some d) :
    (∃ n, checkDatatype E.X r.lex d = some (.num n) ∧
      Literal.ofRdf E.X E.norm r = some (if d = .int .integer ∨ d = .decimal ∨ d = .double ∨ d = .float
        then .typed r.lex d else .num n)) ∨
    ((∀ n, checkDatatype E.X r.lex d ≠ some (.num n)) ∧ ∃ e, Literal.ofRdf E.X E.norm r = some (.wrong r.lex d e)) := by
  have hcases : (∃ n, checkDatatype E.X r.lex d = some (.num n)) ∨ ∃ e, checkDatatype E.X r.lex d = some (.wrong r.lex d e) := by
    rcases hn.2 with ⟨k, hk⟩ | hk | hk | hk <;> rw [hd] at hk <;> cases hk <;>
      simp only [checkDatatype, validate] <;> split <;> simp
  rcases hcases with ⟨n, h⟩ | ⟨e, h⟩
  · refine Or.inl ⟨n, h, ?_⟩
    simp only [Literal.ofRdf, hd, hn.1, h]
    split <;> rfl
  · refine Or.inr ⟨(fun n h' => by rw [h] at h'; cases h'), e, ?_⟩
    simp only [Literal.ofRdf, hd, hn.1, h]
    split <;> rfl

/-- Rational numbers compared. -/
def cmpQ (a b : ℚ) : Ordering := if a < b then .lt else if a = b then .eq else .gt

theorem partialCmp_val {a b : Num} {x y : ℚ} (ha : a.val E.X = some x) (hb : b.val E.X = some y) :
    a.partialCmp E.X b = some (cmpQ x y) := by
  obtain ⟨_, _, h1, h2, h3, _⟩ := C48_convertible_partial E.X a b x y ha hb
  unfold cmpQ
  split
  · rename_i h; exact h1.2 h
  · split
    · rename_i h; exact h2.2 h
    · rename_i h h'; exact h3.2 (lt_of_le_of_ne (not_lt.1 h) (Ne.symm h'))

/-- Literals for numbers, both kept as texts or both not, are compared as the numbers they denote. -/
theorem cmp_denoted {r rb : RdfLiteral} {l b : Literal D} {qb : ℚ} (hn : Numeric r) (hr : Readable E.X r)
    (hnb : Numeric rb) (hrb : Readable E.X rb) (hk : Kept r ↔ Kept rb) (hb : Literal.ofRdf E.X E.norm rb = some b)
    (hq : Denotes E.X rb qb) (hl : Literal.ofRdf E.X E.norm r = some l) :
    (∃ q, Denotes E.X r q ∧ l.partialCmp E.X b = some (cmpQ q qb) ∧ b.partialCmp E.X l = some (cmpQ qb q)) ∨
    ((∀ q, ¬ Denotes E.X r q) ∧ l.partialCmp E.X b = none ∧ b.partialCmp E.X l = none) := by
  have hdt : ∀ {r : RdfLiteral}, Numeric r → ∃ d, r.dt = some d := by
    rintro r ⟨_, ⟨k, h⟩ | h | h | h⟩ <;> exact ⟨_, h⟩
  obtain ⟨d, hd⟩ := hdt hn
  obtain ⟨db, hdb⟩ := hdt hnb
  obtain ⟨nb, hcb, hvb⟩ := (denotes_iff hnb hrb hdb qb).1 hq
  have hbl : b = if db = .int .integer ∨ db = .decimal ∨ db = .double ∨ db = .float then .typed rb.lex db else .num nb := by
    rcases ofRdf_numeric (E := E) hnb hdb with ⟨n, h, h'⟩ | ⟨h, _⟩
    · rw [hb] at h'
      rw [hcb] at h
      cases h
      exact Option.some.inj h'
    · exact absurd hcb (h nb)
  have hk' : (d = .int .integer ∨ d = .decimal ∨ d = .double ∨ d = .float) ↔
      (db = .int .integer ∨ db = .decimal ∨ db = .double ∨ db = .float) := by
    simpa [Kept, hd, hdb] using hk
  rcases ofRdf_numeric (E := E) hn hd with ⟨n, hc, h'⟩ | ⟨h, e, h'⟩
  · left
    rw [hl] at h'
    have h' := Option.some.inj h'
    cases hv : n.val E.X with
    | none => exact absurd hv (readable_val hr hd hc)
    | some q =>
      refine ⟨q, (denotes_iff hn hr hd q).2 ⟨n, hc, hv⟩, ?_⟩
      have h1 := partialCmp_val hv hvb
      have h2 := partialCmp_val hvb hv
      by_cases hkd : (d = .int .integer ∨ d = .decimal ∨ d = .double ∨ d = .float)
      · rw [if_pos hkd] at h'
        rw [if_pos (hk'.1 hkd)] at hbl
        subst h'; subst hbl
        simp only [Literal.partialCmp, hc, hcb, h1, h2, and_self]
      · rw [if_neg hkd] at h'
        rw [if_neg (fun h => hkd (hk'.2 h))] at hbl
        subst h'; subst hbl
        simp only [Literal.partialCmp, h1, h2, and_self]
  · right
    rw [hl] at h'
    have h' := Option.some.inj h'
    refine ⟨fun q hq => ?_, ?_⟩
    · obtain ⟨n, hn', _⟩ := (denotes_iff hn hr hd q).1 hq
      exact h n hn'
    · subst h'; subst hbl
      split <;> simp [Literal.partialCmp]

/-- A literal that is not of a datatype for numbers is not comparable with one that is. -/
theorem cmp_other {r rb : RdfLiteral} {l b : Literal D} (hn : ¬ Numeric r) (hnb : Numeric rb)
    (hb : Literal.ofRdf E.X E.norm rb = some b) (hl : Literal.ofRdf E.X E.norm r = some l) :
    l.partialCmp E.X b = none := by
  have hbl : (∃ n, b = .num n) ∨ (∃ d, b = .typed rb.lex d ∧ rb.dt = some d ∧ rb.lang = none) ∨ ∃ d e, b = .wrong rb.lex d e := by
    have hdt : ∃ d, rb.dt = some d := by
      rcases hnb.2 with ⟨k, h⟩ | h | h | h <;> exact ⟨_, h⟩
    obtain ⟨d, hd⟩ := hdt
    rcases ofRdf_numeric (E := E) hnb hd with ⟨n, _, h'⟩ | ⟨_, e, h'⟩
    · rw [hb] at h'
      have h' := Option.some.inj h'
      split at h'
      · exact Or.inr (Or.inl ⟨d, h', hd, hnb.1⟩)
      · exact Or.inl ⟨n, h'⟩
    · rw [hb] at h'
      exact Or.inr (Or.inr ⟨d, e, Option.some.inj h'⟩)
  have hll : (∃ s g, l = .str s g) ∨ (∃ s d, l = .typed s d ∧ r.dt = some d ∧ r.lang = none ∧
      checkDatatype E.X s d = some (.typed s d)) ∨ (∃ d, l = .datetime d) ∨
      (∃ v, l = .bool v) ∨ ∃ s d e, l = .wrong s d e := by
    cases hdt : r.dt with
    | none =>
      cases hlang : r.lang with
      | none =>
        simp only [Literal.ofRdf, hdt, hlang, Option.some.injEq] at hl
        exact Or.inl ⟨_, _, hl.symm⟩
      | some g =>
        simp only [Literal.ofRdf, hdt, hlang, Option.map_eq_some_iff] at hl
        obtain ⟨g', _, hl⟩ := hl
        exact Or.inl ⟨_, _, hl.symm⟩
    | some d =>
      cases hlang : r.lang with
      | some g => simp [Literal.ofRdf, hdt, hlang] at hl
      | none =>
        simp only [Literal.ofRdf, hdt, hlang] at hl
        have hnd : ¬ (d = .int .integer ∨ d = .decimal ∨ d = .double ∨ d = .float) := by
          rintro (rfl | rfl | rfl | rfl) <;> exact hn ⟨hlang, by simp [hdt]⟩
        rw [if_neg hnd] at hl
        cases d with
        | int k => exact absurd ⟨hlang, Or.inl ⟨k, hdt⟩⟩ hn
        | decimal => exact absurd ⟨hlang, by simp [hdt]⟩ hn
        | double => exact absurd ⟨hlang, by simp [hdt]⟩ hn
        | float => exact absurd ⟨hlang, by simp [hdt]⟩ hn
        | boolean =>
          simp only [checkDatatype, validate, Option.some.injEq] at hl
          split at hl
          · exact Or.inr (Or.inr (Or.inr (Or.inl ⟨_, hl.symm⟩)))
          · exact Or.inr (Or.inr (Or.inr (Or.inr ⟨_, _, _, hl.symm⟩)))
        | dateTime =>
          simp only [checkDatatype, validate, Option.some.injEq] at hl
          split at hl
          · exact Or.inr (Or.inr (Or.inl ⟨_, hl.symm⟩))
          · exact Or.inr (Or.inr (Or.inr (Or.inr ⟨_, _, _, hl.symm⟩)))
        | string =>
          simp only [checkDatatype, Option.some.injEq] at hl
          exact Or.inr (Or.inl ⟨_, _, hl.symm, rfl, rfl, rfl⟩)
        | langString =>
          simp only [checkDatatype, Option.some.injEq] at hl
          exact Or.inr (Or.inl ⟨_, _, hl.symm, rfl, rfl, rfl⟩)
        | other s =>
          simp only [checkDatatype, Option.some.injEq] at hl
          exact Or.inr (Or.inl ⟨_, _, hl.symm, rfl, rfl, rfl⟩)
        | prefixed a c => simp [checkDatatype] at hl
  rcases hll with ⟨s, g, rfl⟩ | ⟨s, d, rfl, hd, hg, hc⟩ | ⟨d, rfl⟩ | ⟨v, rfl⟩ | ⟨s, d, e, rfl⟩ <;>
    rcases hbl with ⟨n, rfl⟩ | ⟨d', rfl, hd', hg'⟩ | ⟨d', e', rfl⟩ <;> try rfl
  have hne : d ≠ d' := by
    rintro rfl
    apply hn
    refine ⟨hg, ?_⟩
    have := hnb.2
    rw [hd'] at this
    rw [hd]
    exact this
  simp [Literal.partialCmp, hc, hne]

/-- Stable terms survive the conversion. -/
theorem stable_term {t : Term} {o : Ob D} (hp : Stable E t) (h : E.obj t = some o) : E.term o = t := by
  cases t with
  | iri s => cases h; rfl
  | bnode s => cases h; rfl
  | lit r =>
    obtain ⟨hwf, hi, hb, hdt, hg⟩ := hp
    simp only [Env.obj, Option.map_eq_some_iff] at h
    obtain ⟨l, hl, rfl⟩ := h
    obtain ⟨lex, dt, lang⟩ := r
    simp only [Env.term, Term.lit.injEq]
    cases dt with
    | none =>
      cases lang with
      | none => simp only [Literal.ofRdf, Option.some.injEq] at hl; subst hl; rfl
      | some g =>
        simp only [Literal.ofRdf, hg g rfl, Option.map_some, Option.some.injEq] at hl; subst hl; rfl
    | some d =>
      have hlang : lang = none := by
        by_contra hne
        have := hwf.2 hne
        cases this
      subst hlang
      obtain ⟨⟨hs, hls, hpf⟩, _⟩ := hwf
      simp only at hs hls hpf hi hb hdt
      simp only [Literal.ofRdf] at hl
      have key : ∀ e, (Literal.typed lex d : Literal D).toRdf E.X = ⟨lex, some d, none⟩ ∧
          (Literal.wrong lex d e : Literal D).toRdf E.X = ⟨lex, some d, none⟩ := by
        intro e
        cases d with
        | string => exact absurd rfl hs
        | prefixed a b => exact absurd rfl (hpf a b)
        | _ => exact ⟨rfl, rfl⟩
      split at hl
      · split at hl <;> cases hl
        · exact (key _).2
        · exact (key []).1
      · rename_i hnk
        cases d with
        | int k => exact absurd (Or.inl (by rw [hi k rfl])) hnk
        | decimal => exact absurd (by simp) hnk
        | double => exact absurd (by simp) hnk
        | float => exact absurd (by simp) hnk
        | boolean => exact absurd rfl hb
        | dateTime => exact absurd rfl hdt
        | string => exact absurd rfl hs
        | langString => exact absurd rfl hls
        | prefixed a b => exact absurd rfl (hpf a b)
        | other s => simp only [checkDatatype, Option.some.injEq] at hl; subst hl; rfl

/-- Stable terms are compared as terms. -/
theorem stable_same {t t' : Term} {o o' : Ob D} (hp : Stable E t) (hp' : Stable E t') (h : E.obj t = some o)
    (h' : E.obj t' = some o') : E.same o o' = true ↔ t = t' := by
  constructor
  · intro hs
    have key : E.term o = E.term o' := by
      cases o with
      | iri s => cases o' <;> simp_all [Env.same, Env.term]
      | bnode s => cases o' <;> simp_all [Env.same, Env.term]
      | lit l =>
        cases o' with
        | iri s => simp [Env.same] at hs
        | bnode s => simp [Env.same] at hs
        | lit l' =>
          have hnum : (∀ n, l ≠ .num n) ∧ (∀ d, l ≠ .datetime d) ∧ ∀ b, l ≠ .bool b := by
            have := stable_term hp h
            cases t with
            | iri s => cases h
            | bnode s => cases h
            | lit r =>
              obtain ⟨hwf, hi, hb, hdt, hg⟩ := hp
              simp only [Env.term, Term.lit.injEq] at this
              simp only [Env.obj, Option.map_eq_some_iff, Ob.lit.injEq] at h
              obtain ⟨_, hl, rfl⟩ := h
              refine ⟨?_, ?_, ?_⟩
              · rintro n rfl
                simp only [Literal.toRdf] at this
                have e : r.dt = some n.datatype := by rw [← this]
                have e2 : r.lang = none := by rw [← this]
                have hkept : n.datatype = .int .integer ∨ n.datatype = .decimal ∨ n.datatype = .double ∨ n.datatype = .float := by
                  cases n with
                  | int k i => rw [hi k e]; exact Or.inl rfl
                  | _ => simp [Num.datatype]
                simp only [Literal.ofRdf, e, e2] at hl
                rw [if_pos hkept] at hl
                split at hl <;> simp at hl
              · rintro d rfl
                exact hdt (by rw [← this]; rfl)
              · rintro b rfl
                exact hb (by rw [← this]; cases b <;> rfl)
          have : l = l' := by
            cases l with
            | num n => exact absurd rfl (hnum.1 n)
            | datetime n => exact absurd rfl (hnum.2.1 n)
            | bool n => exact absurd rfl (hnum.2.2 n)
            | str a b => cases l' <;> simp_all [Env.same, Literal.eq]
            | typed a b => cases l' <;> simp_all [Env.same, Literal.eq]
            | wrong a b c => cases l' <;> simp_all [Env.same, Literal.eq]
          rw [this]
    rw [← stable_term hp h, key, stable_term hp' h']
  · rintro rfl
    rw [h] at h'
    cases h'
    cases o with
    | iri s => simp [Env.same]
    | bnode s => simp [Env.same]
    | lit l =>
      cases l with
      | str a b => simp [Env.same, Literal.eq]
      | typed a b => simp [Env.same, Literal.eq]
      | wrong a b c => simp [Env.same, Literal.eq]
      | bool b => simp [Env.same, Literal.eq]
      | num n => simp only [Env.same, Literal.eq]; exact (C47_equivalence_and_hash E.X).1 n
      | datetime d =>
        exfalso
        have := stable_term hp h
        cases t with
        | iri s => cases h
        | bnode s => cases h
        | lit r =>
          simp only [Env.term, Term.lit.injEq] at this
          exact hp.2.2.2.1 (by rw [← this]; rfl)

end

end Shacl
