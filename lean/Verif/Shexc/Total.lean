import Mathlib.Data.List.Basic
import Mathlib.Order.Basic
import Mathlib.Tactic.ByContra
import Verif.Shexc.Grammar

/-!
# The readers of the compact syntax end, and where they cannot panic

One invariant for both: on the inputs of a set that is closed under suffixes, a parser leaves a suffix of its input, does
not run out of fuel, and panics only if panics are allowed.
-/

namespace Shexc

open P

/-- What the readers are run on: the inputs, whether panics are allowed, and what the inputs must be if they are not. -/
structure Ctx where
  pan : Prop
  S : Str → Prop
  suf : ∀ c i, S (c :: i) → S i
  ascii : pan ∨ ∀ c i, S (c :: i) → c.utf8Size = 1
  noU : pan ∨ ∀ i, S i → uchar i = .err
  noAmp : pan ∨ ∀ i, S i → tag ['&'] i = .err
  noExt : pan ∨ ∀ i, S i → tagNoCase "extends".toList i = .err

namespace Ctx

theorem sufs (C : Ctx) {i r : Str} (h : r <:+ i) (hi : C.S i) : C.S r := by
  induction i with
  | nil => rw [List.suffix_nil] at h; subst h; exact hi
  | cons c i ih =>
    rcases List.suffix_cons_iff.mp h with rfl | h
    · exact hi
    · exact ih h (C.suf c i hi)

end Ctx

/-- The result of a parser is fine: see the head of the file. -/
def FineRes {α : Type} (C : Ctx) (st : Bool) (Q : α → Prop) (i : Str) : Res α → Prop
  | .ok a r => Q a ∧ r <:+ i ∧ (st = true → r.length < i.length)
  | .err => True
  | .fail => True
  | .panic => C.pan
  | .deep => False

/-- A parser is fine on inputs shorter than `n`; `st`: it reads at least one character; `Q`: what its values are. -/
def Fine {α : Type} (C : Ctx) (n : Nat) (st : Bool) (Q : α → Prop) (p : P α) : Prop :=
  ∀ i, C.S i → i.length < n → FineRes C st Q i (p i)

/-- No condition on the value. -/
abbrev Any {α : Type} : α → Prop := fun _ => True

section

variable {α β : Type} {C : Ctx} {n m : Nat} {st st' : Bool} {Q Q' : α → Prop} {p q : P α}

theorem FineRes.weaken {i : Str} {x : Res α} (h : FineRes C st Q i x) (hs : st' = true → st = true)
    (hQ : ∀ a, Q a → Q' a) : FineRes C st' Q' i x := by
  cases x <;> simp only [FineRes] at *
  · exact ⟨hQ _ h.1, h.2.1, fun e => h.2.2 (hs e)⟩
  · exact h

theorem Fine.weaken (h : Fine C n st Q p) (hs : st' = true → st = true) (hQ : ∀ a, Q a → Q' a) (hn : m ≤ n) :
    Fine C m st' Q' p := fun i hS hl => (h i hS (by omega)).weaken hs hQ

theorem Fine.any (h : Fine C n st Q p) : Fine C n false Any p := h.weaken (by simp) (by simp) Nat.le.refl

theorem Fine.mono (h : Fine C n st Q p) (hn : m ≤ n) : Fine C m st Q p := h.weaken id (fun _ => id) hn

theorem Fine.lax (h : Fine C n true Q p) : Fine C n st Q p := h.weaken (by simp) (fun _ => id) Nat.le.refl

theorem Fine.noQ (h : Fine C n st Q p) : Fine C n st Any p := h.weaken id (by simp) Nat.le.refl

theorem fine_pure {a : α} (h : Q a) : Fine C n false Q (Pure.pure a : P α) := by
  intro i _ _
  exact ⟨h, List.suffix_rfl, by simp⟩

theorem fine_pure' {a : α} (h : Q a) : Fine C n false Q (P.pure a : P α) := fine_pure h

theorem fine_error : Fine C n st Q (error : P α) := fun _ _ _ => trivial

theorem fine_orCrash {o : Option α} (h : C.pan ∨ o.isSome = true) (hQ : ∀ a, o = some a → Q a) :
    Fine C n false Q (orCrash o) := by
  intro i _ _
  cases o with
  | none => rcases h with h | h
            · exact h
            · cases h
  | some a => exact ⟨hQ a rfl, List.suffix_rfl, by simp⟩

theorem fine_crash (h : C.pan) : Fine C n st Q (crash : P α) := fun _ _ _ => h

/-- One after the other, the first reads something: the second runs on shorter inputs. -/
theorem fine_bindS {R : β → Prop} {p : P β} {f : β → P α} (hp : Fine C (n + 1) true R p)
    (hf : ∀ a, R a → Fine C n false Q (f a)) : Fine C (n + 1) true Q (p >>= f) := by
  intro i hS hl
  have h := hp i hS hl
  show FineRes C true Q i (P.bind p f i)
  unfold P.bind
  cases hx : p i with
  | ok a r =>
    rw [hx] at h
    obtain ⟨h1, h2, h3⟩ := h
    have h3 := h3 rfl
    have h' := hf a h1 r (C.sufs h2 hS) (by omega)
    show FineRes C true Q i (f a r)
    cases hy : f a r with
    | ok b r' => rw [hy] at h'; exact ⟨h'.1, h'.2.1.trans h2, fun _ => by have := h'.2.1.length_le; omega⟩
    | err => trivial
    | fail => trivial
    | panic => rw [hy] at h'; exact h'
    | deep => rw [hy] at h'; exact h'
  | err => trivial
  | fail => trivial
  | panic => rw [hx] at h; exact h
  | deep => rw [hx] at h; exact h

/-- One after the other. -/
theorem fine_bind {st₁ st₂ : Bool} {R : β → Prop} {p : P β} {f : β → P α} (hp : Fine C n st₁ R p)
    (hf : ∀ a, R a → Fine C n st₂ Q (f a)) (hs : st = true → st₁ = true ∨ st₂ = true) : Fine C n st Q (p >>= f) := by
  intro i hS hl
  have h := hp i hS hl
  show FineRes C st Q i (P.bind p f i)
  unfold P.bind
  cases hx : p i with
  | ok a r =>
    rw [hx] at h
    obtain ⟨h1, h2, h3⟩ := h
    have hlen := h2.length_le
    have h' := hf a h1 r (C.sufs h2 hS) (by omega)
    show FineRes C st Q i (f a r)
    cases hy : f a r with
    | ok b r' =>
      rw [hy] at h'
      refine ⟨h'.1, h'.2.1.trans h2, fun e => ?_⟩
      have := h'.2.1.length_le
      rcases hs e with h4 | h4
      · have := h3 h4; omega
      · have := h'.2.2 h4; omega
    | err => trivial
    | fail => trivial
    | panic => rw [hy] at h'; exact h'
    | deep => rw [hy] at h'; exact h'
  | err => trivial
  | fail => trivial
  | panic => rw [hx] at h; exact h
  | deep => rw [hx] at h; exact h

/-- As `fine_bind`, neither needs to read. -/
theorem fine_bind0 {st₁ : Bool} {R : β → Prop} {p : P β} {f : β → P α} (hp : Fine C n st₁ R p)
    (hf : ∀ a, R a → Fine C n false Q (f a)) : Fine C n false Q (p >>= f) := fine_bind hp hf (by simp)

/-- As `fine_bind`, the first reads. -/
theorem fine_bind1 {R : β → Prop} {p : P β} {f : β → P α} (hp : Fine C n true R p)
    (hf : ∀ a, R a → Fine C n false Q (f a)) : Fine C n st Q (p >>= f) := fine_bind hp hf (by simp)

/-- As `fine_bind`, the second reads. -/
theorem fine_bind2 {st₁ : Bool} {R : β → Prop} {p : P β} {f : β → P α} (hp : Fine C n st₁ R p)
    (hf : ∀ a, R a → Fine C n true Q (f a)) : Fine C n st Q (p >>= f) := fine_bind hp hf (by simp)

theorem fine_alt (hp : Fine C n st Q p) (hq : Fine C n st Q q) : Fine C n st Q (alt p q) := by
  intro i hS hl
  have h := hp i hS hl
  unfold alt
  cases hx : p i with
  | err => exact hq i hS hl
  | ok a r => rw [hx] at h; exact h
  | fail => trivial
  | panic => rw [hx] at h; exact h
  | deep => rw [hx] at h; exact h

theorem fine_opt (hp : Fine C n st Q p) : Fine C n false (fun o => ∀ a, o = some a → Q a) (opt p) := by
  intro i hS hl
  have h := hp i hS hl
  unfold opt
  cases hx : p i with
  | err => exact ⟨by simp, List.suffix_rfl, by simp⟩
  | ok a r => rw [hx] at h; exact ⟨by rintro b ⟨⟩; exact h.1, h.2.1, by simp⟩
  | fail => trivial
  | panic => rw [hx] at h; exact h
  | deep => rw [hx] at h; exact h

theorem fine_cut (hp : Fine C n st Q p) : Fine C n st Q (cut p) := by
  intro i hS hl
  have h := hp i hS hl
  unfold cut
  cases hx : p i with
  | err => trivial
  | ok a r => rw [hx] at h; exact h
  | fail => trivial
  | panic => rw [hx] at h; exact h
  | deep => rw [hx] at h; exact h

theorem fine_many0Go (hp : Fine C n st Q p) (k : Nat) :
    ∀ i, C.S i → i.length < n → i.length ≤ k → FineRes C false (fun l => ∀ a ∈ l, Q a) i (many0Go p k i) := by
  induction k with
  | zero =>
    intro i hS hl hk
    have h := hp i hS hl
    unfold many0Go
    cases hx : p i with
    | err => exact ⟨by simp, List.suffix_rfl, by simp⟩
    | ok a r =>
      rw [hx] at h
      have := h.2.1.length_le
      simp only
      rw [if_pos (by omega)]
      trivial
    | fail => trivial
    | panic => rw [hx] at h; exact h
    | deep => rw [hx] at h; exact h
  | succ k ih =>
    intro i hS hl hk
    have h := hp i hS hl
    unfold many0Go
    cases hx : p i with
    | err => exact ⟨by simp, List.suffix_rfl, by simp⟩
    | ok a r =>
      rw [hx] at h
      have hlen := h.2.1.length_le
      simp only
      split
      · trivial
      · have h' := ih r (C.sufs h.2.1 hS) (by omega) (by omega)
        cases hy : many0Go p k r with
        | ok as r' =>
          rw [hy] at h'
          exact ⟨by simpa using ⟨h.1, h'.1⟩, h'.2.1.trans h.2.1, by simp⟩
        | err => trivial
        | fail => trivial
        | panic => rw [hy] at h'; exact h'
        | deep => rw [hy] at h'; exact h'
    | fail => trivial
    | panic => rw [hx] at h; exact h
    | deep => rw [hx] at h; exact h

theorem fine_many0 (hp : Fine C n st Q p) : Fine C n false (fun l => ∀ a ∈ l, Q a) (many0 p) :=
  fun i hS hl => fine_many0Go hp i.length i hS hl Nat.le.refl

theorem fine_many1 (hp : Fine C n st Q p) : Fine C n st (fun l => ∀ a ∈ l, Q a) (many1 p) :=
  fine_bind hp (fun a ha => fine_bind0 (Q := fun l => ∀ a ∈ l, Q a) (fine_many0 hp)
    fun as has => fine_pure (by simpa using ⟨ha, has⟩)) (fun e => .inl e)

theorem fine_count (hp : Fine C n st Q p) (k : Nat) : Fine C n false (fun l => ∀ a ∈ l, Q a) (count p k) := by
  induction k with
  | zero => exact fine_pure' (by simp)
  | succ k ih =>
    exact fine_bind0 (Q := fun l => ∀ a ∈ l, Q a) hp fun a ha => fine_bind0 ih
      fun as has => fine_pure (by simpa using ⟨ha, has⟩)

theorem fine_recognize (hp : Fine C n st Q p) : Fine C n st Any (recognize p) := by
  intro i hS hl
  have h := hp i hS hl
  unfold recognize
  cases hx : p i with
  | err => trivial
  | ok a r => rw [hx] at h; exact ⟨trivial, h.2.1, h.2.2⟩
  | fail => trivial
  | panic => rw [hx] at h; exact h
  | deep => rw [hx] at h; exact h

theorem fine_satisfy (f : Char → Bool) : Fine C n true (fun c => f c = true) (satisfy f) := by
  intro i hS hl
  cases i with
  | nil => trivial
  | cons c r =>
    by_cases h : f c = true
    · rw [satisfy, if_pos h]; exact ⟨h, List.suffix_cons c r, by simp⟩
    · rw [satisfy, if_neg h]; trivial

theorem fine_char (c : Char) : Fine C n true Any (char c) := (fine_satisfy _).noQ

theorem fine_oneOf (s : Str) : Fine C n true (fun c => c ∈ s) (oneOf s) :=
  (fine_satisfy _).weaken id (by simp) Nat.le.refl

theorem fine_noneOf (s : Str) : Fine C n true (fun c => c ∉ s) (noneOf s) :=
  (fine_satisfy _).weaken id (by simp) Nat.le.refl

theorem fine_tag (s : Str) : Fine C n (!s.isEmpty) Any (tag s) := by
  induction s with
  | nil => intro i _ _; exact ⟨trivial, List.suffix_rfl, by simp⟩
  | cons c s ih =>
    intro i hS hl
    cases i with
    | nil => trivial
    | cons d i =>
      unfold tag
      split
      · have h := ih i (C.suf d i hS) (by simp at hl; omega)
        cases hx : tag s i with
        | ok a r =>
          rw [hx] at h
          have := h.2.1.length_le
          exact ⟨trivial, h.2.1.trans (List.suffix_cons d i), fun _ => by simp; omega⟩
        | err => trivial
        | fail => trivial
        | panic => rw [hx] at h; exact h
        | deep => rw [hx] at h; exact h
      · trivial

theorem fine_tagNoCase (s : Str) : Fine C n (!s.isEmpty) Any (tagNoCase s) := by
  induction s with
  | nil => intro i _ _; exact ⟨trivial, List.suffix_rfl, by simp⟩
  | cons c s ih =>
    intro i hS hl
    cases i with
    | nil => trivial
    | cons d i =>
      unfold tagNoCase
      split
      · have h := ih i (C.suf d i hS) (by simp at hl; omega)
        cases hx : tagNoCase s i with
        | ok a r =>
          rw [hx] at h
          have := h.2.1.length_le
          exact ⟨trivial, h.2.1.trans (List.suffix_cons d i), fun _ => by simp; omega⟩
        | err => trivial
        | fail => trivial
        | panic => rw [hx] at h; exact h
        | deep => rw [hx] at h; exact h
      · trivial

theorem fine_takeWhile (f : Char → Bool) : Fine C n false Any (P.takeWhile f) :=
  fun i _ _ => ⟨trivial, List.dropWhile_suffix f, by simp⟩

theorem fine_takeWhile1 (f : Char → Bool) : Fine C n true Any (takeWhile1 f) := by
  intro i _ _
  unfold takeWhile1
  split
  · trivial
  · next h =>
    refine ⟨trivial, List.dropWhile_suffix f, fun _ => ?_⟩
    have : i.takeWhile f ++ i.dropWhile f = i := List.takeWhile_append_dropWhile
    have h2 : (i.takeWhile f).length ≠ 0 := by simpa using h
    have := congrArg List.length this
    rw [List.length_append] at this
    omega

theorem fine_oneIf (f : Char → Bool) : Fine C n true Any (oneIf f) := by
  intro i hS _
  cases i with
  | nil => trivial
  | cons c r =>
    by_cases h : f c = true
    · by_cases h2 : c.utf8Size = 1
      · rw [oneIf, if_pos h, if_pos h2]; exact ⟨trivial, List.suffix_cons c r, by simp⟩
      · rw [oneIf, if_pos h, if_neg h2]; exact C.ascii.resolve_right fun h' => h2 (h' c r hS)
    · rw [oneIf, if_neg h]; trivial

end

/-! ## Terminals -/

variable {C : Ctx} {n : Nat}

theorem afterClose_suffix : ∀ (i r : Str), afterClose i = some r → r <:+ i := by
  intro i
  fun_induction afterClose i with
  | case1 r => rintro _ ⟨⟩; exact ⟨['*', '/'], rfl⟩
  | case2 c i _ ih => intro r h; exact (ih r h).trans (List.suffix_cons c i)
  | case3 => simp

theorem fine_multiComment : Fine C n true Any multiComment := by
  refine fine_bind1 (fine_tag _) fun _ _ => ?_
  intro i _ _
  beta_reduce
  cases h : afterClose i with
  | none => trivial
  | some r => exact ⟨trivial, afterClose_suffix i r h, by simp⟩

theorem fine_comment : Fine C n true Any comment :=
  fine_alt (fine_bind1 (fine_tag _) fun _ _ => fine_bind0 (fine_takeWhile1 _) fun _ _ => fine_pure trivial)
    (fine_alt (fine_tag _) fine_multiComment)

theorem fine_tws0 : Fine C n false Any tws0 :=
  fine_bind0 (fine_many0 (fine_alt (fine_bind1 (fine_takeWhile1 _) fun _ _ => fine_pure trivial) fine_comment))
    fun _ _ => fine_pure trivial

theorem fine_tokenTws (c : Char) (s : Str) : Fine C n true Any (tokenTws (c :: s)) :=
  fine_bind2 fine_tws0 fun _ _ => fine_bind1 (fine_tag (c :: s)) fun _ _ => fine_tws0

theorem fine_kw {s : Str} (h : s ≠ []) : Fine C n true Any (tagNoCase s) :=
  (fine_tagNoCase s).weaken (by cases s <;> simp_all) (by simp) Nat.le.refl

theorem fine_tokenTwsNoCase {s : Str} (h : s ≠ []) : Fine C n true Any (tokenTwsNoCase s) :=
  fine_bind2 fine_tws0 fun _ _ => fine_bind1 (fine_kw h) fun _ _ => fine_tws0

theorem fine_uchar : Fine C n true Any uchar := by
  rcases C.noU with h | h
  · refine fine_bind1 (R := Any) (fine_alt ?_ ?_) fun _ _ => fine_orCrash (.inl h) (by simp)
    · exact fine_bind1 (fine_tag _) fun _ _ => (fine_count (fine_satisfy _) _).any
    · exact fine_bind1 (fine_tag _) fun _ _ => (fine_count (fine_satisfy _) _).any
  · intro i hS _
    rw [h i hS]
    trivial

theorem fine_echar : Fine C n true Any echar := by
  refine fine_bind1 (fine_tag _) fun _ _ => fine_bind0 (fine_oneOf _) fun c hc => fine_orCrash (.inr ?_) (by simp)
  simp only [List.mem_cons, List.not_mem_nil, or_false] at hc
  rcases hc with rfl | rfl | rfl | rfl | rfl | rfl | rfl | rfl <;> rfl

theorem fine_iriRef : Fine C n true Any iriRef :=
  fine_bind1 (fine_char _) fun _ _ => fine_bind0 (fine_many0 (fine_alt (fine_satisfy _).noQ fine_uchar)) fun _ _ =>
    fine_bind0 (fine_char _) fun _ _ => fine_pure trivial

theorem fine_pnPrefix : Fine C n true Any pnPrefix :=
  fine_recognize (Q := Any) <| fine_bind1 (fine_satisfy _) fun _ _ => fine_bind0 (fine_takeWhile _) fun _ _ =>
    fine_bind0 (fine_many0 (st := true) (Q := Any) (fine_bind1 (fine_char _) fun _ _ => (fine_takeWhile1 _).any))
      fun _ _ => fine_pure trivial

theorem fine_pnameNs : Fine C n true Any pnameNs :=
  fine_bind2 (fine_opt fine_pnPrefix) fun _ _ => fine_bind1 (fine_char _) fun _ _ => fine_pure trivial

theorem fine_plx : Fine C n true Any plx :=
  fine_alt
    (fine_bind1 (fine_char _) fun _ _ => fine_bind0 (fine_oneIf _) fun _ _ => fine_bind0 (fine_oneIf _) fun _ _ =>
      fine_pure trivial)
    (fine_bind1 (fine_char _) fun _ _ => fine_bind0 (fine_oneIf _) fun _ _ => fine_pure trivial)

theorem fine_pnLocal : Fine C n true Any pnLocal :=
  fine_recognize (Q := Any) <| fine_bind1 (R := Any)
    (fine_alt (fine_bind1 (fine_oneIf _) fun _ _ => fine_pure trivial) fine_plx) fun _ _ =>
    fine_bind0 (fine_many0 (st := true) (Q := Any)
      (fine_alt (fine_bind1 (fine_takeWhile1 _) fun _ _ => fine_pure trivial)
        (fine_alt fine_plx (fine_bind1 (fine_char _) fun _ _ => fine_pure trivial)))) fun _ _ => fine_pure trivial

theorem fine_pnameLn : Fine C n true Any pnameLn :=
  fine_bind1 fine_pnameNs fun _ _ => fine_bind0 fine_pnLocal fun _ _ => fine_pure trivial

theorem fine_pnameNsIri : Fine C n true Any pnameNsIri := fine_bind1 fine_pnameNs fun _ _ => fine_pure trivial

theorem fine_iri : Fine C n true Any iri :=
  fine_alt (fine_bind1 fine_iriRef fun _ _ => fine_pure trivial) (fine_alt fine_pnameLn fine_pnameNsIri)

theorem fine_bnodeLabel : Fine C n true Any bnodeLabel :=
  fine_bind1 (fine_tag _) fun _ _ => (fine_recognize (Q := Any) (st := false) <| fine_bind0 (fine_oneIf _) fun _ _ =>
    fine_bind0 (fine_takeWhile _) fun _ _ => fine_pure trivial)

theorem fine_shapeLabel : Fine C n true Any shapeLabel :=
  fine_alt (fine_bind1 fine_iri fun _ _ => fine_pure trivial) (fine_bind1 fine_bnodeLabel fun _ _ => fine_pure trivial)

theorem fine_tripleLabel : Fine C n true Any tripleLabel :=
  fine_alt (fine_bind1 fine_iri fun _ _ => fine_pure trivial) (fine_bind1 fine_bnodeLabel fun _ _ => fine_pure trivial)

theorem fine_predicate : Fine C n true Any predicate :=
  fine_alt fine_iri (fine_bind1 (fine_tag _) fun _ _ => fine_pure trivial)

theorem fine_digits : Fine C n true Any digits := by
  refine fine_bind1 (fine_takeWhile1 _) fun ds _ => ?_
  split
  · exact fine_pure trivial
  · exact fine_error

theorem fine_integer : Fine C n true Any integer :=
  fine_bind2 (fine_opt (fine_oneOf _)) fun _ _ => fine_bind1 fine_digits fun _ _ => fine_pure trivial

theorem fine_posInteger : Fine C n true Any posInteger := by
  refine fine_bind1 fine_integer fun n _ => ?_
  split
  · exact fine_error
  · exact fine_pure trivial

theorem fine_decimal : Fine C n true Any decimal := by
  refine fine_bind2 (fine_opt (fine_oneOf _)) fun _ _ => fine_bind2 (fine_takeWhile _) fun _ _ =>
    fine_bind1 (fine_tag _) fun _ _ => fine_bind0 (fine_takeWhile1 _) fun _ _ => ?_
  split
  · exact fine_error
  · split
    · split
      · exact fine_pure trivial
      · exact fine_error
    · exact fine_error

theorem fine_exponent : Fine C n true Any exponent :=
  fine_bind1 (fine_oneOf _) fun _ _ => fine_bind0 (fine_opt (fine_oneOf _)) fun _ _ =>
    fine_bind0 (fine_takeWhile1 _) fun _ _ => fine_pure trivial

theorem fine_doubleText : Fine C n true Any doubleText :=
  fine_recognize (Q := Any) <| fine_bind2 (fine_opt (fine_oneOf _)) fun _ _ =>
    fine_alt (fine_bind1 (fine_takeWhile1 _) fun _ _ => fine_bind0 (fine_tag _) fun _ _ =>
        fine_bind0 (fine_takeWhile _) fun _ _ => fine_exponent.lax)
      (fine_alt (fine_bind1 (fine_tag _) fun _ _ => fine_bind0 (fine_takeWhile1 _) fun _ _ => fine_exponent.lax)
        (fine_bind1 (fine_takeWhile1 _) fun _ _ => fine_exponent.lax))

theorem fine_rawNumeric (X : Ext) : Fine C n true Any (rawNumeric X) := by
  refine fine_alt ?_ (fine_alt fine_decimal (fine_bind1 fine_integer fun _ _ => fine_pure trivial))
  refine fine_bind1 fine_doubleText fun s _ => ?_
  split
  · exact fine_pure trivial
  · exact fine_error

theorem fine_stringChars (s : Str) : Fine C n false Any (stringChars s) :=
  (fine_many0 (fine_alt (fine_noneOf s).noQ (fine_alt fine_echar fine_uchar))).any

theorem fine_string : Fine C n true Any string :=
  fine_alt (fine_bind1 (fine_tag _) fun _ _ => fine_bind0 (fine_cut (fine_stringChars _)) fun _ _ =>
      fine_bind0 (fine_tag _) fun _ _ => fine_pure trivial)
    (fine_alt (fine_bind1 (fine_tag _) fun _ _ => fine_bind0 (fine_cut (fine_stringChars _)) fun _ _ =>
        fine_bind0 (fine_tag _) fun _ _ => fine_pure trivial)
      (fine_alt (fine_bind1 (fine_tag _) fun _ _ => fine_bind0 (fine_stringChars _) fun _ _ =>
          fine_bind0 (fine_tag _) fun _ _ => fine_pure trivial)
        (fine_bind1 (fine_tag _) fun _ _ => fine_bind0 (fine_cut (fine_stringChars _)) fun _ _ =>
          fine_bind0 (fine_tag _) fun _ _ => fine_pure trivial)))

theorem fine_langTag (X : Ext) : Fine C n true Any (langTag X) := by
  refine fine_bind1 (fine_tag _) fun _ _ => fine_bind0 (R := Any) (st₁ := true)
    (fine_recognize (Q := Any) (fine_bind1 (fine_takeWhile1 _) fun _ _ =>
      fine_bind0 (fine_many0 (st := true) (Q := Any) (fine_bind1 (fine_tag _) fun _ _ => (fine_takeWhile1 _).any))
        fun _ _ => fine_pure trivial)) fun t _ => ?_
  split
  · exact fine_pure trivial
  · exact fine_error

theorem fine_decimalText : Fine C n true Any decimalText :=
  fine_recognize (Q := Any) <| fine_bind2 (fine_opt (fine_oneOf _)) fun _ _ => fine_bind2 (fine_takeWhile _) fun _ _ =>
    fine_bind1 (fine_char _) fun _ _ => fine_bind0 (fine_takeWhile1 _) fun _ _ => fine_pure trivial

theorem fine_integerText : Fine C n true Any integerText :=
  fine_recognize (Q := Any) <| fine_bind2 (fine_opt (fine_oneOf _)) fun _ _ =>
    fine_bind1 (fine_takeWhile1 _) fun _ _ => fine_pure trivial

theorem fine_numericLit : Fine C n true Any numericLit :=
  fine_alt (fine_bind1 fine_doubleText fun _ _ => fine_pure trivial)
    (fine_alt (fine_bind1 fine_decimalText fun _ _ => fine_pure trivial)
      (fine_bind1 fine_integerText fun _ _ => fine_pure trivial))

theorem fine_literal (X : Ext) : Fine C n true Any (literal X) := by
  refine fine_alt ?_ (fine_alt fine_numericLit (fine_bind1 (R := Any) (fine_alt ?_ ?_) fun _ _ => fine_pure trivial))
  · refine fine_bind1 fine_string fun s _ => fine_bind0 (fine_opt (Q := Any) (st := true) (fine_alt ?_ ?_)) fun _ _ =>
      fine_pure trivial
    · exact fine_bind1 (fine_langTag X) fun _ _ => fine_pure trivial
    · exact fine_bind1 (fine_tag _) fun _ _ => fine_bind0 fine_iri fun _ _ => fine_pure trivial
  · exact fine_bind1 (fine_tokenTws _ _) fun _ _ => fine_pure trivial
  · exact fine_bind1 (fine_tokenTws _ _) fun _ _ => fine_pure trivial

/-- The pieces of a pattern without `\u`: one character that is no backslash, or a backslash with a character. -/
inductive Piece : Str → Prop where
  | plain {c : Char} (h : c ≠ '\\') : Piece [c]
  | esc {c : Char} (h : c ∈ "nrt\\|.?*+(){}$-[]^/".toList) : Piece ['\\', c]

theorem unescape_pieces (l : List Str) (h : ∀ s ∈ l, Piece s) :
    ∀ k, l.flatten.length ≤ k → (unescapeGo k l.flatten).isSome = true := by
  induction l with
  | nil => intro k _; cases k <;> rfl
  | cons s l ih =>
    have ih := ih fun t ht => h t (List.mem_cons_of_mem _ ht)
    intro k hk
    cases h s List.mem_cons_self with
    | @plain c hc =>
      cases k with
      | zero => simp at hk
      | succ k =>
        simp only [List.flatten_cons, List.singleton_append, unescapeGo, ne_eq, hc, not_false_eq_true, if_true,
          Option.isSome_map]
        exact ih k (by simp at hk ⊢; omega)
    | @esc c hc =>
      cases k with
      | zero => simp at hk
      | succ k =>
        have h2 := ih k (by simp at hk ⊢; omega)
        simp only [List.flatten_cons, List.cons_append, List.nil_append, unescapeGo, ne_eq, not_true_eq_false,
          if_false]
        by_cases hk' : keptEscapes.contains c = true
        · rw [if_pos hk']; simpa using h2
        · rw [if_neg hk', if_neg, if_neg]
          · simpa using h2
          · rintro rfl; simp at hc
          · rintro rfl; simp at hc

theorem fine_patternText :
    Fine C n true (fun s => C.pan ∨ (unescapePattern s).isSome = true) patternText := by
  refine fine_bind1 (R := fun l => ∀ s ∈ l, C.pan ∨ Piece s) (fine_many1 (fine_alt ?_ (fine_alt ?_ ?_)))
    fun l hl => fine_pure ?_
  · refine fine_bind1 (fine_noneOf _) fun c hc => fine_pure (.inr (.plain ?_))
    rintro rfl
    simp at hc
  · exact fine_bind1 (fine_tag _) fun _ _ => fine_bind0 (fine_oneOf _) fun c hc => fine_pure (.inr (.esc hc))
  · rcases C.noU with h | h
    · exact fine_bind1 fine_uchar fun _ _ => fine_pure (.inl h)
    · intro i hS _
      show FineRes C true _ i (P.bind uchar _ i)
      rw [P.bind, h i hS]
      trivial
  · by_cases hp : C.pan
    · exact .inl hp
    · exact .inr (unescape_pieces l (fun s hs => (hl s hs).resolve_left hp) _ Nat.le.refl)

theorem fine_regexp : Fine C n true Any regexp :=
  fine_bind1 (fine_char _) fun _ _ => fine_bind0 fine_patternText fun s hs => fine_bind0 (fine_cut (fine_char _))
    fun _ _ => fine_bind0 (fine_recognize (fine_many0 (fine_oneOf _))) fun _ _ =>
      fine_bind0 (R := Any) (fine_orCrash hs (by simp)) fun _ _ => fine_pure trivial

theorem fine_code : Fine C n true Any code :=
  fine_bind1 (fine_char _) fun _ _ => fine_bind0 (R := Any)
    (fine_cut (fine_many0 (fine_alt (fine_noneOf _).noQ
      (fine_alt (fine_bind1 (fine_tag _) fun _ _ => (fine_oneOf _).any) fine_uchar))).any) fun _ _ =>
    fine_bind0 (fine_cut (fine_char _)) fun _ _ => fine_bind0 fine_tws0 fun _ _ =>
    fine_bind0 (fine_cut (fine_char _)) fun _ _ => fine_pure trivial

theorem fine_codeDecl : Fine C n true Any codeDecl :=
  fine_bind1 (fine_char _) fun _ _ => fine_bind0 fine_tws0 fun _ _ => fine_bind0 (fine_cut fine_iri) fun _ _ =>
    fine_bind0 fine_tws0 fun _ _ => fine_bind0 (R := Any)
      (fine_cut (fine_alt fine_code (fine_bind1 (fine_char _) fun _ _ => fine_pure trivial))) fun _ _ =>
    fine_bind0 fine_tws0 fun _ _ => fine_pure trivial

/-! ## Lists with separators -/

theorem skip_fine (C : Ctx) (i : Str) (hS : C.S i) : skip i <:+ i := by
  have h := fine_tws0 (C := C) (n := i.length + 1) i hS (by omega)
  unfold skip
  cases hx : tws0 i with
  | ok a r => rw [hx] at h; exact h.2.1
  | _ => exact List.suffix_rfl

theorem fine_manySepGo {α : Type} {Q : α → Prop} {p : P α} {st : Bool} {sep : P Unit} (hp : Fine C n st Q p)
    (hs : Fine C n true Any sep) (k : Nat) : ∀ i, C.S i → i.length < n → i.length ≤ k →
      FineRes C false (fun l => ∀ a ∈ l, Q a) i (manySepGo p sep k i) := by
  induction k with
  | zero =>
    intro i hS hl hk
    have h1 := skip_fine C i hS
    have h := hs (skip i) (C.sufs h1 hS) (by have := h1.length_le; omega)
    unfold manySepGo
    cases hx : sep (skip i) with
    | ok a r =>
      rw [hx] at h
      have := h.2.2 rfl
      have := h1.length_le
      omega
    | err => exact ⟨by simp, h1, by simp⟩
    | fail => exact ⟨by simp, h1, by simp⟩
    | panic => rw [hx] at h; exact h
    | deep => rw [hx] at h; exact h
  | succ k ih =>
    intro i hS hl hk
    have h1 := skip_fine C i hS
    have h1l := h1.length_le
    have h := hs (skip i) (C.sufs h1 hS) (by omega)
    unfold manySepGo
    cases hx : sep (skip i) with
    | ok a r =>
      rw [hx] at h
      have h2 := h.2.2 rfl
      have hSr := C.sufs (h.2.1.trans h1) hS
      have h3 := skip_fine C r hSr
      have h3l := h3.length_le
      have h4 := hp (skip r) (C.sufs h3 hSr) (by omega)
      simp only
      cases hy : p (skip r) with
      | ok b r' =>
        rw [hy] at h4
        have h4l := h4.2.1.length_le
        have h5 := ih r' (C.sufs h4.2.1 (C.sufs h3 hSr)) (by omega) (by omega)
        simp only
        have h6 := ((h4.2.1.trans h3).trans h.2.1).trans h1
        cases hz : manySepGo p sep k r' with
        | ok bs r'' => rw [hz] at h5; exact ⟨by simpa using ⟨h4.1, h5.1⟩, h5.2.1.trans h6, by simp⟩
        | err => trivial
        | fail => trivial
        | panic => rw [hz] at h5; exact h5
        | deep => rw [hz] at h5; exact h5
      | err => exact ⟨by simp, (h3.trans h.2.1).trans h1, by simp⟩
      | fail => exact ⟨by simp, (h3.trans h.2.1).trans h1, by simp⟩
      | panic => rw [hy] at h4; exact h4
      | deep => rw [hy] at h4; exact h4
    | err => exact ⟨by simp, h1, by simp⟩
    | fail => exact ⟨by simp, h1, by simp⟩
    | panic => rw [hx] at h; exact h
    | deep => rw [hx] at h; exact h

theorem fine_many1Sep {α : Type} {Q : α → Prop} {p : P α} {st : Bool} {sep : P Unit} (hp : Fine C n st Q p)
    (hs : Fine C n true Any sep) : Fine C n st (fun l => ∀ a ∈ l, Q a) (many1Sep p sep) := by
  intro i hS hl
  have h1 := skip_fine C i hS
  have h1l := h1.length_le
  have h := hp (skip i) (C.sufs h1 hS) (by omega)
  unfold many1Sep
  cases hx : p (skip i) with
  | ok a r =>
    rw [hx] at h
    have h2 := h.2.1.length_le
    have h3 := fine_manySepGo hp hs r.length r (C.sufs (h.2.1.trans h1) hS) (by omega) Nat.le.refl
    simp only
    cases hy : manySepGo p sep r.length r with
    | ok as r' =>
      rw [hy] at h3
      have h3l := h3.2.1.length_le
      exact ⟨by simpa using ⟨h.1, h3.1⟩, (h3.2.1.trans h.2.1).trans h1, fun e => by have := h.2.2 e; omega⟩
    | err => trivial
    | fail => trivial
    | panic => rw [hy] at h3; exact h3
    | deep => rw [hy] at h3; exact h3
  | err => trivial
  | fail => trivial
  | panic => rw [hx] at h; exact h
  | deep => rw [hx] at h; exact h

/-! ## Facets, values and node constraints -/

theorem fine_stringFacet : Fine C n true Any stringFacet :=
  fine_alt (fine_alt (fine_bind1 (fine_kw (by simp)) fun _ _ => fine_bind0 fine_tws0 fun _ _ =>
      fine_bind0 fine_posInteger fun _ _ => fine_pure trivial)
    (fine_alt (fine_bind1 (fine_kw (by simp)) fun _ _ => fine_bind0 fine_tws0 fun _ _ =>
        fine_bind0 fine_posInteger fun _ _ => fine_pure trivial)
      (fine_bind1 (fine_kw (by simp)) fun _ _ => fine_bind0 fine_tws0 fun _ _ =>
        fine_bind0 fine_posInteger fun _ _ => fine_pure trivial))) fine_regexp

theorem fine_numericFacet (X : Ext) : Fine C n true Any (numericFacet X) := by
  refine fine_alt (fine_bind1 (R := Any) ?_ fun _ _ => fine_bind0 (fine_cut (fine_rawNumeric X)) fun _ _ => fine_pure trivial)
    (fine_bind1 (R := Any) ?_ fun _ _ => fine_bind0 fine_integer fun _ _ => fine_pure trivial)
  · exact fine_alt (fine_bind1 (fine_tokenTws _ _) fun _ _ => fine_pure trivial)
      (fine_alt (fine_bind1 (fine_tokenTws _ _) fun _ _ => fine_pure trivial)
        (fine_alt (fine_bind1 (fine_tokenTws _ _) fun _ _ => fine_pure trivial)
          (fine_bind1 (fine_tokenTws _ _) fun _ _ => fine_pure trivial)))
  · exact fine_alt (fine_bind1 (fine_tokenTws _ _) fun _ _ => fine_pure trivial)
      (fine_bind1 (fine_tokenTws _ _) fun _ _ => fine_pure trivial)

theorem fine_xsFacet (X : Ext) : Fine C n true Any (xsFacet X) := fine_alt fine_stringFacet (fine_numericFacet X)

theorem fine_iriExclusion : Fine C n true Any iriExclusion :=
  fine_bind1 (fine_tokenTws _ _) fun _ _ => fine_bind0 fine_iri fun _ _ => fine_bind0 fine_tws0 fun _ _ =>
    fine_bind0 (fine_opt (fine_tokenTws _ _)) fun _ _ => fine_pure trivial

theorem fine_litExclusion (X : Ext) : Fine C n true Any (litExclusion X) :=
  fine_bind1 (fine_tokenTws _ _) fun _ _ => fine_bind0 (fine_literal X) fun _ _ =>
    fine_bind0 (fine_opt (fine_tokenTws _ _)) fun _ _ => fine_pure trivial

theorem fine_langExclusion (X : Ext) : Fine C n true Any (langExclusion X) :=
  fine_bind1 (fine_tokenTws _ _) fun _ _ => fine_bind0 (fine_langTag X) fun _ _ => fine_bind0 fine_tws0 fun _ _ =>
    fine_bind0 (fine_opt (fine_tokenTws _ _)) fun _ _ => fine_pure trivial

theorem fine_value (X : Ext) : Fine C n true Any (value X) := by
  refine fine_alt ?_ (fine_alt ?_ (fine_alt ?_ (fine_alt ?_ ?_)))
  · exact fine_bind1 (fine_tokenTws _ _) fun _ _ =>
      fine_alt (fine_bind0 (fine_many1 (fine_litExclusion X)) fun _ _ => fine_pure trivial)
        (fine_alt (fine_bind0 (fine_many1 (fine_langExclusion X)) fun _ _ => fine_pure trivial)
          (fine_bind0 (fine_many1 fine_iriExclusion) fun _ _ => fine_pure trivial))
  · exact fine_bind1 fine_iri fun _ _ => fine_bind0 fine_tws0 fun _ _ => fine_bind0 (R := Any) (fine_opt (Q := Any) (st := true)
      (fine_bind1 (fine_char _) fun _ _ => fine_bind0 fine_tws0 fun _ _ => (fine_many0 fine_iriExclusion).any)).any
      fun _ _ => fine_pure trivial
  · exact fine_bind1 (fine_literal X) fun _ _ => fine_bind0 fine_tws0 fun _ _ => fine_bind0 (R := Any)
      (fine_opt (Q := Any) (st := true) (fine_bind1 (fine_tokenTws _ _) fun _ _ => (fine_many0 (fine_litExclusion X)).any)).any
      fun _ _ => fine_pure trivial
  · exact fine_bind1 (fine_langTag X) fun _ _ => fine_bind0 fine_tws0 fun _ _ => fine_bind0 (R := Any)
      (fine_opt (Q := Any) (st := true) (fine_bind1 (fine_tokenTws _ _) fun _ _ => (fine_many0 (fine_langExclusion X)).any)).any
      fun _ _ => fine_pure trivial
  · exact fine_bind1 (fine_tokenTws _ _) fun _ _ => fine_bind0 (fine_tokenTws _ _) fun _ _ =>
      fine_bind0 (fine_many0 (fine_langExclusion X)) fun _ _ => fine_pure trivial

theorem fine_valueSet (X : Ext) : Fine C n true Any (valueSet X) :=
  fine_bind1 (fine_tokenTws _ _) fun _ _ => fine_bind0 (fine_many0 (fine_value X)) fun _ _ =>
    fine_bind0 (fine_tokenTws _ _) fun _ _ => fine_pure trivial

theorem fine_nonLit : Fine C n true Any nonLit := by
  refine fine_alt (fine_bind1 (R := Any) (fine_alt ?_ (fine_alt ?_ ?_)) fun _ _ =>
    fine_bind0 (fine_many0 fine_stringFacet) fun _ _ => fine_pure trivial)
    (fine_bind1 (fine_many1 fine_stringFacet) fun _ _ => fine_pure trivial)
  all_goals exact fine_bind1 (fine_tokenTwsNoCase (by simp)) fun _ _ => fine_pure trivial

theorem fine_lit (X : Ext) : Fine C n true Any (lit X) :=
  fine_alt (fine_bind1 (fine_kw (by simp)) fun _ _ => fine_bind0 fine_tws0 fun _ _ =>
      fine_bind0 (fine_many0 (fine_xsFacet X)) fun _ _ => fine_pure trivial)
    (fine_alt (fine_bind1 fine_iri fun _ _ => fine_bind0 fine_tws0 fun _ _ =>
        fine_bind0 (fine_many0 (fine_xsFacet X)) fun _ _ => fine_pure trivial)
      (fine_alt (fine_bind1 (fine_valueSet X) fun _ _ => fine_bind0 fine_tws0 fun _ _ =>
          fine_bind0 (fine_many0 (fine_xsFacet X)) fun _ _ => fine_pure trivial)
        (fine_bind1 (fine_many1 (fine_numericFacet X)) fun _ _ => fine_pure trivial)))

/-! ## Shapes -/

theorem fine_shapeRef : Fine C n true Any shapeRef :=
  fine_alt (fine_bind1 (fine_char _) fun _ _ => fine_bind0 fine_tws0 fun _ _ => fine_bind0 fine_pnameLn fun _ _ =>
      fine_pure trivial)
    (fine_alt (fine_bind1 (fine_char _) fun _ _ => fine_bind0 fine_tws0 fun _ _ => fine_bind0 fine_pnameNsIri fun _ _ =>
        fine_pure trivial)
      (fine_bind1 (fine_char _) fun _ _ => fine_shapeLabel.lax))

/-- No qualifier extends a shape. -/
def Qual.noExt : Qual → Prop
  | .ext _ => False
  | _ => True

/-- A parser that gives an error on all inputs. -/
theorem fine_err {α : Type} {Q : α → Prop} {p : P α} {st : Bool} (h : ∀ i, C.S i → p i = .err) : Fine C n st Q p := by
  intro i hS _
  rw [h i hS]
  trivial

theorem bind_err {α β : Type} {p : P α} {f : α → P β} {i : Str} (h : p i = .err) : (p >>= f) i = .err := by
  show P.bind p f i = .err
  rw [P.bind, h]

/-- White space, then a parser that always fails. -/
theorem fine_tws_err {α : Type} {p : P Unit} {f : Unit → P α} (h : ∀ i, C.S i → p i = .err) :
    ∀ i, C.S i → (tws0 >>= fun _ => p >>= f) i = .err ∨ (tws0 >>= fun _ => p >>= f) i = .fail ∨
      C.pan ∧ (tws0 >>= fun _ => p >>= f) i = .panic := by
  intro i hS
  have h1 := fine_tws0 (C := C) (n := i.length + 1) i hS (by omega)
  show (P.bind tws0 _ i = .err) ∨ (P.bind tws0 _ i = .fail) ∨ C.pan ∧ (P.bind tws0 _ i = .panic)
  unfold P.bind
  cases hx : tws0 i with
  | ok a r => rw [hx] at h1; exact .inl (bind_err (h r (C.sufs h1.2.1 hS)))
  | err => simp
  | fail => simp
  | panic => rw [hx] at h1; exact .inr (.inr ⟨h1, rfl⟩)
  | deep => rw [hx] at h1; exact h1.elim

theorem fine_tws_err' {α : Type} {Q : α → Prop} {st : Bool} {p : P Unit} {f : Unit → P α}
    (h : ∀ i, C.S i → p i = .err) : Fine C n st Q (tws0 >>= fun _ => p >>= f) := by
  intro i hS _
  rcases fine_tws_err (f := f) h i hS with h | h | ⟨h', h⟩ <;> rw [h]
  · trivial
  · trivial
  · exact h'

theorem bind_assoc_P {α β γ : Type} (p : P α) (f : α → P β) (g : β → P γ) :
    ((p >>= f) >>= g) = (p >>= fun a => f a >>= g) := by
  funext i
  show P.bind (P.bind p f) g i = P.bind p (fun a => P.bind (f a) g) i
  unfold P.bind
  cases p i <;> rfl

theorem fine_qualifier : Fine C n true (fun q => C.pan ∨ q.noExt) qualifier := by
  refine fine_alt (fine_alt ?_ ?_) (fine_alt ?_ ?_)
  · rcases C.noExt with h | h
    · exact fine_bind1 (fine_tokenTwsNoCase (by simp)) fun _ _ => fine_bind0 fine_shapeRef fun _ _ => fine_pure (.inl h)
    · unfold tokenTwsNoCase
      rw [bind_assoc_P]
      simp only [bind_assoc_P]
      exact fine_tws_err' h
  · rcases C.noAmp with h | h
    · exact fine_bind1 (fine_tokenTws _ _) fun _ _ => fine_bind0 fine_shapeRef fun _ _ => fine_pure (.inl h)
    · unfold tokenTws
      rw [bind_assoc_P]
      simp only [bind_assoc_P]
      exact fine_tws_err' h
  · exact fine_bind1 (fine_tokenTws _ _) fun _ _ => fine_pure (.inr trivial)
  · refine fine_bind1 (fine_tokenTws _ _) fun _ _ => fine_bind0 (R := Any) (fine_cut (Fine.any (fine_many1
      (Q := Any) (st := true) ?_))) fun _ _ => fine_pure (.inr trivial)
    exact fine_bind1 fine_predicate fun _ _ => fine_bind0 fine_tws0 fun _ _ => fine_pure trivial

theorem fine_annotation (X : Ext) : Fine C n true Any (annotation X) :=
  fine_bind1 (fine_tokenTws _ _) fun _ _ => fine_bind0 (fine_cut fine_predicate) fun _ _ => fine_bind0 fine_tws0 fun _ _ =>
    fine_bind0 (fine_cut (Q := Any) (st := true) (fine_alt (fine_bind1 fine_iri fun _ _ => fine_pure trivial)
      (fine_bind1 (fine_literal X) fun _ _ => fine_pure trivial))) fun _ _ => fine_pure trivial

theorem fine_semActs : Fine C n false Any semActs := fine_bind0 (fine_many0 fine_codeDecl) fun _ _ => fine_pure trivial

/-- Not a reference to a triple expression. -/
def TE.noRef : TE → Prop
  | .ref _ => False
  | _ => True

/-- The parsers inside brackets are fine. -/
structure FineRec (C : Ctx) (n : Nat) (R : Rec) : Prop where
  shape : Fine C n true Any R.shape
  inline : Fine C n true Any R.inline
  triple : Fine C n true (fun t => C.pan ∨ t.noRef) R.triple

theorem extendsOf_noExt (qs : List Qual) (h : ∀ q ∈ qs, q.noExt) : extendsOf qs = [] := by
  unfold extendsOf
  rw [List.filterMap_eq_nil_iff]
  intro q hq
  have := h q hq
  cases q <;> simp_all [Qual.noExt]

variable {R : Rec}

theorem fine_shapeDef (X : Ext) (inl : Bool) (hR : FineRec C n R) : Fine C (n + 1) true Any (shapeDef X inl R) := by
  refine fine_bind2 (fine_many0 fine_qualifier) fun qs hqs => fine_bindS (fine_tokenTws _ _) fun _ _ =>
    fine_bind0 (R := Any) (st₁ := false) ?_ fun te _ => fine_bind0 (fine_tokenTws _ _) fun _ _ => ?_
  · exact fine_alt (fine_bind0 hR.triple fun _ _ => fine_pure trivial) (fine_bind0 fine_tws0 fun _ _ => fine_pure trivial)
  · split
    · split
      · exact fine_pure trivial
      · next h =>
        apply fine_crash
        by_contra hp
        apply h
        rw [extendsOf_noExt qs fun q hq => (hqs q hq).resolve_left hp]
        rfl
    · exact fine_bind0 (fine_many0 (fine_annotation X)) fun _ _ => fine_bind0 fine_tws0 fun _ _ =>
        fine_bind0 fine_semActs fun _ _ => fine_pure trivial

theorem fine_shapeOrRef (X : Ext) (inl : Bool) (hR : FineRec C n R) : Fine C (n + 1) true Any (shapeOrRef X inl R) :=
  fine_alt (fine_shapeDef X inl hR) (fine_bind1 fine_shapeRef fun _ _ => fine_pure trivial)

theorem fine_shapeAtom (X : Ext) (inl : Bool) (hR : FineRec C n R) : Fine C (n + 1) true Any (shapeAtom X inl R) := by
  refine fine_alt ?_ (fine_alt ?_ (fine_alt ?_ (fine_alt ?_ ?_)))
  · exact fine_bind1 fine_nonLit fun _ _ => fine_bind0 fine_tws0 fun _ _ =>
      fine_bind0 (fine_opt (fine_shapeOrRef X inl hR)) fun _ _ => fine_pure trivial
  · exact fine_bind1 (fine_lit X) fun _ _ => fine_pure trivial
  · exact fine_bind1 (fine_shapeOrRef X inl hR) fun _ _ => fine_bind0 (fine_opt fine_nonLit) fun _ _ => fine_pure trivial
  · exact fine_bindS (fine_char _) fun _ _ => fine_bind0 fine_tws0 fun _ _ => fine_bind0 hR.shape fun _ _ =>
      fine_bind0 fine_tws0 fun _ _ => fine_bind0 (fine_char _) fun _ _ => fine_pure trivial
  · exact fine_bind2 fine_tws0 fun _ _ => fine_bind1 (fine_char _) fun _ _ => fine_pure trivial

theorem fine_shapeOr (X : Ext) (inl : Bool) (hR : FineRec C n R) : Fine C (n + 1) true Any (shapeOr X inl R) :=
  fine_bind1 (fine_many1Sep (Q := Any) (st := true) (fine_bind1 (fine_many1Sep (Q := Any) (st := true)
      (fine_bind2 (fine_opt (fine_tokenTwsNoCase (by simp))) fun _ _ => fine_bind1 (fine_shapeAtom X inl hR)
        fun _ _ => fine_pure trivial) (fine_tokenTwsNoCase (by simp))) fun _ _ => fine_pure trivial)
    (fine_tokenTwsNoCase (by simp))) fun _ _ => fine_pure trivial

/-! ## Triple expressions -/

theorem fine_repeatRange : Fine C n true Any repeatRange :=
  fine_bind1 (fine_tag _) fun _ _ => fine_bind0 fine_integer fun _ _ =>
    fine_bind0 (R := Any) (Fine.any (fine_opt (Q := Any) (st := true) (fine_bind1 (fine_tokenTws _ _) fun _ _ =>
      (fine_opt (Q := Any) (st := true) (fine_alt (fine_bind1 fine_integer fun _ _ => fine_pure trivial)
        (fine_bind1 (fine_tokenTws _ _) fun _ _ => fine_pure trivial))).any))) fun _ _ =>
    fine_bind0 (fine_cut (fine_tag _)) fun _ _ => fine_pure trivial

theorem fine_cardinality : Fine C n true Any cardinality :=
  fine_alt (fine_bind1 (fine_char _) fun _ _ => fine_pure trivial)
    (fine_alt (fine_bind1 (fine_char _) fun _ _ => fine_pure trivial)
      (fine_alt (fine_bind1 (fine_char _) fun _ _ => fine_pure trivial) fine_repeatRange))

theorem fine_senseFlags : Fine C n true Any senseFlags :=
  fine_alt (fine_bind1 (fine_tokenTws _ _) fun _ _ => fine_bind0 (fine_opt (fine_tokenTws _ _)) fun _ _ => fine_pure trivial)
    (fine_bind1 (fine_tokenTws _ _) fun _ _ => fine_bind0 (fine_opt (fine_tokenTws _ _)) fun _ _ => fine_pure trivial)

theorem fine_tripleConstraint (X : Ext) (hR : FineRec C n R) :
    Fine C (n + 1) true TE.noRef (tripleConstraint X R) :=
  fine_bind2 (fine_opt fine_senseFlags) fun _ _ => fine_bind2 fine_tws0 fun _ _ => fine_bindS fine_predicate fun _ _ =>
    fine_bind0 fine_tws0 fun _ _ => fine_bind0 hR.inline fun _ _ => fine_bind0 fine_tws0 fun _ _ =>
    fine_bind0 (fine_opt fine_cardinality) fun _ _ => fine_bind0 fine_tws0 fun _ _ =>
    fine_bind0 (fine_many0 (fine_annotation X)) fun _ _ => fine_bind0 fine_tws0 fun _ _ =>
    fine_bind0 fine_semActs fun _ _ => fine_pure trivial

theorem withCard_noRef {a b : Option Int} {t t' : TE} (h : t.withCard a b = some t') : t'.noRef := by
  cases t <;> simp only [TE.withCard, Option.some.injEq, reduceCtorEq] at h <;> subst h <;> trivial

theorem withAnns_noRef {a : Option (List Annot)} {t t' : TE} (h : t.withAnns a = some t') : t'.noRef := by
  cases t <;> simp only [TE.withAnns, Option.some.injEq, reduceCtorEq] at h <;> subst h <;> trivial

theorem withActs_noRef {a : Option (List SemAct)} {t t' : TE} (h : t.withActs a = some t') : t'.noRef := by
  cases t <;> simp only [TE.withActs, Option.some.injEq, reduceCtorEq] at h <;> subst h <;> trivial

theorem withId_noRef {a : Option TLabel} {t t' : TE} (h : t.withId a = some t') : t'.noRef := by
  cases t <;> simp only [TE.withId, Option.some.injEq, reduceCtorEq] at h <;> subst h <;> trivial

theorem isSome_of_noRef {t : TE} (h : t.noRef) : (∀ a b, (t.withCard a b).isSome = true) ∧
    (∀ a, (t.withAnns a).isSome = true) ∧ (∀ a, (t.withActs a).isSome = true) ∧ ∀ a, (t.withId a).isSome = true := by
  cases t <;> simp_all [TE.noRef, TE.withCard, TE.withAnns, TE.withActs, TE.withId]

theorem fine_bracketed (X : Ext) (hR : FineRec C n R) : Fine C (n + 1) true TE.noRef (bracketed X R) := by
  refine fine_bindS (fine_tokenTws _ _) fun _ _ => fine_bind0 (fine_cut hR.triple) fun te hte =>
    fine_bind0 (fine_cut (fine_tokenTws _ _)) fun _ _ => fine_bind0 (fine_cut (fine_opt fine_cardinality)) fun card _ =>
    fine_bind0 fine_tws0 fun _ _ => fine_bind0 (fine_many0 (fine_annotation X)) fun anns _ =>
    fine_bind0 fine_tws0 fun _ _ => fine_bind0 fine_semActs fun acts _ =>
    fine_bind0 (R := fun t => C.pan ∨ TE.noRef t) (st₁ := false) ?_ fun te' hte' =>
    fine_bind0 (R := fun t => C.pan ∨ TE.noRef t) (st₁ := false) ?_ fun te'' hte'' => ?_
  · cases card with
    | none => exact fine_orCrash (.inr rfl) (by rintro a ⟨⟩; exact hte)
    | some c => exact fine_orCrash (hte.imp id fun h => (isSome_of_noRef h).1 _ _) fun a h => .inr (withCard_noRef h)
  · unfold TE.putAnns
    split
    · exact fine_orCrash (.inr rfl) (by rintro a ⟨⟩; exact hte')
    · exact fine_orCrash (hte'.imp id fun h => (isSome_of_noRef h).2.1 _) fun a h => .inr (withAnns_noRef h)
  · exact fine_orCrash (hte''.imp id fun h => (isSome_of_noRef h).2.2.1 _) fun a h => withActs_noRef h

theorem fine_unary (X : Ext) (hR : FineRec C n R) : Fine C (n + 1) true (fun t => C.pan ∨ t.noRef) (unary X R) := by
  refine fine_alt ?_ ?_
  · rcases C.noAmp with h | h
    · exact fine_bind1 (fine_tokenTws _ _) fun _ _ => fine_bind0 (fine_cut fine_tripleLabel) fun _ _ => fine_pure (.inl h)
    · unfold tokenTws
      rw [bind_assoc_P]
      simp only [bind_assoc_P]
      exact fine_tws_err' h
  · refine fine_bind2 (fine_opt (Q := Any) (st := true) (fine_bind1 (fine_char _) fun _ _ => fine_bind0 fine_tws0 fun _ _ =>
      fine_tripleLabel.lax)) fun id _ => fine_bind2 fine_tws0 fun _ _ =>
      fine_bind1 (fine_alt (fine_bracketed X hR) (fine_tripleConstraint X hR)) fun te hte =>
      fine_orCrash (.inr ((isSome_of_noRef hte).2.2.2 _)) fun a h => .inr (withId_noRef h)

theorem fine_group (X : Ext) (hR : FineRec C n R) : Fine C (n + 1) true (fun t => C.pan ∨ t.noRef) (group X R) := by
  refine fine_alt ?_ ?_
  · exact fine_bind1 (fine_unary X hR) fun _ _ => fine_bind0 fine_tws0 fun _ _ => fine_bind0 (R := Any) (Fine.any (fine_many1
      (Q := Any) (st := true) (fine_bind1 (fine_tokenTws _ _) fun _ _ => (fine_unary X hR).any))) fun _ _ =>
      fine_bind0 fine_tws0 fun _ _ => fine_bind0 (fine_opt (fine_char _)) fun _ _ => fine_pure (.inr trivial)
  · exact fine_bind1 (fine_unary X hR) fun _ h => fine_bind0 fine_tws0 fun _ _ => fine_bind0 (fine_opt (fine_char _))
      fun _ _ => fine_pure h

theorem fine_tripleExpr (X : Ext) (hR : FineRec C n R) :
    Fine C (n + 1) true (fun t => C.pan ∨ t.noRef) (tripleExpr X R) := by
  refine fine_alt ?_ (fine_group X hR)
  exact fine_bind1 (fine_group X hR) fun _ _ => fine_bind0 fine_tws0 fun _ _ => fine_bind0 (R := Any) (Fine.any (fine_many1
      (Q := Any) (st := true) (fine_bind1 (fine_tokenTws _ _) fun _ _ => (fine_group X hR).any))) fun _ _ =>
      fine_pure (.inr trivial)

theorem fine_recs (X : Ext) (C : Ctx) (n : Nat) : FineRec C n (recs X n) := by
  induction n with
  | zero => exact ⟨fun _ _ h => by omega, fun _ _ h => by omega, fun _ _ h => by omega⟩
  | succ n ih => exact ⟨fine_shapeOr X false ih, fine_shapeOr X true ih, fine_tripleExpr X ih⟩

theorem fine_shapeExpression (X : Ext) : Fine C n true Any (shapeExpression X) :=
  fun i hS _ => (fine_recs X C (i.length + 1)).shape i hS (by omega)

theorem fine_inlineShapeExpression (X : Ext) : Fine C n true Any (inlineShapeExpression X) :=
  fun i hS _ => (fine_recs X C (i.length + 1)).inline i hS (by omega)

/-! ## Statements -/

theorem fine_statement (X : Ext) : Fine C n true Any (statement X) := by
  refine fine_alt (fine_alt ?_ (fine_alt ?_ ?_)) (fine_alt ?_ (fine_alt ?_ ?_))
  · exact fine_bind1 (fine_kw (by simp)) fun _ _ => fine_bind0 fine_tws0 fun _ _ => fine_bind0 (fine_cut fine_iriRef)
      fun _ _ => fine_pure trivial
  · exact fine_bind1 (fine_kw (by simp)) fun _ _ => fine_bind0 fine_tws0 fun _ _ => fine_bind0 (fine_cut fine_pnameNs)
      fun _ _ => fine_bind0 fine_tws0 fun _ _ => fine_bind0 (fine_cut fine_iriRef) fun _ _ => fine_pure trivial
  · exact fine_bind1 (fine_kw (by simp)) fun _ _ => fine_bind0 fine_tws0 fun _ _ => fine_bind0 (fine_cut fine_iri)
      fun _ _ => fine_pure trivial
  · exact fine_bind1 (fine_kw (by simp)) fun _ _ => fine_bind0 fine_tws0 fun _ _ => fine_bind0 (fine_cut (fine_char _))
      fun _ _ => fine_bind0 fine_tws0 fun _ _ => fine_bind0 (fine_cut (fine_inlineShapeExpression X)) fun _ _ =>
      fine_pure trivial
  · exact fine_bind2 (fine_opt (fine_tokenTwsNoCase (by simp))) fun _ _ => fine_bind1 fine_shapeLabel fun _ _ =>
      fine_bind0 fine_tws0 fun _ _ => fine_bind0 (R := Any) (st₁ := true) (fine_cut (fine_alt (fine_shapeExpression X)
        (fine_bind1 (fine_kw (by simp)) fun _ _ => fine_pure trivial))) fun _ _ => fine_pure trivial
  · exact fine_bind1 (fine_many1 fine_codeDecl) fun _ _ => fine_pure trivial

theorem fine_statementsGo (X : Ext) (k : Nat) : ∀ i, C.S i → i.length ≤ k →
    FineRes C false Any i (statementsGo X k i) := by
  induction k with
  | zero =>
    intro i _ hk
    cases i with
    | nil => exact ⟨trivial, List.suffix_rfl, by simp⟩
    | cons c i => simp at hk
  | succ k ih =>
    intro i hS hk
    cases i with
    | nil => exact ⟨trivial, List.suffix_rfl, by simp⟩
    | cons c i =>
      have h := fine_statement (C := C) (n := i.length + 2) X (c :: i) hS (by simp)
      unfold statementsGo
      cases hx : statement X (c :: i) with
      | ok s r =>
        rw [hx] at h
        have h1 := h.2.2 rfl
        have hSr := C.sufs h.2.1 hS
        have h2 := skip_fine C r hSr
        have h2l := h2.length_le
        have h3 := ih (skip r) (C.sufs h2 hSr) (by simp at h1 hk; omega)
        simp only
        cases hy : statementsGo X k (skip r) with
        | ok ss r' => rw [hy] at h3; exact ⟨trivial, (h3.2.1.trans h2).trans h.2.1, by simp⟩
        | err => trivial
        | fail => trivial
        | panic => rw [hy] at h3; exact h3
        | deep => rw [hy] at h3; exact h3
      | err => trivial
      | fail => trivial
      | panic => rw [hx] at h; exact h
      | deep => rw [hx] at h; exact h

theorem fine_statements (X : Ext) (C : Ctx) (i : Str) (hS : C.S i) : FineRes C false Any i (statements X i) := by
  have h := skip_fine C i hS
  have h2 := fine_statementsGo (C := C) X i.length (skip i) (C.sufs h hS) h.length_le
  unfold statements
  cases hx : statementsGo X i.length (skip i) with
  | ok ss r => rw [hx] at h2; exact ⟨trivial, h2.2.1.trans h, by simp⟩
  | err => trivial
  | fail => trivial
  | panic => rw [hx] at h2; exact h2
  | deep => rw [hx] at h2; exact h2

end Shexc
