import Verif.Shexc.Schema
import Verif.Shexc.Total
import Verif.Shexc.LemText

/-!
# Properties: reading a text in the compact syntax ends; where it panics
-/

namespace Shexc

open P

/-! ## Specification -/

/-- A text that steers clear of what the reader panics on: characters of one byte, no `&`, no escape of a character by
its number and no `extends`, in capitals or not. -/
structure Tame (w : Str) : Prop where
  ascii : ∀ c ∈ w, c.toNat < 128
  noAmp : '&' ∉ w
  noU : ¬ "\\u".toList <:+: w
  noU8 : ¬ "\\U".toList <:+: w
  noExt : ¬ "extends".toList <:+: w.map Char.toLower

/-! ## Lemmas -/

/-- All inputs, panics allowed. -/
def freeCtx : Ctx where
  pan := True
  S := fun _ => True
  suf := fun _ _ _ => trivial
  ascii := .inl trivial
  noU := .inl trivial
  noAmp := .inl trivial
  noExt := .inl trivial

theorem tagNoCase_take {s i : Str} {a : Unit} {r : Str} (h : tagNoCase s i = .ok a r) :
    ∃ b, i = b ++ r ∧ b.map Char.toLower = s.map Char.toLower := by
  induction s generalizing i with
  | nil => cases h; exact ⟨[], rfl, rfl⟩
  | cons c s ih =>
    cases i with
    | nil => cases h
    | cons d i =>
      rw [tagNoCase] at h
      split at h
      · next e =>
        obtain ⟨b, rfl, hb⟩ := ih h
        exact ⟨d :: b, rfl, by simp [hb, e]⟩
      · cases h

theorem tagNoCase_cases (s i : Str) : (∃ r, tagNoCase s i = .ok () r) ∨ tagNoCase s i = .err := by
  induction s generalizing i with
  | nil => exact .inl ⟨i, rfl⟩
  | cons c s ih =>
    cases i with
    | nil => exact .inr rfl
    | cons d i =>
      rw [tagNoCase]
      split
      · exact ih i
      · exact .inr rfl

/-- Tame texts, no panics. -/
def tameCtx : Ctx where
  pan := False
  S := Tame
  suf := fun c i h =>
    have hi : i <:+: c :: i := (List.suffix_cons c i).isInfix
    ⟨fun d hd => h.ascii d (List.mem_cons_of_mem _ hd), fun hd => h.noAmp (List.mem_cons_of_mem _ hd),
      fun e => h.noU (e.trans hi), fun e => h.noU8 (e.trans hi),
      fun e => h.noExt (e.trans (List.suffix_cons _ _).isInfix)⟩
  ascii := .inr fun c i h => by
    have := h.ascii c List.mem_cons_self
    have h2 : c.val.toNat < 128 := this
    simp only [Char.utf8Size]
    rw [if_pos]
    show c.val ≤ 0x7f
    rw [UInt32.le_iff_toNat_le]
    show c.val.toNat ≤ 127
    omega
  noU := .inr fun i h => by
    have h1 : tag ['\\', 'u'] i = .err := tag_two_err fun b e => h.noU ⟨[], b, by rw [e]; rfl⟩
    have h2 : tag ['\\', 'U'] i = .err := tag_two_err fun b e => h.noU8 ⟨[], b, by rw [e]; rfl⟩
    unfold uchar
    refine bind_err ?_
    unfold alt
    rw [bind_err h1]
    exact bind_err h2
  noAmp := .inr fun i h => by
    cases i with
    | nil => rfl
    | cons c i =>
      rw [tag]
      split
      · next e => subst e; exact absurd List.mem_cons_self h.noAmp
      · rfl
  noExt := .inr fun i h => by
    rcases tagNoCase_cases "extends".toList i with ⟨r, hr⟩ | hr
    · obtain ⟨b, rfl, hb⟩ := tagNoCase_take hr
      refine absurd ⟨[], r.map Char.toLower, ?_⟩ h.noExt
      rw [List.map_append, hb]
      rfl
    · exact hr

theorem parseGo_fine (X : Ext) (I : Iris) (C : Ctx) (n : Nat) : ∀ (S : Schema) (i : Str), C.S i → i.length ≤ n →
    parseGo X I n S i ≠ .deep ∧ (parseGo X I n S i = .panic → C.pan) := by
  induction n with
  | zero =>
    intro S i _ hl
    cases i with
    | nil => exact ⟨by simp [parseGo], by simp [parseGo]⟩
    | cons c i => simp at hl
  | succ n ih =>
    intro S i hS hl
    cases i with
    | nil => exact ⟨by simp [parseGo], by simp [parseGo]⟩
    | cons c i =>
      have h := fine_statement (C := C) (n := i.length + 2) X (c :: i) hS (by simp)
      unfold parseGo
      cases hx : statement X (c :: i) with
      | ok s r =>
        rw [hx] at h
        have h1 := h.2.2 rfl
        have hSr := C.sufs h.2.1 hS
        have h2 := skip_fine C r hSr
        have h2l := h2.length_le
        simp only
        cases hy : S.step I s with
        | none => exact ⟨by simp, by simp⟩
        | some S' => exact ih S' (skip r) (C.sufs h2 hSr) (by simp at h1 hl; omega)
      | err => exact ⟨by simp, by simp⟩
      | fail => exact ⟨by simp, by simp⟩
      | panic => rw [hx] at h; exact ⟨by simp, fun _ => h⟩
      | deep => rw [hx] at h; exact h.elim

theorem parse_fine (X : Ext) (I : Iris) (C : Ctx) (base : Option Str) (i : Str) (h : C.S i) :
    parse X I base i ≠ .deep ∧ (parse X I base i = .panic → C.pan) := by
  have h2 := skip_fine C i h
  exact parseGo_fine X I C i.length _ (skip i) (C.sufs h2 h) h2.length_le

/-! ## Properties -/

/-- **C104**: whatever the text, reading it ends: the fuel of the model, which is the length of the text for every
loop and for every bracket that is open, is never used up. -/
theorem C104_ends (X : Ext) (I : Iris) (base : Option Str) (w : Str) : parse X I base w ≠ .deep :=
  (parse_fine X I freeCtx base w trivial).1

/-- **C104** (partial: for tame texts; `C104_refuted` shows that the reader panics on others): a tame text is read to a
schema or refused with an error. -/
theorem C104_no_panic_partial (X : Ext) (I : Iris) (base : Option Str) (w : Str) (h : Tame w) :
    (∃ S, parse X I base w = .ok S) ∨ parse X I base w = .error := by
  have h1 := parse_fine X I tameCtx base w h
  cases hx : parse X I base w with
  | ok S => exact .inl ⟨S, rfl⟩
  | error => exact .inr rfl
  | panic => exact (h1.2 hx).elim
  | deep => exact absurd hx h1.1

/-- Whether a result is a panic. -/
def Out.isPanic : Out → Bool
  | .panic => true
  | _ => false

theorem Out.eq_panic {o : Out} (h : o.isPanic = true) : o = .panic := by cases o <;> simp_all [Out.isPanic]

/-- Nothing from outside. -/
def noExt : Ext := ⟨fun _ => none, fun _ => none⟩

/-- All strings are IRIs, and resolution gives the IRI itself. -/
def anyIris : Iris := ⟨fun _ => true, fun _ s => some s⟩

/-- **C104** refuted: the reader panics on a local name that starts with a letter of two bytes, on an escape that is
the number of no character, on an escaped backslash in a pattern, on an inner shape that extends another one, and on a
bracket around an inclusion. -/
theorem C104_refuted :
    parse noExt anyIris none ":é {}".toList = .panic ∧
    parse noExt anyIris none "<\\uD800> {}".toList = .panic ∧
    parse noExt anyIris none "<S> /\\u005C/".toList = .panic ∧
    parse noExt anyIris none "<S> { <p> EXTENDS @<T> { } }".toList = .panic ∧
    parse noExt anyIris none "<S> { ( &<x> ) }".toList = .panic := by
  refine ⟨?_, ?_, ?_, ?_, ?_⟩ <;> exact Out.eq_panic (by decide +kernel)

example : Tame "PREFIX : <e/> :S CLOSED { :p [ 1 \"\\n\" ] + ; ^:q @:S OR IRI } # end".toList :=
  ⟨by decide +kernel, by decide +kernel, by decide +kernel, by decide +kernel, by decide +kernel⟩

end Shexc
