import Verif.Shexj.Nums
import Mathlib.Data.List.Nodup
import Mathlib.Tactic.ByContra

/-!
# Lemmas: fields, names, values and facets written and read back
-/

namespace Shexj

open Shexc
open Shexc.Pp (showInt showNat showDec)

/-! ## Fields -/

theorem vals_nil (k : String) : vals k [] = [] := rfl

theorem vals_cons (k k' : String) (j : Json) (fs : Fields) :
    vals k ((k', j) :: fs) = if k' = k then j :: vals k fs else vals k fs := by
  by_cases h : k' = k <;> simp [vals, List.filter_cons, h]

theorem vals_append (k : String) (fs gs : Fields) : vals k (fs ++ gs) = vals k fs ++ vals k gs := by
  simp [vals]

theorem vals_field (k k' : String) (o : Option Json) : vals k (field k' o) = if k' = k then o.toList else [] := by
  cases o with
  | none => simp [field, vals]
  | some j => simp [field, vals_cons, vals_nil]

theorem vals_untag {k : String} (h : k ≠ "type") (fs : Fields) : vals k (untag fs) = vals k fs := by
  induction fs with
  | nil => rfl
  | cons f fs ih =>
    obtain ⟨k', j⟩ := f
    rw [untag, List.filter_cons]
    by_cases h' : k' = "type"
    · subst h'
      simp only [bne_self_eq_false, Bool.false_eq_true, if_false]
      rw [vals_cons, if_neg (Ne.symm h)]
      exact ih
    · have hb : (k' != "type") = true := by simpa using h'
      simp only [hb, if_true]
      rw [vals_cons, vals_cons]
      rw [untag] at ih
      rw [ih]

theorem one_of {k : String} {fs : Fields} {o : Option Json} (h : vals k fs = o.toList) : one k fs = some o := by
  unfold one
  rw [h]
  cases o <;> rfl

theorem may_of {α β : Type} {k : String} {fs : Fields} {f : Json → Option β} {o : Option α} {w : α → Json} {c : α → β}
    (h : vals k fs = (o.map w).toList) (hf : ∀ a, o = some a → f (w a) = some (c a)) : may k fs f = some (o.map c) := by
  unfold may
  rw [one_of h]
  cases o with
  | none => rfl
  | some a => simp [hf a rfl]

theorem optf_of {α β : Type} {k : String} {fs : Fields} {f : Json → Option β} {o : Option α} {w : α → Json} {c : α → β}
    (h : vals k fs = (o.map w).toList) (hn : ∀ a, o = some a → w a ≠ .null)
    (hf : ∀ a, o = some a → f (w a) = some (c a)) : optf k fs f = some (o.map c) := by
  unfold optf
  rw [one_of h]
  cases o with
  | none => rfl
  | some a =>
    have h1 := hf a rfl
    have h2 := hn a rfl
    simp only [Option.map_some, Option.bind_eq_bind, Option.bind_some]
    revert h1 h2
    cases w a <;> simp_all

theorem req_of {α : Type} {k : String} {fs : Fields} {f : Json → Option α} {j : Json} {a : α} (h : vals k fs = [j])
    (hf : f j = some a) : req k fs f = some a := by
  unfold req
  rw [one_of (o := some j) h]
  exact hf

theorem readAll_map {α β : Type} {f : Json → Option β} {w : α → Json} {c : α → β} {as : List α}
    (h : ∀ a ∈ as, f (w a) = some (c a)) : readAll f (as.map w) = some (as.map c) := by
  induction as with
  | nil => rfl
  | cons a as ih =>
    rw [List.map_cons, readAll, h a (by simp), ih fun b hb => h b (by simp [hb])]
    rfl

theorem readVec_of {α β : Type} {f : Json → Option β} {w : α → Json} {c : α → β} {as : List α}
    (h : ∀ a ∈ as, f (w a) = some (c a)) : readVec f (writeVec w as) = some (as.map c) := readAll_map h

theorem readVec_id {α : Type} {f : Json → Option α} {w : α → Json} {as : List α} (h : ∀ a ∈ as, f (w a) = some a) :
    readVec f (writeVec w as) = some as := by
  have := readVec_of (c := id) h
  simpa using this

theorem known_append (ks : List String) (fs gs : Fields) : known ks (fs ++ gs) = (known ks fs && known ks gs) := by
  simp [known]

theorem known_field {ks : List String} {k : String} (o : Option Json) (h : ks.contains k = true) :
    known ks (field k o) = true := by
  cases o with
  | none => rfl
  | some j => simpa [field, known] using h

theorem known_untag {ks : List String} {fs : Fields} (h : known ks fs = true) : known ks (untag fs) = true := by
  rw [known, List.all_eq_true] at h ⊢
  intro f hf
  exact h f (List.mem_of_mem_filter hf)

/-! ## Depth -/

theorem depth_lt_arr {js : List Json} {j : Json} (h : j ∈ js) : j.depth < (Json.arr js).depth := by
  have : ∀ js : List Json, j ∈ js → j.depth ≤ depths js := by
    intro js h
    induction js with
    | nil => simp at h
    | cons i js ih =>
      rw [depths]
      rcases List.mem_cons.1 h with h | h
      · subst h; omega
      · have := ih h; omega
  have := this js h
  rw [Json.depth]
  omega

theorem depth_lt_obj {fs : Fields} {k : String} {j : Json} (h : j ∈ vals k fs) : j.depth < (Json.obj fs).depth := by
  have : ∀ fs : Fields, j ∈ vals k fs → j.depth ≤ depthf fs := by
    intro fs h
    induction fs with
    | nil => simp [vals_nil] at h
    | cons f fs ih =>
      obtain ⟨k', i⟩ := f
      rw [vals_cons] at h
      rw [depthf]
      split at h
      · rcases List.mem_cons.1 h with h | h
        · subst h; omega
        · have := ih h; omega
      · have := ih h; omega
  have := this fs h
  rw [Json.depth]
  omega

/-! ## Names and labels -/

theorem iriRef_ok {X : Ext} {r : IriRef} (h : IriOk X r) : iriRef X (refText r) = some r := by
  cases r with
  | iri s => simp only [IriOk] at h; simp [iriRef, refText, h]
  | prefixed p l => exact h.elim

theorem takeWhile_colon {p l : Str} (h : ':' ∉ p) : (p ++ ':' :: l).takeWhile (· ≠ ':') = p := by
  induction p with
  | nil => simp
  | cons c p ih =>
    simp only [List.mem_cons, not_or] at h
    rw [List.cons_append, List.takeWhile_cons]
    have : (decide (c ≠ ':')) = true := by simp [Ne.symm h.1]
    rw [if_pos this, ih h.2]

theorem dropWhile_colon {p l : Str} (h : ':' ∉ p) : (p ++ ':' :: l).dropWhile (· ≠ ':') = ':' :: l := by
  induction p with
  | nil => simp
  | cons c p ih =>
    simp only [List.mem_cons, not_or] at h
    rw [List.cons_append, List.dropWhile_cons]
    have : (decide (c ≠ ':')) = true := by simp [Ne.symm h.1]
    rw [if_pos this, ih h.2]

theorem readRef_ok {X : Ext} {r : IriRef} (h : RefOk X r) : readRef X (writeRef r) = some r := by
  cases r with
  | iri s => simp only [RefOk] at h; simp [readRef, writeRef, refText, h]
  | prefixed p l =>
    obtain ⟨h1, h2⟩ := h
    have hc : (p ++ ':' :: l).contains ':' = true := by simp
    rw [writeRef, refText, readRef, if_neg (by simp [h2]), if_pos hc, takeWhile_colon h1, dropWhile_colon h1]
    rfl

theorem plain_iff {s : Str} : plain s = true ↔ Unescaped s := by
  simp [plain, Unescaped, List.all_eq_true, and_assoc]

theorem beforeLast_none {s : Str} : beforeLast s = none ↔ '>' ∉ s := by
  simp [beforeLast]

theorem mem_line {s : Str} : '>' ∈ line s ↔ ∃ b c, s = b ++ '>' :: c ∧ '\n' ∉ b := by
  induction s with
  | nil => simp [line]
  | cons d s ih =>
    rw [line, List.takeWhile_cons]
    by_cases hd : d = '\n'
    · subst hd
      simp only [ne_eq, not_true_eq_false, decide_false, Bool.false_eq_true, if_false, List.not_mem_nil, false_iff]
      rintro ⟨b, c, h, hb⟩
      cases b with
      | nil => simp at h
      | cons e b => simp only [List.cons_append, List.cons.injEq] at h; exact hb (by rw [← h.1]; simp)
    · simp only [ne_eq, hd, not_false_eq_true, decide_true, if_true, List.mem_cons]
      constructor
      · rintro (h | h)
        · exact ⟨[], s, by rw [← h]; rfl, by simp⟩
        · obtain ⟨b, c, h, hb⟩ := ih.1 h
          exact ⟨d :: b, c, by simp [h], by simp [hb, Ne.symm hd]⟩
      · rintro ⟨b, c, h, hb⟩
        cases b with
        | nil => simp at h; exact Or.inl h.1.symm
        | cons e b =>
          simp only [List.cons_append, List.cons.injEq] at h
          simp only [List.mem_cons, not_or] at hb
          exact Or.inr (ih.2 ⟨b, c, h.2, hb.2⟩)

theorem angle_none {s : Str} : angle s = none ↔ ¬ Angles s := by
  induction s with
  | nil => simp [angle, Angles]
  | cons d s ih =>
    rw [angle]
    have key : Angles (d :: s) ↔ (d = '<' ∧ '>' ∈ line s) ∨ Angles s := by
      constructor
      · rintro ⟨a, b, c, h, hb⟩
        cases a with
        | nil =>
          simp only [List.nil_append, List.cons.injEq] at h
          exact Or.inl ⟨h.1, mem_line.2 ⟨b, c, h.2, hb⟩⟩
        | cons e a =>
          simp only [List.cons_append, List.cons.injEq] at h
          exact Or.inr ⟨a, b, c, h.2, hb⟩
      · rintro (⟨h1, h2⟩ | ⟨a, b, c, h, hb⟩)
        · obtain ⟨b, c, h, hb⟩ := mem_line.1 h2
          exact ⟨[], b, c, by simp [h1, h], hb⟩
        · exact ⟨d :: a, b, c, by simp [h], hb⟩
    rw [key]
    by_cases hd : d = '<'
    · rw [if_pos hd]
      cases hb : beforeLast (line s) with
      | none =>
        have := beforeLast_none.1 hb
        simp [ih, this]
      | some r =>
        have : '>' ∈ line s := by
          by_contra hc
          rw [beforeLast_none.2 hc] at hb
          simp at hb
        simp [hd, this]
    · rw [if_neg hd, ih]
      simp [hd]

theorem blank_none {s : Str} : blank s = none ↔ NoBlank s := by
  induction s with
  | nil => simp [blank, NoBlank]
  | cons d s ih =>
    rw [blank]
    have key : ['_', ':'] <:+: (d :: s) ↔ (d = '_' ∧ s.head? = some ':') ∨ ['_', ':'] <:+: s := by
      rw [List.infix_cons_iff]
      refine or_congr ?_ Iff.rfl
      rw [List.cons_prefix_cons]
      cases s with
      | nil => simp
      | cons e s =>
        rw [List.cons_prefix_cons]
        simp [eq_comm]
    unfold NoBlank at ih ⊢
    rw [key]
    by_cases hd : d = '_' ∧ s.head? = some ':'
    · rw [if_pos hd]; simp [hd]
    · rw [if_neg hd, ih]; simp only [hd, false_or]

theorem line_id {s : Str} (h : '\n' ∉ s) : line s = s := by
  induction s with
  | nil => rfl
  | cons d s ih =>
    simp only [List.mem_cons, not_or] at h
    rw [line, List.takeWhile_cons, if_pos (by simp [Ne.symm h.1])]
    exact congrArg _ (ih h.2)

theorem labelOf_ok {X : Ext} {l : Label} (h : LabelOk X l) : labelOf X (labelText l) = some l := by
  cases l with
  | iri r =>
    cases r with
    | iri s =>
      obtain ⟨h1, h2, h3⟩ := h
      rw [labelOf, labelText, refText, angle_none.2 h2, blank_none.2 h3]
      simp [iriRef, h1]
    | prefixed p l => exact h.elim
  | bnode b =>
    obtain ⟨h1, h2⟩ := h
    rw [labelOf, labelText, angle_none.2 h1]
    have : blank ('_' :: ':' :: b) = some b := by
      rw [blank, if_pos ⟨rfl, rfl⟩]
      simp [line_id h2]
    rw [this]
  | start => exact h.elim

theorem readLabel_ok {X : Ext} {l : Label} (h : LabelOk X l) (hp : Unescaped (labelText l)) :
    readLabel X (writeLabel l) = some l := by
  rw [writeLabel, readLabel, if_pos (plain_iff.2 hp)]
  exact labelOf_ok h

theorem readTLabel_ok {X : Ext} {l : TLabel} (h : TLabelOk X l) (hp : ∀ r, l = .iri r → Unescaped (refText r)) :
    readTLabel X (writeTLabel l) = some l := by
  cases l with
  | iri r =>
    rw [writeTLabel, readTLabel, if_pos (plain_iff.2 (hp r rfl)), tlabelOf, iriRef_ok h]
    rfl
  | bnode b => exact h.elim

theorem readAct_ok {X : Ext} {a : SemAct} (h : ActOk X a) : readAct X (writeAct a) = some a := by
  rw [writeAct, readAct, req_of (j := writeRef a.name) (by simp [vals_cons, vals_append, vals_field, vals_nil])
    (readRef_ok h)]
  rw [optf_of (o := a.code) (w := .str) (c := id) (by simp [vals_cons, vals_append, vals_field, vals_nil])
    (by simp) (by simp [readStr])]
  simp

/-! ## Literals -/

theorem digitsOf_show (n : Nat) : digitsOf (showNat n) = some n := by
  have h1 : showNat n ≠ [] := Nat.toDigits_ne_nil
  have h2 : (showNat n).all Char.isDigit = true := by
    rw [List.all_eq_true]
    exact fun c hc => Nat.isDigit_of_mem_toDigits (by omega) (by omega) hc
  rw [digitsOf, if_pos ⟨h1, h2⟩]
  exact congrArg some Nat.ofDigitChars_ten_toDigits

theorem show_head {n : Nat} {c : Char} {s : Str} (h : showNat n = c :: s) : c.isDigit = true :=
  Nat.isDigit_of_mem_toDigits (b := 10) (n := n) (by omega) (by omega) (by rw [showNat] at h; rw [h]; simp)

theorem signedOf_show (n : Int) : signedOf (showInt n) = some n := by
  cases n with
  | ofNat n =>
    rw [showInt]
    unfold signedOf
    have hd := digitsOf_show n
    split
    · next r hr => exact absurd (show_head hr) (by decide)
    · next r hr => exact absurd (show_head hr) (by decide)
    · rw [hd]; rfl
  | negSucc n =>
    rw [showInt, signedOf, digitsOf_show]
    rfl

theorem isizeOf_show {n : Int} (h : I64 n) : isizeOf (showInt n) = some n := by
  rw [isizeOf, signedOf_show]
  exact inIsize_ok h

theorem literal_of_typed {X : Ext} {v : Str} {dt : IriRef} (h : LitOk X (.typed v dt)) :
    literalOf X (some (refText dt)) (some v) none none = some (.typed v dt) := by
  obtain ⟨h1, h2⟩ := h
  simp only [natives, List.mem_cons, List.not_mem_nil, or_false, not_or] at h2
  obtain ⟨a, b, c, d⟩ := h2
  have hn : native X (refText dt) v = some none := by
    rw [native, if_neg a, if_neg d, if_neg c, if_neg b]
  unfold literalOf
  simp only [a, b, c, d, or_self, if_false, iriRef_ok h1, Option.bind_eq_bind, Option.bind_some, hn]

theorem native_iris : integerIri.toList ≠ booleanIri.toList ∧ integerIri.toList ≠ decimalIri.toList ∧
    integerIri.toList ≠ doubleIri.toList ∧ decimalIri.toList ≠ booleanIri.toList ∧
    doubleIri.toList ≠ booleanIri.toList ∧ doubleIri.toList ≠ decimalIri.toList := by
  decide +kernel

theorem literal_of_num {X : Ext} {n : Num} (h : LitOk X (.num n)) :
    literalOf X (some (numType n).toList) (some (numText n)) none none = some (.num n) := by
  obtain ⟨a, b, c, d, e, f⟩ := native_iris
  unfold literalOf native
  cases n with
  | int n =>
    simp only [numType, numText, a, b, c, or_true, if_true, if_false, Option.bind_eq_bind, Option.bind_some,
      isizeOf_show h, Option.map_some]
  | dec m s =>
    simp only [LitOk] at h
    simp only [numType, numText, d, or_true, true_or, if_true, if_false, Option.bind_eq_bind, Option.bind_some,
      h, Option.map_some]
  | other t =>
    simp only [LitOk] at h
    simp only [numType, numText, e, f, or_true, true_or, if_true, if_false, Option.bind_eq_bind, Option.bind_some,
      h, Option.map_some]

theorem literal_of_bool {X : Ext} (b : Bool) :
    literalOf X (some booleanIri.toList) (some (if b then "true" else "false").toList) none none = some (.bool b) := by
  have h : ("true".toList : Str) ≠ "false".toList := by decide
  unfold literalOf native
  cases b with
  | true =>
    simp only [true_or, if_true, Option.bind_eq_bind, Option.bind_some, if_neg h]
  | false =>
    simp only [true_or, if_true, Option.bind_eq_bind, Option.bind_some, Bool.false_eq_true, if_false]

/-- What is read from the object that a literal is written as. -/
theorem literal_back {X : Ext} {l : Lit} (h : LitOk X l) : ∃ fs t v g, writeObj (.lit l) = .obj fs ∧
    fs = field "type" (t.map .str) ++ field "language" (g.map .str) ++ [("value", .str v)] ∧
    literalOf X t (some v) g none = some l ∧
    (∀ s dt, l = .typed s dt → t = some (refText dt)) ∧
    ((∀ s dt, l ≠ .typed s dt) → t = none ∨ ∃ s ∈ natives, t = some s) := by
  cases l with
  | str s => exact ⟨_, none, s, none, rfl, rfl, rfl, by simp, by simp⟩
  | lang s g =>
    refine ⟨_, none, s, some g, rfl, rfl, ?_, by simp, by simp⟩
    simp only [LitOk, TagOk] at h
    simp [literalOf, h]
  | bool b =>
    exact ⟨_, some booleanIri.toList, _, none, rfl, rfl, literal_of_bool b, by simp, fun _ => Or.inr ⟨_, by simp [natives], rfl⟩⟩
  | num n =>
    refine ⟨_, some (numType n).toList, _, none, rfl, rfl, literal_of_num h, by simp, fun _ => Or.inr ⟨_, ?_, rfl⟩⟩
    cases n <;> simp [natives, numType]
  | typed s dt =>
    refine ⟨_, some (refText dt), _, none, rfl, rfl, literal_of_typed h, ?_, fun hc => (hc _ _ rfl).elim⟩
    rintro s' dt' he
    injection he with h1 h2
    rw [h2]

theorem readObj_ok {X : Ext} {o : ObjVal} (h : ObjOk X o) : readObj X (writeObj o) = some o := by
  cases o with
  | iri r => rw [writeObj, readObj, iriRef_ok h]; rfl
  | lit l =>
    obtain ⟨fs, t, v, g, h1, h2, h3, -, -⟩ := literal_back (X := X) (l := l) h
    rw [h1, readObj]
    have hk : known ["type", "value", "language", "languageTag"] fs = true := by
      rw [h2, known_append, known_append, known_field _ (by decide), known_field _ (by decide)]
      rfl
    rw [if_pos hk]
    rw [may_of (o := t) (w := .str) (c := id) (by simp [h2, vals_append, vals_field, vals_cons, vals_nil]) (by simp [readStr])]
    rw [may_of (o := some v) (w := .str) (c := id) (by simp [h2, vals_append, vals_field, vals_cons, vals_nil]) (by simp [readStr])]
    rw [may_of (o := g) (w := .str) (c := id) (by simp [h2, vals_append, vals_field, vals_cons, vals_nil]) (by simp [readStr])]
    rw [may_of (o := (none : Option Str)) (w := .str) (c := id) (by simp [h2, vals_append, vals_field, vals_cons, vals_nil]) (by simp)]
    simp only [Option.map_id_fun, id_eq, Option.map_some, Option.map_none, Option.bind_eq_bind, Option.bind_some]
    rw [h3]
    rfl

theorem readType_lit (t : String) : readType t (.lit t) = some () := by
  simp only [readType, readStr, Json.lit, Option.bind_eq_bind, Option.bind_some, if_true]

theorem readAnnot_ok {X : Ext} {a : Annot} (h : AnnotOk X a) : readAnnot X (writeAnnot a) = some a := by
  obtain ⟨h1, h2⟩ := h
  have k1 := may_of (fs := [("type", .lit "Annotation"), ("predicate", writeRef a.pred), ("object", writeObj a.obj)])
    (f := readType "Annotation") (k := "type") (o := some ()) (w := fun _ => .lit "Annotation") (c := fun a => a)
    (by simp [vals_cons, vals_nil]) (fun _ _ => readType_lit _)
  have k2 := req_of (fs := [("type", .lit "Annotation"), ("predicate", writeRef a.pred), ("object", writeObj a.obj)])
    (k := "predicate") (by simp [vals_cons, vals_nil]) (readRef_ok h1)
  have k3 := req_of (fs := [("type", .lit "Annotation"), ("predicate", writeRef a.pred), ("object", writeObj a.obj)])
    (k := "object") (by simp [vals_cons, vals_nil]) (readObj_ok h2)
  rw [writeAnnot, readAnnot, if_pos (by simp [known]), k1, k2, k3]
  rfl

end Shexj
