import Verif.Prefix.Props
import Verif.Shexc.Names
import Verif.Shexc.LemGram5
import Verif.Shexc.Printer
import Verif.Shexc.SpecPrint

/-!
# Lemmas: which words a document is written as
-/

namespace Shexc

open P Spec

variable {X : Ext}

/-! ## Layouts -/

theorem layout_append {a b : Doc} {w : Str} : Layout (a ++ b) w ↔ ∃ u v, w = u ++ v ∧ Layout a u ∧ Layout b v := by
  constructor
  · intro h
    cases h with
    | cat ha hb => exact ⟨_, _, rfl, ha, hb⟩
  · rintro ⟨u, v, rfl, ha, hb⟩
    exact .cat ha hb

theorem layout_text {s w : Str} (h : Layout (.text s) w) : w = s := by cases h; rfl

/-! ## Words -/

/-- What a word may be followed by directly. -/
def Ends (r : Str) : Prop := ∀ c ∈ r.head?, c = ' ' ∨ c = '\n' ∨ c = ';' ∨ c = '{'

theorem Ends.sticks {r : Str} (h : Ends r) (t : Tok) : ∀ c ∈ r.head?, ¬ sticks t c := by
  intro c hc hs
  have key : ∀ c : Char, (c = ' ' ∨ c = '\n' ∨ c = ';' ∨ c = '{') →
      ¬ (nameChar c ∨ c ∈ [':', '.', '%', '\\', '"', '\'', '@', '^']) ∧ ¬ letter c := by
    rintro c (rfl | rfl | rfl | rfl) <;> exact ⟨by decide, by decide⟩
  obtain ⟨k1, k2⟩ := key c (h c hc)
  unfold Spec.sticks at hs
  split at hs <;> first | exact hs | exact k1 hs | exact k2 hs.2

/-- The document `d` is written as the words `ts`: before other words (directly before them only if they begin as `Ends`
says, when `n`), and it begins as `Ends` says, when `g`. -/
def W (X : Ext) (n g : Bool) (d : Doc) (ts : List Tok) : Prop :=
  ∀ w rest r, Layout d w → At X rest r → (n = true → Ends r) → At X (ts ++ rest) (w ++ r) ∧ (g = true → Ends (w ++ r))

theorem W.weaken {n g : Bool} {d : Doc} {ts : List Tok} (h : W X n g d ts) (n' g' : Bool) (hn : n = true → n' = true)
    (hg : g' = true → g = true) : W X n' g' d ts := by
  intro w rest r hl hr he
  obtain ⟨h1, h2⟩ := h w rest r hl hr fun e => he (hn e)
  exact ⟨h1, fun e => h2 (hg e)⟩

theorem W.needs {g : Bool} {d : Doc} {ts : List Tok} {n : Bool} (h : W X n g d ts) : W X true false d ts :=
  h.weaken true false (fun _ => rfl) (fun e => by cases e)

theorem W.cat {n1 g1 n2 g2 : Bool} {a b : Doc} {ts us : List Tok} (ha : W X n1 g1 a ts) (hb : W X n2 g2 b us)
    (h : n1 = true → g2 = true) : W X n2 g1 (a ++ b) (ts ++ us) := by
  intro w rest r hl hr he
  obtain ⟨u, v, rfl, hu, hv⟩ := layout_append.1 hl
  obtain ⟨h1, h2⟩ := hb v rest r hv hr he
  obtain ⟨h3, h4⟩ := ha u (us ++ rest) (v ++ r) hu h1 fun e => h2 (h e)
  rw [List.append_assoc, List.append_assoc]
  exact ⟨h3, h4⟩

theorem W.nil : W X true true .nil [] := by
  intro w rest r hl hr he
  cases hl
  exact ⟨hr, fun _ => he rfl⟩

theorem W.nil' : W X false false .nil [] := by
  intro w rest r hl hr _
  cases hl
  exact ⟨hr, fun e => by cases e⟩

theorem W.nest {n g : Bool} {d : Doc} {ts : List Tok} (h : W X n g d ts) : W X n g (.nest d) ts := by
  intro w rest r hl
  cases hl with
  | nest hl => exact h w rest r hl

theorem W.group {n g : Bool} {d : Doc} {ts : List Tok} (h : W X n g d ts) : W X n g (.group d) ts := by
  intro w rest r hl
  cases hl with
  | group hl => exact h w rest r hl

theorem at_gap {g r : Str} {ts : List Tok} (hg : ∀ c ∈ g, c = ' ' ∨ c = '\n') (h : At X ts r) : At X ts (g ++ r) := by
  induction g with
  | nil => exact h
  | cons c g ih =>
    obtain ⟨g', v, h1, h2, h3⟩ := ih fun x hx => hg x (by simp [hx])
    refine ⟨c :: g', v, .space ?_ ?_, by rw [List.cons_append, h2, List.cons_append], h3⟩
    · rcases hg c (by simp) with rfl | rfl
      · exact .inl rfl
      · exact .inr (.inr (.inr rfl))
    · cases h1 with
      | nil => exact .nil
      | space hc hg => exact .space hc hg
      | line hcs he hg => exact .line hcs he hg

/-- Spaces and line breaks. -/
theorem W.gap {d : Doc} (h : ∀ w, Layout d w → ∃ c g, w = c :: g ∧ ∀ x ∈ c :: g, x = ' ' ∨ x = '\n') :
    W X false true d [] := by
  intro w rest r hl hr _
  obtain ⟨c, g, rfl, hg⟩ := h w hl
  refine ⟨at_gap hg hr, fun _ x hx => ?_⟩
  simp only [List.cons_append, List.head?_cons, Option.mem_def, Option.some.injEq] at hx
  subst hx
  rcases hg c (by simp) with e | e
  · exact .inl e
  · exact .inr (.inl e)

theorem W.space : W X false true Doc.space [] :=
  .gap fun w h => by cases layout_text h; exact ⟨' ', [], rfl, by simp⟩

theorem layout_break {n : Nat} : ∀ x ∈ '\n' :: List.replicate n ' ', x = ' ' ∨ x = '\n' := by
  intro x hx
  rcases List.mem_cons.1 hx with rfl | hx
  · exact .inr rfl
  · exact .inl (List.eq_of_mem_replicate hx)

theorem W.line : W X false true .line [] :=
  .gap fun w h => by
    cases h with
    | space => exact ⟨' ', [], rfl, by simp⟩
    | «break» n => exact ⟨_, _, rfl, layout_break⟩

theorem W.hardline : W X false true .hardline [] :=
  .gap fun w h => by
    cases h with
    | hardline n => exact ⟨_, _, rfl, layout_break⟩

theorem W.softline : W X false true Doc.softline [] := W.line.group

/-- A word. -/
theorem W.word {t : Tok} {s : Str} (h : Text X.spec t s) : W X true false (.text s) [t] := by
  intro w rest r hl hr he
  cases layout_text hl
  obtain ⟨g, v, hg, rfl, hv⟩ := hr
  refine ⟨⟨[], _, .nil, rfl, .cons h hg ?_ hv⟩, fun e => by cases e⟩
  rintro rfl
  exact (he rfl).sticks t

/-- Words that nothing sticks to. -/
theorem W.loose {t : Tok} {s : Str} (h : Text X.spec t s) (hs : ∀ c, ¬ sticks t c) : W X false false (.text s) [t] := by
  intro w rest r hl hr he
  cases layout_text hl
  obtain ⟨g, v, hg, rfl, hv⟩ := hr
  exact ⟨⟨[], _, .nil, rfl, .cons h hg (fun _ c _ => hs c) hv⟩, fun e => by cases e⟩

/-- Punctuation. -/
theorem W.sym {s : Str} (h : s ∈ symbols) (ha : s ≠ ['@']) : W X false false (.text s) [.sym s] :=
  .loose (.sym h) fun c hc => by
    unfold Spec.sticks at hc
    exact ha hc.1

/-- Punctuation that may follow a word directly. -/
theorem W.symEnds {s : Str} (h : s ∈ symbols) (ha : s ≠ ['@']) (hs : s = [';'] ∨ s = ['{']) :
    W X false true (.text s) [.sym s] := by
  intro w rest r hl hr he
  obtain ⟨h1, -⟩ := W.sym h ha w rest r hl hr he
  refine ⟨h1, fun _ c hc => ?_⟩
  cases layout_text hl
  rcases hs with rfl | rfl
  all_goals
    simp only [List.cons_append, List.head?_cons, Option.mem_def, Option.some.injEq] at hc
    subst hc
    simp

/-- A keyword with a space. -/
theorem W.kwSpace {k : Tok} {s t : Str} (h : Text X.spec k s) (ht : t = s ++ [' ']) : W X false false (.text t) [k] := by
  subst ht
  intro w rest r hl hr he
  cases layout_text hl
  obtain ⟨h1, h2⟩ := (W.cat (W.word h) W.space fun _ => rfl) (s ++ [' ']) rest r
    (layout_append.2 ⟨s, [' '], rfl, .text s, .text [' ']⟩) hr (fun e => by cases e)
  simp only [List.append_nil] at h1
  exact ⟨h1, fun e => by cases e⟩

/-- A keyword with spaces around it. -/
theorem W.spaceKwSpace {k : Tok} {s t : Str} (h : Text X.spec k s) (ht : t = ' ' :: (s ++ [' '])) :
    W X false true (.text t) [k] := by
  subst ht
  intro w rest r hl hr he
  cases layout_text hl
  obtain ⟨h1, h2⟩ := (W.cat W.space (W.kwSpace h rfl) (by simp)) ([' '] ++ (s ++ [' '])) rest r
    (layout_append.2 ⟨[' '], s ++ [' '], rfl, .text _, .text _⟩) hr (fun e => by cases e)
  exact ⟨h1, h2⟩

/-! ## Several documents -/

theorem sepBy_cons {sep d : Doc} {ds : List Doc} (h : ds ≠ []) : Doc.sepBy sep (d :: ds) = d ++ (sep ++ Doc.sepBy sep ds) := by
  cases ds with
  | nil => exact absurd rfl h
  | cons e ds => rfl

/-- One after the other with white space between. -/
theorem W.sepSpace {sep : Doc} (hsep : W X false true sep []) {ds : List Doc} {tss : List (List Tok)}
    (h : List.Forall₂ (W X true false) ds tss) (hne : ds ≠ []) : W X true false (Doc.sepBy sep ds) tss.flatten := by
  induction h with
  | nil => exact absurd rfl hne
  | @cons d ts ds tss h hs ih =>
    cases ds with
    | nil =>
      cases hs
      rw [List.flatten_cons, List.flatten_nil, List.append_nil]
      exact h
    | cons e ds =>
      rw [sepBy_cons (by simp), List.flatten_cons]
      exact h.cat (hsep.cat (ih (by simp)) (by simp)) (by simp)

/-- One after the other with a word between. -/
theorem W.sepWord {α : Type} {R : List Tok → α → Prop} {s : Tok} {sep : Doc} (hsep : W X false true sep [s])
    {ds : List Doc} {as : List α} (h : List.Forall₂ (fun d a => ∃ ts, R ts a ∧ W X true false d ts) ds as)
    (hne : ds ≠ []) : ∃ ts, Chain s R ts as ∧ W X true false (Doc.sepBy sep ds) ts := by
  induction h with
  | nil => exact absurd rfl hne
  | @cons d a ds as h hs ih =>
    obtain ⟨ts, h1, h2⟩ := h
    cases ds with
    | nil =>
      cases hs
      exact ⟨ts, .one h1, h2⟩
    | cons e ds =>
      obtain ⟨us, h3, h4⟩ := ih (by simp)
      refine ⟨ts ++ s :: us, .more h1 h3, ?_⟩
      rw [sepBy_cons (by simp)]
      exact h2.cat (hsep.cat h4 (by simp)) (by simp)

/-- The words of several documents that stand for the elements of a list. -/
theorem W.seq {α : Type} {R : List Tok → α → Prop} {sep : Doc} (hsep : W X false true sep []) {ds : List Doc}
    {as : List α} (h : List.Forall₂ (fun d a => ∃ ts, R ts a ∧ W X true false d ts) ds as) (hne : ds ≠ []) :
    ∃ ts, Spec.Seq R ts as ∧ W X true false (Doc.sepBy sep ds) ts := by
  induction h with
  | nil => exact absurd rfl hne
  | @cons d a ds as h hs ih =>
    obtain ⟨ts, h1, h2⟩ := h
    cases ds with
    | nil =>
      cases hs
      refine ⟨ts ++ [], .cons h1 .nil, ?_⟩
      rw [List.append_nil]
      exact h2
    | cons e ds =>
      obtain ⟨us, h3, h4⟩ := ih (by simp)
      refine ⟨ts ++ us, .cons h1 h3, ?_⟩
      rw [sepBy_cons (by simp)]
      exact h2.cat (hsep.cat h4 (by simp)) (by simp)

end Shexc
