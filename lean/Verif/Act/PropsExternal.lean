import Verif.Act.ModelExternal
import Verif.Act.Lemmas

/-!
# C124: EXTERNAL shapes
-/

namespace Act
variable {N L E : Type} [DecidableEq L]

/-- `b` is the body of the first declaration with the label in the schema. -/
def FirstBody (ds : List (Decl L E)) (l : L) (b : Body E) : Prop :=
  ∃ pre d post, ds = pre ++ d :: post ∧ d.id = l ∧ d.body = b ∧ ∀ x ∈ pre, x.id ≠ l

/-- A resolver gives the definition `e` for a label. -/
def Gives (r : Resolver N L E) (l : L) (e : E) : Prop :=
  ∃ ds, r.externs = some ds ∧ FirstBody ds l (.expr e)

/-- The body that a declaration has after the chain was asked: its own if it is not EXTERNAL,
otherwise the definition of the first resolver that gives one, otherwise EXTERNAL. -/
inductive Filled (chain : List (Resolver N L E)) (l : L) : Body E → Body E → Prop
  | own (e) : Filled chain l (.expr e) (.expr e)
  | given {pre r post e} : chain = pre ++ r :: post → (∀ x ∈ pre, ∀ e', ¬Gives x l e') →
      Gives r l e → Filled chain l .external (.expr e)
  | left : (∀ x ∈ chain, ∀ e, ¬Gives x l e) → Filled chain l .external .external

omit [DecidableEq L] in
theorem firstBody_unique {ds : List (Decl L E)} {l : L} {b b' : Body E} (h : FirstBody ds l b)
    (h' : FirstBody ds l b') : b = b' := by
  obtain ⟨pre, d, post, rfl, hd, rfl, hpre⟩ := h
  obtain ⟨pre', d', post', heq, hd', rfl, hpre'⟩ := h'
  rcases List.append_eq_append_iff.1 heq with ⟨x, h1, h2⟩ | ⟨x, h1, h2⟩
  · cases x with
    | nil => simp at h2; rw [h2.1]
    | cons z x =>
      simp only [List.cons_append, List.cons.injEq] at h2
      obtain ⟨rfl, -⟩ := h2
      exact absurd hd (hpre' d (by simp [h1]))
  · cases x with
    | nil => simp at h2; rw [h2.1]
    | cons z x =>
      simp only [List.cons_append, List.cons.injEq] at h2
      obtain ⟨rfl, -⟩ := h2
      exact absurd hd' (hpre d' (by simp [h1]))

theorem lookupDecl_some {ds : List (Decl L E)} {l : L} {d : Decl L E} (h : lookupDecl ds l = some d) :
    FirstBody ds l d.body := by
  obtain ⟨hd, pre, post, rfl, hpre⟩ := List.find?_eq_some_iff_append.1 h
  refine ⟨pre, d, post, rfl, by simpa using hd, rfl, fun x hx => by simpa using hpre x hx⟩

theorem lookupDecl_none {ds : List (Decl L E)} {l : L} (h : lookupDecl ds l = none) (b : Body E) :
    ¬FirstBody ds l b := by
  rintro ⟨pre, d, post, rfl, hd, -, -⟩
  have := List.find?_eq_none.1 h d (by simp)
  exact this (by simpa using hd)

/-- The effect of one resolver on one declaration. -/
def Resolver.one (r : Resolver N L E) (d : Decl L E) : Decl L E :=
  match r.externs with
  | none => d
  | some lookups => rewriteDecl lookups d

theorem rewrite_eq (r : Resolver N L E) (ds : List (Decl L E)) : r.rewrite ds = ds.map r.one := by
  unfold Resolver.rewrite Resolver.one
  cases r.externs <;> simp

theorem one_spec (r : Resolver N L E) (d : Decl L E) : (r.one d).id = d.id ∧
    (r.one d).abstr = d.abstr ∧
    ((∃ e, d.body = .expr e ∧ (r.one d).body = .expr e) ∨
      (d.body = .external ∧ ((∃ e, Gives r d.id e ∧ (r.one d).body = .expr e) ∨
        ((∀ e, ¬Gives r d.id e) ∧ (r.one d).body = .external)))) := by
  unfold Resolver.one
  cases hx : r.externs with
  | none =>
    refine ⟨rfl, rfl, ?_⟩
    cases hb : d.body with
    | expr e => exact .inl ⟨e, rfl, by simp [hb]⟩
    | external =>
      refine .inr ⟨rfl, .inr ⟨?_, by simp [hb]⟩⟩
      rintro e ⟨ds, h, -⟩
      rw [hx] at h
      cases h
  | some ds =>
    simp only [rewriteDecl]
    cases hb : d.body with
    | expr e => exact ⟨rfl, rfl, .inl ⟨e, rfl, hb⟩⟩
    | external =>
      simp only
      cases hl : lookupDecl ds d.id with
      | none =>
        refine ⟨rfl, rfl, .inr ⟨trivial, .inr ⟨?_, hb⟩⟩⟩
        rintro e ⟨ds', h, hf⟩
        rw [hx] at h
        cases h
        exact lookupDecl_none hl _ hf
      | some m =>
        have hf := lookupDecl_some hl
        refine ⟨rfl, rfl, .inr ⟨trivial, ?_⟩⟩
        simp only
        cases hm : m.body with
        | expr e => exact .inl ⟨e, ⟨ds, hx, hm ▸ hf⟩, rfl⟩
        | external =>
          refine .inr ⟨?_, rfl⟩
          rintro e ⟨ds', h, hf'⟩
          rw [hx] at h
          cases h
          have := firstBody_unique hf hf'
          rw [hm] at this
          cases this

theorem chain_one (chain : List (Resolver N L E)) : ∀ d : Decl L E,
    (chain.foldl (fun d r => r.one d) d).id = d.id ∧
    (chain.foldl (fun d r => r.one d) d).abstr = d.abstr ∧
    Filled chain d.id d.body (chain.foldl (fun d r => r.one d) d).body := by
  induction chain with
  | nil =>
    intro d
    refine ⟨rfl, rfl, ?_⟩
    cases hb : d.body with
    | expr e => simpa [hb] using Filled.own e
    | external => simpa [hb] using Filled.left (chain := ([] : List (Resolver N L E))) (by simp)
  | cons r chain ih =>
    intro d
    obtain ⟨h1, h2, h3⟩ := one_spec r d
    obtain ⟨i1, i2, i3⟩ := ih (r.one d)
    rw [List.foldl_cons]
    refine ⟨i1.trans h1, i2.trans h2, ?_⟩
    generalize (chain.foldl (fun d r => r.one d) (r.one d)).body = b at *
    rw [h1] at i3
    rcases h3 with ⟨e, he, h3⟩ | ⟨he, ⟨e, hg, h3⟩ | ⟨hn, h3⟩⟩
    · rw [h3] at i3
      cases i3
      rw [he]
      exact .own e
    · rw [h3] at i3
      cases i3
      rw [he]
      exact .given (pre := []) rfl (by simp) hg
    · rw [h3] at i3
      rw [he]
      cases i3 with
      | @given pre x post e hc hp hg =>
        refine .given (pre := r :: pre) (congrArg (r :: ·) hc) ?_ hg
        intro x hx
        rcases List.mem_cons.1 hx with rfl | hx
        · exact hn
        · exact hp x hx
      | left h =>
        refine .left fun x hx => ?_
        rcases List.mem_cons.1 hx with rfl | hx
        · exact hn
        · exact h x hx

/-- Before a schema is compiled its declarations keep their order, labels and whether they are
abstract. A declaration that is EXTERNAL gets the definition of the first resolver in the chain that
has one, which is the first declaration with this label in its schema; if no resolver has one it
stays EXTERNAL. Other declarations are not changed. -/
theorem C124_rewriting (chain : List (Resolver N L E)) (ds : List (Decl L E)) :
    List.Forall₂ (fun d d' => d'.id = d.id ∧ d'.abstr = d.abstr ∧ Filled chain d.id d.body d'.body) ds
      (rewriteAll chain ds) := by
  have h : rewriteAll chain ds = ds.map fun d => chain.foldl (fun d r => r.one d) d := by
    unfold rewriteAll
    induction chain generalizing ds with
    | nil => simp
    | cons r chain ih => rw [List.foldl_cons, rewrite_eq, ih]; simp
  rw [h]
  induction ds with
  | nil => exact .nil
  | cons d ds ih => exact .cons (chain_one chain d) (ih (by
      unfold rewriteAll
      clear h ih
      induction chain generalizing ds with
      | nil => simp
      | cons r chain ih => rw [List.foldl_cons, rewrite_eq, ih]; simp))

/-- Two resolvers: the first leaves label 1 open. -/
example : rewriteAll (N := Nat) [.schema (some [⟨1, .external, false⟩, ⟨1, .expr 'x', false⟩]),
    .schema (some [⟨1, .expr 'y', true⟩, ⟨2, .expr 'z', false⟩])]
    [⟨1, .external, false⟩, ⟨2, .expr 'a', false⟩, ⟨3, .external, true⟩] =
    [⟨1, .expr 'y', false⟩, ⟨2, .expr 'a', false⟩, ⟨3, .external, true⟩] := by decide +kernel

/-- The answer for an EXTERNAL shape is that of the first resolver of the chain that does not
abstain; without one the node does not conform. -/
theorem C124_dispatch (chain : List (Resolver N L E)) (n : N) (l : Option L) :
    checkExternal chain n l = true ↔ ∃ pre r post, chain = pre ++ r :: post ∧
      (∀ x ∈ pre, x.resolve n l = .abstain) ∧ r.resolve n l = .conformant := by
  simp only [checkExternal, decide_eq_true_eq]
  induction chain with
  | nil => simp [dispatch]
  | cons r chain ih =>
    simp only [dispatch]
    constructor
    · intro h
      split at h
      · rename_i ha
        obtain ⟨pre, x, post, rfl, hp, hx⟩ := ih.1 h
        exact ⟨r :: pre, x, post, rfl, by simpa [ha] using hp, hx⟩
      · exact ⟨[], r, chain, rfl, by simp, h⟩
    · rintro ⟨pre, x, post, heq, hp, hx⟩
      cases pre with
      | nil =>
        obtain ⟨rfl, rfl⟩ := List.cons.inj heq
        rw [hx]
      | cons y pre =>
        obtain ⟨rfl, rfl⟩ := List.cons.inj heq
        rw [hp r (by simp)]
        exact ih.2 ⟨pre, x, post, rfl, fun z hz => hp z (by simp [hz]), hx⟩

example : checkExternal (E := Nat) [.schema none, ⟨none, fun n _ => if n = 1 then .conformant else .abstain⟩,
    .rejectAll] 1 (some 5) = true ∧
  checkExternal (E := Nat) [.rejectAll, ⟨none, fun n _ => if n = 1 then .conformant else .abstain⟩] 1
    (some 5) = false := by decide +kernel

/-- With the kinds of resolvers that can be asked for by name no node conforms to an EXTERNAL shape
that is left. -/
theorem C124_named (chain : List (Resolver N L E))
    (h : ∀ r ∈ chain, r = .rejectAll ∨ ∃ x, r = .schema x) (n : N) (l : Option L) :
    checkExternal chain n l = false := by
  rw [← Bool.not_eq_true, C124_dispatch]
  rintro ⟨pre, r, post, rfl, -, hr⟩
  rcases h r (by simp) with rfl | ⟨x, rfl⟩
  · simp [Resolver.rejectAll] at hr
  · simp [Resolver.schema] at hr

example : ∀ r ∈ withResolver (defaultChain : List (Resolver Nat Nat Nat)) (.schema none),
    r = .rejectAll ∨ ∃ x, r = .schema x := by
  simp [withResolver, defaultChain]

theorem splitColon_iff : ∀ (t k a : Text), splitColon t = some (k, a) ↔ ':' ∉ k ∧ t = k ++ ':' :: a := by
  intro t
  induction t with
  | nil => simp [splitColon]
  | cons c t ih =>
    intro k a
    by_cases hc : c = ':'
    · subst hc
      simp only [splitColon, Option.some.injEq, Prod.mk.injEq]
      constructor
      · rintro ⟨rfl, rfl⟩
        simp
      · rintro ⟨h1, h2⟩
        cases k with
        | nil => simpa using h2
        | cons d k =>
          simp only [List.cons_append, List.cons.injEq] at h2
          exact absurd (List.mem_cons.2 (.inl h2.1)) h1
    · have hs : splitColon (c :: t) = (splitColon t).map fun r => (c :: r.1, r.2) := by
        rw [splitColon.eq_def]
        split
        · simp_all
        · rename_i heq; exact absurd (List.cons.inj heq).1 hc
        · rename_i heq
          obtain ⟨rfl, rfl⟩ := List.cons.inj heq
          rfl
      rw [hs, Option.map_eq_some_iff]
      constructor
      · rintro ⟨⟨k', a'⟩, h1, h2⟩
        obtain ⟨rfl, rfl⟩ := Prod.mk.inj h2
        obtain ⟨h3, rfl⟩ := (ih _ _).1 h1
        exact ⟨by simp [h3, Ne.symm hc], rfl⟩
      · rintro ⟨h1, h2⟩
        cases k with
        | nil =>
          simp only [List.nil_append, List.cons.injEq] at h2
          exact absurd h2.1 hc
        | cons d k =>
          simp only [List.cons_append, List.cons.injEq] at h2
          obtain ⟨rfl, rfl⟩ := h2
          refine ⟨(k, a), (ih _ _).2 ⟨fun h => h1 (by simp [h]), rfl⟩, rfl⟩

theorem trim_eq_iff {ws : Char → Bool} {t u : Text} (hne : u ≠ [])
    (h1 : ∀ c, u.head? = some c → ws c = false) (h2 : ∀ c, u.getLast? = some c → ws c = false) :
    trim ws t = u ↔ ∃ a b, (∀ c ∈ a, ws c = true) ∧ (∀ c ∈ b, ws c = true) ∧ t = a ++ u ++ b := by
  constructor
  · rintro rfl
    exact trim_split ws t
  · rintro ⟨a, b, ha, hb, rfl⟩
    exact trim_ws ha hb h1 h2 hne

/-- White space. -/
def Blank (ws : Char → Bool) (a : Text) : Prop := ∀ c ∈ a, ws c = true

/-- A specification is accepted exactly if it is `reject-all`, or `schema:` with a path, with white
space around each part, and the file can be read; a path may have colons. -/
theorem C124_spec (ws : Char → Bool) (loads : Text → Bool)
    (hw : ∀ c, ws c = true → c ∉ rejectAllName ∧ c ∉ schemaName ∧ c ≠ ':') (spec : Text) :
    (fromSpec ws loads spec = .ok .rejectAll ↔
      ∃ a b, Blank ws a ∧ Blank ws b ∧ spec = a ++ rejectAllName ++ b) ∧
    (∀ path, fromSpec ws loads spec = .ok (.schema path) ↔ path ≠ [] ∧ loads path = true ∧
      ∃ a b rest, Blank ws a ∧ Blank ws b ∧ spec = a ++ schemaName ++ b ++ ':' :: rest ∧
        trim ws rest = path) := by
  have hr1 : ∀ t, trim ws t = rejectAllName ↔ ∃ a b, Blank ws a ∧ Blank ws b ∧
      t = a ++ rejectAllName ++ b := fun t => by
    refine trim_eq_iff (by decide) ?_ ?_
    · intro c hc
      by_contra hx
      exact (hw c (by simpa using hx)).1 (List.mem_of_mem_head? hc)
    · intro c hc
      by_contra hx
      exact (hw c (by simpa using hx)).1 (List.mem_of_getLast? hc)
  have hr2 : ∀ t, trim ws t = schemaName ↔ ∃ a b, Blank ws a ∧ Blank ws b ∧
      t = a ++ schemaName ++ b := fun t => by
    refine trim_eq_iff (by decide) ?_ ?_
    · intro c hc
      by_contra hx
      exact (hw c (by simpa using hx)).2.1 (List.mem_of_mem_head? hc)
    · intro c hc
      by_contra hx
      exact (hw c (by simpa using hx)).2.1 (List.mem_of_getLast? hc)
  have hcol : ∀ a, Blank ws a → ':' ∉ a := fun a ha hc => (hw _ (ha _ hc)).2.2 rfl
  have hne : rejectAllName ≠ schemaName := by decide
  unfold fromSpec
  cases hs : splitColon spec with
  | none =>
    have hno : ∀ k a, spec ≠ k ++ ':' :: a ∨ ':' ∈ k := by
      intro k a
      by_contra hc
      simp only [not_or, not_not] at hc
      rw [(splitColon_iff spec k a).2 ⟨hc.2, hc.1⟩] at hs
      cases hs
    simp only
    constructor
    · rw [← hr1]
      split
      · rename_i h; simp [h]
      · rename_i h
        split <;> simp [h]
    · intro path
      have : ¬∃ a b rest, Blank ws a ∧ Blank ws b ∧ spec = a ++ schemaName ++ b ++ ':' :: rest ∧
          trim ws rest = path := by
        rintro ⟨a, b, rest, ha, hb, h, -⟩
        rcases hno (a ++ schemaName ++ b) rest with h' | h'
        · exact h' h
        · simp only [List.mem_append] at h'
          rcases h' with (h' | h') | h'
          · exact hcol a ha h'
          · revert h'; decide
          · exact hcol b hb h'
      simp only [this, and_false, iff_false]
      split
      · simp
      · split <;> simp
  | some ka =>
    obtain ⟨k, arg⟩ := ka
    obtain ⟨hk, rfl⟩ := (splitColon_iff spec k arg).1 hs
    simp only
    constructor
    · have hno : ¬∃ a b, Blank ws a ∧ Blank ws b ∧ k ++ ':' :: arg = a ++ rejectAllName ++ b := by
        rintro ⟨a, b, ha, hb, h⟩
        have : ':' ∈ a ++ rejectAllName ++ b := by rw [← h]; simp
        simp only [List.mem_append] at this
        rcases this with (h' | h') | h'
        · exact hcol a ha h'
        · revert h'; decide
        · exact hcol b hb h'
      simp only [hno, iff_false]
      split
      · simp
      · split
        · split
          · split <;> simp
          · simp
        · simp
    · intro path
      have key : (∃ a b rest, Blank ws a ∧ Blank ws b ∧
          k ++ ':' :: arg = a ++ schemaName ++ b ++ ':' :: rest ∧ trim ws rest = path) ↔
          trim ws k = schemaName ∧ trim ws arg = path := by
        rw [hr2]
        constructor
        · rintro ⟨a, b, rest, ha, hb, h, ht⟩
          have h1 : splitColon (k ++ ':' :: arg) = some (a ++ schemaName ++ b, rest) := by
            refine (splitColon_iff _ _ _).2 ⟨?_, h⟩
            simp only [List.mem_append, not_or]
            exact ⟨⟨hcol a ha, by decide⟩, hcol b hb⟩
          rw [hs] at h1
          obtain ⟨rfl, rfl⟩ := Prod.mk.inj (Option.some.inj h1)
          exact ⟨⟨a, b, ha, hb, rfl⟩, ht⟩
        · rintro ⟨⟨a, b, ha, hb, rfl⟩, ht⟩
          exact ⟨a, b, arg, ha, hb, rfl, ht⟩
      rw [key]
      by_cases h1 : trim ws k = rejectAllName
      · rw [if_pos h1]
        simp [h1, hne]
      · rw [if_neg h1]
        by_cases h2 : trim ws k = schemaName
        · rw [if_pos h2]
          cases hp : trim ws arg with
          | nil =>
            simp only [List.isEmpty_nil, Bool.not_true, Bool.false_eq_true, if_false, reduceCtorEq,
              false_iff]
            rintro ⟨h3, -, -, rfl⟩
            exact h3 rfl
          | cons c cs =>
            simp only [List.isEmpty_cons, Bool.not_false, if_true, h2, true_and]
            split
            · rename_i h3
              constructor
              · intro h
                cases h
                exact ⟨by simp, h3, rfl⟩
              · rintro ⟨-, -, rfl⟩
                rfl
            · rename_i h3
              simp only [reduceCtorEq, false_iff]
              rintro ⟨-, h4, rfl⟩
              exact h3 h4
        · rw [if_neg h2]
          simp [h2]

example : fromSpec (fun c => c == ' ') (fun _ => true) " schema : c:/x ".toList =
    .ok (.schema "c:/x".toList) := by decide +kernel

end Act
