import Verif.Prefix.Lemmas
import Verif.Shexc.Names
import Verif.Shexc.PropsTotal

/-!
# Properties: what the names of a schema in the compact syntax stand for
-/

namespace Shexc

open P

/-! ## Specification -/

/-- The base that is in force after some statements: the last one that was declared. -/
def baseAfter (base : Option Str) (pre : List Stmt) : Option Str :=
  (base.toList ++ pre.filterMap fun | .base s => some s | _ => none).getLast?

/-- The namespace of a prefix after some statements: the last one that was declared. -/
def nsAfter (pre : List Stmt) (p : Str) : Option Str :=
  (pre.filterMap fun | .pfx q i => if q = p then some i else none | _ => none).getLast?

/-- What a name stands for after some statements. -/
inductive Means (I : Iris) (base : Option Str) (pre : List Stmt) : IriRef → IriRef → Prop where
  | absolute {s : Str} (h : baseAfter base pre = none) : Means I base pre (.iri s) (.iri s)
  | relative {s b t : Str} (h : baseAfter base pre = some b) (h' : I.resolve b s = some t) :
      Means I base pre (.iri s) (.iri t)
  | prefixed {p l ns : Str} (h : nsAfter pre p = some ns) (h' : l ≠ [] → I.valid (ns ++ l) = true) :
      Means I base pre (.prefixed p l) (.iri (ns ++ l))

/-- The namespaces end as the reader expects them to. -/
def NsEnd (ss : List Stmt) : Prop :=
  ∀ p ns, Stmt.pfx p ns ∈ ss → ns.getLast? = some '/' ∨ ns.getLast? = some '#'

/-- The declarations of shapes among some statements. -/
def declCount (pre : List Stmt) : Nat := pre.countP fun | .decl .. => true | _ => false

/-- The shapes of a schema. -/
def Schema.decls (S : Schema) : List Decl := S.shapes.getD []

/-! ## Lemmas -/

theorem parseGo_of_statements (X : Ext) (I : Iris) (n : Nat) : ∀ (S : Schema) (i : Str) (ss : List Stmt) (r : Str),
    statementsGo X n i = .ok ss r →
    parseGo X I n S i = match ss.foldlM (Schema.step I) S with | some S' => .ok S' | none => .error := by
  induction n with
  | zero =>
    intro S i ss r h
    cases i with
    | nil => cases h; rfl
    | cons c i => cases h
  | succ n ih =>
    intro S i ss r h
    cases i with
    | nil => cases h; rfl
    | cons c i =>
      unfold statementsGo at h
      unfold parseGo
      cases hx : statement X (c :: i) with
      | ok s r1 =>
        rw [hx] at h
        simp only at h ⊢
        cases hy : statementsGo X n (skip r1) with
        | ok ss' r2 =>
          rw [hy] at h
          cases h
          rw [List.foldlM_cons]
          cases hz : S.step I s with
          | none => rfl
          | some S' => exact ih S' (skip r1) ss' r hy
        | _ => rw [hy] at h; cases h
      | _ => rw [hx] at h; cases h

theorem statements_of_parseGo (X : Ext) (I : Iris) (n : Nat) : ∀ (S S' : Schema) (i : Str),
    parseGo X I n S i = .ok S' → ∃ ss, statementsGo X n i = .ok ss [] ∧ ss.foldlM (Schema.step I) S = some S' := by
  induction n with
  | zero =>
    intro S S' i h
    cases i with
    | nil => cases h; exact ⟨[], rfl, rfl⟩
    | cons c i => cases h
  | succ n ih =>
    intro S S' i h
    cases i with
    | nil => cases h; exact ⟨[], rfl, rfl⟩
    | cons c i =>
      unfold parseGo at h
      unfold statementsGo
      cases hx : statement X (c :: i) with
      | ok s r1 =>
        rw [hx] at h
        simp only at h ⊢
        cases hy : S.step I s with
        | none => rw [hy] at h; cases h
        | some S1 =>
          rw [hy] at h
          obtain ⟨ss, h1, h2⟩ := ih S1 S' (skip r1) h
          rw [h1]
          exact ⟨s :: ss, rfl, by rw [List.foldlM_cons, hy]; exact h2⟩
      | _ => rw [hx] at h; cases h

/-- The declarations in force are those of the statements. -/
structure EnvOk (base : Option Str) (pre : List Stmt) (E : Env) : Prop where
  base : E.base = baseAfter base pre
  ns : ∀ p, E.pm.bind (·.find p) = nsAfter pre p

theorem EnvOk.step {I : Iris} {base : Option Str} {pre : List Stmt} {S S' : Schema} {s : Stmt}
    (h : EnvOk base pre S.env) (hs : S.step I s = some S') : EnvOk base (pre ++ [s]) S'.env := by
  cases s with
  | base b =>
    cases hs
    exact ⟨by simp [baseAfter], fun p => by rw [h.ns p]; simp [nsAfter]⟩
  | pfx q i =>
    cases hs
    refine ⟨by rw [show (Env.addPrefix S.env q i).base = S.env.base from rfl, h.base]; simp [baseAfter], fun p => ?_⟩
    have h2 := h.ns p
    simp only [Env.addPrefix, Option.bind_some, nsAfter, List.filterMap_append, List.filterMap_cons,
      List.filterMap_nil]
    simp only [nsAfter] at h2
    show Prefix.imGet p (Prefix.imInsert q i (S.env.pm.getD .new).map) = _
    by_cases e : q = p
    · subst e
      simp only [if_true]
      rw [List.getLast?_append, Prefix.imGet_insert]
      simp
    · simp only [e, if_false, List.append_nil]
      rw [Prefix.imGet_insert, if_neg (fun e' => e e'.symm), ← h2]
      cases S.env.pm <;> rfl
  | imp r =>
    cases hs
    exact ⟨by rw [show ({ S with imports := push S.imports r } : Schema).env = S.env from rfl, h.base]; simp [baseAfter],
      fun p => by rw [show ({ S with imports := push S.imports r } : Schema).env = S.env from rfl, h.ns p]; simp [nsAfter]⟩
  | startActs as =>
    cases hs
    exact ⟨by rw [show ({ S with startActs := some as } : Schema).env = S.env from rfl, h.base]; simp [baseAfter],
      fun p => by rw [show ({ S with startActs := some as } : Schema).env = S.env from rfl, h.ns p]; simp [nsAfter]⟩
  | start e =>
    simp only [Schema.step, Option.bind_eq_bind, Option.bind_eq_some_iff] at hs
    obtain ⟨e', _, hs⟩ := hs
    cases hs
    exact ⟨by rw [show ({ S with start := some e' } : Schema).env = S.env from rfl, h.base]; simp [baseAfter],
      fun p => by rw [show ({ S with start := some e' } : Schema).env = S.env from rfl, h.ns p]; simp [nsAfter]⟩
  | decl a l e =>
    simp only [Schema.step, Option.bind_eq_bind, Option.bind_eq_some_iff] at hs
    obtain ⟨l', _, e', _, hs⟩ := hs
    cases hs
    exact ⟨by rw [show ({ S with shapes := push S.shapes ⟨l', e', a⟩ } : Schema).env = S.env from rfl, h.base];
              simp [baseAfter],
      fun p => by rw [show ({ S with shapes := push S.shapes ⟨l', e', a⟩ } : Schema).env = S.env from rfl, h.ns p];
                  simp [nsAfter]⟩

theorem nsAfter_mem {pre : List Stmt} {p ns : Str} (h : nsAfter pre p = some ns) : Stmt.pfx p ns ∈ pre := by
  have h1 := List.mem_of_getLast? h
  rw [List.mem_filterMap] at h1
  obtain ⟨s, hs, h2⟩ := h1
  cases s with
  | pfx q i =>
    simp only at h2
    split at h2
    · next e => subst e; cases h2; exact hs
    · cases h2
  | _ => cases h2

theorem means_of_deref {I : Iris} {base : Option Str} {pre : List Stmt} {E : Env} (h : EnvOk base pre E)
    (hn : NsEnd pre) (r r' : IriRef) : r.deref I E = some r' ↔ Means I base pre r r' := by
  constructor
  · intro hr
    cases r with
    | iri s =>
      unfold IriRef.deref at hr
      cases hb : E.base with
      | none =>
        rw [hb] at hr
        cases hr
        exact .absolute (by rw [← h.base, hb])
      | some b =>
        rw [hb] at hr
        simp only [Option.map_eq_some_iff] at hr
        obtain ⟨t, ht, rfl⟩ := hr
        exact .relative (by rw [← h.base, hb]) ht
    | prefixed p l =>
      have h2 := h.ns p
      unfold IriRef.deref at hr
      cases hb : E.pm with
      | none => rw [hb] at hr; cases hr
      | some m =>
        rw [hb] at hr h2
        simp only [Option.map_eq_some_iff] at hr
        obtain ⟨t, ht, rfl⟩ := hr
        simp only [Option.bind_some] at h2
        unfold Prefix.PrefixMap.resolvePrefixLocal at ht
        rw [h2] at ht
        cases hns : nsAfter pre p with
        | none => rw [hns] at ht; cases ht
        | some ns =>
          rw [hns] at ht
          simp only at ht
          split at ht
          · next e =>
            cases ht
            subst e
            have := Means.prefixed (I := I) (base := base) (l := []) hns (by simp)
            simpa using this
          · next e =>
            unfold Prefix.iriExtend at ht
            rw [if_pos (hn p ns (nsAfter_mem hns))] at ht
            unfold Prefix.iriFromStr at ht
            split at ht
            · next hv => cases ht; exact .prefixed hns fun _ => hv
            · cases ht
  · intro hm
    cases hm with
    | absolute hb => unfold IriRef.deref; rw [h.base, hb]
    | relative hb ht => unfold IriRef.deref; rw [h.base, hb]; simp [ht]
    | @prefixed p l ns hns hv =>
      have h2 := h.ns p
      rw [hns] at h2
      cases hb : E.pm with
      | none => rw [hb] at h2; cases h2
      | some m =>
        rw [hb] at h2
        simp only [Option.bind_some] at h2
        unfold IriRef.deref
        rw [hb]
        simp only [Prefix.PrefixMap.resolvePrefixLocal, h2]
        by_cases e : l = []
        · subst e; simp
        · rw [if_neg e]
          unfold Prefix.iriExtend
          rw [if_pos (hn p ns (nsAfter_mem hns)), Prefix.iriFromStr, if_pos (hv e)]
          rfl

theorem onlyIf_some {α : Type} {b : Bool} {a a' : α} (h : onlyIf b a = some a') : b = true ∧ a' = a := by
  cases b <;> simp_all [onlyIf]

theorem onlyIf_none {α : Type} {b : Bool} {a : α} : onlyIf b a = none ↔ b = false := by
  cases b <;> simp [onlyIf]

/-- The names of a declaration. -/
def declNames (l : Label) (e : SE) : List IriRef := l.names ++ e.names

/-- What is known after some statements. -/
structure Inv (I : Iris) (base : Option Str) (done : List Stmt) (S : Schema) : Prop where
  env : EnvOk base done S.env
  len : S.decls.length = declCount done
  decl : ∀ pre a l e post, done = pre ++ .decl a l e :: post → ∃ E, EnvOk base pre E ∧
    (∀ r ∈ declNames l e, canRes I E r = true) ∧
    S.decls[declCount pre]? = some ⟨l.rename (res I E), e.rename (res I E), a⟩
  start : ∀ pre e post, done = pre ++ .start e :: post → (∀ e', Stmt.start e' ∉ post) → ∃ E, EnvOk base pre E ∧
    (∀ r ∈ e.names, canRes I E r = true) ∧ S.start = some (e.rename (res I E))

theorem snoc_split {α : Type} {done pre post : List α} {s d : α} (h : done ++ [s] = pre ++ d :: post) :
    (post = [] ∧ pre = done ∧ d = s) ∨ ∃ post', post = post' ++ [s] ∧ done = pre ++ d :: post' := by
  rcases List.eq_nil_or_concat post with rfl | ⟨post', x, rfl⟩
  · have h1 : done ++ [s] = pre ++ [d] := h
    have := List.append_inj' h1 rfl
    exact .inl ⟨rfl, this.1.symm, (List.cons.inj this.2).1.symm⟩
  · have h1 : done ++ [s] = (pre ++ d :: post') ++ [x] := by simp [h]
    have := List.append_inj' h1 rfl
    exact .inr ⟨post', by simp [(List.cons.inj this.2).1], this.1⟩

theorem Inv.step {I : Iris} {base : Option Str} {done : List Stmt} {S S' : Schema} {s : Stmt}
    (h : Inv I base done S) (hs : S.step I s = some S') : Inv I base (done ++ [s]) S' := by
  have henv := h.env.step hs
  have hstart : ∀ pre e post, done ++ [s] = pre ++ .start e :: post → (∀ e', Stmt.start e' ∉ post) →
      ∃ E, EnvOk base pre E ∧ (∀ r ∈ e.names, canRes I E r = true) ∧ S'.start = some (e.rename (res I E)) := by
    intro pre e post hp hno
    rcases snoc_split hp with ⟨rfl, rfl, rfl⟩ | ⟨post', rfl, hdone⟩
    · simp only [Schema.step, Option.bind_eq_bind, Option.bind_eq_some_iff] at hs
      obtain ⟨e', he, hs⟩ := hs
      cases hs
      rw [SE.deref_eq] at he
      obtain ⟨he1, rfl⟩ := onlyIf_some he
      exact ⟨S.env, h.env, fun r hr => List.all_eq_true.mp he1 r hr, rfl⟩
    · obtain ⟨E, hE, hn, hget⟩ := h.start pre e post' hdone fun e' he' => hno e' (List.mem_append_left _ he')
      refine ⟨E, hE, hn, ?_⟩
      rw [← hget]
      cases s with
      | start e' => exact absurd (List.mem_append_right _ (by simp)) (hno e')
      | decl a l e =>
        simp only [Schema.step, Option.bind_eq_bind, Option.bind_eq_some_iff] at hs
        obtain ⟨_, _, _, _, hs⟩ := hs
        cases hs
        rfl
      | _ => cases hs; rfl
  by_cases hd : ∃ a l e, s = .decl a l e
  · obtain ⟨a, l, e, rfl⟩ := hd
    simp only [Schema.step, Option.bind_eq_bind, Option.bind_eq_some_iff] at hs
    obtain ⟨l', hl, e', he, hs⟩ := hs
    cases hs
    rw [Label.deref_eq] at hl
    rw [SE.deref_eq] at he
    obtain ⟨hl1, rfl⟩ := onlyIf_some hl
    obtain ⟨he1, rfl⟩ := onlyIf_some he
    have hdec : ({ S with shapes := push S.shapes ⟨l.rename (res I S.env), e.rename (res I S.env), a⟩ } : Schema).decls =
      S.decls ++ [⟨l.rename (res I S.env), e.rename (res I S.env), a⟩] := rfl
    refine ⟨henv, by rw [hdec]; simp [h.len, declCount, List.countP_append], ?_, hstart⟩
    intro pre a' l' e' post hp
    rw [hdec]
    rcases snoc_split hp with ⟨rfl, rfl, hd⟩ | ⟨post', rfl, hdone⟩
    · cases hd
      refine ⟨S.env, h.env, ?_, by rw [← h.len]; simp⟩
      intro r hr
      rw [List.all_eq_true] at hl1 he1
      rcases List.mem_append.mp hr with hr | hr
      · exact hl1 r hr
      · exact he1 r hr
    · obtain ⟨E, hE, hn, hget⟩ := h.decl pre a' l' e' post' hdone
      exact ⟨E, hE, hn, by rw [List.getElem?_append_left (List.getElem?_eq_some_iff.mp hget).1]; exact hget⟩
  · have hdec : S'.decls = S.decls := by
      cases s with
      | decl a l e => exact absurd ⟨a, l, e, rfl⟩ hd
      | start e =>
        simp only [Schema.step, Option.bind_eq_bind, Option.bind_eq_some_iff] at hs
        obtain ⟨e', _, hs⟩ := hs
        cases hs
        rfl
      | _ => cases hs; rfl
    refine ⟨henv, ?_, ?_, hstart⟩
    · rw [hdec, h.len]
      simp only [declCount, List.countP_append]
      cases s <;> simp at hd ⊢
    · intro pre a' l' e' post hp
      rw [hdec]
      rcases snoc_split hp with ⟨_, _, hd'⟩ | ⟨post', rfl, hdone⟩
      · exact absurd ⟨a', l', e', hd'.symm⟩ hd
      · exact h.decl pre a' l' e' post' hdone

theorem Inv.foldl {I : Iris} {base : Option Str} (ss : List Stmt) : ∀ {done : List Stmt} {S S' : Schema},
    Inv I base done S → ss.foldlM (Schema.step I) S = some S' → Inv I base (done ++ ss) S' := by
  induction ss with
  | nil => intro done S S' h hs; cases hs; simpa using h
  | cons s ss ih =>
    intro done S S' h hs
    rw [List.foldlM_cons] at hs
    simp only [Option.bind_eq_bind, Option.bind_eq_some_iff] at hs
    obtain ⟨S1, h1, h2⟩ := hs
    have := ih (h.step h1) h2
    simpa using this

theorem Inv.init (I : Iris) (base : Option Str) : Inv I base [] { env := { base := base } } :=
  ⟨⟨by cases base <;> rfl, fun p => rfl⟩, rfl, by simp, by simp⟩

theorem foldl_none {I : Iris} (ss : List Stmt) : ∀ {S : Schema}, ss.foldlM (Schema.step I) S = none →
    ∃ pre s post S1, ss = pre ++ s :: post ∧ pre.foldlM (Schema.step I) S = some S1 ∧ S1.step I s = none := by
  induction ss with
  | nil => intro S h; cases h
  | cons s ss ih =>
    intro S h
    rw [List.foldlM_cons] at h
    cases hx : S.step I s with
    | none => exact ⟨[], s, ss, S, rfl, rfl, hx⟩
    | some S1 =>
      rw [hx] at h
      obtain ⟨pre, t, post, S2, rfl, h1, h2⟩ := ih h
      exact ⟨s :: pre, t, post, S2, rfl, by rw [List.foldlM_cons, hx]; exact h1, h2⟩

/-! ## Properties -/

/-- **C105** (partial: the namespaces end in `/` or `#`, and the names in stems and exclusions of values and in imports
are left out; see `C105_refuted`): when a text is read, its shapes are the declarations of the text in their order, and
every name in a declaration is replaced by what it stands for after the statements before it. -/
theorem C105_names_partial (X : Ext) (I : Iris) (base : Option Str) (w : Str) (S : Schema)
    (h : parse X I base w = .ok S) :
    ∃ ss, statements X w = .ok ss [] ∧ S.decls.length = declCount ss ∧
      ∀ pre a l e post, ss = pre ++ .decl a l e :: post → NsEnd pre →
        ∃ ρ, (∀ r ∈ declNames l e, Means I base pre r (ρ r)) ∧
          S.decls[declCount pre]? = some ⟨l.rename ρ, e.rename ρ, a⟩ := by
  obtain ⟨ss, h1, h2⟩ := statements_of_parseGo X I _ _ _ _ h
  have hinv := (Inv.init I base).foldl ss h2
  simp only [List.nil_append] at hinv
  refine ⟨ss, h1, hinv.len, ?_⟩
  intro pre a l e post hp hn
  obtain ⟨E, hE, hr, hd⟩ := hinv.decl pre a l e post hp
  refine ⟨res I E, fun r hr' => (means_of_deref hE hn r _).mp ?_, hd⟩
  have := hr r hr'
  rw [IriRef.deref_eq, this]
  rfl

/-- **C105** (partial, as above): the start of the schema is the last one of the text, with every name in it replaced by
what it stands for after the statements before it. -/
theorem C105_start_partial (X : Ext) (I : Iris) (base : Option Str) (w : Str) (S : Schema)
    (h : parse X I base w = .ok S) :
    ∃ ss, statements X w = .ok ss [] ∧
      ∀ pre e post, ss = pre ++ .start e :: post → (∀ e', Stmt.start e' ∉ post) → NsEnd pre →
        ∃ ρ, (∀ r ∈ e.names, Means I base pre r (ρ r)) ∧ S.start = some (e.rename ρ) := by
  obtain ⟨ss, h1, h2⟩ := statements_of_parseGo X I _ _ _ _ h
  have hinv := (Inv.init I base).foldl ss h2
  simp only [List.nil_append] at hinv
  refine ⟨ss, h1, ?_⟩
  intro pre e post hp hno hn
  obtain ⟨E, hE, hr, hd⟩ := hinv.start pre e post hp hno
  refine ⟨res I E, fun r hr' => (means_of_deref hE hn r _).mp ?_, hd⟩
  have := hr r hr'
  rw [IriRef.deref_eq, this]
  rfl

/-- **C105** (partial, as above): a text whose statements can be read is refused only if a name, in a declaration or in
a start, stands for nothing after the statements before it. -/
theorem C105_unresolved_partial (X : Ext) (I : Iris) (base : Option Str) (w : Str) (ss : List Stmt) (r : Str)
    (h : statements X w = .ok ss r) (hn : NsEnd ss) (he : ∀ S, parse X I base w ≠ .ok S) :
    ∃ pre s post, ss = pre ++ s :: post ∧ ∃ n, ¬ (∃ n', Means I base pre n n') ∧
      ((∃ a l e, s = .decl a l e ∧ n ∈ declNames l e) ∨ ∃ e, s = .start e ∧ n ∈ e.names) := by
  have h1 := parseGo_of_statements X I _ { env := { base := base } } _ _ _ h
  have h2 : ss.foldlM (Schema.step I) { env := { base := base } } = none := by
    cases hx : ss.foldlM (Schema.step I) { env := { base := base } } with
    | none => rfl
    | some S' => rw [hx] at h1; exact absurd h1 (he S')
  obtain ⟨pre, s, post, S1, rfl, h3, h4⟩ := foldl_none ss h2
  have hinv := (Inv.init I base).foldl pre h3
  simp only [List.nil_append] at hinv
  have hn' : NsEnd pre := fun p ns hp => hn p ns (List.mem_append_left _ hp)
  have key : ∀ n, canRes I S1.env n = false → ¬ ∃ n', Means I base pre n n' := by
    rintro n hc ⟨n', hm⟩
    rw [← means_of_deref hinv.env hn', IriRef.deref_eq, hc] at hm
    cases hm
  refine ⟨pre, s, post, rfl, ?_⟩
  cases s with
  | decl a l e =>
    simp only [Schema.step, Label.deref_eq, SE.deref_eq] at h4
    have : ∃ n ∈ declNames l e, canRes I S1.env n = false := by
      by_contra hcon
      push Not at hcon
      have hl : l.names.all (canRes I S1.env) = true := by
        rw [List.all_eq_true]; intro n hn; simpa using hcon n (List.mem_append_left _ hn)
      have hee : e.names.all (canRes I S1.env) = true := by
        rw [List.all_eq_true]; intro n hn; simpa using hcon n (List.mem_append_right _ hn)
      rw [hl, hee] at h4
      cases h4
    obtain ⟨n, hn, hc⟩ := this
    exact ⟨n, key n hc, .inl ⟨a, l, e, rfl, hn⟩⟩
  | start e =>
    simp only [Schema.step, SE.deref_eq] at h4
    have : ∃ n ∈ e.names, canRes I S1.env n = false := by
      by_contra hcon
      push Not at hcon
      have hee : e.names.all (canRes I S1.env) = true := by
        rw [List.all_eq_true]; intro n hn; simpa using hcon n hn
      rw [hee] at h4
      cases h4
    obtain ⟨n, hn, hc⟩ := this
    exact ⟨n, key n hc, .inr ⟨e, rfl, hn⟩⟩
  | _ => cases h4

/-- The labels that a text is read with. -/
def Out.labels : Out → Option (List Label)
  | .ok S => some (S.decls.map (·.label))
  | _ => none

/-- The values that the shapes of a text allow. -/
def Out.values : Out → Option (List (Option (List Value)))
  | .ok S => some (S.decls.map fun d => match d.expr with | .nc nc => nc.values | _ => none)
  | _ => none

/-- The imports that a text is read with. -/
def Out.imported : Out → Option (List IriRef)
  | .ok S => S.imports
  | _ => none

/-- **C105**, what fails of the whole statement: a namespace that ends in neither `/` nor `#` is joined to the local
name with a `/`; prefixed names in stems, exclusions and imports are left as they were written, so they stand for
nothing, even when their prefix was never declared. -/
theorem C105_refuted :
    (parse noExt anyIris none "PREFIX a: <x:n> a:b {}".toList).labels = some [.iri (.iri "x:n/b".toList)] ∧
    (parse noExt anyIris none "PREFIX a: <x:n/> <S> [ a:b~ ]".toList).values =
      some [some [.iriStem (.prefixed "a".toList "b".toList)]] ∧
    (parse noExt anyIris none "IMPORT a:b".toList).imported = some [.prefixed "a".toList "b".toList] := by
  refine ⟨by decide +kernel, by decide +kernel, by decide +kernel⟩

/-- The premises of the theorems above are met: a text with two declarations of the same prefix and two bases. -/
example : NsEnd [.pfx ['a'] "x:n/".toList, .base "x:b/".toList, .pfx ['a'] "y:m#".toList] ∧
    (parse noExt anyIris none
      "PREFIX a: <x:n/> a:b {} PREFIX a: <y:m#> a:b {} c: {} BASE <x:b/> start=@a:b PREFIX c: <z:/>".toList).labels = none ∧
    (parse noExt anyIris none
      "PREFIX a: <x:n/> a:b {} PREFIX a: <y:m#> a:b {} BASE <x:b/> start=@a:b".toList).labels =
      some [.iri (.iri "x:n/b".toList), .iri (.iri "y:m#b".toList)] := by
  refine ⟨?_, by decide +kernel, by decide +kernel⟩
  intro p ns h
  simp only [List.mem_cons, Stmt.pfx.injEq, List.not_mem_nil, or_false, reduceCtorEq, false_or] at h
  rcases h with ⟨_, rfl⟩ | ⟨_, rfl⟩ <;> decide +kernel

end Shexc
