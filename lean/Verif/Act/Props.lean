import Verif.Act.Lemmas

/-!
# C123: semantic actions
-/

namespace Act
variable {N P : Type}

/-- An action of Test: a code that is `print` or `fail` with a text, whose quotes and backslashes are
escaped, or with a variable, prints the message, or fails with it; any other code is an error of its
own; without a code nothing happens. -/
theorem C123_test (S : Shows N P) (ctx : Ctx N P) (w : World N) (code : Text) :
    (∀ m, Written code .print m → testRun S (some code) ctx w = (none, w.print (m.says S ctx))) ∧
    (∀ m, Written code .fail m → testRun S (some code) ctx w = (some (.fail (m.says S ctx)), w)) ∧
    ((∀ d m, ¬Written code d m) → testRun S (some code) ctx w = (some (.invalidTest code), w)) ∧
    testRun S none ctx w = (none, w) := by
  refine ⟨fun m h => ?_, fun m h => ?_, fun h => ?_, rfl⟩
  · simp only [testRun, captures_written h, message_arg]
  · simp only [testRun, captures_written h, message_arg]
  · have : captures code = none := by
      cases hc : captures code with
      | none => rfl
      | some r =>
        obtain ⟨m, hm⟩ := captures_spec (d := r.1) (a := r.2) hc
        exact absurd hm (h _ m)
    simp only [testRun, this]

/-- Nodes and predicates are numbers, written in decimal; IRIs are texts with a colon. -/
def plain : Shows Nat Nat :=
  ⟨fun n => (toString n).toList, fun n => (toString n).toList, fun c => c == ' ' || c == '\n',
    fun t => decide (':' ∈ t)⟩

/-- `print ( "a\\\"b" )` prints `a\"b`. -/
example : Written " print ( \"a\\\\\\\"b\" )".toList .print (.text "a\\\"b".toList) ∧
    testRun plain (some " print ( \"a\\\\\\\"b\" )".toList) Ctx.start ⟨[], []⟩ =
      (none, ⟨["a\\\"b".toList], []⟩) :=
  ⟨⟨1, 1, 1, 1, 0, by decide +kernel⟩, by decide +kernel⟩

/-- An action of Map succeeds exactly for a code that is an IRI in angle brackets, with white space
around it, and a triple; the map then has the object for this IRI, and no other change. If it fails
nothing is changed. -/
theorem C123_map (S : Shows N P) (hl : S.ws '<' = false) (hg : S.ws '>' = false)
    (param : Option Text) (ctx : Ctx N P) (w : World N) :
    ((mapRun S param ctx w).1 = none ↔
      ∃ code iri o, param = some code ∧ Key S code iri ∧ ctx.o = some o) ∧
    (∀ code iri o, param = some code → Key S code iri → ctx.o = some o →
      (mapRun S param ctx w).2.out = w.out ∧
      ∀ k, (mapRun S param ctx w).2.get k = if k = iri then some o else w.get k) ∧
    ((mapRun S param ctx w).1 ≠ none → (mapRun S param ctx w).2 = w) := by
  have get : ∀ (iri : Text) (o : N) k, (w.insert iri o).get k = if k = iri then some o else w.get k := by
    intro iri o k
    unfold World.insert World.get
    rw [List.find?_cons]
    by_cases h : k = iri
    · subst h; simp
    · have h' : (iri == k) = false := by simpa using Ne.symm h
      rw [h', if_neg h]
      simp only
      congr 1
      induction w.map with
      | nil => rfl
      | cons e es ih =>
        rw [List.filter_cons]
        by_cases he : (e.1 == k) = true
        · have hk : (e.1 != iri) = true := by
            rw [eq_of_beq he]
            simpa using h
          simp [hk, he]
        · have he' : (e.1 == k) = false := by simpa using he
          split
          · simp [he', ih]
          · simp [he', ih]
  cases param with
  | none =>
    refine ⟨by simp [mapRun], by simp, by simp [mapRun]⟩
  | some code =>
    have hi := parseTurtle_iff S hl hg code
    cases hp : parseTurtle S (trim S.ws code) with
    | none =>
      have hn : ∀ iri, ¬Key S code iri := by
        intro iri hk
        rw [(hi iri).2 hk] at hp
        cases hp
      refine ⟨by simp [mapRun, hp, hn], ?_, by simp [mapRun, hp]⟩
      intro c iri o h1 h2
      cases h1
      exact absurd h2 (hn iri)
    | some iri =>
      have hk := (hi iri).1 hp
      cases ho : ctx.o with
      | none => refine ⟨by simp [mapRun, hp, ho], by simp, by simp [mapRun, hp, ho]⟩
      | some o =>
        refine ⟨?_, ?_, by simp [mapRun, hp, ho]⟩
        · simp only [mapRun, hp, ho, true_iff]
          exact ⟨code, iri, o, rfl, hk, rfl⟩
        · intro c iri' o' h1 h2 h3
          cases h1
          cases h3
          have : iri' = iri := by
            have := (hi iri').2 h2
            rw [hp] at this
            exact (Option.some.inj this).symm
          subst this
          simp only [mapRun, hp, ho]
          exact ⟨rfl, get iri' o⟩

example : Key plain " <a:b>\n".toList "a:b".toList ∧
    mapRun plain (some " <a:b>\n".toList) (Ctx.triple 1 2 3) ⟨[], [("a:b".toList, 7)]⟩ =
      (none, ⟨[], [("a:b".toList, 3)]⟩) :=
  ⟨⟨by decide +kernel, [' '], ['\n'], by decide +kernel, by decide +kernel, by decide +kernel⟩,
    by decide +kernel⟩

/-- An action is run by the first extension of the registry whose IRI is the one of the action up to
the fragment; without such an extension it is an error, and then the schema is rejected when it is
compiled. -/
theorem C123_registry (reg : List (Extension N P)) (ctx : Ctx N P) (a : SemAct) (w : World N)
    (e : Option Err) (w' : World N) :
    (runAction reg a.name a.code ctx w = (e, w') ↔ RunsAs reg ctx a w e w') ∧
    ∀ acts cond, matchCond reg acts cond = none ↔
      ∃ b ∈ acts, ∀ x ∈ reg, ¬SameBut x.iri b.name := by
  refine ⟨runAction_iff .., fun acts cond => ?_⟩
  simp only [matchCond, Option.map_eq_none_iff]
  have h : actsToConds reg acts = none ↔ ∃ b ∈ acts, find reg b.name = none := by
    induction acts with
    | nil => simp [actsToConds]
    | cons b acts ih =>
      simp only [actsToConds, List.mapM_cons] at ih ⊢
      cases hf : find reg b.name with
      | none => simp [hf]
      | some x =>
        simp only [Option.isSome_some, if_true, List.mem_cons, exists_eq_or_imp, hf, reduceCtorEq,
          false_or]
        rw [← ih]
        cases acts.mapM (m := Option) fun a => if (find reg a.name).isSome then
            some (Cond.action a : Cond N) else none <;> simp
  rw [h]
  simp only [find_none_iff]

/-- The IRI of Test with a fragment. -/
def testName : Text := "http://shex.io/extensions/Test/#x".toList

example : SameBut testIri testName ∧
    runAction (standard plain) testName (some "fail(o)".toList) (Ctx.triple 1 2 34) ⟨[], []⟩ =
      (some (.fail "34".toList), ⟨[], []⟩) :=
  ⟨(sameBut_iff _ _).1 (by decide +kernel), by decide +kernel⟩

/-- A constraint with actions and a condition on values: the actions are run one after the other
until one fails, whatever the value is; the value is accepted if none has failed and it meets the
condition. -/
theorem C123_constraint (reg : List (Extension N P)) (ctx : Ctx N P) (v : N) (acts : List SemAct)
    (ok : N → Bool) (cs : List (Cond N)) (hc : matchCond reg acts (.value ok) = some cs)
    (w : World N) :
    ∃ b w', Runs reg ctx acts w b w' ∧ evalConds (some reg) ctx v cs w = (b && ok v, w') := by
  have hcs : cs = acts.map Cond.action ++ [Cond.value ok] := by
    have h1 : ∀ (acts : List SemAct) (as : List (Cond N)), actsToConds reg acts = some as →
        as = acts.map Cond.action := by
      intro acts
      induction acts with
      | nil => intro as h; cases h; rfl
      | cons a acts ih =>
        intro as h
        simp only [actsToConds, List.mapM_cons] at h ih
        cases hf : (find reg a.name).isSome with
        | false => simp [hf] at h
        | true =>
          simp only [hf, if_true] at h
          cases hm : acts.mapM (m := Option) fun a => if (find reg a.name).isSome then
              some (Cond.action a : Cond N) else none with
          | none => rw [hm] at h; simp at h
          | some bs =>
            rw [hm] at h
            have := ih bs hm
            simp at h
            rw [← h, this]
            rfl
    obtain ⟨as, ha, rfl⟩ := Option.map_eq_some_iff.1 hc
    have := h1 acts as ha
    subst this
    cases acts <;> simp
  subst hcs
  clear hc
  induction acts generalizing w with
  | nil =>
    refine ⟨true, w, .done w, ?_⟩
    simp only [List.map_nil, List.nil_append, evalConds, Bool.true_and]
    cases ok v <;> rfl
  | cons a acts ih =>
    simp only [List.map_cons, List.cons_append, evalConds]
    cases hr : runAction reg a.name a.code ctx w with
    | mk e w' =>
      cases e with
      | some e => exact ⟨false, w', .fail ((runAction_iff ..).1 hr), rfl⟩
      | none =>
        obtain ⟨b, w'', h1, h2⟩ := ih w'
        exact ⟨b, w'', .next ((runAction_iff ..).1 hr) h1, h2⟩

/-- An action of Map with the key `<a:b>`. -/
def bind : SemAct := ⟨mapIri, some "<a:b>".toList⟩

example : ∃ cs, matchCond (standard plain) [bind] (.value fun n => n == 3) = some cs ∧
    evalConds (some (standard plain)) (Ctx.triple 1 2 3) 3 cs ⟨[], []⟩ =
      (true, ⟨[], [("a:b".toList, 3)]⟩) := ⟨_, rfl, by decide +kernel⟩

/-- Actions are expected to be run for the values that meet the condition of the constraint; they
are run for others too. -/
theorem C123_matched_refuted :
    ¬∀ (reg : List (Extension Nat Nat)) (ctx : Ctx Nat Nat) (v : Nat) (acts : List SemAct)
      (ok : Nat → Bool) (cs : List (Cond Nat)) (w : World Nat),
      matchCond reg acts (.value ok) = some cs → ok v = false →
        (evalConds (some reg) ctx v cs w).2 = w := by
  intro h
  have := h (standard plain) (Ctx.triple 1 2 3) 3 [bind] (fun _ => false) _ ⟨[], []⟩ rfl rfl
  revert this
  decide +kernel

/-- For values that meet the condition, the verdict is whether no action fails. -/
theorem C123_matched_partial (reg : List (Extension N P)) (ctx : Ctx N P) (v : N)
    (acts : List SemAct) (ok : N → Bool) (cs : List (Cond N))
    (hc : matchCond reg acts (.value ok) = some cs) (w : World N) (hv : ok v = true) :
    Runs reg ctx acts w (evalConds (some reg) ctx v cs w).1 (evalConds (some reg) ctx v cs w).2 := by
  obtain ⟨b, w', h1, h2⟩ := C123_constraint reg ctx v acts ok cs hc w
  rw [h2]
  simpa [hv] using h1

example : (matchCond (standard plain) [bind] (.value fun n => n == 3)).isSome = true ∧
    ((fun n => n == 3) 3 : Bool) = true := ⟨by decide +kernel, rfl⟩

/-- Where the engine makes a context without the registry, as for shapes that extend others
(engine.rs:1156), no value meets a constraint with actions. -/
theorem C123_not_attached (reg : List (Extension N P)) (ctx : Ctx N P) (v : N) (a : SemAct)
    (acts : List SemAct) (cond : Cond N) (cs : List (Cond N))
    (hc : matchCond reg (a :: acts) cond = some cs) (w : World N) :
    evalConds (none : Option (List (Extension N P))) ctx v cs w = (false, w) := by
  obtain ⟨as, ha, rfl⟩ := Option.map_eq_some_iff.1 hc
  simp only [actsToConds, List.mapM_cons] at ha
  cases hf : (find reg a.name).isSome with
  | false => simp [hf] at ha
  | true =>
    simp only [hf, if_true] at ha
    cases hm : acts.mapM (m := Option) fun a => if (find reg a.name).isSome then
        some (Cond.action a : Cond N) else none with
    | none => rw [hm] at ha; simp at ha
    | some bs =>
      rw [hm] at ha
      simp at ha
      subst ha
      simp [evalConds]

example : evalConds (P := Nat) none (Ctx.triple 1 2 3) 3
    [.action bind, .value fun n => n == 3] ⟨[], []⟩ = (false, ⟨[], []⟩) := by decide +kernel

/-! ## The start -/

theorem standard_start (S : Shows N P) (a : SemAct) (w : World N) :
    (∀ lines, Starts S a lines →
      runAction (standard S) a.name a.code Ctx.start w = (none, { w with out := w.out ++ lines })) ∧
    ((∀ lines, ¬Starts S a lines) →
      (runAction (standard S) a.name a.code Ctx.start w).1 ≠ none ∧
      (runAction (standard S) a.name a.code Ctx.start w).2 = w) := by
  have ht : SameBut testIri a.name →
      runAction (standard S) a.name a.code Ctx.start w = testRun S a.code Ctx.start w := by
    intro h
    refine (runAction_iff _ a _ _ _ _).2 (.inr ⟨[], ⟨testIri, testRun S⟩, _, rfl, by simp, h, rfl⟩)
  constructor
  · rintro lines ⟨hs, ⟨hc, rfl⟩ | ⟨code, m, hc, hw, rfl⟩⟩
    · rw [ht hs, hc]
      simp [testRun]
    · rw [ht hs, hc, (C123_test S Ctx.start w code).1 m hw]
      rfl
  · intro hn
    by_cases hs : SameBut testIri a.name
    · rw [ht hs]
      cases hc : a.code with
      | none => exact absurd ⟨hs, .inl ⟨hc, rfl⟩⟩ (hn [])
      | some code =>
        by_cases hf : ∃ m, Written code .fail m
        · obtain ⟨m, hf⟩ := hf
          rw [(C123_test S Ctx.start w code).2.1 m hf]
          simp
        · rw [(C123_test S Ctx.start w code).2.2.1]
          · simp
          · intro d m hw
            cases d with
            | fail => exact hf ⟨m, hw⟩
            | print => exact hn _ ⟨hs, .inr ⟨code, m, hc, hw, rfl⟩⟩
    · by_cases hm : SameBut mapIri a.name
      · have hr : runAction (standard S) a.name a.code Ctx.start w = mapRun S a.code Ctx.start w :=
          (runAction_iff _ a _ _ _ _).2 (.inr ⟨[⟨testIri, testRun S⟩], ⟨mapIri, mapRun S⟩, [], rfl,
            by simpa using hs, hm, rfl⟩)
        rw [hr]
        unfold mapRun
        cases a.code with
        | none => simp
        | some t =>
          simp only [Ctx.start]
          split <;> simp
      · have hr : runAction (standard S) a.name a.code Ctx.start w = (some (.unknown a.name), w) :=
          (runAction_iff _ a _ _ _ _).2 (.inl ⟨by simpa [standard] using ⟨hs, hm⟩, rfl, rfl⟩)
        rw [hr]
        simp

theorem start_fails (S : Shows N P) (acts : List SemAct)
    (h : ∃ a ∈ acts, ∀ lines, ¬Starts S a lines) (w : World N) :
    (checkStartActs (standard S) acts w).1 = false ∧
    (checkStartActs (standard S) acts w).2.map = w.map := by
  induction acts generalizing w with
  | nil => simp at h
  | cons a acts ih =>
    simp only [checkStartActs]
    by_cases ha : ∃ lines, Starts S a lines
    · obtain ⟨lines, ha⟩ := ha
      rw [(standard_start S a w).1 lines ha]
      simp only
      refine ih ?_ _
      obtain ⟨b, hb, hn⟩ := h
      rcases List.mem_cons.1 hb with rfl | hb
      · exact absurd ha (hn lines)
      · exact ⟨b, hb, hn⟩
    · obtain ⟨h1, h2⟩ := (standard_start S a w).2 (not_exists.1 ha)
      cases hr : runAction (standard S) a.name a.code Ctx.start w with
      | mk e w' =>
        rw [hr] at h1 h2
        cases e with
        | none => exact absurd rfl h1
        | some e =>
          simp only at h2 ⊢
          exact ⟨trivial, by rw [h2]⟩

/-- An action at the start that is not one of Test which prints or does nothing makes all verdicts
negative: nothing is validated, and the map is not changed. An action of Map is always so. -/
theorem C123_start_fails {A : Type} (S : Shows N P) (acts : List SemAct)
    (h : ∃ a ∈ acts, ∀ lines, ¬Starts S a lines) (prove : A → World N → Bool × World N)
    (pairs : List A) (w : World N) :
    (validatePending (standard S) acts prove pairs w).1 = pairs.map (fun _ => false) ∧
    (validatePending (standard S) acts prove pairs w).2.map = w.map := by
  induction pairs generalizing w with
  | nil => exact ⟨rfl, rfl⟩
  | cons x pairs ih =>
    obtain ⟨h1, h2⟩ := start_fails S acts h w
    simp only [validatePending, List.map_cons]
    cases hc : checkStartActs (standard S) acts w with
    | mk b w' =>
      rw [hc] at h1 h2
      simp only at h1
      subst h1
      simp only
      obtain ⟨h3, h4⟩ := ih w'
      exact ⟨by rw [h3], h4.trans h2⟩

example : ∀ lines, ¬Starts plain bind lines := by
  rintro lines ⟨h, -⟩
  rw [← sameBut_iff] at h
  revert h
  decide +kernel

/-- Actions at the start that print or do nothing change no verdict. Their lines are printed for
each pair of a node and a shape. -/
theorem C123_start_passes {A : Type} (S : Shows N P) (acts : List SemAct) (lines : List Text)
    (h : ∃ ls, List.Forall₂ (Starts S) acts ls ∧ lines = ls.flatten) (prove : A → Bool)
    (pairs : List A) (w : World N) :
    validatePending (standard S) acts (fun x w => (prove x, w)) pairs w =
      (pairs.map prove, { w with out := w.out ++ (pairs.map fun _ => lines).flatten }) := by
  obtain ⟨ls, hls, rfl⟩ := h
  have hs : ∀ w : World N, checkStartActs (standard S) acts w =
      (true, { w with out := w.out ++ ls.flatten }) := by
    induction hls with
    | nil => intro w; simp [checkStartActs]
    | @cons a l acts ls ha _ ih =>
      intro w
      simp only [checkStartActs, (standard_start S a w).1 l ha, ih, List.flatten_cons,
        List.append_assoc]
  induction pairs generalizing w with
  | nil => simp [validatePending]
  | cons x pairs ih =>
    simp only [validatePending, hs, ih, List.map_cons, List.flatten_cons, List.append_assoc]

/-- `%Test:{ print("a") %}`. -/
def hello : SemAct := ⟨testIri, some "print(\"a\")".toList⟩

theorem hello_starts : Starts plain hello [['a']] :=
  ⟨(sameBut_iff _ _).1 (by decide +kernel), .inr ⟨_, .text ['a'], rfl, ⟨0, 0, 0, 0, 0, by decide +kernel⟩,
    rfl⟩⟩

example : validatePending (standard plain) [hello] (fun (x : Nat) w => (x == 1, w)) [1, 2] ⟨[], []⟩ =
    ([true, false], ⟨[['a'], ['a']], []⟩) :=
  C123_start_passes plain [hello] [['a']] ⟨[[['a']]], .cons hello_starts .nil, rfl⟩ _ _ _

/-- The actions at the start are expected to be run once for a validation. -/
theorem C123_start_once_refuted :
    ¬∀ (acts : List SemAct) (lines : List Text), (∃ ls, List.Forall₂ (Starts plain) acts ls ∧
        lines = ls.flatten) → ∀ pairs : List Nat, pairs ≠ [] →
      (validatePending (standard plain) acts (fun (_ : Nat) w => (true, w)) pairs ⟨[], []⟩).2.out =
        lines := by
  intro h
  have := h [hello] [['a']] ⟨[[['a']]], .cons hello_starts .nil, rfl⟩ [1, 2] (by simp)
  revert this
  decide +kernel

end Act
