import Verif.Pg.Spec
import Mathlib.Tactic.Tauto
import Mathlib.Tactic.Linarith

/-!
# Lemmas on conformance of records
-/

namespace Pg

theorem isRight_iff (v : Verdict) : v.isRight = true ↔ Positively v := by
  cases v <;> simp [Verdict.isRight, Positively]

theorem contains_iff (c : Card) (n : Nat) : c.contains n = true ↔ Within c n := by
  rcases c with _ | _ | _ | _ | ⟨m, _ | u⟩ <;> simp [Card.contains, Within, Card.lower, Card.upper]
  omega

theorem cardAll_iff (c : Card) (p : Value → Bool) (vs : Finset Value) :
    Positively (cardAll c p vs) ↔ Within c vs.card ∧ ∀ v ∈ vs, p v = true := by
  unfold cardAll Positively
  rw [← contains_iff]
  by_cases h : c.contains vs.card = true
  · by_cases h2 : ∀ v ∈ vs, p v = true
    · simp only [h, Bool.not_true, Bool.false_eq_true, if_false, if_pos h2, true_and]
      exact ⟨fun _ => h2, fun _ => ⟨_, rfl⟩⟩
    · simp only [h, Bool.not_true, Bool.false_eq_true, if_false, if_neg h2, true_and]
      simp [h2]
  · simp [h]

theorem check_some (X : Ext) (e : BExpr) (v : Value) (h : Applicable X e v) :
    ∃ b, e.check X v = some b ∧ (b = true ↔ Meets X e v) := by
  induction e with
  | tt => exact ⟨true, rfl, by simp [Meets]⟩
  | ff => exact ⟨false, rfl, by simp [Meets]⟩
  | and a b iha ihb =>
    obtain ⟨x, hx, hx'⟩ := iha h.1
    obtain ⟨y, hy, hy'⟩ := ihb h.2
    exact ⟨x && y, by simp [BExpr.check, hx, hy], by simp [Meets, hx', hy']⟩
  | or a b iha ihb =>
    obtain ⟨x, hx, hx'⟩ := iha h.1
    obtain ⟨y, hy, hy'⟩ := ihb h.2
    exact ⟨x || y, by simp [BExpr.check, hx, hy], by simp [Meets, hx', hy']⟩
  | not a iha =>
    obtain ⟨x, hx, hx'⟩ := iha h
    exact ⟨!x, by simp [BExpr.check, hx], by simp [Meets, ← hx']⟩
  | equals w => exact ⟨decide (v = w), rfl, by simp [Meets]⟩
  | greaterThan w => cases v <;> cases w <;> simp_all [Applicable, Comparable, Ordered, BExpr.check,
      Value.greaterThan, Meets]
  | lessThan w => cases v <;> cases w <;> simp_all [Applicable, Comparable, Ordered, BExpr.check,
      Value.lessThan, Meets]
  | greaterThanOrEqual w => cases v <;> cases w <;> simp_all [Applicable, Comparable, Ordered, BExpr.check,
      Value.greaterThanOrEqual, Meets]
  | lessThanOrEqual w => cases v <;> cases w <;> simp_all [Applicable, Comparable, Ordered, BExpr.check,
      Value.lessThanOrEqual, Meets]
  | regex p =>
    obtain ⟨s, rfl, hs⟩ := h
    cases hx : X.regex p s with
    | none => exact absurd hx hs
    | some b => exact ⟨b, by simp [BExpr.check, Value.regexMatch, hx], by simp [Meets, hx]⟩

theorem check_applicable (X : Ext) (e : BExpr) (v : Value) (b : Bool) (h : e.check X v = some b) :
    Applicable X e v := by
  induction e generalizing b with
  | tt => trivial
  | ff => trivial
  | equals w => trivial
  | and x y ihx ihy =>
    simp only [BExpr.check, Option.bind_eq_bind, Option.bind_eq_some_iff] at h
    obtain ⟨p, hp, q, hq, _⟩ := h
    exact ⟨ihx _ hp, ihy _ hq⟩
  | or x y ihx ihy =>
    simp only [BExpr.check, Option.bind_eq_bind, Option.bind_eq_some_iff] at h
    obtain ⟨p, hp, q, hq, _⟩ := h
    exact ⟨ihx _ hp, ihy _ hq⟩
  | not x ihx =>
    simp only [BExpr.check, Option.bind_eq_bind, Option.bind_eq_some_iff] at h
    obtain ⟨p, hp, _⟩ := h
    exact ihx _ hp
  | greaterThan w => cases v <;> cases w <;> simp_all [Applicable, Comparable, Ordered, BExpr.check,
      Value.greaterThan]
  | lessThan w => cases v <;> cases w <;> simp_all [Applicable, Comparable, Ordered, BExpr.check,
      Value.lessThan]
  | greaterThanOrEqual w => cases v <;> cases w <;> simp_all [Applicable, Comparable, Ordered, BExpr.check,
      Value.greaterThanOrEqual]
  | lessThanOrEqual w => cases v <;> cases w <;> simp_all [Applicable, Comparable, Ordered, BExpr.check,
      Value.lessThanOrEqual]
  | regex p =>
    cases v <;> simp_all [BExpr.check, Value.regexMatch, Applicable]

theorem check_true_iff (X : Ext) (e : BExpr) (v : Value) : e.check X v = some true ↔ Holds X e v := by
  constructor
  · intro h
    have ha := check_applicable X e v true h
    obtain ⟨b, hb, hb'⟩ := check_some X e v ha
    rw [h] at hb
    exact ⟨ha, hb'.1 (Option.some.inj hb).symm⟩
  · rintro ⟨ha, hm⟩
    obtain ⟨b, hb, hb'⟩ := check_some X e v ha
    rw [hb, hb'.2 hm]

theorem conforms_value (X : Ext) (t : ValueType) (vs : Finset Value) :
    Positively (t.conforms X vs) ↔ Accepts X t vs := by
  induction t with
  | any => simp [ValueType.conforms, Positively, Accepts]
  | stringType c =>
    rw [ValueType.conforms, cardAll_iff, Accepts]
    refine and_congr_right fun _ => forall₂_congr fun v _ => ?_
    cases v <;> simp [Value.isString]
  | integerType c =>
    rw [ValueType.conforms, cardAll_iff, Accepts]
    refine and_congr_right fun _ => forall₂_congr fun v _ => ?_
    cases v <;> simp [Value.isInteger]
  | dateType c =>
    rw [ValueType.conforms, cardAll_iff, Accepts]
    refine and_congr_right fun _ => forall₂_congr fun v _ => ?_
    cases v <;> simp [Value.isDate]
  | boolType c =>
    rw [ValueType.conforms, cardAll_iff, Accepts]
    refine and_congr_right fun _ => forall₂_congr fun v _ => ?_
    cases v <;> simp [Value.isBool]
  | intersection a b iha ihb =>
    rw [ValueType.conforms, Accepts, ← iha, ← ihb]
    cases a.conforms X vs <;> cases b.conforms X vs <;> simp [Positively]
  | union a b iha ihb =>
    rw [ValueType.conforms, Accepts, ← iha, ← ihb]
    cases a.conforms X vs <;> cases b.conforms X vs <;> simp [Positively]
  | cond e =>
    rw [ValueType.conforms, Accepts]
    simp only [← check_true_iff]
    by_cases h : ∀ v ∈ vs, e.check X v = some true
    · simp only [if_pos h, Positively]
      exact ⟨fun _ => h, fun _ => ⟨_, rfl⟩⟩
    · simp only [if_neg h, Positively, reduceCtorEq, exists_const, false_iff]
      exact h

theorem lookup_entries {V : Type} {K : Type} [DecidableEq K] (m : HMap K V) (k : K) (v : V) :
    m.lookup k = some v ↔ (⟨k, v⟩ : Sigma fun _ : K => V) ∈ m.entries := by
  have := @AList.mem_lookup_iff K (fun _ => V) _ k v m
  simpa using this

theorem mem_keys_lookup {V : Type} {K : Type} [DecidableEq K] (m : HMap K V) (k : K) :
    k ∈ m.keys ↔ ∃ v, m.lookup k = some v := by
  rw [← Option.isSome_iff_exists, AList.lookup_isSome]
  exact AList.mem_keys.symm

theorem loop_iff (X : Ext) (o : Bool) (r : Record) (es : List (Sigma fun _ : String => ValueType))
    (hk : ∀ e ∈ es, ∃ vs, r.lookup e.1 = some vs) :
    Positively (RecordType.loop X o r es) ↔ ∀ e ∈ es, ∀ vs, r.lookup e.1 = some vs → Accepts X e.2 vs := by
  induction es with
  | nil => simp [RecordType.loop, Positively]
  | cons e es ih =>
    obtain ⟨k, t⟩ := e
    obtain ⟨vs, hvs⟩ := hk _ List.mem_cons_self
    have ih := ih fun e he => hk e (List.mem_cons_of_mem _ he)
    simp only at hvs
    rw [RecordType.loop, hvs]
    simp only [List.forall_mem_cons]
    rw [← ih]
    have hc := conforms_value X t vs
    cases hv : t.conforms X vs with
    | error e =>
      rw [hv] at hc
      simp only [hvs, Option.some.injEq, forall_eq', ← hc]
      simp [Positively]
    | ok e =>
      rw [hv] at hc
      simp only [hvs, Option.some.injEq, forall_eq', ← hc]
      simp [Positively]

theorem conforms_record (X : Ext) (t : RecordType) (r : Record) :
    Positively (t.conforms X r) ↔ Belongs X t r := by
  have hneg : ∀ es : List Err, ¬ Positively (.error es) := fun es ⟨_, h⟩ => by cases h
  unfold RecordType.conforms
  by_cases h1 : (t.map.keys.filter fun k => decide (k ∉ r.keys)).isEmpty = true
  · have hk : ∀ k ∈ t.map.keys, k ∈ r.keys := by
      intro k hk
      by_contra hn
      rw [List.isEmpty_iff, List.filter_eq_nil_iff] at h1
      exact h1 k hk (by simpa using hn)
    simp only [h1, Bool.not_true, Bool.false_eq_true, if_false]
    by_cases h2 : (!(r.keys.filter fun k => decide (k ∉ t.map.keys)).isEmpty && !t.isOpen) = true
    · simp only [h2, if_true]
      constructor
      · intro h
        exact (hneg _ h).elim
      · rintro ⟨_, hc⟩
        simp only [Bool.and_eq_true, Bool.not_eq_true', List.isEmpty_eq_false_iff] at h2
        obtain ⟨k, hk2⟩ := List.exists_mem_of_ne_nil _ h2.1
        rw [List.mem_filter] at hk2
        obtain ⟨vs, hvs⟩ := (mem_keys_lookup r k).1 hk2.1
        have := (mem_keys_lookup t.map k).2 (hc h2.2 k vs hvs)
        simp [this] at hk2
    · simp only [h2, Bool.false_eq_true, if_false]
      rw [loop_iff]
      · constructor
        · intro h
          refine ⟨fun k T hT => ?_, fun ho k vs hvs => ?_⟩
          · obtain ⟨vs, hvs⟩ := (mem_keys_lookup r k).1 (hk k ((mem_keys_lookup _ _).2 ⟨T, hT⟩))
            exact ⟨vs, hvs, h _ ((lookup_entries _ _ _).1 hT) vs hvs⟩
          · rw [ho] at h2
            simp only [Bool.not_false, Bool.and_true, Bool.not_eq_true', Bool.not_eq_false,
              List.isEmpty_iff, List.filter_eq_nil_iff] at h2
            have := h2 k ((mem_keys_lookup _ _).2 ⟨vs, hvs⟩)
            rw [← mem_keys_lookup]
            simpa using this
        · rintro ⟨h, _⟩ ⟨k, T⟩ he vs hvs
          obtain ⟨vs', hvs', ha⟩ := h k T ((lookup_entries _ _ _).2 he)
          simp only at hvs
          rw [hvs] at hvs'
          cases hvs'
          exact ha
      · rintro ⟨k, T⟩ he
        exact (mem_keys_lookup r k).1 (hk k ((mem_keys_lookup _ _).2 ⟨T, (lookup_entries _ _ _).2 he⟩))
  · simp only [h1, Bool.not_false, if_true]
    constructor
    · intro h
      exact (hneg _ h).elim
    · rintro ⟨hc, _⟩
      exfalso
      apply h1
      rw [List.isEmpty_iff, List.filter_eq_nil_iff]
      intro k hk
      obtain ⟨T, hT⟩ := (mem_keys_lookup _ _).1 hk
      obtain ⟨vs, hvs, _⟩ := hc k T hT
      simpa using (mem_keys_lookup r k).2 ⟨vs, hvs⟩

end Pg
