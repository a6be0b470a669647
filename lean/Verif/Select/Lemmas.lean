import Verif.Select.Spec
import Verif.Prefix.Lemmas
import Verif.Comp.LemmasMeaning

/-!
# Lemmas: queries made from schemas
-/

namespace Select
open Comp Shex

variable {N NC : Type}

/-! ## Variables -/

theorem qualifyLocal_some {m : Prefix.PrefixMap} {i v : Str} (h : m.qualifyLocal i = some v) :
    ∃ d ∈ m.map, i = d.2 ++ v ∧ ∀ d' ∈ m.map, d'.2 <+: i → d'.2 <+: d.2 := by
  unfold Prefix.PrefixMap.qualifyLocal at h
  obtain ⟨⟨al, r⟩, h0, rfl⟩ := Option.map_eq_some_iff.1 h
  obtain ⟨h1, h2⟩ := Prefix.maxByKey_some _ _ _ h0
  obtain ⟨⟨a, ns⟩, he, hs⟩ := List.mem_filterMap.1 h1
  simp only [Option.map_eq_some_iff, Prod.mk.injEq] at hs
  obtain ⟨r', hr, rfl, rfl⟩ := hs
  have hiri := (Prefix.stripPrefix_iff _ _ _).1 hr
  refine ⟨(a, ns), he, hiri, ?_⟩
  rintro ⟨a', ns'⟩ he' ⟨rest', h4⟩
  simp only at h4 ⊢
  have hk := h2 (a', rest') (List.mem_filterMap.2 ⟨(a', ns'), he', by
    simp [(Prefix.stripPrefix_iff _ _ _).2 h4.symm]⟩)
  simp only at hk
  have e1 : Prefix.blen i = Prefix.blen ns + Prefix.blen r' := by rw [hiri, Prefix.blen_append]
  have e2 : Prefix.blen i = Prefix.blen ns' + Prefix.blen rest' := by rw [← h4, Prefix.blen_append]
  have hle : Prefix.blen ns' ≤ Prefix.blen ns := by omega
  have heq : ns ++ r' = ns' ++ rest' := hiri ▸ h4.symm
  rcases List.append_eq_append_iff.1 heq with ⟨t, ht, _⟩ | ⟨t, ht, _⟩
  · have : Prefix.blen t = 0 := by rw [ht, Prefix.blen_append] at hle; omega
    have := Prefix.length_le_blen t
    have : t = [] := List.length_eq_zero_iff.1 (by omega)
    subst this
    simp at ht
    exact ht ▸ List.prefix_rfl
  · exact ⟨t, ht.symm⟩

theorem qualifyLocal_none {m : Prefix.PrefixMap} {i : Str} :
    m.qualifyLocal i = none ↔ ¬ ∃ d ∈ m.map, d.2 <+: i := by
  unfold Prefix.PrefixMap.qualifyLocal Prefix.PrefixMap.longestMatch
  rw [Option.map_eq_none_iff, Prefix.maxByKey_none, List.filterMap_eq_nil_iff]
  constructor
  · rintro h ⟨d, hd, t, ht⟩
    have := h d hd
    rw [(Prefix.stripPrefix_iff d.2 i t).2 ht.symm] at this
    cases this
  · intro h d hd
    cases hs : Prefix.stripPrefix d.2 i with
    | none => rfl
    | some t => exact absurd ⟨d, hd, t, ((Prefix.stripPrefix_iff _ _ _).1 hs).symm⟩ h

theorem varOf_some {pm : Option Prefix.PrefixMap} {k k' : Nat} {r : IRef Str} {v : Str}
    (h : varOf pm k r = some (v, k')) : Named pm r ∧ VarName pm v r := by
  cases r with
  | prefixed a l =>
    simp only [varOf, Option.some.injEq, Prod.mk.injEq] at h
    exact ⟨trivial, h.1.symm⟩
  | iri i =>
    cases pm with
    | none =>
      simp only [varOf, generate, Option.some.injEq, Prod.mk.injEq] at h
      exact ⟨(fun m hm => by cases hm), k + 1, h.1.symm⟩
    | some m =>
      simp only [varOf] at h
      cases hq : m.qualifyLocal i with
      | none => rw [hq] at h; cases h
      | some loc =>
        rw [hq] at h
        simp only [Option.some.injEq, Prod.mk.injEq] at h
        obtain ⟨rfl, rfl⟩ := h
        obtain ⟨d, hd, h1, h2⟩ := qualifyLocal_some hq
        refine ⟨fun m' hm' => ?_, d, hd, h1, h2⟩
        cases hm'
        exact ⟨d, hd, loc, h1.symm⟩

theorem varOf_named {pm : Option Prefix.PrefixMap} (k : Nat) {r : IRef Str} (h : Named pm r) :
    ∃ v k', varOf pm k r = some (v, k') := by
  cases r with
  | prefixed a l => exact ⟨_, _, rfl⟩
  | iri i =>
    cases pm with
    | none => exact ⟨_, _, rfl⟩
    | some m =>
      cases hq : m.qualifyLocal i with
      | none => exact absurd (h m rfl) (qualifyLocal_none.1 hq)
      | some loc => exact ⟨loc, k, by simp [varOf, hq]⟩

/-! ## Patterns -/

mutual
theorem patsTE_some {pm : Option Prefix.PrefixMap} {this : Str} :
    ∀ (te : TE Str NC) (k : Nat) (ps : List Pat) (k' : Nat), patsTE pm this te k = some (ps, k') →
      Plain (Named pm) te ∧ ps.map Pat.pred = leaves te ∧
        ∀ p ∈ ps, p.subj = this ∧ VarName pm p.obj p.pred
  | .eachOf _ es _ _ _, k, ps, k', h => by
    rw [patsTE] at h; rw [Plain, leaves]; exact patsAll_some es k ps k' h
  | .oneOf _ es _ _ _, k, ps, k', h => by
    rw [patsTE] at h; rw [Plain, leaves]; exact patsAll_some es k ps k' h
  | .tc _ _ inverse pred _ _ _ _, k, ps, k', h => by
    rw [patsTE] at h; rw [Plain, leaves]
    by_cases hi : inverse = some true
    · rw [if_pos hi] at h; cases h
    · rw [if_neg hi] at h
      cases hv : varOf pm k pred with
      | none => rw [hv] at h; cases h
      | some x =>
        obtain ⟨v, k1⟩ := x
        rw [hv] at h
        simp only [Option.some.injEq, Prod.mk.injEq] at h
        obtain ⟨rfl, rfl⟩ := h
        obtain ⟨h1, h2⟩ := varOf_some hv
        refine ⟨⟨hi, h1⟩, rfl, ?_⟩
        simp [h2]
  | .ref _, k, ps, k', h => by rw [patsTE] at h; cases h
theorem patsAll_some {pm : Option Prefix.PrefixMap} {this : Str} :
    ∀ (es : List (TE Str NC)) (k : Nat) (ps : List Pat) (k' : Nat), patsAll pm this es k = some (ps, k') →
      PlainAll (Named pm) es ∧ ps.map Pat.pred = leavesAll es ∧
        ∀ p ∈ ps, p.subj = this ∧ VarName pm p.obj p.pred
  | [], k, ps, k', h => by
    rw [patsAll] at h
    simp only [Option.some.injEq, Prod.mk.injEq] at h
    obtain ⟨rfl, rfl⟩ := h
    exact ⟨trivial, rfl, by simp⟩
  | e :: es, k, ps, k', h => by
    rw [patsAll] at h
    cases h1 : patsTE pm this e k with
    | none => rw [h1] at h; cases h
    | some x =>
      obtain ⟨p1, k1⟩ := x
      rw [h1] at h
      simp only at h
      cases h2 : patsAll pm this es k1 with
      | none => rw [h2] at h; cases h
      | some y =>
        obtain ⟨p2, k2⟩ := y
        rw [h2] at h
        simp only [Option.some.injEq, Prod.mk.injEq] at h
        obtain ⟨rfl, rfl⟩ := h
        obtain ⟨a1, a2, a3⟩ := patsTE_some e k p1 k1 h1
        obtain ⟨b1, b2, b3⟩ := patsAll_some es k1 p2 k2 h2
        refine ⟨⟨a1, b1⟩, by rw [List.map_append, a2, b2, leavesAll], fun p hp => ?_⟩
        rcases List.mem_append.1 hp with hp | hp
        · exact a3 p hp
        · exact b3 p hp
end

mutual
theorem patsTE_plain {pm : Option Prefix.PrefixMap} {this : Str} :
    ∀ (te : TE Str NC) (k : Nat), Plain (Named pm) te → ∃ ps k', patsTE pm this te k = some (ps, k')
  | .eachOf _ es _ _ _, k, h => by rw [Plain] at h; rw [patsTE]; exact patsAll_plain es k h
  | .oneOf _ es _ _ _, k, h => by rw [Plain] at h; rw [patsTE]; exact patsAll_plain es k h
  | .tc _ _ inverse pred _ _ _ _, k, h => by
    rw [Plain] at h
    obtain ⟨v, k', hv⟩ := varOf_named k h.2
    exact ⟨[⟨this, pred, v⟩], k', by rw [patsTE, if_neg h.1, hv]⟩
  | .ref _, k, h => by rw [Plain] at h; exact h.elim
theorem patsAll_plain {pm : Option Prefix.PrefixMap} {this : Str} :
    ∀ (es : List (TE Str NC)) (k : Nat), PlainAll (Named pm) es →
      ∃ ps k', patsAll pm this es k = some (ps, k')
  | [], k, _ => ⟨[], k, rfl⟩
  | e :: es, k, h => by
    rw [PlainAll] at h
    obtain ⟨p1, k1, h1⟩ := patsTE_plain e k h.1
    obtain ⟨p2, k2, h2⟩ := patsAll_plain es k1 h.2
    exact ⟨p1 ++ p2, k2, by rw [patsAll, h1]; simp only; rw [h2]⟩
end

/-! ## The numbered variables -/

/-- `n` variables numbered from `k + 1`. -/
def numberedFrom (k n : Nat) : List Str := (List.range n).map fun j => numbered (k + j + 1)

theorem numberedFrom_add (k a b : Nat) :
    numberedFrom k (a + b) = numberedFrom k a ++ numberedFrom (k + a) b := by
  unfold numberedFrom
  rw [List.range_add, List.map_append, List.map_map]
  congr 1
  apply List.map_congr_left
  intro j _
  simp only [Function.comp_apply]
  congr 1
  omega

mutual
theorem patsTE_numbered {this : Str} :
    ∀ (te : TE Str NC) (k : Nat) (ps : List Pat) (k' : Nat), patsTE none this te k = some (ps, k') →
      (∀ r ∈ leaves te, ∃ i, r = .iri i) →
      k' = k + ps.length ∧ ps.map Pat.obj = numberedFrom k ps.length
  | .eachOf _ es _ _ _, k, ps, k', h, hl => by
    rw [patsTE] at h; rw [leaves] at hl; exact patsAll_numbered es k ps k' h hl
  | .oneOf _ es _ _ _, k, ps, k', h, hl => by
    rw [patsTE] at h; rw [leaves] at hl; exact patsAll_numbered es k ps k' h hl
  | .tc _ _ inverse pred _ _ _ _, k, ps, k', h, hl => by
    rw [patsTE] at h; rw [leaves] at hl
    obtain ⟨i, rfl⟩ := hl pred (List.mem_singleton.2 rfl)
    by_cases hi : inverse = some true
    · rw [if_pos hi] at h; cases h
    · rw [if_neg hi] at h
      simp only [varOf, generate, Option.some.injEq, Prod.mk.injEq] at h
      obtain ⟨rfl, rfl⟩ := h
      exact ⟨rfl, rfl⟩
  | .ref _, k, ps, k', h, _ => by rw [patsTE] at h; cases h
theorem patsAll_numbered {this : Str} :
    ∀ (es : List (TE Str NC)) (k : Nat) (ps : List Pat) (k' : Nat), patsAll none this es k = some (ps, k') →
      (∀ r ∈ leavesAll es, ∃ i, r = .iri i) →
      k' = k + ps.length ∧ ps.map Pat.obj = numberedFrom k ps.length
  | [], k, ps, k', h, _ => by
    rw [patsAll] at h
    simp only [Option.some.injEq, Prod.mk.injEq] at h
    obtain ⟨rfl, rfl⟩ := h
    exact ⟨rfl, rfl⟩
  | e :: es, k, ps, k', h, hl => by
    rw [patsAll] at h
    rw [leavesAll] at hl
    cases h1 : patsTE none this e k with
    | none => rw [h1] at h; cases h
    | some x =>
      obtain ⟨p1, k1⟩ := x
      rw [h1] at h
      simp only at h
      cases h2 : patsAll none this es k1 with
      | none => rw [h2] at h; cases h
      | some y =>
        obtain ⟨p2, k2⟩ := y
        rw [h2] at h
        simp only [Option.some.injEq, Prod.mk.injEq] at h
        obtain ⟨rfl, rfl⟩ := h
        obtain ⟨rfl, a2⟩ := patsTE_numbered e k p1 k1 h1 fun r hr => hl r (List.mem_append_left _ hr)
        obtain ⟨rfl, b2⟩ := patsAll_numbered es _ p2 k2 h2 fun r hr => hl r (List.mem_append_right _ hr)
        refine ⟨by rw [List.length_append]; omega, ?_⟩
        rw [List.map_append, a2, b2, List.length_append, numberedFrom_add]
end

theorem numbered_inj {a b : Nat} (h : numbered a = numbered b) : a = b := by
  have h' : Nat.toDigits 10 a = Nat.toDigits 10 b := List.append_cancel_left h
  have h1 := Nat.ofDigitChars_ten_toDigits (n := a)
  have h2 := Nat.ofDigitChars_ten_toDigits (n := b)
  rw [h'] at h1
  exact h1.symm.trans h2

theorem numberedFrom_nodup (k n : Nat) : (numberedFrom k n).Nodup := by
  unfold numberedFrom
  refine List.Nodup.map ?_ List.nodup_range
  intro a b h
  have := numbered_inj h
  omega

/-! ## The search for shapes -/

theorem findIn_some {valid : Str → Bool} {pm : Option Prefix.PrefixMap} {want : Str} :
    ∀ {ds : List (Label Str × SE Str NC)} {e : SE Str NC},
      findIn valid pm want ds = .ok (some e) ↔
        ∃ pre post r, ds = pre ++ (.ref r, e) :: post ∧ resolveRef valid pm r = some want ∧
          ∀ d ∈ pre, ∀ r, d.1 = .ref r → ∃ j, resolveRef valid pm r = some j ∧ j ≠ want
  | [], e => by
    rw [findIn]
    constructor
    · intro h; cases h
    · rintro ⟨pre, post, r, h, _⟩
      cases pre <;> cases h
  | (l, e') :: ds, e => by
    have ih := findIn_some (valid := valid) (pm := pm) (want := want) (ds := ds) (e := e)
    have skip : ∀ (hl : ∀ r, l = .ref r → ∃ j, resolveRef valid pm r = some j ∧ j ≠ want),
        ((∃ pre post r, ds = pre ++ (.ref r, e) :: post ∧ resolveRef valid pm r = some want ∧
          ∀ d ∈ pre, ∀ r, d.1 = .ref r → ∃ j, resolveRef valid pm r = some j ∧ j ≠ want) ↔
        ∃ pre post r, (l, e') :: ds = pre ++ (.ref r, e) :: post ∧ resolveRef valid pm r = some want ∧
          ∀ d ∈ pre, ∀ r, d.1 = .ref r → ∃ j, resolveRef valid pm r = some j ∧ j ≠ want) := by
      intro hl
      constructor
      · rintro ⟨pre, post, r, rfl, h2, h3⟩
        refine ⟨(l, e') :: pre, post, r, rfl, h2, fun d hd => ?_⟩
        rcases List.mem_cons.1 hd with rfl | hd
        · exact hl
        · exact h3 d hd
      · rintro ⟨pre, post, r, h1, h2, h3⟩
        cases pre with
        | nil =>
          simp only [List.nil_append, List.cons.injEq, Prod.mk.injEq] at h1
          obtain ⟨⟨rfl, rfl⟩, rfl⟩ := h1
          obtain ⟨j, hj, hne⟩ := hl r rfl
          rw [h2] at hj
          cases hj
          exact absurd rfl hne
        | cons x pre =>
          simp only [List.cons_append, List.cons.injEq] at h1
          obtain ⟨rfl, rfl⟩ := h1
          exact ⟨pre, post, r, rfl, h2, fun d hd => h3 d (List.mem_cons_of_mem _ hd)⟩
    cases l with
    | bnode b =>
      rw [findIn, ih]
      exact skip fun r hr => by cases hr
    | start =>
      rw [findIn, ih]
      exact skip fun r hr => by cases hr
    | ref r =>
      rw [findIn]
      cases hr : resolveRef valid pm r with
      | none =>
        simp only
        constructor
        · intro h; cases h
        · rintro ⟨pre, post, r', h1, h2, h3⟩
          cases pre with
          | nil =>
            simp only [List.nil_append, List.cons.injEq, Prod.mk.injEq, Label.ref.injEq] at h1
            obtain ⟨⟨rfl, rfl⟩, rfl⟩ := h1
            rw [hr] at h2; cases h2
          | cons x pre =>
            simp only [List.cons_append, List.cons.injEq] at h1
            obtain ⟨rfl, rfl⟩ := h1
            obtain ⟨j, hj, _⟩ := h3 _ (List.mem_cons_self ..) r rfl
            rw [hr] at hj; cases hj
      | some i =>
        simp only
        by_cases hi : i = want
        · subst hi
          rw [if_pos rfl]
          constructor
          · intro h
            cases h
            exact ⟨[], ds, r, rfl, hr, by simp⟩
          · rintro ⟨pre, post, r', h1, h2, h3⟩
            cases pre with
            | nil =>
              simp only [List.nil_append, List.cons.injEq, Prod.mk.injEq] at h1
              rw [h1.1.2]
            | cons x pre =>
              simp only [List.cons_append, List.cons.injEq] at h1
              obtain ⟨rfl, rfl⟩ := h1
              obtain ⟨j, hj, hne⟩ := h3 _ (List.mem_cons_self ..) r rfl
              rw [hr] at hj
              cases hj
              exact absurd rfl hne
        · rw [if_neg hi, ih]
          exact skip fun r' hr' => by
            simp only [Label.ref.injEq] at hr'
            subst hr'
            exact ⟨i, hr, hi⟩

theorem findRef_some {valid : Str → Bool} {s : Sch NC} {r : IRef Str} {e : SE Str NC} :
    findRef valid s r = .ok (some e) ↔ ∃ i, resolveRef valid s.pm r = some i ∧ FirstFor valid s i e := by
  unfold findRef FirstFor
  cases hs : s.shapes with
  | none => simp
  | some ds =>
    simp only
    cases hr : resolveRef valid s.pm r with
    | none => simp
    | some want =>
      simp only [Option.some.injEq, exists_eq_left']
      rw [findIn_some]
      constructor
      · rintro ⟨pre, post, r', h1, h2, h3⟩
        exact ⟨ds, pre, post, .ref r', rfl, h1, ⟨r', rfl, h2⟩, h3⟩
      · rintro ⟨_, pre, post, l, rfl, h1, ⟨r', rfl, h2⟩, h3⟩
        exact ⟨pre, post, r', h1, h2, h3⟩

theorem findLabel_some {valid : Str → Bool} {s : Sch NC} {l : Label Str} {e : SE Str NC} :
    findLabel valid s l = .ok (some e) ↔ ∃ i, Stands.At valid s l i ∧ FirstFor valid s i e := by
  cases l with
  | ref r =>
    rw [findLabel, findRef_some]
    constructor
    · rintro ⟨i, h1, h2⟩; exact ⟨i, ⟨r, rfl, h1⟩, h2⟩
    · rintro ⟨i, ⟨r', h0, h1⟩, h2⟩
      simp only [Label.ref.injEq] at h0
      exact ⟨i, h0 ▸ h1, h2⟩
  | bnode b =>
    rw [findLabel]
    constructor
    · intro h; cases h
    · rintro ⟨i, ⟨r', h0, _⟩, _⟩; cases h0
  | start =>
    rw [findLabel]
    constructor
    · intro h; cases h
    · rintro ⟨i, ⟨r', h0, _⟩, _⟩; cases h0

/-! ## The conversion -/

theorem patsSE_ok {valid : Str → Bool} {this : Str} {s : Sch NC} :
    ∀ {n : Nat} {e : SE Str NC} {ps : List Pat}, patsSE valid this s n e = .ok ps →
      ∃ te, Leads valid s e te ∧ patsShape s.pm this te = some ps := by
  intro n
  induction n with
  | zero =>
    intro e ps h
    cases e with
    | shape cl ex te xs as =>
      rw [patsSE] at h
      cases hp : patsShape s.pm this te with
      | none => rw [hp] at h; cases h
      | some qs => rw [hp] at h; cases h; exact ⟨te, .here, hp⟩
    | _ => rw [patsSE] at h; cases h
  | succ n ih =>
    intro e ps h
    cases e with
    | shape cl ex te xs as =>
      rw [patsSE] at h
      cases hp : patsShape s.pm this te with
      | none => rw [hp] at h; cases h
      | some qs => rw [hp] at h; cases h; exact ⟨te, .here, hp⟩
    | ref l =>
      rw [patsSE] at h
      cases hf : findLabel valid s l with
      | ok o =>
        rw [hf] at h
        cases o with
        | none => cases h
        | some e' =>
          simp only at h
          obtain ⟨te, h1, h2⟩ := ih h
          obtain ⟨i, a, b⟩ := findLabel_some.1 hf
          exact ⟨te, .via a b h1, h2⟩
      | err e => rw [hf] at h; cases h
      | panic => rw [hf] at h; cases h
      | more => rw [hf] at h; cases h
    | _ => rw [patsSE] at h; cases h

theorem patsSE_leads {valid : Str → Bool} {this : Str} {s : Sch NC} {e : SE Str NC}
    {te : Option (TE Str NC)} (h : Leads valid s e te) {ps : List Pat}
    (hp : patsShape s.pm this te = some ps) : ∃ n, patsSE valid this s n e = .ok ps := by
  induction h with
  | here => exact ⟨0, by rw [patsSE, hp]⟩
  | via a b _ ih =>
    obtain ⟨n, hn⟩ := ih hp
    exact ⟨n + 1, by rw [patsSE, findLabel_some.2 ⟨_, a, b⟩]; exact hn⟩

theorem convert_ok {valid : Str → Bool} {this : Str} {s : Sch NC} {n : Nat} {shape : Option (IRef Str)}
    {q : Qry} :
    convert valid this s n shape = .ok q ↔
      ∃ e ps, Source valid s shape e ∧ patsSE valid this s n e = .ok ps ∧ q = ⟨s.pm, s.base, ps⟩ := by
  have hq : ∀ e, query valid this s n e = .ok q ↔
      ∃ ps, patsSE valid this s n e = .ok ps ∧ q = ⟨s.pm, s.base, ps⟩ := by
    intro e
    unfold query
    cases h : patsSE valid this s n e with
    | ok ps =>
      simp only [Out.bind, Out.ok.injEq]
      constructor
      · intro h; exact ⟨ps, rfl, h.symm⟩
      · rintro ⟨_, rfl, h⟩; exact h.symm
    | err e => simp [Out.bind]
    | panic => simp [Out.bind]
    | more => simp [Out.bind]
  cases shape with
  | some r =>
    simp only [convert, Source, ← findRef_some]
    cases hf : findRef valid s r with
    | ok o =>
      cases o with
      | none => simp
      | some e =>
        simp only [hq, Out.ok.injEq, Option.some.injEq]
        constructor
        · rintro ⟨ps, a, b⟩; exact ⟨e, ps, rfl, a, b⟩
        · rintro ⟨_, ps, rfl, a, b⟩; exact ⟨ps, a, b⟩
    | err e => simp
    | panic => simp
    | more => simp
  | none =>
    simp only [convert, Source]
    cases hs : s.start with
    | some e =>
      simp only [hq, Option.some.injEq]
      constructor
      · rintro ⟨ps, a, b⟩; exact ⟨e, ps, Or.inl rfl, a, b⟩
      · rintro ⟨e', ps, h | h, a, b⟩
        · subst h; exact ⟨ps, a, b⟩
        · cases h.1
    | none =>
      simp only
      cases hd : s.shapes with
      | none => simp
      | some ds =>
        cases ds with
        | nil => simp
        | cons d ds =>
          simp only [hq, Option.some.injEq, List.cons.injEq, Prod.mk.injEq]
          constructor
          · rintro ⟨ps, a, b⟩; exact ⟨d.2, ps, Or.inr ⟨trivial, d.1, ds, rfl, rfl⟩, a, b⟩
          · rintro ⟨e', ps, h | ⟨_, l, ds', rfl, _⟩, a, b⟩
            · cases h
            · exact ⟨ps, a, b⟩

end Select
