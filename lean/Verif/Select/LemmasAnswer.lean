import Verif.Select.Lemmas

/-!
# Lemmas: nodes that conform and answers of the query
-/

namespace Select
open Comp Shex

variable {N NC : Type}

mutual
theorem required_TE {G : Ctxt N Str NC} {tes : TLabel Str → Option (TE Str NC)} {g : Graph N Str}
    {ext : Option (SLabel Str) → N → Prop} {T : N → SLabel Str → Prop} {n : N} {named : IRef Str → Prop} :
    ∀ (te : TE Str NC) (e : CTE N Str) (s : Multiset (Pred Str × N)), Required te → Plain named te →
      StandsO G tes e (some te) → Matches g ext T e n s →
      ∀ r ∈ leaves te, ∃ x ∈ s, r = .iri x.1.iri ∧ x.1.direct = true
  | .eachOf id es mn mx as, e, s, hr, hp, hs, hm => by
    rw [Required] at hr
    rw [Plain] at hp
    cases e with
    | eachOf es' c =>
      rw [StandsO] at hs
      obtain ⟨t, h1, id', ts, mn', mx', as', h2, h3, h4, _⟩ := hs
      simp only [Option.some.injEq] at h1
      subst h1
      simp only [TE.eachOf.injEq] at h2
      obtain ⟨_, rfl, rfl, rfl, _⟩ := h2
      rw [Matches] at hm
      obtain ⟨k, hk, l, hl, hall, rfl⟩ := hm
      have hk1 : 1 ≤ k := by
        have h5 := h4.1
        have h6 := hk.1
        have := hr.1
        omega
      cases l with
      | nil => simp at hl; omega
      | cons t l =>
        intro r hrl
        rw [leaves] at hrl
        obtain ⟨x, hx, hx2⟩ := required_all es es' t hr.2 hp h3 (hall t (List.mem_cons_self ..)) r hrl
        exact ⟨x, by rw [List.sum_cons]; exact Multiset.mem_add.2 (Or.inl hx), hx2⟩
    | nothing => rw [StandsO] at hs; cases hs
    | oneOf => rw [StandsO] at hs; obtain ⟨t, h1, _, _, _, _, _, h2, _⟩ := hs; cases h1; cases h2
    | tc => rw [StandsO] at hs; obtain ⟨t, h1, _, _, _, _, _, _, _, h2, _⟩ := hs; cases h1; cases h2
    | incl => rw [StandsO] at hs; obtain ⟨l, t, h1, _⟩ := hs; cases h1
  | .oneOf id es mn mx as, e, s, hr, hp, hs, hm => by
    rw [Required] at hr
    rw [Plain] at hp
    cases e with
    | oneOf es' c =>
      rw [StandsO] at hs
      obtain ⟨t, h1, id', ts, mn', mx', as', h2, h3, h4⟩ := hs
      simp only [Option.some.injEq] at h1
      subst h1
      simp only [TE.oneOf.injEq] at h2
      obtain ⟨_, rfl, rfl, rfl, _⟩ := h2
      rw [Matches] at hm
      obtain ⟨k, hk, l, hl, hall, rfl⟩ := hm
      have hk1 : 1 ≤ k := by
        have h5 := h4.1
        have h6 := hk.1
        have := hr.1
        omega
      cases l with
      | nil => simp at hl; omega
      | cons t l =>
        intro r hrl
        rw [leaves] at hrl
        have ht := hall t (List.mem_cons_self ..)
        have hall' : MatchesAll g ext T es' n t := by
          have hlen := hr.2.1
          match es, hlen, es', h3, ht with
          | [a], _, es', h3, ht =>
            cases es' with
            | nil => rw [StandsTs] at h3; cases h3
            | cons b bs =>
              rw [StandsTs] at h3
              obtain ⟨t', ts', h7, _, h8⟩ := h3
              cases h7
              cases bs with
              | cons _ _ => rw [StandsTs] at h8; obtain ⟨_, _, h9, _⟩ := h8; cases h9
              | nil =>
                rw [MatchesSome] at ht
                rcases ht with ht | ht
                · rw [MatchesAll]
                  exact ⟨t, 0, by simp, ht, by rw [MatchesAll]⟩
                · rw [MatchesSome] at ht; exact ht.elim
        obtain ⟨x, hx, hx2⟩ := required_all es es' t hr.2.2 hp h3 hall' r hrl
        exact ⟨x, by rw [List.sum_cons]; exact Multiset.mem_add.2 (Or.inl hx), hx2⟩
    | nothing => rw [StandsO] at hs; cases hs
    | eachOf => rw [StandsO] at hs; obtain ⟨t, h1, _, _, _, _, _, h2, _⟩ := hs; cases h1; cases h2
    | tc => rw [StandsO] at hs; obtain ⟨t, h1, _, _, _, _, _, _, _, h2, _⟩ := hs; cases h1; cases h2
    | incl => rw [StandsO] at hs; obtain ⟨l, t, h1, _⟩ := hs; cases h1
  | .tc id ng iv p v mn mx as, e, s, hr, hp, hs, hm => by
    rw [Required] at hr
    rw [Plain] at hp
    cases e with
    | tc p' acts' v' c =>
      rw [StandsO] at hs
      obtain ⟨t, h1, id', ng', iv', val', mn', mx', as', h2, h3, _, h4, _⟩ := hs
      simp only [Option.some.injEq] at h1
      subst h1
      simp only [TE.tc.injEq] at h2
      obtain ⟨_, _, rfl, rfl, _, rfl, rfl, _⟩ := h2
      rw [Matches] at hm
      intro r hrl
      rw [leaves, List.mem_singleton] at hrl
      subst hrl
      have hc : 0 < Multiset.card s := by
        have h5 := h4.1
        have h6 := hm.1.1
        omega
      obtain ⟨x, hx⟩ := Multiset.card_pos_iff_exists_mem.1 hc
      refine ⟨x, hx, by rw [(hm.2 x hx).1], ?_⟩
      rw [(hm.2 x hx).1, h3]
      have := hp.1
      cases iv with
      | none => rfl
      | some b => cases b with
        | true => exact absurd rfl this
        | false => rfl
    | nothing => rw [StandsO] at hs; cases hs
    | eachOf => rw [StandsO] at hs; obtain ⟨t, h1, _, _, _, _, _, h2, _⟩ := hs; cases h1; cases h2
    | oneOf => rw [StandsO] at hs; obtain ⟨t, h1, _, _, _, _, _, h2, _⟩ := hs; cases h1; cases h2
    | incl => rw [StandsO] at hs; obtain ⟨l, t, h1, _⟩ := hs; cases h1
  | .ref _, e, s, hr, _, _, _ => by rw [Required] at hr; exact hr.elim
theorem required_all {G : Ctxt N Str NC} {tes : TLabel Str → Option (TE Str NC)} {g : Graph N Str}
    {ext : Option (SLabel Str) → N → Prop} {T : N → SLabel Str → Prop} {n : N} {named : IRef Str → Prop} :
    ∀ (ts : List (TE Str NC)) (es : List (CTE N Str)) (s : Multiset (Pred Str × N)), RequiredAll ts →
      PlainAll named ts → StandsTs G tes es ts → MatchesAll g ext T es n s →
      ∀ r ∈ leavesAll ts, ∃ x ∈ s, r = .iri x.1.iri ∧ x.1.direct = true
  | [], es, s, _, _, _, _, r, h => by rw [leavesAll] at h; cases h
  | t :: ts, es, s, hr, hp, hs, hm, r, h => by
    cases es with
    | nil => rw [StandsTs] at hs; cases hs
    | cons e es =>
      rw [StandsTs] at hs
      obtain ⟨t', ts', h1, h2, h3⟩ := hs
      cases h1
      rw [MatchesAll] at hm
      obtain ⟨a, b, rfl, ha, hb⟩ := hm
      rw [leavesAll] at h
      rcases List.mem_append.1 h with h | h
      · obtain ⟨x, hx, hx2⟩ := required_TE t e a hr.1 hp.1 h2 ha r h
        exact ⟨x, Multiset.mem_add.2 (Or.inl hx), hx2⟩
      · obtain ⟨x, hx, hx2⟩ := required_all ts es b hr.2 hp.2 h3 hb r h
        exact ⟨x, Multiset.mem_add.2 (Or.inr hx), hx2⟩
end

/-- The schema declares each label once, and its labels are IRIs. -/
structure Once (s : Sch NC) : Prop where
  iris : ∀ d ∈ s.shapes.getD [], ∀ r, d.1 = .ref r → ∃ i, r = .iri i
  nodup : ((s.shapes.getD []).map Prod.fst).Nodup

theorem first_last {valid : Str → Bool} {s : Sch NC} (ho : Once s) {i : Str} {e e' : SE Str NC}
    (h : FirstFor valid s i e) (h' : LastOf (s.shapes.getD []) (.iri i) e') : e = e' := by
  obtain ⟨ds, pre, post, l, hs, hd, ⟨r, rfl, hr⟩, _⟩ := h
  obtain ⟨pre', post', id, hd', hid, _⟩ := h'
  have hid : id = .ref (.iri i) := hid
  have h1 : (Label.ref r, e) ∈ s.shapes.getD [] := by rw [hs, Option.getD_some, hd]; simp
  have h2 : (id, e') ∈ s.shapes.getD [] := by rw [hd']; simp
  obtain ⟨j, rfl⟩ := ho.iris _ h1 r rfl
  simp only [resolveRef, Option.some.injEq] at hr
  subst hr
  subst hid
  have := List.inj_on_of_nodup_map ho.nodup h1 h2 rfl
  exact (Prod.mk.inj this).2

theorem leads_sat {valid : Str → Bool} {s : Sch NC} (ho : Once s)
    {G : Ctxt N Str NC} {tes : TLabel Str → Option (TE Str NC)} {g : Graph N Str}
    {ext : Option (SLabel Str) → N → Prop} {D : Decls N Str} {T : N → SLabel Str → Prop}
    (hD : CoreOf G tes (s.shapes.getD []) D) (hT : Typing g ext D T)
    {e : SE Str NC} {te : Option (TE Str NC)} (h : Leads valid s e te) {n : N} :
    ∀ {c : Core N Str} {l : Option (SLabel Str)}, Stands G tes c e → Sat g ext T c l n →
      ∃ ce vs, StandsO G tes ce te ∧ Matches g ext T ce n vs ∧ ∀ x ∈ vs, g.Arc n x.1 x.2 := by
  induction h with
  | here =>
    intro c l hs hsat
    cases c with
    | shape closed extra ce exts =>
      rw [Stands] at hs
      obtain ⟨cl, ex, te', xs, as, h1, _, _, h2, _⟩ := hs
      simp only [SE.shape.injEq] at h1
      obtain ⟨_, _, rfl, _⟩ := h1
      rw [Sat] at hsat
      obtain ⟨_, vs, _, h3, h4⟩ := hsat
      exact ⟨ce, vs, h2, h4, fun x hx => ((h3 x).1 hx).1⟩
    | ref l => rw [Stands] at hs; obtain ⟨r, h1, _⟩ := hs; cases h1
    | or cs => rw [Stands] at hs; obtain ⟨r, h1, _⟩ := hs; cases h1
    | and cs => rw [Stands] at hs; obtain ⟨r, h1, _⟩ := hs; cases h1
    | not c => rw [Stands] at hs; obtain ⟨r, h1, _⟩ := hs; cases h1
    | test ok => rw [Stands] at hs; obtain ⟨r, h1, _⟩ := hs; cases h1
    | external => rw [Stands] at hs; cases hs
  | via a b _ ih =>
    intro c l hs hsat
    cases c with
    | ref sl =>
      rw [Stands] at hs
      obtain ⟨r, h1, h2⟩ := hs
      cases h1
      obtain ⟨r', hl, hr⟩ := a
      subst hl
      rw [Sat] at hsat
      obtain ⟨c', hc', hsat'⟩ := (hT n sl).1 hsat
      cases sl with
      | iri j =>
        have h2 : Label.ref r' = .ref (.iri j) := h2
        simp only [Label.ref.injEq] at h2
        subst h2
        simp only [resolveRef, Option.some.injEq] at hr
        subst hr
        obtain ⟨e', he', hs'⟩ := (hD (.iri j)).1 c' hc'
        rw [first_last ho b he'] at ih
        exact ih hs' hsat'
      | bnode b => have h2 : Label.ref r' = .bnode b := h2; cases h2
      | start => have h2 : Label.ref r' = .start := h2; cases h2
    | shape closed extra ce exts => rw [Stands] at hs; obtain ⟨_, _, _, _, _, h1, _⟩ := hs; cases h1
    | or cs => rw [Stands] at hs; obtain ⟨r, h1, _⟩ := hs; cases h1
    | and cs => rw [Stands] at hs; obtain ⟨r, h1, _⟩ := hs; cases h1
    | not c => rw [Stands] at hs; obtain ⟨r, h1, _⟩ := hs; cases h1
    | test ok => rw [Stands] at hs; obtain ⟨r, h1, _⟩ := hs; cases h1
    | external => rw [Stands] at hs; cases hs

/-- A node with an arc for each pattern is an answer, if the variables are kept apart. -/
theorem answer_of_arcs {valid : Str → Bool} {q : Qry} {g : Graph N Str} {this : Str} {n : N}
    (ha : q.Apart valid this) (hs : ∀ p ∈ q.pats, p.subj = this)
    (h : ∀ p ∈ q.pats, ∃ i v, resolveRef valid q.pm p.pred = some i ∧ (n, i, v) ∈ g.triples) :
    q.Answer valid g this n := by
  classical
  have hv : ∀ v : Str, ∃ w : N, (v = this → w = n) ∧
      ∀ p ∈ q.pats, p.obj = v → ∃ i, resolveRef valid q.pm p.pred = some i ∧ (n, i, w) ∈ g.triples := by
    intro v
    by_cases hp : ∃ p ∈ q.pats, p.obj = v
    · obtain ⟨p, hp, rfl⟩ := hp
      obtain ⟨i, w, hi, hw⟩ := h p hp
      refine ⟨w, fun hv => absurd hv (ha.1 p hp), fun p' hp' he => ⟨i, ?_, hw⟩⟩
      rw [ha.2 p' hp' p hp he, hi]
    · exact ⟨n, fun _ => rfl, fun p hp' he => absurd ⟨p, hp', he⟩ hp⟩
  choose σ h1 h2 using hv
  refine ⟨σ, h1 this rfl, fun p hp => ?_⟩
  obtain ⟨i, hi, ht⟩ := h2 p.obj p hp rfl
  exact ⟨i, hi, by rw [hs p hp, h1 this rfl]; exact ht⟩

end Select
