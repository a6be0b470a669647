import Verif.Shexc.LemTok

/-!
# Lemmas: the words of the compact syntax, by the reader that takes them
-/

namespace Shexc

open P Spec

variable {X : Ext} {α β : Type}

/-! ## Names -/

theorem iriRef_tok {s : Str} {ts : List Tok} {w : Str} (h : Sp X (.name (.iri s) :: ts) w) :
    ∃ u, iriRef w = .ok s u ∧ At X ts u ∧ u.length < w.length := by
  obtain ⟨v, u, rfl, ht, h1, h2, h3⟩ := sp_tok h
  cases ht with
  | name hn => cases hn with | iri hn => exact ⟨u, iriRef_ok hn _, h1, h3⟩

theorem pnameNs_tok {p : Str} {ts : List Tok} {w : Str} (h : Sp X (.ns p :: ts) w) :
    ∃ u, pnameNs w = .ok p u ∧ At X ts u ∧ u.length < w.length := by
  obtain ⟨v, u, rfl, ht, h1, h2, h3⟩ := sp_tok h
  cases ht with
  | ns hn =>
    refine ⟨u, ?_, h1, h3⟩
    rw [List.append_assoc]
    exact pnameNs_ok hn u

theorem predicate_tok {t : Tok} {p : IriRef} {ts : List Tok} {w : Str} (hp : PredWord t p) (h : Sp X (t :: ts) w) :
    ∃ u, predicate w = .ok p u ∧ At X ts u ∧ u.length < w.length := by
  cases hp with
  | name =>
    obtain ⟨u, e, h1, h2⟩ := iri_tok h
    exact ⟨u, alt_left e, h1, h2⟩
  | isA =>
    have h0 : iri w = .err := iri_tok_err h (by simp)
    obtain ⟨v, u, rfl, ht, h1, h2, h3⟩ := sp_tok h
    cases ht
    refine ⟨u, ?_, h1, h3⟩
    unfold predicate
    rw [alt_right h0]
    rw [bind_ok (show tag ['a'] (['a'] ++ u) = .ok () u from tag_ok _ _)]
    rfl

/-- Words that are no property. -/
def NoPred (t : Tok) : Prop :=
  (∀ n, t ≠ .name n) ∧ (∀ p, t ≠ .ns p) ∧ (¬ heads t 'a' ∨ t = .kw "EXTENDS" ∨ t = .cap "CLOSED" ∨ t = .cap "EXTRA")

theorem predicate_err {ts : List Tok} {w : Str} (h : Sp X ts w) (ht : ∀ t ∈ ts.head?, NoPred t) : predicate w = .err := by
  unfold predicate
  rw [alt_right (iri_tok_err h fun t hh => ⟨(ht t hh).1, (ht t hh).2.1⟩)]
  refine bind_err (tag_err ?_)
  cases ts with
  | nil => rw [sp_nil h]; exact Off.nil
  | cons t ts =>
    rcases (ht t (by simp)).2.2 with hh | rfl | rfl | rfl
    · exact sp_off h fun t' ht' c hc e => hh (by
        simp only [List.head?_cons, Option.mem_def, Option.some.injEq] at ht'; subst ht'
        exact (show c = 'a' from e) ▸ hc)
    · obtain ⟨v, u, rfl, htx, -⟩ := sp_tok h
      cases htx with
      | kw hk hv =>
        cases v with
        | nil => simp at hv
        | cons c v =>
          refine Off.cons ?_
          rintro rfl
          simp at hv
    · obtain ⟨v, u, rfl, htx, -⟩ := sp_tok h
      cases htx
      exact Off.cons (by decide)
    · obtain ⟨v, u, rfl, htx, -⟩ := sp_tok h
      cases htx
      exact Off.cons (by decide)

theorem shapeLabel_tok {t : Tok} {l : Label} {ts : List Tok} {w : Str} (hl : LabelWord t l) (h : Sp X (t :: ts) w) :
    ∃ u, shapeLabel w = .ok l u ∧ At X ts u ∧ u.length < w.length := by
  obtain ⟨v, u, rfl, ht, h1, h2, h3⟩ := sp_tok h
  cases hl with
  | iri r =>
    cases ht with
    | name hn => exact ⟨u, shapeLabel_ok (.iri hn) (name_ends h2), h1, h3⟩
  | bnode b =>
    cases ht with
    | bnode hn => exact ⟨u, shapeLabel_ok (.bnode hn) h2, h1, h3⟩

theorem tripleLabel_tok {t : Tok} {l : TLabel} {ts : List Tok} {w : Str} (hl : TLabelWord t l) (h : Sp X (t :: ts) w) :
    ∃ u, tripleLabel w = .ok l u ∧ At X ts u ∧ u.length < w.length := by
  cases hl with
  | iri r =>
    obtain ⟨u, e, h1, h2⟩ := iri_tok h
    refine ⟨u, alt_left ?_, h1, h2⟩
    rw [bind_ok e]
    rfl
  | bnode b =>
    have h0 : iri w = .err := iri_tok_err h (by simp)
    obtain ⟨v, u, rfl, ht, h1, h2, h3⟩ := sp_tok h
    cases ht with
    | bnode hn =>
      refine ⟨u, ?_, h1, h3⟩
      unfold tripleLabel
      rw [alt_right (bind_err h0)]
      rw [bind_ok (show bnodeLabel (('_' :: ':' :: b) ++ u) = .ok b u from bnodeLabel_ok hn (Off.stkN h2))]
      rfl

theorem label_ends {l : Label} {u : Str} (h : Off (sticks (.at l)) u) : l.ends u := by
  cases l with
  | iri n => cases n with
    | iri s => trivial
    | prefixed p l => exact h
  | bnode b => exact h
  | start => trivial

theorem shapeRef_tok {l : Label} {ts : List Tok} {w : Str} (h : Sp X (.at l :: ts) w) :
    ∃ u, shapeRef w = .ok l u ∧ At X ts u ∧ u.length < w.length := by
  obtain ⟨v, u, rfl, ht, h1, h2, h3⟩ := sp_tok h
  refine ⟨u, ?_, h1, h3⟩
  have h2 := label_ends h2
  cases ht with
  | @«at» _ w hl =>
    simp only [List.cons_append]
    unfold shapeRef
    have nog : NoGap (w ++ u) := by
      cases hl with
      | iri hn => exact text_noGap (X := X) (.name hn) u
      | bnode hb => exact text_noGap (X := X) (.bnode hb) u
    have tw : tws0 (w ++ u) = .ok () (w ++ u) := tws0_ok (g := []) (b := false) .nil nog
    have third : pnameNs (w ++ u) = .err → alt (do let _ ← char '@'; tws0; let r ← pnameLn; return Label.iri r)
        (alt (do let _ ← char '@'; tws0; let r ← pnameNsIri; return .iri r)
          (do let _ ← char '@'; shapeLabel)) ('@' :: (w ++ u)) = .ok l u := by
      intro hn
      rw [alt_right, alt_right, bind_ok (char_ok _ _), shapeLabel_ok hl h2]
      · rw [bind_ok (char_ok _ _), bind_ok tw]
        exact bind_err (bind_err hn)
      · rw [bind_ok (char_ok _ _), bind_ok tw]
        exact bind_err (bind_err hn)
    cases hl with
    | bnode hb => exact third (pnameNs_err (Off.cons (by decide)))
    | iri hn =>
      cases hn with
      | iri hi => exact third (by cases hi; exact pnameNs_err (Off.cons (by decide)))
      | @ns p hp hk =>
        have e : p ++ [':'] ++ u = p ++ ':' :: u := by simp
        rw [e] at tw ⊢
        have hloc : pnameLn (p ++ ':' :: u) = .err := (bind_ok (pnameNs_ok hp u)).trans (bind_err (pnLocal_err (Off.stkN h2)))
        have hns : pnameNsIri (p ++ ':' :: u) = .ok (.prefixed p []) u := by
          unfold pnameNsIri
          rw [bind_ok (pnameNs_ok hp u)]
          rfl
        rw [alt_right]
        · refine alt_left ?_
          rw [bind_ok (char_ok _ _), bind_ok tw, bind_ok hns]
          rfl
        · rw [bind_ok (char_ok _ _), bind_ok tw]
          exact bind_err hloc
      | @«local» p q hp hq hk =>
        have e : p ++ ':' :: q ++ u = p ++ ':' :: (q ++ u) := by simp
        rw [e] at tw ⊢
        refine alt_left ?_
        have hln : pnameLn (p ++ ':' :: (q ++ u)) = .ok (.prefixed p q) u := by
          unfold pnameLn
          rw [bind_ok (pnameNs_ok hp _), bind_ok (pnLocal_ok hq (Off.stkN h2))]
          rfl
        rw [bind_ok (char_ok _ _), bind_ok tw, bind_ok hln]
        rfl

theorem shapeRef_err {ts : List Tok} {w : Str} (h : Sp X ts w) (ht : ∀ t ∈ ts.head?, ¬ heads t '@') :
    shapeRef w = .err := by
  have hc : char '@' w = .err := char_err (sp_off h fun t hh c hc e => ht t hh (e ▸ hc))
  unfold shapeRef
  rw [alt_right (bind_err hc), alt_right (bind_err hc)]
  exact bind_err hc

/-! ## Literals and numbers -/

theorem expish_stk {c : Char} (h : expish c) : Stk c := by
  rcases h with h | rfl | rfl | rfl
  · exact .inl (digit_name h)
  · decide
  · decide
  · decide

theorem literal_tok {l : Lit} {ts : List Tok} {w : Str} (h : Sp X (.lit l :: ts) w) :
    ∃ u, literal X w = .ok l u ∧ At X ts u ∧ u.length < w.length := by
  obtain ⟨v, u, rfl, ht, h1, h2, h3⟩ := sp_tok h
  have h2 : Off Stk u := h2
  have hx : Off expish u := h2.mono fun c hc => expish_stk hc
  unfold literal
  have num : ∀ {n : Int}, (∃ c t, v = c :: t ∧ (c = '+' ∨ c = '-' ∨ digit c)) → rdfLit X (v ++ u) = .err := by
    rintro - ⟨c, t, rfl, hc⟩
    refine rdfLit_err X (Off.cons ?_)
    rintro (rfl | rfl)
    · revert hc; decide
    · revert hc; decide
  cases ht with
  | lit hl =>
    cases hl with
    | str hs => exact ⟨u, alt_left (rdfLit_str X hs h2), h1, h3⟩
    | lang hs hl hn =>
      refine ⟨u, alt_left ?_, h1, h3⟩
      rw [List.append_assoc]
      exact rdfLit_lang X hs hl hn (Off.stkN h2)
    | @typed s w v d hs hd =>
      refine ⟨u, alt_left ?_, h1, h3⟩
      rw [List.append_assoc]
      refine rdfLit_typed X hs hd.ref (IriRef.ends.n ?_)
      cases d with
      | iri s => trivial
      | prefixed p l => exact h2
    | integer hi =>
      refine ⟨u, ?_, h1, h3⟩
      rw [alt_right (num (n := 0) (int_head hi))]
      exact alt_left (numericLit_int hi hx)
    | decimal hd =>
      refine ⟨u, ?_, h1, h3⟩
      rw [alt_right (num (n := 0) (dec_head hd))]
      exact alt_left (numericLit_dec hd hx)
    | double hd =>
      refine ⟨u, ?_, h1, h3⟩
      rw [alt_right (num (n := 0) (double_head hd))]
      exact alt_left (numericLit_double hd (hx.mono fun c hc => .inl hc))
    | yes =>
      obtain ⟨u', e, h4, h5⟩ := tws0_at h1
      rw [show "true".toList = ['t', 'r', 'u', 'e'] by decide] at *
      have hn : numericLit (['t', 'r', 'u', 'e'] ++ u) = .err := numericLit_err (Off.cons (by decide))
      have hg : tws0 (['t', 'r', 'u', 'e'] ++ u) = .ok () (['t', 'r', 'u', 'e'] ++ u) :=
        tws0_ok (g := []) (b := false) .nil (noGap_cons (by decide) (by decide) (by decide))
      have hr : rdfLit X (['t', 'r', 'u', 'e'] ++ u) = .err := rdfLit_err X (Off.cons (by unfold quoteish; decide))
      have hb : boolValue (['t', 'r', 'u', 'e'] ++ u) = .ok true u' := by
        refine alt_left ?_
        have : tokenTws ['t', 'r', 'u', 'e'] (['t', 'r', 'u', 'e'] ++ u) = .ok () u' := by
          unfold tokenTws
          rw [bind_ok hg, bind_ok (tag_ok ['t', 'r', 'u', 'e'] u), e]
        rw [bind_ok this]
        rfl
      refine ⟨u', ?_, Sp.at' h4, by omega⟩
      rw [alt_right hr, alt_right hn, bind_ok hb]
      rfl
    | no =>
      obtain ⟨u', e, h4, h5⟩ := tws0_at h1
      rw [show "false".toList = ['f', 'a', 'l', 's', 'e'] by decide] at *
      have hn : numericLit (['f', 'a', 'l', 's', 'e'] ++ u) = .err := numericLit_err (Off.cons (by decide))
      have hr : rdfLit X (['f', 'a', 'l', 's', 'e'] ++ u) = .err := rdfLit_err X (Off.cons (by unfold quoteish; decide))
      have hg : tws0 (['f', 'a', 'l', 's', 'e'] ++ u) = .ok () (['f', 'a', 'l', 's', 'e'] ++ u) :=
        tws0_ok (g := []) (b := false) .nil (noGap_cons (by decide) (by decide) (by decide))
      have hb : boolValue (['f', 'a', 'l', 's', 'e'] ++ u) = .ok false u' := by
        have h0 : tokenTws ['t', 'r', 'u', 'e'] (['f', 'a', 'l', 's', 'e'] ++ u) = .err := by
          unfold tokenTws
          rw [bind_ok hg]
          exact bind_err (tag_err (Off.cons (by decide)))
        have : tokenTws ['f', 'a', 'l', 's', 'e'] (['f', 'a', 'l', 's', 'e'] ++ u) = .ok () u' := by
          unfold tokenTws
          rw [bind_ok hg, bind_ok (tag_ok ['f', 'a', 'l', 's', 'e'] u), e]
        unfold boolValue
        rw [alt_right (bind_err h0), bind_ok this]
        rfl
      refine ⟨u', ?_, Sp.at' h4, by omega⟩
      rw [alt_right hr, alt_right hn, bind_ok hb]
      rfl

/-- What a literal may begin with. -/
def litStart (c : Char) : Prop := c = '"' ∨ c = '\'' ∨ c = '+' ∨ c = '-' ∨ c = '.' ∨ digit c ∨ c = 't' ∨ c = 'f'

instance (c : Char) : Decidable (litStart c) := by unfold litStart; infer_instance

theorem literal_err {ts : List Tok} {w : Str} (h : Sp X ts w) (ht : ∀ t ∈ ts.head?, ∀ c, heads t c → ¬ litStart c) :
    literal X w = .err := by
  have ho : Off litStart w := sp_off h ht
  unfold literal
  rw [alt_right (rdfLit_err X (ho.mono fun c hc => by unfold litStart; rcases hc with rfl | rfl <;> simp)),
    alt_right (numericLit_err (ho.mono fun c hc => by unfold litStart; tauto))]
  refine bind_err ?_
  unfold boolValue
  have h1 : ∀ c s, litStart c → tokenTws (c :: s) w = .err := by
    intro c s hc
    unfold tokenTws
    rw [bind_ok (tws0_sp h)]
    exact bind_err (tag_err (ho.mono fun d hd => hd ▸ hc))
  rw [alt_right (bind_err (h1 _ _ (by decide)))]
  exact bind_err (h1 _ _ (by decide))

theorem tag_err_apart {s v u : Str} (h1 : ¬ s <+: v) (h2 : ¬ v <+: s) : tag s (v ++ u) = .err := by
  induction s generalizing v with
  | nil => exact absurd List.nil_prefix h1
  | cons c s ih =>
    cases v with
    | nil => exact absurd List.nil_prefix h2
    | cons d v =>
      rw [List.cons_append, tag]
      split
      · next e =>
        subst e
        refine ih ?_ ?_
        · intro h; exact h1 (by simpa using h)
        · intro h; exact h2 (by simpa using h)
      · rfl

theorem prefix_colon {s p v : Str} (hs : ':' ∉ s) (h : s <+: p ++ ':' :: v) : s <+: p := by
  induction s generalizing p with
  | nil => exact List.nil_prefix
  | cons c s ih =>
    cases p with
    | nil =>
      rw [List.nil_append, List.cons_prefix_cons] at h
      exact absurd (h.1 ▸ List.mem_cons_self) hs
    | cons d p =>
      rw [List.cons_append, List.cons_prefix_cons] at h
      exact List.cons_prefix_cons.2 ⟨h.1, ih (fun hm => hs (List.mem_cons_of_mem _ hm)) h.2⟩

theorem literal_err_name {t : Tok} {n : IriRef} (hn : IsPlainName t n) {ts : List Tok} {w : Str} (h : Sp X (t :: ts) w) :
    literal X w = .err := by
  cases hn with
  | iri s => exact literal_err h (by simp only [List.head?_cons, Option.mem_def, Option.some.injEq, forall_eq']; intro c hc; rw [show c = '<' from hc]; decide)
  | @prefixed p l h1 h2 =>
    have ho : Off (fun c => quoteish c ∨ c = '+' ∨ c = '-' ∨ c = '.' ∨ digit c) w := sp_off h (by
      simp only [List.head?_cons, Option.mem_def, Option.some.injEq, forall_eq']
      intro c hc
      have key : ∀ d : Char, (nameStart d ∨ d = ':') → ¬ (quoteish d ∨ d = '+' ∨ d = '-' ∨ d = '.' ∨ digit d) := by
        rintro d (hd | rfl)
        · rintro ((rfl | rfl) | rfl | rfl | rfl | h)
          · exact absurd hd (by decide)
          · exact absurd hd (by decide)
          · exact absurd hd (by decide)
          · exact absurd hd (by decide)
          · exact absurd hd (by decide)
          · revert h hd
            unfold digit nameStart letter within
            omega
        · unfold quoteish; decide
      exact key c hc)
    have hb : ∀ s : Str, ':' ∉ s → ¬ s <+: p → tag s w = .err := by
      intro s hs hp
      obtain ⟨v, u, rfl, ht, -, -, -⟩ := sp_tok h
      have fin : ∀ q, v = p ++ ':' :: q → tag s (v ++ u) = .err := by
        rintro q rfl
        refine tag_err_apart (fun hx => hp (prefix_colon hs hx)) fun hx => hs (hx.subset (by simp))
      cases ht with
      | name hn =>
        cases hn with
        | ns => exact fin [] (by simp)
        | «local» => exact fin l rfl
    have hb' : ∀ s : Str, ':' ∉ s → ¬ s <+: p → tokenTws s w = .err := by
      intro s hs hp
      unfold tokenTws
      rw [bind_ok (tws0_sp h)]
      exact bind_err (hb s hs hp)
    unfold literal
    rw [alt_right (rdfLit_err X (ho.mono fun c hc => .inl hc)), alt_right (numericLit_err (ho.mono fun c hc => .inr hc))]
    refine bind_err ?_
    unfold boolValue
    rw [alt_right (bind_err (hb' ['t', 'r', 'u', 'e'] (by decide) h1))]
    exact bind_err (hb' ['f', 'a', 'l', 's', 'e'] (by decide) h2)

theorem langTag_tok {t : Str} {ts : List Tok} {w : Str} (h : Sp X (.lang t :: ts) w) :
    ∃ u, langTag X w = .ok t u ∧ At X ts u ∧ u.length < w.length := by
  obtain ⟨v, u, rfl, ht, h1, h2, h3⟩ := sp_tok h
  cases ht with
  | lang hl hn => exact ⟨u, langTag_ok X hl hn (Off.stkN h2), h1, h3⟩

theorem langTag_tok_err {ts : List Tok} {w : Str} (h : Sp X ts w) (ht : ∀ t ∈ ts.head?, ¬ heads t '@') :
    langTag X w = .err := langTag_err X (sp_off h fun t hh c hc e => ht t hh (e ▸ hc))

theorem integer_tok {n : Int} {ts : List Tok} {w : Str} (h : Sp X (.int n :: ts) w) (hn : n.natAbs < 2 ^ 127) :
    ∃ u, integer w = .ok n u ∧ At X ts u ∧ u.length < w.length := by
  obtain ⟨v, u, rfl, ht, h1, h2, h3⟩ := sp_tok h
  have h2 : Off Stk u := h2
  cases ht with
  | int hi => exact ⟨u, integer_ok hi hn (h2.mono fun c hc => .inl (digit_name hc)), h1, h3⟩

theorem rawNumeric_tok {n : Num} {ts : List Tok} {w : Str} (h : Sp X (.num n :: ts) w) :
    ∃ u, rawNumeric X w = .ok n u ∧ At X ts u ∧ u.length < w.length := by
  obtain ⟨v, u, rfl, ht, h1, h2, h3⟩ := sp_tok h
  have h2 : Off Stk u := h2
  cases ht with
  | num hi => exact ⟨u, rawNumeric_ok X hi (h2.mono fun c hc => expish_stk hc), h1, h3⟩

theorem regexp_tok {f : Facet} {ts : List Tok} {w : Str} (h : Sp X (.regex f :: ts) w) :
    ∃ u, regexp w = .ok f u ∧ At X ts u ∧ u.length < w.length := by
  obtain ⟨v, u, rfl, ht, h1, h2, h3⟩ := sp_tok h
  cases ht with
  | regex hi => exact ⟨u, regexp_ok hi h2, h1, h3⟩

theorem code_tok {s : Str} {ts : List Tok} {w : Str} (h : Sp X (.code s :: ts) w) :
    ∃ u, code w = .ok (some s) u ∧ At X ts u ∧ u.length < w.length := by
  obtain ⟨v, u, rfl, ht, h1, h2, h3⟩ := sp_tok h
  cases ht with
  | code hi => exact ⟨u, code_ok hi, h1, h3⟩

theorem card_tok {m n : Int} {ts : List Tok} {w : Str} (h : Sp X (.card m n :: ts) w) :
    ∃ u, repeatRange w = .ok (m, n) u ∧ At X ts u ∧ u.length < w.length := by
  obtain ⟨v, u, rfl, ht, h1, h2, h3⟩ := sp_tok h
  cases ht with
  | card hi => exact ⟨u, repeatRange_ok hi, h1, h3⟩

/-! ## Several elements -/

theorem seq_steps {R : List Tok → α → Prop} {p : P α} (Q : List Tok → Str → Prop) {G : List Tok → Prop}
    (hp : ∀ ts a rest w, R ts a → G rest → Q (ts ++ rest) w → ∃ u, p w = .ok a u ∧ Q rest u ∧ u.length < w.length)
    {fin : List Tok} (hG : ∀ us as, Seq R us as → G (us ++ fin)) {ts : List Tok} {as : List α} (h : Seq R ts as) :
    ∀ w, Q (ts ++ fin) w → ∃ u, Steps p as w u ∧ Q fin u ∧ u.length ≤ w.length := by
  induction h with
  | nil => exact fun w hw => ⟨w, .nil, hw, Nat.le.refl⟩
  | @cons ts us a as h hs ih =>
    intro w hw
    rw [List.append_assoc] at hw
    obtain ⟨u, e, h1, l1⟩ := hp _ _ _ _ h (hG _ _ hs) hw
    obtain ⟨v, h2, h3, l2⟩ := ih u h1
    exact ⟨v, .cons e l1 h2, h3, by omega⟩

theorem steps_nil {p : P α} {w u : Str} (h : Steps p [] w u) : u = w := by cases h; rfl

theorem many0_seq {R : List Tok → α → Prop} {p : P α} (Q : List Tok → Str → Prop) {G : List Tok → Prop}
    (hp : ∀ ts a rest w, R ts a → G rest → Q (ts ++ rest) w → ∃ u, p w = .ok a u ∧ Q rest u ∧ u.length < w.length)
    {fin : List Tok} (hG : ∀ us as, Seq R us as → G (us ++ fin)) (hfin : ∀ u, Q fin u → p u = .err) {ts : List Tok}
    {as : List α} (h : Seq R ts as) {w : Str} (hw : Q (ts ++ fin) w) :
    ∃ u, many0 p w = .ok as u ∧ Q fin u ∧ u.length ≤ w.length := by
  obtain ⟨u, h1, h2, l⟩ := seq_steps Q hp hG h w hw
  exact ⟨u, many0_steps h1 (hfin u h2), h2, l⟩

theorem many1_seq {R : List Tok → α → Prop} {p : P α} (Q : List Tok → Str → Prop) {G : List Tok → Prop}
    (hp : ∀ ts a rest w, R ts a → G rest → Q (ts ++ rest) w → ∃ u, p w = .ok a u ∧ Q rest u ∧ u.length < w.length)
    {fin : List Tok} (hG : ∀ us as, Seq R us as → G (us ++ fin)) (hfin : ∀ u, Q fin u → p u = .err) {ts : List Tok}
    {a : α} {as : List α} (h : Seq R ts (a :: as)) {w : Str} (hw : Q (ts ++ fin) w) :
    ∃ u, many1 p w = .ok (a :: as) u ∧ Q fin u ∧ u.length < w.length := by
  obtain ⟨u, h1, h2, l⟩ := seq_steps Q hp hG h w hw
  refine ⟨u, many1_steps h1 (hfin u h2), h2, ?_⟩
  cases h1 with
  | cons e l1 hs =>
    have : ∀ {as : List α} {j u : Str}, Steps p as j u → u.length ≤ j.length := by
      intro as j u hs
      induction hs with
      | nil => exact Nat.le.refl
      | cons h hl hs ih => omega
    have := this hs
    omega

theorem manySep_chain {R : List Tok → α → Prop} {p : P α} {sep : P Unit} {s : Tok} {G : List Tok → Prop}
    (hp : ∀ ts a rest w, R ts a → G rest → Sp X (ts ++ rest) w → ∃ u, p w = .ok a u ∧ At X rest u ∧ u.length < w.length)
    (hsep : ∀ rest w, Sp X (s :: rest) w → ∃ u, sep w = .ok () u ∧ Sp X rest u ∧ u.length < w.length)
    {fin : List Tok} (hfin : ∀ u, Sp X fin u → sep u = .err) (hG : G fin) (hGs : ∀ us, G (s :: us)) {ts : List Tok}
    {as : List α} (h : Chain s R ts as) :
    ∀ w, At X (ts ++ fin) w → ∃ a as' u v, as = a :: as' ∧ p (skip w) = .ok a u ∧ u.length < w.length ∧
      (∀ n, u.length ≤ n → manySepGo p sep n u = .ok as' v) ∧ Sp X fin v ∧ v.length ≤ u.length := by
  induction h with
  | one h =>
    intro w hw
    obtain ⟨h0, l0⟩ := skip_at hw
    obtain ⟨u, e, h1, l1⟩ := hp _ _ _ _ h hG h0
    obtain ⟨h2, l2⟩ := skip_at h1
    refine ⟨_, _, u, skip u, rfl, e, by omega, ?_, h2, l2⟩
    intro n _
    cases n <;> simp [manySepGo, hfin _ h2]
  | @more ts us a as h hs ih =>
    intro w hw
    have e0 : ts ++ s :: us ++ fin = ts ++ s :: (us ++ fin) := by simp
    rw [e0] at hw
    obtain ⟨h0, l0⟩ := skip_at hw
    obtain ⟨u, e, h1, l1⟩ := hp _ _ _ _ h (hGs _) h0
    obtain ⟨h2, l2⟩ := skip_at h1
    obtain ⟨u2, e2, h3, l3⟩ := hsep _ _ h2
    obtain ⟨b, bs, u3, v, rfl, e3, l4, hgo, hv, l5⟩ := ih u2 (Sp.at' h3)
    refine ⟨a, b :: bs, u, v, rfl, e, by omega, ?_, hv, by omega⟩
    intro n hn
    obtain ⟨n, rfl⟩ : ∃ m, n = m + 1 := ⟨n - 1, by omega⟩
    simp only [manySepGo, e2, e3, hgo n (by omega)]

theorem many1Sep_chain {R : List Tok → α → Prop} {p : P α} {sep : P Unit} {s : Tok} {G : List Tok → Prop}
    (hp : ∀ ts a rest w, R ts a → G rest → Sp X (ts ++ rest) w → ∃ u, p w = .ok a u ∧ At X rest u ∧ u.length < w.length)
    (hsep : ∀ rest w, Sp X (s :: rest) w → ∃ u, sep w = .ok () u ∧ Sp X rest u ∧ u.length < w.length)
    {fin : List Tok} (hfin : ∀ u, Sp X fin u → sep u = .err) (hG : G fin) (hGs : ∀ us, G (s :: us)) {ts : List Tok}
    {as : List α} (h : Chain s R ts as) {w : Str} (hw : At X (ts ++ fin) w) :
    ∃ u, many1Sep p sep w = .ok as u ∧ Sp X fin u ∧ u.length < w.length := by
  obtain ⟨a, as', u, v, rfl, e, l, hgo, hv, l'⟩ := manySep_chain hp hsep hfin hG hGs h w hw
  refine ⟨v, ?_, hv, by omega⟩
  simp only [many1Sep, e, hgo _ Nat.le.refl]

end Shexc
