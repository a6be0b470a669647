import Verif.Shexc.LemGram4

/-! # Lemmas for `C107`: statements are read as they are written -/

namespace Shexc

open P Spec

variable {α : Type} {X : Ext} {I : Inner} {R : Rec} {L : Nat}

/-- The statement that the reader builds. -/
def toStmt : Statement → Stmt
  | .pfx p s => .pfx p s
  | .base s => .base s
  | .imp r => .imp r
  | .start e => .start e
  | .decl a l e => .decl a l e

theorem shapeAtom_err (hR : Good X I R L) {inl : Bool} {ts : List Tok} {w : Str} (h : Sp X ts w)
    (ht : ∀ t ∈ ts.head?, NoNonLit t ∧ NoLitNC t ∧ NoShape t ∧ ¬ heads t '(' ∧ ¬ heads t '.') :
    shapeAtom X inl R w = .err := by
  unfold shapeAtom
  rw [alt_right (bind_err (nonLit_err (Sp.at' h) fun t hh => (ht t hh).1)),
    alt_right (bind_err (lit_err h fun t hh => (ht t hh).2.1)),
    alt_right (bind_err (shapeOrRef_err hR h fun t hh => (ht t hh).2.2.1)),
    alt_right (bind_err (sp_char_err h fun t hh => (ht t hh).2.2.2.1)), bind_ok (tws0_sp h)]
  exact bind_err (sp_char_err h fun t hh => (ht t hh).2.2.2.2)

theorem many1Sep_err {p : P α} {sep : P Unit} {w : Str} (h : p (skip w) = .err) : many1Sep p sep w = .err := by
  simp only [many1Sep, h]

theorem skip_sp {ts : List Tok} {w : Str} (h : Sp X ts w) : skip w = w := by
  rw [skip, tws0_sp h]

theorem external_err {ts : List Tok} {w : Str} (h : Sp X (.kw "EXTERNAL" :: ts) w) : shapeExpression X w = .err := by
  have nk : ∀ {K : String}, K ≠ "EXTERNAL" → NotKw K (.kw "EXTERNAL") := fun h => kw_notKw h
  have key : ∀ R', Good X (Level 0) R' 0 → shapeOr X false R' w = .err := by
    intro R' hR
    have e1 : shapeAtom X false R' w = .err := shapeAtom_err hR h (head_cons
      (p := fun t => NoNonLit t ∧ NoLitNC t ∧ NoShape t ∧ ¬ heads t '(' ∧ ¬ heads t '.') ⟨?_, ?_, ?_, ?_, ?_⟩)
    · have e2 : shapeNot X false R' w = .err := by
        unfold shapeNot
        rw [bind_ok (opt_none (kw_tws_err (K := "NOT") (by decide) (Sp.at' h) (head_cons (nk (by decide)))))]
        exact bind_err e1
      have e3 : shapeAnd X false R' w = .err := bind_err (many1Sep_err (by rw [skip_sp h]; exact e2))
      exact bind_err (many1Sep_err (by rw [skip_sp h]; exact e3))
    · exact ⟨fun K hK => nk (by rintro rfl; revert hK; decide), by simp,
        fun K hK => nk (by rintro rfl; revert hK; decide)⟩
    · exact ⟨nk (by decide), by simp, by simp only [heads]; decide,
        fun K hK => nk (by rintro rfl; revert hK; decide)⟩
    · exact ⟨fun K hK => nk (by rintro rfl; revert hK; decide), by simp only [heads]; decide,
        by simp only [heads]; decide, .inl (by simp only [heads]; decide)⟩
    · simp only [heads]; decide
    · simp only [heads]; decide
  have lt : 0 < w.length := by
    obtain ⟨v, u, -, -, -, -, l⟩ := sp_tok h
    omega
  unfold shapeExpression
  exact key _ (good 0 _ _ (by omega))

theorem abstract_same : tokenTwsNoCase "abstract".toList = tokenTwsNoCase "ABSTRACT".toList :=
  tokenTwsNoCase_same (by decide +kernel)

/-- The words that begin a statement. -/
def StmtWord (t : Tok) : Prop :=
  (∃ k ∈ ["PREFIX", "BASE", "IMPORT", "START", "ABSTRACT"], t = .kw k) ∨ ∃ l, LabelWord t l

theorem labelWord_notKw {t : Tok} {l : Label} (h : LabelWord t l) (K : String) : NotKw K t := by
  cases h <;> exact ⟨by simp, by simp, by simp⟩

theorem stmtWord_stop {t : Tok} (h : StmtWord t) (inl : Bool) : Stop inl t := by
  rcases h with ⟨k, hk, rfl⟩ | ⟨l, h⟩
  · refine ⟨?_, kw_notKw ?_, kw_notKw ?_⟩
    · show k ∈ _
      revert k
      decide
    · rintro rfl; revert hk; decide
    · rintro rfl; revert hk; decide
  · refine ⟨?_, labelWord_notKw h _, labelWord_notKw h _⟩
    cases h <;> trivial

theorem statement_head {ts : List Tok} {s : Statement} (h : StatementText ts s) : ∃ t us, ts = t :: us ∧ StmtWord t := by
  cases h with
  | pfx p s => exact ⟨_, _, rfl, .inl ⟨_, by decide, rfl⟩⟩
  | base s => exact ⟨_, _, rfl, .inl ⟨_, by decide, rfl⟩⟩
  | imp r => exact ⟨_, _, rfl, .inl ⟨_, by decide, rfl⟩⟩
  | start h => exact ⟨_, _, rfl, .inl ⟨_, by decide, rfl⟩⟩
  | decl hl h => exact ⟨_, _, rfl, .inr ⟨_, hl⟩⟩
  | abstr hl h => exact ⟨_, _, rfl, .inl ⟨_, by decide, rfl⟩⟩
  | external hl => exact ⟨_, _, rfl, .inr ⟨_, hl⟩⟩

theorem statement_tok {ts : List Tok} {s : Statement} (hs : StatementText ts s) {rest : List Tok}
    (ht : ∀ t ∈ rest.head?, StmtWord t) {w : Str} (h : Sp X (ts ++ rest) w) :
    ∃ u, statement X w = .ok (toStmt s) u ∧ At X rest u ∧ u.length < w.length := by
  have stop : ∀ inl, ∀ t ∈ rest.head?, Stop inl t := fun inl t hh => stmtWord_stop (ht t hh) inl
  have err : ∀ {K : String} {t : Tok} {us : List Tok}, Sp X (t :: us) w → K ∈ keywords → NotKw K t →
      tagNoCase K.toList w = .err := fun h hK hn => kw_err hK h (head_cons hn)
  have nk : ∀ {K k : String}, K ≠ k → NotKw K (.kw k) := fun h => kw_notKw h
  -- declarations come after the other statements
  have skip4 : ∀ {t : Tok} {us : List Tok}, Sp X (t :: us) w →
      (∀ K ∈ ["BASE", "PREFIX", "IMPORT", "START"], NotKw K t) → ∀ {a : Stmt} {u : Str}, shapeDecl X w = .ok a u →
      statement X w = .ok a u := by
    intro t us h hn a u e
    have e1 : baseDecl w = .err := bind_err (err h (by decide) (hn _ (by decide)))
    have e2 : prefixDecl w = .err := bind_err (err h (by decide) (hn _ (by decide)))
    have e3 : importDecl w = .err := bind_err (err h (by decide) (hn _ (by decide)))
    have e4 : startDecl X w = .err := bind_err (err h (by decide) (hn _ (by decide)))
    unfold statement
    rw [alt_right, alt_right e4]
    · exact alt_left e
    · rw [alt_right e1, alt_right e2, e3]
  cases hs with
  | pfx p s =>
    obtain ⟨w1, e1, h1, l1⟩ := kw_ok h
    obtain ⟨w2, e2, h2, l2⟩ := tws0_at h1
    obtain ⟨w3, e3, h3, l3⟩ := pnameNs_tok h2
    obtain ⟨w4, e4, h4, l4⟩ := tws0_at h3
    obtain ⟨w5, e5, h5, l5⟩ := iriRef_tok h4
    refine ⟨w5, alt_left ?_, h5, by omega⟩
    have b1 : baseDecl w = .err := bind_err (err h (by decide) (nk (by decide)))
    rw [alt_right b1]
    refine alt_left ?_
    unfold prefixDecl
    rw [bind_ok e1, bind_ok e2, bind_ok (cut_ok e3), bind_ok e4, bind_ok (cut_ok e5)]
    rfl
  | base s =>
    obtain ⟨w1, e1, h1, l1⟩ := kw_ok h
    obtain ⟨w2, e2, h2, l2⟩ := tws0_at h1
    obtain ⟨w5, e5, h5, l5⟩ := iriRef_tok h2
    refine ⟨w5, alt_left (alt_left ?_), h5, by omega⟩
    unfold baseDecl
    rw [bind_ok e1, bind_ok e2, bind_ok (cut_ok e5)]
    rfl
  | imp r =>
    obtain ⟨w1, e1, h1, l1⟩ := kw_ok h
    obtain ⟨w2, e2, h2, l2⟩ := tws0_at h1
    obtain ⟨w5, e5, h5, l5⟩ := iri_tok h2
    refine ⟨w5, alt_left ?_, h5, by omega⟩
    have b1 : baseDecl w = .err := bind_err (err h (by decide) (nk (by decide)))
    have b2 : prefixDecl w = .err := bind_err (err h (by decide) (nk (by decide)))
    rw [alt_right b1, alt_right b2]
    unfold importDecl
    rw [bind_ok e1, bind_ok e2, bind_ok (cut_ok e5)]
    rfl
  | start he =>
    obtain ⟨w1, e1, h1, l1⟩ := kw_ok h
    obtain ⟨w2, e2, h2, l2⟩ := tws0_at h1
    obtain ⟨w3, e3, h3, l3⟩ := sym_char h2
    obtain ⟨w4, e4, h4, l4⟩ := tws0_at h3
    obtain ⟨w5, e5, h5, l5⟩ := inlineShapeExpression_tok he (stop true) h4
    refine ⟨w5, ?_, Sp.at' h5, by omega⟩
    have b1 : baseDecl w = .err := bind_err (err h (by decide) (nk (by decide)))
    have b2 : prefixDecl w = .err := bind_err (err h (by decide) (nk (by decide)))
    have b3 : importDecl w = .err := bind_err (err h (by decide) (nk (by decide)))
    unfold statement
    rw [alt_right]
    · refine alt_left ?_
      unfold startDecl
      rw [bind_ok e1, bind_ok e2, bind_ok (cut_ok e3), bind_ok e4, bind_ok (cut_ok e5)]
      rfl
    · rw [alt_right b1, alt_right b2, b3]
  | decl hl he =>
    obtain ⟨w1, e1, h1, l1⟩ := shapeLabel_tok hl h
    obtain ⟨w2, e2, h2, l2⟩ := tws0_at h1
    obtain ⟨w3, e3, h3, l3⟩ := shapeExpression_tok he (stop false) h2
    refine ⟨w3, skip4 h (fun K _ => labelWord_notKw hl K) ?_, Sp.at' h3, by omega⟩
    unfold shapeDecl
    rw [abstract_same, bind_ok (opt_none (kw_tws_err (by decide) (Sp.at' h) (head_cons (labelWord_notKw hl _)))), bind_ok e1,
      bind_ok e2, bind_ok (cut_ok (alt_left e3))]
    rfl
  | abstr hl he =>
    obtain ⟨w0, e0, h0, l0⟩ := kw_tws (Sp.at' h)
    obtain ⟨w1, e1, h1, l1⟩ := shapeLabel_tok hl h0
    obtain ⟨w2, e2, h2, l2⟩ := tws0_at h1
    obtain ⟨w3, e3, h3, l3⟩ := shapeExpression_tok he (stop false) h2
    refine ⟨w3, skip4 h (fun K hK => nk (by rintro rfl; revert hK; decide)) ?_, Sp.at' h3, by omega⟩
    unfold shapeDecl
    rw [abstract_same, bind_ok (opt_some e0), bind_ok e1, bind_ok e2, bind_ok (cut_ok (alt_left e3))]
    rfl
  | external hl =>
    obtain ⟨w1, e1, h1, l1⟩ := shapeLabel_tok hl h
    obtain ⟨w2, e2, h2, l2⟩ := tws0_at h1
    obtain ⟨w3, e3, h3, l3⟩ := kw_ok h2
    refine ⟨w3, skip4 h (fun K _ => labelWord_notKw hl K) ?_, h3, by omega⟩
    have e4 : alt (shapeExpression X) (do tagNoCase "EXTERNAL".toList; return .external) w2 = .ok .external w3 := by
      rw [alt_right (external_err h2), bind_ok e3]
      rfl
    unfold shapeDecl
    rw [abstract_same, bind_ok (opt_none (kw_tws_err (by decide) (Sp.at' h) (head_cons (labelWord_notKw hl _)))), bind_ok e1,
      bind_ok e2, bind_ok (cut_ok e4)]
    rfl

theorem statementsGo_tok {ts : List Tok} {ss : List Statement} (hs : Seq StatementText ts ss) :
    ∀ {w : Str} {n : Nat}, At X ts w → w.length ≤ n → statementsGo X n (skip w) = .ok (ss.map toStmt) [] := by
  induction hs with
  | nil =>
    intro w n h hn
    have := sp_nil (skip_at h).1
    rw [this]
    cases n <;> rfl
  | @cons ts us s ss hx hs ih =>
    intro w n h hn
    obtain ⟨h1, l1⟩ := skip_at h
    obtain ⟨u, e, h2, l2⟩ := statement_tok hx (rest := us) (by
      cases hs with
      | nil => simp
      | cons hy _ =>
        obtain ⟨t, vs, rfl, ht⟩ := statement_head hy
        exact head_cons ht) h1
    cases hk : skip w with
    | nil => rw [hk] at l2; simp at l2
    | cons c v =>
      rw [hk] at e l1 l2
      obtain ⟨m, rfl⟩ : ∃ k, n = k + 1 := ⟨n - 1, by simp only [List.length_cons] at l1; omega⟩
      have := ih (n := m) h2 (by omega)
      rw [statementsGo, e]
      simp only [this, List.map_cons]

theorem statements_tok {w : Str} {ss : List Statement} (h : SchemaText X.spec w ss) :
    ∃ c, skip w = c ∧ c.length ≤ w.length ∧ ∀ n, c.length ≤ n → statementsGo X n c = .ok (ss.map toStmt) [] := by
  obtain ⟨g, ts, u, hg, rfl, hu, hs⟩ := h
  have e : skip (g ++ u) = u := by rw [skip, tws0_ok hg (sp_noGap hu)]
  refine ⟨u, e, by simp, fun n hn => ?_⟩
  have := statementsGo_tok hs (Sp.at' hu) hn
  rwa [skip_sp hu] at this

end Shexc
