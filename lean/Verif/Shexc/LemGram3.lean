import Verif.Shexc.LemGram2

/-!
# Lemmas: reading shapes and shape expressions of the compact syntax
-/

namespace Shexc

open P Spec

variable {X : Ext} {α β : Type}

theorem seq_map {R : List Tok → α → Prop} {f : α → β} {ts : List Tok} {as : List α} (h : Seq R ts as) :
    Seq (fun ts b => ∃ a, R ts a ∧ b = f a) ts (as.map f) := by
  induction h with
  | nil => exact .nil
  | cons h hs ih => exact .cons ⟨_, h, rfl⟩ ih

theorem nonEmpty_listed (l : List α) : nonEmpty l = listed l := by
  unfold nonEmpty listed
  cases l <;> simp

/-! ## What is said in front of a shape -/

/-- The qualifier that the reader builds. -/
def toQual : Qualifier → Qual
  | .closed => .closed
  | .extra ps => .extra ps
  | .ext l => .ext l

theorem closedOf_toQual (qs : List Qualifier) : closedOf (qs.map toQual) = isClosed qs := by
  induction qs with
  | nil => rfl
  | cons q qs ih =>
    unfold closedOf at ih ⊢
    cases q with
    | closed => simp [toQual, isClosed]
    | extra ps => rw [isClosed, ← ih]; simp [toQual]; simp
    | ext l => rw [isClosed, ← ih]; simp [toQual]; simp

theorem extraOf_toQual (qs : List Qualifier) : extraOf (qs.map toQual) = extras qs := by
  induction qs with
  | nil => rfl
  | cons q qs ih =>
    unfold extraOf at ih ⊢
    cases q with
    | closed => rw [extras, ← ih]; simp [toQual]; simp
    | extra ps => rw [extras, ← ih]; simp [toQual]
    | ext l => rw [extras, ← ih]; simp [toQual]; simp

theorem extendsOf_toQual (qs : List Qualifier) : extendsOf (qs.map toQual) = parents qs := by
  induction qs with
  | nil => rfl
  | cons q qs ih =>
    unfold extendsOf at ih ⊢
    cases q with
    | closed => rw [parents, ← ih]; simp [toQual]; simp
    | extra ps => rw [parents, ← ih]; simp [toQual]; simp
    | ext l => rw [parents, ← ih]; simp [toQual]

theorem predWords_steps {ts : List Tok} {ps : List IriRef} (hp : PredWords ts ps) {rest : List Tok} :
    ∀ {w : Str}, Sp X (ts ++ rest) w →
    ∃ u, Steps (do let p ← predicate; tws0; return p : P IriRef) ps w u ∧ Sp X rest u ∧ u.length < w.length := by
  have one : ∀ {t : Tok} {r : IriRef} {us : List Tok} {w : Str}, PredWord t r → Sp X (t :: us) w →
      ∃ u, (do let p ← predicate; tws0; return p : P IriRef) w = .ok r u ∧ Sp X us u ∧ u.length < w.length := by
    intro t r us w hp h
    obtain ⟨w1, e1, h1, l1⟩ := predicate_tok hp h
    obtain ⟨w2, e2, h2, l2⟩ := tws0_at h1
    refine ⟨w2, ?_, h2, by omega⟩
    rw [bind_ok e1, bind_ok e2]
    rfl
  induction hp with
  | one hp =>
    intro w h
    obtain ⟨u, e, h1, l⟩ := one hp h
    exact ⟨u, .cons e l .nil, h1, l⟩
  | more hp hs ih =>
    intro w h
    obtain ⟨u, e, h1, l⟩ := one hp h
    obtain ⟨v, st, h2, l2⟩ := ih h1
    exact ⟨v, .cons e l st, h2, by omega⟩

/-- The words that a qualifier begins with. -/
def qualWords : List Tok := [.cap "CLOSED", .cap "EXTRA", .kw "EXTENDS", .sym ['&']]

theorem qual_head {ts : List Tok} {q : Qualifier} (h : QualText ts q) : ∃ t us, ts = t :: us ∧ t ∈ qualWords := by
  cases h <;> exact ⟨_, _, rfl, by simp [qualWords]⟩

theorem tagNoCase_same {s s' : Str} (h : s.map Char.toLower = s'.map Char.toLower) : tagNoCase s = tagNoCase s' := by
  funext i
  induction s generalizing s' i with
  | nil =>
    have : s' = [] := by simpa using h.symm
    rw [this]
  | cons c s ih =>
    cases s' with
    | nil => simp at h
    | cons d s' =>
      simp only [List.map_cons, List.cons.injEq] at h
      cases i with
      | nil => rfl
      | cons e i => rw [tagNoCase, tagNoCase, h.1, ih h.2]

theorem tokenTwsNoCase_same {s s' : Str} (h : s.map Char.toLower = s'.map Char.toLower) :
    tokenTwsNoCase s = tokenTwsNoCase s' := by
  unfold tokenTwsNoCase
  rw [tagNoCase_same h]

theorem extends_same : tokenTwsNoCase "extends".toList = tokenTwsNoCase "EXTENDS".toList :=
  tokenTwsNoCase_same (by decide +kernel)

theorem qualifier_err {ts : List Tok} {w : Str} (h : At X ts w)
    (ht : ∀ t ∈ ts.head?, NotKws ["EXTENDS", "CLOSED", "EXTRA"] t ∧ ¬ heads t '&') : qualifier w = .err := by
  have e1 : tokenTwsNoCase "EXTENDS".toList w = .err := kw_tws_err (by decide) h fun t hh => (ht t hh).1 _ (by decide)
  unfold qualifier
  rw [extends_same, alt_right, alt_right (bind_err (cap_tws_err (K := "CLOSED") (by decide) h fun t hh => (ht t hh).1 _ (by decide)))]
  · exact bind_err (cap_tws_err (K := "EXTRA") (by decide) h fun t hh => (ht t hh).1 _ (by decide))
  · rw [alt_right (bind_err e1)]
    exact bind_err (sym_tws_err h fun t hh => (ht t hh).2)

theorem predWords_cons {ts : List Tok} {ps : List IriRef} (h : PredWords ts ps) : ∃ r rs, ps = r :: rs := by
  cases h <;> exact ⟨_, _, rfl⟩

theorem qualifier_tok {ts : List Tok} {q : Qualifier} (hq : QualText ts q) {rest : List Tok} {w : Str}
    (h : At X (ts ++ rest) w) (ht : ∀ t ∈ rest.head?, NoPred t) :
    ∃ u, qualifier w = .ok (toQual q) u ∧ At X rest u ∧ u.length < w.length := by
  have kwE : ∀ {t : Tok} {us : List Tok}, At X (t :: us) w → NotKw "EXTENDS" t → tokenTwsNoCase "EXTENDS".toList w = .err :=
    fun h hn => kw_tws_err (by decide) h (head_cons hn)
  have amp : ∀ {t : Tok} {us : List Tok}, At X (t :: us) w → ¬ heads t '&' → tokenTws ['&'] w = .err :=
    fun h hn => sym_tws_err h (head_cons (p := fun t => ¬ heads t '&') hn)
  unfold qualifier
  rw [extends_same]
  cases hq with
  | closed =>
    obtain ⟨u, e, h1, l⟩ := cap_tws h
    refine ⟨u, ?_, Sp.at' h1, l⟩
    rw [alt_right, alt_left]
    · rw [bind_ok e]; rfl
    · rw [alt_right (bind_err (kwE h (cap_notKw (by decide))))]
      exact bind_err (amp h (by simp only [heads]; decide))
  | extra hp =>
    obtain ⟨w1, e1, h1, l1⟩ := cap_tws h
    obtain ⟨w2, st, h2, l2⟩ := predWords_steps hp h1
    refine ⟨w2, ?_, Sp.at' h2, by omega⟩
    rw [alt_right, alt_right (bind_err (cap_tws_err (K := "CLOSED") (by decide) h (head_cons (cap_notKw (by decide)))))]
    · rw [bind_ok e1]
      obtain ⟨r, rs, rfl⟩ := predWords_cons hp
      have e2 := many1_steps st (bind_err (predicate_err h2 ht))
      rw [bind_ok (cut_ok e2)]
      rfl
    · rw [alt_right (bind_err (kwE h (cap_notKw (by decide))))]
      exact bind_err (amp h (by simp only [heads]; decide))
  | ext l =>
    obtain ⟨w1, e1, h1, l1⟩ := kw_tws h
    obtain ⟨w2, e2, h2, l2⟩ := shapeRef_tok h1
    refine ⟨w2, alt_left (alt_left ?_), h2, by omega⟩
    rw [bind_ok e1, bind_ok e2]
    rfl
  | amp l =>
    obtain ⟨w1, e1, h1, l1⟩ := sym_tws h
    obtain ⟨w2, e2, h2, l2⟩ := shapeRef_tok h1
    refine ⟨w2, alt_left ?_, h2, by omega⟩
    rw [alt_right (bind_err (kwE h ⟨by simp, by simp, by simp⟩)), bind_ok e1, bind_ok e2]
    rfl

theorem qualifiers_tok {ts : List Tok} {qs : List Qualifier} (hq : Seq QualText ts qs) {rest : List Tok} {w : Str}
    (h : At X (ts ++ .sym ['{'] :: rest) w) :
    ∃ u, many0 qualifier w = .ok (qs.map toQual) u ∧ At X (.sym ['{'] :: rest) u ∧ u.length ≤ w.length := by
  refine many0_seq (At X) (G := fun us => ∀ t ∈ us.head?, NoPred t) ?_ ?_ ?_ (seq_map (f := toQual) hq) h
  · rintro ts q rest w ⟨q', hq', rfl⟩ hg h
    exact qualifier_tok hq' h hg
  · intro us as hs
    cases hs with
    | nil => exact head_cons (p := NoPred) ⟨by simp, by simp, .inl (by simp only [heads]; decide)⟩
    | cons hx hs =>
      obtain ⟨q', hq', -⟩ := hx
      obtain ⟨t, vs, rfl, ht⟩ := qual_head hq'
      refine head_cons (p := NoPred) ?_
      simp only [qualWords, List.mem_cons, List.not_mem_nil, or_false] at ht
      rcases ht with rfl | rfl | rfl | rfl
      · exact ⟨by simp, by simp, by simp⟩
      · exact ⟨by simp, by simp, by simp⟩
      · exact ⟨by simp, by simp, by simp⟩
      · exact ⟨by simp, by simp, .inl (by simp only [heads]; decide)⟩
  · intro u hu
    refine qualifier_err hu (head_cons (p := fun t => NotKws ["EXTENDS", "CLOSED", "EXTRA"] t ∧ ¬ heads t '&') ⟨?_, ?_⟩)
    · exact fun K _ => ⟨by simp, by simp, by simp⟩
    · simp only [heads]; decide

/-! ## Annotations and actions -/

theorem annotation_tok {ts : List Tok} {a : Annot} (ha : AnnText ts a) {rest : List Tok} {w : Str}
    (h : At X (ts ++ rest) w) : ∃ u, annotation X w = .ok a u ∧ At X rest u ∧ u.length < w.length := by
  cases ha with
  | mk hp ho =>
    obtain ⟨w1, e1, h1, l1⟩ := sym_tws h
    obtain ⟨w2, e2, h2, l2⟩ := predicate_tok hp h1
    obtain ⟨w3, e3, h3, l3⟩ := tws0_at h2
    unfold annotation
    rw [bind_ok e1, bind_ok (cut_ok e2), bind_ok e3]
    cases ho with
    | iri r =>
      obtain ⟨w4, e4, h4, l4⟩ := iri_tok h3
      have e5 : iriOrLit X w3 = .ok (.iri r) w4 := alt_left (by rw [bind_ok e4]; rfl)
      exact ⟨w4, by rw [bind_ok (cut_ok e5)]; rfl, h4, by omega⟩
    | lit l =>
      obtain ⟨w4, e4, h4, l4⟩ := literal_tok h3
      have e5 : iriOrLit X w3 = .ok (.lit l) w4 := by
        unfold iriOrLit
        rw [alt_right (bind_err (iri_tok_err h3 (head_cons (p := fun t => (∀ n, t ≠ .name n) ∧ ∀ p, t ≠ .ns p) (by simp)))),
          bind_ok e4]
        rfl
      exact ⟨w4, by rw [bind_ok (cut_ok e5)]; rfl, h4, by omega⟩

theorem annotations_tok {ts : List Tok} {as : List Annot} (ha : Seq AnnText ts as) {rest : List Tok} {w : Str}
    (h : At X (ts ++ rest) w) (ht : ∀ t ∈ rest.head?, ¬ heads t '/') :
    ∃ u, many0 (annotation X) w = .ok as u ∧ At X rest u ∧ u.length ≤ w.length :=
  many0_seq (At X) (G := fun _ => True) (fun _ _ _ _ ha _ h => annotation_tok ha h) (fun _ _ _ => trivial)
    (fun _ hu => bind_err (sym_tws_err hu ht)) ha h

theorem codeDecl_tok {ts : List Tok} {a : SemAct} (ha : ActText ts a) {rest : List Tok} {w : Str}
    (h : Sp X (ts ++ rest) w) : ∃ u, codeDecl w = .ok a u ∧ Sp X rest u ∧ u.length < w.length := by
  unfold codeDecl
  cases ha with
  | code r c =>
    obtain ⟨w1, e1, h1, l1⟩ := sym_char h
    obtain ⟨w2, e2, h2, l2⟩ := tws0_at h1
    obtain ⟨w3, e3, h3, l3⟩ := iri_tok h2
    obtain ⟨w4, e4, h4, l4⟩ := tws0_at h3
    obtain ⟨w5, e5, h5, l5⟩ := code_tok h4
    obtain ⟨w6, e6, h6, l6⟩ := tws0_at h5
    refine ⟨w6, ?_, h6, by omega⟩
    rw [bind_ok e1, bind_ok e2, bind_ok (cut_ok e3), bind_ok e4, bind_ok (cut_ok (alt_left e5)), bind_ok e6]
    rfl
  | none r =>
    obtain ⟨w1, e1, h1, l1⟩ := sym_char h
    obtain ⟨w2, e2, h2, l2⟩ := tws0_at h1
    obtain ⟨w3, e3, h3, l3⟩ := iri_tok h2
    obtain ⟨w4, e4, h4, l4⟩ := tws0_at h3
    obtain ⟨w5, e5, h5, l5⟩ := sym_char h4
    obtain ⟨w6, e6, h6, l6⟩ := tws0_at h5
    refine ⟨w6, ?_, h6, by omega⟩
    have e0 : code w4 = .err := bind_err (char_err (sp_off h4 (head_cons (p := fun t => ∀ c, heads t c → ¬ c = '{')
      fun c hc e => by subst e; revert hc; simp only [heads]; decide)))
    have e7 : alt code (do let _ ← char '%'; return none) w4 = .ok none w5 := by
      rw [alt_right e0, bind_ok e5]
      rfl
    rw [bind_ok e1, bind_ok e2, bind_ok (cut_ok e3), bind_ok e4, bind_ok (cut_ok e7), bind_ok e6]
    rfl

theorem semActs_tok {ts : List Tok} {as : List SemAct} (ha : Seq ActText ts as) {rest : List Tok} {w : Str}
    (h : Sp X (ts ++ rest) w) (ht : ∀ t ∈ rest.head?, ¬ heads t '%') :
    ∃ u, semActs w = .ok (listed as) u ∧ Sp X rest u ∧ u.length ≤ w.length := by
  obtain ⟨u, e, h1, l⟩ := many0_seq (Sp X) (G := fun _ => True) (fun _ _ _ _ ha _ h => codeDecl_tok ha h)
    (fun _ _ _ => trivial) (fun u hu => bind_err (char_err (sp_off hu fun t hh c hc e => ht t hh
      ((show c = '%' from e) ▸ hc)))) ha h
  refine ⟨u, ?_, h1, l⟩
  unfold semActs
  rw [bind_ok e, nonEmpty_listed]
  rfl

/-- Annotations and then actions. -/
theorem trailer_tok {at' ct : List Tok} {as : List Annot} {cs : List SemAct} (ha : Seq AnnText at' as)
    (hc : Seq ActText ct cs) {rest : List Tok} {w : Str} (h : At X (at' ++ (ct ++ rest)) w)
    (ht : ∀ t ∈ rest.head?, ¬ heads t '/' ∧ ¬ heads t '%') :
    ∃ u v x, many0 (annotation X) w = .ok as u ∧ tws0 u = .ok () v ∧ semActs v = .ok (listed cs) x ∧ Sp X rest x ∧
      x.length ≤ w.length := by
  obtain ⟨u, e1, h1, l1⟩ := annotations_tok ha h (by
    cases hc with
    | nil => exact fun t hh => (ht t hh).1
    | cons hx hs => cases hx <;> exact head_cons (p := fun t => ¬ heads t '/') (by simp only [heads]; decide))
  obtain ⟨v, e2, h2, l2⟩ := tws0_at h1
  obtain ⟨x, e3, h3, l3⟩ := semActs_tok hc h2 fun t hh => (ht t hh).2
  exact ⟨u, v, x, e1, e2, e3, h3, by omega⟩

/-! ## What may follow -/

/-- What may follow a shape expression. -/
def Tail (inl : Bool) : Tok → Prop
  | .sym s => s = [')'] ∨
      (inl = true ∧ s ∈ ([[';'], ['|'], ['}'], ['+'], ['*'], ['?'], ['/', '/'], ['%']] : List Str))
  | .card .. => inl = true
  | .name _ => True
  | .bnode _ => True
  | .kw k => k ∈ ["AND", "OR", "BASE", "PREFIX", "IMPORT", "START", "ABSTRACT"]
  | _ => False

theorem tail_notKw {inl : Bool} {t : Tok} (h : Tail inl t) {K : String}
    (hK : K ∉ ["AND", "OR", "BASE", "PREFIX", "IMPORT", "START", "ABSTRACT"]) : NotKw K t := by
  cases t with
  | kw k => exact kw_notKw (by rintro rfl; exact hK h)
  | sym s => exact ⟨by simp, by simp, by simp⟩
  | card m n => exact ⟨by simp, by simp, by simp⟩
  | name n => exact ⟨by simp, by simp, by simp⟩
  | bnode n => exact ⟨by simp, by simp, by simp⟩
  | _ => exact h.elim

theorem tail_noStr {inl : Bool} {t : Tok} (h : Tail inl t) : NoStr t := by
  refine ⟨?_, fun K hK => tail_notKw h (by revert K; decide)⟩
  rintro f rfl
  exact h

theorem tail_noFacet {inl : Bool} {t : Tok} (h : Tail inl t) : NoFacet t :=
  ⟨tail_noStr h, fun K hK => tail_notKw h (by revert K; decide)⟩

theorem tail_noNonLit {inl : Bool} {t : Tok} (h : Tail inl t) : NoNonLit t :=
  ⟨fun K hK => tail_notKw h (by revert K; decide), tail_noStr h⟩

theorem tail_heads {inl : Bool} {t : Tok} (h : Tail inl t) : ¬ heads t '&' ∧ ¬ heads t '@' := by
  cases t with
  | kw k => constructor <;> (simp only [heads]; decide)
  | sym s =>
    simp only [heads]
    rcases h with rfl | ⟨-, h⟩
    · decide
    · revert s; decide
  | card m n => constructor <;> (simp only [heads]; decide)
  | name n => cases n <;> constructor <;> (simp only [heads]; decide)
  | bnode n => constructor <;> (simp only [heads]; decide)
  | _ => exact h.elim

theorem tail_brace {inl : Bool} {t : Tok} (h : Tail inl t) : ¬ heads t '{' ∨ ∃ m n, t = .card m n := by
  cases t with
  | kw k => exact .inl (by simp only [heads]; decide)
  | sym s =>
    left
    simp only [heads]
    rcases h with rfl | ⟨-, h⟩
    · decide
    · revert s; decide
  | card m n => exact .inr ⟨m, n, rfl⟩
  | name n => exact .inl (by cases n <;> (simp only [heads]; decide))
  | bnode n => exact .inl (by simp only [heads]; decide)
  | _ => exact h.elim

theorem tail_trailer {t : Tok} (h : Tail false t) : ¬ heads t '/' ∧ ¬ heads t '%' := by
  cases t with
  | kw k => constructor <;> (simp only [heads]; decide)
  | sym s =>
    rcases h with rfl | ⟨h, -⟩
    · simp only [heads]; decide
    · cases h
  | card m n => cases h
  | name n => cases n <;> constructor <;> (simp only [heads]; decide)
  | bnode n => constructor <;> (simp only [heads]; decide)
  | _ => exact h.elim

/-- What may follow a whole shape expression. -/
def Stop (inl : Bool) (t : Tok) : Prop := Tail inl t ∧ NotKw "AND" t ∧ NotKw "OR" t

/-- What may follow a triple expression. -/
def Close (t : Tok) : Prop := t = .sym [')'] ∨ t = .sym ['}']

/-- The inner parsers read what is written inside brackets. -/
structure Good (X : Ext) (I : Inner) (R : Rec) (L : Nat) : Prop where
  shape : ∀ {ts e rest w}, I.shape ts e → ts.length ≤ L → (∀ t ∈ rest.head?, Stop false t) → Sp X (ts ++ rest) w →
    ∃ u, R.shape w = .ok e u ∧ Sp X rest u ∧ u.length < w.length
  inline : ∀ {ts e rest w}, I.inline ts e → ts.length ≤ L → (∀ t ∈ rest.head?, Stop true t) → Sp X (ts ++ rest) w →
    ∃ u, R.inline w = .ok e u ∧ Sp X rest u ∧ u.length < w.length
  triple : ∀ {ts e rest w}, I.triple ts e → ts.length ≤ L → (∀ t ∈ rest.head?, Close t) → Sp X (ts ++ rest) w →
    ∃ u, R.triple w = .ok e u ∧ At X rest u ∧ u.length < w.length
  none : ∀ {c w}, (c = '}' ∨ c = '+' ∨ c = '-' ∨ digit c) → R.triple (c :: w) = .err

variable {I : Inner} {R : Rec} {L : Nat}

/-! ## Shapes -/

theorem maybeTriple_tok (hR : Good X I R L) {ts : List Tok} {te : Option TE} (hb : Body I ts te) (hl : ts.length ≤ L)
    {rest : List Tok} {w : Str} (h : Sp X (ts ++ .sym ['}'] :: rest) w) :
    ∃ u, maybeTriple R w = .ok te u ∧ At X (.sym ['}'] :: rest) u ∧ u.length ≤ w.length := by
  unfold maybeTriple
  cases hb with
  | none =>
    obtain ⟨v, u, rfl, ht, -⟩ := sp_tok h
    cases ht
    have e : R.triple (['}'] ++ u) = .err := hR.none (.inl rfl)
    refine ⟨['}'] ++ u, ?_, Sp.at' h, Nat.le.refl⟩
    rw [alt_right (bind_err e), bind_ok (tws0_sp h)]
    rfl
  | some ht =>
    obtain ⟨u, e, h1, l⟩ := hR.triple ht hl (head_cons (p := Close) (.inr rfl)) h
    exact ⟨u, alt_left (by rw [bind_ok e]; rfl), h1, by omega⟩

theorem shapeDef_tok (hR : Good X I R L) {inl : Bool} {ts : List Tok} {e : SE} (hs : ShapeText I inl ts e)
    (hl : ts.length ≤ L + 1) {rest : List Tok} (ht : inl = false → ∀ t ∈ rest.head?, ¬ heads t '/' ∧ ¬ heads t '%')
    {w : Str} (h : Sp X (ts ++ rest) w) : ∃ u, shapeDef X inl R w = .ok e u ∧ Sp X rest u ∧ u.length < w.length := by
  unfold shapeDef
  cases hs with
  | @inner qt bt qs te hq hb hp =>
    have e0 : qt ++ Tok.sym ['{'] :: (bt ++ [Tok.sym ['}']]) ++ rest = qt ++ .sym ['{'] :: (bt ++ .sym ['}'] :: rest) := by
      simp
    rw [e0] at h
    simp only [List.length_append, List.length_cons, List.length_nil] at hl
    obtain ⟨w1, e1, h1, l1⟩ := qualifiers_tok hq (Sp.at' h)
    obtain ⟨w2, e2, h2, l2⟩ := sym_tws h1
    obtain ⟨w3, e3, h3, l3⟩ := maybeTriple_tok hR hb (by omega) h2
    obtain ⟨w4, e4, h4, l4⟩ := sym_tws h3
    refine ⟨w4, ?_, h4, by omega⟩
    rw [bind_ok e1, bind_ok e2, bind_ok e3, bind_ok e4, if_pos rfl, extendsOf_toQual, hp, closedOf_toQual,
      extraOf_toQual, nonEmpty_listed]
    rfl
  | @outer qt bt at' ct qs te as cs hq hb ha hc =>
    have e0 : qt ++ Tok.sym ['{'] :: (bt ++ Tok.sym ['}'] :: (at' ++ ct)) ++ rest =
        qt ++ .sym ['{'] :: (bt ++ .sym ['}'] :: (at' ++ (ct ++ rest))) := by
      simp
    rw [e0] at h
    simp only [List.length_append, List.length_cons] at hl
    obtain ⟨w1, e1, h1, l1⟩ := qualifiers_tok hq (Sp.at' h)
    obtain ⟨w2, e2, h2, l2⟩ := sym_tws h1
    obtain ⟨w3, e3, h3, l3⟩ := maybeTriple_tok hR hb (by omega) h2
    obtain ⟨w4, e4, h4, l4⟩ := sym_tws h3
    obtain ⟨w5, w6, w7, e5, e6, e7, h7, l7⟩ := trailer_tok ha hc (Sp.at' h4) (ht rfl)
    refine ⟨w7, ?_, h7, by omega⟩
    rw [bind_ok e1, bind_ok e2, bind_ok e3, bind_ok e4, if_neg (by simp), bind_ok e5, bind_ok e6, bind_ok e7,
      extendsOf_toQual, closedOf_toQual, extraOf_toQual, nonEmpty_listed, nonEmpty_listed, nonEmpty_listed]
    rfl

/-- Words that no shape begins with. -/
def NoShape (t : Tok) : Prop :=
  NotKws ["EXTENDS", "CLOSED", "EXTRA"] t ∧ ¬ heads t '&' ∧ ¬ heads t '@' ∧ (¬ heads t '{' ∨ ∃ m n, t = .card m n)

theorem tail_noShape {inl : Bool} {t : Tok} (h : Tail inl t) : NoShape t :=
  ⟨fun K hK => tail_notKw h (by revert K; decide), (tail_heads h).1, (tail_heads h).2, tail_brace h⟩

theorem noQual_tok {ts : List Tok} {w : Str} (h : Sp X ts w)
    (ht : ∀ t ∈ ts.head?, NotKws ["EXTENDS", "CLOSED", "EXTRA"] t ∧ ¬ heads t '&') : many0 qualifier w = .ok [] w :=
  many0_steps .nil (qualifier_err (Sp.at' h) ht)

theorem shapeOrRef_err (hR : Good X I R L) {inl : Bool} {ts : List Tok} {w : Str} (h : Sp X ts w)
    (ht : ∀ t ∈ ts.head?, NoShape t) : shapeOrRef X inl R w = .err := by
  unfold shapeOrRef
  rw [alt_right, bind_err (shapeRef_err h fun t hh => (ht t hh).2.2.1)]
  unfold shapeDef
  rw [bind_ok (noQual_tok h fun t hh => ⟨(ht t hh).1, (ht t hh).2.1⟩)]
  by_cases hb : ∀ t ∈ ts.head?, ¬ heads t '{'
  · exact bind_err (sym_tws_err (Sp.at' h) hb)
  · push Not at hb
    obtain ⟨t, hh, hb⟩ := hb
    obtain ⟨m, n, rfl⟩ := (ht t hh).2.2.2.resolve_left (fun h => h hb)
    cases ts with
    | nil => simp at hh
    | cons t ts =>
      have : t = .card m n := by simpa using hh
      subst this
      obtain ⟨v, u, rfl, htx, -⟩ := sp_tok h
      have key : ∀ {m : Int} {w r : Str}, IntText m w → v = '{' :: (w ++ r) →
          (tokenTws ['{'] >>= fun _ => (do
            let te ← maybeTriple R
            tokenTws ['}']
            if inl then
              if (extendsOf []).isEmpty then return .shape (closedOf []) (nonEmpty (extraOf [])) te none none none
              else crash
            else
              let anns ← many0 (annotation X)
              tws0
              let acts ← semActs
              return .shape (closedOf []) (nonEmpty (extraOf [])) te acts (nonEmpty anns) (nonEmpty (extendsOf [])) : P SE))
            (v ++ u) = .err := by
        rintro m w r hi rfl
        obtain ⟨c, x, rfl, hc⟩ := int_head hi
        have ng : NoGap (c :: (x ++ r ++ u)) := by
          rcases hc with rfl | rfl | hc
          · exact noGap_cons (by decide) (by decide) (by decide)
          · exact noGap_cons (by decide) (by decide) (by decide)
          · have := digit_noGap (.inr (.inr hc))
            exact noGap_cons this.1 this.2.1 this.2.2
        have e1 : tokenTws ['{'] ('{' :: ((c :: x) ++ r) ++ u) = .ok () (c :: (x ++ r ++ u)) := by
          have e : '{' :: ((c :: x) ++ r) ++ u = [] ++ '{' :: ([] ++ (c :: (x ++ r ++ u))) := by simp
          rw [e]
          exact tokenTws1_ok (b := false) (b' := false) .nil .nil ng (noGap_cons (by decide) (by decide) (by decide))
        have e2 : R.triple (c :: (x ++ r ++ u)) = .err := hR.none (.inr hc)
        have e3 : tws0 (c :: (x ++ r ++ u)) = .ok () (c :: (x ++ r ++ u)) := tws0_ok (g := []) (b := false) .nil ng
        have e4 : maybeTriple R (c :: (x ++ r ++ u)) = .ok none (c :: (x ++ r ++ u)) := by
          unfold maybeTriple
          rw [alt_right (bind_err e2), bind_ok e3]
          rfl
        have e5 : tokenTws ['}'] (c :: (x ++ r ++ u)) = .err := by
          unfold tokenTws
          rw [bind_ok e3]
          refine bind_err (tag_err (Off.cons ?_))
          rintro rfl
          revert hc
          decide
        rw [bind_ok e1, bind_ok e4]
        exact bind_err e5
      cases htx with
      | card hc =>
        cases hc with
        | exact hn => exact key hn.1 rfl
        | atLeast hm _ _ => exact key hm.1 rfl
        | star hm _ _ _ => exact key hm.1 rfl
        | range hm _ _ _ => exact key hm.1 rfl

theorem shapeOrRef_tok (hR : Good X I R L) {inl : Bool} {ts : List Tok} {e : SE} (hs : ShapeOrRef I inl ts e)
    (hl : ts.length ≤ L + 1) {rest : List Tok} (ht : inl = false → ∀ t ∈ rest.head?, ¬ heads t '/' ∧ ¬ heads t '%')
    {w : Str} (h : Sp X (ts ++ rest) w) : ∃ u, shapeOrRef X inl R w = .ok e u ∧ At X rest u ∧ u.length < w.length := by
  cases hs with
  | shape hs =>
    obtain ⟨u, e1, h1, l⟩ := shapeDef_tok hR hs hl ht h
    exact ⟨u, alt_left e1, Sp.at' h1, l⟩
  | ref l =>
    obtain ⟨u, e1, h1, l⟩ := shapeRef_tok h
    refine ⟨u, ?_, h1, l⟩
    unfold shapeOrRef
    rw [alt_right, bind_ok e1]
    · rfl
    · unfold shapeDef
      rw [bind_ok (noQual_tok h (head_cons (p := fun t => NotKws ["EXTENDS", "CLOSED", "EXTRA"] t ∧ ¬ heads t '&')
        ⟨fun K _ => ⟨by simp, by simp, by simp⟩, by simp only [heads]; decide⟩))]
      exact bind_err (sym_tws_err (Sp.at' h) (head_cons (p := fun t => ¬ heads t '{') (by simp only [heads]; decide)))

/-- The words that a shape begins with. -/
def ShapeStart (t : Tok) : Prop := t ∈ qualWords ∨ t = .sym ['{'] ∨ ∃ l, t = .at l

theorem shapeText_head {inl : Bool} {ts : List Tok} {e : SE} (h : ShapeText I inl ts e) :
    ∃ t us, ts = t :: us ∧ ShapeStart t := by
  have : ∀ {qt us : List Tok} {qs : List Qualifier}, Seq QualText qt qs →
      ∃ t vs, qt ++ Tok.sym ['{'] :: us = t :: vs ∧ ShapeStart t := by
    intro qt us qs hq
    cases hq with
    | nil => exact ⟨_, _, rfl, .inr (.inl rfl)⟩
    | cons hx hs =>
      obtain ⟨t, vs, rfl, ht⟩ := qual_head hx
      exact ⟨t, _, rfl, .inl ht⟩
  cases h with
  | inner hq _ _ => exact this hq
  | outer hq _ _ _ => exact this hq

theorem shapeOrRef_head {inl : Bool} {ts : List Tok} {e : SE} (h : ShapeOrRef I inl ts e) :
    ∃ t us, ts = t :: us ∧ ShapeStart t := by
  cases h with
  | shape h => exact shapeText_head h
  | ref l => exact ⟨_, _, rfl, .inr (.inr ⟨l, rfl⟩)⟩

theorem shapeStart_notKw {t : Tok} (h : ShapeStart t) {K : String} (hK : K ∉ ["EXTENDS", "CLOSED", "EXTRA"]) :
    NotKw K t := by
  rcases h with h | rfl | ⟨l, rfl⟩
  · simp only [qualWords, List.mem_cons, List.not_mem_nil, or_false] at h
    rcases h with rfl | rfl | rfl | rfl
    · exact cap_notKw (by rintro rfl; exact hK (by decide))
    · exact cap_notKw (by rintro rfl; exact hK (by decide))
    · exact kw_notKw (by rintro rfl; exact hK (by decide))
    · exact ⟨by simp, by simp, by simp⟩
  · exact ⟨by simp, by simp, by simp⟩
  · exact ⟨by simp, by simp, by simp⟩

theorem shapeStart_plain {t : Tok} (h : ShapeStart t) :
    (∀ n, t ≠ .name n) ∧ (∀ p, t ≠ .ns p) ∧ (∀ f, t ≠ .regex f) ∧ ¬ heads t '[' := by
  rcases h with h | rfl | ⟨l, rfl⟩
  · simp only [qualWords, List.mem_cons, List.not_mem_nil, or_false] at h
    rcases h with rfl | rfl | rfl | rfl <;>
      exact ⟨by simp, by simp, by simp, by simp only [heads]; decide⟩
  · exact ⟨by simp, by simp, by simp, by simp only [heads]; decide⟩
  · exact ⟨by simp, by simp, by simp, by simp only [heads]; decide⟩

theorem shapeStart_noStr {t : Tok} (h : ShapeStart t) : NoStr t :=
  ⟨(shapeStart_plain h).2.2.1, fun K hK => shapeStart_notKw h (by revert K; decide)⟩

theorem shapeStart_noNonLit {t : Tok} (h : ShapeStart t) : NoNonLit t :=
  ⟨fun K hK => shapeStart_notKw h (by revert K; decide), shapeStart_noStr h⟩

theorem shapeStart_noLitNC {t : Tok} (h : ShapeStart t) : NoLitNC t :=
  ⟨shapeStart_notKw h (by decide), ⟨(shapeStart_plain h).1, (shapeStart_plain h).2.1⟩, (shapeStart_plain h).2.2.2,
    fun K hK => shapeStart_notKw h (by revert K; decide)⟩

theorem litNC_head {ts : List Tok} {c : NC} (h : LitNC ts c) :
    ∃ t us, ts = t :: us ∧ NoNonLit t ∧ NotKw "NOT" t := by
  have no : ∀ {t : Tok}, (∀ K ∈ ["IRI", "BNODE", "NONLITERAL", "LENGTH", "MINLENGTH", "MAXLENGTH", "NOT"], NotKw K t) →
      (∀ f, t ≠ .regex f) → NoNonLit t ∧ NotKw "NOT" t := by
    intro t h1 h2
    exact ⟨⟨fun K hK => h1 K (by revert K; decide), h2, fun K hK => h1 K (by revert K; decide)⟩, h1 _ (by decide)⟩
  cases h with
  | literal h => exact ⟨_, _, rfl, no (fun K hK => kw_notKw (by rintro rfl; revert hK; decide)) (by simp)⟩
  | datatype h => exact ⟨_, _, rfl, no (fun K hK => ⟨by simp, by simp, by simp⟩) (by simp)⟩
  | values hv h => exact ⟨_, _, rfl, no (fun K hK => ⟨by simp, by simp, by simp⟩) (by simp)⟩
  | facets h =>
    cases h with
    | cons hx hs =>
      obtain ⟨k, vs, rfl, hk⟩ := numFacet_head hx
      have : ∀ K ∈ ["IRI", "BNODE", "NONLITERAL", "LENGTH", "MINLENGTH", "MAXLENGTH", "NOT"], K ∉ numWords := by decide
      refine ⟨_, _, rfl, no (fun K hK => cap_notKw ?_) (by simp)⟩
      rintro rfl
      exact this _ hK hk

theorem kindNC_head {ts : List Tok} {c : NC} (h : KindNC ts c) :
    ∃ k us, ts = .kw k :: us ∧ k ∈ ["IRI", "BNODE", "NONLITERAL"] := by
  cases h with
  | mk hk hf =>
    obtain ⟨k, rfl, hk'⟩ := kindWord_kw hk
    exact ⟨k, _, rfl, hk'⟩

/-! ## Shape expressions -/

theorem shapeAtom_tok (hR : Good X I R L) {inl : Bool} {ts : List Tok} {e : SE} (ha : Atom I inl ts e)
    (hl : ts.length ≤ L + 1) {rest : List Tok} (ht : ∀ t ∈ rest.head?, Tail inl t) {w : Str} (h : Sp X (ts ++ rest) w) :
    ∃ u, shapeAtom X inl R w = .ok e u ∧ At X rest u ∧ u.length < w.length := by
  have after : ∀ {inl : Bool} {I : Inner} {c : NC} {ts : List Tok} {e : SE}, ShapeOrRef I inl ts e →
      andAfter inl c (some e) = .and [.nc c, e] := by
    intro inl I c ts e h
    cases h with
    | ref l => rfl
    | shape h => cases h <;> rfl
  have tr : inl = false → ∀ t ∈ rest.head?, ¬ heads t '/' ∧ ¬ heads t '%' := by
    rintro rfl t hh
    exact tail_trailer (ht t hh)
  unfold shapeAtom
  cases ha with
  | kind hc =>
    obtain ⟨w1, e1, h1, l1⟩ := nonLit_kind hc (Sp.at' h) fun t hh => tail_noStr (ht t hh)
    obtain ⟨w2, e2, h2, l2⟩ := tws0_at h1
    refine ⟨w2, alt_left ?_, Sp.at' h2, by omega⟩
    rw [bind_ok e1, bind_ok e2, bind_ok (opt_none (shapeOrRef_err hR h2 fun t hh => tail_noShape (ht t hh)))]
    rfl
  | @kindShape ts us c e hc he =>
    rw [List.append_assoc] at h
    rw [List.length_append] at hl
    obtain ⟨w1, e1, h1, l1⟩ := nonLit_kind hc (Sp.at' h) (by
      obtain ⟨t, vs, rfl, hh⟩ := shapeOrRef_head he
      exact head_cons (shapeStart_noStr hh))
    obtain ⟨w2, e2, h2, l2⟩ := tws0_at h1
    obtain ⟨w3, e3, h3, l3⟩ := shapeOrRef_tok hR he (by omega) tr h2
    refine ⟨w3, alt_left ?_, h3, by omega⟩
    rw [bind_ok e1, bind_ok e2, bind_ok (opt_some e3), after he]
    rfl
  | facet hc =>
    obtain ⟨w1, e1, h1, l1⟩ := nonLit_facet hc h fun t hh => tail_noStr (ht t hh)
    obtain ⟨w2, e2, h2, l2⟩ := tws0_at h1
    refine ⟨w2, alt_left ?_, Sp.at' h2, by omega⟩
    rw [bind_ok e1, bind_ok e2, bind_ok (opt_none (shapeOrRef_err hR h2 fun t hh => tail_noShape (ht t hh)))]
    rfl
  | @facetShape ts us c e hc he =>
    rw [List.append_assoc] at h
    rw [List.length_append] at hl
    obtain ⟨w1, e1, h1, l1⟩ := nonLit_facet hc h (by
      obtain ⟨t, vs, rfl, hh⟩ := shapeOrRef_head he
      exact head_cons (shapeStart_noStr hh))
    obtain ⟨w2, e2, h2, l2⟩ := tws0_at h1
    obtain ⟨w3, e3, h3, l3⟩ := shapeOrRef_tok hR he (by omega) tr h2
    refine ⟨w3, alt_left ?_, h3, by omega⟩
    rw [bind_ok e1, bind_ok e2, bind_ok (opt_some e3), after he]
    rfl
  | lit hc =>
    have e0 : nonLit w = .err := nonLit_err (Sp.at' h) (by
      obtain ⟨t, us, rfl, hh, -⟩ := litNC_head hc
      exact head_cons hh)
    obtain ⟨w1, e1, h1, l1⟩ := lit_tok hc h fun t hh => tail_noFacet (ht t hh)
    refine ⟨w1, ?_, h1, l1⟩
    rw [alt_right (bind_err e0)]
    refine alt_left ?_
    rw [bind_ok e1]
    rfl
  | shape he =>
    obtain ⟨t, us, hts, hh⟩ := shapeOrRef_head he
    obtain ⟨w1, e1, h1, l1⟩ := shapeOrRef_tok hR he hl tr h
    subst hts
    have e0 : nonLit w = .err := nonLit_err (Sp.at' h) (head_cons (shapeStart_noNonLit hh))
    have e2 : lit X w = .err := lit_err h (head_cons (shapeStart_noLitNC hh))
    refine ⟨w1, ?_, h1, l1⟩
    rw [alt_right (bind_err e0), alt_right (bind_err e2)]
    refine alt_left ?_
    rw [bind_ok e1, bind_ok (opt_none (nonLit_err h1 fun t hh => tail_noNonLit (ht t hh)))]
    rfl
  | @shapeKind ts us c e he hc =>
    rw [List.append_assoc] at h
    rw [List.length_append] at hl
    obtain ⟨t, vs, hts, hh⟩ := shapeOrRef_head he
    obtain ⟨w1, e1, h1, l1⟩ := shapeOrRef_tok hR he (by omega) (rest := us ++ rest) (fun _ => by
      obtain ⟨k, us', rfl, hk⟩ := kindNC_head hc
      exact head_cons (p := fun t => ¬ heads t '/' ∧ ¬ heads t '%') (by simp only [heads]; decide)) h
    subst hts
    have e0 : nonLit w = .err := nonLit_err (Sp.at' h) (head_cons (shapeStart_noNonLit hh))
    have e2 : lit X w = .err := lit_err h (head_cons (shapeStart_noLitNC hh))
    obtain ⟨w3, e3, h3, l3⟩ := nonLit_kind hc h1 fun t hh => tail_noStr (ht t hh)
    refine ⟨w3, ?_, h3, by omega⟩
    rw [alt_right (bind_err e0), alt_right (bind_err e2)]
    refine alt_left ?_
    rw [bind_ok e1, bind_ok (opt_some e3)]
    rfl
  | @brackets ts e he =>
    have e' : Tok.sym ['('] :: (ts ++ [Tok.sym [')']]) ++ rest = .sym ['('] :: (ts ++ .sym [')'] :: rest) := by simp
    rw [e'] at h
    simp only [List.length_cons, List.length_append] at hl
    have e0 : nonLit w = .err := nonLit_err (Sp.at' h) (head_cons
      ⟨fun K _ => ⟨by simp, by simp, by simp⟩, by simp, fun K _ => ⟨by simp, by simp, by simp⟩⟩)
    have e2 : lit X w = .err := lit_err h (head_cons ⟨⟨by simp, by simp, by simp⟩, by simp,
      by simp only [heads]; decide, fun K _ => ⟨by simp, by simp, by simp⟩⟩)
    have e3 : shapeOrRef X inl R w = .err := shapeOrRef_err hR h (head_cons ⟨fun K _ => ⟨by simp, by simp, by simp⟩,
      by simp only [heads]; decide, by simp only [heads]; decide, .inl (by simp only [heads]; decide)⟩)
    obtain ⟨w1, e4, h1, l1⟩ := sym_char h
    obtain ⟨w2, e5, h2, l2⟩ := tws0_at h1
    obtain ⟨w3, e6, h3, l3⟩ := hR.shape he (by omega) (head_cons (p := Stop false) (t := .sym [')'])
      ⟨Or.inl rfl, ⟨by simp, by simp, by simp⟩, ⟨by simp, by simp, by simp⟩⟩) h2
    obtain ⟨w4, e7, h4, l4⟩ := sym_char h3
    refine ⟨w4, ?_, h4, by omega⟩
    rw [alt_right (bind_err e0), alt_right (bind_err e2), alt_right (bind_err e3)]
    refine alt_left ?_
    rw [bind_ok e4, bind_ok e5, bind_ok e6, bind_ok (tws0_sp h3), bind_ok e7]
    rfl
  | any =>
    have e0 : nonLit w = .err := nonLit_err (Sp.at' h) (head_cons
      ⟨fun K _ => ⟨by simp, by simp, by simp⟩, by simp, fun K _ => ⟨by simp, by simp, by simp⟩⟩)
    have e2 : lit X w = .err := lit_err h (head_cons ⟨⟨by simp, by simp, by simp⟩, by simp,
      by simp only [heads]; decide, fun K _ => ⟨by simp, by simp, by simp⟩⟩)
    have e3 : shapeOrRef X inl R w = .err := shapeOrRef_err hR h (head_cons ⟨fun K _ => ⟨by simp, by simp, by simp⟩,
      by simp only [heads]; decide, by simp only [heads]; decide, .inl (by simp only [heads]; decide)⟩)
    have e4 : char '(' w = .err := char_err (sp_off h (head_cons (p := fun t => ∀ c, heads t c → ¬ c = '(')
      fun c hc e => by subst e; revert hc; simp only [heads]; decide))
    obtain ⟨w1, e5, h1, l1⟩ := sym_char h
    refine ⟨w1, ?_, h1, l1⟩
    rw [alt_right (bind_err e0), alt_right (bind_err e2), alt_right (bind_err e3), alt_right (bind_err e4),
      bind_ok (tws0_sp h), bind_ok e5]
    rfl

theorem atom_head {inl : Bool} {ts : List Tok} {e : SE} (h : Atom I inl ts e) :
    ∃ t us, ts = t :: us ∧ NotKw "NOT" t := by
  have kd : ∀ {ts : List Tok} {c : NC}, KindNC ts c → ∃ t us, ts = t :: us ∧ NotKw "NOT" t := by
    intro ts c h
    obtain ⟨k, us, rfl, hk⟩ := kindNC_head h
    exact ⟨_, _, rfl, kw_notKw (by rintro rfl; revert hk; decide)⟩
  have fc : ∀ {ts : List Tok} {f : Facet}, StrFacet ts f → ∃ t us, ts = t :: us ∧ NotKw "NOT" t := by
    intro ts c h
    obtain ⟨t, us, rfl, hh⟩ := strFacet_head h
    exact ⟨_, _, rfl, strFacet_notKw hh (by decide)⟩
  cases h with
  | kind h => exact kd h
  | kindShape h he =>
    obtain ⟨t, us, rfl, hh⟩ := kd h
    exact ⟨t, _, rfl, hh⟩
  | facet h => exact fc h
  | facetShape h he =>
    obtain ⟨t, us, rfl, hh⟩ := fc h
    exact ⟨t, _, rfl, hh⟩
  | lit h =>
    obtain ⟨t, us, rfl, -, hh⟩ := litNC_head h
    exact ⟨t, _, rfl, hh⟩
  | shape he =>
    obtain ⟨t, us, rfl, hh⟩ := shapeOrRef_head he
    exact ⟨t, _, rfl, shapeStart_notKw hh (by decide)⟩
  | shapeKind he h =>
    obtain ⟨t, us, rfl, hh⟩ := shapeOrRef_head he
    exact ⟨t, _, rfl, shapeStart_notKw hh (by decide)⟩
  | brackets h => exact ⟨_, _, rfl, ⟨by simp, by simp, by simp⟩⟩
  | any => exact ⟨_, _, rfl, ⟨by simp, by simp, by simp⟩⟩

theorem shapeNot_tok (hR : Good X I R L) {inl : Bool} {ts : List Tok} {e : SE} (ha : Negation I inl ts e)
    (hl : ts.length ≤ L + 1) {rest : List Tok} (ht : ∀ t ∈ rest.head?, Tail inl t) {w : Str} (h : Sp X (ts ++ rest) w) :
    ∃ u, shapeNot X inl R w = .ok e u ∧ At X rest u ∧ u.length < w.length := by
  unfold shapeNot
  cases ha with
  | plain ha =>
    obtain ⟨w1, e1, h1, l1⟩ := shapeAtom_tok hR ha hl ht h
    obtain ⟨t, us, rfl, hh⟩ := atom_head ha
    refine ⟨w1, ?_, h1, l1⟩
    rw [bind_ok (opt_none (kw_tws_err (K := "NOT") (by decide) (Sp.at' h) (head_cons hh))), bind_ok e1]
    rfl
  | not ha =>
    simp only [List.length_cons] at hl
    obtain ⟨w0, e0, h0, l0⟩ := kw_tws (Sp.at' h)
    obtain ⟨w1, e1, h1, l1⟩ := shapeAtom_tok hR ha (by omega) ht h0
    refine ⟨w1, ?_, h1, by omega⟩
    rw [bind_ok (opt_some e0), bind_ok e1]
    rfl

theorem mkAnd_conj (es : List SE) : mkAnd es = conj es := by
  cases es with
  | nil => rfl
  | cons a as => cases as <;> rfl

theorem mkOr_disj (es : List SE) : mkOr es = disj es := by
  cases es with
  | nil => rfl
  | cons a as => cases as <;> rfl

theorem chain_bound {R : List Tok → α → Prop} {s : Tok} {n : Nat} {ts : List Tok} {as : List α}
    (h : Chain s R ts as) (hl : ts.length ≤ n) : Chain s (fun ts a => R ts a ∧ ts.length ≤ n) ts as := by
  induction h with
  | one h => exact .one ⟨h, hl⟩
  | more h hs ih =>
    simp only [List.length_append, List.length_cons] at hl
    exact .more ⟨h, by omega⟩ (ih (by omega))

theorem shapeAnd_tok (hR : Good X I R L) {inl : Bool} {ts : List Tok} {e : SE} (ha : Conj I inl ts e)
    (hl : ts.length ≤ L + 1) {rest : List Tok} (ht : ∀ t ∈ rest.head?, Tail inl t ∧ NotKw "AND" t) {w : Str}
    (h : Sp X (ts ++ rest) w) : ∃ u, shapeAnd X inl R w = .ok e u ∧ Sp X rest u ∧ u.length < w.length := by
  cases ha with
  | mk hc =>
    obtain ⟨u, e1, h1, l1⟩ := many1Sep_chain (s := .kw "AND") (G := fun us => ∀ t ∈ us.head?, Tail inl t)
      (p := shapeNot X inl R) (sep := tokenTwsNoCase "AND".toList)
      (fun ts a rest w hr hg h => shapeNot_tok hR hr.1 hr.2 hg h)
      (fun rest w h => kw_tws (Sp.at' h)) (fin := rest)
      (fun u hu => kw_tws_err (by decide) (Sp.at' hu) fun t hh => (ht t hh).2) (fun t hh => (ht t hh).1)
      (fun us => head_cons (p := Tail inl) (by show "AND" ∈ _; decide)) (chain_bound hc hl) (Sp.at' h)
    refine ⟨u, ?_, h1, l1⟩
    unfold shapeAnd
    rw [bind_ok e1, mkAnd_conj]
    rfl

theorem shapeOr_tok (hR : Good X I R L) {inl : Bool} {ts : List Tok} {e : SE} (ha : Disj I inl ts e)
    (hl : ts.length ≤ L + 1) {rest : List Tok} (ht : ∀ t ∈ rest.head?, Stop inl t) {w : Str}
    (h : Sp X (ts ++ rest) w) : ∃ u, shapeOr X inl R w = .ok e u ∧ Sp X rest u ∧ u.length < w.length := by
  cases ha with
  | mk hc =>
    obtain ⟨u, e1, h1, l1⟩ := many1Sep_chain (s := .kw "OR") (G := fun us => ∀ t ∈ us.head?, Tail inl t ∧ NotKw "AND" t)
      (p := shapeAnd X inl R) (sep := tokenTwsNoCase "OR".toList)
      (fun ts a rest w hr hg h => by
        obtain ⟨u, e, h1, l⟩ := shapeAnd_tok hR hr.1 hr.2 hg h
        exact ⟨u, e, Sp.at' h1, l⟩)
      (fun rest w h => kw_tws (Sp.at' h)) (fin := rest)
      (fun u hu => kw_tws_err (by decide) (Sp.at' hu) fun t hh => (ht t hh).2.2) (fun t hh => ⟨(ht t hh).1, (ht t hh).2.1⟩)
      (fun us => head_cons (p := fun t => Tail inl t ∧ NotKw "AND" t) ⟨by show "OR" ∈ _; decide, kw_notKw (by decide)⟩)
      (chain_bound hc hl) (Sp.at' h)
    refine ⟨u, ?_, h1, l1⟩
    unfold shapeOr
    rw [bind_ok e1, mkOr_disj]
    rfl

end Shexc
