import Verif.Shexc.LemGram3

/-! # Lemmas for `C107`: triple expressions and statements are read as they are written -/

namespace Shexc

open P Spec

variable {α : Type} {X : Ext} {I : Inner} {R : Rec} {L : Nat}

/-! ## Heads -/

theorem sp_char_err {c : Char} {ts : List Tok} {w : Str} (h : Sp X ts w) (ht : ∀ t ∈ ts.head?, ¬ heads t c) :
    char c w = .err :=
  char_err (sp_off h fun t hh d hd e => ht t hh ((show d = c from e) ▸ hd))

theorem predWord_heads {t : Tok} {r : IriRef} (h : PredWord t r) :
    ∀ c ∈ ['&', '$', '(', '!', '^'], ¬ heads t c := by
  cases h with
  | name r => cases r <;> (simp only [heads]; decide)
  | isA => simp only [heads]; decide

theorem flags_heads {ft : List Tok} {neg inv : Option Bool} (hf : Flags ft neg inv) {pt : Tok} {p : IriRef}
    (hp : PredWord pt p) (rest : List Tok) : ∀ t ∈ (ft ++ pt :: rest).head?, ∀ c ∈ ['&', '$', '('], ¬ heads t c := by
  cases hf with
  | none => exact head_cons (p := fun t => ∀ c ∈ ['&', '$', '('], ¬ heads t c) fun c hc => predWord_heads hp c (by
      revert c; decide)
  | neg => exact head_cons (p := fun t => ∀ c ∈ ['&', '$', '('], ¬ heads t c) (by simp only [heads]; decide)
  | inv => exact head_cons (p := fun t => ∀ c ∈ ['&', '$', '('], ¬ heads t c) (by simp only [heads]; decide)
  | negInv => exact head_cons (p := fun t => ∀ c ∈ ['&', '$', '('], ¬ heads t c) (by simp only [heads]; decide)
  | invNeg => exact head_cons (p := fun t => ∀ c ∈ ['&', '$', '('], ¬ heads t c) (by simp only [heads]; decide)

theorem trailer_head {at' ct : List Tok} {as : List Annot} {cs : List SemAct} (ha : Seq AnnText at' as)
    (hc : Seq ActText ct cs) {rest : List Tok} {p : Tok → Prop} (h1 : p (.sym ['/', '/'])) (h2 : p (.sym ['%']))
    (h3 : ∀ t ∈ rest.head?, p t) : ∀ t ∈ (at' ++ (ct ++ rest)).head?, p t := by
  cases ha with
  | nil =>
    cases hc with
    | nil => exact h3
    | cons hx hs => cases hx <;> exact head_cons h2
  | cons hx hs => cases hx; exact head_cons h1

theorem card_head {ct : List Tok} {mn mx : Option Int} (hc : CardWord ct mn mx) {rest : List Tok} {p : Tok → Prop}
    (h1 : ∀ s ∈ ([['+'], ['*'], ['?']] : List Str), p (.sym s)) (h2 : ∀ m n, p (.card m n))
    (h3 : ∀ t ∈ rest.head?, p t) : ∀ t ∈ (ct ++ rest).head?, p t := by
  cases hc with
  | none => exact h3
  | plus => exact head_cons (h1 _ (by decide))
  | star => exact head_cons (h1 _ (by decide))
  | opt => exact head_cons (h1 _ (by decide))
  | range m n => exact head_cons (h2 m n)

/-! ## Parts of a triple constraint -/

theorem id_tok {it : List Tok} {id : Option TLabel} (hi : Id it id) {rest : List Tok}
    (ht : ∀ t ∈ rest.head?, ¬ heads t '$') {w : Str} (h : Sp X (it ++ rest) w) :
    ∃ u v, opt (do let _ ← char '$'; tws0; tripleLabel) w = .ok id u ∧ tws0 u = .ok () v ∧ Sp X rest v ∧
      v.length ≤ w.length := by
  cases hi with
  | none => exact ⟨w, w, opt_none (bind_err (sp_char_err h ht)), tws0_sp h, h, Nat.le.refl⟩
  | some hl =>
    obtain ⟨w1, e1, h1, l1⟩ := sym_char h
    obtain ⟨w2, e2, h2, l2⟩ := tws0_at h1
    obtain ⟨w3, e3, h3, l3⟩ := tripleLabel_tok hl h2
    obtain ⟨w4, e4, h4, l4⟩ := tws0_at h3
    refine ⟨w3, w4, opt_some ?_, e4, h4, by omega⟩
    rw [bind_ok e1, bind_ok e2, e3]

theorem flags_tok {ft : List Tok} {neg inv : Option Bool} (hf : Flags ft neg inv) {pt : Tok} {p : IriRef}
    (hp : PredWord pt p) {rest : List Tok} {w : Str} (h : Sp X (ft ++ pt :: rest) w) :
    ∃ u sf, opt senseFlags w = .ok sf u ∧ sf.getD (none, none) = (neg, inv) ∧ Sp X (pt :: rest) u ∧
      u.length ≤ w.length := by
  have n1 : ¬ heads pt '!' := predWord_heads hp _ (by decide)
  have n2 : ¬ heads pt '^' := predWord_heads hp _ (by decide)
  have err : ∀ {c d : Char} {ts : List Tok} {w : Str}, c ≠ d → Sp X (.sym [d] :: ts) w → tokenTws [c] w = .err := by
    intro c d ts w hcd h
    exact sym_tws_err (Sp.at' h) (head_cons (p := fun t => ¬ heads t c) (by
      simp only [heads, List.head?_cons, Option.some.injEq]
      exact fun e => hcd e.symm))
  cases hf with
  | none =>
    refine ⟨w, none, opt_none ?_, rfl, h, Nat.le.refl⟩
    unfold senseFlags
    rw [alt_right (bind_err (sym_tws_err (Sp.at' h) (head_cons (p := fun t => ¬ heads t '!') n1)))]
    exact bind_err (sym_tws_err (Sp.at' h) (head_cons (p := fun t => ¬ heads t '^') n2))
  | neg =>
    obtain ⟨w1, e1, h1, l1⟩ := sym_tws (Sp.at' h)
    refine ⟨w1, some (some true, none), opt_some (alt_left ?_), rfl, h1, by omega⟩
    rw [bind_ok e1, bind_ok (opt_none (sym_tws_err (Sp.at' h1) (head_cons (p := fun t => ¬ heads t '^') n2)))]
    rfl
  | inv =>
    obtain ⟨w1, e1, h1, l1⟩ := sym_tws (Sp.at' h)
    refine ⟨w1, some (none, some true), opt_some ?_, rfl, h1, by omega⟩
    unfold senseFlags
    rw [alt_right (bind_err (err (by decide) h)), bind_ok e1,
      bind_ok (opt_none (sym_tws_err (Sp.at' h1) (head_cons (p := fun t => ¬ heads t '!') n1)))]
    rfl
  | negInv =>
    obtain ⟨w1, e1, h1, l1⟩ := sym_tws (Sp.at' h)
    obtain ⟨w2, e2, h2, l2⟩ := sym_tws (Sp.at' h1)
    refine ⟨w2, some (some true, some true), opt_some (alt_left ?_), rfl, h2, by omega⟩
    rw [bind_ok e1, bind_ok (opt_some e2)]
    rfl
  | invNeg =>
    obtain ⟨w1, e1, h1, l1⟩ := sym_tws (Sp.at' h)
    obtain ⟨w2, e2, h2, l2⟩ := sym_tws (Sp.at' h1)
    refine ⟨w2, some (some true, some true), opt_some ?_, rfl, h2, by omega⟩
    unfold senseFlags
    rw [alt_right (bind_err (err (by decide) h)), bind_ok e1, bind_ok (opt_some e2)]
    rfl

/-- What may follow a cardinality. -/
def NoCard (t : Tok) : Prop := ∀ c ∈ ['+', '*', '?', '{'], ¬ heads t c

theorem cardinality_tok {ct : List Tok} {mn mx : Option Int} (hc : CardWord ct mn mx) {rest : List Tok}
    (ht : ∀ t ∈ rest.head?, NoCard t) {w : Str} (h : Sp X (ct ++ rest) w) :
    ∃ u card, opt cardinality w = .ok card u ∧ card.map (·.1) = mn ∧ card.map (·.2) = mx ∧ At X rest u ∧
      u.length ≤ w.length := by
  have err : ∀ {c : Char} {t : Tok} {ts : List Tok} {w : Str}, ¬ heads t c → Sp X (t :: ts) w → char c w = .err :=
    fun hc h => sp_char_err h (head_cons (p := fun t => ¬ heads t _) hc)
  cases hc with
  | none =>
    have e : ∀ c ∈ ['+', '*', '?', '{'], char c w = .err := fun c hc => sp_char_err h fun t hh => ht t hh c hc
    refine ⟨w, none, opt_none ?_, rfl, rfl, Sp.at' h, Nat.le.refl⟩
    unfold cardinality
    rw [alt_right (bind_err (e _ (by decide))), alt_right (bind_err (e _ (by decide))),
      alt_right (bind_err (e _ (by decide)))]
    exact bind_err (tag_err (sp_off h fun t hh d hd e => ht t hh '{' (by decide) ((show d = '{' from e) ▸ hd)))
  | plus =>
    obtain ⟨w1, e1, h1, l1⟩ := sym_char h
    refine ⟨w1, some (1, -1), opt_some (alt_left ?_), rfl, rfl, h1, by omega⟩
    rw [bind_ok e1]
    rfl
  | star =>
    obtain ⟨w1, e1, h1, l1⟩ := sym_char h
    refine ⟨w1, some (0, -1), opt_some ?_, rfl, rfl, h1, by omega⟩
    unfold cardinality
    rw [alt_right (bind_err (err (by simp only [heads]; decide) h))]
    refine alt_left ?_
    rw [bind_ok e1]
    rfl
  | opt =>
    obtain ⟨w1, e1, h1, l1⟩ := sym_char h
    refine ⟨w1, some (0, 1), opt_some ?_, rfl, rfl, h1, by omega⟩
    unfold cardinality
    rw [alt_right (bind_err (err (by simp only [heads]; decide) h)),
      alt_right (bind_err (err (by simp only [heads]; decide) h))]
    refine alt_left ?_
    rw [bind_ok e1]
    rfl
  | range m n =>
    obtain ⟨w1, e1, h1, l1⟩ := card_tok h
    refine ⟨w1, some (m, n), opt_some ?_, rfl, rfl, h1, by omega⟩
    unfold cardinality
    rw [alt_right (bind_err (err (by simp only [heads]; decide) h)),
      alt_right (bind_err (err (by simp only [heads]; decide) h)),
      alt_right (bind_err (err (by simp only [heads]; decide) h)), e1]

/-! ## Triple constraints -/

/-- What may follow a triple expression without `;` and `|`. -/
def TEnd (t : Tok) : Prop := ∃ s ∈ ([[';'], ['|'], ['}'], [')']] : List Str), t = .sym s

theorem tEnd_plain {t : Tok} (h : TEnd t) : NoCard t ∧ ¬ heads t '/' ∧ ¬ heads t '%' ∧ Stop true t := by
  obtain ⟨s, hs, rfl⟩ := h
  have n : ∀ {K : String}, NotKw K (.sym s) := ⟨by simp, by simp, by simp⟩
  refine ⟨?_, ?_, ?_, ?_, n, n⟩ <;> clear n
  · unfold NoCard
    simp only [heads]
    revert s
    decide
  · simp only [heads]
    revert s
    decide
  · simp only [heads]
    revert s
    decide
  · show s = [')'] ∨ true = true ∧ _
    revert s
    decide

theorem sym_stop {s : Str} (h : s ∈ ([[';'], ['|'], ['}'], ['+'], ['*'], ['?'], ['/', '/'], ['%']] : List Str)) :
    Stop true (.sym s) := ⟨Or.inr ⟨rfl, h⟩, ⟨by simp, by simp, by simp⟩, ⟨by simp, by simp, by simp⟩⟩

theorem isDot_isAny (e : SE) : e.isAny = isDot e := by
  unfold SE.isAny isDot
  rfl

theorem constraint_tok (hR : Good X I R L) {ft vt ct at' st : List Tok} {pt : Tok} {neg inv : Option Bool} {p : IriRef}
    {e : SE} {mn mx : Option Int} {as : List Annot} {cs : List SemAct} (hf : Flags ft neg inv)
    (hp : PredWord pt p) (hv : I.inline vt e) (hc : CardWord ct mn mx) (ha : Seq AnnText at' as) (hs : Seq ActText st cs)
    (hl : vt.length ≤ L) {rest : List Tok} (ht : ∀ t ∈ rest.head?, TEnd t) {w : Str}
    (h : Sp X (ft ++ pt :: (vt ++ (ct ++ (at' ++ (st ++ rest))))) w) :
    ∃ u, tripleConstraint X R w =
      .ok (.tc none neg inv p (if isDot e then none else some e) mn mx (listed cs) (listed as)) u ∧ Sp X rest u ∧
      u.length < w.length := by
  obtain ⟨w1, sf, e1, hsf, h1, l1⟩ := flags_tok hf hp h
  obtain ⟨w2, e2, h2, l2⟩ := predicate_tok hp h1
  obtain ⟨w3, e3, h3, l3⟩ := tws0_at h2
  obtain ⟨w4, e4, h4, l4⟩ := hR.inline hv hl (card_head hc
    (fun s hs => sym_stop (by revert s; decide)) (fun m n => ⟨rfl, ⟨by simp, by simp, by simp⟩, ⟨by simp, by simp, by simp⟩⟩)
    (trailer_head ha hs (sym_stop (by decide)) (sym_stop (by decide)) fun t hh => (tEnd_plain (ht t hh)).2.2.2)) h3
  obtain ⟨w5, card, e5, c1, c2, h5, l5⟩ := cardinality_tok hc (trailer_head ha hs
    (p := NoCard) (by unfold NoCard; simp only [heads]; decide) (by unfold NoCard; simp only [heads]; decide)
    fun t hh => (tEnd_plain (ht t hh)).1) h4
  obtain ⟨w6, e6, h6, l6⟩ := tws0_at h5
  obtain ⟨w7, w8, w9, e7, e8, e9, h9, l9⟩ := trailer_tok ha hs (Sp.at' h6) fun t hh =>
    ⟨(tEnd_plain (ht t hh)).2.1, (tEnd_plain (ht t hh)).2.2.1⟩
  refine ⟨w9, ?_, h9, by omega⟩
  unfold tripleConstraint
  rw [bind_ok e1, bind_ok (tws0_sp h1), bind_ok e2, bind_ok e3, bind_ok e4, bind_ok (tws0_sp h4), bind_ok e5, bind_ok e6,
    bind_ok e7, bind_ok e8, bind_ok e9, hsf, c1, c2, nonEmpty_listed, isDot_isAny]
  rfl

theorem orCrash_some {a : α} {w : Str} : orCrash (some a) w = .ok a w := rfl

theorem bracketed_tok (hR : Good X I R L) {bt ct at' st : List Tok} {te te1 te2 te3 : TE} {mn mx : Option Int}
    {as : List Annot} {cs : List SemAct} (hb : I.triple bt te) (hc : CardWord ct mn mx) (ha : Seq AnnText at' as)
    (hs : Seq ActText st cs) (hl : bt.length ≤ L)
    (f1 : ∀ card : Option (Int × Int), card.map (·.1) = mn → card.map (·.2) = mx → te.putCard card = some te1)
    (f2 : te1.putAnns as = some te2) (f3 : te2.withActs (listed cs) = some te3)
    {rest : List Tok} (ht : ∀ t ∈ rest.head?, TEnd t) {w : Str}
    (h : Sp X (.sym ['('] :: (bt ++ .sym [')'] :: (ct ++ (at' ++ (st ++ rest))))) w) :
    ∃ u, bracketed X R w = .ok te3 u ∧ Sp X rest u ∧ u.length < w.length := by
  obtain ⟨w1, e1, h1, l1⟩ := sym_tws (Sp.at' h)
  obtain ⟨w2, e2, h2, l2⟩ := hR.triple hb hl (head_cons (p := Close) (.inl rfl)) h1
  obtain ⟨w3, e3, h3, l3⟩ := sym_tws h2
  obtain ⟨w5, card, e5, c1, c2, h5, l5⟩ := cardinality_tok hc (trailer_head ha hs
    (p := NoCard) (by unfold NoCard; simp only [heads]; decide) (by unfold NoCard; simp only [heads]; decide)
    fun t hh => (tEnd_plain (ht t hh)).1) h3
  obtain ⟨w6, e6, h6, l6⟩ := tws0_at h5
  obtain ⟨w7, w8, w9, e7, e8, e9, h9, l9⟩ := trailer_tok ha hs (Sp.at' h6) fun t hh =>
    ⟨(tEnd_plain (ht t hh)).2.1, (tEnd_plain (ht t hh)).2.2.1⟩
  refine ⟨w9, ?_, h9, by omega⟩
  unfold bracketed
  rw [bind_ok e1, bind_ok (cut_ok e2), bind_ok (cut_ok e3), bind_ok (cut_ok e5), bind_ok e6, bind_ok e7, bind_ok e8,
    bind_ok e9, f1 card c1 c2, bind_ok orCrash_some, f2, bind_ok orCrash_some, f3]
  rfl

theorem id_amp {it : List Tok} {id : Option TLabel} (hi : Id it id) {rest : List Tok}
    (ht : ∀ t ∈ rest.head?, ¬ heads t '&') : ∀ t ∈ (it ++ rest).head?, ¬ heads t '&' := by
  cases hi with
  | none => exact ht
  | some hl => exact head_cons (p := fun t => ¬ heads t '&') (by simp only [heads]; decide)

theorem unary_tok (hR : Good X I R L) {ts : List Tok} {e : TE} (hu : Unary I ts e) (hl : ts.length ≤ L + 1)
    {rest : List Tok} (ht : ∀ t ∈ rest.head?, TEnd t) {w : Str} (h : Sp X (ts ++ rest) w) :
    ∃ u, unary X R w = .ok e u ∧ At X rest u ∧ u.length < w.length := by
  cases hu with
  | incl hl' =>
    obtain ⟨w1, e1, h1, l1⟩ := sym_tws (Sp.at' h)
    obtain ⟨w2, e2, h2, l2⟩ := tripleLabel_tok hl' h1
    refine ⟨w2, alt_left ?_, h2, by omega⟩
    rw [bind_ok e1, bind_ok (cut_ok e2)]
    rfl
  | @constraint it ft vt ct at' st pt id neg inv p e mn mx as cs hi hf hp hv hc ha hs =>
    have e' : it ++ (ft ++ pt :: (vt ++ (ct ++ (at' ++ st)))) ++ rest =
        it ++ (ft ++ pt :: (vt ++ (ct ++ (at' ++ (st ++ rest))))) := by simp
    rw [e'] at h
    simp only [List.length_append, List.length_cons] at hl
    have hh := flags_heads hf hp (vt ++ (ct ++ (at' ++ (st ++ rest))))
    obtain ⟨w1, w2, e1, e2, h2, l2⟩ := id_tok hi (fun t ht => hh t ht _ (by decide)) h
    obtain ⟨w3, e3, h3, l3⟩ := constraint_tok hR hf hp hv hc ha hs (by omega) ht h2
    refine ⟨w3, ?_, Sp.at' h3, by omega⟩
    unfold unary
    have e4 : bracketed X R w2 = .err := bind_err (sym_tws_err (Sp.at' h2) fun t ht => hh t ht _ (by decide))
    rw [alt_right (bind_err (sym_tws_err (Sp.at' h) (id_amp hi fun t ht => hh t ht _ (by decide)))), bind_ok e1, bind_ok e2,
      bind_ok ((alt_right e4).trans e3)]
    rfl
  | @each it bt ct at' st id es mn mx as cs hi hb hc ha hs =>
    have e' : it ++ Tok.sym ['('] :: (bt ++ Tok.sym [')'] :: (ct ++ (at' ++ st))) ++ rest =
        it ++ .sym ['('] :: (bt ++ .sym [')'] :: (ct ++ (at' ++ (st ++ rest)))) := by simp
    rw [e'] at h
    simp only [List.length_append, List.length_cons] at hl
    obtain ⟨w1, w2, e1, e2, h2, l2⟩ := id_tok hi (head_cons (p := fun t => ¬ heads t '$') (by simp only [heads]; decide)) h
    obtain ⟨w3, e3, h3, l3⟩ := bracketed_tok hR hb hc ha hs (by omega)
      (te1 := .each none es mn mx none none) (te2 := .each none es mn mx none (listed as))
      (te3 := .each none es mn mx (listed cs) (listed as))
      (by
        rintro card rfl rfl
        cases card <;> rfl)
      (by
        unfold TE.putAnns listed
        cases as <;> rfl) rfl ht h2
    refine ⟨w3, ?_, Sp.at' h3, by omega⟩
    unfold unary
    rw [alt_right (bind_err (sym_tws_err (Sp.at' h) (id_amp hi (head_cons (p := fun t => ¬ heads t '&')
      (by simp only [heads]; decide))))), bind_ok e1, bind_ok e2, bind_ok (alt_left e3)]
    rfl
  | @one it bt ct at' st id es mn mx as cs hi hb hc ha hs =>
    have e' : it ++ Tok.sym ['('] :: (bt ++ Tok.sym [')'] :: (ct ++ (at' ++ st))) ++ rest =
        it ++ .sym ['('] :: (bt ++ .sym [')'] :: (ct ++ (at' ++ (st ++ rest)))) := by simp
    rw [e'] at h
    simp only [List.length_append, List.length_cons] at hl
    obtain ⟨w1, w2, e1, e2, h2, l2⟩ := id_tok hi (head_cons (p := fun t => ¬ heads t '$') (by simp only [heads]; decide)) h
    obtain ⟨w3, e3, h3, l3⟩ := bracketed_tok hR hb hc ha hs (by omega)
      (te1 := .one none es mn mx none none) (te2 := .one none es mn mx none (listed as))
      (te3 := .one none es mn mx (listed cs) (listed as))
      (by
        rintro card rfl rfl
        cases card <;> rfl)
      (by
        unfold TE.putAnns listed
        cases as <;> rfl) rfl ht h2
    refine ⟨w3, ?_, Sp.at' h3, by omega⟩
    unfold unary
    rw [alt_right (bind_err (sym_tws_err (Sp.at' h) (id_amp hi (head_cons (p := fun t => ¬ heads t '&')
      (by simp only [heads]; decide))))), bind_ok e1, bind_ok e2, bind_ok (alt_left e3)]
    rfl

/-! ## Where no triple expression begins -/

/-- No triple expression begins with this character. -/
def NoTriple (c : Char) : Prop :=
  ¬ space c ∧ c ≠ '#' ∧ c ≠ '/' ∧ ¬ nameStart c ∧ c ∉ ['&', '$', '(', '!', '^', '<', ':']

theorem tokenTws_off {c d : Char} {s w : Str} (hc : ¬ space c ∧ c ≠ '#' ∧ c ≠ '/') (hd : c ≠ d) :
    tokenTws (d :: s) (c :: w) = .err := by
  have e : tws0 (c :: w) = .ok () (c :: w) := tws0_ok (g := []) (b := false) .nil (noGap_cons hc.1 hc.2.1 hc.2.2)
  unfold tokenTws
  rw [bind_ok e]
  exact bind_err (tag_err (Off.cons hd))

theorem unary_off {c : Char} {w : Str} (h : NoTriple c) : unary X R (c :: w) = .err := by
  obtain ⟨h1, h2, h3, h4, h5⟩ := h
  have hc : ¬ space c ∧ c ≠ '#' ∧ c ≠ '/' := ⟨h1, h2, h3⟩
  have ne : ∀ d ∈ ['&', '$', '(', '!', '^', '<', ':'], c ≠ d := by
    rintro d hd rfl
    exact h5 hd
  have e : tws0 (c :: w) = .ok () (c :: w) := tws0_ok (g := []) (b := false) .nil (noGap_cons h1 h2 h3)
  have e1 : bracketed X R (c :: w) = .err := bind_err (tokenTws_off hc (ne _ (by decide)))
  have e2 : senseFlags (c :: w) = .err := by
    unfold senseFlags
    rw [alt_right (bind_err (tokenTws_off hc (ne _ (by decide))))]
    exact bind_err (tokenTws_off hc (ne _ (by decide)))
  have e3 : predicate (c :: w) = .err := by
    unfold predicate
    rw [alt_right (iri_err (Off.cons ?_))]
    · refine bind_err (tag_err (Off.cons ?_))
      rintro rfl
      exact h4 (by decide)
    · rintro (h | h | h)
      · exact h4 h
      · exact ne _ (by decide) h
      · exact ne _ (by decide) h
  have e4 : tripleConstraint X R (c :: w) = .err := by
    unfold tripleConstraint
    rw [bind_ok (opt_none e2), bind_ok e]
    exact bind_err e3
  unfold unary
  rw [alt_right (bind_err (tokenTws_off hc (ne _ (by decide)))),
    bind_ok (opt_none (bind_err (char_err (Off.cons (ne _ (by decide)))))), bind_ok e]
  exact bind_err ((alt_right e1).trans e4)

theorem group_off {c : Char} {w : Str} (h : NoTriple c) : group X R (c :: w) = .err := by
  unfold group
  have e1 : multiGroup X R (c :: w) = .err := bind_err (unary_off h)
  rw [alt_right e1]
  exact bind_err (unary_off h)

theorem triple_off {c : Char} {w : Str} (h : NoTriple c) : tripleExpr X R (c :: w) = .err := by
  unfold tripleExpr
  have e1 : multiOne X R (c :: w) = .err := bind_err (group_off h)
  rw [alt_right e1, group_off h]

theorem unary_nil : unary X R [] = .err := rfl

theorem unary_err {ts : List Tok} {w : Str} (h : Sp X ts w) (ht : ∀ t ∈ ts.head?, TEnd t) : unary X R w = .err := by
  cases ts with
  | nil => rw [sp_nil h]; exact unary_nil
  | cons t ts =>
    obtain ⟨s, hs, rfl⟩ := ht t (by simp)
    obtain ⟨v, u, rfl, htx, -⟩ := sp_tok h
    cases htx
    simp only [List.mem_cons, List.not_mem_nil, or_false] at hs
    rcases hs with rfl | rfl | rfl | rfl <;> exact unary_off (by unfold NoTriple; decide)

/-! ## Groups and alternatives -/

theorem chain_seq {R : List Tok → α → Prop} {s : Tok} {ts : List Tok} {as : List α} (h : Chain s R ts as) :
    Seq (fun us a => ∃ vs, us = s :: vs ∧ R vs a) (s :: ts) as := by
  induction h with
  | one h =>
    have := Seq.cons (R := fun us a => ∃ vs, us = s :: vs ∧ R vs a) ⟨_, rfl, h⟩ .nil
    simpa using this
  | more h hs ih =>
    have := Seq.cons (R := fun us a => ∃ vs, us = s :: vs ∧ R vs a) ⟨_, rfl, h⟩ ih
    simpa using this

theorem chain_cons {R : List Tok → α → Prop} {s : Tok} {ts : List Tok} {as : List α} (h : Chain s R ts as) :
    ∃ a as', as = a :: as' := by
  cases h <;> exact ⟨_, _, rfl⟩

/-- What may follow a group. -/
def GEnd (t : Tok) : Prop := ∃ s ∈ ([['|'], ['}'], [')']] : List Str), t = .sym s

theorem gEnd_tEnd {t : Tok} (h : GEnd t) : TEnd t ∧ ¬ heads t ';' := by
  obtain ⟨s, hs, rfl⟩ := h
  refine ⟨⟨s, ?_, rfl⟩, ?_⟩
  · revert s; decide
  · simp only [heads]; revert s; decide

theorem close_gEnd {t : Tok} (h : Close t) : GEnd t ∧ ¬ heads t '|' := by
  rcases h with rfl | rfl
  · exact ⟨⟨_, by decide, rfl⟩, by simp only [heads]; decide⟩
  · exact ⟨⟨_, by decide, rfl⟩, by simp only [heads]; decide⟩

theorem semi_head {us : List Tok} (hs : Semi us) {rest : List Tok} (ht : ∀ t ∈ rest.head?, GEnd t) :
    ∀ t ∈ (us ++ rest).head?, TEnd t := by
  cases hs with
  | none => exact fun t hh => (gEnd_tEnd (ht t hh)).1
  | some => exact head_cons (p := TEnd) ⟨_, by decide, rfl⟩

/-- After the last element comes no further one, and the `;` at the end is read. -/
theorem semi_tok {us : List Tok} (hs : Semi us) {rest : List Tok} (ht : ∀ t ∈ rest.head?, GEnd t) {w : Str}
    (h : At X (us ++ rest) w) : ∃ v x o, (do tokenTws [';']; unary X R : P TE) w = .err ∧
      tws0 w = .ok () v ∧ (do tokenTws [';']; unary X R : P TE) v = .err ∧
      opt (char ';') v = .ok o x ∧ At X rest x ∧ x.length ≤ w.length := by
  obtain ⟨v, e, h1, l1⟩ := tws0_at h
  cases hs with
  | none =>
    have e1 : ∀ {w : Str}, At X rest w → tokenTws [';'] w = .err := fun h => sym_tws_err h fun t hh => (gEnd_tEnd (ht t hh)).2
    exact ⟨v, v, none, bind_err (e1 h), e, bind_err (e1 (Sp.at' h1)),
      opt_none (sp_char_err h1 fun t hh => (gEnd_tEnd (ht t hh)).2), Sp.at' h1, l1⟩
  | some =>
    have e1 : ∀ {w : Str}, At X (.sym [';'] :: rest) w → (do tokenTws [';']; unary X R : P TE) w = .err := by
      intro w h
      obtain ⟨w1, e1, h1, l1⟩ := sym_tws h
      rw [bind_ok e1]
      exact unary_err h1 fun t hh => (gEnd_tEnd (ht t hh)).1
    obtain ⟨x, e2, h2, l2⟩ := sym_char h1
    exact ⟨v, x, some ';', e1 h, e, e1 (Sp.at' h1), opt_some e2, h2, by omega⟩

theorem group_tok (hR : Good X I R L) {ts : List Tok} {e : TE} (hg : Group I ts e) (hl : ts.length ≤ L + 1)
    {rest : List Tok} (ht : ∀ t ∈ rest.head?, GEnd t) {w : Str} (h : Sp X (ts ++ rest) w) :
    ∃ u, group X R w = .ok e u ∧ At X rest u ∧ u.length < w.length := by
  unfold group
  cases hg with
  | @single ts us e hu hs =>
    rw [List.append_assoc] at h
    rw [List.length_append] at hl
    obtain ⟨w1, e1, h1, l1⟩ := unary_tok hR hu (by omega) (semi_head hs ht) h
    obtain ⟨v, x, o, -, e2, e3, e4, h4, l4⟩ := semi_tok (R := R) hs ht h1
    refine ⟨x, ?_, h4, by omega⟩
    have e5 : multiGroup X R w = .err := by
      unfold multiGroup
      rw [bind_ok e1, bind_ok e2]
      exact bind_err (many1_err e3)
    rw [alt_right e5]
    unfold singleGroup
    rw [bind_ok e1, bind_ok e2, bind_ok e4]
    rfl
  | @many ts us vs e es hu hc hs =>
    have e' : ts ++ Tok.sym [';'] :: (us ++ vs) ++ rest = ts ++ ((.sym [';'] :: us) ++ (vs ++ rest)) := by simp
    rw [e'] at h
    simp only [List.length_append, List.length_cons] at hl
    obtain ⟨w1, e1, h1, l1⟩ := unary_tok hR hu (by omega)
      (head_cons (p := TEnd) ⟨_, by decide, rfl⟩) h
    obtain ⟨w2, e2, h2, l2⟩ := tws0_at h1
    obtain ⟨a, as, rfl⟩ := chain_cons hc
    obtain ⟨w3, e3, h3, l3⟩ := many1_seq (At X) (p := (do tokenTws [';']; unary X R : P TE))
      (G := fun us => ∀ t ∈ us.head?, TEnd t) (fin := vs ++ rest) (by
        rintro ts a rest w ⟨us, rfl, hu, hl⟩ hg h
        obtain ⟨w1, e1, h1, l1⟩ := sym_tws h
        obtain ⟨w2, e2, h2, l2⟩ := unary_tok hR hu hl hg h1
        refine ⟨w2, ?_, h2, by omega⟩
        rw [bind_ok e1, e2]) (by
        intro us as hs'
        cases hs' with
        | nil => exact semi_head hs ht
        | cons hx _ =>
          obtain ⟨vs, rfl, -⟩ := hx
          exact head_cons (p := TEnd) ⟨_, by decide, rfl⟩) (by
        intro u hu
        obtain ⟨-, -, -, e, -⟩ := semi_tok (R := R) hs ht hu
        exact e) (chain_seq (chain_bound hc (n := L + 1) (by omega))) (Sp.at' h2)
    obtain ⟨v, x, o, -, e4, -, e5, h5, l5⟩ := semi_tok (R := R) hs ht h3
    refine ⟨x, alt_left ?_, h5, by omega⟩
    unfold multiGroup
    rw [bind_ok e1, bind_ok e2, bind_ok e3, bind_ok e4, bind_ok e5]
    rfl

theorem triple_tok (hR : Good X I R L) {ts : List Tok} {e : TE} (hg : Triple I ts e) (hl : ts.length ≤ L + 1)
    {rest : List Tok} (ht : ∀ t ∈ rest.head?, Close t) {w : Str} (h : Sp X (ts ++ rest) w) :
    ∃ u, tripleExpr X R w = .ok e u ∧ At X rest u ∧ u.length < w.length := by
  unfold tripleExpr
  have bar : ∀ {w : Str}, At X rest w → tokenTws ['|'] w = .err := fun h =>
    sym_tws_err h fun t hh => (close_gEnd (ht t hh)).2
  cases hg with
  | single hg =>
    obtain ⟨w1, e1, h1, l1⟩ := group_tok hR hg hl (fun t hh => (close_gEnd (ht t hh)).1) h
    obtain ⟨w2, e2, h2, l2⟩ := tws0_at h1
    refine ⟨w1, ?_, h1, l1⟩
    have e3 : multiOne X R w = .err := by
      unfold multiOne
      rw [bind_ok e1, bind_ok e2]
      exact bind_err (many1_err (bind_err (bar (Sp.at' h2))))
    rw [alt_right e3, e1]
  | @many ts us e es hg hc =>
    have e' : ts ++ Tok.sym ['|'] :: us ++ rest = ts ++ ((.sym ['|'] :: us) ++ rest) := by simp
    rw [e'] at h
    simp only [List.length_append, List.length_cons] at hl
    obtain ⟨w1, e1, h1, l1⟩ := group_tok hR hg (by omega) (head_cons (p := GEnd) ⟨_, by decide, rfl⟩) h
    obtain ⟨w2, e2, h2, l2⟩ := tws0_at h1
    obtain ⟨a, as, rfl⟩ := chain_cons hc
    obtain ⟨w3, e3, h3, l3⟩ := many1_seq (At X) (p := (do tokenTws ['|']; group X R : P TE))
      (G := fun us => ∀ t ∈ us.head?, GEnd t) (fin := rest) (by
        rintro ts a rest w ⟨us, rfl, hu, hl⟩ hg h
        obtain ⟨w1, e1, h1, l1⟩ := sym_tws h
        obtain ⟨w2, e2, h2, l2⟩ := group_tok hR hu hl hg h1
        refine ⟨w2, ?_, h2, by omega⟩
        rw [bind_ok e1, e2]) (by
        intro us as hs'
        cases hs' with
        | nil => exact fun t hh => (close_gEnd (ht t hh)).1
        | cons hx _ =>
          obtain ⟨vs, rfl, -⟩ := hx
          exact head_cons (p := GEnd) ⟨_, by decide, rfl⟩) (fun u hu => bind_err (bar hu))
      (chain_seq (chain_bound hc (n := L + 1) (by omega))) (Sp.at' h2)
    refine ⟨w3, alt_left ?_, h3, by omega⟩
    unfold multiOne
    rw [bind_ok e1, bind_ok e2, bind_ok e3]
    rfl

/-! ## Depth -/

theorem chain_ne {R : List Tok → α → Prop} {s : Tok} {ts : List Tok} {as : List α} (hR : ∀ ts a, R ts a → ts ≠ [])
    (h : Chain s R ts as) : ts ≠ [] := by
  cases h with
  | one h => exact hR _ _ h
  | more h hs => simp

theorem disj_ne {inl : Bool} {ts : List Tok} {e : SE} (h : Disj I inl ts e) : ts ≠ [] := by
  cases h with
  | mk h =>
    refine chain_ne (fun ts a h => ?_) h
    cases h with
    | mk h =>
      refine chain_ne (fun ts a h => ?_) h
      cases h with
      | plain h =>
        obtain ⟨t, us, rfl, -⟩ := atom_head h
        simp
      | not h => simp

theorem triple_ne {ts : List Tok} {e : TE} (h : Triple I ts e) : ts ≠ [] := by
  have un : ∀ {ts : List Tok} {e : TE}, Unary I ts e → ts ≠ [] := by
    intro ts e h
    cases h <;> simp
  have gr : ∀ {ts : List Tok} {e : TE}, Group I ts e → ts ≠ [] := by
    intro ts e h
    cases h with
    | single h _ => simp [un h]
    | many h _ _ => simp
  cases h with
  | single h => exact gr h
  | many h _ => simp

theorem digit_not_start {c : Char} (h : digit c) : ¬ nameStart c := by
  simp only [digit, nameStart, letter, within] at *
  omega

theorem good (n : Nat) : ∀ (m L : Nat), L + 1 ≤ m → Good X (Level n) (recs X m) L := by
  have off : ∀ {c : Char}, (c = '}' ∨ c = '+' ∨ c = '-' ∨ digit c) → NoTriple c := by
    rintro c (rfl | rfl | rfl | h)
    · unfold NoTriple; decide
    · unfold NoTriple; decide
    · unfold NoTriple; decide
    · have hd := digit_noGap (.inr (.inr h))
      refine ⟨hd.1, hd.2.1, hd.2.2, digit_not_start h, ?_⟩
      intro hc
      simp only [List.mem_cons, List.not_mem_nil, or_false] at hc
      rcases hc with rfl | rfl | rfl | rfl | rfl | rfl | rfl <;> (revert h; decide)
  induction n with
  | zero =>
    intro m L hm
    obtain ⟨m, rfl⟩ : ∃ k, m = k + 1 := ⟨m - 1, by omega⟩
    exact ⟨fun h => h.elim, fun h => h.elim, fun h => h.elim, fun hc => triple_off (off hc)⟩
  | succ n ih =>
    intro m L hm
    obtain ⟨m, rfl⟩ : ∃ k, m = k + 1 := ⟨m - 1, by omega⟩
    have pos : ∀ {ts : List Tok}, ts ≠ [] → ts.length ≤ L → ∃ k, L = k + 1 := by
      intro ts h1 h2
      have := List.length_pos_of_ne_nil h1
      exact ⟨L - 1, by omega⟩
    refine ⟨?_, ?_, ?_, fun hc => triple_off (off hc)⟩
    · intro ts e rest w he hl ht h
      obtain ⟨k, rfl⟩ := pos (disj_ne he) hl
      exact shapeOr_tok (ih m k (by omega)) he hl ht h
    · intro ts e rest w he hl ht h
      obtain ⟨k, rfl⟩ := pos (disj_ne he) hl
      exact shapeOr_tok (ih m k (by omega)) he hl ht h
    · intro ts e rest w he hl ht h
      obtain ⟨k, rfl⟩ := pos (triple_ne he) hl
      exact triple_tok (ih m k (by omega)) he hl ht h

theorem sp_length {ts rest : List Tok} : ∀ {w : Str}, Sp X (ts ++ rest) w → ts.length ≤ w.length := by
  induction ts with
  | nil => exact fun _ => Nat.zero_le _
  | cons t ts ih =>
    intro w h
    obtain ⟨v, u, rfl, -, h1, -, l1⟩ := sp_tok h
    obtain ⟨h2, l2⟩ := skip_at h1
    have := ih h2
    simp only [List.length_cons]
    omega

theorem shapeExpression_tok {ts : List Tok} {e : SE} (he : ShapeExpr ts e) {rest : List Tok}
    (ht : ∀ t ∈ rest.head?, Stop false t) {w : Str} (h : Sp X (ts ++ rest) w) :
    ∃ u, shapeExpression X w = .ok e u ∧ Sp X rest u ∧ u.length < w.length := by
  obtain ⟨n, he⟩ := he
  exact (good n _ _ Nat.le.refl).shape he (sp_length h) ht h

theorem inlineShapeExpression_tok {ts : List Tok} {e : SE} (he : InlineExpr ts e) {rest : List Tok}
    (ht : ∀ t ∈ rest.head?, Stop true t) {w : Str} (h : Sp X (ts ++ rest) w) :
    ∃ u, inlineShapeExpression X w = .ok e u ∧ Sp X rest u ∧ u.length < w.length := by
  obtain ⟨n, he⟩ := he
  exact (good n _ _ Nat.le.refl).inline he (sp_length h) ht h

end Shexc
