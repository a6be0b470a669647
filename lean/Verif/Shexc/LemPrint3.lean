import Verif.Shexc.LemPrint2

/-!
# Lemmas: which words expressions are written as
-/

namespace Shexc

open P Spec

variable {X : Ext} {N : Str → Prop} {m : Prefix.PrefixMap}

theorem renameAll_eq (q : IriRef → IriRef) (es : List SE) : SE.renameAll q es = es.map (SE.rename q) := by
  induction es with
  | nil => rfl
  | cons e es ih => rw [SE.renameAll, ih]; rfl

theorem renameAllT_eq (q : IriRef → IriRef) (es : List TE) : TE.renameAll q es = es.map (TE.rename q) := by
  induction es with
  | nil => rfl
  | cons e es ih => rw [TE.renameAll, ih]; rfl

theorem shapeExprs_eq (es : List SE) : Pp.shapeExprs m es = Pp.all (Pp.shapeExpr m) es := by
  induction es with
  | nil => simp [Pp.shapeExprs, Pp.all]
  | cons e es ih => rw [Pp.shapeExprs, ih]; rfl

theorem triples_eq (es : List TE) : Pp.triples m es = Pp.all (Pp.triple m) es := by
  induction es with
  | nil => simp [Pp.triples, Pp.all]
  | cons e es ih => rw [Pp.triples, ih]; rfl

/-- Shape expressions `P` are written as `R` says. -/
def SeWords (X : Ext) (m : Prefix.PrefixMap) (P : SE → Prop) (R : List Tok → SE → Prop) : Prop :=
  ∀ e, P e → ∃ d, Pp.shapeExpr m e = some d ∧ ∃ ts, R ts (e.rename (shown m)) ∧ W X true false d ts

/-- Triple expressions `P` are written as `R` says. -/
def TeWords (X : Ext) (m : Prefix.PrefixMap) (P : TE → Prop) (R : List Tok → TE → Prop) : Prop :=
  ∀ e, P e → ∃ d, Pp.triple m e = some d ∧ ∃ ts, R ts (e.rename (shown m)) ∧ W X true false d ts

/-! ## Shapes -/

theorem predWords_of_names {l : List IriRef} (hN : Names N m) (hne : l ≠ []) (h : ∀ a ∈ l, PName N a) :
    ∃ ts, PredWords ts (l.map (shown m)) ∧ W X true false (Doc.sepBy Doc.space (l.map (Pp.iriRef m))) ts := by
  have h2 : List.Forall₂ (fun d a => ∃ ts, (∃ t, ts = [t] ∧ PredWord t (shown m a)) ∧ W X true false d ts)
      (l.map (Pp.iriRef m)) l :=
    map_forall₂ fun a ha => ⟨_, ⟨_, rfl, .name _⟩, W.name hN (h a ha)⟩
  obtain ⟨ts, h3, h4⟩ := W.seq (R := fun ts a => ∃ t, ts = [t] ∧ PredWord t a) W.space
    (List.forall₂_map_right_iff (f := shown m).2 h2) (forall₂_ne h2 hne)
  refine ⟨ts, ?_, h4⟩
  have key : ∀ {ts : List Tok} {l : List IriRef}, Spec.Seq (fun ts a => ∃ t, ts = [t] ∧ PredWord t a) ts l → l ≠ [] →
      PredWords ts l := by
    intro ts l h
    induction h with
    | nil => intro h; exact absurd rfl h
    | @cons ts us a as h hs ih =>
      intro _
      obtain ⟨t, rfl, h⟩ := h
      cases as with
      | nil => cases hs; exact .one h
      | cons b bs => exact .more h (ih (by simp))
  exact key h3 (by simpa using hne)

/-- What is said in front of the braces. -/
theorem W.quals (hN : Names N m) {closed : Option Bool} {extra : Option (List IriRef)} {ext : Option (List Label)}
    (hc : PSet closed) (he : PList (PName N) extra) (hx : ∀ ls ∈ ext, ∃ l, ls = [l] ∧ PLabel N l)
    (hxe : ext = none ∨ extra = none) :
    ∃ qt qs, Spec.Seq QualText qt qs ∧ isClosed qs = closed ∧ listed (extras qs) = extra.map (·.map (shown m)) ∧
      listed (parents qs) = ext.map (·.map (Label.rename (shown m))) ∧
      W X true false ((if closed.getD false then Pp.keyword "CLOSED " else .nil) ++ extra.elim .nil (Pp.extra m) ++
        ext.elim .nil (Pp.exts m)) qt := by
  have h1 : ∃ ct cs, (∀ {ts qs}, Spec.Seq QualText ts qs → Spec.Seq QualText (ct ++ ts) (cs ++ qs)) ∧
      (∀ qs, isClosed qs = none → isClosed (cs ++ qs) = closed) ∧ (∀ qs, extras (cs ++ qs) = extras qs) ∧
      (∀ qs, parents (cs ++ qs) = parents qs) ∧
      W X false false (if closed.getD false then Pp.keyword "CLOSED " else .nil) ct := by
    cases hc with
    | none => exact ⟨[], [], id, fun _ h => h, fun _ => rfl, fun _ => rfl, .nil'⟩
    | some =>
      exact ⟨[.cap "CLOSED"], [.closed], fun h => Spec.Seq.cons (ts := [_]) .closed h, fun _ _ => rfl, fun _ => rfl,
        fun _ => rfl, .kwSpace (s := "CLOSED".toList) (.cap (by decide)) rfl⟩
  obtain ⟨ct, cs, a1, a2, a3, a4, a5⟩ := h1
  cases he with
  | @some l hne h =>
    obtain rfl : ext = none := by rcases hxe with h | h; exact h; cases h
    obtain ⟨ts, h2, h3⟩ := predWords_of_names (X := X) hN hne h
    refine ⟨_, _, a1 (Spec.Seq.cons (.extra h2) .nil), a2 _ rfl, ?_, ?_, ?_⟩
    · rw [a3]
      simp [extras, listed, hne]
    · rw [a4]
      rfl
    · have := (a5.cat ((W.kwSpace (t := "EXTRA ".toList) (s := "EXTRA".toList) (.cap (by decide)) rfl).cat h3 (by simp))
        (by simp)).cat W.nil (by simp)
      simpa [Pp.extra, Pp.keyword] using this
  | none =>
    cases ext with
    | none =>
      refine ⟨_, _, a1 .nil, a2 _ rfl, ?_, ?_, ?_⟩
      · rw [a3]; rfl
      · rw [a4]; rfl
      · have := ((a5.cat W.nil' (by simp)).cat W.nil' (by simp)).needs
        simpa using this
    | some ls =>
      obtain ⟨l, rfl, hl⟩ := hx ls rfl
      refine ⟨_, _, a1 (Spec.Seq.cons (.ext (l.rename (shown m))) .nil), a2 _ rfl, ?_, ?_, ?_⟩
      · rw [a3]; rfl
      · rw [a4]; rfl
      · have k : W X true false (Pp.keyword "EXTENDS") [.kw "EXTENDS"] := .word (.kw (by decide) rfl)
        have := (a5.cat W.nil' (by simp)).cat (((k.cat W.space (by simp)).cat (W.reference hN hl) (by simp)).cat
          W.space (by simp)) (by simp)
        have := this.needs
        simpa [Pp.exts, Doc.sepBy] using this

theorem W.body {PI : PInner} {GI : Inner} (ht : TeWords X m PI.triple GI.triple) {te : Option TE}
    (h : ∀ e ∈ te, PI.triple e) :
    ∃ d, Pp.tripleOpt m te = some d ∧ ∃ ts, Body GI ts (TE.renameOpt (shown m) te) ∧ W X true false d ts := by
  cases te with
  | none => exact ⟨_, by rw [Pp.tripleOpt], [], .none, W.nil.needs⟩
  | some e =>
    obtain ⟨d, h1, ts, h2, h3⟩ := ht e (h e rfl)
    exact ⟨d, by rw [Pp.tripleOpt, h1], ts, .some h2, h3⟩

theorem W.atom (hN : Names N m) {PI : PInner} {GI : Inner} (ht : TeWords X m PI.triple GI.triple) (inl : Bool) :
    SeWords X m (PAtom N PI inl) (Atom GI inl) := by
  intro e h
  cases h with
  | @ref l h =>
    refine ⟨_, by rw [Pp.shapeExpr]; rfl, _, .shape (.ref _), W.reference hN h⟩
  | nc h =>
    obtain ⟨d, ts, h1, h2, h3⟩ := W.nc (X := X) hN h GI inl
    exact ⟨d, by rw [Pp.shapeExpr, h1], ts, h2, h3⟩
  | @shape closed extra te anns ext hc he hte ha hx hxe hi =>
    obtain ⟨qt, qs, q1, q2, q3, q4, q5⟩ := W.quals (X := X) hN hc he hx hxe
    obtain ⟨d, b1, bt, b2, b3⟩ := W.body ht hte
    obtain ⟨da, at', as, c1, c2, c3, c4⟩ := W.annots (X := X) hN ha
    have hw : W X true false (.group (.nest ((if closed.getD false then Pp.keyword "CLOSED " else .nil) ++
        extra.elim .nil (Pp.extra m) ++ ext.elim .nil (Pp.exts m) ++ .text ['{'] ++ .line ++ d) ++ .line ++
        .text ['}'] ++ da)) (qt ++ .sym ['{'] :: (bt ++ .sym ['}'] :: at')) := by
      have s1 : W X false true (.text ['{']) [.sym ['{']] := .symEnds (by decide) (by decide) (.inr rfl)
      have s2 : W X false false (.text ['}']) [.sym ['}']] := .sym (by decide) (by decide)
      have := ((((((((q5.cat s1 (by simp)).cat W.line (by simp)).cat b3 (by simp)).nest).cat W.line (by simp)).cat s2
        (by simp)).cat c4 (by simp)).group)
      simpa using this
    refine ⟨_, by rw [Pp.shapeExpr, b1, c1]; rfl, _, .shape (.shape ?_), hw⟩
    rw [SE.rename, ← q2, ← q3]
    cases inl with
    | false =>
      rw [← q4, ← c3]
      have := ShapeText.outer q1 b2 c2 (Spec.Seq.nil (R := ActText))
      simpa [listed] using this
    | true =>
      obtain ⟨rfl, rfl⟩ := hi rfl
      have e1 : as = [] := by
        by_contra hne
        simp [listed, hne] at c3
      subst e1
      cases c2
      refine .inner q1 b2 ?_
      by_contra hne
      simp [listed, hne] at q4

theorem W.neg (hN : Names N m) {PI : PInner} {GI : Inner} (ht : TeWords X m PI.triple GI.triple) (inl : Bool) :
    SeWords X m (PNeg N PI inl) (Negation GI inl) := by
  intro e h
  cases h with
  | plain h =>
    obtain ⟨d, h1, ts, h2, h3⟩ := W.atom hN ht inl e h
    exact ⟨d, h1, ts, .plain h2, h3⟩
  | not h =>
    obtain ⟨d, h1, ts, h2, h3⟩ := W.atom hN ht inl _ h
    have k : W X false false (Pp.keyword "NOT ") [.kw "NOT"] := .kwSpace (s := "NOT".toList) (.kw (by decide) rfl) rfl
    exact ⟨_, by rw [Pp.shapeExpr, h1]; rfl, _, .not h2, k.cat h3 (by simp)⟩

theorem W.chain {P : SE → Prop} {R : List Tok → SE → Prop} (h : SeWords X m P R) {es : List SE} (hne : es ≠ [])
    (hP : ∀ x ∈ es, P x) {s : Tok} {sep : Doc} (hsep : W X false true sep [s]) :
    ∃ ds, Pp.shapeExprs m es = some ds ∧ ∃ ts, Chain s R ts (SE.renameAll (shown m) es) ∧
      W X true false (Doc.sepBy sep ds) ts := by
  obtain ⟨ds, h1, h2⟩ := all_some (f := Pp.shapeExpr m)
    (Q := fun d e => ∃ ts, R ts (e.rename (shown m)) ∧ W X true false d ts) (l := es) fun e he => h e (hP e he)
  obtain ⟨ts, h3, h4⟩ := W.sepWord (R := R) hsep (List.forall₂_map_right_iff (f := SE.rename (shown m)).2 h2)
    (forall₂_ne h2 hne)
  exact ⟨ds, by rw [shapeExprs_eq, h1], ts, by rw [renameAll_eq]; exact h3, h4⟩

theorem W.conj (hN : Names N m) {PI : PInner} {GI : Inner} (ht : TeWords X m PI.triple GI.triple) (inl : Bool) :
    SeWords X m (PConj N PI inl) (Conj GI inl) := by
  intro e h
  cases h with
  | single h =>
    obtain ⟨d, h1, ts, h2, h3⟩ := W.neg hN ht inl e h
    exact ⟨d, h1, ts, .mk (.one h2), h3⟩
  | and h =>
    obtain ⟨ds, h1, ts, h2, h3⟩ := W.chain (W.neg hN ht inl) (by simp) h (s := .kw "AND") (sep := Pp.keyword " AND ")
      (.spaceKwSpace (s := "AND".toList) (.kw (by decide) rfl) rfl)
    exact ⟨_, by rw [Pp.shapeExpr, h1]; rfl, ts, .mk h2, h3.group.nest⟩

theorem W.disj (hN : Names N m) {PI : PInner} {GI : Inner} (ht : TeWords X m PI.triple GI.triple) (inl : Bool) :
    SeWords X m (PDisj N PI inl) (Disj GI inl) := by
  intro e h
  cases h with
  | single h =>
    obtain ⟨d, h1, ts, h2, h3⟩ := W.conj hN ht inl e h
    exact ⟨d, h1, ts, .mk (.one h2), h3⟩
  | or h =>
    obtain ⟨ds, h1, ts, h2, h3⟩ := W.chain (W.conj hN ht inl) (by simp) h (s := .kw "OR") (sep := Pp.keyword " OR ")
      (.spaceKwSpace (s := "OR".toList) (.kw (by decide) rfl) rfl)
    exact ⟨_, by rw [Pp.shapeExpr, h1]; rfl, ts, .mk h2, h3.group.nest⟩

/-! ## Triple expressions -/

theorem W.flags {neg inv : Option Bool} (hn : PSet neg) (hi : PSet inv) :
    ∃ ts, Flags ts neg inv ∧ W X false false (Pp.flag '!' neg ++ Pp.flag '^' inv) ts := by
  have s1 : W X false false (.text ['!']) [.sym ['!']] := .sym (by decide) (by decide)
  have s2 : W X false false (.text ['^']) [.sym ['^']] := .sym (by decide) (by decide)
  cases hn <;> cases hi
  · exact ⟨_, .none, W.nil'.cat W.nil' (by simp)⟩
  · exact ⟨_, .inv, W.nil'.cat s2 (by simp)⟩
  · exact ⟨_, .neg, s1.cat W.nil' (by simp)⟩
  · exact ⟨_, .negInv, s1.cat s2 (by simp)⟩

theorem W.card {mn mx : Option Int} (h : PCard mn mx) :
    ∃ ts, CardWord ts mn mx ∧ W X true true (Pp.cardinality mn mx) ts ∧
      (mn ≠ none → W X false true (Pp.cardinality mn mx) ts) ∧
      (mn = none → W X false false (Pp.cardinality mn mx) ts) := by
  have key : ∀ {s : Str} {t : List Tok}, s ∈ symbols → s ≠ ['@'] → W X false true (Doc.space ++ .text s) [.sym s] :=
    fun h1 h2 => W.space.cat (.sym h1 h2) (by simp)
  cases h with
  | none => exact ⟨_, .none, .nil, fun h => absurd rfl h, fun _ => .nil'⟩
  | opt =>
    have k : W X false true (Pp.cardinality (some 0) (some 1)) [.sym ['?']] := key (t := []) (by decide) (by decide)
    exact ⟨_, .opt, k.weaken _ _ (by simp) (by simp), fun _ => k, by simp⟩
  | star =>
    have k : W X false true (Pp.cardinality (some 0) (some (-1))) [.sym ['*']] := key (t := []) (by decide) (by decide)
    exact ⟨_, .star, k.weaken _ _ (by simp) (by simp), fun _ => k, by simp⟩
  | plus =>
    have k : W X false true (Pp.cardinality (some 1) (some (-1))) [.sym ['+']] := key (t := []) (by decide) (by decide)
    exact ⟨_, .plus, k.weaken _ _ (by simp) (by simp), fun _ => k, by simp⟩

theorem isDot_rename (q : IriRef → IriRef) {e : SE} (h : e ≠ .shape none none none none none none) :
    isDot (e.rename q) = false := by
  cases e with
  | shape closed extra te acts anns ext =>
    cases closed <;> cases extra <;> cases te <;> cases acts <;> cases anns <;> cases ext <;>
      first | exact absurd rfl h | rfl
  | _ => rfl

/-- A triple expression without label. -/
theorem W.tc (hN : Names N m) {PI : PInner} {GI : Inner} (hs : SeWords X m PI.inline GI.inline)
    (hd : GI.inline [.sym ['.']] (.shape none none none none none none)) :
    TeWords X m (PTriple1 N PI) (Unary GI) := by
  intro e h
  cases h with
  | @tc neg inv p v mn mx acts anns hn hi hp hv hc ha hb h1 h2 =>
    obtain ⟨ft, f1, f2⟩ := W.flags (X := X) hn hi
    have hv' : ∃ d, Pp.valueOpt m v = some d ∧ ∃ vt e, GI.inline vt e ∧
        (if isDot e then none else some e) = SE.renameOpt (shown m) v ∧ W X true false d vt ∧
        (v = none → W X false false d vt) := by
      cases v with
      | none =>
        have k : W X false false (.text ['.']) [.sym ['.']] := .sym (by decide) (by decide)
        exact ⟨_, by rw [Pp.valueOpt], _, _, hd, rfl, k.needs, fun _ => k⟩
      | some e =>
        obtain ⟨k1, k2⟩ := hv e rfl
        obtain ⟨d, k3, ts, k4, k5⟩ := hs e k1
        refine ⟨d, by rw [Pp.valueOpt, k3], ts, _, k4, ?_, k5, by simp⟩
        rw [isDot_rename _ k2]
        rfl
    obtain ⟨d, v1, vt, e, v2, v3, v4, v5⟩ := hv'
    obtain ⟨ct, c1, c2, c3, c4⟩ := W.card (X := X) hc
    have hfp := ((f2.cat (W.name hN hp) (by simp)).cat W.space (by simp))
    cases ha with
    | none =>
      obtain ⟨da, at', as, b1, b2, b3, b4⟩ := W.annots (X := X) hN hb
      refine ⟨_, by rw [Pp.triple, v1, b1]; rfl, _, ?_,
        ((((hfp.cat v4 (by simp)).cat c2 (by simp)).cat W.nil (by simp)).cat b4 (by simp))⟩
      · rw [TE.rename, ← v3, ← b3]
        have := Unary.constraint .none f1 (.name (shown m p)) v2 c1 b2 (Spec.Seq.nil (R := ActText))
        simpa [listed] using this
    | @some l hne ha =>
      obtain rfl : anns = none := by rcases h1 with h | h; cases h; exact h
      obtain ⟨st, s1, s2⟩ := W.actions (X := X) hN hne ha
      have hvc : W X false false (Pp.flag '!' neg ++ Pp.flag '^' inv ++ Pp.iriRef m p ++ Doc.space ++ d ++
          Pp.cardinality mn mx) (ft ++ [.name (shown m p)] ++ [] ++ vt ++ ct) := by
        by_cases hm : mn = none
        · have hv0 : v = none := by
            rcases h2 with h | h | h
            · cases h
            · exact h
            · exact absurd hm h
          exact (hfp.cat (v5 hv0) (by simp)).cat (c4 hm) (by simp)
        · exact (hfp.cat v4 (by simp)).cat (c3 hm) (by simp)
      refine ⟨_, by rw [Pp.triple, v1]; rfl, _, ?_, ((hvc.cat s2 (by simp)).cat W.nil' (by simp)).needs⟩
      · rw [TE.rename, ← v3]
        have := Unary.constraint .none f1 (.name (shown m p)) v2 c1 (Spec.Seq.nil (R := AnnText)) s1
        simpa [listed, hne] using this

theorem W.triple (hN : Names N m) {PI : PInner} {GI : Inner} (hs : SeWords X m PI.inline GI.inline)
    (hd : GI.inline [.sym ['.']] (.shape none none none none none none)) :
    TeWords X m (PTriple N PI) (Triple GI) := by
  intro e h
  cases h with
  | single h =>
    obtain ⟨d, h1, ts, h2, h3⟩ := W.tc hN hs hd e h
    refine ⟨d, h1, ts, .single ?_, h3⟩
    have := Group.single h2 .none
    simpa using this
  | @each e f es h =>
    obtain ⟨ds, h1, h2⟩ := all_some (f := Pp.triple m)
      (Q := fun d e => ∃ ts, Unary GI ts (e.rename (shown m)) ∧ W X true false d ts) (l := e :: f :: es)
      fun x hx => W.tc hN hs hd x (h x hx)
    have s1 : W X false true (.text [';'] ++ .line) [.sym [';']] :=
      (W.symEnds (by decide) (by decide) (.inl rfl)).cat W.line (by simp)
    obtain ⟨ts, h3, h4⟩ := W.sepWord (R := Unary GI) s1 (List.forall₂_map_right_iff (f := TE.rename (shown m)).2 h2)
      (forall₂_ne h2 (by simp))
    refine ⟨_, by rw [Pp.triple, triples_eq, h1]; rfl, ts, .single ?_, h4⟩
    rw [TE.rename, renameAllT_eq]
    cases h3 with
    | more k1 k2 =>
      have := Group.many k1 k2 .none
      simpa using this

/-! ## Brackets -/

theorem dot_inline (n : Nat) : (Level (n + 1)).inline [.sym ['.']] (.shape none none none none none none) :=
  Disj.mk (es := [_]) (.one (Conj.mk (es := [_]) (.one (.plain .any))))

theorem W.level (hN : Names N m) (n : Nat) : SeWords X m (PLevel N n).inline (Level (n + 1)).inline ∧
    TeWords X m (PLevel N n).triple (Level (n + 1)).triple := by
  induction n with
  | zero => exact ⟨fun _ h => h.elim, fun _ h => h.elim⟩
  | succ n ih => exact ⟨W.disj hN ih.2 true, W.triple hN ih.1 (dot_inline n)⟩

theorem W.inline (hN : Names N m) : SeWords X m (PShape N true) InlineExpr := by
  rintro e ⟨n, h⟩
  obtain ⟨d, h1, ts, h2, h3⟩ := W.disj hN (W.level hN n).2 true e h
  exact ⟨d, h1, ts, ⟨n + 2, h2⟩, h3⟩

theorem W.shape (hN : Names N m) : SeWords X m (PShape N false) ShapeExpr := by
  rintro e ⟨n, h⟩
  obtain ⟨d, h1, ts, h2, h3⟩ := W.disj hN (W.level hN n).2 false e h
  exact ⟨d, h1, ts, ⟨n + 2, h2⟩, h3⟩

end Shexc
