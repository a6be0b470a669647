import Verif.Shexc.LemPrint

/-!
# Lemmas: which words the parts of a schema are written as
-/

namespace Shexc

open P Spec

variable {X : Ext}

/-- How a name is written. -/
def shown (m : Prefix.PrefixMap) : IriRef → IriRef
  | .iri i =>
    match m.longestMatch i with
    | some (al, rest) => .prefixed al rest
    | none => .iri i
  | r => r

/-- The names that `N` is about are written as names. -/
def Names (N : Str → Prop) (m : Prefix.PrefixMap) : Prop := ∀ i, N i → NameText (shown m (.iri i)) (m.qualify i)

theorem names_readable {I : Iris} {base : Option Str} {m : Prefix.PrefixMap} (hb : Prefix.Built m)
    (hh : m.hyperlink = false) : Names (Readable I base m) m := by
  intro i h
  have hm := Prefix.built_nodup hb
  unfold shown Prefix.PrefixMap.qualify Prefix.PrefixMap.qualifyOptional
  cases hl : m.longestMatch i with
  | none =>
    have hn := (Prefix.longestMatch_none hm i).1 hl
    have := NameText.iri (IriText.mk (h.whole hn))
    simpa [hl] using this
  | some e =>
    obtain ⟨al, rest⟩ := e
    obtain ⟨ns, h1, h2⟩ := Prefix.longestMatch_some hm hl
    simpa [hl, hh, Prefix.PrefixMap.format] using (h.short al ns rest h1 h2).2

variable {N : Str → Prop} {m : Prefix.PrefixMap}

theorem W.name (hN : Names N m) {r : IriRef} (h : PName N r) :
    W X true false (Pp.iriRef m r) [.name (shown m r)] := by
  cases h with
  | mk h => exact .word (.name (hN _ h))

theorem W.label (hN : Names N m) {l : Label} (h : PLabel N l) :
    ∃ t, LabelWord t (l.rename (shown m)) ∧ W X true false (Pp.label m l) [t] := by
  cases h with
  | iri h => exact ⟨_, .iri _, .word (.name (hN _ h))⟩
  | bnode h => exact ⟨_, .bnode _, .word (.bnode h)⟩

theorem labelText (hN : Names N m) {l : Label} (h : PLabel N l) :
    ∃ s, LabelText (l.rename (shown m)) s ∧ Pp.label m l = .text s := by
  cases h with
  | iri h => exact ⟨_, .iri (hN _ h), rfl⟩
  | bnode h => exact ⟨_, .bnode h, rfl⟩

theorem W.same {n g : Bool} {d d' : Doc} {ts : List Tok} (h : W X n g d' ts) (hd : ∀ w, Layout d w → Layout d' w) :
    W X n g d ts := fun w rest r hl => h w rest r (hd w hl)

theorem W.reference (hN : Names N m) {l : Label} (h : PLabel N l) :
    W X true false (Pp.reference m l) [.at (l.rename (shown m))] := by
  obtain ⟨s, h1, h2⟩ := labelText hN h
  refine (W.word (.at h1)).same fun w hl => ?_
  unfold Pp.reference at hl
  rw [h2] at hl
  obtain ⟨u, v, rfl, hu, hv⟩ := layout_append.1 hl
  cases layout_text hu
  cases layout_text hv
  exact .text _

/-! ## Facets -/

theorem decNum_eq_ofDigitChars (ds : Str) : ∀ n : Nat, Nat.ofDigitChars 10 ds n = n * 10 ^ ds.length + decNum ds := by
  induction ds with
  | nil => intro n; simp [decNum, Nat.ofDigitChars]
  | cons c ds ih =>
    intro n
    have e : decNum (c :: ds) = decNum [c] * 10 ^ ds.length + decNum ds := decNum_append [c] ds
    have h1 : decNum [c] = c.toNat - 0x30 := by simp [decNum]
    have h2 : Nat.ofDigitChars 10 (c :: ds) n = Nat.ofDigitChars 10 ds (10 * n + (c.toNat - 0x30)) := rfl
    rw [h2, ih, e, h1, List.length_cons]
    ring

theorem showNat_int (n : Nat) : IntText (n : Int) (Pp.showNat n) := by
  have hd : Digits (Pp.showNat n) := by
    refine ⟨Nat.toDigits_ne_nil, fun c hc => ?_⟩
    have h := Nat.isDigit_of_mem_toDigits (by omega) (by omega) hc
    simp only [Char.isDigit, ge_iff_le, Bool.and_eq_true, decide_eq_true_eq] at h
    exact ⟨h.1, h.2⟩
  have hn : decNum (Pp.showNat n) = n := by
    have h := decNum_eq_ofDigitChars (Pp.showNat n) 0
    rw [Nat.zero_mul, Nat.zero_add] at h
    rw [← h]
    exact Nat.ofDigitChars_ten_toDigits
  have := IntText.mk (b := false) Sign.none hd
  rw [hn] at this
  exact this

theorem W.kwNat {k : String} {w : String} (hk : k ∈ keywords) (h : w.toList.map Char.toLower = k.toList.map Char.toLower)
    (n : Nat) : W X true false (Pp.keyword w ++ Doc.space ++ .text (Pp.showNat n)) [.kw k, .int n] :=
  (W.cat (W.cat (W.word (.kw hk h)) W.space (by simp)) (W.word (.int (showNat_int n))) (by simp))

theorem W.facet {f : Facet} (h : PFacet f) : ∃ ts, StrFacet ts f ∧ W X true false (Pp.facet f) ts := by
  cases h with
  | length h => exact ⟨_, .length h, .kwNat (by decide) (by decide) _⟩
  | minLength h => exact ⟨_, .minLength h, .kwNat (by decide) (by decide) _⟩
  | maxLength h => exact ⟨_, .maxLength h, .kwNat (by decide) (by decide) _⟩
  | @pattern s fs h hne hs h0 hf =>
    refine ⟨_, .pattern _, .word (.regex ?_)⟩
    cases fs with
    | none => exact RegexText.mk (fs := []) h hne hs (by simp)
    | some fs =>
      have := RegexText.mk (fs := fs) h hne hs (hf fs rfl)
      rw [if_neg (by rintro rfl; exact h0 rfl)] at this
      exact this

theorem W.facets {fs : Option (List Facet)} (h : PFacets fs) :
    ∃ ts l, StrFacets ts l ∧ listed l = fs ∧ W X true true (fs.elim .nil Pp.facets) ts := by
  cases h with
  | none => exact ⟨[], [], .none, rfl, .nil⟩
  | one h =>
    obtain ⟨ts, h1, h2⟩ := W.facet (X := X) h
    exact ⟨ts, _, .one h1, rfl, W.space.cat h2 (by simp)⟩

/-! ## Lists -/

theorem all_some {α : Type} {f : α → Option Doc} {Q : Doc → α → Prop} {l : List α}
    (h : ∀ a ∈ l, ∃ d, f a = some d ∧ Q d a) : ∃ ds, Pp.all f l = some ds ∧ List.Forall₂ Q ds l := by
  induction l with
  | nil => exact ⟨[], rfl, .nil⟩
  | cons a l ih =>
    obtain ⟨d, h1, h2⟩ := h a (by simp)
    obtain ⟨ds, h3, h4⟩ := ih fun b hb => h b (by simp [hb])
    exact ⟨d :: ds, by simp [Pp.all, h1, h3], .cons h2 h4⟩

theorem map_forall₂ {α β : Type} {Q : β → α → Prop} {f : α → β} {l : List α} (h : ∀ a ∈ l, Q (f a) a) :
    List.Forall₂ Q (l.map f) l := by
  induction l with
  | nil => exact .nil
  | cons a l ih => exact .cons (h a (by simp)) (ih fun b hb => h b (by simp [hb]))

theorem forall₂_ne {α β : Type} {Q : α → β → Prop} {l : List α} {l' : List β} (h : List.Forall₂ Q l l') (hne : l' ≠ []) :
    l ≠ [] := by
  rintro rfl
  cases h
  exact hne rfl

/-! ## Values -/

theorem values_of_seq {ts : List Tok} {vs : List Value} (h : Spec.Seq PlainValue ts vs) : Values ts vs := by
  induction h with
  | nil => exact .nil
  | cons h _ ih => exact .plain h ih

theorem W.valueSet (hN : Names N m) {vs : List Value} (h : ∀ v ∈ vs, PValue N v) :
    ∃ d ts, Pp.valueSet m vs = some d ∧ Values ts (vs.map (Value.rename (shown m))) ∧
      W X false true d (.sym ['['] :: (ts ++ [.sym [']']])) := by
  obtain ⟨ds, h1, h2⟩ := all_some (f := Pp.value m)
    (Q := fun d v => ∃ ts, PlainValue ts (v.rename (shown m)) ∧ W X true false d ts) (l := vs) (by
      intro v hv
      cases h v hv with
      | iri h => exact ⟨_, rfl, _, .iri _, .name hN (.mk h)⟩)
  have lb : W X false false (.text ['[']) [.sym ['[']] := .sym (by decide) (by decide)
  have rb : W X false false (.text [']']) [.sym [']']] := .sym (by decide) (by decide)
  cases vs with
  | nil =>
    cases h2
    exact ⟨_, [], by rw [Pp.valueSet, h1]; rfl, .nil, W.space.cat (lb.cat rb (by simp)) (by simp)⟩
  | cons v vs =>
    have hne := forall₂_ne h2 (by simp)
    obtain ⟨ts, h3, h4⟩ := W.seq (R := PlainValue) W.space
      (List.forall₂_map_right_iff (f := Value.rename (shown m)).2 h2) hne
    refine ⟨_, ts, by rw [Pp.valueSet, h1]; rfl, values_of_seq h3, ?_⟩
    have e : Pp.enclose ['['] ds [']'] =
        .group (.nest (.text ['['] ++ .line ++ Doc.sepBy Doc.space ds) ++ .line ++ .text [']']) := by
      unfold Pp.enclose
      rw [if_neg (by simpa using hne)]
    rw [e]
    have := W.space.cat ((((((lb.cat W.line (by simp)).cat h4 (by simp)).nest).cat W.line (by simp)).cat rb
      (by simp)).group) (by simp)
    simpa using this

/-! ## Node constraints -/

theorem facets_str {ts : List Tok} {l : List Facet} (h : StrFacets ts l) : Facets ts l := by
  have := Facets.mk h (Spec.Seq.nil (R := NumFacet))
  simpa using this

/-- An expression for a node constraint. -/
theorem W.nc (hN : Names N m) {c : NC} (h : PNC N c) (I : Inner) (inl : Bool) :
    ∃ d ts, Pp.nodeConstraint m c = some d ∧ Atom I inl ts (.nc (c.rename (shown m))) ∧ W X true false d ts := by
  cases h with
  | @kind fs k h =>
    obtain ⟨ts, l, h1, rfl, h3⟩ := W.facets (X := X) h
    have key : ∃ t, Atom I inl (t :: ts) (.nc { kind := some k, facets := listed l }) ∧
        W X true false (Pp.kind k) [t] := by
      cases k with
      | iri => exact ⟨_, .kind (.mk .iri h1), .word (.kw (by decide) rfl)⟩
      | bnode => exact ⟨_, .kind (.mk .bnode h1), .word (.kw (by decide) rfl)⟩
      | nonLiteral => exact ⟨_, .kind (.mk .nonLiteral h1), .word (.kw (by decide) rfl)⟩
      | literal => exact ⟨_, .lit (.literal (facets_str h1)), .word (.kw (by decide) rfl)⟩
    obtain ⟨t, h4, h5⟩ := key
    exact ⟨_, _, rfl, h4, ((h5.cat .nil (by simp)).cat .nil (by simp)).cat h3 (by simp)⟩
  | @datatype dt fs hd h =>
    obtain ⟨ts, l, h1, rfl, h3⟩ := W.facets (X := X) h
    refine ⟨_, _, rfl, .lit (.datatype (facets_str h1)), ?_⟩
    exact (((W.nil').cat (.name hN hd) (by simp)).cat .nil (by simp)).cat h3 (by simp)
  | @values vs fs hv h =>
    obtain ⟨ts, l, h1, rfl, h3⟩ := W.facets (X := X) h
    obtain ⟨d, us, h4, h5, h6⟩ := W.valueSet (X := X) hN hv
    refine ⟨_, _, by simp only [Pp.nodeConstraint, Pp.opt, h4]; rfl, .lit (.values h5 (facets_str h1)), ?_⟩
    have := ((((W.nil' (X := X)).cat .nil' (by simp)).cat h6 (by simp)).cat h3 (by simp))
    simpa using this.needs
  | facet h =>
    obtain ⟨ts, h1, h2⟩ := W.facet (X := X) h
    refine ⟨_, _, rfl, .facet h1, ?_⟩
    have := ((((W.nil' (X := X)).cat .nil' (by simp)).cat .nil' (by simp)).cat (W.space.cat h2 (by simp)) (by simp))
    simpa [Pp.facets, Doc.sepBy] using this

/-! ## Annotations and actions -/

theorem W.obj (hN : Names N m) {o : ObjVal} (h : PObj N o) :
    ∃ d t, Pp.objVal m o = some d ∧ ObjWord t (o.rename (shown m)) ∧ W X true false d [t] := by
  cases h with
  | iri h => exact ⟨_, _, rfl, .iri _, .name hN (.mk h)⟩
  | str h => exact ⟨_, _, rfl, .lit _, .word (.lit (.str (.double h)))⟩

theorem W.annot (hN : Names N m) {a : Annot} (h : PAnnot N a) :
    ∃ d ts, Pp.annot m a = some d ∧ AnnText ts (a.rename (shown m)) ∧ W X true false d ts := by
  obtain ⟨d, t, h1, h2, h3⟩ := W.obj (X := X) hN h.obj
  refine ⟨_, _, by simp only [Pp.annot, h1]; rfl, .mk (.name _) h2, ?_⟩
  exact (((((W.sym (by decide) (by decide)).cat W.space (by simp)).cat (W.name hN h.pred) (by simp)).cat W.space
    (by simp)).cat h3 (by simp))

theorem W.annots (hN : Names N m) {as : Option (List Annot)} (h : PList (PAnnot N) as) :
    ∃ d ts l, Pp.opt (Pp.annots m) as = some d ∧ Spec.Seq AnnText ts l ∧
      listed l = as.map (·.map (Annot.rename (shown m))) ∧ W X true true d ts := by
  cases h with
  | none => exact ⟨_, [], [], rfl, .nil, rfl, .nil⟩
  | @some l hne h =>
    obtain ⟨ds, h1, h2⟩ := all_some (f := Pp.annot m)
      (Q := fun d a => ∃ ts, AnnText ts (a.rename (shown m)) ∧ W X true false d ts) (l := l) (by
        intro a ha
        obtain ⟨d, ts, h1, h2, h3⟩ := W.annot (X := X) hN (h a ha)
        exact ⟨d, h1, ts, h2, h3⟩)
    obtain ⟨ts, h3, h4⟩ := W.seq (R := AnnText) W.softline
      (List.forall₂_map_right_iff (f := Annot.rename (shown m)).2 h2) (forall₂_ne h2 hne)
    refine ⟨_, ts, _, by simp only [Pp.opt, Pp.annots, h1]; rfl, h3, ?_, W.space.cat h4 (by simp)⟩
    unfold listed
    rw [if_neg (by simpa using hne)]
    rfl

/-- A word that begins with a brace and that nothing sticks to. -/
theorem W.code {c : Str} (h : Chars CodeChar c c) :
    W X false true (.text ['{'] ++ .text c ++ .text ['%', '}']) [.code c] := by
  have hc : CodeText c ('{' :: (c ++ '%' :: ([] ++ ['}']))) := .mk h .nil
  have key := W.loose (X := X) (.code hc) fun _ h => h
  intro w rest r hl hr _
  obtain ⟨u, v, rfl, hu, hv⟩ := layout_append.1 hl
  obtain ⟨u', u2, rfl, hu', hu2⟩ := layout_append.1 hu
  cases layout_text hv
  cases layout_text hu'
  have e2 := layout_text hu2
  subst e2
  have e : ['{'] ++ u2 ++ ['%', '}'] = '{' :: (u2 ++ '%' :: ([] ++ ['}'])) := by simp
  rw [e]
  refine ⟨(key _ rest r (.text _) hr (by simp)).1, fun _ c hc => ?_⟩
  simp only [List.cons_append, List.head?_cons, Option.mem_def, Option.some.injEq] at hc
  subst hc
  simp

theorem W.action (hN : Names N m) {a : SemAct} (h : PAct N a) :
    ∃ ts, ActText ts (a.rename (shown m)) ∧ W X true false (Pp.action m a) ts := by
  cases h with
  | mk hr hc =>
    refine ⟨_, .code _ _, ?_⟩
    exact (((W.sym (by decide) (by decide)).cat (W.name hN hr) (by simp)).cat (W.code hc) (by simp)).needs

theorem W.actions (hN : Names N m) {l : List SemAct} (hne : l ≠ []) (h : ∀ a ∈ l, PAct N a) :
    ∃ ts, Spec.Seq ActText ts (l.map (SemAct.rename (shown m))) ∧ W X false false (Pp.actions m l) ts := by
  have h2 : List.Forall₂ (fun d a => ∃ ts, ActText ts (a.rename (shown m)) ∧ W X true false d ts) (l.map (Pp.action m)) l :=
    map_forall₂ fun a ha => W.action hN (h a ha)
  obtain ⟨ts, h3, h4⟩ := W.seq (R := ActText) W.hardline
    (List.forall₂_map_right_iff (f := SemAct.rename (shown m)).2 h2) (forall₂_ne h2 hne)
  refine ⟨ts, h3, ?_⟩
  have := h4.cat W.hardline (by simp)
  simpa [Pp.actions] using this

end Shexc
