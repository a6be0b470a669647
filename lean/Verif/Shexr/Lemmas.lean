import Verif.Shexr.Spec
import Verif.Rd.Lemmas

/-!
# Lemmas: ShEx schemas as graphs
-/

namespace Shexr

open Rd

section
variable {L A B : Type}

theorem optional_ok {p : Pr L A} {s s' : St L} {a : A} (h : p s = (.ok a, s')) :
    Rd.optional p s = (.ok (some a), s') := by
  simp only [Rd.optional, h]

theorem optional_err {p : Pr L A} {s s' : St L} (h : p s = (.err, s')) : Rd.optional p s = (.ok none, s') := by
  simp only [Rd.optional, h]

theorem optional_not_err {p : Pr L A} {s s' : St L} : Rd.optional p s ≠ (.err, s') := by
  intro h
  simp only [Rd.optional] at h
  rcases hp : p s with ⟨r, s1⟩
  rw [hp] at h
  cases r <;> simp at h

variable [DecidableEq L] {g : Gr L} {bool : L → Option Bool}

theorem mem_objs {s : Tm L} {p : Iri} {o : Tm L} : o ∈ g.objs s p ↔ Has g s p o := by
  unfold Gr.objs Has
  cases s.isLit
  · simp only [Bool.false_eq_true, if_false, List.mem_dedup, List.mem_map, List.mem_filter, decide_eq_true_eq,
      true_and]
    constructor
    · rintro ⟨⟨a, b, c⟩, ⟨h, rfl, rfl⟩, rfl⟩
      exact h
    · intro h
      exact ⟨_, ⟨h, rfl, rfl⟩, rfl⟩
  · simp

theorem eq_single {l : List A} {a : A} (hn : l.Nodup) (hm : ∀ x, x ∈ l ↔ x = a) : l = [a] := by
  match l with
  | [] => simp at hm
  | [b] => rw [(hm b).1 (by simp)]
  | b :: c :: l =>
    have hb := (hm b).1 (by simp)
    have hc := (hm c).1 (by simp)
    simp [hb, hc] at hn

theorem objs_only {s : Tm L} {p : Iri} {o : Tm L} (h : Only g s p o) : g.objs s p = [o] :=
  eq_single (Rd.nodup_objs s p) fun x => mem_objs.trans (h x)

theorem objs_lacks {s : Tm L} {p : Iri} (h : Lacks g s p) : g.objs s p = [] :=
  List.eq_nil_iff_forall_not_mem.2 fun o ho => h o (mem_objs.1 ho)

theorem single_only (hg : g.Orders) {p : Iri} {t : Tm L} {k : Nat} {o : Tm L} (h : Only g t p o) :
    single g p ⟨t, k⟩ = (.ok o, ⟨t, k + 1⟩) := by
  have : g.ord k (g.objs t p) = [o] := by
    rw [objs_only h]
    exact List.perm_singleton.1 (hg k [o])
  simp [single, bind, andThen, values, this, ret]

theorem single_lacks (hg : g.Orders) {p : Iri} {t : Tm L} {k : Nat} (h : Lacks g t p) :
    single g p ⟨t, k⟩ = (.err, ⟨t, k + 1⟩) := by
  have : g.ord k (g.objs t p) = [] := by
    rw [objs_lacks h]
    exact List.perm_nil.1 (hg k [])
  simp [single, bind, andThen, values, this, fail]

theorem hasType_yes (hg : g.Orders) {c : Iri} {t : Tm L} {k : Nat} (h : Only g t (.v .type) (.iri c)) :
    hasType g c ⟨t, k⟩ = (.ok (), ⟨t, k + 1⟩) := by
  rw [hasType, bind_ok (single_only hg h), if_pos rfl]
  rfl

theorem hasType_no (hg : g.Orders) {c d : Iri} {t : Tm L} {k : Nat} (h : Only g t (.v .type) (.iri d)) (hd : d ≠ c) :
    hasType g c ⟨t, k⟩ = (.err, ⟨t, k + 1⟩) := by
  rw [hasType, bind_ok (single_only hg h), if_neg (by simpa using hd)]
  rfl

theorem sx_inj {a b : String} (h : a ≠ b) : sx a ≠ sx b := by
  intro hab
  simp only [sx, Iri.o.injEq, String.append_right_inj] at hab
  exact h hab

theorem junction_no (hg : g.Orders) {p : Pr L (Se L)} {c d : Iri} {f : List (Se L) → Se L} {t : Tm L} {k : Nat}
    (h : Only g t (.v .type) (.iri d)) (hd : d ≠ c) : junction g p c f ⟨t, k⟩ = (.err, ⟨t, k + 1⟩) := by
  rw [junction, bind_err (hasType_no hg h hd)]

theorem shape_no (hg : g.Orders) {d : Iri} {t : Tm L} {k : Nat}
    (h : Only g t (.v .type) (.iri d)) (hd : d ≠ sx "Shape") : shape g bool ⟨t, k⟩ = (.err, ⟨t, k + 1⟩) := by
  rw [shape, bind_err (hasType_no hg h hd)]

theorem each_ok {f : A → Pr L B} : ∀ (ts : List A) (es : List B) (s : St L),
    List.Forall₂ (fun t e => ∀ s, ∃ s', f t s = (.ok e, s')) ts es → ∃ s', each f ts s = (.ok es, s')
  | [], _, s, h => by
    cases h
    exact ⟨s, rfl⟩
  | t :: ts, _, s, h => by
    cases h with
    | cons h1 h2 =>
      obtain ⟨s1, h1⟩ := h1 s
      obtain ⟨s2, h2⟩ := each_ok ts _ s1 h2
      exact ⟨s2, by rw [each, bind_ok h1, bind_ok h2]; rfl⟩

theorem listOf_ok (hg : g.Orders) {p : Pr L A} {l : Tm L} {ts : List (Tm L)} {es : List A} (hl : g.IsList l ts)
    (h : List.Forall₂ (fun t e => ∀ k, ∃ s', p ⟨t, k⟩ = (.ok e, s')) ts es) (k : Nat) :
    ∃ s', listOf g p ⟨l, k⟩ = (.ok es, s') := by
  obtain ⟨k', hk⟩ := listP_isList hg hl k
  obtain ⟨s', hs⟩ := each_ok (f := fun t => setFocus t >>= fun _ => p) ts es ⟨nilT, k'⟩
    (h.imp fun t e h s => by
      obtain ⟨s', hs⟩ := h s.reads
      exact ⟨s', by rw [setFocus_bind, hs]⟩)
  exact ⟨s', by rw [listOf, bind_ok hk]; exact hs⟩

theorem junction_ok (hg : g.Orders) {p : Pr L (Se L)} {c : Iri} {f : List (Se L) → Se L} {t l : Tm L} {k : Nat}
    {ts : List (Tm L)} {es : List (Se L)} (ht : Only g t (.v .type) (.iri c)) (hs : Only g t (sx "shapeExprs") l)
    (hl : g.IsList l ts) (h : List.Forall₂ (fun t e => ∀ k, ∃ s', p ⟨t, k⟩ = (.ok e, s')) ts es) :
    ∃ s', junction g p c f ⟨t, k⟩ = (.ok (f es), s') := by
  obtain ⟨s', hs'⟩ := listOf_ok hg hl h (k + 1 + 1)
  exact ⟨s', by rw [junction, bind_ok (hasType_yes hg ht), bind_ok (single_only hg hs), setFocus_bind, bind_ok hs']; rfl⟩

theorem shape_ok (hg : g.Orders) {t : Tm L} {k : Nat} {c : Option Bool} (ht : Typed g t "Shape")
    (hc : Opt g t (sx "closed") (fun o b => ∃ l, o = .lit l ∧ bool l = some b) c) :
    ∃ s', shape g bool ⟨t, k⟩ = (.ok (.shape c none none), s') := by
  rw [shape, bind_ok (hasType_yes hg ht)]
  cases c with
  | none =>
    have : closed g bool ⟨t, k + 1⟩ = (.ok none, ⟨t, k + 1 + 1⟩) :=
      optional_err (bind_err (single_lacks hg hc))
    exact ⟨_, by rw [bind_ok this]; rfl⟩
  | some b =>
    obtain ⟨o, ho, l, rfl, hb⟩ := hc
    have : closed g bool ⟨t, k + 1⟩ = (.ok (some b), ⟨t, k + 1 + 1⟩) := by
      refine optional_ok ?_
      rw [bind_ok (single_only hg ho)]
      simp [lift, hb]
    exact ⟨_, by rw [bind_ok this]; rfl⟩

theorem nodekind_ok (n : NKind) (k : Nat) : nodekind (L := L) ⟨.iri (sx n.name), k⟩ = (.ok n, ⟨.iri (sx n.name), k⟩) := by
  have e : ∀ a b : String, (Tm.iri (sx a) : Tm L) = .iri (sx b) ↔ a = b := fun a b => by
    refine ⟨fun h => ?_, fun h => by rw [h]⟩
    by_contra hn
    exact sx_inj hn (by simpa using h)
  cases n <;> simp [nodekind, isIri, orElse, bind, andThen, getFocus, NKind.name, e, ret, fail]

theorem parseNodekind_none (hg : g.Orders) {t : Tm L} {k : Nat} (h : Lacks g t (sx "nodeKind")) :
    parseNodekind g ⟨t, k⟩ = (.ok none, ⟨t, k + 1⟩) :=
  optional_err (bind_err (single_lacks hg h))

theorem parseNodekind_some (hg : g.Orders) {t : Tm L} {k : Nat} {n : NKind}
    (h : Only g t (sx "nodeKind") (.iri (sx n.name))) :
    parseNodekind g ⟨t, k⟩ = (.ok (some n), ⟨.iri (sx n.name), k + 1⟩) := by
  refine optional_ok ?_
  rw [bind_ok (single_only hg h), setFocus_bind]
  exact nodekind_ok n (k + 1)

theorem parseValueSet_none (hg : g.Orders) {t : Tm L} {k : Nat} (h : Lacks g t (sx "values")) :
    parseValueSet g ⟨t, k⟩ = (.ok none, ⟨t, k + 1⟩) :=
  optional_err (bind_err (single_lacks hg h))

theorem parseValueSet_some (hg : g.Orders) {t l : Tm L} {k : Nat} {vs : List (Val L)}
    (h : Only g t (sx "values") l) (hl : g.IsList l (vs.map Val.term)) (hv : ∀ x ∈ vs, ∃ i, x = .iri i) :
    ∃ s', parseValueSet g ⟨t, k⟩ = (.ok (some vs), s') := by
  have hf : List.Forall₂ (fun t e => ∀ k, ∃ s', parseValue (L := L) ⟨t, k⟩ = (.ok e, s')) (vs.map Val.term) vs := by
    clear hl h
    induction vs with
    | nil => exact .nil
    | cons x vs ih =>
      obtain ⟨i, rfl⟩ := hv x (by simp)
      exact .cons (fun k => ⟨⟨.iri i, k⟩, rfl⟩) (ih fun y hy => hv y (by simp [hy]))
  obtain ⟨s', hs⟩ := listOf_ok hg hl hf (k + 1)
  exact ⟨s', optional_ok (by rw [bind_ok (single_only hg h), setFocus_bind]; exact hs)⟩

theorem each_err {f : A → Pr L B} : ∀ (ts : List A) (s : St L),
    (∀ t ∈ ts, ∀ s, (∃ b s', f t s = (.ok b, s')) ∨ ∃ s', f t s = (.err, s')) → (∃ t ∈ ts, ∀ s, ∃ s', f t s = (.err, s')) →
    ∃ s', each f ts s = (.err, s')
  | [], _, _, h => by simp at h
  | t :: ts, s, h1, h2 => by
    rcases h1 t (by simp) s with ⟨b, s1, hb⟩ | ⟨s1, hb⟩
    · obtain ⟨u, hu, hf⟩ := h2
      rcases List.mem_cons.1 hu with rfl | hu
      · obtain ⟨s2, h⟩ := hf s
        simp [hb] at h
      · obtain ⟨s2, h⟩ := each_err ts s1 (fun t ht => h1 t (by simp [ht])) ⟨u, hu, hf⟩
        exact ⟨s2, by rw [each, bind_ok hb, bind_err h]⟩
    · exact ⟨s1, by rw [each, bind_err hb]⟩

theorem parseValueSet_bad (hg : g.Orders) {t l : Tm L} {k : Nat} {ts : List (Tm L)}
    (h : Only g t (sx "values") l) (hl : g.IsList l ts) (hv : ∃ x ∈ ts, ∀ i, x ≠ .iri i) :
    ∃ s', parseValueSet g ⟨t, k⟩ = (.ok none, s') := by
  obtain ⟨k', hk⟩ := listP_isList hg hl (k + 1)
  obtain ⟨s', hs⟩ := each_err (f := fun t => setFocus t >>= fun _ => parseValue (L := L)) ts ⟨nilT, k'⟩
    (by
      intro t _ s
      rw [setFocus_bind]
      cases t with
      | iri i => exact .inl ⟨_, _, rfl⟩
      | bnode b => exact .inr ⟨_, rfl⟩
      | lit l => exact .inr ⟨_, rfl⟩)
    (by
      obtain ⟨x, hx, hi⟩ := hv
      refine ⟨x, hx, fun s => ?_⟩
      rw [setFocus_bind]
      cases x with
      | iri i => exact absurd rfl (hi i)
      | bnode b => exact ⟨_, rfl⟩
      | lit l => exact ⟨_, rfl⟩)
  refine ⟨s', optional_err ?_⟩
  rw [bind_ok (single_only hg h), setFocus_bind, listOf, bind_ok hk]
  exact hs

theorem nodeConstraint_not_err {s s' : St L} : nodeConstraint g s ≠ (.err, s') := by
  intro h
  rcases bind_err_iff.1 h with h | ⟨a, s1, -, h⟩
  · exact optional_not_err h
  · rcases bind_err_iff.1 h with h | ⟨b, s2, -, h⟩
    · exact optional_not_err h
    · simp [ret] at h

/-- A node with a class other than those of conjunctions, disjunctions and shapes is read as a node constraint. -/
theorem shapeExpr_other (hg : g.Orders) {n : Nat} {t : Tm L} {k : Nat} {d : Iri} (h : Only g t (.v .type) (.iri d))
    (h1 : d ≠ sx "ShapeAnd") (h2 : d ≠ sx "ShapeOr") (h3 : d ≠ sx "Shape") :
    shapeExpr g bool (n + 1) ⟨t, k⟩ = nodeConstraint g ⟨t, k + 1 + 1 + 1⟩ := by
  rw [shapeExpr, orElse_err]
  rw [orElse_err]
  · exact shape_no hg h h3
  · rw [orElse_err (junction_no hg h h1)]
    exact junction_no hg h h2

theorem nc_ok (hg : g.Orders) (hs : Sane g) {t : Tm L} {k : Nat} {kd : Option NKind} {v : Option (List (Val L))}
    (h1 : Opt g t (sx "nodeKind") (fun o k => o = .iri (sx k.name)) kd)
    (h2 : Opt g t (sx "values") (fun o vs => g.IsList o (vs.map Val.term)) v) (h : kd = none ∨ v = none)
    (hv : ∀ vs ∈ v, ∀ x ∈ vs, ∃ i, x = .iri i) : ∃ s', nodeConstraint g ⟨t, k⟩ = (.ok (.nc kd none v), s') := by
  rw [nodeConstraint]
  cases kd with
  | none =>
    rw [bind_ok (parseNodekind_none hg h1)]
    cases v with
    | none => exact ⟨_, by rw [bind_ok (parseValueSet_none hg h2)]; rfl⟩
    | some vs =>
      obtain ⟨l, hl, hi⟩ := h2
      obtain ⟨s', hs⟩ := parseValueSet_some hg hl hi (hv vs rfl) (k := k + 1)
      exact ⟨s', by rw [bind_ok hs]; rfl⟩
  | some n =>
    obtain ⟨o, ho, rfl⟩ := h1
    rw [bind_ok (parseNodekind_some hg ho)]
    obtain rfl : v = none := by simpa using h
    exact ⟨_, by rw [bind_ok (parseValueSet_none hg (hs n))]; rfl⟩

mutual
theorem read_se (hg : g.Orders) (hs : Sane g) {t : Tm L} {e : Se L} : IsSe g bool t e → e.Plain →
    ∃ n0, ∀ n, n0 ≤ n → ∀ k, ∃ s', shapeExpr g bool n ⟨t, k⟩ = (.ok e, s')
  | .and ht ho hl hes, hp => by
    obtain ⟨n0, h⟩ := read_ses hg hs hes (by simpa [Se.Plain] using hp)
    refine ⟨n0 + 1, fun n hn k => ?_⟩
    obtain ⟨m, rfl⟩ : ∃ m, n = m + 1 := ⟨n - 1, by omega⟩
    obtain ⟨s', hs'⟩ := junction_ok hg (f := .and) (k := k) ht ho hl (h m (by omega))
    exact ⟨s', by rw [shapeExpr]; exact orElse_ok (orElse_ok (orElse_ok hs'))⟩
  | .or ht ho hl hes, hp => by
    obtain ⟨n0, h⟩ := read_ses hg hs hes (by simpa [Se.Plain] using hp)
    refine ⟨n0 + 1, fun n hn k => ?_⟩
    obtain ⟨m, rfl⟩ : ∃ m, n = m + 1 := ⟨n - 1, by omega⟩
    obtain ⟨s', hs'⟩ := junction_ok hg (f := .or) (k := k + 1) ht ho hl (h m (by omega))
    refine ⟨s', ?_⟩
    rw [shapeExpr]
    refine orElse_ok (orElse_ok ?_)
    rw [orElse_err (junction_no hg ht (sx_inj (by decide)))]
    exact hs'
  | .not _ _ _, hp => by simp [Se.Plain] at hp
  | .ext _, hp => by simp [Se.Plain] at hp
  | .ref _, hp => by simp [Se.Plain] at hp
  | .shape ht hc _ _, hp => by
    obtain ⟨rfl, rfl⟩ : _ = none ∧ _ = none := by simpa [Se.Plain] using hp
    refine ⟨1, fun n hn k => ?_⟩
    obtain ⟨m, rfl⟩ : ∃ m, n = m + 1 := ⟨n - 1, by omega⟩
    obtain ⟨s', hs'⟩ := shape_ok hg ht hc (k := k + 1 + 1)
    refine ⟨s', ?_⟩
    rw [shapeExpr]
    refine orElse_ok ?_
    rw [orElse_err]
    · exact hs'
    · rw [orElse_err (junction_no hg ht (sx_inj (by decide)))]
      exact junction_no hg ht (sx_inj (by decide))
  | .nc (k := kd) (d := d) (v := v) ht hk _ hv, hp => by
    obtain ⟨rfl, h1, h2⟩ : d = none ∧ (kd = none ∨ v = none) ∧ ∀ vs ∈ v, ∀ x ∈ vs, ∃ i, x = .iri i := by
      unfold Se.Plain at hp
      exact hp
    refine ⟨1, fun n hn k => ?_⟩
    obtain ⟨m, rfl⟩ : ∃ m, n = m + 1 := ⟨n - 1, by omega⟩
    rw [shapeExpr_other hg ht (sx_inj (by decide)) (sx_inj (by decide)) (sx_inj (by decide))]
    exact nc_ok hg hs hk hv h1 h2

theorem read_ses (hg : g.Orders) (hs : Sane g) {ts : List (Tm L)} {es : List (Se L)} : AreSes g bool ts es →
    Plains es → ∃ n0, ∀ n, n0 ≤ n →
      List.Forall₂ (fun t e => ∀ k, ∃ s', shapeExpr g bool n ⟨t, k⟩ = (.ok e, s')) ts es
  | .nil, _ => ⟨0, fun _ _ => .nil⟩
  | .cons h hs', hp => by
    rw [Plains] at hp
    obtain ⟨n1, h1⟩ := read_se hg hs h hp.1
    obtain ⟨n2, h2⟩ := read_ses hg hs hs' hp.2
    exact ⟨max n1 n2, fun n hn => .cons (h1 n (by omega)) (h2 n (by omega))⟩
end

theorem mem_instances {c : Iri} (x : Tm L) : x ∈ instances g c ↔ Has g x (.v .type) (.iri c) := by
  unfold Has instances
  simp only [List.mem_dedup, List.mem_map, List.mem_filter, decide_eq_true_eq]
  constructor
  · rintro ⟨⟨a, b, c⟩, ⟨h, h1, rfl, rfl⟩, rfl⟩
    exact ⟨h1, h⟩
  · rintro ⟨h1, h⟩
    exact ⟨_, ⟨h, h1, rfl, rfl⟩, rfl⟩

theorem instances_only {c : Iri} {s : Tm L} (h : ∀ s', Has g s' (.v .type) (.iri c) ↔ s' = s) : instances g c = [s] :=
  eq_single (List.nodup_dedup _) fun x => (mem_instances x).trans (h x)

theorem read_decls (hg : g.Orders) (hs : Sane g) {ts : List (Tm L)} {ds : List (Tm L × Se L)}
    (h : List.Forall₂ (IsDecl g bool) ts ds) : (∀ d ∈ ds, d.2.Plain) → ∃ n0, ∀ n, n0 ≤ n →
      List.Forall₂ (fun t d => ∀ k, ∃ s', shapeDecl g bool n ⟨t, k⟩ = (.ok d, s')) ts ds := by
  induction h with
  | nil => exact fun _ => ⟨0, fun _ _ => .nil⟩
  | @cons t d ts ds h1 _ ih =>
    intro hp
    obtain ⟨n1, h2⟩ := ih fun d hd => hp d (by simp [hd])
    obtain ⟨label, e⟩ := d
    obtain ⟨rfl, x, hx, hse⟩ := h1
    obtain ⟨n2, h3⟩ := read_se hg hs hse (hp _ (by simp))
    refine ⟨max n1 n2, fun n hn => .cons (fun k => ?_) (h2 n (by omega))⟩
    obtain ⟨s', hs'⟩ := h3 n (by omega) (k + 1)
    have hl : t.isLit = false := ((hx x).2 rfl).1
    refine ⟨s', ?_⟩
    rw [shapeDecl, getFocus_bind]
    show (if t.isLit = true then _ else _ : Pr L _) _ = _
    rw [hl]
    simp only [Bool.false_eq_true, if_false]
    rw [bind_ok (single_only hg hx), setFocus_bind, bind_ok hs']
    rfl

end

end Shexr
