import Verif.Shexc.LemPrint4

/-!
# Lemmas: which words a schema is written as, and when the printer panics
-/

namespace Shexc

open P Spec

variable {X : Ext} {N : Str → Prop} {m : Prefix.PrefixMap} {I : Iris}

theorem seq_append {α : Type} {R : List Tok → α → Prop} {ts us : List Tok} {l l' : List α} (h : Spec.Seq R ts l)
    (h' : Spec.Seq R us l') : Spec.Seq R (ts ++ us) (l ++ l') := by
  induction h with
  | nil => exact h'
  | cons h _ ih => rw [List.append_assoc]; exact .cons h ih

theorem layout_assoc {a b c : Doc} {w : Str} : Layout (a ++ b ++ c) w ↔ Layout (a ++ (b ++ c)) w := by
  simp only [layout_append]
  constructor
  · rintro ⟨_, v, rfl, ⟨u, u', rfl, h1, h2⟩, h3⟩
    exact ⟨u, u' ++ v, by simp, h1, _, _, rfl, h2, h3⟩
  · rintro ⟨u, _, rfl, h1, u', v, rfl, h2, h3⟩
    exact ⟨u ++ u', v, by simp, ⟨_, _, rfl, h1, h2⟩, h3⟩

theorem W.wholeIri {s : Str} (h : Chars IriChar s s) : W X true false (Pp.wholeIri s) [.name (.iri s)] :=
  .word (.name (.iri (.mk h)))

/-- Lines, each a statement. -/
theorem W.lines {α : Type} {f : α → Statement} {ds : List Doc} {l : List α}
    (h : List.Forall₂ (fun d a => ∃ ts, StatementText ts (f a) ∧ W X true false d ts) ds l) (hne : l ≠ []) :
    ∃ ts, Spec.Seq StatementText ts (l.map f) ∧ W X false false (Doc.sepBy .hardline ds ++ .hardline) ts := by
  obtain ⟨ts, h3, h4⟩ := W.seq (R := StatementText) W.hardline (List.forall₂_map_right_iff (f := f).2 h) (forall₂_ne h hne)
  refine ⟨ts, h3, ?_⟩
  have := h4.cat W.hardline (by simp)
  simpa using this

theorem W.prefixes {m : Prefix.PrefixMap} (h : PPrefixes m) :
    ∃ ts, Spec.Seq StatementText ts (m.map.map fun e => .pfx e.1 e.2) ∧ W X false false (Pp.prefixes m) ts := by
  refine W.lines (map_forall₂ fun e he => ?_) h.ne
  obtain ⟨h1, h2⟩ := h.name e he
  refine ⟨_, .pfx e.1 e.2, ?_⟩
  have k : W X true false (Pp.keyword "prefix") [.kw "PREFIX"] := .word (.kw (by decide) (by decide))
  have kn : W X true false (.text e.1 ++ .text [':']) [.ns e.1] := by
    refine (W.word (.ns h1)).same fun w hl => ?_
    obtain ⟨u, v, rfl, hu, hv⟩ := layout_append.1 hl
    cases layout_text hu
    cases layout_text hv
    exact .text _
  have := ((((k.cat W.space (by simp)).cat kn (by simp)).cat W.space (by simp)).cat (W.wholeIri h2) (by simp))
  refine (W.same (d := _) this fun w hl => ?_)
  obtain ⟨u, v, rfl, hu, hv⟩ := layout_append.1 hl
  obtain ⟨u1, u2, rfl, hu1, hu2⟩ := layout_append.1 hu
  exact layout_append.2 ⟨_, _, rfl, layout_append.2 ⟨_, _, rfl, layout_assoc.1 hu1, hu2⟩, hv⟩

theorem W.baseDecl {b : Str} (h : Chars IriChar b b) :
    ∃ ts, StatementText ts (.base b) ∧ W X false false (Pp.base b) ts := by
  refine ⟨_, .base b, ?_⟩
  have k : W X true false (Pp.keyword "base") [.kw "BASE"] := .word (.kw (by decide) (by decide))
  exact ((k.cat W.space (by simp)).cat (W.wholeIri h) (by simp)).cat W.hardline (by simp)

theorem W.import (hb : Prefix.Built m) {r : IriRef} (h : PImport m r) : W X true false (Pp.iriRef m r) [.name r] := by
  cases h with
  | @iri i h hm =>
    have hl := (Prefix.longestMatch_none (Prefix.built_nodup hb) i).2 hm
    have e : m.qualify i = '<' :: (i ++ ['>']) := by
      simp [Prefix.PrefixMap.qualify, Prefix.PrefixMap.qualifyOptional, hl]
    show W X true false (.text (m.qualify i)) _
    rw [e]
    exact .word (.name (.iri (.mk h)))
  | prefixed h =>
    refine (W.word (.name h)).same fun w hl => ?_
    obtain ⟨u, v, rfl, hu, hv⟩ := layout_append.1 hl
    obtain ⟨u1, u2, rfl, hu1, hu2⟩ := layout_append.1 hu
    rw [layout_text hu1, layout_text hu2, layout_text hv, List.append_assoc]
    exact .text _

theorem W.imports (hb : Prefix.Built m) {rs : List IriRef} (hne : rs ≠ []) (h : ∀ r ∈ rs, PImport m r) :
    ∃ ts, Spec.Seq StatementText ts (rs.map .imp) ∧ W X false false (Pp.imports m rs) ts := by
  unfold Pp.imports
  rw [if_neg (by simpa using hne)]
  refine W.lines (map_forall₂ fun r hr => ⟨_, .imp r, ?_⟩) hne
  have k : W X true false (Pp.keyword "import") [.kw "IMPORT"] := .word (.kw (by decide) (by decide))
  exact (k.cat W.space (by simp)).cat (W.import hb (h r hr)) (by simp)

theorem W.start (hN : Names N m) {e : SE} (h : PShape N true e) :
    ∃ d, Pp.start m e = some d ∧ ∃ ts, StatementText ts (.start (e.rename (shown m))) ∧ W X false false d ts := by
  obtain ⟨d, h1, ts, h2, h3⟩ := W.inline (X := X) hN e h
  refine ⟨_, by rw [Pp.start, h1]; rfl, _, .start h2, ?_⟩
  have k : W X true false (Pp.keyword "start") [.kw "START"] := .word (.kw (by decide) (by decide))
  have s : W X false false (.text ['=']) [.sym ['=']] := .sym (by decide) (by decide)
  have := (((((k.cat W.space (by simp)).cat s (by simp)).cat W.space (by simp)).cat h3 (by simp)).cat W.hardline
    (by simp))
  simpa using this

theorem W.decl (hN : Names N m) {d : Decl} (h : PDecl N d) :
    ∃ c, Pp.decl m d = some c ∧
      ∃ ts, StatementText ts (.decl false (d.label.rename (shown m)) (d.expr.rename (shown m))) ∧ W X true false c ts := by
  obtain ⟨t, h1, h2⟩ := W.label (X := X) hN h.label
  rcases h.expr with he | he
  · obtain ⟨c, h3, ts, h4, h5⟩ := W.shape (X := X) hN _ he
    refine ⟨_, by rw [Pp.decl, h3]; rfl, _, .decl h1 h4, ?_⟩
    exact (h2.cat W.space (by simp)).cat h5 (by simp)
  · have k : W X true false (Pp.keyword "EXTERNAL") [.kw "EXTERNAL"] := .word (.kw (by decide) rfl)
    refine ⟨_, by rw [Pp.decl, he, Pp.shapeExpr]; rfl, [t, .kw "EXTERNAL"], ?_, ?_⟩
    · rw [he, SE.rename]
      exact .external h1
    · exact (h2.cat W.space (by simp)).cat k (by simp)

/-- The words that a schema is written as. -/
theorem W.schema {S : Schema} (h : Printable I S) :
    ∃ d, Pp.schema S = some d ∧ ∃ ts, Spec.Seq StatementText ts (written S) ∧ W X false false d ts := by
  obtain ⟨imports, start, startActs, shapes, ⟨sb, pm⟩⟩ := S
  have hacts := h.startActs
  subst hacts
  have hbuilt : Prefix.Built (pm.getD .new) := by
    cases pm with
    | none => exact .new
    | some m => exact (h.prefixes m rfl).built
  have hN : Names (Readable I sb (pm.getD .new)) (pm.getD .new) := by
    refine names_readable hbuilt ?_
    cases pm with
    | none => rfl
    | some m => exact (h.prefixes m rfl).plain
  obtain ⟨t1, a1, b1⟩ : ∃ ts, Spec.Seq StatementText ts ((pm.getD .new).map.map fun e => .pfx e.1 e.2) ∧
      W X false false (pm.elim .nil Pp.prefixes) ts := by
    cases pm with
    | none => exact ⟨_, .nil, .nil'⟩
    | some m => exact W.prefixes (h.prefixes m rfl)
  obtain ⟨t2, a2, b2⟩ : ∃ ts, Spec.Seq StatementText ts (sb.toList.map .base) ∧
      W X false false (sb.elim .nil Pp.base) ts := by
    cases sb with
    | none => exact ⟨_, .nil, .nil'⟩
    | some b =>
      obtain ⟨ts, h1, h2⟩ := W.baseDecl (X := X) (h.base b rfl)
      exact ⟨ts ++ [], .cons h1 .nil, by rw [List.append_nil]; exact h2⟩
  obtain ⟨t3, a3, b3⟩ : ∃ ts, Spec.Seq StatementText ts ((imports.getD []).map .imp) ∧
      W X false false (imports.elim .nil (Pp.imports (pm.getD .new))) ts := by
    have hi := h.imports
    cases hi with
    | none => exact ⟨_, .nil, .nil'⟩
    | some hne hl => exact W.imports hbuilt hne hl
  obtain ⟨d4, c4, t4, a4, b4⟩ : ∃ d, Pp.opt (Pp.start (pm.getD .new)) start = some d ∧
      ∃ ts, Spec.Seq StatementText ts (start.toList.map fun e => .start (e.rename (shown (pm.getD .new)))) ∧
      W X false false d ts := by
    cases start with
    | none => exact ⟨_, rfl, _, .nil, .nil'⟩
    | some e =>
      obtain ⟨d, h1, ts, h2, h3⟩ := W.start (X := X) hN (h.start e rfl)
      exact ⟨d, h1, ts ++ [], .cons h2 .nil, by rw [List.append_nil]; exact h3⟩
  obtain ⟨d5, c5, t5, a5, b5⟩ : ∃ d, Pp.opt (Pp.decls (pm.getD .new)) shapes = some d ∧
      ∃ ts, Spec.Seq StatementText ts ((shapes.getD []).map fun d =>
        .decl false (d.label.rename (shown (pm.getD .new))) (d.expr.rename (shown (pm.getD .new)))) ∧
      W X false false d ts := by
    have hs := h.shapes
    cases hs with
    | none => exact ⟨_, rfl, _, .nil, .nil'⟩
    | @some l hne hl =>
      obtain ⟨ds, h1, h2⟩ := all_some (f := Pp.decl (pm.getD .new)) (l := l) fun d hd => W.decl (X := X) hN (hl d hd)
      obtain ⟨ts, h3, h4⟩ := W.lines h2 hne
      exact ⟨_, by rw [Pp.opt, Pp.decls, h1]; rfl, ts, h3, h4⟩
  refine ⟨_, by simp only [Pp.schema, c4, c5]; rfl, t1 ++ (t2 ++ (t3 ++ (t4 ++ t5))), ?_, ?_⟩
  · exact seq_append a1 (seq_append a2 (seq_append a3 (seq_append a4 a5)))
  · have := (((((b1.cat b2 (by simp)).cat b3 (by simp)).cat W.nil' (by simp)).cat b4 (by simp)).cat b5 (by simp))
    simpa using this

theorem written_text {S : Schema} (h : Printable I S) {w : Str} (hw : Written S w) :
    SchemaText X.spec w (written S) := by
  obtain ⟨d, h1, h2⟩ := hw
  obtain ⟨d', h3, ts, h4, h5⟩ := W.schema (X := X) h
  rw [h1] at h3
  cases h3
  obtain ⟨⟨g, r, hg, e, hr⟩, -⟩ := h5 w [] [] h2 (Sp.at' .nil) (by simp)
  rw [List.append_nil] at e hr
  exact ⟨g, ts, r, hg.weaken, e, hr, h4⟩

end Shexc
