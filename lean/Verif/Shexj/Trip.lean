import Verif.Shexj.Facets

/-!
# Lemmas: shape expressions, triple expressions and schemas written and read back
-/

namespace Shexj

open Shexc

theorem writeSEs_map (X : Ext) (es : List SE) : writeSEs X es = es.map (writeSE X) := by
  induction es with
  | nil => rfl
  | cons e es ih => rw [writeSEs, ih]; rfl

theorem writeTEs_map (X : Ext) (es : List TE) : writeTEs X es = es.map (writeTE X) := by
  induction es with
  | nil => rfl
  | cons e es ih => rw [writeTEs, ih]; rfl

theorem backs_map (es : List SE) : SE.backs es = es.map SE.back := by
  induction es with
  | nil => rfl
  | cons e es ih => rw [SE.backs, ih]; rfl

theorem tbacks_map (es : List TE) : TE.backs es = es.map TE.back := by
  induction es with
  | nil => rfl
  | cons e es ih => rw [TE.backs, ih]; rfl

theorem sesOk_mem {X : Ext} {es : List SE} (h : SEsOk X es) : ∀ e ∈ es, SEOk X e := by
  induction es with
  | nil => simp
  | cons e es ih =>
    obtain ⟨h1, h2⟩ := h
    intro a ha
    rcases List.mem_cons.1 ha with rfl | ha
    · exact h1
    · exact ih h2 a ha

theorem tesOk_mem {X : Ext} {es : List TE} (h : TEsOk X es) : ∀ e ∈ es, TEOk X e := by
  induction es with
  | nil => simp
  | cons e es ih =>
    obtain ⟨h1, h2⟩ := h
    intro a ha
    rcases List.mem_cons.1 ha with rfl | ha
    · exact h1
    · exact ih h2 a ha

theorem req_type {t : String} {fs : Fields} (h : vals "type" fs = []) :
    req "type" (("type", .lit t) :: fs) readStr = some t.toList :=
  req_of (j := .lit t) (by rw [vals_cons, if_pos rfl, h]) rfl

theorem vals_rest {k t : String} {fs : Fields} (h : k ≠ "type") :
    vals k (untag (("type", .lit t) :: fs)) = vals k fs := by
  rw [vals_untag h, vals_cons, if_neg (Ne.symm h)]

theorem vals_type_nc (X : Ext) (c : NC) : vals "type" (ncFields X c) = [] := by
  rw [ncFields, vals_append, vals_other (by intro f; cases f <;> simp [facetFields, vals_cons, vals_nil, vals_field])]
  simp [vals_append, vals_field]

theorem known_nc (X : Ext) (c : NC) (t : String) : known ncKeys (untag (("type", .lit t) :: ncFields X c)) = true := by
  apply known_untag
  have : known ncKeys (ncFields X c) = true := by
    rw [ncFields, known_append, known_append, known_append, known_facets, known_field _ (by decide),
      known_field _ (by decide), known_field _ (by decide)]
    rfl
  rw [known] at this ⊢
  rw [List.all_cons, this]
  rfl

theorem readActs_ok {X : Ext} {fs : Fields} {acts : Option (List SemAct)} {anns : Option (List Annot)}
    (h : SharedOk X acts anns) (hv : vals "semActs" fs = (acts.map (writeVec writeAct)).toList) :
    readActs X fs = some acts := by
  have := optf_of (c := fun a => a) (f := readVec (readAct X)) hv (by intro a _ e; cases e)
    fun as ha => readVec_id fun a hm => readAct_ok (h.1 as ha a hm)
  rw [readActs, this]
  simp

theorem readAnns_ok {X : Ext} {fs : Fields} {acts : Option (List SemAct)} {anns : Option (List Annot)}
    (h : SharedOk X acts anns) (hv : vals "annotations" fs = (anns.map (writeVec writeAnnot)).toList) :
    readAnns X fs = some anns := by
  have := optf_of (c := fun a => a) (f := readVec (readAnnot X)) hv (by intro a _ e; cases e)
    fun as ha => readVec_id fun a hm => readAnnot_ok (h.2 as ha a hm)
  rw [readAnns, this]
  simp

theorem optf_id {α : Type} {k : String} {fs : Fields} {f : Json → Option α} {o : Option α} {w : α → Json}
    (h : vals k fs = (o.map w).toList) (hn : ∀ a, o = some a → w a ≠ .null)
    (hf : ∀ a, o = some a → f (w a) = some a) : optf k fs f = some o := by
  rw [optf_of (c := fun a => a) h hn hf]
  simp

theorem writeSE_ne_null (X : Ext) (e : SE) : writeSE X e ≠ .null := by
  cases e <;> simp [writeSE, tagged, writeLabel]

theorem writeTE_ne_null (X : Ext) (e : TE) : writeTE X e ≠ .null := by
  cases e with
  | ref l => cases l <;> simp [writeTE, writeTLabel]
  | _ => simp [writeTE, tagged]

/-- The fields that triple expressions share are read back. -/
theorem card_ok {X : Ext} {id : Option TLabel} {mn mx : Option Int} {acts : Option (List SemAct)}
    {anns : Option (List Annot)} (h : CardOk X id mn mx acts anns) {gs : Fields}
    (h1 : vals "id" gs = (id.map writeTLabel).toList) (h2 : vals "min" gs = (mn.map .int).toList)
    (h3 : vals "max" gs = (mx.map .int).toList) (h4 : vals "semActs" gs = (acts.map (writeVec writeAct)).toList)
    (h5 : vals "annotations" gs = (anns.map (writeVec writeAnnot)).toList) :
    optf "id" gs (readTLabel X) = some id ∧ optf "min" gs readI32 = some mn ∧ optf "max" gs readI32 = some mx ∧
      readActs X gs = some acts ∧ readAnns X gs = some anns := by
  obtain ⟨a, b, c, d⟩ := h
  refine ⟨optf_id h1 ?_ fun l hl => readTLabel_ok (a l hl).1 (a l hl).2, optf_id h2 (by simp) fun n hn => readI32_ok (b n hn),
    optf_id h3 (by simp) fun n hn => readI32_ok (c n hn), readActs_ok d h4, readAnns_ok d h5⟩
  rintro l -
  cases l <;> simp [writeTLabel]

theorem reads_ref {X : Ext} {l : Label} (h : LabelOk X l) (n : Nat) : readSE X n (writeSE X (.ref l)) = some (.ref l) := by
  rw [writeSE, writeLabel]
  cases n <;> rw [readSE, labelOf_ok h] <;> rfl

theorem reads_tref {X : Ext} {l : TLabel} (h : TLabelOk X l) (n : Nat) : readTE X n (writeTE X (.ref l)) = some (.ref l) := by
  cases l with
  | bnode b => exact h.elim
  | iri r =>
    rw [writeTE, writeTLabel]
    cases n <;> rw [readTE, tlabelOf, iriRef_ok h] <;> rfl

theorem reads (X : Ext) (n : Nat) : (∀ e, SEOk X e → (writeSE X e).depth ≤ n → readSE X n (writeSE X e) = some (SE.back e)) ∧
    ∀ e, TEOk X e → (writeTE X e).depth ≤ n → readTE X n (writeTE X e) = some (TE.back e) := by
  induction n with
  | zero =>
    constructor
    · intro e h hd
      cases e with
      | ref l => exact reads_ref h 0
      | _ => rw [writeSE, tagged, Json.depth] at hd; omega
    · intro e h hd
      cases e with
      | ref l => exact reads_tref h 0
      | _ => rw [writeTE, tagged, Json.depth] at hd; omega
  | succ n ih =>
    obtain ⟨ihS, ihT⟩ := ih
    have arrS : ∀ es, SEsOk X es → (Json.arr (writeSEs X es)).depth ≤ n →
        readVec (readSE X n) (.arr (writeSEs X es)) = some (SE.backs es) := by
      intro es h hd
      rw [writeSEs_map, backs_map]
      refine readVec_of (w := writeSE X) fun e he => ihS e (sesOk_mem h e he) ?_
      have : writeSE X e ∈ writeSEs X es := by rw [writeSEs_map]; exact List.mem_map_of_mem he
      have := depth_lt_arr this
      omega
    have arrT : ∀ es, TEsOk X es → (Json.arr (writeTEs X es)).depth ≤ n →
        readVec (readTE X n) (.arr (writeTEs X es)) = some (TE.backs es) := by
      intro es h hd
      rw [writeTEs_map, tbacks_map]
      refine readVec_of (w := writeTE X) fun e he => ihT e (tesOk_mem h e he) ?_
      have : writeTE X e ∈ writeTEs X es := by rw [writeTEs_map]; exact List.mem_map_of_mem he
      have := depth_lt_arr this
      omega
    constructor
    · intro e h hd
      cases e with
      | ref l => exact reads_ref h _
      | or es =>
        rw [writeSE, tagged] at hd ⊢
        have hd' := depth_lt_obj (fs := [("type", .lit "ShapeOr"), ("shapeExprs", .arr (writeSEs X es))])
          (k := "shapeExprs") (j := .arr (writeSEs X es)) (by simp [vals_cons, vals_nil])
        rw [readSE, req_type (by simp [vals_cons, vals_nil])]
        simp only [Option.bind_eq_bind, Option.bind_some, if_true]
        rw [req_of (j := .arr (writeSEs X es)) (by rw [vals_rest (by decide)]; simp [vals_cons, vals_nil])
          (arrS es h (by omega))]
        rfl
      | and es =>
        rw [writeSE, tagged] at hd ⊢
        have hd' := depth_lt_obj (fs := [("type", .lit "ShapeAnd"), ("shapeExprs", .arr (writeSEs X es))])
          (k := "shapeExprs") (j := .arr (writeSEs X es)) (by simp [vals_cons, vals_nil])
        rw [readSE, req_type (by simp [vals_cons, vals_nil])]
        simp only [Option.bind_eq_bind, Option.bind_some]
        rw [if_neg (by decide), if_pos trivial,
          req_of (j := .arr (writeSEs X es)) (by rw [vals_rest (by decide)]; simp [vals_cons, vals_nil])
          (arrS es h (by omega))]
        rfl
      | not e =>
        rw [writeSE, tagged] at hd ⊢
        have hd' := depth_lt_obj (fs := [("type", .lit "ShapeNot"), ("shapeExpr", writeSE X e)])
          (k := "shapeExpr") (j := writeSE X e) (by simp [vals_cons, vals_nil])
        rw [readSE, req_type (by simp [vals_cons, vals_nil])]
        simp only [Option.bind_eq_bind, Option.bind_some]
        rw [if_neg (by decide), if_neg (by decide), if_pos trivial,
          req_of (j := writeSE X e) (by rw [vals_rest (by decide)]; simp [vals_cons, vals_nil])
          (ihS e h (by omega))]
        rfl
      | nc c =>
        rw [writeSE, tagged, readSE, req_type (vals_type_nc X c)]
        simp only [Option.bind_eq_bind, Option.bind_some]
        rw [if_neg (by decide), if_neg (by decide), if_neg (by decide), if_pos trivial,
          readNC_ok h (known_nc X c _) fun k hk => vals_rest hk]
        rfl
      | external =>
        rw [writeSE, tagged, readSE, req_type (by simp [vals_nil])]
        simp only [Option.bind_eq_bind, Option.bind_some]
        rw [if_neg (by decide), if_neg (by decide), if_neg (by decide), if_neg (by decide), if_neg (by decide), if_pos trivial]
        rfl
      | shape closed extra expr acts anns ext =>
        obtain ⟨h1, h2, h3, h4⟩ := h
        rw [writeSE, tagged] at hd ⊢
        generalize hfs : field "closed" (closed.map .bool) ++ field "extra" (extra.map (writeVec writeRef)) ++
          field "expression" (writeTEO X expr) ++ field "semActs" (acts.map (writeVec writeAct)) ++
          field "annotations" (anns.map (writeVec writeAnnot)) ++ field "extends" (ext.map (writeVec writeLabel)) = fs at hd ⊢
        have ht : vals "type" fs = [] := by rw [← hfs]; simp [vals_append, vals_field]
        have e0 : vals "expression" fs = (expr.map (writeTE X)).toList := by
          rw [← hfs]; cases expr <;> simp [vals_append, vals_field, writeTEO]
        rw [readSE, req_type ht]
        simp only [Option.bind_eq_bind, Option.bind_some]
        rw [if_neg (by decide), if_neg (by decide), if_neg (by decide), if_neg (by decide), if_pos trivial]
        generalize hgs : untag (("type", .lit "Shape") :: fs) = gs
        have hv : ∀ k, k ≠ "type" → vals k gs = vals k fs := by rw [← hgs]; exact fun k hk => vals_rest hk
        rw [optf_id (o := closed) (w := .bool) (by rw [hv _ (by decide), ← hfs]; simp [vals_append, vals_field]) (by simp)
          (fun _ _ => rfl)]
        rw [optf_id (o := extra) (w := writeVec writeRef) (by rw [hv _ (by decide), ← hfs]; simp [vals_append, vals_field])
          (by intro a _ e; cases e) (fun rs hr => readVec_id fun r hm => readRef_ok (h1 rs hr r hm))]
        rw [optf_of (o := expr) (w := writeTE X) (c := TE.back) (by rw [hv _ (by decide), e0])
          (fun e _ => writeTE_ne_null X e) (by
            rintro e rfl
            have := depth_lt_obj (fs := ("type", .lit "Shape") :: fs) (k := "expression") (j := writeTE X e)
              (by rw [vals_cons, if_neg (by decide), e0]; simp)
            exact ihT e h2 (by omega))]
        rw [readActs_ok h3 (by rw [hv _ (by decide), ← hfs]; simp [vals_append, vals_field])]
        rw [readAnns_ok h3 (by rw [hv _ (by decide), ← hfs]; simp [vals_append, vals_field])]
        rw [optf_id (o := ext) (w := writeVec writeLabel) (by rw [hv _ (by decide), ← hfs]; simp [vals_append, vals_field])
          (by intro a _ e; cases e) (fun ls hl => readVec_id fun l hm => readLabel_ok (h4 ls hl l hm).1 (h4 ls hl l hm).2)]
        cases expr <;> rfl
    · intro e h hd
      cases e with
      | ref l => exact reads_tref h _
      | each id es mn mx acts anns =>
        obtain ⟨h1, h2⟩ := h
        rw [writeTE, tagged] at hd ⊢
        generalize hfs : field "id" (id.map writeTLabel) ++ [("expressions", .arr (writeTEs X es))] ++
          field "min" (mn.map .int) ++ field "max" (mx.map .int) ++ field "semActs" (acts.map (writeVec writeAct)) ++
          field "annotations" (anns.map (writeVec writeAnnot)) = fs at hd ⊢
        have ht : vals "type" fs = [] := by rw [← hfs]; simp [vals_append, vals_field, vals_cons, vals_nil]
        have e0 : vals "expressions" fs = [.arr (writeTEs X es)] := by
          rw [← hfs]; simp [vals_append, vals_field, vals_cons, vals_nil]
        have hd' := depth_lt_obj (fs := ("type", .lit "EachOf") :: fs) (k := "expressions") (j := .arr (writeTEs X es))
          (by rw [vals_cons, if_neg (by decide), e0]; simp)
        rw [readTE, req_type ht]
        simp only [Option.bind_eq_bind, Option.bind_some, if_true]
        generalize hgs : untag (("type", .lit "EachOf") :: fs) = gs
        have hv : ∀ k, k ≠ "type" → vals k gs = vals k fs := by rw [← hgs]; exact fun k hk => vals_rest hk
        obtain ⟨a, b, c, d, e⟩ := card_ok h1 (gs := gs)
          (by rw [hv _ (by decide), ← hfs]; simp [vals_append, vals_field, vals_cons, vals_nil])
          (by rw [hv _ (by decide), ← hfs]; simp [vals_append, vals_field, vals_cons, vals_nil])
          (by rw [hv _ (by decide), ← hfs]; simp [vals_append, vals_field, vals_cons, vals_nil])
          (by rw [hv _ (by decide), ← hfs]; simp [vals_append, vals_field, vals_cons, vals_nil])
          (by rw [hv _ (by decide), ← hfs]; simp [vals_append, vals_field, vals_cons, vals_nil])
        rw [a, b, c, d, e, req_of (j := .arr (writeTEs X es)) (by rw [hv _ (by decide), e0]) (arrT es h2 (by omega))]
        rfl
      | one id es mn mx acts anns =>
        obtain ⟨h1, h2⟩ := h
        rw [writeTE, tagged] at hd ⊢
        generalize hfs : field "id" (id.map writeTLabel) ++ [("expressions", .arr (writeTEs X es))] ++
          field "min" (mn.map .int) ++ field "max" (mx.map .int) ++ field "semActs" (acts.map (writeVec writeAct)) ++
          field "annotations" (anns.map (writeVec writeAnnot)) = fs at hd ⊢
        have ht : vals "type" fs = [] := by rw [← hfs]; simp [vals_append, vals_field, vals_cons, vals_nil]
        have e0 : vals "expressions" fs = [.arr (writeTEs X es)] := by
          rw [← hfs]; simp [vals_append, vals_field, vals_cons, vals_nil]
        have hd' := depth_lt_obj (fs := ("type", .lit "OneOf") :: fs) (k := "expressions") (j := .arr (writeTEs X es))
          (by rw [vals_cons, if_neg (by decide), e0]; simp)
        rw [readTE, req_type ht]
        simp only [Option.bind_eq_bind, Option.bind_some]
        rw [if_neg (by decide), if_pos trivial]
        generalize hgs : untag (("type", .lit "OneOf") :: fs) = gs
        have hv : ∀ k, k ≠ "type" → vals k gs = vals k fs := by rw [← hgs]; exact fun k hk => vals_rest hk
        obtain ⟨a, b, c, d, e⟩ := card_ok h1 (gs := gs)
          (by rw [hv _ (by decide), ← hfs]; simp [vals_append, vals_field, vals_cons, vals_nil])
          (by rw [hv _ (by decide), ← hfs]; simp [vals_append, vals_field, vals_cons, vals_nil])
          (by rw [hv _ (by decide), ← hfs]; simp [vals_append, vals_field, vals_cons, vals_nil])
          (by rw [hv _ (by decide), ← hfs]; simp [vals_append, vals_field, vals_cons, vals_nil])
          (by rw [hv _ (by decide), ← hfs]; simp [vals_append, vals_field, vals_cons, vals_nil])
        rw [a, b, c, d, e, req_of (j := .arr (writeTEs X es)) (by rw [hv _ (by decide), e0]) (arrT es h2 (by omega))]
        rfl
      | tc id neg inv pred ve mn mx acts anns =>
        obtain ⟨h1, h2, h3⟩ := h
        rw [writeTE, tagged] at hd ⊢
        generalize hfs : field "id" (id.map writeTLabel) ++ field "negated" (neg.map .bool) ++
          field "inverse" (inv.map .bool) ++ [("predicate", writeRef pred)] ++ field "valueExpr" (writeSEO X ve) ++
          field "min" (mn.map .int) ++ field "max" (mx.map .int) ++ field "semActs" (acts.map (writeVec writeAct)) ++
          field "annotations" (anns.map (writeVec writeAnnot)) = fs at hd ⊢
        have ht : vals "type" fs = [] := by rw [← hfs]; simp [vals_append, vals_field, vals_cons, vals_nil]
        have e0 : vals "valueExpr" fs = (ve.map (writeSE X)).toList := by
          rw [← hfs]; cases ve <;> simp [vals_append, vals_field, vals_cons, vals_nil, writeSEO]
        rw [readTE, req_type ht]
        simp only [Option.bind_eq_bind, Option.bind_some]
        rw [if_neg (by decide), if_neg (by decide), if_pos trivial]
        generalize hgs : untag (("type", .lit "TripleConstraint") :: fs) = gs
        have hv : ∀ k, k ≠ "type" → vals k gs = vals k fs := by rw [← hgs]; exact fun k hk => vals_rest hk
        obtain ⟨a, b, c, d, e⟩ := card_ok h1 (gs := gs)
          (by rw [hv _ (by decide), ← hfs]; simp [vals_append, vals_field, vals_cons, vals_nil])
          (by rw [hv _ (by decide), ← hfs]; simp [vals_append, vals_field, vals_cons, vals_nil])
          (by rw [hv _ (by decide), ← hfs]; simp [vals_append, vals_field, vals_cons, vals_nil])
          (by rw [hv _ (by decide), ← hfs]; simp [vals_append, vals_field, vals_cons, vals_nil])
          (by rw [hv _ (by decide), ← hfs]; simp [vals_append, vals_field, vals_cons, vals_nil])
        rw [a, b, c, d, e]
        rw [optf_id (o := neg) (w := .bool) (by
          rw [hv _ (by decide), ← hfs]; simp [vals_append, vals_field, vals_cons, vals_nil]) (by simp) (fun _ _ => rfl)]
        rw [optf_id (o := inv) (w := .bool) (by
          rw [hv _ (by decide), ← hfs]; simp [vals_append, vals_field, vals_cons, vals_nil]) (by simp) (fun _ _ => rfl)]
        rw [req_of (j := writeRef pred) (by
          rw [hv _ (by decide), ← hfs]; simp [vals_append, vals_field, vals_cons, vals_nil]) (readRef_ok h2)]
        rw [optf_of (o := ve) (w := writeSE X) (c := SE.back) (by rw [hv _ (by decide), e0])
          (fun e _ => writeSE_ne_null X e) (by
            rintro e rfl
            have := depth_lt_obj (fs := ("type", .lit "TripleConstraint") :: fs) (k := "valueExpr") (j := writeSE X e)
              (by rw [vals_cons, if_neg (by decide), e0]; simp)
            exact ihS e h3 (by omega))]
        cases ve <;> rfl

end Shexj
