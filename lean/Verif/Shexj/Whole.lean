import Verif.Shexj.Trip
import Verif.Prefix.Lemmas

/-!
# Lemmas: whole schemas read back, and labels and literals that are not
-/

namespace Shexj

open Shexc
open Shexc.Pp (showInt showNat showDec)

/-! ## Prefixes -/

theorem imInsert_new {k v : Str} {m : List (Str × Str)} (h : k ∉ m.map (·.1)) : Prefix.imInsert k v m = m ++ [(k, v)] := by
  induction m with
  | nil => rfl
  | cons e m ih =>
    rw [List.map_cons, List.mem_cons, not_or] at h
    rw [Prefix.imInsert, if_neg (Ne.symm h.1), ih h.2]
    rfl

theorem foldl_insert (es m : List (Str × Str)) (h : ((m ++ es).map (·.1)).Nodup) :
    es.foldl (fun m e => Prefix.imInsert e.1 e.2 m) m = m ++ es := by
  induction es generalizing m with
  | nil => simp
  | cons e es ih =>
    rw [List.foldl_cons, imInsert_new, ih (m ++ [(e.1, e.2)])]
    · simp
    · simpa using h
    · rw [List.map_append, List.nodup_append] at h
      intro hm
      exact h.2.2 _ hm _ (by simp) rfl

theorem readPM_ok {X : Ext} {m : Prefix.PrefixMap} (h : PMOk X m) : readPM X (writePM m) = some ⟨m.map, false⟩ := by
  obtain ⟨h1, h2⟩ := h
  have e : readEntries X (m.serialize.map fun e => (String.ofList e.1, .str e.2)) = some m.map := by
    rw [Prefix.PrefixMap.serialize]
    clear h1
    generalize m.map = es at h2
    induction es with
    | nil => rfl
    | cons e es ih =>
      rw [List.map_cons, readEntries, ih fun a ha => h2 a (by simp [ha]), readIriS, if_pos (h2 e (by simp))]
      simp
  rw [writePM, readPM, e, Option.map_some, Prefix.PrefixMap.deserialize]
  rw [foldl_insert m.map [] (by simpa using h1)]
  rfl

/-! ## Schemas -/

theorem readDecl_ok {X : Ext} {d : SDecl} (h : DeclOk X d) {n : Nat} (hn : (writeDecl X d).depth ≤ n) :
    readDecl X n (writeDecl X d) = some (SDecl.back d) := by
  obtain ⟨h1, h2, h3⟩ := h
  rw [writeDecl] at hn ⊢
  have hd := depth_lt_obj (fs := [("type", .str d.type), ("id", writeLabel d.id), ("abstract", .bool d.abs),
    ("shapeExpr", writeSE X d.expr)]) (k := "shapeExpr") (j := writeSE X d.expr) (by simp [vals_cons, vals_nil])
  rw [readDecl, req_of (j := .str d.type) (a := d.type) (by simp [vals_cons, vals_nil]) rfl,
    req_of (j := writeLabel d.id) (by simp [vals_cons, vals_nil]) (readLabel_ok h1 h2),
    may_of (o := some d.abs) (w := .bool) (c := fun b => b) (by simp [vals_cons, vals_nil]) (fun _ _ => rfl),
    req_of (j := writeSE X d.expr) (by simp [vals_cons, vals_nil]) ((reads X n).1 d.expr h3 (by omega))]
  rfl

theorem readSch_ok {X : Ext} {s : Sch} (h : SchOk X s) {n : Nat} (hn : (writeSch X s).depth ≤ n) :
    readSchAt X n (writeSch X s) = some (Sch.back s) := by
  obtain ⟨h1, h2, h3, h4, h5⟩ := h
  rw [writeSch] at hn ⊢
  generalize hfs : [("@context", Json.str s.context), ("type", .str s.type)] ++
    field "imports" (s.imports.map (writeVec writeImport)) ++
    field "start" (writeSEO X s.start) ++ field "startActs" (s.startActs.map (writeVec writeAct)) ++
    field "shapes" (s.shapes.map (writeVec (writeDecl X))) ++ field "prefixmap" (s.prefixmap.map writePM) ++
    field "base" (s.base.map .str) = fs at hn ⊢
  have e1 : vals "start" fs = (s.start.map (writeSE X)).toList := by
    rw [← hfs]; cases s.start <;> simp [vals_append, vals_field, vals_cons, vals_nil, writeSEO]
  have e2 : vals "shapes" fs = (s.shapes.map (writeVec (writeDecl X))).toList := by
    rw [← hfs]; simp [vals_append, vals_field, vals_cons, vals_nil]
  have hs : SE.backO s.start = s.start.map SE.back := by cases s.start <;> rfl
  rw [readSchAt, req_of (j := .str s.context) (a := s.context)
      (by rw [← hfs]; simp [vals_append, vals_field, vals_cons, vals_nil]) rfl,
    req_of (j := .str s.type) (a := s.type) (by rw [← hfs]; simp [vals_append, vals_field, vals_cons, vals_nil]) rfl,
    optf_of (o := s.imports) (w := writeVec writeImport) (c := fun is => is.map fun i => .str (importText i))
      (by rw [← hfs]; simp [vals_append, vals_field, vals_cons, vals_nil]) (by intro a _ e; cases e)
      (fun is _ => readVec_of fun i _ => rfl),
    optf_of (o := s.start) (w := writeSE X) (c := SE.back) e1 (fun e _ => writeSE_ne_null X e) (by
      intro e he
      have := depth_lt_obj (fs := fs) (k := "start") (j := writeSE X e) (by rw [e1, he]; simp)
      exact (reads X n).1 e (by rw [he] at h1; exact h1) (by omega)),
    optf_id (o := s.startActs) (w := writeVec writeAct) (by rw [← hfs]; simp [vals_append, vals_field, vals_cons, vals_nil])
      (by intro a _ e; cases e) (fun as ha => readVec_id fun a hm => readAct_ok (h2 as ha a hm)),
    optf_of (o := s.shapes) (w := writeVec (writeDecl X)) (c := fun ds => ds.map SDecl.back) e2 (by intro a _ e; cases e) (by
      intro ds hds
      refine readVec_of fun d hd => readDecl_ok (h3 ds hds d hd) ?_
      have a := depth_lt_obj (fs := fs) (k := "shapes") (j := writeVec (writeDecl X) ds) (by rw [e2, hds]; simp)
      have b := depth_lt_arr (js := ds.map (writeDecl X)) (j := writeDecl X d) (List.mem_map_of_mem hd)
      rw [writeVec] at a
      omega),
    optf_of (o := s.prefixmap) (w := writePM) (c := fun m => ⟨m.map, false⟩)
      (by rw [← hfs]; simp [vals_append, vals_field, vals_cons, vals_nil]) (by intro a _ e; cases e)
      (fun m hm => readPM_ok (h4 m hm)),
    optf_id (o := s.base) (w := .str) (by rw [← hfs]; simp [vals_append, vals_field, vals_cons, vals_nil])
      (by intro a _ e; cases e) (fun b hb => by rw [readIriS, if_pos (h5 b hb)])]
  simp only [Option.bind_eq_bind, Option.bind_some]
  rw [Sch.back, hs]
  rfl

/-! ## What comes back comes back unchanged -/

theorem sortFacets_idem (fs : List Facet) : sortFacets (sortFacets fs) = sortFacets fs := by
  have key : ∀ i, (sortFacets fs).filter (fun f => Facet.rank f == i) = fs.filter fun f => Facet.rank f == i := by
    intro i
    by_cases hi : i < 10
    · rw [sortFacets, List.filter_flatMap]
      have e : ∀ j ∈ List.range 10, (List.filter (fun f => Facet.rank f == i) (List.filter (fun f => Facet.rank f == j) fs)) =
          if j = i then fs.filter (fun f => Facet.rank f == i) else [] := by
        intro j _
        rw [List.filter_filter]
        by_cases hj : j = i
        · subst hj; simp
        · rw [if_neg hj, List.filter_eq_nil_iff]
          intro f _ hc
          simp only [Bool.and_eq_true, beq_iff_eq] at hc
          exact hj (hc.2.symm.trans hc.1)
      rw [List.flatMap_congr e]
      have : List.range 10 = [0, 1, 2, 3, 4, 5, 6, 7, 8, 9] := by decide
      rw [this]
      have hi' : i = 0 ∨ i = 1 ∨ i = 2 ∨ i = 3 ∨ i = 4 ∨ i = 5 ∨ i = 6 ∨ i = 7 ∨ i = 8 ∨ i = 9 := by omega
      rcases hi' with h | h | h | h | h | h | h | h | h | h <;> subst h <;> simp
    · have a : ∀ l : List Facet, l.filter (fun f => Facet.rank f == i) = [] := by
        intro l
        rw [List.filter_eq_nil_iff]
        intro f _ hc
        rw [beq_iff_eq] at hc
        have := rank_lt f
        omega
      rw [a, a]
  conv_lhs => rw [sortFacets]
  conv_rhs => rw [sortFacets]
  exact List.flatMap_congr fun i _ => key i

theorem ncBack_idem (c : NC) : NC.back (NC.back c) = NC.back c := by
  unfold NC.back
  cases hf : c.facets with
  | none => rfl
  | some fs =>
    cases fs with
    | nil => rfl
    | cons f fs =>
      simp only
      have hl := (sortFacets_perm (f :: fs)).length_eq
      have hi := sortFacets_idem (f :: fs)
      generalize sortFacets (f :: fs) = gs at hl hi
      cases gs with
      | nil => simp at hl
      | cons g gs => simp only [hi]

mutual
theorem back_idem : (e : SE) → SE.back (SE.back e) = SE.back e
  | .or es => by rw [SE.back, SE.back, backs_idem es]
  | .and es => by rw [SE.back, SE.back, backs_idem es]
  | .not e => by rw [SE.back, SE.back, back_idem e]
  | .nc c => by rw [SE.back, SE.back, ncBack_idem c]
  | .shape closed extra expr acts anns ext => by rw [SE.back, SE.back, tbackO_idem expr]
  | .external => rfl
  | .ref l => rfl
theorem backs_idem : (es : List SE) → SE.backs (SE.backs es) = SE.backs es
  | [] => rfl
  | e :: es => by rw [SE.backs, SE.backs, back_idem e, backs_idem es]
theorem backO_idem : (o : Option SE) → SE.backO (SE.backO o) = SE.backO o
  | none => rfl
  | some e => by rw [SE.backO, SE.backO, back_idem e]
theorem tback_idem : (e : TE) → TE.back (TE.back e) = TE.back e
  | .each id es mn mx acts anns => by rw [TE.back, TE.back, tbacks_idem es]
  | .one id es mn mx acts anns => by rw [TE.back, TE.back, tbacks_idem es]
  | .tc id neg inv pred ve mn mx acts anns => by rw [TE.back, TE.back, backO_idem ve]
  | .ref l => rfl
theorem tbacks_idem : (es : List TE) → TE.backs (TE.backs es) = TE.backs es
  | [] => rfl
  | e :: es => by rw [TE.backs, TE.backs, tback_idem e, tbacks_idem es]
theorem tbackO_idem : (o : Option TE) → TE.backO (TE.backO o) = TE.backO o
  | none => rfl
  | some e => by rw [TE.backO, TE.backO, tback_idem e]
end

theorem schBack_idem (s : Sch) : Sch.back (Sch.back s) = Sch.back s := by
  unfold Sch.back
  simp only [backO_idem, Option.map_map, Sch.mk.injEq, true_and]
  refine ⟨?_, ?_, ?_⟩
  · cases s.imports <;> simp [Function.comp_def, importText]
  · cases s.shapes with
    | none => rfl
    | some ds => simp [Function.comp_def, SDecl.back, back_idem]
  · cases s.prefixmap <;> exact ⟨rfl, trivial⟩

/-! ## Labels that do not come back -/

theorem beforeLast_length {s r : Str} (h : beforeLast s = some r) : r.length < s.length + 1 := by
  unfold beforeLast at h
  split at h
  · injection h with h
    rw [← h, List.length_reverse, List.length_drop]
    have := (List.dropWhile_sublist (fun x : Char => decide (x ≠ '>')) (l := s.reverse)).length_le
    rw [List.length_reverse] at this
    omega
  · simp at h

theorem line_length (s : Str) : (line s).length ≤ s.length := (List.takeWhile_sublist _).length_le

theorem angle_length {s r : Str} (h : angle s = some r) : r.length < s.length := by
  induction s with
  | nil => simp [angle] at h
  | cons c s ih =>
    rw [angle] at h
    rw [List.length_cons]
    split at h
    · split at h
      · next r' hb =>
        injection h with h
        subst h
        have a := beforeLast_length hb
        have b := line_length s
        omega
      · have := ih h; omega
    · have := ih h; omega

theorem labelOf_iff {X : Ext} {l : Label} : labelOf X (labelText l) = some l ↔ LabelOk X l := by
  refine ⟨fun h => ?_, labelOf_ok⟩
  unfold labelOf at h
  cases ha : angle (labelText l) with
  | some i =>
    rw [ha] at h
    unfold iriRef at h
    dsimp only at h
    split at h
    · simp only [Option.map_some, Option.some.injEq] at h
      subst h
      have := angle_length ha
      rw [labelText, refText] at this
      omega
    · simp at h
  | none =>
    rw [ha] at h
    dsimp only at h
    have hna := angle_none.1 ha
    cases hb : blank (labelText l) with
    | some b =>
      rw [hb] at h
      simp only [Option.some.injEq] at h
      subst h
      refine ⟨hna, ?_⟩
      rw [labelText, blank, if_pos ⟨rfl, rfl⟩] at hb
      injection hb with hb
      simp only [List.drop_one, List.tail_cons] at hb
      intro hm
      rw [← hb, line] at hm
      have hnl : ∀ s : Str, '\n' ∉ s.takeWhile (· ≠ '\n') := by
        intro s
        induction s with
        | nil => simp
        | cons c s ih =>
          rw [List.takeWhile_cons]
          split
          · next hc =>
            rw [List.mem_cons, not_or]
            exact ⟨fun e => by simp [← e] at hc, ih⟩
          · simp
      exact hnl _ hm
    | none =>
      rw [hb] at h
      dsimp only at h
      unfold iriRef at h
      split at h
      · next hi =>
        simp only [Option.map_some, Option.some.injEq] at h
        generalize labelText l = t at *
        subst h
        exact ⟨hi, hna, blank_none.1 hb⟩
      · simp at h

/-! ## Literals that do not come back -/

theorem native_typed {X : Ext} {t v : Str} {l : Lit} (h : native X t v = some (some l)) : ∀ s dt, l ≠ .typed s dt := by
  intro s dt e
  subst e
  unfold native at h
  split at h
  · split at h
    · cases h
    · split at h
      · cases h
      · cases h
  · split at h
    · cases hx : X.dec v <;> simp [hx] at h
    · split at h
      · cases hx : X.dbl v <;> simp [hx] at h
      · split at h
        · cases hx : isizeOf v <;> simp [hx] at h
        · cases h

/-- The type, the value and the language of the object that a literal is written as. -/
def litParts : Lit → Option Str × Str × Option Str
  | .str s => (none, s, none)
  | .lang s t => (none, s, some t)
  | .bool b => (some booleanIri.toList, (if b then "true" else "false").toList, none)
  | .num n => (some (numType n).toList, numText n, none)
  | .typed s dt => (some (refText dt), s, none)

theorem readObj_parts (X : Ext) (l : Lit) : readObj X (writeObj (.lit l)) =
    (literalOf X (litParts l).1 (some (litParts l).2.1) (litParts l).2.2 none).map .lit := by
  have h1 : writeObj (.lit l) = .obj (field "type" ((litParts l).1.map .str) ++
      field "language" ((litParts l).2.2.map .str) ++ [("value", .str (litParts l).2.1)]) := by
    cases l <;> rfl
  generalize hfs : field "type" ((litParts l).1.map .str) ++ field "language" ((litParts l).2.2.map .str) ++
    [("value", .str (litParts l).2.1)] = fs at h1
  rw [h1, readObj]
  have hk : known ["type", "value", "language", "languageTag"] fs = true := by
    rw [← hfs, known_append, known_append, known_field _ (by decide), known_field _ (by decide)]
    rfl
  rw [if_pos hk]
  rw [may_of (o := (litParts l).1) (w := .str) (c := id)
    (by simp [← hfs, vals_append, vals_field, vals_cons, vals_nil]) (by simp [readStr])]
  rw [may_of (o := some (litParts l).2.1) (w := .str) (c := id)
    (by simp [← hfs, vals_append, vals_field, vals_cons, vals_nil]) (by simp [readStr])]
  rw [may_of (o := (litParts l).2.2) (w := .str) (c := id)
    (by simp [← hfs, vals_append, vals_field, vals_cons, vals_nil]) (by simp [readStr])]
  rw [may_of (o := (none : Option Str)) (w := .str) (c := id)
    (by simp [← hfs, vals_append, vals_field, vals_cons, vals_nil]) (by simp)]
  simp only [Option.map_id_fun, id_eq, Option.map_some, Option.map_none, Option.bind_eq_bind, Option.bind_some]

theorem iriRef_iff {X : Ext} {r : IriRef} : iriRef X (refText r) = some r ↔ IriOk X r := by
  refine ⟨fun h => ?_, iriRef_ok⟩
  unfold iriRef at h
  split at h
  · next hi =>
    simp only [Option.some.injEq] at h
    cases r with
    | iri s => exact hi
    | prefixed p l => cases h
  · cases h

theorem inIsize_some {n m : Int} (h : inIsize n = some m) : I64 n := by
  unfold inIsize at h
  split at h
  · next hc => exact hc
  · cases h

theorem literalOf_ok {X : Ext} {l : Lit}
    (h : literalOf X (litParts l).1 (some (litParts l).2.1) (litParts l).2.2 none = some l) : LitOk X l := by
  obtain ⟨a, b, c, d, e, f⟩ := native_iris
  cases l with
  | str s => trivial
  | bool b => trivial
  | lang s t =>
    simp only [litParts, literalOf, Option.bind_eq_bind, Option.bind_some] at h
    cases hx : X.lang t with
    | none => simp [hx] at h
    | some g =>
      simp only [hx, Option.map_some, Option.some.injEq, Lit.lang.injEq, true_and] at h
      rw [LitOk, TagOk, hx, h]
  | num n =>
    cases n with
    | int n =>
      simp only [litParts, literalOf, native, numType, numText, a, b, c, or_true, if_true, if_false,
        Option.bind_eq_bind, Option.bind_some] at h
      cases hx : isizeOf (showInt n) with
      | none => simp [hx] at h
      | some m =>
        rw [isizeOf, signedOf_show, Option.bind_some] at hx
        exact inIsize_some hx
    | dec m s =>
      simp only [litParts, literalOf, native, numType, numText, d, or_true, true_or, if_true, if_false,
        Option.bind_eq_bind, Option.bind_some] at h
      cases hx : X.dec (showDec m s) with
      | none => simp [hx] at h
      | some p =>
        obtain ⟨m', s'⟩ := p
        simp only [hx, Option.map_some, Option.bind_some, Option.some.injEq, Lit.num.injEq, Num.dec.injEq] at h
        rw [LitOk, hx, h.1, h.2]
    | other t =>
      simp only [litParts, literalOf, native, numType, numText, e, f, or_true, true_or, if_true, if_false,
        Option.bind_eq_bind, Option.bind_some] at h
      cases hx : X.dbl t with
      | none => simp [hx] at h
      | some p =>
        simp only [hx, Option.map_some, Option.bind_some, Option.some.injEq, Lit.num.injEq, Num.other.injEq] at h
        rw [LitOk, hx, h]
  | typed v dt =>
    by_cases hn : refText dt ∈ natives
    · exfalso
      simp only [natives, List.mem_cons, List.not_mem_nil, or_false] at hn
      have hc : refText dt = booleanIri.toList ∨ refText dt = decimalIri.toList ∨ refText dt = doubleIri.toList ∨
          refText dt = integerIri.toList := by
        rcases hn with h | h | h | h <;> simp [h]
      simp only [litParts, literalOf, hc, if_true, Option.bind_eq_bind, Option.bind_some] at h
      cases hx : native X (refText dt) v with
      | none => simp [hx] at h
      | some o =>
        cases o with
        | some l =>
          simp only [hx, Option.bind_some, Option.some.injEq] at h
          exact native_typed hx _ _ h
        | none =>
          unfold native at hx
          split at hx
          · split at hx
            · cases hx
            · split at hx <;> cases hx
          · split at hx
            · cases hd : X.dec v <;> simp [hd] at hx
            · split at hx
              · cases hd : X.dbl v <;> simp [hd] at hx
              · split at hx
                · cases hd : isizeOf v <;> simp [hd] at hx
                · next h1 h2 h3 h4 => exact hc.elim h1 fun hc => hc.elim h2 fun hc => hc.elim h3 h4
    · refine ⟨?_, hn⟩
      have hn' := hn
      simp only [natives, List.mem_cons, List.not_mem_nil, or_false, not_or] at hn'
      obtain ⟨h1, h2, h3, h4⟩ := hn'
      have hx : native X (refText dt) v = some none := by
        rw [native, if_neg h1, if_neg h4, if_neg h3, if_neg h2]
      simp only [litParts, literalOf, h1, h2, h3, h4, or_self, if_false, Option.bind_eq_bind, Option.bind_some, hx] at h
      cases hi : iriRef X (refText dt) with
      | none => simp [hi] at h
      | some r =>
        simp only [hi, Option.bind_some, Option.some.injEq, Lit.typed.injEq, true_and] at h
        rw [h] at hi
        exact iriRef_iff.1 hi

theorem readObj_iff {X : Ext} {o : ObjVal} : readObj X (writeObj o) = some o ↔ ObjOk X o := by
  refine ⟨fun h => ?_, readObj_ok⟩
  cases o with
  | iri r =>
    rw [writeObj, readObj] at h
    cases hx : iriRef X (refText r) with
    | none => simp [hx] at h
    | some r' =>
      simp only [hx, Option.map_some, Option.some.injEq, ObjVal.iri.injEq] at h
      rw [h] at hx
      exact iriRef_iff.1 hx
  | lit l =>
    rw [readObj_parts] at h
    refine literalOf_ok (l := l) ?_
    generalize literalOf X (litParts l).1 (some (litParts l).2.1) (litParts l).2.2 none = o at h
    cases o with
    | none => simp at h
    | some l' =>
      simp only [Option.map_some, Option.some.injEq, ObjVal.lit.injEq] at h
      rw [h]

end Shexj
