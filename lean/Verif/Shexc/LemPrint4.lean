import Verif.Shexc.LemPrint3
import Verif.Shexc.PropsNames

/-!
# Lemmas: the names that are written stand for the names that were there
-/

namespace Shexc

open P Spec

variable {N : Str → Prop} {m : Prefix.PrefixMap} {I : Iris} {E : Env}

/-- The names that `N` is about are resolved to themselves. -/
def Back (N : Str → Prop) (m : Prefix.PrefixMap) (I : Iris) (E : Env) : Prop :=
  ∀ i, N i → (shown m (.iri i)).deref I E = some (.iri i)

theorem back_readable (hb : Prefix.Built m) (hm : E.pm = some m ∨ E.pm = none ∧ m.map = []) :
    Back (Readable I E.base m) m I E := by
  intro i h
  have hnd := Prefix.built_nodup hb
  cases hl : m.longestMatch i with
  | none =>
    have hs : shown m (.iri i) = .iri i := by simp [shown, hl]
    rw [hs]
    unfold IriRef.deref
    cases hE : E.base with
    | none => rfl
    | some b => simp [h.absolute b hE]
  | some e =>
    obtain ⟨al, rest⟩ := e
    obtain ⟨ns, h1, h2⟩ := Prefix.longestMatch_some hnd hl
    obtain ⟨h3, -⟩ := h.short al ns rest h1 h2
    have hs : shown m (.iri i) = .prefixed al rest := by simp [shown, hl]
    rw [hs]
    obtain ⟨h4, rfl⟩ := h1
    have hm : E.pm = some m := by
      rcases hm with hm | ⟨-, hm⟩
      · exact hm
      · unfold Prefix.PrefixMap.find at h4
        rw [hm] at h4
        cases h4
    unfold IriRef.deref
    rw [hm]
    simp only [Prefix.PrefixMap.resolvePrefixLocal, h4]
    by_cases hr : rest = []
    · subst hr
      simp
    · rw [if_neg hr]
      unfold Prefix.iriExtend Prefix.iriFromStr
      rw [if_pos h3, if_pos h.valid]
      rfl

theorem derefList_map {α : Type} {f : α → Option α} {g : α → α} {l : List α} (h : ∀ a ∈ l, f (g a) = some a) :
    derefList f (l.map g) = some l := by
  induction l with
  | nil => rfl
  | cons a l ih =>
    rw [List.map_cons, derefList, h a (by simp), ih fun b hb => h b (by simp [hb])]
    rfl

theorem derefOpt_map {α : Type} {f : α → Option α} {g : α → α} {o : Option α} (h : ∀ a ∈ o, f (g a) = some a) :
    derefOpt f (o.map g) = some o := by
  cases o with
  | none => rfl
  | some a => rw [Option.map_some, derefOpt, h a rfl]; rfl

theorem derefPList {α : Type} {P : α → Prop} {f : α → Option α} {g : α → α} {o : Option (List α)} (hp : PList P o)
    (h : ∀ a, P a → f (g a) = some a) : derefOpt (derefList f) (o.map (·.map g)) = some o := by
  cases hp with
  | none => rfl
  | some _ hl => exact derefOpt_map (o := some _) fun a ha => by cases ha; exact derefList_map fun b hb => h b (hl b hb)

theorem derefs_map {es : List SE} {g : SE → SE} (h : ∀ e ∈ es, SE.deref I E (g e) = some e) :
    SE.derefs I E (es.map g) = some es := by
  induction es with
  | nil => simp [SE.derefs]
  | cons a l ih =>
    rw [List.map_cons, SE.derefs, h a (by simp), ih fun b hb => h b (by simp [hb])]
    rfl

theorem derefsT_map {es : List TE} {g : TE → TE} (h : ∀ e ∈ es, TE.deref I E (g e) = some e) :
    TE.derefs I E (es.map g) = some es := by
  induction es with
  | nil => simp [TE.derefs]
  | cons a l ih =>
    rw [List.map_cons, TE.derefs, h a (by simp), ih fun b hb => h b (by simp [hb])]
    rfl

theorem back_name (hB : Back N m I E) {r : IriRef} (h : PName N r) : (shown m r).deref I E = some r := by
  cases h with
  | mk h => exact hB _ h

theorem back_label (hB : Back N m I E) {l : Label} (h : PLabel N l) : (l.rename (shown m)).deref I E = some l := by
  cases h with
  | iri h => rw [Label.rename, Label.deref, hB _ h]; rfl
  | bnode h => rfl

theorem back_value (hB : Back N m I E) {v : Value} (h : PValue N v) : (v.rename (shown m)).deref I E = some v := by
  cases h with
  | iri h => rw [Value.rename, ObjVal.rename, Value.deref, ObjVal.deref, hB _ h]; rfl

theorem back_nc (hB : Back N m I E) {c : NC} (h : PNC N c) : (c.rename (shown m)).deref I E = some c := by
  cases h with
  | kind k h => rfl
  | @datatype d fs hd h =>
    have e : derefOpt (·.deref I E) (some (shown m d)) = some (some d) := by rw [derefOpt, back_name hB hd]; rfl
    simp only [NC.rename, NC.deref, Option.map_some, e]
    rfl
  | @values vs fs hv h =>
    have e := derefList_map (f := (·.deref I E)) (g := Value.rename (shown m)) (l := vs)
      fun v hx => back_value hB (hv v hx)
    simp only [NC.rename, NC.deref, Option.map_some, derefOpt, e]
    rfl
  | facet h => rfl

theorem back_obj (hB : Back N m I E) {o : ObjVal} (h : PObj N o) : (o.rename (shown m)).deref I E = some o := by
  cases h with
  | iri h => rw [ObjVal.rename, ObjVal.deref, hB _ h]; rfl
  | str h => rfl

theorem back_annot (hB : Back N m I E) {a : Annot} (h : PAnnot N a) : (a.rename (shown m)).deref I E = some a := by
  simp only [Annot.rename, Annot.deref, back_name hB h.pred, back_obj hB h.obj]
  rfl

theorem back_act (hB : Back N m I E) {a : SemAct} (h : PAct N a) : (a.rename (shown m)).deref I E = some a := by
  cases h with
  | mk hr hc => simp only [SemAct.rename, SemAct.deref, back_name hB hr]; rfl

/-- The names of `e`, written and read, are those of `e`. -/
def SeBack (m : Prefix.PrefixMap) (I : Iris) (E : Env) (P : SE → Prop) : Prop :=
  ∀ e, P e → (e.rename (shown m)).deref I E = some e

def TeBack (m : Prefix.PrefixMap) (I : Iris) (E : Env) (P : TE → Prop) : Prop :=
  ∀ e, P e → (e.rename (shown m)).deref I E = some e

theorem back_atom (hB : Back N m I E) {PI : PInner} (ht : TeBack m I E PI.triple) (inl : Bool) :
    SeBack m I E (PAtom N PI inl) := by
  intro e h
  cases h with
  | ref h => rw [SE.rename, SE.deref, back_label hB h]; rfl
  | nc h => rw [SE.rename, SE.deref, back_nc hB h]; rfl
  | @shape closed extra te anns ext hc he hte ha hx hxe hi =>
    have e1 := derefPList (f := (·.deref I E)) (g := shown m) he fun a ha => back_name hB ha
    have e2 := derefPList (f := (·.deref I E)) (g := Annot.rename (shown m)) ha fun a ha => back_annot hB ha
    have e3 : derefOpt (derefList (·.deref I E)) (ext.map (·.map (Label.rename (shown m)))) = some ext :=
      derefOpt_map fun ls hls => by
        obtain ⟨l, rfl, hl⟩ := hx ls hls
        exact derefList_map fun b hb => by
          rw [List.mem_singleton.1 hb]
          exact back_label hB hl
    have e4 : TE.derefO I E (TE.renameOpt (shown m) te) = some te := by
      cases te with
      | none => rw [TE.renameOpt, TE.derefO]
      | some t => rw [TE.renameOpt, TE.derefO, ht t (hte t rfl)]; rfl
    rw [SE.rename, SE.deref, e1, e2, e3, e4]
    rfl

theorem back_neg (hB : Back N m I E) {PI : PInner} (ht : TeBack m I E PI.triple) (inl : Bool) :
    SeBack m I E (PNeg N PI inl) := by
  intro e h
  cases h with
  | plain h => exact back_atom hB ht inl e h
  | not h => rw [SE.rename, SE.deref, back_atom hB ht inl _ h]; rfl

theorem back_conj (hB : Back N m I E) {PI : PInner} (ht : TeBack m I E PI.triple) (inl : Bool) :
    SeBack m I E (PConj N PI inl) := by
  intro e h
  cases h with
  | single h => exact back_neg hB ht inl e h
  | and h =>
    rw [SE.rename, SE.deref, renameAll_eq, derefs_map fun x hx => back_neg hB ht inl x (h x hx)]
    rfl

theorem back_disj (hB : Back N m I E) {PI : PInner} (ht : TeBack m I E PI.triple) (inl : Bool) :
    SeBack m I E (PDisj N PI inl) := by
  intro e h
  cases h with
  | single h => exact back_conj hB ht inl e h
  | or h =>
    rw [SE.rename, SE.deref, renameAll_eq, derefs_map fun x hx => back_conj hB ht inl x (h x hx)]
    rfl

theorem back_tc (hB : Back N m I E) {PI : PInner} (hs : SeBack m I E PI.inline) : TeBack m I E (PTriple1 N PI) := by
  intro e h
  cases h with
  | @tc neg inv p v mn mx acts anns hn hi hp hv hc ha hb h1 h2 =>
    have e1 := derefPList (f := (·.deref I E)) (g := SemAct.rename (shown m)) ha fun a ha => back_act hB ha
    have e2 := derefPList (f := (·.deref I E)) (g := Annot.rename (shown m)) hb fun a ha => back_annot hB ha
    have e3 : SE.derefO I E (SE.renameOpt (shown m) v) = some v := by
      cases v with
      | none => rw [SE.renameOpt, SE.derefO]
      | some t => rw [SE.renameOpt, SE.derefO, hs t (hv t rfl).1]; rfl
    rw [TE.rename, TE.deref, e1, e2, e3, back_name hB hp]
    rfl

theorem back_triple (hB : Back N m I E) {PI : PInner} (hs : SeBack m I E PI.inline) :
    TeBack m I E (PTriple N PI) := by
  intro e h
  cases h with
  | single h => exact back_tc hB hs e h
  | each h =>
    rw [TE.rename, TE.deref, renameAllT_eq, derefsT_map fun x hx => back_tc hB hs x (h x hx)]
    rfl

theorem back_level (hB : Back N m I E) (n : Nat) :
    SeBack m I E (PLevel N n).inline ∧ TeBack m I E (PLevel N n).triple := by
  induction n with
  | zero => exact ⟨fun _ h => h.elim, fun _ h => h.elim⟩
  | succ n ih => exact ⟨back_disj hB ih.2 true, back_triple hB ih.1⟩

theorem back_shape (hB : Back N m I E) (inl : Bool) : SeBack m I E (PShape N inl) := by
  rintro e ⟨n, h⟩
  exact back_disj hB (back_level hB n).2 inl e h

/-! ## Statements -/

/-- The statements that a schema is written as. -/
def written (S : Schema) : List Statement :=
  let m := S.env.pm.getD .new
  m.map.map (fun e => .pfx e.1 e.2) ++ (S.env.base.toList.map .base ++ ((S.imports.getD []).map .imp ++
    (S.start.toList.map (fun e => .start (e.rename (shown m))) ++
      (S.shapes.getD []).map fun d => .decl false (d.label.rename (shown m)) (d.expr.rename (shown m)))))

theorem fold_pfx (I : Iris) : ∀ (es : List (Str × Str)) (m0 : Prefix.PrefixMap) (S : Schema), S.env.pm = some m0 →
    ((m0.map ++ es).map Prod.fst).Nodup →
    (es.map fun e => Stmt.pfx e.1 e.2).foldlM (Schema.step I) S =
      some { S with env := { S.env with pm := some { m0 with map := m0.map ++ es } } } := by
  intro es
  induction es with
  | nil => intro m0 S h _; simp [← h]
  | cons e es ih =>
    intro m0 S h hn
    have hi : Prefix.imInsert e.1 e.2 m0.map = m0.map ++ [e] := by
      have hne : e.1 ∉ m0.map.map Prod.fst := by
        intro hmem
        rw [List.map_append, List.map_cons, List.nodup_append] at hn
        exact hn.2.2 _ hmem _ (by simp) rfl
      have : ∀ l : List (Str × Str), e.1 ∉ l.map Prod.fst → Prefix.imInsert e.1 e.2 l = l ++ [e] := by
        intro l
        induction l with
        | nil => intro _; rfl
        | cons a l ih =>
          intro h
          rw [List.map_cons, List.mem_cons, not_or] at h
          rw [Prefix.imInsert, if_neg (fun he => h.1 he.symm), ih h.2]
          rfl
      exact this _ hne
    rw [List.map_cons, List.foldlM_cons]
    show Option.bind (some { S with env := S.env.addPrefix e.1 e.2 }) _ = _
    rw [Option.bind_some, ih { m0 with map := m0.map ++ [e] }]
    · simp [Env.addPrefix]
    · simp [Env.addPrefix, h, Prefix.PrefixMap.addPrefix, hi]
    · simpa using hn

theorem fold_imp (I : Iris) : ∀ (rs : List IriRef) (S : Schema) (l : List IriRef), S.imports = some l →
    (rs.map Stmt.imp).foldlM (Schema.step I) S = some { S with imports := some (l ++ rs) } := by
  intro rs
  induction rs with
  | nil => intro S l h; simp [← h]
  | cons r rs ih =>
    intro S l h
    rw [List.map_cons, List.foldlM_cons]
    show Option.bind (some { S with imports := push S.imports r }) _ = _
    rw [Option.bind_some, ih _ (l ++ [r])]
    · simp
    · simp [push, h]

theorem fold_decl (ds : List Decl) : ∀ (S : Schema) (l : List Decl), S.shapes = some l →
    (∀ d ∈ ds, (d.label.rename (shown m)).deref I S.env = some d.label ∧
      (d.expr.rename (shown m)).deref I S.env = some d.expr ∧ d.abs = false) →
    (ds.map fun d => Stmt.decl false (d.label.rename (shown m)) (d.expr.rename (shown m))).foldlM (Schema.step I) S =
      some { S with shapes := some (l ++ ds) } := by
  induction ds with
  | nil => intro S l h _; simp [← h]
  | cons d ds ih =>
    intro S l h hd
    obtain ⟨h1, h2, h3⟩ := hd d (by simp)
    have hs : Schema.step I S (.decl false (d.label.rename (shown m)) (d.expr.rename (shown m))) =
        some { S with shapes := some (l ++ [d]) } := by
      simp only [Schema.step, h1, h2, push, h]
      obtain ⟨a, b, c⟩ := d
      cases h3
      rfl
    rw [List.map_cons, List.foldlM_cons, hs]
    show Option.bind (some _) _ = _
    rw [Option.bind_some, ih { S with shapes := some (l ++ [d]) } (l ++ [d]) rfl fun x hx => hd x (by simp [hx])]
    simp

theorem foldM_append {α β : Type} {f : β → α → Option β} (l l' : List α) (b c : β) (h : l.foldlM f b = some c) :
    (l ++ l').foldlM f b = l'.foldlM f c := by
  rw [List.foldlM_append, h]
  rfl

/-- The statements that a schema is written as give back the schema. -/
theorem fold_written {S : Schema} (h : Printable I S) (base : Option Str) (hb : S.env.base = none → base = none) :
    ((written S).map toStmt).foldlM (Schema.step I) { env := { base := base } } = some S := by
  obtain ⟨imports, start, startActs, shapes, ⟨sb, pm⟩⟩ := S
  have hacts := h.startActs
  subst hacts
  have hbuilt : Prefix.Built (pm.getD .new) := by
    cases pm with
    | none => exact .new
    | some m => exact (h.prefixes m rfl).built
  have hB : Back (Readable I sb (pm.getD .new)) (pm.getD .new) I ⟨sb, pm⟩ := by
    refine back_readable (E := ⟨sb, pm⟩) hbuilt ?_
    cases pm with
    | none => exact .inr ⟨rfl, rfl⟩
    | some m => exact .inl rfl
  simp only [written, List.map_append, List.map_map]
  rw [foldM_append _ _ _ { env := { base := base, pm := pm } }]
  rotate_left
  · cases pm with
    | none => rfl
    | some m =>
      obtain ⟨mp, hy⟩ := m
      obtain ⟨hne, hbt, hhy, -⟩ := h.prefixes _ rfl
      have hnd := Prefix.built_nodup hbt
      cases mp with
      | nil => exact absurd rfl hne
      | cons e es =>
        have := fold_pfx I es ⟨[e], false⟩ { env := { base := base, pm := some ⟨[e], false⟩ } } rfl (by simpa using hnd)
        simp only at hhy
        subst hhy
        exact this
  rw [foldM_append _ _ _ { env := { base := sb, pm := pm } }]
  rotate_left
  · cases sb with
    | none => rw [hb rfl]; rfl
    | some b => rfl
  rw [foldM_append _ _ _ { imports := imports, env := { base := sb, pm := pm } }]
  rotate_left
  · have hi := h.imports
    cases hi with
    | none => rfl
    | @some l hne _ =>
      cases l with
      | nil => exact absurd rfl hne
      | cons r rs => exact fold_imp I rs { imports := some [r], env := { base := sb, pm := pm } } [r] rfl
  rw [foldM_append _ _ _ { imports := imports, start := start, env := { base := sb, pm := pm } }]
  rotate_left
  · cases start with
    | none => rfl
    | some e =>
      have := back_shape hB true e (h.start e rfl)
      simp [toStmt, Schema.step, this]
  have hs := h.shapes
  cases hs with
  | none => rfl
  | @some l hne hl =>
    have key : ∀ d ∈ l, (d.label.rename (shown (pm.getD .new))).deref I ⟨sb, pm⟩ = some d.label ∧
        (d.expr.rename (shown (pm.getD .new))).deref I ⟨sb, pm⟩ = some d.expr ∧ d.abs = false := by
      intro d hd
      refine ⟨back_label hB (hl d hd).label, ?_, (hl d hd).abs⟩
      rcases (hl d hd).expr with he | he
      · exact back_shape hB false _ he
      · rw [he, SE.rename, SE.deref]
    cases l with
    | nil => exact absurd rfl hne
    | cons d ds =>
      have e2 := fold_decl (m := pm.getD .new) (I := I) ds
        { imports := imports, start := start, shapes := some [d], env := { base := sb, pm := pm } } [d] rfl
        (fun x hx => key x (by simp [hx]))
      obtain ⟨k1, k2, k3⟩ := key d (by simp)
      have hs : Schema.step I { imports := imports, start := start, env := { base := sb, pm := pm } }
          (.decl false (d.label.rename (shown (pm.getD .new))) (d.expr.rename (shown (pm.getD .new)))) =
          some { imports := imports, start := start, shapes := some [d], env := { base := sb, pm := pm } } := by
        simp only [Schema.step, k1, k2, push]
        obtain ⟨a, b, c⟩ := d
        cases k3
        rfl
      show ((d :: ds).map _).foldlM _ _ = _
      rw [List.map_cons, List.foldlM_cons]
      show Option.bind (Schema.step I _ (.decl false _ _)) _ = _
      rw [hs]
      exact e2

end Shexc
