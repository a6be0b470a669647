import Verif.Shexc.LemPrint5

/-!
# Lemmas: when the printer panics
-/

namespace Shexc

open Spec

/-- Something inside is not supported. -/
def Bad (x : Node) : Prop := ∃ y, Within x y ∧ Unsupported y

theorem bad_iff (x : Node) : Bad x ↔ Unsupported x ∨ ∃ y, Inside x y ∧ Bad y := by
  constructor
  · rintro ⟨y, h, hu⟩
    cases h with
    | refl => exact .inl hu
    | step h h' => exact .inr ⟨_, h, y, h', hu⟩
  · rintro (h | ⟨y, h, z, h', hu⟩)
    · exact ⟨x, .refl, h⟩
    · exact ⟨z, .step h h', hu⟩

variable {m : Prefix.PrefixMap}

theorem all_none {α : Type} {f : α → Option Doc} {l : List α} : Pp.all f l = none ↔ ∃ a ∈ l, f a = none := by
  induction l with
  | nil => simp [Pp.all]
  | cons a l ih =>
    cases h1 : f a with
    | none => simp [Pp.all, h1]
    | some d =>
      cases h2 : Pp.all f l with
      | none =>
        obtain ⟨b, hb, hb'⟩ := ih.1 h2
        simp only [Pp.all, h1, h2]
        exact ⟨fun _ => ⟨b, by simp [hb], hb'⟩, fun _ => rfl⟩
      | some ds =>
        simp only [Pp.all, h1, h2]
        refine ⟨fun h => (by cases h), ?_⟩
        rintro ⟨b, hb, hb'⟩
        rcases List.mem_cons.1 hb with rfl | hb
        · rw [h1] at hb'; cases hb'
        · have := ih.2 ⟨b, hb, hb'⟩
          rw [h2] at this
          cases this

theorem objVal_none {o : ObjVal} : Pp.objVal m o = none ↔ OddLit o := by
  constructor
  · intro h
    cases o with
    | iri r => cases h
    | lit l =>
      cases l with
      | str s => cases h
      | num n => cases h
      | lang s t => exact .lang
      | typed s d => exact .typed
      | bool b => exact .bool
  · intro h
    cases h <;> rfl

theorem value_none {v : Value} : Pp.value m v = none ↔ OddValue v := by
  constructor
  · intro h
    cases v with
    | obj o =>
      cases o with
      | iri r => cases h
      | lit l =>
        cases l with
        | str s => exact .str
        | num n => cases h
        | lang s t => exact .lit .lang
        | typed s d => exact .lit .typed
        | bool b => exact .lit .bool
    | iriStem r => exact .iriStem
    | iriStemRange s x => exact .iriStemRange
    | litStem s => exact .litStem
    | litStemRange s x => exact .litStemRange
    | lang t => exact .lang
    | langStem s => exact .langStem
    | langStemRange s x => exact .langStemRange
  · intro h
    cases h with
    | lit h => cases h <;> rfl
    | _ => rfl

theorem annots_none {as : Option (List Annot)} :
    Pp.opt (Pp.annots m) as = none ↔ ∃ l, as = some l ∧ ∃ a ∈ l, OddLit a.obj := by
  have key : ∀ a : Annot, Pp.annot m a = none ↔ OddLit a.obj := by
    intro a
    rw [← objVal_none (m := m)]
    unfold Pp.annot
    cases Pp.objVal m a.obj <;> simp
  cases as with
  | none => simp [Pp.opt]
  | some l =>
    have e : Pp.opt (Pp.annots m) (some l) = none ↔ Pp.all (Pp.annot m) l = none := by
      simp only [Pp.opt, Pp.annots]
      cases Pp.all (Pp.annot m) l <;> simp
    rw [e, all_none]
    simp [key]

theorem nc_none {c : NC} : Pp.nodeConstraint m c = none ↔ ∃ vs, c.values = some vs ∧ ∃ v ∈ vs, OddValue v := by
  cases hv : c.values with
  | none => simp [Pp.nodeConstraint, hv, Pp.opt]
  | some vs =>
    have e : Pp.nodeConstraint m c = none ↔ Pp.all (Pp.value m) vs = none := by
      simp only [Pp.nodeConstraint, hv, Pp.opt, Pp.valueSet]
      cases Pp.all (Pp.value m) vs <;> simp
    rw [e, all_none]
    simp [value_none]

theorem bind_none' {α β : Type} {o : Option α} {f : α → β} : (o >>= fun a => some (f a)) = none ↔ o = none := by
  cases o <;> simp

mutual
theorem se_none : ∀ e : SE, Pp.shapeExpr m e = none ↔ Bad (.se e)
  | .ref l => by
    rw [Pp.shapeExpr, bad_iff]
    constructor
    · intro h; cases h
    · rintro (h | ⟨y, h, -⟩) <;> cases h
  | .nc c => by
    rw [Pp.shapeExpr, bad_iff, nc_none]
    constructor
    · rintro ⟨vs, h1, v, h2, h3⟩
      exact .inl (.value h1 h2 h3)
    · rintro (h | ⟨y, h, -⟩)
      · cases h with
        | value h1 h2 h3 => exact ⟨_, h1, _, h2, h3⟩
      · cases h
  | .external => by
    rw [Pp.shapeExpr, bad_iff]
    constructor
    · intro h; cases h
    · rintro (h | ⟨y, h, -⟩) <;> cases h
  | .and es => by
    have ih := ses_none es
    rw [Pp.shapeExpr, bad_iff]
    show (Pp.shapeExprs m es >>= fun a => some _) = none ↔ _
    rw [bind_none', ih]
    constructor
    · rintro ⟨e, h1, h2⟩
      exact .inr ⟨_, .and h1, h2⟩
    · rintro (h | ⟨y, h, hb⟩)
      · cases h
      · cases h with
        | and h => exact ⟨_, h, hb⟩
  | .or es => by
    have ih := ses_none es
    rw [Pp.shapeExpr, bad_iff]
    show (Pp.shapeExprs m es >>= fun a => some _) = none ↔ _
    rw [bind_none', ih]
    constructor
    · rintro ⟨e, h1, h2⟩
      exact .inr ⟨_, .or h1, h2⟩
    · rintro (h | ⟨y, h, hb⟩)
      · cases h
      · cases h with
        | or h => exact ⟨_, h, hb⟩
  | .not e => by
    have ih := se_none e
    rw [Pp.shapeExpr, bad_iff]
    show (Pp.shapeExpr m e >>= fun a => some _) = none ↔ _
    rw [bind_none', ih]
    constructor
    · intro h
      exact .inr ⟨_, .not, h⟩
    · rintro (h | ⟨y, h, hb⟩)
      · cases h
      · cases h with
        | not => exact hb
  | .shape closed extra te acts anns ext => by
    have ih := teOpt_none te
    rw [Pp.shapeExpr, bad_iff]
    have e : (do
        let te ← Pp.tripleOpt m te
        let anns ← Pp.opt (Pp.annots m) anns
        return Doc.group (.nest ((if closed.getD false then Pp.keyword "CLOSED " else .nil) ++ extra.elim .nil (Pp.extra m) ++
          ext.elim .nil (Pp.exts m) ++ .text ['{'] ++ .line ++ te) ++ .line ++ .text ['}'] ++ anns) : Option Doc) = none ↔
        Pp.tripleOpt m te = none ∨ Pp.opt (Pp.annots m) anns = none := by
      cases Pp.tripleOpt m te <;> cases Pp.opt (Pp.annots m) anns <;> simp
    rw [e, ih, annots_none]
    constructor
    · rintro (⟨t, rfl, h⟩ | ⟨l, rfl, a, h1, h2⟩)
      · exact .inr ⟨_, .shape, h⟩
      · exact .inl (.shape h1 h2)
    · rintro (h | ⟨y, h, hb⟩)
      · cases h with
        | shape h1 h2 => exact .inr ⟨_, rfl, _, h1, h2⟩
      · cases h with
        | shape => exact .inl ⟨_, rfl, hb⟩
theorem ses_none : ∀ es : List SE, Pp.shapeExprs m es = none ↔ ∃ e ∈ es, Bad (.se e)
  | [] => by simp [Pp.shapeExprs]
  | e :: es => by
    have h1 := se_none e
    have h2 := ses_none es
    rw [Pp.shapeExprs]
    simp only [List.mem_cons, exists_eq_or_imp]
    rw [← h1, ← h2]
    cases Pp.shapeExpr m e <;> cases Pp.shapeExprs m es <;> simp
theorem seOpt_none : ∀ v : Option SE, Pp.valueOpt m v = none ↔ ∃ e, v = some e ∧ Bad (.se e)
  | none => by simp [Pp.valueOpt]
  | some e => by
    have h1 := se_none e
    rw [Pp.valueOpt, h1]
    simp
theorem te_none : ∀ e : TE, Pp.triple m e = none ↔ Bad (.te e)
  | .each id es mn mx acts anns => by
    have ih := tes_none es
    rw [Pp.triple, bad_iff]
    show (Pp.triples m es >>= fun a => some _) = none ↔ _
    rw [bind_none', ih]
    constructor
    · rintro ⟨e, h1, h2⟩
      exact .inr ⟨_, .each h1, h2⟩
    · rintro (h | ⟨y, h, hb⟩)
      · cases h
      · cases h with
        | each h => exact ⟨_, h, hb⟩
  | .one id es mn mx acts anns => by
    rw [Pp.triple, bad_iff]
    exact ⟨fun _ => .inl .one, fun _ => rfl⟩
  | .ref l => by
    rw [Pp.triple, bad_iff]
    exact ⟨fun _ => .inl .ref, fun _ => rfl⟩
  | .tc id neg inv p v mn mx acts anns => by
    have ih := seOpt_none v
    rw [Pp.triple, bad_iff]
    have e : (do
        let v ← Pp.valueOpt m v
        let anns ← Pp.opt (Pp.annots m) anns
        return Pp.flag '!' neg ++ Pp.flag '^' inv ++ Pp.iriRef m p ++ Doc.space ++ v ++ Pp.cardinality mn mx ++
          acts.elim .nil (Pp.actions m) ++ anns : Option Doc) = none ↔
        Pp.valueOpt m v = none ∨ Pp.opt (Pp.annots m) anns = none := by
      cases Pp.valueOpt m v <;> cases Pp.opt (Pp.annots m) anns <;> simp
    rw [e, ih, annots_none]
    constructor
    · rintro (⟨t, rfl, h⟩ | ⟨l, rfl, a, h1, h2⟩)
      · exact .inr ⟨_, .tc, h⟩
      · exact .inl (.tc h1 h2)
    · rintro (h | ⟨y, h, hb⟩)
      · cases h with
        | tc h1 h2 => exact .inr ⟨_, rfl, _, h1, h2⟩
      · cases h with
        | tc => exact .inl ⟨_, rfl, hb⟩
theorem tes_none : ∀ es : List TE, Pp.triples m es = none ↔ ∃ e ∈ es, Bad (.te e)
  | [] => by simp [Pp.triples]
  | e :: es => by
    have h1 := te_none e
    have h2 := tes_none es
    rw [Pp.triples]
    simp only [List.mem_cons, exists_eq_or_imp]
    rw [← h1, ← h2]
    cases Pp.triple m e <;> cases Pp.triples m es <;> simp
theorem teOpt_none : ∀ t : Option TE, Pp.tripleOpt m t = none ↔ ∃ e, t = some e ∧ Bad (.te e)
  | none => by simp [Pp.tripleOpt]
  | some e => by
    have h1 := te_none e
    rw [Pp.tripleOpt, h1]
    simp
end

theorem schema_none {S : Schema} : Pp.schema S = none ↔
    (∃ e, S.start = some e ∧ Bad (.se e)) ∨ ∃ ds, S.shapes = some ds ∧ ∃ d ∈ ds, Bad (.se d.expr) := by
  have h1 : Pp.opt (Pp.start (S.env.pm.getD .new)) S.start = none ↔ ∃ e, S.start = some e ∧ Bad (.se e) := by
    cases S.start with
    | none => simp [Pp.opt]
    | some e =>
      have := se_none (m := S.env.pm.getD .new) e
      simp only [Pp.opt, Pp.start, Option.some.injEq, exists_eq_left']
      rw [← this]
      cases Pp.shapeExpr (S.env.pm.getD .new) e <;> simp
  have h2 : Pp.opt (Pp.decls (S.env.pm.getD .new)) S.shapes = none ↔
      ∃ ds, S.shapes = some ds ∧ ∃ d ∈ ds, Bad (.se d.expr) := by
    cases S.shapes with
    | none => simp [Pp.opt]
    | some ds =>
      have e : Pp.opt (Pp.decls (S.env.pm.getD .new)) (some ds) = none ↔
          Pp.all (Pp.decl (S.env.pm.getD .new)) ds = none := by
        simp only [Pp.opt, Pp.decls]
        cases Pp.all (Pp.decl (S.env.pm.getD .new)) ds <;> simp
      have k : ∀ d : Decl, Pp.decl (S.env.pm.getD .new) d = none ↔ Bad (.se d.expr) := by
        intro d
        rw [← se_none (m := S.env.pm.getD .new)]
        unfold Pp.decl
        cases Pp.shapeExpr (S.env.pm.getD .new) d.expr <;> simp
      rw [e, all_none]
      simp [k]
  rw [← h1, ← h2]
  unfold Pp.schema
  cases ha : Pp.opt (Pp.start (S.env.pm.getD .new)) S.start <;>
    cases hb : Pp.opt (Pp.decls (S.env.pm.getD .new)) S.shapes <;> simp [ha, hb]

end Shexc
