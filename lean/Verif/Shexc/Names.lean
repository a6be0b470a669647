import Verif.Shexc.Schema

/-!
# The names of an expression, and what resolving them makes of it

`names` lists the names of an expression that are resolved (those in stems and exclusions of values are not), `rename`
replaces them.
-/

namespace Shexc

section spec

variable (ρ : IriRef → IriRef)

def Label.names : Label → List IriRef
  | .iri r => [r]
  | _ => []

def Label.rename : Label → Label
  | .iri r => .iri (ρ r)
  | l => l

def TLabel.names : TLabel → List IriRef
  | .iri r => [r]
  | _ => []

def TLabel.rename : TLabel → TLabel
  | .iri r => .iri (ρ r)
  | l => l

def SemAct.names (a : SemAct) : List IriRef := [a.name]

def SemAct.rename (a : SemAct) : SemAct := ⟨ρ a.name, a.code⟩

def Lit.names : Lit → List IriRef
  | .typed _ d => [d]
  | _ => []

def Lit.rename : Lit → Lit
  | .typed s d => .typed s (ρ d)
  | l => l

def ObjVal.names : ObjVal → List IriRef
  | .iri r => [r]
  | .lit l => l.names

def ObjVal.rename : ObjVal → ObjVal
  | .iri r => .iri (ρ r)
  | .lit l => .lit (l.rename ρ)

def Annot.names (a : Annot) : List IriRef := a.pred :: a.obj.names

def Annot.rename (a : Annot) : Annot := ⟨ρ a.pred, a.obj.rename ρ⟩

def Value.names : Value → List IriRef
  | .obj o => o.names
  | _ => []

def Value.rename : Value → Value
  | .obj o => .obj (o.rename ρ)
  | v => v

/-- The names of the elements of a list. -/
def namesL {α : Type} (g : α → List IriRef) (l : List α) : List IriRef := l.flatMap g

/-- The names of what may be missing. -/
def namesO {α : Type} (g : α → List IriRef) : Option α → List IriRef
  | none => []
  | some a => g a

def NC.names (c : NC) : List IriRef := c.datatype.toList ++ namesO (namesL Value.names) c.values

def NC.rename (c : NC) : NC := ⟨c.kind, c.datatype.map ρ, c.facets, c.values.map (·.map (Value.rename ρ))⟩

mutual
/-- The names of a shape expression. -/
def SE.names : SE → List IriRef
  | .or es => SE.namesAll es
  | .and es => SE.namesAll es
  | .not e => SE.names e
  | .nc c => c.names
  | .shape _ extra te acts anns ext =>
    namesO id extra ++ (TE.namesOpt te ++ (namesO (namesL Annot.names) anns ++
      (namesO (namesL SemAct.names) acts ++ namesO (namesL Label.names) ext)))
  | .external => []
  | .ref l => l.names
def SE.namesAll : List SE → List IriRef
  | [] => []
  | e :: es => SE.names e ++ SE.namesAll es
def SE.namesOpt : Option SE → List IriRef
  | none => []
  | some e => SE.names e
/-- The names of a triple expression. -/
def TE.names : TE → List IriRef
  | .each id es _ _ acts anns =>
    namesO TLabel.names id ++ (namesO (namesL Annot.names) anns ++ (namesO (namesL SemAct.names) acts ++
      TE.namesAll es))
  | .one id es _ _ acts anns =>
    namesO TLabel.names id ++ (namesO (namesL Annot.names) anns ++ (namesO (namesL SemAct.names) acts ++
      TE.namesAll es))
  | .tc id _ _ p v _ _ acts anns =>
    namesO TLabel.names id ++ (namesO (namesL Annot.names) anns ++ (namesO (namesL SemAct.names) acts ++
      (p :: SE.namesOpt v)))
  | .ref l => l.names
def TE.namesAll : List TE → List IriRef
  | [] => []
  | e :: es => TE.names e ++ TE.namesAll es
def TE.namesOpt : Option TE → List IriRef
  | none => []
  | some e => TE.names e
end

mutual
/-- A shape expression with other names. -/
def SE.rename : SE → SE
  | .or es => .or (SE.renameAll es)
  | .and es => .and (SE.renameAll es)
  | .not e => .not (SE.rename e)
  | .nc c => .nc (c.rename ρ)
  | .shape cl extra te acts anns ext =>
    .shape cl (extra.map (·.map ρ)) (TE.renameOpt te) (acts.map (·.map (SemAct.rename ρ)))
      (anns.map (·.map (Annot.rename ρ))) (ext.map (·.map (Label.rename ρ)))
  | .external => .external
  | .ref l => .ref (l.rename ρ)
def SE.renameAll : List SE → List SE
  | [] => []
  | e :: es => SE.rename e :: SE.renameAll es
def SE.renameOpt : Option SE → Option SE
  | none => none
  | some e => some (SE.rename e)
/-- A triple expression with other names. -/
def TE.rename : TE → TE
  | .each id es mn mx acts anns =>
    .each (id.map (TLabel.rename ρ)) (TE.renameAll es) mn mx (acts.map (·.map (SemAct.rename ρ)))
      (anns.map (·.map (Annot.rename ρ)))
  | .one id es mn mx acts anns =>
    .one (id.map (TLabel.rename ρ)) (TE.renameAll es) mn mx (acts.map (·.map (SemAct.rename ρ)))
      (anns.map (·.map (Annot.rename ρ)))
  | .tc id n i p v mn mx acts anns =>
    .tc (id.map (TLabel.rename ρ)) n i (ρ p) (SE.renameOpt v) mn mx (acts.map (·.map (SemAct.rename ρ)))
      (anns.map (·.map (Annot.rename ρ)))
  | .ref l => .ref (l.rename ρ)
def TE.renameAll : List TE → List TE
  | [] => []
  | e :: es => TE.rename e :: TE.renameAll es
def TE.renameOpt : Option TE → Option TE
  | none => none
  | some e => some (TE.rename e)
end

end spec

/-! ## Lemmas -/

/-- What a name is resolved to. -/
def res (I : Iris) (E : Env) (r : IriRef) : IriRef := (r.deref I E).getD r

/-- The name can be resolved. -/
def canRes (I : Iris) (E : Env) (r : IriRef) : Bool := (r.deref I E).isSome

/-- A value if a condition holds. -/
def onlyIf {α : Type} (b : Bool) (a : α) : Option α := if b then some a else none

theorem onlyIf_bind {α β : Type} (b : Bool) (a : α) (f : α → Option β) :
    (onlyIf b a >>= f) = if b then f a else none := by cases b <;> rfl

theorem onlyIf_map {α β : Type} (b : Bool) (a : α) (f : α → β) : (onlyIf b a).map f = onlyIf b (f a) := by
  cases b <;> rfl

theorem ite_onlyIf {α : Type} (b c : Bool) (a : α) : (if b then onlyIf c a else none) = onlyIf (b && c) a := by
  cases b <;> rfl

theorem ite_pure {α : Type} (b : Bool) (a : α) : (if b then (pure a : Option α) else none) = onlyIf b a := rfl

theorem onlyIf_pure {α β : Type} (b : Bool) (a : α) (g : α → β) :
    (onlyIf b a >>= fun x => (pure (g x) : Option β)) = onlyIf b (g a) := by cases b <;> rfl

variable {I : Iris} {E : Env}

theorem IriRef.deref_eq (r : IriRef) : r.deref I E = onlyIf (canRes I E r) (res I E r) := by
  unfold canRes res
  cases r.deref I E <;> rfl

theorem derefList_eq {α : Type} {f : α → Option α} {g : α → List IriRef} {h : α → α} {k : IriRef → Bool}
    (hf : ∀ a, f a = onlyIf ((g a).all k) (h a)) (l : List α) :
    derefList f l = onlyIf ((namesL g l).all k) (l.map h) := by
  induction l with
  | nil => rfl
  | cons a l ih =>
    rw [derefList, hf, ih]
    show _ = onlyIf (((g a) ++ namesL g l).all k) _
    rw [List.all_append]
    cases (g a).all k <;> cases (namesL g l).all k <;> rfl

theorem derefOpt_eq {α : Type} {f : α → Option α} {g : α → List IriRef} {h : α → α} {k : IriRef → Bool}
    (hf : ∀ a, f a = onlyIf ((g a).all k) (h a)) (o : Option α) :
    derefOpt f o = onlyIf ((namesO g o).all k) (o.map h) := by
  cases o with
  | none => rfl
  | some a => rw [derefOpt, hf, onlyIf_map]; rfl

theorem one_eq (r : IriRef) : r.deref I E = onlyIf (([r] : List IriRef).all (canRes I E)) (res I E r) := by
  rw [IriRef.deref_eq]; simp

theorem Label.deref_eq (l : Label) : l.deref I E = onlyIf (l.names.all (canRes I E)) (l.rename (res I E)) := by
  cases l with
  | iri r => rw [Label.deref, one_eq, onlyIf_map]; rfl
  | bnode s => rfl
  | start => rfl

theorem TLabel.deref_eq (l : TLabel) : l.deref I E = onlyIf (l.names.all (canRes I E)) (l.rename (res I E)) := by
  cases l with
  | iri r => rw [TLabel.deref, one_eq, onlyIf_map]; rfl
  | bnode s => rfl

theorem SemAct.deref_eq (a : SemAct) : a.deref I E = onlyIf (a.names.all (canRes I E)) (a.rename (res I E)) := by
  rw [SemAct.deref, one_eq, onlyIf_map]; rfl

theorem Lit.deref_eq (a : Lit) : a.deref I E = onlyIf (a.names.all (canRes I E)) (a.rename (res I E)) := by
  cases a with
  | typed s d => rw [Lit.deref, one_eq, onlyIf_map]; rfl
  | _ => rfl

theorem ObjVal.deref_eq (a : ObjVal) : a.deref I E = onlyIf (a.names.all (canRes I E)) (a.rename (res I E)) := by
  cases a with
  | iri r => rw [ObjVal.deref, one_eq, onlyIf_map]; rfl
  | lit l => rw [ObjVal.deref, Lit.deref_eq, onlyIf_map]; rfl

theorem Annot.deref_eq (a : Annot) : a.deref I E = onlyIf (a.names.all (canRes I E)) (a.rename (res I E)) := by
  rw [Annot.deref, IriRef.deref_eq, ObjVal.deref_eq, onlyIf_bind, onlyIf_pure, ite_onlyIf]
  rfl

theorem Value.deref_eq (a : Value) : a.deref I E = onlyIf (a.names.all (canRes I E)) (a.rename (res I E)) := by
  cases a with
  | obj o => rw [Value.deref, ObjVal.deref_eq, onlyIf_map]; rfl
  | _ => rfl

theorem NC.deref_eq (c : NC) : c.deref I E = onlyIf (c.names.all (canRes I E)) (c.rename (res I E)) := by
  rw [NC.deref, derefOpt_eq (one_eq (I := I) (E := E)), derefOpt_eq (derefList_eq Value.deref_eq), onlyIf_bind,
    onlyIf_pure, ite_onlyIf, ← List.all_append]
  unfold NC.names NC.rename
  cases c.datatype <;> rfl

theorem namesL_single (l : List IriRef) : namesL (fun r => [r]) l = l := by
  unfold namesL
  induction l with
  | nil => rfl
  | cons a l ih => simp [ih]

theorem namesO_single (o : Option (List IriRef)) : namesO (namesL fun r => [r]) o = namesO id o := by
  cases o with
  | none => rfl
  | some l => exact namesL_single l

mutual
theorem SE.deref_eq : ∀ e : SE, e.deref I E = onlyIf (e.names.all (canRes I E)) (e.rename (res I E))
  | .or es => by rw [SE.deref, SE.derefs_eq es, onlyIf_map, SE.names, SE.rename]
  | .and es => by rw [SE.deref, SE.derefs_eq es, onlyIf_map, SE.names, SE.rename]
  | .not e => by rw [SE.deref, SE.deref_eq e, onlyIf_map, SE.names, SE.rename]
  | .nc c => by rw [SE.deref, NC.deref_eq c, onlyIf_map, SE.names, SE.rename]
  | .shape cl extra te acts anns ext => by
    rw [SE.deref, derefOpt_eq (derefList_eq (one_eq (I := I) (E := E))), TE.derefO_eq te,
      derefOpt_eq (derefList_eq Annot.deref_eq), derefOpt_eq (derefList_eq SemAct.deref_eq),
      derefOpt_eq (derefList_eq Label.deref_eq), namesO_single]
    simp only [onlyIf_bind, ite_pure, ite_onlyIf, ← List.all_append]
    rw [SE.names, SE.rename]
  | .external => rfl
  | .ref l => by rw [SE.deref, Label.deref_eq l, onlyIf_map, SE.names, SE.rename]
theorem SE.derefs_eq : ∀ es : List SE,
    SE.derefs I E es = onlyIf ((SE.namesAll es).all (canRes I E)) (SE.renameAll (res I E) es)
  | [] => rfl
  | e :: es => by
    rw [SE.derefs, SE.deref_eq e, SE.derefs_eq es, onlyIf_bind, onlyIf_pure, ite_onlyIf, ← List.all_append,
      SE.namesAll, SE.renameAll]
theorem SE.derefO_eq : ∀ e : Option SE,
    SE.derefO I E e = onlyIf ((SE.namesOpt e).all (canRes I E)) (SE.renameOpt (res I E) e)
  | none => rfl
  | some e => by rw [SE.derefO, SE.deref_eq e, onlyIf_map, SE.namesOpt, SE.renameOpt]
theorem TE.deref_eq : ∀ e : TE, e.deref I E = onlyIf (e.names.all (canRes I E)) (e.rename (res I E))
  | .each id es mn mx acts anns => by
    rw [TE.deref, derefOpt_eq TLabel.deref_eq, TE.derefs_eq es, derefOpt_eq (derefList_eq Annot.deref_eq),
      derefOpt_eq (derefList_eq SemAct.deref_eq)]
    simp only [onlyIf_bind, ite_pure, ite_onlyIf, ← List.all_append]
    rw [TE.names, TE.rename]
  | .one id es mn mx acts anns => by
    rw [TE.deref, derefOpt_eq TLabel.deref_eq, TE.derefs_eq es, derefOpt_eq (derefList_eq Annot.deref_eq),
      derefOpt_eq (derefList_eq SemAct.deref_eq)]
    simp only [onlyIf_bind, ite_pure, ite_onlyIf, ← List.all_append]
    rw [TE.names, TE.rename]
  | .tc id n i p v mn mx acts anns => by
    rw [TE.deref, derefOpt_eq TLabel.deref_eq, SE.derefO_eq v, derefOpt_eq (derefList_eq Annot.deref_eq),
      derefOpt_eq (derefList_eq SemAct.deref_eq), IriRef.deref_eq]
    simp only [onlyIf_bind, ite_pure, ite_onlyIf, ← List.all_append, ← List.all_cons]
    rw [TE.names, TE.rename]
  | .ref l => by rw [TE.deref, TLabel.deref_eq l, onlyIf_map, TE.names, TE.rename]
theorem TE.derefs_eq : ∀ es : List TE,
    TE.derefs I E es = onlyIf ((TE.namesAll es).all (canRes I E)) (TE.renameAll (res I E) es)
  | [] => rfl
  | e :: es => by
    rw [TE.derefs, TE.deref_eq e, TE.derefs_eq es, onlyIf_bind, onlyIf_pure, ite_onlyIf, ← List.all_append,
      TE.namesAll, TE.renameAll]
theorem TE.derefO_eq : ∀ e : Option TE,
    TE.derefO I E e = onlyIf ((TE.namesOpt e).all (canRes I E)) (TE.renameOpt (res I E) e)
  | none => rfl
  | some e => by rw [TE.derefO, TE.deref_eq e, onlyIf_map, TE.namesOpt, TE.renameOpt]
end

end Shexc
