import Verif.Shexc.ShapeMap
import Verif.Shexc.Names

/-!
# The names of a shape map

Specification: which names occur in a selector, the selector with other names, and what a name stands for. Then the
lemmas that connect them to the model.
-/

namespace Shexc

section spec

variable (ρ : IriRef → IriRef)

/-- The names of a pattern. -/
def Pat.names : Pat → List IriRef
  | .node o => o.names
  | _ => []

def Pat.rename : Pat → Pat
  | .node o => .node (o.rename ρ)
  | p => p

mutual
/-- The names of a path. -/
def PathRef.names : PathRef → List IriRef
  | .pred r => [r]
  | .alt ps => PathRef.namesAll ps
  | .seq ps => PathRef.namesAll ps
  | .inv p => PathRef.names p
  | .star p => PathRef.names p
  | .plus p => PathRef.names p
  | .opt p => PathRef.names p
def PathRef.namesAll : List PathRef → List IriRef
  | [] => []
  | p :: ps => PathRef.names p ++ PathRef.namesAll ps
end

mutual
def PathRef.rename : PathRef → PathRef
  | .pred r => .pred (ρ r)
  | .alt ps => .alt (PathRef.renameAll ps)
  | .seq ps => .seq (PathRef.renameAll ps)
  | .inv p => .inv (PathRef.rename p)
  | .star p => .star (PathRef.rename p)
  | .plus p => .plus (PathRef.rename p)
  | .opt p => .opt (PathRef.rename p)
def PathRef.renameAll : List PathRef → List PathRef
  | [] => []
  | p :: ps => PathRef.rename p :: PathRef.renameAll ps
end

/-- The names of a selector of nodes. -/
def Sel.names : Sel → List IriRef
  | .node o => o.names
  | .triple s p o => s.names ++ (p.names ++ o.names)
  | _ => []

def Sel.rename : Sel → Sel
  | .node o => .node (o.rename ρ)
  | .triple s p o => .triple (s.rename ρ) (p.rename ρ) (o.rename ρ)
  | s => s

/-- The names of a selector of shapes. -/
def ShapeSel.names : ShapeSel → List IriRef
  | .label l => l.names
  | .start => []

def ShapeSel.rename : ShapeSel → ShapeSel
  | .label l => .label (l.rename ρ)
  | .start => .start

/-- What a name stands for, when `base` is the base and `m` gives the namespaces. -/
inductive Stands (I : Iris) (base : Option Str) (m : Prefix.PrefixMap) : IriRef → IriRef → Prop where
  | absolute {s : Str} (h : base = none) : Stands I base m (.iri s) (.iri s)
  | relative {s b t : Str} (h : base = some b) (h' : I.resolve b s = some t) : Stands I base m (.iri s) (.iri t)
  | prefixed {p l ns : Str} (h : m.find p = some ns) (h' : l ≠ [] → I.valid (ns ++ l) = true) :
      Stands I base m (.prefixed p l) (.iri (ns ++ l))

/-- The namespaces end in a slash or in a hash. -/
def NsEnds (m : Prefix.PrefixMap) : Prop :=
  ∀ p ns, m.find p = some ns → ns.getLast? = some '/' ∨ ns.getLast? = some '#'

end spec

/-! ## Lemmas -/

variable {I : Iris} {E : Env}

theorem Pat.deref_eq (p : Pat) : p.deref I E = onlyIf (p.names.all (canRes I E)) (p.rename (res I E)) := by
  cases p with
  | node o => rw [Pat.deref, ObjVal.deref_eq, onlyIf_map]; rfl
  | wildcard => rfl
  | focus => rfl

mutual
theorem PathRef.deref_eq (p : PathRef) : p.deref I E = onlyIf (p.names.all (canRes I E)) (p.rename (res I E)) := by
  cases p with
  | pred r => rw [PathRef.deref, one_eq, onlyIf_map]; rfl
  | alt ps => rw [PathRef.deref, PathRef.derefs_eq ps, onlyIf_map]; rfl
  | seq ps => rw [PathRef.deref, PathRef.derefs_eq ps, onlyIf_map]; rfl
  | inv p => rw [PathRef.deref, PathRef.deref_eq p, onlyIf_map]; rfl
  | star p => rw [PathRef.deref, PathRef.deref_eq p, onlyIf_map]; rfl
  | plus p => rw [PathRef.deref, PathRef.deref_eq p, onlyIf_map]; rfl
  | opt p => rw [PathRef.deref, PathRef.deref_eq p, onlyIf_map]; rfl
theorem PathRef.derefs_eq (ps : List PathRef) :
    PathRef.derefs I E ps = onlyIf ((PathRef.namesAll ps).all (canRes I E)) (PathRef.renameAll (res I E) ps) := by
  cases ps with
  | nil => rfl
  | cons p ps =>
    rw [PathRef.derefs, PathRef.deref_eq p, PathRef.derefs_eq ps, PathRef.namesAll, List.all_append]
    cases p.names.all (canRes I E) <;> cases (PathRef.namesAll ps).all (canRes I E) <;> rfl
end

theorem Sel.deref_eq (s : Sel) : s.deref I E = onlyIf (s.names.all (canRes I E)) (s.rename (res I E)) := by
  cases s with
  | node o => rw [Sel.deref, ObjVal.deref_eq, onlyIf_map]; rfl
  | bnode b => rfl
  | triple s p o =>
    rw [Sel.deref, Pat.deref_eq, PathRef.deref_eq, Pat.deref_eq, Sel.names, List.all_append, List.all_append]
    cases s.names.all (canRes I E) <;> cases p.names.all (canRes I E) <;> cases o.names.all (canRes I E) <;> rfl
  | sparql q => rfl
  | generic i p => rfl

theorem ShapeSel.deref_eq (s : ShapeSel) : s.deref I E = onlyIf (s.names.all (canRes I E)) (s.rename (res I E)) := by
  cases s with
  | label l => rw [ShapeSel.deref, Label.deref_eq, onlyIf_map]; rfl
  | start => rfl

theorem stands_iff {base : Option Str} {m : Prefix.PrefixMap} (hn : NsEnds m) (r r' : IriRef) :
    r.deref I ⟨base, some m⟩ = some r' ↔ Stands I base m r r' := by
  constructor
  · intro hr
    cases r with
    | iri s =>
      unfold IriRef.deref at hr
      cases base with
      | none => cases hr; exact .absolute rfl
      | some b =>
        simp only [Option.map_eq_some_iff] at hr
        obtain ⟨t, ht, rfl⟩ := hr
        exact .relative rfl ht
    | prefixed p l =>
      unfold IriRef.deref at hr
      simp only [Option.map_eq_some_iff] at hr
      obtain ⟨t, ht, rfl⟩ := hr
      unfold Prefix.PrefixMap.resolvePrefixLocal at ht
      cases hns : m.find p with
      | none => rw [hns] at ht; cases ht
      | some ns =>
        rw [hns] at ht
        simp only at ht
        split at ht
        · next e =>
          cases ht
          subst e
          have := Stands.prefixed (I := I) (base := base) (l := []) hns (by simp)
          simpa using this
        · next e =>
          unfold Prefix.iriExtend at ht
          rw [if_pos (hn p ns hns)] at ht
          unfold Prefix.iriFromStr at ht
          split at ht
          · next hv => cases ht; exact .prefixed hns fun _ => hv
          · cases ht
  · intro hm
    cases hm with
    | absolute hb => subst hb; rfl
    | relative hb ht => subst hb; simp [IriRef.deref, ht]
    | @prefixed p l ns hns hv =>
      unfold IriRef.deref Prefix.PrefixMap.resolvePrefixLocal
      simp only [hns]
      by_cases hl : l = []
      · subst hl
        simp
      · rw [if_neg hl]
        unfold Prefix.iriExtend Prefix.iriFromStr
        rw [if_pos (hn p ns hns), if_pos (hv hl)]
        rfl

theorem deref_iri {E : Env} {r r' : IriRef} (h : r.deref I E = some r') : ∃ s, r' = .iri s := by
  obtain ⟨b, m⟩ := E
  cases r with
  | iri s =>
    cases b with
    | none => cases h; exact ⟨_, rfl⟩
    | some b =>
      simp only [IriRef.deref, Option.map_eq_some_iff] at h
      obtain ⟨t, -, rfl⟩ := h
      exact ⟨_, rfl⟩
  | prefixed p l =>
    cases m with
    | none => cases h
    | some m =>
      simp only [IriRef.deref, Option.map_eq_some_iff] at h
      obtain ⟨t, -, rfl⟩ := h
      exact ⟨_, rfl⟩

/-! ## Renaming and names -/

theorem Lit.names_rename (ρ : IriRef → IriRef) (l : Lit) : (l.rename ρ).names = l.names.map ρ := by cases l <;> rfl

theorem ObjVal.names_rename (ρ : IriRef → IriRef) (o : ObjVal) : (o.rename ρ).names = o.names.map ρ := by
  cases o with
  | iri r => rfl
  | lit l => exact Lit.names_rename ρ l

theorem Pat.names_rename (ρ : IriRef → IriRef) (p : Pat) : (p.rename ρ).names = p.names.map ρ := by
  cases p with
  | node o => exact ObjVal.names_rename ρ o
  | wildcard => rfl
  | focus => rfl

mutual
theorem PathRef.names_rename (ρ : IriRef → IriRef) (p : PathRef) : (p.rename ρ).names = p.names.map ρ := by
  cases p with
  | pred r => rfl
  | alt ps => exact PathRef.namesAll_rename ρ ps
  | seq ps => exact PathRef.namesAll_rename ρ ps
  | inv p => exact PathRef.names_rename ρ p
  | star p => exact PathRef.names_rename ρ p
  | plus p => exact PathRef.names_rename ρ p
  | opt p => exact PathRef.names_rename ρ p
theorem PathRef.namesAll_rename (ρ : IriRef → IriRef) (ps : List PathRef) :
    PathRef.namesAll (PathRef.renameAll ρ ps) = (PathRef.namesAll ps).map ρ := by
  cases ps with
  | nil => rfl
  | cons p ps =>
    rw [PathRef.renameAll, PathRef.namesAll, PathRef.namesAll, List.map_append, PathRef.names_rename ρ p,
      PathRef.namesAll_rename ρ ps]
end

theorem Sel.names_rename (ρ : IriRef → IriRef) (s : Sel) : (s.rename ρ).names = s.names.map ρ := by
  cases s with
  | node o => exact ObjVal.names_rename ρ o
  | bnode b => rfl
  | triple s p o =>
    simp [Sel.rename, Sel.names, Pat.names_rename, PathRef.names_rename]
  | sparql q => rfl
  | generic i p => rfl

theorem ShapeSel.names_rename (ρ : IriRef → IriRef) (s : ShapeSel) : (s.rename ρ).names = s.names.map ρ := by
  cases s with
  | label l => cases l <;> rfl
  | start => rfl

end Shexc
