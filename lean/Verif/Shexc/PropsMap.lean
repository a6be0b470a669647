import Verif.Shexc.LemMap
import Verif.Shexc.MapNames
import Verif.Shexc.PropsTotal

/-!
# Properties of the reader of shape maps

C109: shape maps are read as they are written. C110: what their names stand for.
-/

namespace Shexc

open P Spec

/-! ## Lemmas -/

theorem adds_eq (I : Iris) (bn bs : Option Str) (as : List Assoc) : ∀ M : ShapeMap,
    M.adds I bn bs as = onlyIf
      (as.all fun a => a.node.names.all (canRes I ⟨bn, some M.nodesPm⟩) && a.shape.names.all (canRes I ⟨bs, some M.shapesPm⟩))
      { M with assocs := M.assocs ++ as.map fun a =>
          ⟨a.node.rename (res I ⟨bn, some M.nodesPm⟩), a.shape.rename (res I ⟨bs, some M.shapesPm⟩)⟩ } := by
  induction as with
  | nil => intro M; simp [ShapeMap.adds, onlyIf]
  | cons a as ih =>
    intro M
    have h1 : M.add I a.node bn a.shape bs = onlyIf (a.node.names.all (canRes I ⟨bn, some M.nodesPm⟩) &&
        a.shape.names.all (canRes I ⟨bs, some M.shapesPm⟩))
        { M with assocs := M.assocs ++ [⟨a.node.rename (res I ⟨bn, some M.nodesPm⟩),
            a.shape.rename (res I ⟨bs, some M.shapesPm⟩)⟩] } := by
      unfold ShapeMap.add Assoc.make
      rw [Sel.deref_eq, ShapeSel.deref_eq]
      cases a.node.names.all (canRes I ⟨bn, some M.nodesPm⟩) <;>
        cases a.shape.names.all (canRes I ⟨bs, some M.shapesPm⟩) <;> rfl
    rw [ShapeMap.adds, h1, onlyIf_bind, ih, List.all_cons]
    simp only [ite_onlyIf, List.append_assoc, List.singleton_append, List.map_cons]

/-- A selector that is not generic and has no path but a predicate. -/
def Sel.Simple : Sel → Prop
  | .triple _ p _ => ∃ r, p = .pred r
  | .generic _ _ => False
  | _ => True

section fine

variable {C : Ctx} {n : Nat}

theorem fine_objectValue (X : Ext) : Fine C n true Any (objectValue X) :=
  fine_alt (fine_bind1 fine_iri fun _ _ => fine_pure trivial) (fine_bind1 (fine_literal X) fun _ _ => fine_pure trivial)

theorem fine_nodeOrWildcard (X : Ext) : Fine C n true Any (nodeOrWildcard X) :=
  fine_alt (fine_bind1 (fine_objectValue X) fun _ _ => fine_pure trivial)
    (fine_bind1 (fine_tokenTws _ _) fun _ _ => fine_pure trivial)

theorem fine_focus : Fine C n true Any focusP :=
  fine_bind1 (fine_tokenTwsNoCase (by decide)) fun _ _ => fine_pure trivial

theorem fine_shaclPath : Fine C n true (fun p => ∃ r, p = .pred r) shaclPath :=
  fine_bind1 fine_predicate fun r _ => fine_pure ⟨r, rfl⟩

theorem fine_focusObject (X : Ext) : Fine C n true Sel.Simple (focusObject X) :=
  fine_bind1 fine_focus fun _ _ => fine_bind0 fine_tws0 fun _ _ => fine_bind0 fine_shaclPath fun _ hp =>
    fine_bind0 fine_tws0 fun _ _ => fine_bind0 (fine_nodeOrWildcard X) fun _ _ => fine_pure hp

theorem fine_subjectFocus (X : Ext) : Fine C n true Sel.Simple (subjectFocus X) :=
  fine_bind1 (fine_nodeOrWildcard X) fun _ _ => fine_bind0 fine_tws0 fun _ _ => fine_bind0 fine_shaclPath fun _ hp =>
    fine_bind0 fine_tws0 fun _ _ => fine_bind0 fine_focus fun _ _ => fine_pure hp

theorem fine_triplePattern (X : Ext) : Fine C n true Sel.Simple (triplePattern X) :=
  fine_bind1 (fine_char _) fun _ _ => fine_bind0 fine_tws0 fun _ _ =>
    fine_bind0 (fine_alt (fine_focusObject X) (fine_subjectFocus X)) fun _ h =>
    fine_bind0 fine_tws0 fun _ _ => fine_bind0 (fine_char _) fun _ _ => fine_pure h

theorem fine_nodeSelector (X : Ext) : Fine C n true Sel.Simple (nodeSelector X) :=
  fine_alt
    (fine_alt (fine_alt (fine_bind1 fine_bnodeLabel fun _ _ => fine_pure trivial)
        (fine_bind1 fine_iri fun _ _ => fine_pure trivial))
      (fine_bind1 (fine_literal X) fun _ _ => fine_pure trivial))
    (fine_alt (fine_triplePattern X)
      (fine_bind1 (fine_tokenTwsNoCase (by decide)) fun _ _ => fine_bind0 fine_tws0 fun _ _ =>
        fine_bind0 fine_string fun _ _ => fine_pure trivial))

theorem fine_shapeSpec : Fine C n true Any shapeSpec :=
  fine_alt (fine_bind1 fine_shapeLabel fun _ _ => fine_pure trivial)
    (fine_bind1 (fine_tokenTwsNoCase (by decide)) fun _ _ => fine_pure trivial)

theorem fine_association (X : Ext) : Fine C n true (fun a => a.node.Simple) (association X) :=
  fine_bind1 (fine_nodeSelector X) fun _ h => fine_bind0 (fine_tokenTws _ _) fun _ _ =>
    fine_bind0 fine_shapeSpec fun _ _ => fine_pure h

theorem fine_nextAssociation (X : Ext) : Fine C n true (fun a => a.node.Simple) (nextAssociation X) :=
  fine_bind1 (fine_tokenTws _ _) fun _ _ => fine_bind0 fine_tws0 fun _ _ => (fine_association X).lax

theorem fine_mapStatement (X : Ext) : Fine C n true (fun l => l ≠ [] ∧ ∀ a ∈ l, a.node.Simple) (mapStatement X) :=
  fine_bind1 (fine_association X) fun _ h => fine_bind0 fine_tws0 fun _ _ =>
    fine_bind0 (fine_many0 (fine_nextAssociation X)) fun _ hs =>
    fine_bind0 fine_tws0 fun _ _ => fine_bind0 (fine_opt (fine_char _)) fun _ _ => fine_bind0 fine_tws0 fun _ _ =>
    fine_pure ⟨by simp, by simpa using ⟨h, hs⟩⟩

theorem parseMap_fine (X : Ext) (C : Ctx) (i : Str) (h : C.S i) :
    FineRes C true (fun l => l ≠ [] ∧ ∀ a ∈ l, a.node.Simple) (skip i) (mapStatement X (skip i)) :=
  fine_mapStatement X (skip i) (C.sufs (skip_fine C i h) h) (Nat.lt_succ_self _)

end fine

theorem map_read {X : Ext} {as : List Assoc} {w : Str} (h : MapText X.lang as w) : mapStatement X (skip w) = .ok as [] := by
  obtain ⟨ts, g, v, hm, hg, hs, rfl⟩ := h
  rw [skip_mat hg hs]
  exact mmap hm hs

theorem parseMap_read {X : Ext} (I : Iris) (V : MapEnv) {as : List Assoc} {w : Str} (h : MapText X.lang as w) :
    parseMap X I V w = match V.empty.adds I V.baseNodes V.baseShapes as with | some M => .ok M | none => .error := by
  unfold parseMap
  rw [map_read h]
  rfl

theorem parseMap_ok {X : Ext} {I : Iris} {V : MapEnv} {w : Str} {M : ShapeMap} (h : parseMap X I V w = .ok M) :
    ∃ as, mapStatement X (skip w) = .ok as [] ∧ V.empty.adds I V.baseNodes V.baseShapes as = some M := by
  unfold parseMap at h
  cases hx : mapStatement X (skip w) with
  | ok as r =>
    rw [hx] at h
    cases r with
    | cons c r => cases h
    | nil =>
      simp only at h
      cases hy : V.empty.adds I V.baseNodes V.baseShapes as with
      | none => rw [hy] at h; cases h
      | some M' => rw [hy] at h; cases h; exact ⟨as, rfl, hy⟩
  | err => rw [hx] at h; cases h
  | fail => rw [hx] at h; cases h
  | panic => rw [hx] at h; cases h
  | deep => rw [hx] at h; cases h

theorem rename_self {ρ : IriRef → IriRef} :
    (∀ (s : Sel), (∀ r ∈ s.names, ρ r = r) → s.rename ρ = s) ∧
      ∀ (s : ShapeSel), (∀ r ∈ s.names, ρ r = r) → s.rename ρ = s := by
  have hl : ∀ l : Lit, (∀ r ∈ l.names, ρ r = r) → l.rename ρ = l := by
    intro l h; cases l <;> simp_all [Lit.names, Lit.rename]
  have ho : ∀ o : ObjVal, (∀ r ∈ o.names, ρ r = r) → o.rename ρ = o := by
    intro o h
    cases o with
    | iri r => simp_all [ObjVal.names, ObjVal.rename]
    | lit l => simp only [ObjVal.rename]; rw [hl l h]
  have hp : ∀ p : Pat, (∀ r ∈ p.names, ρ r = r) → p.rename ρ = p := by
    intro p h
    cases p with
    | node o => simp only [Pat.rename]; rw [ho o h]
    | wildcard => rfl
    | focus => rfl
  have hq : ∀ p : PathRef, (∀ r ∈ p.names, ρ r = r) → p.rename ρ = p := by
    intro p
    refine PathRef.rec (motive_1 := fun p => (∀ r ∈ p.names, ρ r = r) → p.rename ρ = p)
      (motive_2 := fun ps => (∀ r ∈ PathRef.namesAll ps, ρ r = r) → PathRef.renameAll ρ ps = ps)
      ?_ ?_ ?_ ?_ ?_ ?_ ?_ ?_ ?_ p
    · intro r h; simp_all [PathRef.names, PathRef.rename]
    · intro ps ih h; rw [PathRef.rename, ih h]
    · intro ps ih h; rw [PathRef.rename, ih h]
    · intro ps ih h; rw [PathRef.rename, ih h]
    · intro ps ih h; rw [PathRef.rename, ih h]
    · intro ps ih h; rw [PathRef.rename, ih h]
    · intro ps ih h; rw [PathRef.rename, ih h]
    · intro _; rfl
    · intro p ps ih ihs h
      rw [PathRef.renameAll, ih fun r hr => h r (by simp [PathRef.namesAll, hr]),
        ihs fun r hr => h r (by simp [PathRef.namesAll, hr])]
  constructor
  · intro s h
    cases s with
    | node o => simp only [Sel.rename]; rw [ho o h]
    | triple s p o =>
      simp only [Sel.rename]
      rw [hp s fun r hr => h r (by simp [Sel.names, hr]), hq p fun r hr => h r (by simp [Sel.names, hr]),
        hp o fun r hr => h r (by simp [Sel.names, hr])]
    | _ => rfl
  · intro s h
    cases s with
    | label l => cases l <;> simp_all [ShapeSel.names, ShapeSel.rename, Label.names, Label.rename]
    | start => rfl

/-! ## Properties -/

/-- **C109**: the text of a shape map whose names are all IRIs, with no base, is read as that shape map. -/
theorem C109_read (X : Ext) (I : Iris) (V : MapEnv) (as : List Assoc) (w : Str) (h : MapText X.lang as w)
    (hb : V.baseNodes = none ∧ V.baseShapes = none)
    (hn : ∀ a ∈ as, ∀ r ∈ a.node.names ++ a.shape.names, ∃ s, r = .iri s) :
    parseMap X I V w = .ok ⟨as, V.nodesPm.getD .new, V.shapesPm.getD .new⟩ := by
  rw [parseMap_read I V h, adds_eq, hb.1, hb.2]
  have key : ∀ (m : Prefix.PrefixMap) (a : Assoc), a ∈ as → ∀ r ∈ a.node.names ++ a.shape.names,
      canRes I ⟨none, some m⟩ r = true ∧ res I ⟨none, some m⟩ r = r := by
    intro m a ha r hr
    obtain ⟨s, rfl⟩ := hn a ha r hr
    exact ⟨rfl, rfl⟩
  have h1 : (as.all fun a => a.node.names.all (canRes I ⟨none, some V.empty.nodesPm⟩) &&
      a.shape.names.all (canRes I ⟨none, some V.empty.shapesPm⟩)) = true := by
    simp only [List.all_eq_true, Bool.and_eq_true]
    exact fun a ha => ⟨fun r hr => (key _ a ha r (by simp [hr])).1, fun r hr => (key _ a ha r (by simp [hr])).1⟩
  have h2 : (as.map fun a => (⟨a.node.rename (res I ⟨none, some V.empty.nodesPm⟩),
      a.shape.rename (res I ⟨none, some V.empty.shapesPm⟩)⟩ : Assoc)) = as := by
    conv_rhs => rw [← List.map_id as]
    refine List.map_congr_left fun a ha => ?_
    rw [rename_self.1 _ fun r hr => (key _ a ha r (by simp [hr])).2,
      rename_self.2 _ fun r hr => (key _ a ha r (by simp [hr])).2]
    rfl
  rw [h1, h2]
  rfl

/-- **C109**: a text is the text of one shape map at most. -/
theorem C109_unambiguous (X : Ext) (as as' : List Assoc) (w : Str) (h : MapText X.lang as w)
    (h' : MapText X.lang as' w) : as = as' := by
  have := (map_read h).symm.trans (map_read h')
  cases this
  rfl

/-- **C109**: whatever the text, reading it ends, and a shape map that is read is not empty. -/
theorem C109_ends (X : Ext) (I : Iris) (V : MapEnv) (w : Str) :
    parseMap X I V w ≠ .deep ∧ ∀ M, parseMap X I V w = .ok M → M.assocs ≠ [] := by
  have hf := parseMap_fine X freeCtx w trivial
  constructor
  · intro h
    unfold parseMap at h
    cases hx : mapStatement X (skip w) with
    | ok as r =>
      rw [hx] at h
      cases r with
      | cons c r => cases h
      | nil =>
        simp only at h
        cases hy : V.empty.adds I V.baseNodes V.baseShapes as with
        | none => rw [hy] at h; cases h
        | some M' => rw [hy] at h; cases h
    | err => rw [hx] at h; cases h
    | fail => rw [hx] at h; cases h
    | panic => rw [hx] at h; cases h
    | deep => rw [hx] at hf; exact hf
  · intro M hM
    obtain ⟨as, h1, h2⟩ := parseMap_ok hM
    rw [h1] at hf
    rw [adds_eq] at h2
    unfold onlyIf at h2
    split at h2
    · cases h2
      simpa [MapEnv.empty] using hf.1.1
    · cases h2

/-- **C109** (partial: for tame texts; others can make the reader panic, see `C109_refuted`): a tame text is read to a
shape map or refused with an error. -/
theorem C109_no_panic_partial (X : Ext) (I : Iris) (V : MapEnv) (w : Str) (h : Tame w) :
    (∃ M, parseMap X I V w = .ok M) ∨ parseMap X I V w = .error := by
  have hf := parseMap_fine X tameCtx w h
  unfold parseMap
  cases hx : mapStatement X (skip w) with
  | ok as r =>
    cases r with
    | cons c r => exact .inr rfl
    | nil =>
      simp only
      cases hy : V.empty.adds I V.baseNodes V.baseShapes as with
      | none => exact .inr rfl
      | some M' => exact .inl ⟨M', rfl⟩
  | err => exact .inr rfl
  | fail => exact .inr rfl
  | panic => rw [hx] at hf; exact hf.elim
  | deep => rw [hx] at hf; exact hf.elim

/-- **C110** (partial: the namespaces end in `/` or `#`; see `C110_refuted`): the text of a shape map is read, with
every name of a node replaced by what it stands for with the prefixes and the base of the nodes and every name of a
shape by what it stands for with those of the shapes, or it is refused, because one of the names stands for nothing. -/
theorem C110_names_partial (X : Ext) (I : Iris) (V : MapEnv) (as : List Assoc) (w : Str) (h : MapText X.lang as w)
    (hn : NsEnds (V.nodesPm.getD .new)) (hs : NsEnds (V.shapesPm.getD .new)) :
    (∃ ρ σ : IriRef → IriRef,
      (∀ a ∈ as, (∀ r ∈ a.node.names, Stands I V.baseNodes (V.nodesPm.getD .new) r (ρ r)) ∧
        ∀ r ∈ a.shape.names, Stands I V.baseShapes (V.shapesPm.getD .new) r (σ r)) ∧
      parseMap X I V w = .ok ⟨as.map fun a => ⟨a.node.rename ρ, a.shape.rename σ⟩, V.nodesPm.getD .new,
        V.shapesPm.getD .new⟩) ∨
    parseMap X I V w = .error ∧
      ∃ a ∈ as, (∃ r ∈ a.node.names, ∀ r', ¬ Stands I V.baseNodes (V.nodesPm.getD .new) r r') ∨
        ∃ r ∈ a.shape.names, ∀ r', ¬ Stands I V.baseShapes (V.shapesPm.getD .new) r r' := by
  have yes : ∀ {base : Option Str} {m : Prefix.PrefixMap} {r : IriRef}, NsEnds m → canRes I ⟨base, some m⟩ r = true →
      Stands I base m r (res I ⟨base, some m⟩ r) := by
    intro base m r hm hc
    refine (stands_iff hm r _).1 ?_
    rw [IriRef.deref_eq, hc]
    rfl
  have no : ∀ {base : Option Str} {m : Prefix.PrefixMap} {r : IriRef}, NsEnds m → ¬ canRes I ⟨base, some m⟩ r = true →
      ∀ r', ¬ Stands I base m r r' := by
    intro base m r hm hc r' hr
    have := (stands_iff hm r r').2 hr
    rw [IriRef.deref_eq] at this
    simp only [Bool.not_eq_true] at hc
    rw [hc] at this
    cases this
  have hp := parseMap_read I V h
  rw [adds_eq, show V.empty.nodesPm = V.nodesPm.getD .new from rfl, show V.empty.shapesPm = V.shapesPm.getD .new from rfl,
    show V.empty.assocs = [] from rfl, List.nil_append] at hp
  cases hc : (as.all fun a => a.node.names.all (canRes I ⟨V.baseNodes, some (V.nodesPm.getD .new)⟩) &&
      a.shape.names.all (canRes I ⟨V.baseShapes, some (V.shapesPm.getD .new)⟩)) with
  | true =>
    rw [hc] at hp
    simp only [List.all_eq_true, Bool.and_eq_true] at hc
    refine .inl ⟨res I ⟨V.baseNodes, some (V.nodesPm.getD .new)⟩, res I ⟨V.baseShapes, some (V.shapesPm.getD .new)⟩,
      fun a ha => ⟨fun r hr => yes hn ((hc a ha).1 r hr), fun r hr => yes hs ((hc a ha).2 r hr)⟩, hp⟩
  | false =>
    rw [hc] at hp
    refine .inr ⟨hp, ?_⟩
    · simp only [← Bool.not_eq_true, List.all_eq_true, Bool.and_eq_true, not_forall, not_and_or] at hc
      obtain ⟨a, ha, ⟨r, hr, hc⟩ | ⟨r, hr, hc⟩⟩ := hc
      · exact ⟨a, ha, .inl ⟨r, hr, no hn hc⟩⟩
      · exact ⟨a, ha, .inr ⟨r, hr, no hs hc⟩⟩

/-- **C110**: in a shape map that was read, whatever the text, no prefixed name is left. -/
theorem C110_absolute (X : Ext) (I : Iris) (V : MapEnv) (w : Str) (M : ShapeMap) (h : parseMap X I V w = .ok M) :
    ∀ a ∈ M.assocs, ∀ r ∈ a.node.names ++ a.shape.names, ∃ s, r = .iri s := by
  obtain ⟨as, -, h2⟩ := parseMap_ok h
  rw [adds_eq] at h2
  unfold onlyIf at h2
  split at h2
  · next hc =>
    cases h2
    simp only [List.all_eq_true, Bool.and_eq_true] at hc
    have key : ∀ {E : Env} {r : IriRef}, canRes I E r = true → ∃ s, res I E r = .iri s := by
      intro E r hr
      refine deref_iri (I := I) (E := E) (r := r) ?_
      rw [IriRef.deref_eq, hr]
      rfl
    intro a ha r hr
    simp only [MapEnv.empty, List.nil_append, List.mem_map] at ha
    obtain ⟨b, hb, rfl⟩ := ha
    simp only [List.mem_append, Sel.names_rename, ShapeSel.names_rename, List.mem_map] at hr
    rcases hr with ⟨q, hq, rfl⟩ | ⟨q, hq, rfl⟩
    · exact key ((hc b hb).1 q hq)
    · exact key ((hc b hb).2 q hq)
  · cases h2

/-! ## Witnesses -/

/-- Whether the text was refused. -/
def MapOut.refused : MapOut → Bool
  | .error => true
  | _ => false

def MapOut.panics : MapOut → Bool
  | .panic => true
  | _ => false

/-- The patterns of the shape map that was read. -/
def MapOut.subjects : MapOut → List Pat
  | .ok M => M.assocs.filterMap fun a => match a.node with | .triple s _ _ => some s | _ => none
  | _ => []

def MapOut.nodesRead : MapOut → List ObjVal
  | .ok M => M.assocs.filterMap fun a => match a.node with | .node o => some o | _ => none
  | _ => []

/-- Every language tag is good. -/
def tagExt : Ext := { noExt with lang := some }

/-- The empty prefix is declared. -/
def oneEnv : MapEnv := { nodesPm := some ⟨[([], "x:n".toList)], false⟩, shapesPm := some ⟨[([], "x:n/".toList)], false⟩ }

/-- **C109**, what fails of the whole statement: a string directly before the `@` of its shape is taken for a string
with a language tag, and the map is refused; a name that begins with `focus` is taken for the keyword where a pattern
begins, so that a pattern is refused, and `{ focus:x <p> }` is read as `{ FOCUS :x <p> }`; an escape that is the number
of no character makes the reader panic. -/
theorem C109_refuted :
    parseMap tagExt anyIris {} "\"x\"@START".toList = .error ∧
    (parseMap tagExt anyIris {} "\"x\" @START".toList).nodesRead = [.lit (.str ['x'])] ∧
    parseMap noExt anyIris { nodesPm := some ⟨[("focus".toList, "x:/".toList)], false⟩ }
      "{ focus:x <p> FOCUS }@START".toList = .error ∧
    (parseMap noExt anyIris oneEnv "{ focus:x <p> }@START".toList).subjects = [.focus] ∧
    parseMap noExt anyIris {} "<\\uD800>@START".toList = .panic := by
  have he : ∀ {o : MapOut}, o.refused = true → o = .error := by intro o h; cases o <;> simp_all [MapOut.refused]
  have hp : ∀ {o : MapOut}, o.panics = true → o = .panic := by intro o h; cases o <;> simp_all [MapOut.panics]
  exact ⟨he (by decide +kernel), by decide +kernel, he (by decide +kernel), by decide +kernel, hp (by decide +kernel)⟩

/-- **C110**, what fails of the whole statement: a namespace that ends in neither `/` nor `#` is joined to the local name
with a `/`. -/
theorem C110_refuted :
    (parseMap noExt anyIris oneEnv ":a@:b".toList).nodesRead = [.iri (.iri "x:n/a".toList)] ∧
    Stands anyIris oneEnv.baseNodes (oneEnv.nodesPm.getD .new) (.prefixed [] ['a']) (.iri "x:na".toList) ∧
    ¬ Stands anyIris oneEnv.baseNodes (oneEnv.nodesPm.getD .new) (.prefixed [] ['a']) (.iri "x:n/a".toList) := by
  refine ⟨by decide +kernel, .prefixed (ns := "x:n".toList) (by decide +kernel) (by simp [anyIris]), ?_⟩
  generalize ht : IriRef.iri "x:n/a".toList = t
  intro h
  cases h with
  | @prefixed p l ns h h' =>
    have : ns = "x:n".toList := by
      have h2 : (oneEnv.nodesPm.getD .new).find [] = some "x:n".toList := by decide +kernel
      rw [h] at h2
      exact Option.some.inj h2
    subst this
    injection ht with ht
    revert ht
    decide +kernel

/-- The premises of the theorems above are met: `<a>@START,{ FOCUS a _}@<S> ,`. -/
example : MapText tagExt.lang
    [⟨.node (.iri (.iri ['a'])), .start⟩,
      ⟨.triple .focus (.pred (.iri "http://www.w3.org/1999/02/22-rdf-syntax-ns#type".toList)) .wildcard,
        .label (.iri (.iri ['S']))⟩]
    "<a>@START,{ FOCUS a _}@<S> ,".toList := by
  have iri : ∀ c : Char, IriChar c [c] → RefText (.iri [c]) ['<', c, '>'] := fun c h => .iri (.mk (.cons h .nil))
  have sp : Gap false [' '] := .space (by decide) .nil
  refine ⟨_, [], "<a>@START,{ FOCUS a _}@<S> ,".toList,
    .cons (.mk (.name _) .start) (.comma (.mk (.object .isA .wildcard) (.name _))), .nil, ?_, rfl⟩
  refine .cons (w := ['<', 'a', '>']) (g := []) (.name (iri 'a' (.plain (by decide) (by decide)))) .nil (fun _ _ _ => id) ?_
  refine .cons (w := ['@']) (g := []) (.sym (by decide)) .nil (fun _ _ _ => id) ?_
  refine .cons (w := "START".toList) (g := []) (.kw (by decide) rfl) .nil (by unfold msticks; decide) ?_
  refine .cons (w := [',']) (g := []) (.sym (by decide)) .nil (fun _ _ _ => id) ?_
  refine .cons (w := ['{']) (g := [' ']) (.sym (by decide)) sp (fun _ _ _ => id) ?_
  refine .cons (w := "FOCUS".toList) (g := [' ']) (.kw (by decide) rfl) sp (by simp) ?_
  refine .cons (w := ['a']) (g := [' ']) .isA sp (by simp) ?_
  refine .cons (w := ['_']) (g := []) (.sym (by decide)) .nil (fun _ _ _ => id) ?_
  refine .cons (w := ['}']) (g := []) (.sym (by decide)) .nil (fun _ _ _ => id) ?_
  refine .cons (w := ['@']) (g := []) (.sym (by decide)) .nil (fun _ _ _ => id) ?_
  refine .cons (w := ['<', 'S', '>']) (g := [' ']) (.name (iri 'S' (.plain (by decide) (by decide)))) sp (by simp) ?_
  exact .cons (w := [',']) (g := []) (r := []) (.sym (by decide)) .nil (fun _ _ _ => id) .nil

example : NsEnds (oneEnv.shapesPm.getD .new) ∧ Tame "<a>@START,{ FOCUS a _}@<S> ,".toList := by
  refine ⟨?_, ⟨by decide +kernel, by decide +kernel, by decide +kernel, by decide +kernel, by decide +kernel⟩⟩
  intro p ns h
  have : ns = "x:n/".toList := by
    simp only [oneEnv, Option.getD_some, Prefix.PrefixMap.find, Prefix.imGet] at h
    split at h
    · exact (Option.some.inj h).symm
    · cases h
  subst this
  decide +kernel

end Shexc
