import Verif.Shexj.Refused

/-!
# Properties: schemas written to ShExJ and read back (C136)
-/

namespace Shexj

open Shexc
open Shexc.Pp (showInt)

/-! ## Data for the examples -/

/-- IRIs that start with `http:` or `urn:`, language tags as they are and numbers of facets that are integers. -/
def exX : Ext where
  iri s := "http:".toList.isPrefixOf s || "urn:".toList.isPrefixOf s
  lang t := if t = [] then none else some t
  dec _ := none
  dbl t := some t
  numW n := match n with
    | .int n => .int n
    | _ => .null
  numR j := match j with
    | .int n => some (.int n)
    | _ => none

/-- A node constraint whose facets are not in the order of their kinds. -/
def exNC : NC :=
  { kind := some .literal, datatype := some (.prefixed "xsd".toList "string".toList),
    facets := some [.maxLength 9, .minInc (.int (-3)), .pattern "^a".toList (some "i".toList)],
    values := some [.obj (.iri (.iri "urn:v".toList)), .obj (.lit (.num (.int (-7)))),
      .iriStemRange none (some [.exact (.iri "urn:w".toList), .stem (.prefixed "q".toList "r".toList)]),
      .langStem none, .litStemRange (some "ab".toList) (some [.stem "abc".toList])] }

/-- A schema with all sorts of expressions. -/
def exSch : Sch where
  context := "http://www.w3.org/ns/shex.jsonld".toList
  type := "Schema".toList
  imports := some [.ref (.iri "urn:other".toList)]
  start := some (.or [.ref (.bnode "b".toList), .not (.nc exNC)])
  startActs := none
  shapes := some [⟨"ShapeDecl".toList, .iri (.iri "urn:S".toList), false,
    .shape (some true) (some [.iri "urn:p".toList])
      (some (.each none [.tc (some (.iri (.iri "urn:t".toList))) none (some true) (.iri "urn:p".toList)
        (some (.ref (.bnode "b".toList))) (some 1) (some (-1)) none none, .ref (.iri (.iri "urn:t".toList))]
        none none none (some [⟨.iri "urn:q".toList, .lit (.lang "hi".toList "en".toList)⟩])))
      none none none⟩]
  prefixmap := some ⟨[("xsd".toList, "http://www.w3.org/2001/XMLSchema#".toList), ([], [])], true⟩
  base := none
  source := "urn:here".toList

theorem noAngles {s : Str} (h : angle s = none) : ¬ Angles s := angle_none.1 h
theorem noBlank {s : Str} (h : blank s = none) : NoBlank s := blank_none.1 h
theorem unescaped {s : Str} (h : plain s = true) : Unescaped s := plain_iff.1 h

theorem exNC_ok : NCOk exX exNC := by
  refine ⟨?_, ?_, ?_⟩
  · intro r h
    injection h with h
    subst h
    exact ⟨by decide, by decide⟩
  · intro vs h v hv
    injection h with h
    subst h
    simp only [List.mem_cons, List.not_mem_nil, or_false] at hv
    rcases hv with rfl | rfl | rfl | rfl | rfl
    · show exX.iri _ = true
      decide
    · exact ⟨by decide, by decide⟩
    · refine ⟨by simp, _, rfl, ?_⟩
      intro e he
      simp only [List.mem_cons, List.not_mem_nil, or_false] at he
      rcases he with rfl | rfl
      · show exX.iri _ = true
        decide
      · exact ⟨by decide, by decide⟩
    · intro t h
      cases h
    · refine ⟨_, rfl, ?_⟩
      intro e he
      simp only [List.mem_cons, List.not_mem_nil, or_false] at he
      subst he
      exact ⟨by decide, by decide⟩
  · intro fs h
    injection h with h
    subst h
    refine ⟨by decide, ?_⟩
    intro f hf
    simp only [List.mem_cons, List.not_mem_nil, or_false] at hf
    rcases hf with rfl | rfl | rfl
    · show 9 < 2 ^ 64
      decide
    · rfl
    · trivial

theorem exBnode_ok : LabelOk exX (.bnode "b".toList) := ⟨noAngles (by decide), by decide⟩

theorem exSch_ok : SchOk exX exSch where
  start := ⟨exBnode_ok, exNC_ok, trivial⟩
  startActs := by intro as h; cases h
  shapes := by
    intro ds h d hd
    injection h with h
    subst h
    rw [List.mem_singleton] at hd
    subst hd
    refine ⟨⟨by decide, noAngles (by decide), noBlank (by decide)⟩, unescaped (by decide), ?_, ?_, ?_, ?_⟩
    · intro rs h r hr
      injection h with h
      subst h
      rw [List.mem_singleton] at hr
      subst hr
      show exX.iri _ = true
      decide
    · refine ⟨⟨by simp, by simp, by simp, by simp, ?_⟩, ⟨⟨?_, ?_, ?_, by simp, by simp⟩, ?_, exBnode_ok⟩, ?_, trivial⟩
      · intro as h a ha
        injection h with h
        subst h
        rw [List.mem_singleton] at ha
        subst ha
        refine ⟨?_, rfl⟩
        show exX.iri _ = true
        decide
      · intro l h
        injection h with h
        subst h
        refine ⟨?_, ?_⟩
        · show exX.iri _ = true
          decide
        · intro r h
          injection h with h
          subst h
          exact unescaped (by decide)
      · intro n h
        injection h with h
        subst h
        exact ⟨by decide, by decide⟩
      · intro n h
        injection h with h
        subst h
        exact ⟨by decide, by decide⟩
      · show exX.iri _ = true
        decide
      · show exX.iri _ = true
        decide
    · exact ⟨by simp, by simp⟩
    · simp
  prefixmap := by
    intro m h
    injection h with h
    subst h
    refine ⟨by decide, ?_⟩
    intro e he
    simp only [List.mem_cons, List.not_mem_nil, or_false] at he
    rcases he with rfl | rfl
    · exact Or.inr (by decide)
    · exact Or.inl rfl
  base := by intro b h; cases h

theorem exSch_depth : (writeSch exX exSch).depth ≤ maxDepth := by decide +kernel

/-! ## C136 -/

/-- **C136.** A schema written to ShExJ is read back: the same shapes, expressions, constraints, labels, actions and
annotations, with facets in a fixed order, imports as texts and without its source. -/
theorem C136_read_back (X : Ext) (s : Sch) (h : SchOk X s) (hd : (writeSch X s).depth ≤ maxDepth) :
    readSch X (writeSch X s) = some (Sch.back s) := by
  rw [readSch, if_pos hd]
  exact readSch_ok h (Nat.le_refl _)

example : readSch exX (writeSch exX exSch) = some (Sch.back exSch) := C136_read_back exX exSch exSch_ok exSch_depth

/-- **C136.** What comes back is in its final form, and the facets that come back are those that there were, each
kind after those before it. -/
theorem C136_final (s : Sch) (c : NC) :
    Sch.back (Sch.back s) = Sch.back s ∧ ((NC.back c).facets.getD []).Perm (c.facets.getD []) ∧
      ((NC.back c).facets.getD []).Pairwise fun f g => Facet.rank f ≤ Facet.rank g := by
  have hs : ∀ n (fs : List Facet), ((List.range n).flatMap fun i => fs.filter fun f => Facet.rank f == i).Pairwise
      fun f g => Facet.rank f ≤ Facet.rank g := by
    intro n fs
    rw [List.pairwise_flatMap]
    constructor
    · intro i _
      rw [List.pairwise_filter]
      refine List.pairwise_of_forall fun f g hf hg => ?_
      rw [beq_iff_eq] at hf hg
      omega
    · refine List.pairwise_lt_range.imp ?_
      intro i j hij f hf g hg
      have hf := (List.mem_filter.1 hf).2
      have hg := (List.mem_filter.1 hg).2
      rw [beq_iff_eq] at hf hg
      omega
  refine ⟨schBack_idem s, ?_⟩
  unfold NC.back
  cases c.facets with
  | none => exact ⟨List.Perm.refl _, by simp⟩
  | some fs =>
    cases fs with
    | nil => exact ⟨List.Perm.refl _, by simp⟩
    | cons f fs => exact ⟨sortFacets_perm (f :: fs), hs 10 (f :: fs)⟩

example : ((NC.back exNC).facets.getD []).length = 3 := by decide

/-- **C136.** A reference to a shape comes back exactly when its label is an IRI without a part in angle brackets and
without the start of a blank node, or a blank node of one line without such a part. -/
theorem C136_references (X : Ext) (n : Nat) (l : Label) :
    readSE X n (writeSE X (.ref l)) = some (.ref l) ↔ LabelOk X l := by
  have e : readSE X n (writeSE X (.ref l)) = (labelOf X (labelText l)).map .ref := by
    rw [writeSE, writeLabel]
    cases n <;> rw [readSE]
  rw [e, ← labelOf_iff]
  cases labelOf X (labelText l) <;> simp

example : ¬ LabelOk exX .start := fun h => h

/-- **C136.** A reference to an IRI that has `_:` in it comes back as a reference to a blank node. -/
theorem C136_blank_inside (X : Ext) (n : Nat) (a b : Str) (h1 : ¬ Angles (a ++ '_' :: ':' :: b))
    (h2 : NoBlank (a ++ ['_'])) : readSE X n (writeSE X (.ref (.iri (.iri (a ++ '_' :: ':' :: b))))) =
      some (.ref (.bnode (line b))) := by
  have e : readSE X n (writeSE X (.ref (.iri (.iri (a ++ '_' :: ':' :: b))))) =
      (labelOf X (a ++ '_' :: ':' :: b)).map .ref := by
    rw [writeSE, writeLabel, labelText, refText]
    cases n <;> rw [readSE]
  rw [e, labelOf, angle_none.2 h1, blank_first h2]
  rfl

example : readSE exX 3 (writeSE exX (.ref (.iri (.iri "urn:a_:b".toList)))) = some (.ref (.bnode "b".toList)) :=
  C136_blank_inside exX 3 "urn:a".toList "b".toList (noAngles (by decide)) (noBlank (by decide))

/-- **C136.** An object of an annotation comes back exactly when it is an IRI written as such, or a literal of another
datatype than those with literals of their own, or one of these with a number that is read as what it was. -/
theorem C136_objects (X : Ext) (o : ObjVal) : readObj X (writeObj o) = some o ↔ ObjOk X o := readObj_iff

example : readObj exX (writeObj (.lit (.typed "x".toList (.iri "urn:d".toList)))) =
    some (.lit (.typed "x".toList (.iri "urn:d".toList))) := by
  rw [C136_objects]
  exact ⟨by show exX.iri _ = true; decide, by decide +kernel⟩

/-- **C136.** A literal with the datatype of integers comes back as a number. -/
theorem C136_integers (X : Ext) (n : Int) (h : I64 n) :
    readObj X (writeObj (.lit (.typed (showInt n) (.iri integerIri.toList)))) = some (.lit (.num (.int n))) := by
  have : writeObj (.lit (.typed (showInt n) (.iri integerIri.toList))) = writeObj (.lit (.num (.int n))) := rfl
  rw [this]
  exact readObj_ok (o := .lit (.num (.int n))) h

example : I64 5 := ⟨by decide, by decide⟩

/-- **C136.** A range of values without exclusions is not read. -/
theorem C136_ranges_refused (X : Ext) (i : Option IriRef) (s : Option Str) :
    readValue X (writeValue (.iriStemRange i none)) = none ∧ readValue X (writeValue (.litStemRange s none)) = none ∧
      readValue X (writeValue (.langStemRange s none)) = none :=
  ⟨readValue_null, readValue_null, readValue_null⟩

example : writeValue (.litStemRange (some "a".toList) none) =
    .obj [("type", .lit "LiteralStemRange"), ("stem", .lit "a"), ("exclusions", .null)] := rfl

/-- **C136.** A node constraint with two facets of a kind is not read. -/
theorem C136_facets_refused (X : Ext) (n : Nat) (c : NC) (fs : List Facet) (hf : c.facets = some fs)
    (hd : ¬ (fs.map Facet.rank).Nodup) : readSE X n (writeSE X (.nc c)) = none := by
  cases n with
  | zero => rw [writeSE, tagged, readSE] <;> simp
  | succ n => rw [readSE_nc, readNC_twice hf hd fun k hk => vals_rest hk]; rfl

example : ¬ ([Facet.minInc (.int 1), .length 2, .minInc (.int 3)].map Facet.rank).Nodup := by decide

/-- **C136.** Expressions that are nested too deeply are not read. -/
theorem C136_nesting_refused (X : Ext) (s : Sch) (e : SE) (n : Nat) (hn : 127 ≤ n) (h : s.start = some (nots e n)) :
    readSch X (writeSch X s) = none := by
  have h1 := start_depth (X := X) h
  have h2 := nots_depth X e n
  rw [readSch, if_neg]
  unfold maxDepth
  omega

example : ({ exSch with start := some (nots .external 127) } : Sch).start = some (nots .external 127) := rfl

/-- **C136.** Not every schema comes back as it was: the source, imports of IRIs and labels are lost or changed. -/
theorem C136_unchanged_refuted : ¬ ∀ (X : Ext) (s : Sch), SchOk X s → (writeSch X s).depth ≤ maxDepth →
    readSch X (writeSch X s) = some s := by
  intro h
  have h1 := h exX exSch exSch_ok exSch_depth
  rw [C136_read_back exX exSch exSch_ok exSch_depth] at h1
  injection h1 with h1
  have h2 := congrArg Sch.source h1
  revert h2
  decide

end Shexj
