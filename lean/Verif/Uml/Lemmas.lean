import Verif.Uml.LemmasState

/-!
# Helper lemmas: names, labels, cardinalities and node constraints are what the specification says
-/

namespace Uml
open Rbe Shexc

theorem bind_ok {α β : Type} {x : Out α} {f : α → Out β} {b : β} :
    x.bind f = .ok b ↔ ∃ a, x = .ok a ∧ f a = .ok b := by
  cases x with
  | ok a => simp [Out.bind]
  | err => simp [Out.bind]
  | panic => simp [Out.bind]

theorem each_length {α β : Type} {R : α → β → Prop} {as : List α} {bs : List β} (h : Each R as bs) :
    as.length = bs.length := by
  induction h with
  | nil => rfl
  | cons a b as bs _ _ ih => simp [ih]

theorem each_append {α β : Type} {R : α → β → Prop} {as cs : List α} {bs ds : List β} (h : Each R as bs)
    (g : Each R cs ds) : Each R (as ++ cs) (bs ++ ds) := by
  induction h with
  | nil => exact g
  | cons a b as bs h _ ih => exact .cons a b _ _ h ih

theorem each_mono {α β : Type} {R S : α → β → Prop} (hRS : ∀ a b, R a b → S a b) {as : List α} {bs : List β}
    (h : Each R as bs) : Each S as bs := by
  induction h with
  | nil => exact .nil
  | cons a b as bs h _ ih => exact .cons a b _ _ (hRS _ _ h) ih

theorem each_mem_left {α β : Type} {R : α → β → Prop} {as : List α} {bs : List β} (h : Each R as bs) {a : α}
    (ha : a ∈ as) : ∃ b ∈ bs, R a b := by
  induction h with
  | nil => cases ha
  | cons x b as bs h _ ih =>
    rcases List.mem_cons.1 ha with rfl | ha
    · exact ⟨b, List.mem_cons_self, h⟩
    · obtain ⟨c, hc, hr⟩ := ih ha
      exact ⟨c, List.mem_cons_of_mem _ hc, hr⟩

theorem each_of {α β : Type} {R : α → β → Prop} {as : List α} (h : ∀ a ∈ as, ∃ b, R a b) :
    ∃ bs, Each R as bs := by
  induction as with
  | nil => exact ⟨[], .nil⟩
  | cons a as ih =>
    obtain ⟨b, hb⟩ := h a List.mem_cons_self
    obtain ⟨bs, hbs⟩ := ih fun x hx => h x (List.mem_cons_of_mem _ hx)
    exact ⟨b :: bs, .cons _ _ _ _ hb hbs⟩

/-! ## Names -/

theorem iriName_ok {C : Cfg} {pm : Prefix.PrefixMap} {label : Option Str} {r : IriRef} {n : Name} :
    iriName C pm label r = .ok n ↔ RefCalled C pm label r n := by
  cases r with
  | iri i =>
    simp only [iriName, Out.ok.injEq]
    constructor
    · rintro rfl; exact .iri i
    · intro h; cases h; rfl
  | prefixed a l =>
    simp only [iriName]
    cases h : pm.resolvePrefixLocal C.valid a l with
    | none =>
      constructor
      · intro h; cases h
      · intro h'
        cases h' with
        | prefixed _ _ i h' => rw [h] at h'; cases h'
    | some i =>
      simp only [Out.ok.injEq]
      constructor
      · rintro rfl; exact .prefixed a l i h
      · intro h'
        cases h' with
        | prefixed _ _ j h' => rw [h] at h'; cases h'; rfl

theorem labelName_ok {C : Cfg} {pm : Prefix.PrefixMap} {l : Label} {n : Name} :
    labelName C pm l = .ok n ↔ Called C pm l n := by
  cases l with
  | iri r =>
    simp only [labelName, iriName_ok]
    constructor
    · exact .iri r n
    · intro h
      cases h with
      | iri _ _ h => exact h
  | bnode b =>
    simp only [labelName, Out.ok.injEq]
    constructor
    · rintro rfl; exact .bnode b
    · intro h; cases h; rfl
  | start =>
    simp only [labelName, Out.ok.injEq]
    constructor
    · rintro rfl; exact .start
    · intro h; cases h; rfl

theorem called_label {C : Cfg} {pm : Prefix.PrefixMap} {l : Label} {n : Name} (h : Called C pm l n) :
    n.label = none := by
  cases h with
  | iri r n h => cases h <;> rfl
  | bnode b => rfl
  | start => rfl

/-! ## Labels -/

theorem findAnnot_none {C : Cfg} {pm : Prefix.PrefixMap} {p : Str} {as : List Annot} :
    findAnnot C pm p as = .ok none ↔ ∀ a ∈ as, Other C pm p a := by
  induction as with
  | nil => simp [findAnnot]
  | cons a as ih =>
    simp only [findAnnot, List.forall_mem_cons, Other]
    cases h : resolve C pm a.pred with
    | none => simp
    | some i =>
      simp only
      by_cases hp : p = i
      · subst hp; simp
      · rw [if_neg hp, ih]
        have : i ≠ p := fun h => hp h.symm
        simp [this, Other]

theorem findAnnot_some {C : Cfg} {pm : Prefix.PrefixMap} {p : Str} {as : List Annot} {o : ObjVal} :
    findAnnot C pm p as = .ok (some o) ↔ ∃ bs a cs, as = bs ++ a :: cs ∧ (∀ b ∈ bs, Other C pm p b) ∧
      resolve C pm a.pred = some p ∧ a.obj = o := by
  induction as with
  | nil =>
    simp only [findAnnot, Out.ok.injEq, reduceCtorEq, false_iff]
    rintro ⟨bs, a, cs, h, _⟩
    cases bs <;> cases h
  | cons a as ih =>
    simp only [findAnnot]
    cases h : resolve C pm a.pred with
    | none =>
      simp only [reduceCtorEq, false_iff]
      rintro ⟨bs, b, cs, h1, h2, h3, _⟩
      cases bs with
      | nil => cases h1; rw [h] at h3; cases h3
      | cons x bs =>
        cases h1
        obtain ⟨i, hi, _⟩ := h2 a List.mem_cons_self
        rw [h] at hi; cases hi
    | some i =>
      simp only
      by_cases hp : p = i
      · subst hp
        simp only [if_pos, Out.ok.injEq, Option.some.injEq]
        constructor
        · intro ho; exact ⟨[], a, as, rfl, by simp, h, ho⟩
        · rintro ⟨bs, b, cs, h1, h2, h3, h4⟩
          cases bs with
          | nil => cases h1; exact h4
          | cons x bs =>
            cases h1
            obtain ⟨i, hi, hne⟩ := h2 a List.mem_cons_self
            rw [h] at hi; cases hi
            exact absurd rfl hne
      · rw [if_neg hp, ih]
        constructor
        · rintro ⟨bs, b, cs, h1, h2, h3⟩
          refine ⟨a :: bs, b, cs, by rw [h1]; rfl, ?_, h3⟩
          intro x hx
          rcases List.mem_cons.1 hx with rfl | hx
          · exact ⟨i, h, fun h => hp h.symm⟩
          · exact h2 x hx
        · rintro ⟨bs, b, cs, h1, h2, h3, h4⟩
          cases bs with
          | nil => cases h1; rw [h] at h3; cases h3; exact absurd rfl hp
          | cons x bs =>
            cases h1
            exact ⟨bs, b, cs, rfl, fun x hx => h2 x (List.mem_cons_of_mem _ hx), h3, h4⟩

/-- `Labelled` for given predicates. -/
inductive LabelledBy (C : Cfg) (pm : Prefix.PrefixMap) (anns : List Annot) (ls : List Str) : Option Str → Prop
  | none : (∀ p ∈ ls, ∀ a ∈ anns, Other C pm p a) → LabelledBy C pm anns ls none
  | some (ps p qs bs a cs t) : ls = ps ++ p :: qs → (∀ q ∈ ps, ∀ a ∈ anns, Other C pm q a) →
      anns = bs ++ a :: cs → (∀ b ∈ bs, Other C pm p b) → resolve C pm a.pred = some p → a.obj = .lit t →
      LabelledBy C pm anns ls (some (C.lexical t))

theorem labelledBy_iff {C : Cfg} {pm : Prefix.PrefixMap} {anns : List Annot} {o : Option Str} :
    LabelledBy C pm anns C.labels o ↔ Labelled C pm anns o := by
  constructor
  · intro h
    cases h with
    | none h => exact .none h
    | some ps p qs bs a cs t h1 h2 h3 h4 h5 h6 => exact .some ps p qs bs a cs t h1 h2 h3 h4 h5 h6
  · intro h
    cases h with
    | none h => exact .none h
    | some ps p qs bs a cs t h1 h2 h3 h4 h5 h6 => exact .some ps p qs bs a cs t h1 h2 h3 h4 h5 h6

theorem getLabel_by {C : Cfg} {pm : Prefix.PrefixMap} {anns : List Annot} {ls : List Str} {o : Option Str} :
    getLabel C pm anns ls = .ok o ↔ LabelledBy C pm anns ls o := by
  induction ls with
  | nil =>
    simp only [getLabel, Out.ok.injEq]
    constructor
    · rintro rfl; exact .none (by simp)
    · intro h
      cases h with
      | none _ => rfl
      | some ps p qs bs a cs t h1 => cases ps <;> cases h1
  | cons l ls ih =>
    simp only [getLabel]
    have key : ∀ {o}, (∀ a ∈ anns, Other C pm l a) →
        (LabelledBy C pm anns ls o ↔ LabelledBy C pm anns (l :: ls) o) := by
      intro o hl
      constructor
      · intro h
        cases h with
        | none h =>
          refine .none ?_
          intro p hp
          rcases List.mem_cons.1 hp with rfl | hp
          · exact hl
          · exact h p hp
        | some ps p qs bs a cs t h1 h2 h3 h4 h5 h6 =>
          refine .some (l :: ps) p qs bs a cs t (by rw [h1]; rfl) ?_ h3 h4 h5 h6
          intro q hq
          rcases List.mem_cons.1 hq with rfl | hq
          · exact hl
          · exact h2 q hq
      · intro h
        cases h with
        | none h => exact .none fun p hp => h p (List.mem_cons_of_mem _ hp)
        | some ps p qs bs a cs t h1 h2 h3 h4 h5 h6 =>
          cases ps with
          | nil =>
            cases h1
            obtain ⟨i, hi, hne⟩ := hl a (by rw [h3]; simp)
            rw [h5] at hi; cases hi
            exact absurd rfl hne
          | cons x ps =>
            cases h1
            exact .some ps p qs bs a cs t rfl (fun q hq => h2 q (List.mem_cons_of_mem _ hq)) h3 h4 h5 h6
    have notAll : ∀ {o}, LabelledBy C pm anns (l :: ls) o → (∀ a ∈ anns, Other C pm l a) ∨
        ∃ t, o = some (C.lexical t) ∧ findAnnot C pm l anns = .ok (some (.lit t)) := by
      intro o h
      cases h with
      | none h => exact .inl (h l List.mem_cons_self)
      | some ps p qs bs a cs t h1 h2 h3 h4 h5 h6 =>
        cases ps with
        | nil =>
          cases h1
          exact .inr ⟨t, rfl, findAnnot_some.2 ⟨bs, a, cs, h3, h4, h5, h6⟩⟩
        | cons x ps => cases h1; exact .inl (h2 l List.mem_cons_self)
    cases hf : findAnnot C pm l anns with
    | ok x =>
      cases x with
      | none =>
        simp only
        rw [ih, key (findAnnot_none.1 hf)]
      | some ob =>
        cases ob with
        | lit t =>
          simp only [Out.ok.injEq]
          constructor
          · rintro rfl
            obtain ⟨bs, a, cs, h1, h2, h3, h4⟩ := findAnnot_some.1 hf
            exact .some [] l ls bs a cs t rfl (by simp) h1 h2 h3 h4
          · intro h
            rcases notAll h with h | ⟨t', rfl, h'⟩
            · rw [findAnnot_none.2 h] at hf; cases hf
            · rw [hf] at h'; cases h'; rfl
        | iri r =>
          simp only [reduceCtorEq, false_iff]
          intro h
          rcases notAll h with h | ⟨t', rfl, h'⟩
          · rw [findAnnot_none.2 h] at hf; cases hf
          · rw [hf] at h'; cases h'
    | err =>
      simp only [reduceCtorEq, false_iff]
      intro h
      rcases notAll h with h | ⟨t', rfl, h'⟩
      · rw [findAnnot_none.2 h] at hf; cases hf
      · rw [hf] at h'; cases h'
    | panic =>
      simp only [reduceCtorEq, false_iff]
      intro h
      rcases notAll h with h | ⟨t', rfl, h'⟩
      · rw [findAnnot_none.2 h] at hf; cases hf
      · rw [hf] at h'; cases h'

theorem getLabel_ok {C : Cfg} {pm : Prefix.PrefixMap} {anns : List Annot} {o : Option Str} :
    getLabel C pm anns C.labels = .ok o ↔ Labelled C pm anns o := getLabel_by.trans labelledBy_iff

/-! ## Cardinalities -/

theorem mkCard_ok {mn mx : Option Int} {c : Card} : mkCard mn mx = .ok c ↔ Shown mn mx c := by
  unfold mkCard
  constructor
  · intro h
    simp only at h
    split at h
    · rename_i hc
      cases h
      exact .usual _ (by simp) (by simp [Card.bounds, written, hc.1, hc.2])
    · split at h
      · rename_i hc
        cases h
        exact .usual _ (by simp) (by simp [Card.bounds, written, hc.1, hc.2])
      · split at h
        · rename_i hc
          cases h
          exact .usual _ (by simp) (by simp [Card.bounds, written, hc.1, hc.2])
        · split at h
          · rename_i hc
            cases h
            exact .usual _ (by simp) (by simp [Card.bounds, written, hc.1, hc.2])
          · split at h
            · rename_i h1 h2 h3 h4 h5
              cases h
              exact .other _ _ rfl rfl h5.1 h5.2 h3
            · cases h
  · intro h
    cases h with
    | usual c hc hb =>
      simp only [written] at hb
      have hb1 := congrArg Prod.fst hb
      have hb2 := congrArg Prod.snd hb
      simp only at hb1 hb2
      rw [← hb1]
      simp only [List.mem_cons, List.not_mem_nil, or_false] at hc
      rcases hc with rfl | rfl | rfl | rfl <;> simp only [Card.bounds] at hb2 ⊢
      · split at hb2
        · cases hb2
        · rw [← Option.some.inj hb2]; simp
      · split at hb2
        · rename_i h; rw [h]; simp
        · cases hb2
      · split at hb2
        · rename_i h; rw [h]; simp
        · cases hb2
      · split at hb2
        · cases hb2
        · rw [← Option.some.inj hb2]; simp
    | other m n h1 h2 h3 h4 h5 =>
      simp only [h1, h2]
      rw [if_neg (by omega), if_neg (by omega), if_neg h5, if_neg (by omega), if_pos ⟨h3, h4⟩]

/-! ## Node constraints -/

theorem valueNames_ok {C : Cfg} {pm : Prefix.PrefixMap} {vs : List Shexc.Value} {ns : List Name} :
    valueNames C pm vs = .ok ns ↔ Values C pm vs ns := by
  induction vs generalizing ns with
  | nil =>
    simp only [valueNames, Out.ok.injEq]
    constructor
    · rintro rfl; exact .nil
    · intro h; cases h; rfl
  | cons v vs ih =>
    constructor
    · intro h
      unfold valueNames at h
      split at h
      · rename_i h'; cases h'
      · rename_i h'
        cases h'
        obtain ⟨n, hn, h⟩ := bind_ok.1 h
        obtain ⟨ms, hms, h⟩ := bind_ok.1 h
        cases h
        exact .cons _ _ _ _ (iriName_ok.1 hn) (ih.1 hms)
      · cases h
    · intro h
      cases h with
      | cons r n vs ns hr hv =>
        simp only [valueNames, iriName_ok.2 hr, ih.2 hv, Out.bind]

theorem mkAnd_conj (vs : List (Option VC)) (w : VC) : mkAnd vs = w ↔ Conj (vs.filterMap id) w := by
  unfold mkAnd
  generalize vs.filterMap id = l
  match l with
  | [] =>
    simp only
    constructor
    · rintro rfl; exact .any
    · intro h; cases h; rfl
  | [v] =>
    simp only
    constructor
    · rintro rfl; exact .one _
    · intro h; cases h; rfl
  | v :: v' :: vs =>
    simp only
    constructor
    · rintro rfl; exact .more _ _ _
    · intro h; cases h; rfl

theorem optOut_ok {α : Type} {f : α → Out VC} {R : α → VC → Prop} (hR : ∀ a v, f a = .ok v ↔ R a v)
    {o : Option α} {x : Option VC} : optOut f o = .ok x ↔ Part R o x.toList := by
  cases o with
  | none =>
    simp only [optOut, Out.ok.injEq]
    constructor
    · rintro rfl; exact .none
    · intro h
      cases x with
      | none => rfl
      | some v => cases h
  | some a =>
    simp only [optOut, bind_ok]
    constructor
    · rintro ⟨v, hv, h⟩
      cases h
      exact .some a v ((hR _ _).1 hv)
    · intro h
      cases x with
      | none => cases h
      | some v =>
        cases h with
        | some _ _ h => exact ⟨v, (hR _ _).2 h, rfl⟩

theorem part_map {α : Type} (f : α → VC) {o : Option α} {x : List VC} :
    Part (fun a c => c = f a) o x ↔ x = (o.map f).toList := by
  cases o with
  | none =>
    constructor
    · intro h; cases h; rfl
    · rintro rfl; exact .none
  | some a =>
    constructor
    · intro h
      cases h with
      | some _ v h => rw [h]; rfl
    · rintro rfl; exact .some a _ rfl

theorem filterMap_four (a b c d : Option VC) :
    [a, b, c, d].filterMap id = a.toList ++ b.toList ++ c.toList ++ d.toList := by
  cases a <;> cases b <;> cases c <;> cases d <;> rfl

theorem part_option {α : Type} {R : α → VC → Prop} {o : Option α} {l : List VC} (h : Part R o l) :
    ∃ x : Option VC, l = x.toList := by
  cases h with
  | none => exact ⟨none, rfl⟩
  | some a v h => exact ⟨some v, rfl⟩

theorem kindVC_eq : kindVC = fun a => VC.kind ⟨(kindWord a).toList, none, none⟩ := by
  funext a
  cases a <;> rfl

theorem facetName_eq (C : Cfg) : facetName C = facetShown C := by
  funext f
  cases f with
  | pattern s fl =>
    cases fl with
    | none => simp [facetName, facetShown, facetParts, plain, chars]
    | some fl => simp [facetName, facetShown, facetParts, plain, chars]
  | _ => simp [facetName, facetShown, facetParts, plain, chars, showNat]

theorem ncVC_ok {C : Cfg} {pm : Prefix.PrefixMap} {nc : NC} {w : VC} :
    ncVC C pm nc = .ok w ↔ Node C pm nc w := by
  have hd : ∀ a v, ((iriName C pm none a).bind fun n => Out.ok (VC.datatype n)) = .ok v ↔
      ∃ n, RefCalled C pm none a n ∧ v = .datatype n := by
    intro a v
    simp only [bind_ok, iriName_ok, Out.ok.injEq]
    exact ⟨fun ⟨n, h, e⟩ => ⟨n, h, e.symm⟩, fun ⟨n, h, e⟩ => ⟨n, h, e.symm⟩⟩
  have hv : ∀ a v, ((valueNames C pm a).bind fun ns => Out.ok (VC.values ns)) = .ok v ↔
      ∃ ns, Values C pm a ns ∧ v = .values ns := by
    intro a v
    simp only [bind_ok, valueNames_ok, Out.ok.injEq]
    exact ⟨fun ⟨n, h, e⟩ => ⟨n, h, e.symm⟩, fun ⟨n, h, e⟩ => ⟨n, h, e.symm⟩⟩
  simp only [ncVC, bind_ok, Out.ok.injEq, mkAnd_conj, filterMap_four, optOut_ok hd, optOut_ok hv, kindVC_eq,
    facetName_eq]
  constructor
  · rintro ⟨d, h1, v, h2, h3⟩
    exact .mk _ _ _ _ w ((part_map fun a => VC.kind ⟨(kindWord a).toList, none, none⟩).2 rfl) h1
      ((part_map fun fs : List Facet => VC.facets (fs.map (facetShown C))).2 rfl) h2 h3
  · intro h
    cases h with
    | mk k d f v w h1 h2 h3 h4 h5 =>
      obtain ⟨d, rfl⟩ := part_option h2
      obtain ⟨v, rfl⟩ := part_option h4
      refine ⟨d, h2, v, h4, ?_⟩
      rw [← (part_map fun a => VC.kind ⟨(kindWord a).toList, none, none⟩).1 h1, ← (part_map fun fs : List Facet => VC.facets (fs.map (facetShown C))).1 h3]
      exact h5

theorem conj_none {vs : List VC} {w : VC} (h : Conj vs w) (hv : VC.none ∉ vs) : w ≠ .none := by
  cases h with
  | any => intro h; cases h
  | one v => intro h; subst h; exact hv List.mem_cons_self
  | more v w vs => intro h; cases h

theorem part_mem {α : Type} {R : α → VC → Prop} {o : Option α} {l : List VC} (h : Part R o l) {v : VC}
    (hv : v ∈ l) : ∃ a, R a v := by
  cases h with
  | none => cases hv
  | some a w h => rw [List.mem_singleton.1 hv]; exact ⟨a, h⟩

theorem node_none {C : Cfg} {pm : Prefix.PrefixMap} {nc : NC} {w : VC} (h : Node C pm nc w) : w ≠ .none := by
  cases h with
  | mk k d f v w h1 h2 h3 h4 h5 =>
    refine conj_none h5 ?_
    intro h
    simp only [List.mem_append] at h
    rcases h with ((h | h) | h) | h
    · obtain ⟨a, ha⟩ := part_mem h1 h
      cases a <;> cases ha
    · obtain ⟨a, n, _, ha⟩ := part_mem h2 h
      cases ha
    · obtain ⟨a, ha⟩ := part_mem h3 h
      cases ha
    · obtain ⟨a, n, _, ha⟩ := part_mem h4 h
      cases ha

/-! ## References and datatypes -/

theorem allRefs_some {es : List SE} {ls : List Label} : allRefs es = some ls ↔ es = ls.map .ref := by
  induction es generalizing ls with
  | nil =>
    simp only [allRefs, Option.some.injEq]
    constructor
    · rintro rfl; rfl
    · intro h; cases ls with
      | nil => rfl
      | cons l ls => cases h
  | cons e es ih =>
    constructor
    · intro h
      unfold allRefs at h
      split at h
      · rename_i h'; cases h'
      · rename_i h'
        cases h'
        obtain ⟨ms, hms, rfl⟩ := Option.map_eq_some_iff.1 h
        rw [ih.1 hms]; rfl
      · cases h
    · intro h
      cases ls with
      | nil => cases h
      | cons l ls =>
        cases h
        simp only [allRefs, ih.2 rfl, Option.map_some]

theorem unwrap_ok {α : Type} {x : Out α} {a : α} : x.unwrap = .ok a ↔ x = .ok a := by
  cases x <;> simp [Out.unwrap]

theorem allDatatypes_ok {C : Cfg} {pm : Prefix.PrefixMap} {es : List SE} {ns : List Name} :
    allDatatypes C pm es = .ok (some ns) ↔ Each (Typed C pm) es ns := by
  induction es generalizing ns with
  | nil =>
    simp only [allDatatypes, Out.ok.injEq, Option.some.injEq]
    constructor
    · rintro rfl; exact .nil
    · intro h; cases h; rfl
  | cons e es ih =>
    constructor
    · intro h
      unfold allDatatypes at h
      split at h
      · rename_i h'; cases h'
      · rename_i nc es' h'
        cases h'
        split at h
        · cases h
        · rename_i d hd
          obtain ⟨n, hn, h⟩ := bind_ok.1 h
          obtain ⟨o, ho, h⟩ := bind_ok.1 h
          cases o with
          | none => cases h
          | some ms =>
            cases h
            exact .cons _ _ _ _ ⟨nc, d, rfl, hd, iriName_ok.1 (unwrap_ok.1 hn)⟩ (ih.1 ho)
      · cases h
    · intro h
      cases h with
      | cons _ n _ ms ht hs =>
        obtain ⟨nc, d, rfl, hd, hr⟩ := ht
        simp only [allDatatypes, hd, iriName_ok.2 hr, Out.unwrap, Out.bind, ih.2 hs, Option.map_some]

end Uml
