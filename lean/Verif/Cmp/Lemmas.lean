import Verif.Cmp.Spec

/-!
# Lemmas on comparisons of shapes
-/

namespace Cmp

open Shexc (SE TE NC IriRef Label Kind Str)
open Spec

section Maps
variable {α : Type}

theorem mem_insert {m : List (Str × α)} (hm : IsMap m) {k p : Str} {a b : α} :
    (p, b) ∈ Prefix.imInsert k a m ↔ (p = k ∧ b = a) ∨ (p ≠ k ∧ (p, b) ∈ m) := by
  induction m with
  | nil => simp [Prefix.imInsert]
  | cons e es ih =>
    obtain ⟨q, c⟩ := e
    have hn : q ∉ es.map Prod.fst := (List.nodup_cons.1 hm).1
    have hes : IsMap es := (List.nodup_cons.1 hm).2
    rw [Prefix.imInsert]
    split
    · next h =>
      have h : q = k := h
      subst h
      simp only [List.mem_cons, Prod.mk.injEq]
      constructor
      · rintro (⟨rfl, rfl⟩ | h)
        · exact .inl ⟨rfl, rfl⟩
        · exact .inr ⟨fun hp => hn (hp ▸ List.mem_map_of_mem h), .inr h⟩
      · rintro (h | ⟨h, ⟨h', _⟩ | h'⟩)
        · exact .inl h
        · exact absurd h' h
        · exact .inr h'
    · next h =>
      have h : q ≠ k := h
      simp only [List.mem_cons, Prod.mk.injEq, ih hes]
      constructor
      · rintro (⟨rfl, rfl⟩ | h' | ⟨h', h''⟩)
        · exact .inr ⟨h, .inl ⟨rfl, rfl⟩⟩
        · exact .inl h'
        · exact .inr ⟨h', .inr h''⟩
      · rintro (h' | ⟨h', h'' | h''⟩)
        · exact .inr (.inl h')
        · exact .inl h''
        · exact .inr (.inr ⟨h', h''⟩)

theorem isMap_insert {m : List (Str × α)} (hm : IsMap m) (k : Str) (a : α) : IsMap (Prefix.imInsert k a m) := by
  induction m with
  | nil => simp [Prefix.imInsert, IsMap]
  | cons e es ih =>
    have hn : e.1 ∉ es.map Prod.fst := (List.nodup_cons.1 hm).1
    have hes : IsMap es := (List.nodup_cons.1 hm).2
    rw [Prefix.imInsert]
    split
    · next h =>
      subst h
      exact hm
    · next h =>
      refine List.nodup_cons.2 ⟨?_, ih hes⟩
      rintro h'
      obtain ⟨⟨q, b⟩, hb, hq⟩ := List.mem_map.1 h'
      have hq : q = e.1 := hq
      subst hq
      rcases (mem_insert hes).1 hb with ⟨h1, _⟩ | ⟨_, h1⟩
      · exact h h1
      · exact hn (List.mem_map.2 ⟨_, h1, rfl⟩)

theorem get_some {m : List (Str × α)} (hm : IsMap m) {p : Str} {a : α} : Prefix.imGet p m = some a ↔ (p, a) ∈ m := by
  induction m with
  | nil => simp [Prefix.imGet]
  | cons e es ih =>
    obtain ⟨q, b⟩ := e
    have hn : q ∉ es.map Prod.fst := (List.nodup_cons.1 hm).1
    have hes : IsMap es := (List.nodup_cons.1 hm).2
    rw [Prefix.imGet]
    split
    · next h =>
      have h : q = p := h
      subst h
      simp only [Option.some.injEq, List.mem_cons, Prod.mk.injEq, true_and]
      constructor
      · rintro rfl
        exact .inl rfl
      · rintro (rfl | h)
        · rfl
        · exact absurd (List.mem_map_of_mem h) hn
    · next h =>
      have h : q ≠ p := h
      rw [ih hes]
      simp only [List.mem_cons, Prod.mk.injEq]
      constructor
      · exact .inr
      · rintro (⟨h', _⟩ | h')
        · exact absurd h'.symm h
        · exact h'

theorem get_none {m : List (Str × α)} (hm : IsMap m) {p : Str} : Prefix.imGet p m = none ↔ ∀ a, (p, a) ∉ m := by
  constructor
  · intro h a ha
    rw [(get_some hm).2 ha] at h
    cases h
  · intro h
    cases hg : Prefix.imGet p m with
    | none => rfl
    | some a => exact absurd ((get_some hm).1 hg) (h a)

theorem isMap_uniq {m : List (Str × α)} (hm : IsMap m) {p : Str} {a b : α} (ha : (p, a) ∈ m) (hb : (p, b) ∈ m) : a = b := by
  have := (get_some hm).2 ha
  rw [(get_some hm).2 hb] at this
  exact (Option.some.inj this).symm

end Maps

/-- The three maps of a comparison are maps. -/
def Good (r : ShaCo) : Prop := IsMap r.equal ∧ IsMap r.only1 ∧ IsMap r.only2

theorem compare1_spec {o : Constraints} (ho : IsMap o) {cs : Constraints} (hcs : IsMap cs) {r : ShaCo} (hr : Good r)
    (hd : ∀ p d, (p, d) ∈ cs → (∀ x, (p, x) ∉ r.equal) ∧ ∀ x, (p, x) ∉ r.only1) :
    Good (compare1 o cs r) ∧ (compare1 o cs r).only2 = r.only2 ∧
    (∀ p d1 d2, (p, (d1, d2)) ∈ (compare1 o cs r).equal ↔ (p, (d1, d2)) ∈ r.equal ∨ ((p, d1) ∈ cs ∧ (p, d2) ∈ o)) ∧
    ∀ p d, (p, d) ∈ (compare1 o cs r).only1 ↔ (p, d) ∈ r.only1 ∨ ((p, d) ∈ cs ∧ ∀ d', (p, d') ∉ o) := by
  induction cs generalizing r with
  | nil => exact ⟨hr, rfl, by simp [compare1], by simp [compare1]⟩
  | cons e cs ih =>
    obtain ⟨q, d⟩ := e
    have hn : q ∉ cs.map Prod.fst := (List.nodup_cons.1 hcs).1
    have hcs' : IsMap cs := (List.nodup_cons.1 hcs).2
    have hne : ∀ p x, (p, x) ∈ cs → p ≠ q := by
      rintro p x hx rfl
      exact hn (List.mem_map_of_mem hx)
    have hq := hd q d (by simp)
    rw [compare1]
    cases hg : Prefix.imGet q o with
    | some d2 =>
      have hqo := (get_some ho).1 hg
      have hr' : Good { r with equal := Prefix.imInsert q (d, d2) r.equal } := ⟨isMap_insert hr.1 _ _, hr.2⟩
      obtain ⟨h1, h2, h3, h4⟩ := ih hcs' hr' (by
        intro p x hx
        refine ⟨fun y hy => ?_, (hd p x (List.mem_cons_of_mem _ hx)).2⟩
        rcases (mem_insert hr.1).1 hy with ⟨h, _⟩ | ⟨_, h⟩
        · exact hne p x hx h
        · exact (hd p x (List.mem_cons_of_mem _ hx)).1 y h)
      refine ⟨h1, h2, fun p d1 d2' => ?_, fun p d1 => ?_⟩
      · dsimp only
        rw [h3, mem_insert hr.1]
        simp only [List.mem_cons, Prod.mk.injEq]
        constructor
        · rintro ((⟨rfl, rfl, rfl⟩ | ⟨_, h⟩) | ⟨h, h'⟩)
          · exact .inr ⟨.inl ⟨rfl, rfl⟩, hqo⟩
          · exact .inl h
          · exact .inr ⟨.inr h, h'⟩
        · rintro (h | ⟨⟨rfl, rfl⟩ | h, h'⟩)
          · exact .inl (.inr ⟨fun hp => hq.1 _ (hp ▸ h), h⟩)
          · exact .inl (.inl ⟨rfl, rfl, isMap_uniq ho h' hqo⟩)
          · exact .inr ⟨h, h'⟩
      · dsimp only
        rw [h4]
        simp only [List.mem_cons, Prod.mk.injEq]
        constructor
        · rintro (h | ⟨h, h'⟩)
          · exact .inl h
          · exact .inr ⟨.inr h, h'⟩
        · rintro (h | ⟨⟨rfl, rfl⟩ | h, h'⟩)
          · exact .inl h
          · exact absurd hqo (h' _)
          · exact .inr ⟨h, h'⟩
    | none =>
      have hqo := (get_none ho).1 hg
      have hr' : Good { r with only1 := Prefix.imInsert q d r.only1 } := ⟨hr.1, isMap_insert hr.2.1 _ _, hr.2.2⟩
      obtain ⟨h1, h2, h3, h4⟩ := ih hcs' hr' (by
        intro p x hx
        refine ⟨(hd p x (List.mem_cons_of_mem _ hx)).1, fun y hy => ?_⟩
        rcases (mem_insert hr.2.1).1 hy with ⟨h, _⟩ | ⟨_, h⟩
        · exact hne p x hx h
        · exact (hd p x (List.mem_cons_of_mem _ hx)).2 y h)
      refine ⟨h1, h2, fun p d1 d2' => ?_, fun p d1 => ?_⟩
      · dsimp only
        rw [h3]
        simp only [List.mem_cons, Prod.mk.injEq]
        constructor
        · rintro (h | ⟨h, h'⟩)
          · exact .inl h
          · exact .inr ⟨.inr h, h'⟩
        · rintro (h | ⟨⟨rfl, rfl⟩ | h, h'⟩)
          · exact .inl h
          · exact absurd h' (hqo _)
          · exact .inr ⟨h, h'⟩
      · dsimp only
        rw [h4, mem_insert hr.2.1]
        simp only [List.mem_cons, Prod.mk.injEq]
        constructor
        · rintro ((⟨rfl, rfl⟩ | ⟨_, h⟩) | ⟨h, h'⟩)
          · exact .inr ⟨.inl ⟨rfl, rfl⟩, hqo⟩
          · exact .inl h
          · exact .inr ⟨.inr h, h'⟩
        · rintro (h | ⟨⟨rfl, rfl⟩ | h, h'⟩)
          · exact .inl (.inr ⟨fun hp => hq.2 _ (hp ▸ h), h⟩)
          · exact .inl (.inl ⟨rfl, rfl⟩)
          · exact .inr ⟨h, h'⟩

theorem compare2_spec {o : Constraints} (ho : IsMap o) {cs : Constraints} (hcs : IsMap cs) {r : ShaCo} (hr : Good r)
    (hd : ∀ p d, (p, d) ∈ cs → ∀ x, (p, x) ∉ r.only2) :
    Good (compare2 o cs r) ∧ (compare2 o cs r).equal = r.equal ∧ (compare2 o cs r).only1 = r.only1 ∧
    ∀ p d, (p, d) ∈ (compare2 o cs r).only2 ↔ (p, d) ∈ r.only2 ∨ ((p, d) ∈ cs ∧ ∀ d', (p, d') ∉ o) := by
  induction cs generalizing r with
  | nil => exact ⟨hr, rfl, rfl, by simp [compare2]⟩
  | cons e cs ih =>
    obtain ⟨q, d⟩ := e
    have hn : q ∉ cs.map Prod.fst := (List.nodup_cons.1 hcs).1
    have hcs' : IsMap cs := (List.nodup_cons.1 hcs).2
    have hne : ∀ p x, (p, x) ∈ cs → p ≠ q := by
      rintro p x hx rfl
      exact hn (List.mem_map_of_mem hx)
    have hq := hd q d (by simp)
    rw [compare2]
    cases hg : Prefix.imGet q o with
    | some d2 =>
      have hqo := (get_some ho).1 hg
      obtain ⟨h1, h2, h3, h4⟩ := ih hcs' hr fun p x hx => hd p x (List.mem_cons_of_mem _ hx)
      refine ⟨h1, h2, h3, fun p d1 => ?_⟩
      simp only [Option.isSome_some, if_true]
      rw [h4]
      simp only [List.mem_cons, Prod.mk.injEq]
      constructor
      · rintro (h | ⟨h, h'⟩)
        · exact .inl h
        · exact .inr ⟨.inr h, h'⟩
      · rintro (h | ⟨⟨rfl, rfl⟩ | h, h'⟩)
        · exact .inl h
        · exact absurd hqo (h' _)
        · exact .inr ⟨h, h'⟩
    | none =>
      have hqo := (get_none ho).1 hg
      have hr' : Good { r with only2 := Prefix.imInsert q d r.only2 } := ⟨hr.1, hr.2.1, isMap_insert hr.2.2 _ _⟩
      obtain ⟨h1, h2, h3, h4⟩ := ih hcs' hr' (by
        intro p x hx y hy
        rcases (mem_insert hr.2.2).1 hy with ⟨h, _⟩ | ⟨_, h⟩
        · exact hne p x hx h
        · exact hd p x (List.mem_cons_of_mem _ hx) y h)
      simp only [Option.isSome_none, Bool.false_eq_true, if_false]
      refine ⟨h1, h2, h3, fun p d1 => ?_⟩
      rw [h4, mem_insert hr.2.2]
      simp only [List.mem_cons, Prod.mk.injEq]
      constructor
      · rintro ((⟨rfl, rfl⟩ | ⟨_, h⟩) | ⟨h, h'⟩)
        · exact .inr ⟨.inl ⟨rfl, rfl⟩, hqo⟩
        · exact .inl h
        · exact .inr ⟨.inr h, h'⟩
      · rintro (h | ⟨⟨rfl, rfl⟩ | h, h'⟩)
        · exact .inl (.inr ⟨fun hp => hq _ (hp ▸ h), h⟩)
        · exact .inl (.inl ⟨rfl, rfl⟩)
        · exact .inr ⟨h, h'⟩

/-! ## The converter -/

variable {E : Env} {S : Schema} {ig : Bool}

theorem bind_ok {α β : Type} {r : Res α} {f : α → Res β} {b : β} : (r >>= f) = .ok b ↔ ∃ a, r = .ok a ∧ f a = .ok b := by
  cases r with
  | ok a =>
    constructor
    · exact fun h => ⟨a, rfl, h⟩
    · rintro ⟨_, h, h'⟩
      cases h
      exact h'
  | err e =>
    constructor
    · intro h; cases h
    · rintro ⟨_, h, _⟩; cases h
  | panic =>
    constructor
    · intro h; cases h
    · rintro ⟨_, h, _⟩; cases h

theorem bind_panic {α β : Type} {r : Res α} {f : α → Res β} : (r >>= f) = .panic ↔ r = .panic ∨ ∃ a, r = .ok a ∧ f a = .panic := by
  cases r with
  | ok a =>
    constructor
    · exact fun h => .inr ⟨a, rfl, h⟩
    · rintro (h | ⟨_, h, h'⟩)
      · cases h
      · cases h
        exact h'
  | err e =>
    constructor
    · intro h; cases h
    · rintro (h | ⟨_, h, _⟩) <;> cases h
  | panic => exact ⟨fun _ => .inl rfl, fun _ => rfl⟩

theorem names_iff {m : Prefix.PrefixMap} {r : IriRef} {i : Str} : resolveRef E m r = some i ↔ Names E m r i := by
  cases r with
  | iri s =>
    constructor
    · intro h
      cases h
      exact .iri
    · rintro ⟨⟩
      rfl
  | prefixed p l =>
    constructor
    · exact fun h => .prefixed h
    · rintro (_ | h)
      exact h

theorem findGo_iff {m : Prefix.PrefixMap} {iri : Str} {ds : List (Label × SE)} {e : SE} :
    findGo E m iri ds = some (some e) ↔ Found E m iri ds e := by
  induction ds with
  | nil =>
    constructor
    · intro h; cases h
    · rintro ⟨⟩
  | cons d ds ih =>
    obtain ⟨l, f⟩ := d
    cases l with
    | iri r =>
      rw [findGo]
      cases hr : resolveRef E m r with
      | none =>
        constructor
        · intro h; cases h
        · rintro (h | ⟨h, _⟩)
          · rw [names_iff.2 h] at hr; cases hr
          · rw [names_iff.2 h] at hr; cases hr
      | some i =>
        dsimp only
        split
        · next h =>
          subst h
          constructor
          · intro h
            cases h
            exact .here (names_iff.1 hr)
          · rintro (h | ⟨h, hne, _⟩)
            · rfl
            · rw [names_iff.2 h] at hr
              exact absurd (Option.some.inj hr) hne
        · next hne =>
          rw [ih]
          constructor
          · exact fun h => .later (names_iff.1 hr) hne h
          · rintro (h | ⟨_, _, h⟩)
            · rw [names_iff.2 h] at hr
              exact absurd (Option.some.inj hr).symm hne
            · exact h
    | bnode s =>
      rw [findGo, ih]
      · constructor
        · exact .bnode
        · rintro (_ | _ | h | _)
          exact h
      · nofun
    | start =>
      rw [findGo, ih]
      · constructor
        · exact .start
        · rintro (_ | _ | _ | h)
          exact h
      · nofun

theorem strip_bnode {l : Str} : (Prefix.stripPrefix "_:".toList l).isSome = true ↔ ∃ s, l = '_' :: ':' :: s := by
  have ht : "_:".toList = ['_', ':'] := rfl
  rw [ht]
  rcases l with _ | ⟨a, _ | ⟨b, l⟩⟩
  · simp [Prefix.stripPrefix]
  · by_cases h : '_' = a <;> simp [Prefix.stripPrefix, h]
  · by_cases h : '_' = a
    · by_cases h' : ':' = b
      · subst h h'
        simp [Prefix.stripPrefix]
      · subst h
        simp [Prefix.stripPrefix, h', Ne.symm h']
    · simp [Prefix.stripPrefix, h, Ne.symm h]

theorem findShape_ok {l : Str} {e : SE} : findShape E S l = .ok e ↔ ShapeOf E S l e := by
  have ht : "START".toList = ['S', 'T', 'A', 'R', 'T'] := rfl
  unfold findShape ShapeOf IriLabel
  rw [ht]
  split
  · next h => simp [h]
  · next h1 =>
    split
    · next h =>
      obtain ⟨s, hs⟩ := strip_bnode.1 h
      constructor
      · intro h; cases h
      · rintro ⟨⟨_, h, _⟩, _⟩
        exact absurd hs (h s)
    · next h2 =>
      have h2 : ∀ s, l ≠ '_' :: ':' :: s := fun s hs => h2 (strip_bnode.2 ⟨s, hs⟩)
      unfold Prefix.iriFromStr
      by_cases hv : E.valid l = true
      · simp only [hv, if_true]
        cases hs : S.shapes with
        | none => simp
        | some ds =>
          dsimp only
          constructor
          · intro h
            split at h
            · next e' he =>
              cases h
              exact ⟨⟨h1, h2, trivial⟩, ds, rfl, findGo_iff.1 he⟩
            · cases h
          · rintro ⟨_, ds', h, h'⟩
            cases h
            rw [findGo_iff.2 h']
      · simp [hv]

theorem findShape_panic {l : Str} : findShape E S l = .panic ↔ l = ['S', 'T', 'A', 'R', 'T'] ∨ ∃ s, l = '_' :: ':' :: s := by
  have ht : "START".toList = ['S', 'T', 'A', 'R', 'T'] := rfl
  unfold findShape
  rw [ht]
  split
  · next h => simp [h]
  · next h1 =>
    split
    · next h => simp [strip_bnode.1 h]
    · next h2 =>
      simp only [h1, false_or, ← strip_bnode, h2, Bool.false_eq_true, iff_false]
      cases Prefix.iriFromStr E.valid l with
      | none => intro h; cases h
      | some i =>
        cases S.shapes with
        | none => intro h; cases h
        | some ds =>
          dsimp only
          intro h
          split at h <;> cases h

theorem getIri_ok {r : IriRef} {i : Str} : getIri E S r = .ok i ↔ ∃ m, S.prefixmap = some m ∧ Names E m r i := by
  unfold getIri
  cases hm : S.prefixmap with
  | none => simp
  | some m =>
    dsimp only
    cases hr : resolveRef E m r with
    | none =>
      constructor
      · intro h; cases h
      · rintro ⟨m', h, h'⟩
        cases h
        rw [names_iff.2 h'] at hr
        cases hr
    | some j =>
      constructor
      · intro h
        cases h
        exact ⟨m, rfl, names_iff.1 hr⟩
      · rintro ⟨m', h, h'⟩
        cases h
        rw [names_iff.2 h'] at hr
        cases hr
        rfl

theorem getIri_panic {r : IriRef} : getIri E S r ≠ .panic := by
  unfold getIri
  split
  · nofun
  · split <;> nofun

theorem value_ok {v : Option SE} {vc : VC} : valueConstraint E S false v = .ok vc ↔ Describes E S v vc := by
  unfold valueConstraint
  rw [if_neg (by decide)]
  rcases v with _ | e
  · constructor
    · intro h
      cases h
      exact .any
    · rintro ⟨⟩
      rfl
  · cases e with
    | nc c =>
      dsimp only
      cases hd : c.datatype with
      | some dt =>
        dsimp only
        rw [bind_ok]
        constructor
        · rintro ⟨i, hi, h⟩
          cases h
          obtain ⟨m, hm, hn⟩ := getIri_ok.1 hi
          exact .datatype hd hm hn
        · rintro (_ | ⟨h, hm, hn⟩ | ⟨h, _⟩)
          · rw [hd] at h
            cases h
            exact ⟨_, getIri_ok.2 ⟨_, hm, hn⟩, rfl⟩
          · rw [hd] at h
            cases h
      | none =>
        dsimp only
        cases hk : c.kind with
        | some k =>
          constructor
          · intro h
            cases h
            exact .kind hd hk
          · rintro (_ | ⟨h, _, _⟩ | ⟨_, h⟩)
            · rw [hd] at h
              cases h
            · rw [hk] at h
              cases h
              rfl
        | none =>
          constructor
          · intro h; cases h
          · rintro (_ | ⟨h, _, _⟩ | ⟨_, h⟩)
            · rw [hd] at h
              cases h
            · rw [hk] at h
              cases h
    | ref l =>
      constructor
      · intro h
        cases h
        exact .ref
      · rintro ⟨⟩
        rfl
    | _ =>
      constructor
      · intro h; cases h
      · rintro ⟨⟩

theorem value_panic {v : Option SE} : valueConstraint E S ig v ≠ .panic := by
  unfold valueConstraint
  split
  · nofun
  · split
    · nofun
    · split
      · intro h
        rcases bind_panic.1 h with h | ⟨_, _, h⟩
        · exact getIri_panic h
        · cases h
      · split <;> nofun
    · nofun
    · nofun

/-- What a triple constraint is converted to. -/
theorem constrains_iff {t : TE} {p : Str} {d : Desc} :
    (∃ r, asConstraint E S ig t = .ok (r, d) ∧ getIri E S r = .ok p) ↔ Constrains E S ig t p d := by
  cases t with
  | tc id ng iv r v mn mx a b =>
    cases ig with
    | true =>
      have h0 : asConstraint E S true (.tc id ng iv r v mn mx a b) = .ok (r, ⟨r, .any⟩) := rfl
      rw [h0]
      constructor
      · rintro ⟨r', h, h'⟩
        cases h
        obtain ⟨m, hm, hn⟩ := getIri_ok.1 h'
        exact .ignored rfl hm hn
      · rintro (⟨h, _⟩ | ⟨_, hm, hn⟩)
        · cases h
        · exact ⟨r, rfl, getIri_ok.2 ⟨_, hm, hn⟩⟩
    | false =>
      constructor
      · rintro ⟨r', h, h'⟩
        obtain ⟨vc, hv, h⟩ := bind_ok.1 h
        cases h
        obtain ⟨m, hm, hn⟩ := getIri_ok.1 h'
        exact .seen rfl hm hn (value_ok.1 hv)
      · rintro (⟨_, hm, hn, hv⟩ | ⟨h, _⟩)
        · exact ⟨r, bind_ok.2 ⟨_, value_ok.2 hv, rfl⟩, getIri_ok.2 ⟨_, hm, hn⟩⟩
        · cases h
  | _ =>
    constructor
    · rintro ⟨_, h, _⟩; cases h
    · rintro ⟨⟩

theorem constrains_uniq {t : TE} {p q : Str} {d d' : Desc} (h : Constrains E S ig t p d) (h' : Constrains E S ig t q d') :
    p = q ∧ d = d' := by
  obtain ⟨r, h1, h2⟩ := constrains_iff.2 h
  obtain ⟨r', h1', h2'⟩ := constrains_iff.2 h'
  rw [h1] at h1'
  cases h1'
  rw [h2] at h2'
  cases h2'
  exact ⟨rfl, rfl⟩

theorem asConstraint_panic {t : TE} : asConstraint E S ig t ≠ .panic := by
  cases t with
  | tc =>
    intro h
    rcases bind_panic.1 h with h | ⟨_, _, h⟩
    · exact value_panic h
    · cases h
  | _ => nofun

theorem groupGo_panic {ts : List TE} {cs : Constraints} : groupGo E S ig ts cs ≠ .panic := by
  induction ts generalizing cs with
  | nil => nofun
  | cons t ts ih =>
    intro h
    rw [groupGo] at h
    rcases bind_panic.1 h with h | ⟨⟨p, d⟩, _, h⟩
    · exact asConstraint_panic h
    · rcases bind_panic.1 h with h | ⟨_, _, h⟩
      · exact getIri_panic h
      · exact ih h

/-- A group, from left to right. -/
theorem groupGo_cons {t : TE} {ts : List TE} {cs cs' : Constraints} : groupGo E S ig (t :: ts) cs = .ok cs' ↔
    ∃ p d, Constrains E S ig t p d ∧ groupGo E S ig ts (Prefix.imInsert p d cs) = .ok cs' := by
  rw [groupGo, bind_ok]
  constructor
  · rintro ⟨⟨r, d⟩, h1, h2⟩
    obtain ⟨i, h2, h3⟩ := bind_ok.1 h2
    exact ⟨i, d, constrains_iff.1 ⟨r, h1, h2⟩, h3⟩
  · rintro ⟨p, d, h1, h2⟩
    obtain ⟨r, h3, h4⟩ := constrains_iff.2 h1
    exact ⟨(r, d), h3, bind_ok.2 ⟨p, h4, h2⟩⟩

theorem groupGo_ok {ts : List TE} {cs cs' : Constraints} (hcs : IsMap cs) (h : groupGo E S ig ts cs = .ok cs') :
    IsMap cs' ∧ (∀ t ∈ ts, ∃ p d, Constrains E S ig t p d) ∧
    ∀ p d, (p, d) ∈ cs' ↔ LastIn E S ig ts p d ∨ ((p, d) ∈ cs ∧ ∀ u ∈ ts, ∀ d', ¬ Constrains E S ig u p d') := by
  induction ts generalizing cs with
  | nil =>
    cases h
    refine ⟨hcs, nofun, fun p d => ⟨fun h => .inr ⟨h, nofun⟩, ?_⟩⟩
    rintro (h | ⟨h, _⟩)
    · cases h
    · exact h
  | cons t ts ih =>
    obtain ⟨q, c, h1, h2⟩ := groupGo_cons.1 h
    obtain ⟨i1, i2, i3⟩ := ih (isMap_insert hcs _ _) h2
    refine ⟨i1, fun u hu => ?_, fun p d => ?_⟩
    · rcases List.mem_cons.1 hu with rfl | hu
      · exact ⟨q, c, h1⟩
      · exact i2 u hu
    · rw [i3, mem_insert hcs]
      constructor
      · rintro (h | ⟨⟨rfl, rfl⟩ | ⟨hne, h⟩, hn⟩)
        · exact .inl (.later h)
        · exact .inl (.here h1 hn)
        · refine .inr ⟨h, fun u hu d' hu' => ?_⟩
          rcases List.mem_cons.1 hu with rfl | hu
          · exact hne (constrains_uniq hu' h1).1
          · exact hn u hu d' hu'
      · rintro ((⟨h, hn⟩ | h) | ⟨h, hn⟩)
        · obtain ⟨rfl, rfl⟩ := constrains_uniq h h1
          exact .inr ⟨.inl ⟨rfl, rfl⟩, hn⟩
        · exact .inl h
        · refine .inr ⟨.inr ⟨?_, h⟩, fun u hu => hn u (List.mem_cons_of_mem _ hu)⟩
          rintro rfl
          exact hn t (by simp) c h1

theorem groupGo_total {ts : List TE} (h : ∀ t ∈ ts, ∃ p d, Constrains E S ig t p d) (cs : Constraints) :
    ∃ cs', groupGo E S ig ts cs = .ok cs' := by
  induction ts generalizing cs with
  | nil => exact ⟨cs, rfl⟩
  | cons t ts ih =>
    obtain ⟨p, d, h1⟩ := h t (by simp)
    obtain ⟨cs', h2⟩ := ih (fun u hu => h u (List.mem_cons_of_mem _ hu)) (Prefix.imInsert p d cs)
    exact ⟨cs', groupGo_cons.2 ⟨p, d, h1, h2⟩⟩

end Cmp
