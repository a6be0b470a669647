import Verif.Visual.Lemmas

/-! # Lemmas about pictures and texts -/

namespace Visual

open List (Forall₂)

variable {I B L : Type} [DecidableEq I] [DecidableEq B] [DecidableEq L]

theorem predPic_iff (C : Cfg I B L) (p : I) (n : VNode) : PredPic C p n ↔ n = predNode C p := by
  unfold predNode
  constructor
  · intro h
    cases h with
    | reifies h => simp [h]
    | pred h => simp [h]
  · rintro rfl
    cases h : C.reifies p with
    | true => exact .reifies p h
    | false => exact .pred p h

theorem edgePic_iff (C : Cfg I B L) (p : I) (e : Edge) : EdgePic C p e ↔ e = edgeOf C p := by
  unfold edgeOf
  constructor
  · intro h
    cases h with
    | reifies h => simp [h]
    | iri h => simp [h]
  · rintro rfl
    cases h : C.reifies p with
    | true => exact .reifies p h
    | false => exact .iri p h

theorem subPic_iff (C : Cfg I B L) (ts : List (Sub I B × I × Tm I B L)) (s : Sub I B) (n : VNode) :
    Pic C ts s.tm n ↔ n = subNode C s := by
  cases s with
  | iri i =>
    constructor
    · intro h; cases h; rfl
    · rintro rfl; exact .iri i
  | bnode b =>
    constructor
    · intro h; cases h; rfl
    · rintro rfl; exact .bnode b

theorem pic_iff (C : Cfg I B L) (ts : List (Sub I B × I × Tm I B L)) (t : Tm I B L) (n : VNode) :
    Pic C ts t n ↔ n = pic C ts t := by
  induction t generalizing n with
  | iri i =>
    constructor
    · intro h; cases h; rfl
    · rintro rfl; exact .iri i
  | bnode b =>
    constructor
    · intro h; cases h; rfl
    · rintro rfl; exact .bnode b
  | lit l =>
    constructor
    · intro h; cases h; rfl
    · rintro rfl; exact .lit l
  | triple s p o ih =>
    simp only [pic]
    constructor
    · intro h
      cases h with
      | asserted _ _ _ a b c h1 h2 h3 h4 =>
        rw [if_pos h1, (subPic_iff C ts s a).mp h2, (predPic_iff C p b).mp h3, (ih c).mp h4]
      | nonAsserted _ _ _ a b c h1 h2 h3 h4 =>
        rw [if_neg h1, (subPic_iff C ts s a).mp h2, (predPic_iff C p b).mp h3, (ih c).mp h4]
    · rintro rfl
      split
      · exact .asserted s p o _ _ _ ‹_› ((subPic_iff C ts s _).mpr rfl) ((predPic_iff C p _).mpr rfl)
          ((ih _).mpr rfl)
      · exact .nonAsserted s p o _ _ _ ‹_› ((subPic_iff C ts s _).mpr rfl)
          ((predPic_iff C p _).mpr rfl) ((ih _).mpr rfl)

theorem part_occurs {C : Cfg I B L} {ts : List (Sub I B × I × Tm I B L)} {t : Tm I B L}
    (h : Occurs C ts t) {n : VNode} (hn : Part C ts t n) :
    (∃ t, Occurs C ts t ∧ Pic C ts t n) ∨ ∃ p, Inside C ts p ∧ PredPic C p n := by
  induction t with
  | iri i => exact hn.elim
  | bnode b => exact hn.elim
  | lit l => exact hn.elim
  | triple s p o ih =>
    rcases hn with rfl | rfl | rfl | hn
    · exact .inl ⟨_, .subIn s p o h, (subPic_iff C ts s _).mpr rfl⟩
    · exact .inr ⟨p, ⟨s, o, h⟩, (predPic_iff C p _).mpr rfl⟩
    · exact .inl ⟨_, .objIn s p o h, (pic_iff C ts o _).mpr rfl⟩
    · exact ih (.objIn s p o h) hn

/-- Terms inside a term, and the term itself. -/
inductive SubTm : Tm I B L → Tm I B L → Prop
  | refl (t : Tm I B L) : SubTm t t
  | sub (t : Tm I B L) (s : Sub I B) (p : I) (o : Tm I B L) : SubTm (.triple s p o) t →
      SubTm s.tm t
  | obj (t : Tm I B L) (s : Sub I B) (p : I) (o : Tm I B L) : SubTm (.triple s p o) t → SubTm o t

theorem part_trans {C : Cfg I B L} {ts : List (Sub I B × I × Tm I B L)} {x t : Tm I B L}
    (h : SubTm x t) : (x = t ∨ Part C ts t (pic C ts x)) ∧
      ∀ n, Part C ts x n → Part C ts t n := by
  induction h with
  | refl t => exact ⟨.inl rfl, fun _ => id⟩
  | sub t s p o _ ih =>
    refine ⟨.inr ?_, ?_⟩
    · refine ih.2 _ (.inl ?_)
      exact (subPic_iff C ts s _).mp ((pic_iff C ts s.tm _).mpr rfl)
    · intro n hn
      cases s <;> exact hn.elim
  | obj t s p o _ ih =>
    refine ⟨.inr (ih.2 _ (.inr (.inr (.inl rfl)))), fun n hn => ih.2 n (.inr (.inr (.inr hn)))⟩

theorem occurs_sub {C : Cfg I B L} {ts us : List (Sub I B × I × Tm I B L)} (hr : ReadAll C ts us)
    {t : Tm I B L} (h : Occurs C ts t) : ∃ u ∈ us, t = u.1.tm ∨ SubTm t u.2.2 := by
  have hex : ∀ t ∈ ts, ∃ u ∈ us, u.1 = t.1 ∧ u.2.1 = t.2.1 ∧ Reads C t.2.2 u.2.2 := by
    intro t ht
    clear h
    induction hr with
    | nil => cases ht
    | cons h1 _ ih =>
      rcases List.mem_cons.mp ht with rfl | ht
      · exact ⟨_, by simp, h1⟩
      · obtain ⟨u, hu, h2⟩ := ih ht
        exact ⟨u, by simp [hu], h2⟩
  induction h with
  | sub s p o hm =>
    obtain ⟨u, hu, h1, _, _⟩ := hex _ hm
    exact ⟨u, hu, .inl (by rw [h1])⟩
  | obj s p o o' hm ho =>
    obtain ⟨u, hu, h1, _, h3⟩ := hex _ hm
    have : o' = u.2.2 := by
      rw [← toObj_reads] at ho h3
      rw [ho] at h3
      exact Option.some.inj h3
    exact ⟨u, hu, .inr (this ▸ .refl _)⟩
  | subIn s p o _ ih =>
    obtain ⟨u, hu, h1 | h1⟩ := ih
    · cases hs : u.1 <;> rw [hs] at h1 <;> cases h1
    · exact ⟨u, hu, .inr (.sub _ s p o h1)⟩
  | objIn s p o _ ih =>
    obtain ⟨u, hu, h1 | h1⟩ := ih
    · cases hs : u.1 <;> rw [hs] at h1 <;> cases h1
    · exact ⟨u, hu, .inr (.obj _ s p o h1)⟩

theorem readAll_mem {C : Cfg I B L} {ts us : List (Sub I B × I × Tm I B L)} (hr : ReadAll C ts us)
    {u : Sub I B × I × Tm I B L} (hu : u ∈ us) :
    ∃ o, (u.1, u.2.1, o) ∈ ts ∧ Reads C o u.2.2 := by
  induction hr with
  | nil => cases hu
  | @cons t u' _ _ h1 _ ih =>
    rcases List.mem_cons.mp hu with rfl | hu
    · refine ⟨t.2.2, ?_, h1.2.2⟩
      rw [h1.1, h1.2.1]
      exact List.mem_cons_self
    · obtain ⟨o, h2, h3⟩ := ih hu
      exact ⟨o, by simp [h2], h3⟩

/-! ## Texts -/

theorem showNode_of_key {g : G} (h : Counted g) {n : VNode} (hn : n ∈ keys g) :
    showNode g n = true := by
  have aux : n.isPred = true → (match g.usage.lookup n with
      | some u => u.inTriple
      | none => false) = true := by
    intro hp
    have h1 := h n hn hp
    unfold G.use at h1
    cases hl : g.usage.lookup n with
    | none => rw [hl] at h1; exact (Nat.lt_irrefl 0 h1).elim
    | some u =>
      rw [hl] at h1
      simp only [Option.getD_some] at h1
      simp [Usage.inTriple, h1]
  cases n with
  | pred a b => exact aux rfl
  | reifies => exact aux rfl
  | _ => rfl

theorem linkText_eq (e : Edge) : linkText e = linked e := by cases e <;> rfl

theorem nodeText_eq (i : Nat) (n : VNode) : nodeText i true n = declared i n := by
  cases n <;> rfl

/-- The parts of pictures of triple terms have numbers. -/
def Closed (g : G) : Prop := ∀ n ∈ keys g, ∀ s p o, n.parts = some (s, p, o) →
  s ∈ keys g ∧ p ∈ keys g ∧ o ∈ keys g

theorem part_closed {C : Cfg I B L} {ts : List (Sub I B × I × Tm I B L)} {t : Tm I B L} {n : VNode}
    (h : n = pic C ts t ∨ Part C ts t n) {s p o : VNode} (hp : n.parts = some (s, p, o)) :
    Part C ts t s ∧ Part C ts t p ∧ Part C ts t o := by
  have hsub : ∀ s' : Sub I B, (subNode C s').parts = none := fun s' => by cases s' <;> rfl
  have hpred : ∀ p' : I, (predNode C p').parts = none := fun p' => by
    unfold predNode; split <;> rfl
  induction t generalizing n s p o with
  | iri i =>
    rcases h with rfl | h
    · cases hp
    · exact h.elim
  | bnode b =>
    rcases h with rfl | h
    · cases hp
    · exact h.elim
  | lit l =>
    rcases h with rfl | h
    · cases hp
    · exact h.elim
  | triple s' p' o' ih =>
    have lift : ∀ {x}, Part C ts o' x → Part C ts (.triple s' p' o') x :=
      fun h => .inr (.inr (.inr h))
    have inner : (n = pic C ts o' ∨ Part C ts o' n) →
        Part C ts (.triple s' p' o') s ∧ Part C ts (.triple s' p' o') p ∧
          Part C ts (.triple s' p' o') o := fun h => by
      obtain ⟨h1, h2, h3⟩ := ih h hp
      exact ⟨lift h1, lift h2, lift h3⟩
    rcases h with rfl | rfl | rfl | h | h
    · have : (subNode C s', predNode C p', pic C ts o') = (s, p, o) := by
        simp only [pic] at hp
        split at hp <;> exact Option.some.inj hp
      cases this
      exact ⟨.inl rfl, .inr (.inl rfl), .inr (.inr (.inl rfl))⟩
    · rw [hsub] at hp; cases hp
    · rw [hpred] at hp; cases hp
    · exact inner (.inl h)
    · exact inner (.inr h)

theorem inv_closed {C : Cfg I B L} {ts us : List (Sub I B × I × Tm I B L)} {g : G}
    (h : Inv C ts us g) : Closed g := by
  intro n hn s p o hp
  obtain ⟨u, hu, h1⟩ := (h.keys n).mp hn
  have hne : n ≠ subNode C u.1 := by
    rintro rfl
    cases hs : u.1 <;> rw [hs] at hp <;> cases hp
  obtain ⟨h2, h3, h4⟩ := part_closed (h1.resolve_left hne) hp
  exact ⟨(h.keys s).mpr ⟨u, hu, .inr (.inr h2)⟩, (h.keys p).mpr ⟨u, hu, .inr (.inr h3)⟩,
    (h.keys o).mpr ⟨u, hu, .inr (.inr h4)⟩⟩

theorem arrowsOf_ok {k : Look} {g : G} (hk : Ok g) (hc : Closed g) {e : VNode × Nat}
    (he : e ∈ g.nodes) : ∃ ls, arrowsOf k g e = some ls ∧ ∀ l, l ∈ ls ↔ Pointed k g e.2 e.1 l := by
  obtain ⟨n, i⟩ := e
  have hn : n ∈ keys g := List.mem_map.mpr ⟨_, he, rfl⟩
  have three : ∀ s p o, n.parts = some (s, p, o) → ∃ ls, arrows k g i s p o = some ls ∧
      ∀ l, l ∈ ls ↔ Pointed k g i n l := by
    intro s p o hp
    obtain ⟨h1, h2, h3⟩ := hc n hn s p o hp
    obtain ⟨si, hs⟩ := lookup_isSome h1
    obtain ⟨pi, hpi⟩ := lookup_isSome h2
    obtain ⟨oi, ho⟩ := lookup_isSome h3
    have ha : arrows k g i s p o = some
        [toString i ++ "-->" ++ toString si ++ " " ++ k.sub.1 ++ " : " ++ k.sub.2 ++ " \n",
          toString i ++ "-->" ++ toString pi ++ " " ++ k.pred.1 ++ " : " ++ k.pred.2 ++ "\n",
          toString i ++ "-->" ++ toString oi ++ " " ++ k.obj.1 ++ " : " ++ k.obj.2 ++ "\n"] := by
      simp only [arrows, hs, hpi, ho]
    refine ⟨_, ha, fun l => ?_⟩
    simp only [List.mem_cons, List.not_mem_nil, or_false]
    constructor
    · intro hl
      exact ⟨s, p, o, si, pi, oi, hp, (mem_lookup hk.nodup).mpr hs, (mem_lookup hk.nodup).mpr hpi,
        (mem_lookup hk.nodup).mpr ho, hl⟩
    · rintro ⟨s', p', o', si', pi', oi', hp', hs', hpi', ho', hl⟩
      rw [hp] at hp'
      cases hp'
      have e1 := (mem_lookup hk.nodup).mp hs'
      have e2 := (mem_lookup hk.nodup).mp hpi'
      have e3 := (mem_lookup hk.nodup).mp ho'
      rw [hs] at e1
      rw [hpi] at e2
      rw [ho] at e3
      cases e1
      cases e2
      cases e3
      exact hl
  have rest : n.parts = none → ∃ ls, (some [] : Option (List String)) = some ls ∧
      ∀ l, l ∈ ls ↔ Pointed k g i n l := by
    intro hp
    refine ⟨[], rfl, fun l => ?_⟩
    simp only [List.not_mem_nil, false_iff]
    rintro ⟨s, p, o, _, _, _, h, _⟩
    rw [hp] at h
    cases h
  cases n with
  | asserted s p o => exact three s p o rfl
  | nonAsserted s p o => exact three s p o rfl
  | iri a b => exact rest rfl
  | bnode a => exact rest rfl
  | lit a => exact rest rfl
  | pred a b => exact rest rfl
  | reifies => exact rest rfl

theorem allArrows_ok {k : Look} {g : G} (hk : Ok g) (hc : Closed g) (ns : List (VNode × Nat))
    (hns : ∀ e ∈ ns, e ∈ g.nodes) : ∃ ls, allArrows k g ns = some ls ∧
      ∀ l, l ∈ ls ↔ ∃ e ∈ ns, Pointed k g e.2 e.1 l := by
  induction ns with
  | nil => exact ⟨[], rfl, by simp⟩
  | cons e ns ih =>
    obtain ⟨a, ha, hal⟩ := arrowsOf_ok (k := k) hk hc (hns e (by simp))
    obtain ⟨b, hb, hbl⟩ := ih fun e he => hns e (by simp [he])
    refine ⟨a ++ b, by simp only [allArrows, ha, hb], fun l => ?_⟩
    simp [hal, hbl]

end Visual
