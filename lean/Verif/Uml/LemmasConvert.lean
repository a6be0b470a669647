import Verif.Uml.Lemmas

/-!
# Helper lemmas: the conversion draws what the specification says
-/

namespace Uml
open Rbe Shexc

/-! ## Operators -/

theorem mem_oinsert (n : Nat) (ms : List Nat) (x : Nat) : x ∈ oinsert n ms ↔ x = n ∨ x ∈ ms := by
  induction ms with
  | nil => simp [oinsert]
  | cons m ms ih =>
    simp only [oinsert]
    split
    · simp
    · split
      · rename_i h; subst h; simp
      · simp only [List.mem_cons, ih]; tauto

theorem oinsert_pairwise (n : Nat) (ms : List Nat) (h : ms.Pairwise (· < ·)) :
    (oinsert n ms).Pairwise (· < ·) := by
  induction ms with
  | nil => simp [oinsert]
  | cons m ms ih =>
    simp only [List.pairwise_cons] at h
    simp only [oinsert]
    split
    · rename_i hn
      simp only [List.pairwise_cons, List.mem_cons]
      refine ⟨?_, h⟩
      rintro x (rfl | hx)
      · exact hn
      · exact Nat.lt_trans hn (h.1 x hx)
    · split
      · exact List.pairwise_cons.2 h
      · rename_i h1 h2
        refine List.pairwise_cons.2 ⟨?_, ih h.2⟩
        intro x hx
        rcases (mem_oinsert _ _ _).1 hx with rfl | hx
        · omega
        · exact h.1 x hx

/-- The names of labels. -/
def Texts (C : Cfg) (pm : Prefix.PrefixMap) (l : Label) (s : Str) : Prop := ∃ n, Called C pm l n ∧ n.str = s

theorem each_texts {C : Cfg} {pm : Prefix.PrefixMap} {ls : List Label} {ss : List Str} :
    Each (RefTo C pm) (ls.map .ref) ss ↔ Each (Texts C pm) ls ss := by
  induction ls generalizing ss with
  | nil =>
    constructor
    · intro h; cases h; exact .nil
    · intro h; cases h; exact .nil
  | cons l ls ih =>
    constructor
    · intro h
      cases h with
      | cons _ s _ ss hr hs =>
        obtain ⟨l', n, he, hc, hn⟩ := hr
        cases he
        exact .cons _ _ _ _ ⟨n, hc, hn⟩ (ih.1 hs)
    · intro h
      cases h with
      | cons _ s _ ss hr hs =>
        obtain ⟨n, hc, hn⟩ := hr
        exact .cons _ _ _ _ ⟨l, n, rfl, hc, hn⟩ (ih.2 hs)

theorem each_refs {C : Cfg} {pm : Prefix.PrefixMap} {es : List SE} {ss : List Str} (h : Each (RefTo C pm) es ss) :
    ∃ ls, allRefs es = some ls ∧ Each (Texts C pm) ls ss := by
  induction h with
  | nil => exact ⟨[], rfl, .nil⟩
  | cons e s es ss hr _ ih =>
    obtain ⟨l, n, rfl, hc, hn⟩ := hr
    obtain ⟨ls, h1, h2⟩ := ih
    exact ⟨l :: ls, by simp only [allRefs, h1, Option.map_some], .cons _ _ _ _ ⟨n, hc, hn⟩ h2⟩

theorem refNodes_of {C : Cfg} {pm : Prefix.PrefixMap} (cur : Nat) {ls : List Label} {ss : List Str}
    (hs : Each (Texts C pm) ls ss) (ids : List Nat) (u : St) (h : u.WF) (hp : ids.Pairwise (· < ·)) :
    ∃ r, refNodes C pm ls ids u = .ok r ∧ Step cur u r.2 [] [] (ss.map .cls) [] ∧ r.1.Pairwise (· < ·) ∧
      (∀ i ∈ ids, i ∈ r.1) ∧ (∀ s ∈ ss, ∃ i ∈ r.1, r.2.find (.cls s) = some i) ∧
      (∀ i ∈ r.1, i ∈ ids ∨ ∃ s ∈ ss, r.2.find (.cls s) = some i) := by
  induction hs generalizing ids u with
  | nil => exact ⟨(ids, u), rfl, .refl h, hp, fun _ h => h, by simp, fun i hi => .inl hi⟩
  | cons l s ls ss hl _ ih =>
    obtain ⟨n, hc, rfl⟩ := hl
    obtain ⟨h1, h2, _, _⟩ := node_cls (cur := cur) h n.str
    obtain ⟨r, e1, e2, e3, e4, e5, e6⟩ := ih (oinsert (u.node (.cls n.str)).1 ids) _ h1.wf (oinsert_pairwise _ _ hp)
    refine ⟨r, ?_, ?_, e3, ?_, ?_, ?_⟩
    · simp only [refNodes, labelName_ok.2 hc, Out.bind]
      exact e1
    · exact h1.trans e2
    · intro i hi
      exact e4 i ((mem_oinsert _ _ _).2 (.inr hi))
    · intro s hs
      rcases List.mem_cons.1 hs with rfl | hs
      · exact ⟨_, e4 _ ((mem_oinsert _ _ _).2 (.inl rfl)), e2.lab _ _ h2⟩
      · exact e5 s hs
    · intro i hi
      rcases e6 i hi with h | ⟨s, hs, h⟩
      · rcases (mem_oinsert _ _ _).1 h with rfl | h
        · exact .inr ⟨_, List.mem_cons_self, e2.lab _ _ h2⟩
        · exact .inl h
      · exact .inr ⟨s, List.mem_cons_of_mem _ hs, h⟩

theorem refNodes_ok {C : Cfg} {pm : Prefix.PrefixMap} {ls : List Label} {ids : List Nat} {u : St}
    {r : List Nat × St} (h : refNodes C pm ls ids u = .ok r) : ∃ ss, Each (Texts C pm) ls ss := by
  induction ls generalizing ids u with
  | nil => exact ⟨[], .nil⟩
  | cons l ls ih =>
    simp only [refNodes] at h
    obtain ⟨n, hn, h⟩ := bind_ok.1 h
    obtain ⟨ss, hs⟩ := ih h
    exact ⟨_, .cons _ _ _ _ ⟨n, labelName_ok.1 hn, rfl⟩ hs⟩

theorem refsComp_of {C : Cfg} {pm : Prefix.PrefixMap} {cur : Nat} {pred : Name} {card : Card} {ls : List Label}
    {ss : List Str} (hs : Each (Texts C pm) ls ss) (k : Kind) (hk : k = .not → ls.length = 1) {u : St} (h : u.WF)
    {s0 : Str} (hc : u.find (.cls s0) = some cur) :
    ∃ v n j, refsComp C pm cur pred card ls k u = .ok v ∧
      Step cur u v [⟨cur, n, pred, card⟩] [] (ss.map .cls ++ [.logic k j]) [] ∧ v.At n (.group k ss) ∧
      v.find (.logic k j) = some n := by
  obtain ⟨⟨ids, w⟩, e1, e2, e3, _, e5, e6⟩ := refNodes_of cur hs [] u h .nil
  simp only at e2 e3 e5 e6
  have e6' : ∀ i ∈ ids, ∃ s ∈ ss, w.find (.cls s) = some i := by
    intro i hi
    rcases e6 i hi with h | h
    · cases h
    · exact h
  have hlen : ¬ (k = .not ∧ ids.length ≠ 1) := by
    rintro ⟨hk', hne⟩
    apply hne
    have hl := hk hk'
    have hls := each_length hs
    rw [hl] at hls
    match ss, hls with
    | [s], _ =>
      obtain ⟨i, hi, hf⟩ := e5 s List.mem_cons_self
      have hall : ∀ j ∈ ids, j = i := by
        intro j hj
        obtain ⟨s', hs', hf'⟩ := e6' j hj
        rw [List.mem_singleton.1 hs', hf] at hf'
        exact (Option.some.inj hf').symm
      match ids, hi, hall, e3 with
      | [x], _, _, _ => rfl
      | x :: y :: zs, _, hall, hp =>
        have h1 := hall x (by simp)
        have h2 := hall y (by simp)
        have := (List.pairwise_cons.1 hp).1 y List.mem_cons_self
        omega
  obtain ⟨g1, g2⟩ := logicIdx_step (cur := cur) e2.wf k ids
  obtain ⟨v, f1, f2, f3, f4, f5⟩ := logic_step (cur := cur) g1.wf g2 (by
    intro m hm
    obtain ⟨s, _, hf⟩ := e6' m hm
    exact ⟨_, g1.lab _ _ hf⟩)
  have hstep := (e2.trans g1).trans f2
  have hl := link_step f2.wf (hstep.lab _ _ hc) f3 pred card
  refine ⟨v.link cur ((w.logicIdx k ids).2.node (.logic k (w.logicIdx k ids).1)).1 pred card,
    ((w.logicIdx k ids).2.node (.logic k (w.logicIdx k ids).1)).1, (w.logicIdx k ids).1, ?_,
    by simpa using hstep.trans hl, ?_, f3⟩
  · unfold refsComp
    rw [e1]
    simp only [Out.bind]
    rw [if_neg hlen, f1]
  · refine hl.at ⟨ids, f4, e3, ?_, ?_, f5⟩
    · intro s hs
      obtain ⟨i, hi, hf⟩ := e5 s hs
      exact ⟨i, hi, f2.lab _ _ (g1.lab _ _ hf)⟩
    · intro i hi
      obtain ⟨s, hs, hf⟩ := e6' i hi
      exact ⟨s, hs, f2.lab _ _ (g1.lab _ _ hf)⟩

theorem refsComp_ok {C : Cfg} {pm : Prefix.PrefixMap} {cur : Nat} {pred : Name} {card : Card} {ls : List Label}
    {k : Kind} {u v : St} (h : refsComp C pm cur pred card ls k u = .ok v) : ∃ ss, Each (Texts C pm) ls ss := by
  unfold refsComp at h
  obtain ⟨r, hr, _⟩ := bind_ok.1 h
  exact refNodes_ok hr

/-! ## Values -/

/-- The labels that may be new for a target. -/
def NewFor (v : St) (t : Target) (N : List ULabel) : Prop :=
  (∀ s, .cls s ∈ N → s ∈ t.names) ∧
    ∀ k j, .logic k j ∈ N → ∃ ss n, t = .group k ss ∧ v.find (.logic k j) = some n ∧ v.At n t

/-- What has been done for a value: nothing for a constraint, one link for a target. -/
def Done (cur : Nat) (pred : Name) (card : Card) (u : St) (r : VC × St) : VC ⊕ Target → Prop
  | .inl v => r.1 = v ∧ v ≠ .none ∧ Step cur u r.2 [] [] [] []
  | .inr t => r.1 = .none ∧ ∃ n N, Step cur u r.2 [⟨cur, n, pred, card⟩] [] N [] ∧ r.2.At n t ∧ NewFor r.2 t N

theorem newFor_group {v : St} {k : Kind} {ss : List Str} {n j : Nat} (h : v.find (.logic k j) = some n)
    (ha : v.At n (.group k ss)) : NewFor v (.group k ss) (ss.map .cls ++ [.logic k j]) := by
  constructor
  · intro s hs
    simp only [List.mem_append, List.mem_map, List.mem_singleton, reduceCtorEq, or_false, ULabel.cls.injEq,
      exists_eq_right] at hs
    exact hs
  · intro k' j' hs
    simp only [List.mem_append, List.mem_map, List.mem_singleton, reduceCtorEq, and_false, exists_false,
      false_or, ULabel.logic.injEq] at hs
    obtain ⟨rfl, rfl⟩ := hs
    exact ⟨ss, n, rfl, h, ha⟩

theorem each_typed_refs {C : Cfg} {pm : Prefix.PrefixMap} {es : List SE} {ns : List Name} (hne : es ≠ [])
    (h : Each (Typed C pm) es ns) : allRefs es = none := by
  cases h with
  | nil => exact absurd rfl hne
  | cons e n es ns ht _ =>
    obtain ⟨nc, d, rfl, _, _⟩ := ht
    rfl

theorem tcValue_of {C : Cfg} {pm : Prefix.PrefixMap} {cur : Nat} {pred : Name} {card : Card} {u : St} {s0 : Str}
    (h : u.WF) (hc : u.find (.cls s0) = some cur) {v : Option SE} {x : VC ⊕ Target} (hv : Value C pm v x) :
    ∃ r, tcValue C pm cur pred card u v = .ok r ∧ Done cur pred card u r x := by
  cases hv with
  | any => exact ⟨_, rfl, rfl, by simp, .refl h⟩
  | node nc v hn =>
    refine ⟨(v, u), ?_, rfl, node_none hn, .refl h⟩
    simp only [tcValue, valueVC, ncVC_ok.2 hn, Out.bind]
  | orTyped es ns hne ht =>
    refine ⟨(_, u), ?_, rfl, by simp, .refl h⟩
    simp only [tcValue, valueVC, each_typed_refs hne ht, allDatatypes_ok.2 ht, Out.bind]
  | andTyped es ns hne ht =>
    refine ⟨(_, u), ?_, rfl, by simp, .refl h⟩
    simp only [tcValue, valueVC, each_typed_refs hne ht, allDatatypes_ok.2 ht, Out.bind]
  | ref r n hr =>
    obtain ⟨h1, h2, _, _⟩ := node_cls (cur := cur) h n.str
    refine ⟨(_, _), ?_, rfl, (u.node (.cls n.str)).1, [.cls n.str],
      h1.trans (link_step h1.wf (h1.lab _ _ hc) h2 pred card), h2, ?_, ?_⟩
    · simp only [tcValue, valueVC, iriName_ok.2 hr, Out.bind, addLink_eq]
      rfl
    · intro s hs
      cases List.mem_singleton.1 hs
      exact List.mem_cons_self
    · intro k j hs
      cases List.mem_singleton.1 hs
  | orRefs es ss he =>
    obtain ⟨ls, h1, h2⟩ := each_refs he
    obtain ⟨w, n, j, e1, e2, e3, e4⟩ := refsComp_of (pred := pred) (card := card) h2 .or (fun h => by cases h) h hc
    refine ⟨(.none, w), ?_, rfl, n, _, e2, e3, newFor_group e4 e3⟩
    simp only [tcValue, valueVC, h1, e1, Out.bind]
  | andRefs es ss he =>
    obtain ⟨ls, h1, h2⟩ := each_refs he
    obtain ⟨w, n, j, e1, e2, e3, e4⟩ := refsComp_of (pred := pred) (card := card) h2 .and (fun h => by cases h) h hc
    refine ⟨(.none, w), ?_, rfl, n, _, e2, e3, newFor_group e4 e3⟩
    simp only [tcValue, valueVC, h1, e1, Out.bind]
  | notRef e s he =>
    obtain ⟨l, m, rfl, hm, hs⟩ := he
    obtain ⟨w, n, j, e1, e2, e3, e4⟩ := refsComp_of (ls := [l]) (ss := [s]) (pred := pred) (card := card)
      (.cons _ _ _ _ ⟨m, hm, hs⟩ .nil) .not (fun _ => rfl) h hc
    refine ⟨(.none, w), ?_, rfl, n, _, e2, e3, newFor_group e4 e3⟩
    simp only [tcValue, valueVC, allRefs, Option.map_some, e1, Out.bind]

theorem tcValue_ok {C : Cfg} {pm : Prefix.PrefixMap} {cur : Nat} {pred : Name} {card : Card} {u : St}
    {v : Option SE} {r : VC × St} (hr : tcValue C pm cur pred card u v = .ok r) : ∃ x, Value C pm v x := by
  cases v with
  | none => exact ⟨_, .any⟩
  | some e =>
    cases e with
    | or es =>
      simp only [tcValue, valueVC] at hr
      cases ha : allRefs es with
      | some ls =>
        rw [ha] at hr
        obtain ⟨w, hw, _⟩ := bind_ok.1 hr
        obtain ⟨ss, hs⟩ := refsComp_ok hw
        rw [allRefs_some.1 ha]
        exact ⟨_, .orRefs _ ss (each_texts.2 hs)⟩
      | none =>
        rw [ha] at hr
        obtain ⟨o, ho, h⟩ := bind_ok.1 hr
        cases o with
        | none => cases h
        | some ns => exact ⟨_, .orTyped es ns (by rintro rfl; cases ha) (allDatatypes_ok.1 ho)⟩
    | and es =>
      simp only [tcValue, valueVC] at hr
      cases ha : allRefs es with
      | some ls =>
        rw [ha] at hr
        obtain ⟨w, hw, _⟩ := bind_ok.1 hr
        obtain ⟨ss, hs⟩ := refsComp_ok hw
        rw [allRefs_some.1 ha]
        exact ⟨_, .andRefs _ ss (each_texts.2 hs)⟩
      | none =>
        rw [ha] at hr
        obtain ⟨o, ho, h⟩ := bind_ok.1 hr
        cases o with
        | none => cases h
        | some ns => exact ⟨_, .andTyped es ns (by rintro rfl; cases ha) (allDatatypes_ok.1 ho)⟩
    | not e =>
      simp only [tcValue, valueVC] at hr
      cases ha : allRefs [e] with
      | some ls =>
        rw [ha] at hr
        obtain ⟨w, hw, _⟩ := bind_ok.1 hr
        obtain ⟨ss, hs⟩ := refsComp_ok hw
        have he := allRefs_some.1 ha
        have hs' := each_texts.2 hs
        rw [← he] at hs'
        cases hs' with
        | cons _ s _ ss h1 h2 => exact ⟨_, .notRef e s h1⟩
      | none =>
        rw [ha] at hr
        obtain ⟨o, ho, h⟩ := bind_ok.1 hr
        cases h
    | nc nc =>
      simp only [tcValue, valueVC] at hr
      obtain ⟨w, hw, _⟩ := bind_ok.1 hr
      exact ⟨_, .node nc w (ncVC_ok.1 hw)⟩
    | shape => cases hr
    | external => cases hr
    | ref l =>
      cases l with
      | iri i =>
        simp only [tcValue, valueVC] at hr
        obtain ⟨n, hn, _⟩ := bind_ok.1 hr
        exact ⟨_, .ref i n (iriName_ok.1 hn)⟩
      | bnode b => cases hr
      | start => cases hr

/-! ## Triple constraints -/

/-- The links are those of the items, from `cur`. -/
theorem drawn_mono {cur : Nat} {u v : St} {L : List Link} {E : List Nat} {N : List ULabel} {B : List (Nat × Cls)}
    (h : Step cur u v L E N B) {n : Nat}
    {xs : List (Name × Card × Target)} {ls : List Link} (hd : Each (u.Drawn n) xs ls) :
    Each (v.Drawn n) xs ls :=
  each_mono (fun _ _ ⟨h1, h2, h3, h4⟩ => ⟨h1, h2, h3, h.at h4⟩) hd

theorem mkEntry_of {pred : Name} {card : Card} {v : VC} (h : v ≠ .none) : mkEntry pred card v = [⟨pred, v, card⟩] := by
  cases v with
  | none => exact absurd rfl h
  | _ => rfl

/-- The labels that may be new for items. -/
def NewOf (v : St) (is : List Item) (N : List ULabel) : Prop :=
  (∀ s, .cls s ∈ N → ∃ i ∈ is, ∃ t, i.value = .inr t ∧ s ∈ t.names) ∧
    ∀ k j, .logic k j ∈ N → ∃ i ∈ is, ∃ ss n, i.value = .inr (.group k ss) ∧ v.find (.logic k j) = some n ∧
      v.At n (.group k ss)

theorem newOf_append {cur : Nat} {u v : St} {L : List Link} {E : List Nat} {M N O : List ULabel}
    {B : List (Nat × Cls)} (h : Step cur u v L E M B) {is js : List Item} (hN : NewOf u is N) (hO : NewOf v js O) :
    NewOf v (is ++ js) (N ++ O) := by
  constructor
  · intro s hs
    rcases List.mem_append.1 hs with hs | hs
    · obtain ⟨i, hi, x⟩ := hN.1 s hs
      exact ⟨i, List.mem_append.2 (.inl hi), x⟩
    · obtain ⟨i, hi, x⟩ := hO.1 s hs
      exact ⟨i, List.mem_append.2 (.inr hi), x⟩
  · intro k j hs
    rcases List.mem_append.1 hs with hs | hs
    · obtain ⟨i, hi, ss, n, h1, h2, h3⟩ := hN.2 k j hs
      exact ⟨i, List.mem_append.2 (.inl hi), ss, n, h1, h.lab _ _ h2, h.at h3⟩
    · obtain ⟨i, hi, x⟩ := hO.2 k j hs
      exact ⟨i, List.mem_append.2 (.inr hi), x⟩

theorem tcEntry_of {C : Cfg} {pm : Prefix.PrefixMap} {cur : Nat} {u : St} {s0 : Str} (h : u.WF)
    (hc : u.find (.cls s0) = some cur) {t : TE} {i : Item} (hs : Shows C pm t i) :
    ∃ r L N, tcEntry C pm cur u t = .ok r ∧ r.1 = i.entry.toList ∧ Step cur u r.2 L [] N [] ∧
      Each (r.2.Drawn cur) i.link.toList L ∧ NewOf r.2 [i] N := by
  cases hs with
  | mk id ng iv p v mn mx acts anns label name card value h1 h2 h3 h4 =>
    obtain ⟨r, e1, e2⟩ := tcValue_of (pred := name) (card := card) h hc h4
    refine ⟨(mkEntry name card r.1, r.2), ?_⟩
    have he : tcEntry C pm cur u (.tc id ng iv p v mn mx acts anns) = .ok (mkEntry name card r.1, r.2) := by
      simp only [tcEntry, mkName, getLabel_ok.2 h1, Out.bind, iriName_ok.2 h2, mkCard_ok.2 h3, e1]
    cases value with
    | inl w =>
      obtain ⟨g1, g2, g3⟩ := e2
      refine ⟨[], [], he, ?_, g3, .nil, (fun _ h => by cases h), (fun _ _ h => by cases h)⟩
      simp only [Item.entry, g1, mkEntry_of g2, Option.toList]
    | inr t =>
      obtain ⟨g1, n, N, g2, g3, g4⟩ := e2
      refine ⟨_, N, he, ?_, g2, .cons _ _ _ _ ⟨rfl, rfl, rfl, g3⟩ .nil, ?_, ?_⟩
      · simp only [Item.entry, g1, mkEntry, Option.toList]
      · intro s hs
        exact ⟨_, List.mem_cons_self, t, rfl, g4.1 s hs⟩
      · intro k j hs
        obtain ⟨ss, m, rfl, h2, h3⟩ := g4.2 k j hs
        exact ⟨_, List.mem_cons_self, ss, m, rfl, h2, h3⟩

theorem tcEntry_ok {C : Cfg} {pm : Prefix.PrefixMap} {cur : Nat} {u : St} {t : TE} {r : List Entry × St}
    (hr : tcEntry C pm cur u t = .ok r) : ∃ i, Shows C pm t i := by
  cases t with
  | tc id ng iv p v mn mx acts anns =>
    simp only [tcEntry, mkName] at hr
    obtain ⟨name, hn, hr⟩ := bind_ok.1 hr
    obtain ⟨label, hl, hn⟩ := bind_ok.1 hn
    obtain ⟨card, hcd, hr⟩ := bind_ok.1 hr
    obtain ⟨q, hq, _⟩ := bind_ok.1 hr
    obtain ⟨x, hx⟩ := tcValue_ok hq
    exact ⟨_, .mk _ _ _ _ _ _ _ _ _ label name card x (getLabel_ok.1 hl) (iriName_ok.1 hn) (mkCard_ok.1 hcd) hx⟩
  | each => cases hr
  | one => cases hr
  | ref => cases hr

theorem tcsEntries_of {C : Cfg} {pm : Prefix.PrefixMap} {cur : Nat} {s0 : Str} {ts : List TE} {is : List Item}
    (hs : Each (Shows C pm) ts is) {u : St} (h : u.WF) (hc : u.find (.cls s0) = some cur) :
    ∃ r L N, tcsEntries C pm cur ts u = .ok r ∧ r.1 = is.filterMap Item.entry ∧ Step cur u r.2 L [] N [] ∧
      Each (r.2.Drawn cur) (is.filterMap Item.link) L ∧ NewOf r.2 is N := by
  induction hs generalizing u with
  | nil => exact ⟨([], u), [], [], rfl, rfl, .refl h, .nil, (fun _ h => by cases h), (fun _ _ h => by cases h)⟩
  | cons t i ts is h1 _ ih =>
    obtain ⟨r, L, N, e1, e2, e3, e4, e5⟩ := tcEntry_of h hc h1
    obtain ⟨q, M, O, f1, f2, f3, f4, f5⟩ := ih e3.wf (e3.lab _ _ hc)
    refine ⟨(r.1 ++ q.1, q.2), L ++ M, N ++ O, ?_, ?_, e3.trans f3, ?_, newOf_append f3 e5 f5⟩
    · simp only [tcsEntries, e1, Out.bind, f1]
    · simp only [e2, f2, List.filterMap_cons]
      cases i.entry <;> rfl
    · have := each_append (drawn_mono f3 e4) f4
      simp only [List.filterMap_cons]
      cases hl : i.link with
      | none => rw [hl] at this; exact this
      | some x => rw [hl] at this; exact this

theorem tcsEntries_ok {C : Cfg} {pm : Prefix.PrefixMap} {cur : Nat} {ts : List TE} {u : St} {r : List Entry × St}
    (hr : tcsEntries C pm cur ts u = .ok r) : ∃ is, Each (Shows C pm) ts is := by
  induction ts generalizing u r with
  | nil => exact ⟨[], .nil⟩
  | cons t ts ih =>
    simp only [tcsEntries] at hr
    obtain ⟨q, hq, hr⟩ := bind_ok.1 hr
    obtain ⟨p, hp, _⟩ := bind_ok.1 hr
    obtain ⟨i, hi⟩ := tcEntry_ok hq
    obtain ⟨is, his⟩ := ih hp
    exact ⟨i :: is, .cons _ _ _ _ hi his⟩

theorem teEntries_of {C : Cfg} {pm : Prefix.PrefixMap} {cur : Nat} {u : St} {te : Option TE} {ts : List TE}
    (h : Constraints te ts) : teEntries C pm cur u te = tcsEntries C pm cur ts u := by
  cases h <;> rfl

theorem teEntries_ok {C : Cfg} {pm : Prefix.PrefixMap} {cur : Nat} {u : St} {te : Option TE} {r : List Entry × St}
    (hr : teEntries C pm cur u te = .ok r) : ∃ ts, Constraints te ts := by
  cases te with
  | none => exact ⟨[], .none⟩
  | some t =>
    cases t with
    | each id ts mn mx acts anns => exact ⟨ts, .each _ _ _ _ _ _⟩
    | tc => exact ⟨_, .one _ _ _ _ _ _ _ _ _⟩
    | one => cases hr
    | ref => cases hr

/-! ## Extended classes -/

/-- The classes added are the empty ones of the names. -/
def Bare (v : St) (ns : List Name) (B : List (Nat × Cls)) : Prop :=
  ∀ m c, (m, c) ∈ B → ∃ x ∈ ns, v.find (.cls x.str) = some m ∧ c = ⟨x, [], []⟩

theorem extNodes_of {C : Cfg} {pm : Prefix.PrefixMap} {cur : Nat} {ls : List Label} {ns : List Name}
    (hs : Each (Called C pm) ls ns) (ids : List Nat) {u : St} (h : u.WF) :
    ∃ r E B, extNodes C pm cur ls ids u = .ok r ∧ Step cur u r.2 [] E (ns.map fun x => .cls x.str) B ∧
      (∀ i, i ∈ r.1 ↔ i ∈ ids ∨ i ∈ E) ∧
      (∀ i, i ∈ E ↔ ∃ x ∈ ns, r.2.find (.cls x.str) = some i) ∧ (∀ x ∈ ns, ∃ i, r.2.find (.cls x.str) = some i) ∧
      Bare r.2 ns B := by
  induction hs generalizing ids u with
  | nil => exact ⟨(ids, u), [], [], rfl, .refl h, by simp, by simp, by simp, (fun _ _ h => by cases h)⟩
  | cons l n ls ns hl _ ih =>
    obtain ⟨h1, h2, h3, _⟩ := node_cls (cur := cur) h n.str
    have h4 := addExt_step (cur := cur) h1.wf (u.node (.cls n.str)).1
    have hw : ∃ w B, (if (u.node (.cls n.str)).2.1 = true then
        Out.ok ((u.node (.cls n.str)).2.2.addExt cur (u.node (.cls n.str)).1)
        else ((u.node (.cls n.str)).2.2.addExt cur (u.node (.cls n.str)).1).addComp (u.node (.cls n.str)).1
          (.cls ⟨n, [], []⟩)) = .ok w ∧
        Step cur ((u.node (.cls n.str)).2.2.addExt cur (u.node (.cls n.str)).1) w [] [] [] B ∧
        ∀ x ∈ B, x = ((u.node (.cls n.str)).1, ⟨n, [], []⟩) := by
      cases hb : (u.node (.cls n.str)).2.1 with
      | true => exact ⟨_, [], rfl, .refl h4.wf, by simp⟩
      | false =>
        obtain ⟨w, g1, g2⟩ := addComp_step h4.wf (h4.lab _ _ h2) ⟨n, [], []⟩ (h3 hb)
        exact ⟨w, _, g1, g2, by simp⟩
    obtain ⟨w, A, e1, e2, e3⟩ := hw
    obtain ⟨r, E, B, f1, f2, f3, f4, f5, f6⟩ := ih (sinsert (u.node (.cls n.str)).1 ids) e2.wf
    have hnode : r.2.find (.cls n.str) = some (u.node (.cls n.str)).1 := f2.lab _ _ (e2.lab _ _ (h4.lab _ _ h2))
    refine ⟨r, (u.node (.cls n.str)).1 :: E, A ++ B, ?_, ?_, ?_, ?_, ?_, ?_⟩
    · simp only [extNodes, labelName_ok.2 hl, Out.bind]
      rw [e1]
      exact f1
    · exact ((h1.trans h4).trans e2).trans f2
    · intro i
      rw [f3, mem_sinsert, List.mem_cons]; tauto
    · intro i
      rw [List.mem_cons, f4, List.exists_mem_cons_iff, hnode, Option.some.injEq]
      exact or_congr_left eq_comm
    · intro x hx
      rcases List.mem_cons.1 hx with rfl | hx
      · exact ⟨_, hnode⟩
      · exact f5 x hx
    · intro m c hm
      rcases List.mem_append.1 hm with hm | hm
      · cases e3 _ hm
        exact ⟨n, List.mem_cons_self, hnode, rfl⟩
      · obtain ⟨x, hx, y⟩ := f6 m c hm
        exact ⟨x, List.mem_cons_of_mem _ hx, y⟩

theorem extNodes_ok {C : Cfg} {pm : Prefix.PrefixMap} {cur : Nat} {ls : List Label} {ids : List Nat} {u : St}
    {r : List Nat × St} (hr : extNodes C pm cur ls ids u = .ok r) : ∃ ns, Each (Called C pm) ls ns := by
  induction ls generalizing ids u with
  | nil => exact ⟨[], .nil⟩
  | cons l ls ih =>
    simp only [extNodes] at hr
    obtain ⟨n, hn, hr⟩ := bind_ok.1 hr
    obtain ⟨w, _, hr⟩ := bind_ok.1 hr
    obtain ⟨ns, hns⟩ := ih hr
    exact ⟨n :: ns, .cons _ _ _ _ (labelName_ok.1 hn) hns⟩

/-! ## Declarations -/

/-- What has been done for a declaration. -/
structure DoneDecl (cur : Nat) (u v : St) (d : Decl) (ids : List Nat) (L : List Link) (E : List Nat)
    (N : List ULabel) (B : List (Nat × Cls)) : Prop where
  step : Step cur u v L E ((d.exts.map fun x => .cls x.str) ++ N) B
  drawn : Each (v.Drawn cur) (d.items.filterMap Item.link) L
  ids : ∀ i, i ∈ ids ↔ i ∈ E
  ext : ∀ i, i ∈ E ↔ ∃ x ∈ d.exts, v.find (.cls x.str) = some i
  known : ∀ x ∈ d.exts, ∃ i, v.find (.cls x.str) = some i
  new : NewOf v d.items N
  bare : Bare v d.exts B

theorem shapeComp_of {C : Cfg} {pm : Prefix.PrefixMap} {x : Label × SE} {d : Decl} (hd : Declares C pm x d) :
    ∃ name, labelName C pm x.1 = .ok name ∧ name.str = d.name.str ∧ ∀ u : St, u.WF → ∀ cur s0,
      u.find (.cls s0) = some cur → ∃ v L E N B ids, shapeComp C pm name cur u x.2 =
        .ok (.cls ⟨d.name, d.items.filterMap Item.entry, ids⟩, v) ∧ DoneDecl cur u v d ids L E N B := by
  cases hd with
  | mk l cl ex te acts anns ext name label exts ts items h1 h2 h3 h4 h5 =>
    refine ⟨name, labelName_ok.2 h1, rfl, ?_⟩
    intro u h cur s0 hc
    obtain ⟨r, E, B, e1, e2, e3, e4, e5, e6⟩ := extNodes_of (cur := cur) h3 [] h
    obtain ⟨q, L, N, f1, f2, f3, f4, f5⟩ := tcsEntries_of h5 e2.wf (e2.lab _ _ hc)
    refine ⟨q.2, L, E, N, B, r.1, ?_, ?_, f4, ?_, ?_, ?_, f5, ?_⟩
    · simp only [shapeComp, getLabel_ok.2 h2, Out.bind, e1, teEntries_of h4, f1]
      rw [f2, called_label h1]
      cases label <;> rfl
    · have := e2.trans f3
      simpa using this
    · intro i; rw [e3]; simp
    · intro i
      rw [e4]
      constructor
      · rintro ⟨x, hx, hf⟩; exact ⟨x, hx, f3.lab _ _ hf⟩
      · rintro ⟨x, hx, hf⟩
        obtain ⟨j, hj⟩ := e5 x hx
        have := f3.lab _ _ hj
        rw [hf] at this
        cases this
        exact ⟨x, hx, hj⟩
    · intro x hx
      obtain ⟨j, hj⟩ := e5 x hx
      exact ⟨j, f3.lab _ _ hj⟩
    · intro m c hm
      obtain ⟨x, hx, h1, h2⟩ := e6 m c hm
      exact ⟨x, hx, f3.lab _ _ h1, h2⟩

theorem shapeComp_ok {C : Cfg} {pm : Prefix.PrefixMap} {l : Label} {name : Name} {cur : Nat} {u : St} {e : SE}
    {r : Comp × St} (hl : labelName C pm l = .ok name) (hr : shapeComp C pm name cur u e = .ok r) :
    ∃ d, Declares C pm (l, e) d := by
  cases e with
  | shape cl ex te acts anns ext =>
    simp only [shapeComp] at hr
    obtain ⟨label, h1, hr⟩ := bind_ok.1 hr
    obtain ⟨q, h2, hr⟩ := bind_ok.1 hr
    obtain ⟨p, h3, _⟩ := bind_ok.1 hr
    obtain ⟨ns, hns⟩ := extNodes_ok h2
    obtain ⟨ts, hts⟩ := teEntries_ok h3
    rw [teEntries_of hts] at h3
    obtain ⟨is, his⟩ := tcsEntries_ok h3
    exact ⟨_, .mk _ _ _ _ _ _ _ name label ns ts is (labelName_ok.1 hl) (getLabel_ok.1 h1) hns hts his⟩
  | or => cases hr
  | and => cases hr
  | not => cases hr
  | nc => cases hr
  | external => cases hr
  | ref => cases hr

/-! ## The whole schema -/

/-- What holds of the state when the declarations have been converted. -/
structure Inv (u : St) (ds : List Decl) : Prop where
  wf : u.WF
  known : ∀ d ∈ ds, (∃ n, u.find (.cls d.name.str) = some n) ∧ ∀ x ∈ d.exts, ∃ n, u.find (.cls x.str) = some n
  classes : ∀ s d, (named s ds).getLast? = some d → ∃ n c, u.find (.cls s) = some n ∧
    u.comp n = some (.cls c) ∧ u.IsClass d c
  links : ∀ s n, u.find (.cls s) = some n →
    Each (u.Drawn n) (((named s ds).flatMap Decl.items).filterMap Item.link) (u.from n)
  exts : ∀ a b, (a, b) ∈ u.exts ↔
    ∃ d ∈ ds, ∃ x ∈ d.exts, u.find (.cls d.name.str) = some a ∧ u.find (.cls x.str) = some b
  ops : ∀ k j n, u.find (.logic k j) = some n →
    ∃ d ∈ ds, ∃ i ∈ d.items, ∃ ss, i.value = .inr (.group k ss) ∧ u.At n (.group k ss)
  nodes : ∀ s n, u.find (.cls s) = some n → ∃ d ∈ ds, s = d.name.str ∨ (∃ x ∈ d.exts, s = x.str) ∨
    ∃ i ∈ d.items, ∃ t, i.value = .inr t ∧ s ∈ t.names
  bare : ∀ s n c, u.find (.cls s) = some n → u.comp n = some (.cls c) → named s ds = [] →
    ∃ d ∈ ds, ∃ x ∈ d.exts, x.str = s ∧ c = ⟨x, [], []⟩

theorem inv_init : Inv .init [] where
  wf := wf_init
  known := by intro d h; cases h
  classes := by intro s d h; cases h
  links := by intro s n h; cases h
  exts := by intro a b; simp [St.init]
  ops := by intro k j n h; cases h
  nodes := by intro s n h; cases h
  bare := by intro s n c h; cases h

theorem setComp_wf {u : St} (h : u.WF) {s : Str} {n : Nat} (hn : u.find (.cls s) = some n) (c : Cls) :
    (u.setComp n (.cls c)).WF := compSet_wf h hn c rfl (fun m => comp_setComp u n m _)

theorem setComp_at {u : St} (h : u.WF) {s : Str} {n : Nat} (hn : u.find (.cls s) = some n) (c : Cls) {m : Nat}
    {t : Target} (ht : u.At m t) : (u.setComp n (.cls c)).At m t := by
  cases t with
  | one s => exact ht
  | group k ss =>
    obtain ⟨ids, h1, h2⟩ := ht
    refine ⟨ids, ?_, h2⟩
    rw [comp_setComp, if_neg]
    · exact h1
    · rintro rfl
      obtain ⟨d, hd⟩ := h.isCls _ _ _ hn h1
      cases hd

theorem named_append (s : Str) (ds : List Decl) (d : Decl) :
    named s (ds ++ [d]) = named s ds ++ if d.name.str = s then [d] else [] := by
  rw [named, List.filter_append, ← named]
  by_cases h : d.name.str = s <;> simp [h]

theorem inv_step {u : St} {ds : List Decl} (hi : Inv u ds) (d : Decl) {cur : Nat} {w v : St} {L : List Link}
    {E ids : List Nat} {N : List ULabel} {B : List (Nat × Cls)}
    (hw : Step cur u w [] [] [.cls d.name.str] []) (hd : DoneDecl cur w v d ids L E N B)
    (hcur : v.find (.cls d.name.str) = some cur) :
    Inv (v.setComp cur (.cls ⟨d.name, d.items.filterMap Item.entry, ids⟩)) (ds ++ [d]) := by
  have hs := hw.trans hd.step
  simp only [List.nil_append] at hs
  have hL := hd.drawn
  have hids := hd.ids
  have hE := hd.ext
  have hx := hd.known
  have sameName : ∀ s, v.find (.cls s) = some cur → d.name.str = s := by
    intro s h
    have := hs.wf.inj _ _ _ hcur h
    cases this; rfl
  have back : ∀ l n m, u.find l = some m → v.find l = some n → u.find l = some n := by
    intro l n m h1 h2
    rw [hs.lab _ _ h1] at h2
    rw [← h2]; exact h1
  constructor
  · exact setComp_wf hs.wf hcur _
  · intro d' hd'
    rcases List.mem_append.1 hd' with hd' | hd'
    · obtain ⟨⟨n, hn⟩, hy⟩ := hi.known d' hd'
      refine ⟨⟨n, hs.lab _ _ hn⟩, fun x hx => ?_⟩
      obtain ⟨m, hm⟩ := hy x hx
      exact ⟨m, hs.lab _ _ hm⟩
    · rw [List.mem_singleton.1 hd']
      exact ⟨⟨cur, hcur⟩, hx⟩
  · intro s d' hl
    rw [named_append] at hl
    by_cases hn : d.name.str = s
    · rw [if_pos hn, List.getLast?_append] at hl
      simp only [List.getLast?_singleton, Option.some_or, Option.some.injEq] at hl
      subst hl
      subst hn
      refine ⟨cur, _, hcur, by rw [comp_setComp, if_pos rfl], rfl, rfl, ?_⟩
      intro m
      exact (hids m).trans (hE m)
    · rw [if_neg hn, List.append_nil] at hl
      obtain ⟨n, c, h1, h2, h3, h4, h5⟩ := hi.classes s d' hl
      refine ⟨n, c, hs.lab _ _ h1, ?_, h3, h4, ?_⟩
      · rw [comp_setComp, if_neg, hs.comp _ _ h2]
        rintro rfl
        exact hn (sameName s (hs.lab _ _ h1))
      · intro m
        rw [h5]
        have hmem : d' ∈ ds := by
          have := List.mem_of_getLast? hl
          exact (List.mem_filter.1 this).1
        constructor
        · rintro ⟨x, hx, hf⟩; exact ⟨x, hx, hs.lab _ _ hf⟩
        · rintro ⟨x, hx, hf⟩
          obtain ⟨j, hj⟩ := (hi.known d' hmem).2 x hx
          exact ⟨x, hx, back _ _ _ hj hf⟩
  · intro s n hn
    have hn' : v.find (.cls s) = some n := hn
    have hfrom : (v.setComp cur (.cls ⟨d.name, d.items.filterMap Item.entry, ids⟩)).from n =
        u.from n ++ if n = cur then L else [] := by
      refine hs.cls n ?_
      intro k i hk
      cases hs.wf.inj _ _ _ hk hn'
    rw [hfrom, named_append, List.flatMap_append, List.filterMap_append]
    refine each_mono (R := v.Drawn n) (fun _ _ ⟨h1, h2, h3, h4⟩ => ⟨h1, h2, h3, setComp_at hs.wf hcur _ h4⟩) ?_
    refine each_append ?_ ?_
    · cases hu : u.find (.cls s) with
      | some m =>
        have := back _ _ _ hu hn'
        exact drawn_mono hs (hi.links s n this)
      | none =>
        have h1 : named s ds = [] := by
          rw [named, List.filter_eq_nil_iff]
          intro d' hd' he
          obtain ⟨⟨m, hm⟩, _⟩ := hi.known d' hd'
          rw [of_decide_eq_true he, hu] at hm
          cases hm
        have h2 : u.from n = [] := by
          refine hi.wf.from_new ?_
          intro l hl
          have := hs.wf.inj _ _ _ (hs.lab _ _ hl) hn'
          subst this
          rw [hu] at hl; cases hl
        rw [h1, h2]
        exact .nil
    · by_cases hc : n = cur
      · subst hc
        rw [if_pos rfl, if_pos (sameName s hn')]
        simpa using hL
      · rw [if_neg hc, if_neg]
        · exact .nil
        · rintro rfl
          rw [hcur] at hn'
          exact hc (Option.some.inj hn').symm
  · intro a b
    show (a, b) ∈ v.exts ↔ _
    rw [hs.exts, hi.exts]
    constructor
    · rintro (⟨d', hd', x, hx, h1, h2⟩ | ⟨rfl, hb⟩)
      · exact ⟨d', List.mem_append.2 (.inl hd'), x, hx, hs.lab _ _ h1, hs.lab _ _ h2⟩
      · obtain ⟨x, hx, hf⟩ := (hE b).1 hb
        exact ⟨d, List.mem_append.2 (.inr (List.mem_singleton.2 rfl)), x, hx, hcur, hf⟩
    · rintro ⟨d', hd', x, hx', h1, h2⟩
      have h1' : v.find (.cls d'.name.str) = some a := h1
      have h2' : v.find (.cls x.str) = some b := h2
      rcases List.mem_append.1 hd' with hd' | hd'
      · obtain ⟨⟨m, hm⟩, hy⟩ := hi.known d' hd'
        obtain ⟨j, hj⟩ := hy x hx'
        exact .inl ⟨d', hd', x, hx', back _ _ _ hm h1', back _ _ _ hj h2'⟩
      · rw [List.mem_singleton.1 hd'] at h1' hx'
        rw [hcur] at h1'
        exact .inr ⟨(Option.some.inj h1').symm, (hE b).2 ⟨x, hx', h2'⟩⟩
  · intro k j n hn
    have hn' : v.find (.logic k j) = some n := hn
    rcases hs.new _ _ hn' with h | h
    · obtain ⟨d', hd', i, hi', ss, h1, h2⟩ := hi.ops k j n h
      exact ⟨d', List.mem_append.2 (.inl hd'), i, hi', ss, h1, setComp_at hs.wf hcur _ (hs.at h2)⟩
    · simp only [List.cons_append, List.mem_cons, List.mem_append, List.mem_map, reduceCtorEq, and_false,
        exists_false, false_or, List.nil_append] at h
      obtain ⟨i, hi', ss, m, h1, h2, h3⟩ := hd.new.2 k j h
      rw [hn'] at h2
      cases h2
      exact ⟨d, by simp, i, hi', ss, h1, setComp_at hs.wf hcur _ h3⟩
  · intro s n hn
    have hn' : v.find (.cls s) = some n := hn
    rcases hs.new _ _ hn' with h | h
    · obtain ⟨d', hd', h⟩ := hi.nodes s n h
      exact ⟨d', List.mem_append.2 (.inl hd'), h⟩
    · refine ⟨d, by simp, ?_⟩
      simp only [List.cons_append, List.mem_cons, List.mem_append, List.mem_map, List.nil_append,
        ULabel.cls.injEq] at h
      rcases h with h | ⟨x, hx, h⟩ | h
      · exact .inl h
      · exact .inr (.inl ⟨x, hx, h.symm⟩)
      · exact .inr (.inr (hd.new.1 s h))
  · intro s n c hn hc hnm
    have hn' : v.find (.cls s) = some n := hn
    rw [named_append] at hnm
    obtain ⟨hnm1, hnm2⟩ := List.append_eq_nil_iff.1 hnm
    have hne : d.name.str ≠ s := by
      intro he
      rw [if_pos he] at hnm2
      cases hnm2
    rw [comp_setComp, if_neg (by rintro rfl; exact hne (sameName s hn'))] at hc
    rcases hs.bare _ _ hc with h | h
    · obtain ⟨l, hl⟩ := hi.wf.labelled _ _ h
      have := hs.wf.inj _ _ _ (hs.lab _ _ hl) hn'
      subst this
      obtain ⟨d', hd', x⟩ := hi.bare s n c hl h hnm1
      exact ⟨d', List.mem_append.2 (.inl hd'), x⟩
    · obtain ⟨x, hx, h1, h2⟩ := hd.bare n c h
      have := hs.wf.inj _ _ _ h1 hn'
      cases this
      exact ⟨d, by simp, x, hx, rfl, h2⟩

theorem convertAll_of {C : Cfg} {pm : Prefix.PrefixMap} {xs : List (Label × SE)} {ds : List Decl}
    (hx : Each (Declares C pm) xs ds) {u : St} {es : List Decl} (hi : Inv u es) :
    ∃ v, convertAll C pm xs u = .ok v ∧ Inv v (es ++ ds) := by
  induction hx generalizing u es with
  | nil => exact ⟨u, rfl, by simpa using hi⟩
  | cons x d xs ds hd _ ih =>
    obtain ⟨name, h1, h2, h3⟩ := shapeComp_of hd
    obtain ⟨g1, g2, _, _⟩ := node_cls (cur := (u.node (.cls name.str)).1) hi.wf name.str
    obtain ⟨v, L, E, N, B, ids, e1, e2⟩ := h3 _ g1.wf _ _ g2
    have hc := e2.step.lab _ _ g2
    rw [h2] at hc g1 e2 e1
    obtain ⟨w, f1, f2⟩ := ih (inv_step hi d g1 e2 hc)
    refine ⟨w, ?_, by simpa using f2⟩
    simp only [convertAll, h1, Out.bind]
    rw [h2, e1]
    exact f1

theorem convertAll_ok {C : Cfg} {pm : Prefix.PrefixMap} {xs : List (Label × SE)} {u v : St}
    (h : convertAll C pm xs u = .ok v) : ∃ ds, Each (Declares C pm) xs ds := by
  induction xs generalizing u with
  | nil => exact ⟨[], .nil⟩
  | cons x xs ih =>
    simp only [convertAll] at h
    obtain ⟨name, h1, h⟩ := bind_ok.1 h
    obtain ⟨r, h2, h⟩ := bind_ok.1 h
    obtain ⟨d, hd⟩ := shapeComp_ok h1 h2
    obtain ⟨ds, hds⟩ := ih h
    exact ⟨d :: ds, .cons _ _ _ _ hd hds⟩

theorem inv_draws {u : St} {ds : List Decl} (h : Inv u ds) : u.Draws ds where
  apart := h.wf.inj
  classes := h.classes
  links := h.links
  ends := h.wf.ends
  exts := h.exts
  operators := by
    intro k i n hn
    obtain ⟨ids, h1, h2, _⟩ := h.wf.isLogic k i n hn
    refine ⟨h.ops k i n hn, ?_⟩
    intro k' i' n' hn' hc
    obtain ⟨ids', h1', h2', _⟩ := h.wf.isLogic k' i' n' hn'
    rw [h1', h1] at hc
    cases hc
    rw [h2] at h2'
    cases h2'
    rw [hn] at hn'
    exact (Option.some.inj hn').symm
  nodes := h.nodes
  bare := by
    intro n c hc
    refine ⟨h.wf.labelled n c hc, ?_⟩
    intro s hs hn
    obtain ⟨c, rfl⟩ := h.wf.isCls _ _ _ hs hc
    obtain ⟨d, hd, x, hx, h1, h2⟩ := h.bare s n c hs hc hn
    exact ⟨d, hd, x, hx, h1, by rw [h2]⟩

end Uml
