import Verif.Html.Spec
import Verif.Uml.Lemmas
import Verif.Rbe.LemmasTable
import Verif.Rbe.LemmasPending

/-! # Lemmas on HTML pages -/

namespace Html
open Shexc
open Uml (Out Cfg Name Card RefCalled Labelled Shown Each Constraints)

theorem iriName_ok {C : Cfg} {pm : Prefix.PrefixMap} {label : Option Str} {r : IriRef} {n : Name} :
    iriName C pm label r = .ok n ↔ RefCalled C pm label r n := Uml.iriName_ok (r := r)

theorem mkCard_ok {mn mx : Option Int} {c : Card} : mkCard mn mx = .ok c ↔ Shown mn mx c := Uml.mkCard_ok

theorem labelName_ok {C : Cfg} {pm : Prefix.PrefixMap} {l : Label} {n : Name} :
    labelName C pm l = .ok n ↔ Called C pm l n := by
  cases l with
  | iri r =>
    simp only [labelName, iriName_ok]
    exact ⟨fun h => .iri r n h, fun h => by cases h; assumption⟩
  | bnode b => simp only [labelName, reduceCtorEq, false_iff]; intro h; cases h
  | start => simp only [labelName, reduceCtorEq, false_iff]; intro h; cases h

/-! ## The state -/

/-- The page of a name. -/
def St.page (u : St) (s : Str) : Option Page := (Rbe.alookup s u.labels).bind fun n => Rbe.alookup n u.pages

/-- A name that has a node. -/
def St.known (u : St) (s : Str) : Prop := ∃ n, Rbe.alookup s u.labels = some n

/-- Nodes are different for different names, and pages have the names of their nodes. -/
structure WF (u : St) : Prop where
  bound : ∀ s n, Rbe.alookup s u.labels = some n → n ≤ u.next
  inj : ∀ s t n, Rbe.alookup s u.labels = some n → Rbe.alookup t u.labels = some n → s = t
  owned : ∀ n p, Rbe.alookup n u.pages = some p → Rbe.alookup p.name.str u.labels = some n
  keys : (u.pages.map Prod.fst).Nodup

theorem alookup_append {X Y : Type} [DecidableEq X] (x y : X) (v : Y) (l : List (X × Y)) :
    Rbe.alookup x (l ++ [(y, v)]) = (Rbe.alookup x l).or (if x = y then some v else none) := by
  induction l with
  | nil => simp only [List.nil_append, Rbe.alookup, Option.none_or, eq_comm]
  | cons e l ih =>
    obtain ⟨z, w⟩ := e
    simp only [List.cons_append, Rbe.alookup]
    split
    · simp
    · exact ih

theorem alookup_keys {X Y : Type} [DecidableEq X] (x : X) (l : List (X × Y)) :
    Rbe.alookup x l = none ↔ x ∉ l.map Prod.fst := by
  rw [Rbe.alookup_none]
  simp

theorem node_known {u : St} {s : Str} {n : Nat} (h : Rbe.alookup s u.labels = some n) : u.node s = (n, true, u) := by
  simp [St.node, h]

theorem node_new {u : St} {s : Str} (h : Rbe.alookup s u.labels = none) :
    u.node s = (u.next + 1, false, { u with next := u.next + 1, labels := u.labels ++ [(s, u.next + 1)] }) := by
  simp [St.node, h]

theorem node_spec {u : St} (hw : WF u) (s : Str) :
    WF (u.node s).2.2 ∧ Rbe.alookup s (u.node s).2.2.labels = some (u.node s).1 ∧
    (∀ t, (u.node s).2.2.page t = u.page t) ∧ (∀ t, (u.node s).2.2.known t ↔ u.known t ∨ t = s) ∧
    ((u.node s).2.1 = true ↔ u.known s) := by
  cases h : Rbe.alookup s u.labels with
  | some n =>
    rw [node_known h]
    refine ⟨hw, h, fun _ => rfl, fun t => ⟨.inl, ?_⟩, by simp [St.known, h]⟩
    rintro (h' | rfl)
    · exact h'
    · exact ⟨n, h⟩
  | none =>
    rw [node_new h]
    have lk : ∀ t, Rbe.alookup t (u.labels ++ [(s, u.next + 1)]) =
        (Rbe.alookup t u.labels).or (if t = s then some (u.next + 1) else none) := fun t => alookup_append _ _ _ _
    have hs : ∀ t n, Rbe.alookup t (u.labels ++ [(s, u.next + 1)]) = some n →
        Rbe.alookup t u.labels = some n ∨ t = s ∧ n = u.next + 1 := by
      intro t n ht
      rw [lk] at ht
      cases hu : Rbe.alookup t u.labels with
      | some m => rw [hu] at ht; simp only [Option.some_or] at ht; exact .inl ht
      | none =>
        rw [hu] at ht
        simp only [Option.none_or] at ht
        split at ht
        · rename_i e; exact .inr ⟨e, by simpa using ht.symm⟩
        · simp at ht
    have hk : ∀ t n, Rbe.alookup t u.labels = some n → Rbe.alookup t (u.labels ++ [(s, u.next + 1)]) = some n := by
      intro t n ht
      rw [lk, ht]; rfl
    refine ⟨⟨?_, ?_, ?_, hw.keys⟩, ?_, ?_, ?_, ?_⟩
    · intro t n ht
      rcases hs t n ht with ht | ⟨_, rfl⟩
      · exact Nat.le_succ_of_le (hw.bound t n ht)
      · exact Nat.le_refl _
    · intro a b n ha hb
      rcases hs a n ha with ha' | ⟨ea, en⟩
      · rcases hs b n hb with hb' | ⟨eb, en⟩
        · exact hw.inj a b n ha' hb'
        · have := hw.bound _ _ ha'; omega
      · rcases hs b _ hb with hb' | ⟨eb, _⟩
        · have := hw.bound _ _ hb'; omega
        · rw [ea, eb]
    · exact fun n p hp => hk _ _ (hw.owned n p hp)
    · simp [lk, h]
    · intro t
      simp only [St.page]
      cases hu : Rbe.alookup t u.labels with
      | some m => rw [hk t m hu]
      | none =>
        rw [lk, hu]
        simp only [Option.none_or, Option.bind_none]
        split
        · simp only [Option.bind_some]
          cases hp : Rbe.alookup (u.next + 1) u.pages with
          | none => rfl
          | some p => have := hw.bound _ _ (hw.owned _ _ hp); omega
        · rfl
    · intro t
      constructor
      · rintro ⟨n, hn⟩
        rcases hs t n hn with hn | ⟨rfl, _⟩
        · exact .inl ⟨n, hn⟩
        · exact .inr rfl
      · rintro (⟨n, hn⟩ | rfl)
        · exact ⟨n, hk _ _ hn⟩
        · exact ⟨u.next + 1, by simp [lk, h]⟩
    · simp [St.known, h]

theorem add_spec {u : St} (hw : WF u) {s : Str} {n : Nat} (hn : Rbe.alookup s u.labels = some n) (p : Page)
    (hp : p.name.str = s) :
    WF (u.add n p) ∧ (∀ t, (u.add n p).known t ↔ u.known t) ∧
    ∀ t, (u.add n p).page t = if t = s then some (match u.page s with | some q => q.merge p | none => p) else u.page t := by
  have hpage : u.page s = Rbe.alookup n u.pages := by simp [St.page, hn]
  unfold St.add
  cases h : Rbe.alookup n u.pages with
  | some q =>
    have hq : q.name.str = s := hw.inj _ _ n (hw.owned n q h) hn
    have lk : ∀ m, Rbe.alookup m (Rbe.upsert n q (fun q => q.merge p) u.pages) =
        if m = n then some (q.merge p) else Rbe.alookup m u.pages := by
      intro m
      rw [Rbe.alookup_upsert, h]; rfl
    refine ⟨⟨hw.bound, hw.inj, ?_, ?_⟩, fun _ => Iff.rfl, ?_⟩
    · intro m r hr
      simp only [lk] at hr
      split at hr
      · rename_i e
        simp only [Option.some.injEq] at hr
        subst e; subst hr
        show Rbe.alookup q.name.str u.labels = some m
        rw [hq]; exact hn
      · exact hw.owned m r hr
    · have : (Rbe.upsert n q (fun q => q.merge p) u.pages).map Prod.fst = u.pages.map Prod.fst := by
        have hm : n ∈ u.pages.map Prod.fst := by
          by_contra hc
          rw [(alookup_keys _ _).2 hc] at h
          simp at h
        clear lk hw h hpage
        generalize u.pages = l at hm
        induction l with
        | nil => simp at hm
        | cons e l ih =>
          obtain ⟨z, w⟩ := e
          simp only [Rbe.upsert]
          split
          · simp
          · rename_i hne
            simp only [List.map_cons, List.mem_cons] at hm
            simp only [List.map_cons, List.cons.injEq, true_and]
            refine ih (hm.resolve_left ?_)
            intro e; exact hne (by simp_all)
      simp only [this]
      exact hw.keys
    · intro t
      rw [hpage, h]
      simp only [St.page]
      by_cases ht : t = s
      · subst ht
        simp [hn, lk]
      · simp only [ht, if_false]
        cases hu : Rbe.alookup t u.labels with
        | none => rfl
        | some m =>
          simp only [Option.bind_some, lk]
          rw [if_neg]
          rintro rfl
          exact ht (hw.inj _ _ _ hu hn)
  | none =>
    have lk : ∀ m, Rbe.alookup m (u.pages ++ [(n, p)]) = (Rbe.alookup m u.pages).or (if m = n then some p else none) :=
      fun m => alookup_append _ _ _ _
    refine ⟨⟨hw.bound, hw.inj, ?_, ?_⟩, fun _ => Iff.rfl, ?_⟩
    · intro m r hr
      simp only [lk] at hr
      cases hu : Rbe.alookup m u.pages with
      | some q =>
        rw [hu] at hr
        simp only [Option.some_or, Option.some.injEq] at hr
        subst hr
        exact hw.owned m q hu
      | none =>
        rw [hu] at hr
        simp only [Option.none_or] at hr
        split at hr
        · rename_i e
          simp only [Option.some.injEq] at hr
          subst e; subst hr
          rw [hp]; exact hn
        · simp at hr
    · have := (alookup_keys _ _).1 h
      rw [List.map_append, List.nodup_append]
      refine ⟨hw.keys, by simp, ?_⟩
      intro a ha b hb
      simp only [List.map_cons, List.map_nil, List.mem_singleton] at hb
      subst hb
      rintro rfl
      exact this ha
    · intro t
      rw [hpage, h]
      simp only [St.page]
      by_cases ht : t = s
      · subst ht
        simp [hn, lk, h]
      · simp only [ht, if_false]
        cases hu : Rbe.alookup t u.labels with
        | none => rfl
        | some m =>
          simp only [Option.bind_some, lk]
          rw [if_neg, Option.or_none]
          rintro rfl
          exact ht (hw.inj _ _ _ hu hn)

theorem mention_spec {u : St} (hw : WF u) (n parent : Name) :
    WF (u.mention n parent) ∧ (∀ t, (u.mention n parent).known t ↔ u.known t ∨ t = n.str) ∧
    (∀ t, u.known t → (u.mention n parent).page t = u.page t) ∧
    (∀ t, ¬ u.known t → (u.mention n parent).page t = if t = n.str then some (Page.new n parent) else none) := by
  obtain ⟨h1, h2, h3, h4, h5⟩ := node_spec hw n.str
  have hnone : ∀ t, ¬ u.known t → u.page t = none := by
    intro t ht
    cases hl : Rbe.alookup t u.labels with
    | none => simp [St.page, hl]
    | some m => exact absurd ⟨m, hl⟩ ht
  unfold St.mention
  by_cases hk : u.known n.str
  · simp only [h5.2 hk, if_true]
    refine ⟨h1, h4, fun t _ => h3 t, fun t ht => ?_⟩
    rw [h3, hnone t ht, if_neg]
    rintro rfl
    exact ht hk
  · have hf : (u.node n.str).2.1 = false := by
      cases hb : (u.node n.str).2.1 with
      | false => rfl
      | true => exact absurd (h5.1 hb) hk
    simp only [hf, Bool.false_eq_true, if_false]
    obtain ⟨g1, g2, g3⟩ := add_spec h1 h2 (Page.new n parent) rfl
    refine ⟨g1, fun t => (g2 t).trans (h4 t), ?_, ?_⟩
    · intro t ht
      rw [g3, if_neg, h3]
      rintro rfl
      exact hk ht
    · intro t ht
      rw [g3, h3, h3, hnone _ hk, hnone _ ht]

theorem node_labels {u : St} {t : Str} {m : Nat} (h : Rbe.alookup t u.labels = some m) (s : Str) :
    Rbe.alookup t (u.node s).2.2.labels = some m := by
  cases hs : Rbe.alookup s u.labels with
  | some n => rw [node_known hs]; exact h
  | none => rw [node_new hs]; simp only [alookup_append, h, Option.some_or]

theorem add_labels (u : St) (n : Nat) (p : Page) : (u.add n p).labels = u.labels := by
  unfold St.add
  split <;> rfl

theorem mention_labels {u : St} {t : Str} {m : Nat} (h : Rbe.alookup t u.labels = some m) (n parent : Name) :
    Rbe.alookup t (u.mention n parent).labels = some m := by
  simp only [St.mention]
  split
  · exact node_labels h _
  · rw [add_labels]; exact node_labels h _

/-- Names that are mentioned one after the other. -/
def mentionAll (parent : Name) (ns : List Name) (u : St) : St := ns.foldl (fun u n => u.mention n parent) u

theorem mentionAll_append (parent : Name) (as bs : List Name) (u : St) :
    mentionAll parent (as ++ bs) u = mentionAll parent bs (mentionAll parent as u) := by
  simp [mentionAll]

theorem page_none {u : St} {t : Str} (ht : ¬ u.known t) : u.page t = none := by
  cases hl : Rbe.alookup t u.labels with
  | none => simp [St.page, hl]
  | some m => exact absurd ⟨m, hl⟩ ht

theorem mentionAll_spec (parent : Name) (ns : List Name) : ∀ {u : St}, WF u →
    WF (mentionAll parent ns u) ∧
    (∀ t, (mentionAll parent ns u).known t ↔ u.known t ∨ ∃ n ∈ ns, n.str = t) ∧
    (∀ t n, Rbe.alookup t u.labels = some n → Rbe.alookup t (mentionAll parent ns u).labels = some n) ∧
    (∀ t, u.known t → (mentionAll parent ns u).page t = u.page t) ∧
    (∀ t, ¬ u.known t →
      (mentionAll parent ns u).page t = (ns.find? fun n => n.str = t).map fun n => Page.new n parent) := by
  induction ns with
  | nil => intro u hw; exact ⟨hw, by simp [mentionAll], fun _ _ h => h, fun _ _ => rfl, fun t ht => page_none ht⟩
  | cons n ns ih =>
    intro u hw
    obtain ⟨h1, h2, h3, h4⟩ := mention_spec hw n parent
    obtain ⟨g1, g2, g0, g3, g4⟩ := ih h1
    refine ⟨g1, fun t => ?_, fun t m hm => ?_, fun t ht => ?_, fun t ht => ?_⟩
    · refine (g2 t).trans ?_
      rw [h2]
      simp only [List.mem_cons, exists_eq_or_imp]
      constructor
      · rintro ((h | h) | h)
        · exact .inl h
        · exact .inr (.inl h.symm)
        · exact .inr (.inr h)
      · rintro (h | h | h)
        · exact .inl (.inl h)
        · exact .inl (.inr h.symm)
        · exact .inr h
    · exact g0 t m (mention_labels hm n parent)
    · exact (g3 t ((h2 t).2 (.inl ht))).trans (h3 t ht)
    · rw [List.find?_cons]
      by_cases he : n.str = t
      · simp only [he, decide_true, Option.map_some]
        refine (g3 _ ((h2 _).2 (.inr he.symm))).trans ?_
        rw [h4 _ ht, if_pos he.symm]
      · simp only [he, decide_false]
        exact g4 t (by rw [h2]; rintro (h | h); exacts [ht h, he h.symm])

/-! ## Readings -/

theorem valueVC_ok {C : Cfg} {pm : Prefix.PrefixMap} {parent : Name} {u : St} {v : Option SE} {r : VC × St} :
    tcValue C pm parent u v = .ok r ↔
      Value C pm v r.1 ∧ r.2 = mentionAll parent ((Entry.target ⟨parent, r.1, .oneOne⟩).toList) u := by
  obtain ⟨vc, w⟩ := r
  cases v with
  | none =>
    simp only [tcValue, Out.ok.injEq, Prod.mk.injEq]
    constructor
    · rintro ⟨rfl, rfl⟩; exact ⟨.any, rfl⟩
    · rintro ⟨h, rfl⟩; cases h; exact ⟨rfl, rfl⟩
  | some se =>
    simp only [tcValue]
    cases se with
    | nc nc =>
      simp only [valueVC]
      cases hd : nc.datatype with
      | none =>
        simp only [reduceCtorEq, false_iff]
        rintro ⟨h, _⟩
        cases h with
        | typed _ d n h1 h2 => simp [hd] at h1
      | some d =>
        simp only [Uml.bind_ok, iriName_ok, Out.ok.injEq, Prod.mk.injEq]
        constructor
        · rintro ⟨n, hn, rfl, rfl⟩
          exact ⟨.typed nc d n hd hn, rfl⟩
        · rintro ⟨h, rfl⟩
          cases h with
          | typed _ d' n h1 h2 =>
            rw [hd] at h1
            simp only [Option.some.injEq] at h1
            subst h1
            exact ⟨n, h2, rfl, rfl⟩
    | ref l =>
      cases l with
      | iri q =>
        simp only [valueVC, Uml.bind_ok, iriName_ok, Out.ok.injEq, Prod.mk.injEq]
        constructor
        · rintro ⟨n, hn, rfl, rfl⟩
          exact ⟨.ref q n hn, rfl⟩
        · rintro ⟨h, rfl⟩
          cases h with
          | ref _ n h2 => exact ⟨n, h2, rfl, rfl⟩
      | bnode b => simp only [valueVC, reduceCtorEq, false_iff]; rintro ⟨h, _⟩; cases h
      | start => simp only [valueVC, reduceCtorEq, false_iff]; rintro ⟨h, _⟩; cases h
    | or es => simp only [valueVC, reduceCtorEq, false_iff]; rintro ⟨h, _⟩; cases h
    | and es => simp only [valueVC, reduceCtorEq, false_iff]; rintro ⟨h, _⟩; cases h
    | not e => simp only [valueVC, reduceCtorEq, false_iff]; rintro ⟨h, _⟩; cases h
    | shape a b c d e f => simp only [valueVC, reduceCtorEq, false_iff]; rintro ⟨h, _⟩; cases h
    | external => simp only [valueVC, reduceCtorEq, false_iff]; rintro ⟨h, _⟩; cases h

theorem tcEntry_ok {C : Cfg} {pm : Prefix.PrefixMap} {parent : Name} {u : St} {t : TE} {r : Entry × St} :
    tcEntry C pm parent u t = .ok r ↔ Shows C pm t r.1 ∧ r.2 = mentionAll parent r.1.target.toList u := by
  obtain ⟨e, w⟩ := r
  cases t with
  | tc id ng iv p v mn mx acts anns =>
    simp only [tcEntry, mkName, Uml.bind_ok, Uml.getLabel_ok, iriName_ok, mkCard_ok, valueVC_ok, Out.ok.injEq, Prod.mk.injEq]
    constructor
    · rintro ⟨name, ⟨label, hl, hn⟩, card, hc, ⟨vc, w'⟩, ⟨hv, hw⟩, rfl, rfl⟩
      exact ⟨.mk id ng iv p v mn mx acts anns label name card vc hl hn hc hv, hw⟩
    · rintro ⟨h, rfl⟩
      cases h with
      | mk _ _ _ _ _ _ _ _ _ label name card value hl hn hc hv =>
        exact ⟨name, ⟨label, hl, hn⟩, card, hc, ⟨value, _⟩, ⟨hv, rfl⟩, rfl, rfl⟩
  | each a b c d e f => simp only [tcEntry, reduceCtorEq, false_iff]; rintro ⟨h, _⟩; cases h
  | one a b c d e f => simp only [tcEntry, reduceCtorEq, false_iff]; rintro ⟨h, _⟩; cases h
  | ref l => simp only [tcEntry, reduceCtorEq, false_iff]; rintro ⟨h, _⟩; cases h

theorem tcsEntries_ok {C : Cfg} {pm : Prefix.PrefixMap} {parent : Name} (ts : List TE) : ∀ {u : St} {r : List Entry × St},
    (tcsEntries C pm parent ts u = .ok r ↔
      Each (Shows C pm) ts r.1 ∧ r.2 = mentionAll parent (r.1.filterMap Entry.target) u) := by
  induction ts with
  | nil =>
    rintro u ⟨es, w⟩
    simp only [tcsEntries, Out.ok.injEq, Prod.mk.injEq]
    constructor
    · rintro ⟨rfl, rfl⟩; exact ⟨.nil, rfl⟩
    · rintro ⟨h, rfl⟩; cases h; exact ⟨rfl, rfl⟩
  | cons t ts ih =>
    rintro u ⟨es, w⟩
    have split : ∀ (e : Entry) (es : List Entry), (e :: es).filterMap Entry.target =
        e.target.toList ++ es.filterMap Entry.target := by
      intro e es
      rw [List.filterMap_cons]
      cases e.target <;> rfl
    simp only [tcsEntries, Uml.bind_ok, tcEntry_ok, ih, Out.ok.injEq, Prod.mk.injEq]
    constructor
    · rintro ⟨⟨e, v⟩, ⟨h1, h2⟩, ⟨es', w'⟩, ⟨h3, h4⟩, rfl, rfl⟩
      refine ⟨.cons _ _ _ _ h1 h3, ?_⟩
      rw [split, mentionAll_append, ← h2]
      exact h4
    · rintro ⟨h, rfl⟩
      cases h with
      | cons _ e _ es h1 h3 =>
        refine ⟨⟨e, mentionAll parent e.target.toList u⟩, ⟨h1, rfl⟩,
          ⟨es, mentionAll parent (es.filterMap Entry.target) (mentionAll parent e.target.toList u)⟩, ⟨h3, rfl⟩, rfl, ?_⟩
        rw [split, mentionAll_append]

theorem teEntries_ok {C : Cfg} {pm : Prefix.PrefixMap} {parent : Name} {te : Option TE} {u : St} {r : List Entry × St} :
    teEntries C pm parent u te = .ok r ↔
      (∃ ts, Constraints te ts ∧ Each (Shows C pm) ts r.1) ∧ r.2 = mentionAll parent (r.1.filterMap Entry.target) u := by
  cases te with
  | none =>
    obtain ⟨es, w⟩ := r
    simp only [teEntries, Out.ok.injEq, Prod.mk.injEq]
    constructor
    · rintro ⟨rfl, rfl⟩; exact ⟨⟨[], .none, .nil⟩, rfl⟩
    · rintro ⟨⟨ts, h1, h2⟩, rfl⟩
      cases h1; cases h2; exact ⟨rfl, rfl⟩
  | some te =>
    cases te with
    | each id es mn mx acts anns =>
      simp only [teEntries, tcsEntries_ok]
      constructor
      · rintro ⟨h1, h2⟩; exact ⟨⟨es, .each .., h1⟩, h2⟩
      · rintro ⟨⟨ts, h1, h2⟩, h3⟩; cases h1; exact ⟨h2, h3⟩
    | tc id ng iv p v mn mx acts anns =>
      simp only [teEntries, tcsEntries_ok]
      constructor
      · rintro ⟨h1, h2⟩; exact ⟨⟨_, .one .., h1⟩, h2⟩
      · rintro ⟨⟨ts, h1, h2⟩, h3⟩; cases h1; exact ⟨h2, h3⟩
    | one a b c d e f =>
      simp only [teEntries, reduceCtorEq, false_iff]
      rintro ⟨⟨ts, h1, _⟩, _⟩; cases h1
    | ref l =>
      simp only [teEntries, reduceCtorEq, false_iff]
      rintro ⟨⟨ts, h1, _⟩, _⟩; cases h1

theorem extNames_ok {C : Cfg} {pm : Prefix.PrefixMap} {parent : Name} (ls : List Label) : ∀ {u : St} {r : List Name × St},
    (extNames C pm parent ls u = .ok r ↔ Each (Called C pm) ls r.1 ∧ r.2 = mentionAll parent r.1 u) := by
  induction ls with
  | nil =>
    rintro u ⟨es, w⟩
    simp only [extNames, Out.ok.injEq, Prod.mk.injEq]
    constructor
    · rintro ⟨rfl, rfl⟩; exact ⟨.nil, rfl⟩
    · rintro ⟨h, rfl⟩; cases h; exact ⟨rfl, rfl⟩
  | cons l ls ih =>
    rintro u ⟨es, w⟩
    simp only [extNames, Uml.bind_ok, labelName_ok, ih, Out.ok.injEq, Prod.mk.injEq]
    constructor
    · rintro ⟨n, h1, ⟨es', w'⟩, ⟨h3, h4⟩, rfl, rfl⟩
      exact ⟨.cons _ _ _ _ h1 h3, h4⟩
    · rintro ⟨h, rfl⟩
      cases h with
      | cons _ e _ es h1 h3 => exact ⟨e, h1, ⟨es, _⟩, ⟨h3, rfl⟩, rfl, rfl⟩

/-- What a declaration does to a state: its name gets a node, its mentions follow, and its page is added. -/
def applyDecl (parent : Name) (d : Decl) (u : St) : St :=
  (mentionAll parent d.mentions (u.node d.name.str).2.2).add (u.node d.name.str).1 ⟨d.name, d.entries, d.exts, parent⟩

theorem labelled_orElse {C : Cfg} {pm : Prefix.PrefixMap} {l : Label} {n : Name} (h : Called C pm l n) (label : Option Str) :
    (label.orElse fun _ => n.label) = label := by
  cases h with
  | iri r _ h => cases h <;> cases label <;> rfl

theorem convertAll_ok {C : Cfg} {pm : Prefix.PrefixMap} {parent : Name} (decls : List (Label × SE)) : ∀ {u w : St},
    (convertAll C pm parent decls u = .ok w ↔
      ∃ ds, Each (Declares C pm) decls ds ∧ w = ds.foldl (fun u d => applyDecl parent d u) u) := by
  induction decls with
  | nil =>
    intro u w
    simp only [convertAll, Out.ok.injEq]
    constructor
    · rintro rfl; exact ⟨[], .nil, rfl⟩
    · rintro ⟨ds, h, rfl⟩; cases h; rfl
  | cons d decls ih =>
    intro u w
    obtain ⟨l, se⟩ := d
    simp only [convertAll, Uml.bind_ok, labelName_ok]
    constructor
    · rintro ⟨name, hn, ⟨p, v⟩, hp, hc⟩
      cases se with
      | shape cl ex te acts anns ext =>
        simp only [shapePage, Uml.bind_ok, Uml.getLabel_ok, extNames_ok, teEntries_ok, Out.ok.injEq, Prod.mk.injEq] at hp
        obtain ⟨label, hl, ⟨exts, v1⟩, ⟨he, hv1⟩, ⟨es, v2⟩, ⟨⟨ts, ht, hs⟩, hv2⟩, rfl, rfl⟩ := hp
        simp only at hv1 hv2 he hs
        subst hv1 hv2
        obtain ⟨ds, hd, rfl⟩ := ih.1 hc
        refine ⟨_ :: ds, .cons _ _ _ _ (.mk l cl ex te acts anns ext name label exts ts es hn hl he ht hs) hd, ?_⟩
        simp only [List.foldl_cons, applyDecl, Decl.mentions, mentionAll_append, labelled_orElse hn]
      | _ => simp [shapePage] at hp
    · rintro ⟨ds, hd, rfl⟩
      cases hd with
      | cons _ d _ ds h1 h2 =>
        cases h1 with
        | mk _ cl ex te acts anns ext name label exts ts es hn hl he ht hs =>
          refine ⟨name, hn, ⟨⟨{ name with label := label }, es, exts, parent⟩,
              mentionAll parent (exts ++ es.filterMap Entry.target) (u.node name.str).2.2⟩, ?_, ?_⟩
          · simp only [shapePage, Uml.bind_ok, Uml.getLabel_ok, extNames_ok, teEntries_ok, Out.ok.injEq, Prod.mk.injEq]
            refine ⟨label, hl, ⟨exts, mentionAll parent exts (u.node name.str).2.2⟩, ⟨he, rfl⟩,
              ⟨es, mentionAll parent (es.filterMap Entry.target) (mentionAll parent exts (u.node name.str).2.2)⟩,
              ⟨⟨ts, ht, hs⟩, rfl⟩, ?_, ?_⟩
            · simp only [labelled_orElse hn]
            · rw [mentionAll_append]
          · exact ih.2 ⟨ds, h2, rfl⟩

/-! ## The pages -/

theorem find_declared {ds : List Decl} {t : Str} (h : (occurrences ds).find? (fun n => n.str = t) = none) :
    declared ds t = [] := by
  rw [List.find?_eq_none] at h
  simp only [declared, List.filter_eq_nil_iff, decide_eq_true_eq]
  intro d hd he
  refine h d.name ?_ (by simpa using he)
  simp only [occurrences, List.mem_flatMap]
  exact ⟨d, hd, by simp⟩

/-- The state after declarations. -/
structure Inv (parent : Name) (ds : List Decl) (u : St) : Prop where
  wf : WF u
  full : ∀ t, u.known t ↔ ∃ p, u.page t = some p
  page : ∀ t, u.page t = ((occurrences ds).find? fun n => n.str = t).map fun n =>
    ⟨n, (declared ds t).flatMap Decl.entries, (declared ds t).flatMap Decl.exts, parent⟩

theorem inv_init (parent : Name) : Inv parent [] .init where
  wf := ⟨fun _ _ h => by simp [St.init, Rbe.alookup] at h, fun _ _ _ h => by simp [St.init, Rbe.alookup] at h,
    fun _ _ h => by simp [St.init, Rbe.alookup] at h, by simp [St.init]⟩
  full := fun t => by simp [St.known, St.page, St.init, Rbe.alookup]
  page := fun t => by simp [St.page, St.init, Rbe.alookup, occurrences]

theorem inv_step {parent : Name} {ds : List Decl} {u : St} (hi : Inv parent ds u) (d : Decl) :
    Inv parent (ds ++ [d]) (applyDecl parent d u) := by
  obtain ⟨a1, a2, a3, a4, _⟩ := node_spec hi.wf d.name.str
  obtain ⟨b1, b2, b0, b3, b4⟩ := mentionAll_spec parent d.mentions a1
  obtain ⟨c1, c2, c3⟩ := add_spec b1 (b0 _ _ a2) ⟨d.name, d.entries, d.exts, parent⟩ rfl
  have hocc : occurrences (ds ++ [d]) = occurrences ds ++ d.name :: d.mentions := by simp [occurrences]
  have hdecl : ∀ t, declared (ds ++ [d]) t = declared ds t ++ if d.name.str = t then [d] else [] := by
    intro t
    simp only [declared, List.filter_append, List.filter_cons, List.filter_nil, decide_eq_true_eq]
  have hpage : ∀ t, (applyDecl parent d u).page t = ((occurrences (ds ++ [d])).find? fun n => n.str = t).map fun n =>
      (⟨n, (declared (ds ++ [d]) t).flatMap Decl.entries, (declared (ds ++ [d]) t).flatMap Decl.exts, parent⟩ : Page) := by
    intro t
    refine (c3 t).trans ?_
    rw [b3 _ ((a4 _).2 (.inr rfl)), a3, hi.page d.name.str, hocc, List.find?_append, hdecl]
    cases hf : (occurrences ds).find? fun n => n.str = t with
    | some n =>
      have hk : u.known t := (hi.full t).2 ⟨_, by rw [hi.page, hf]; rfl⟩
      by_cases he : t = d.name.str
      · subst he
        simp [hf, Page.merge]
      · have he' : d.name.str ≠ t := fun h => he h.symm
        rw [if_neg he, b3 t ((a4 t).2 (.inl hk)), a3, hi.page, hf]
        simp [he']
    | none =>
      have hk : ¬ u.known t := by
        rw [hi.full, hi.page, hf]; simp
      by_cases he : t = d.name.str
      · subst he
        simp [hf, find_declared hf]
      · have he' : d.name.str ≠ t := fun h => he h.symm
        rw [if_neg he, b4 t (by rw [a4]; rintro (h | h); exacts [hk h, he h]), find_declared hf]
        simp [he', Page.new]
  refine ⟨c1, fun t => ?_, hpage⟩
  refine ((c2 t).trans ((b2 t).trans (or_congr_left (a4 t)))).trans ?_
  rw [hpage]
  simp only [Option.map_eq_some_iff, hi.full, hi.page, hocc, List.find?_append]
  constructor
  · intro h
    cases hf : (occurrences ds).find? (fun n => n.str = t) with
    | some n => exact ⟨_, n, by simp, rfl⟩
    | none =>
      rw [hf] at h
      simp only [reduceCtorEq, false_and, exists_false, false_or, Option.none_or] at h ⊢
      have : ∃ n ∈ d.name :: d.mentions, n.str = t := by
        rcases h with h | ⟨n, hn, he⟩
        · exact ⟨d.name, by simp, h.symm⟩
        · exact ⟨n, by simp [hn], he⟩
      obtain ⟨n, hn, he⟩ := this
      cases hg : (d.name :: d.mentions).find? (fun n => n.str = t) with
      | some m => exact ⟨_, m, rfl, rfl⟩
      | none =>
        rw [List.find?_eq_none] at hg
        exact absurd he (by simpa using hg n hn)
  · rintro ⟨p, n, hn, rfl⟩
    cases hf : (occurrences ds).find? (fun n => n.str = t) with
    | some m => exact .inl (.inl ⟨_, m, rfl, rfl⟩)
    | none =>
      rw [hf, Option.none_or] at hn
      have h1 := List.mem_of_find?_eq_some hn
      have h2 := List.find?_some hn
      simp only [decide_eq_true_eq] at h2
      rcases List.mem_cons.1 h1 with rfl | h1
      · exact .inl (.inr h2.symm)
      · exact .inr ⟨n, h1, h2⟩

theorem inv_all {parent : Name} (ds : List Decl) : ∀ {es : List Decl} {u : St}, Inv parent es u →
    Inv parent (es ++ ds) (ds.foldl (fun u d => applyDecl parent d u) u) := by
  induction ds with
  | nil => intro es u h; simpa using h
  | cons d ds ih =>
    intro es u h
    have := ih (inv_step h d)
    simpa using this

theorem mem_all {parent : Name} {ds : List Decl} {u : St} (hi : Inv parent ds u) (p : Page) :
    p ∈ u.all ↔ u.page p.name.str = some p := by
  simp only [St.all, List.mem_map, Prod.exists, exists_eq_right]
  constructor
  · rintro ⟨n, h⟩
    have h' := (Rbe.alookup_mem n p u.pages hi.wf.keys).2 h
    simp [St.page, hi.wf.owned n p h', h']
  · intro h
    simp only [St.page, Option.bind_eq_some_iff] at h
    obtain ⟨n, _, hn⟩ := h
    exact ⟨n, (Rbe.alookup_mem n p u.pages hi.wf.keys).1 hn⟩

theorem names_nodup {parent : Name} {ds : List Decl} {u : St} (hi : Inv parent ds u) :
    (u.all.map fun p => p.name.str).Nodup := by
  have : (u.all.map fun p => p.name.str) = u.pages.map fun e => e.2.name.str := by simp [St.all]
  rw [this]
  have hk := hi.wf.keys
  rw [List.nodup_iff_pairwise_ne, List.pairwise_map] at hk ⊢
  refine hk.imp_of_mem ?_
  rintro ⟨m, p⟩ ⟨n, q⟩ hp hq hne he
  have h1 := hi.wf.owned m p ((Rbe.alookup_mem m p u.pages hi.wf.keys).2 hp)
  have h2 := hi.wf.owned n q ((Rbe.alookup_mem n q u.pages hi.wf.keys).2 hq)
  simp only at he
  rw [he, h2] at h1
  exact hne (by simpa using h1.symm)

theorem convert_inv {C : Cfg} {pm : Option Prefix.PrefixMap} {parent : Name} {xs : List (Label × SE)} {u : St} :
    convert C pm parent (some xs) = .ok u ↔ ∃ ds, Each (Declares C (plain pm)) xs ds ∧
      u = ds.foldl (fun u d => applyDecl parent d u) .init := convertAll_ok xs

end Html
