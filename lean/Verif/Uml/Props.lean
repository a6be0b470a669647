import Verif.Uml.LemmasConvert

/-!
# Properties: class diagrams of schemas (C138)
-/

namespace Uml
open Rbe Shexc

/-! ## Examples -/

/-- Every text is an IRI, one annotation is a label. -/
def exCfg : Cfg where
  valid := fun _ => true
  labels := [chars "http://l"]
  lexical := fun
    | .str s => s
    | _ => []
  showNum := fun _ => []

/-- A prefix. -/
def exMap : Prefix.PrefixMap := ⟨[(chars "e", chars "http://e/")], false⟩

/-- A prefixed name. -/
def ex (s : String) : IriRef := .prefixed (chars "e") (chars s)

/-- The name of a prefixed name. -/
def exName (s : String) : Name := ⟨chars "e:" ++ chars s, some (chars "http://e/" ++ chars s), none⟩

/-- A triple constraint. -/
def exTC (p : String) (v : Option SE) (mn mx : Option Int) : TE := .tc none none none (ex p) v mn mx none none

/-- A shape with a group of triple constraints. -/
def exShape (ts : List TE) (ext : Option (List Label)) : SE := .shape none none (some (.each none ts none none none none)) none none ext

/-- A reference. -/
def exRef (s : String) : SE := .ref (.iri (ex s))

/-- The schema `e:P { e:n xsd; e:w @e:C *; e:o (@e:C OR @e:D) ? }  e:C extends e:D { e:v . }`. -/
def exSchema : List (Label × SE) :=
  [(.iri (ex "P"), exShape [exTC "n" (some (.nc { datatype := some (ex "str") })) none none,
      exTC "w" (some (exRef "C")) (some 0) (some (-1)),
      exTC "o" (some (.or [exRef "C", exRef "D"])) (some 0) (some 1)] none),
    (.iri (ex "C"), exShape [exTC "v" none none none] (some [.iri (ex "D")]))]

/-- What is declared in it. -/
def exDecls : List Decl :=
  [⟨exName "P", [], [⟨exName "n", .oneOne, .inl (.datatype (exName "str"))⟩,
      ⟨exName "w", .star, .inr (.one (chars "e:C"))⟩,
      ⟨exName "o", .optional, .inr (.group .or [chars "e:C", chars "e:D"])⟩]⟩,
    ⟨exName "C", [exName "D"], [⟨exName "v", .oneOne, .inl .any⟩]⟩]

/-- What it declares is what the specification reads. -/
theorem exDeclared : Each (Declares exCfg exMap) exSchema exDecls := by
  refine .cons _ _ _ _ (.mk _ _ _ _ _ _ _ (exName "P") none [] _ _ (labelName_ok.1 rfl) (getLabel_ok.1 rfl) .nil
    (.each _ _ _ _ _ _) ?_) (.cons _ _ _ _ (.mk _ _ _ _ _ _ _ (exName "C") none [exName "D"] _ _
      (labelName_ok.1 rfl) (getLabel_ok.1 rfl) (.cons _ _ _ _ (labelName_ok.1 rfl) .nil) (.each _ _ _ _ _ _) ?_) .nil)
  · refine .cons _ _ _ _ (.mk _ _ _ _ _ _ _ _ _ none _ _ _ (getLabel_ok.1 rfl) (iriName_ok.1 rfl) (mkCard_ok.1 rfl)
      (.node _ _ (ncVC_ok.1 rfl))) (.cons _ _ _ _ (.mk _ _ _ _ _ _ _ _ _ none _ _ _ (getLabel_ok.1 rfl)
        (iriName_ok.1 rfl) (mkCard_ok.1 rfl) (.ref _ (exName "C") (iriName_ok.1 rfl))) (.cons _ _ _ _
          (.mk _ _ _ _ _ _ _ _ _ none _ _ _ (getLabel_ok.1 rfl) (iriName_ok.1 rfl) (mkCard_ok.1 rfl)
            (.orRefs _ _ (.cons _ _ _ _ ⟨_, exName "C", rfl, labelName_ok.1 rfl, rfl⟩
              (.cons _ _ _ _ ⟨_, exName "D", rfl, labelName_ok.1 rfl, rfl⟩ .nil)))) .nil))
  · exact .cons _ _ _ _ (.mk _ _ _ _ _ _ _ _ _ none _ _ _ (getLabel_ok.1 rfl) (iriName_ok.1 rfl) (mkCard_ok.1 rfl)
      .any) .nil

/-! ## What is drawn -/

/-- A schema is converted exactly when each of its declarations can be read by itself. -/
theorem C138_made (C : Cfg) (pm : Option Prefix.PrefixMap) (xs : List (Label × SE)) :
    (∃ u, convert C pm (some xs) = .ok u) ↔
      ∀ x ∈ xs, ∃ d, Declares C (pm.getD Prefix.PrefixMap.new) x d := by
  constructor
  · rintro ⟨u, h⟩ x hx
    obtain ⟨ds, hds⟩ := convertAll_ok h
    obtain ⟨d, _, hd⟩ := each_mem_left hds hx
    exact ⟨d, hd⟩
  · intro h
    obtain ⟨ds, hds⟩ := each_of h
    obtain ⟨u, hu, _⟩ := convertAll_of hds inv_init
    exact ⟨u, hu⟩

example : ∃ u, convert exCfg (some exMap) (some exSchema) = .ok u :=
  (C138_made _ _ _).2 fun _ hx => (each_mem_left exDeclared hx).imp fun _ h => h.2

/-- The diagram of a schema shows its declarations: their classes with their entries, their links with
their operators, and what they extend, and nothing else. -/
theorem C138_drawn (C : Cfg) (pm : Option Prefix.PrefixMap) (xs : List (Label × SE)) (u : St)
    (h : convert C pm (some xs) = .ok u) :
    ∃ ds, Each (Declares C (pm.getD Prefix.PrefixMap.new)) xs ds ∧ u.Draws ds := by
  obtain ⟨ds, hds⟩ := convertAll_ok h
  obtain ⟨v, hv, hi⟩ := convertAll_of hds inv_init
  have : v = u := by
    have h' : convertAll C (pm.getD Prefix.PrefixMap.new) ((some xs).getD []) .init = .ok u := h
    rw [hv] at h'
    cases h'; rfl
  subst this
  exact ⟨ds, hds, inv_draws hi⟩

/-- In the example the diagram has five nodes, the links to the class, to the operator and to its two
members, and one pair of extension. -/
example : ∃ u, convert exCfg (some exMap) (some exSchema) = .ok u ∧
    u.labels = [(.cls (chars "e:P"), 1), (.cls (chars "e:C"), 2), (.cls (chars "e:D"), 3), (.logic .or 1, 4)] ∧
    u.links = [⟨1, 2, exName "w", .star⟩, ⟨4, 2, member, .oneOne⟩, ⟨4, 3, member, .oneOne⟩,
      ⟨1, 4, exName "o", .optional⟩] ∧ u.exts = [(2, 3)] := ⟨_, rfl, rfl, rfl, rfl⟩

theorem refCalled_once {C : Cfg} {pm : Prefix.PrefixMap} {label : Option Str} {r : IriRef} {n m : Name}
    (h : RefCalled C pm label r n) (g : RefCalled C pm label r m) : n = m := by
  have h' := iriName_ok.2 h
  rw [iriName_ok.2 g] at h'
  cases h'; rfl

theorem called_once {C : Cfg} {pm : Prefix.PrefixMap} {l : Label} {n m : Name}
    (h : Called C pm l n) (g : Called C pm l m) : n = m := by
  have h' := labelName_ok.2 h
  rw [labelName_ok.2 g] at h'
  cases h'; rfl

theorem each_once {α β : Type} {R : α → β → Prop} (hR : ∀ a b c, R a b → R a c → b = c) {as : List α}
    {bs cs : List β} (h : Each R as bs) (g : Each R as cs) : bs = cs := by
  induction h generalizing cs with
  | nil => cases g; rfl
  | cons a b as bs h1 _ ih =>
    cases g with
    | cons _ c _ cs g1 g2 => rw [hR a b c h1 g1, ih g2]

theorem typed_once {C : Cfg} {pm : Prefix.PrefixMap} (e : SE) (n m : Name) (h : Typed C pm e n)
    (g : Typed C pm e m) : n = m := by
  obtain ⟨nc, d, rfl, hd, hr⟩ := h
  obtain ⟨nc', d', he, hd', hr'⟩ := g
  cases he
  rw [hd] at hd'
  cases hd'
  exact refCalled_once hr hr'

theorem refTo_once {C : Cfg} {pm : Prefix.PrefixMap} (e : SE) (s t : Str) (h : RefTo C pm e s)
    (g : RefTo C pm e t) : s = t := by
  obtain ⟨l, n, rfl, hc, rfl⟩ := h
  obtain ⟨l', n', he, hc', rfl⟩ := g
  cases he
  rw [called_once hc hc']

theorem typed_refTo {C : Cfg} {pm : Prefix.PrefixMap} {es : List SE} {ns : List Name} {ss : List Str}
    (hne : es ≠ []) (h : Each (Typed C pm) es ns) (g : Each (RefTo C pm) es ss) : False := by
  cases h with
  | nil => exact hne rfl
  | cons e n es ns h1 _ =>
    cases g with
    | cons _ s _ ss g1 _ =>
      obtain ⟨nc, d, rfl, _⟩ := h1
      obtain ⟨l, n, he, _⟩ := g1
      cases he

theorem value_once {C : Cfg} {pm : Prefix.PrefixMap} {v : Option SE} {x y : VC ⊕ Target} (h : Value C pm v x)
    (g : Value C pm v y) : x = y := by
  cases h with
  | any => cases g; rfl
  | node nc v h =>
    cases g with
    | node _ w g =>
      have h' := ncVC_ok.2 h
      rw [ncVC_ok.2 g] at h'
      cases h'; rfl
  | orTyped es ns hne h =>
    cases g with
    | orTyped _ ms _ g => rw [each_once typed_once h g]
    | orRefs _ ss g => exact (typed_refTo hne h g).elim
  | andTyped es ns hne h =>
    cases g with
    | andTyped _ ms _ g => rw [each_once typed_once h g]
    | andRefs _ ss g => exact (typed_refTo hne h g).elim
  | ref r n h =>
    cases g with
    | ref _ m g => rw [refCalled_once h g]
  | orRefs es ss h =>
    cases g with
    | orTyped _ ms hne g => exact (typed_refTo hne g h).elim
    | orRefs _ ss g => rw [each_once refTo_once h g]
  | andRefs es ss h =>
    cases g with
    | andTyped _ ms hne g => exact (typed_refTo hne g h).elim
    | andRefs _ ss g => rw [each_once refTo_once h g]
  | notRef e s h =>
    cases g with
    | notRef _ t g => rw [refTo_once e s t h g]

theorem labelled_once {C : Cfg} {pm : Prefix.PrefixMap} {as : List Annot} {n m : Option Str}
    (h : Labelled C pm as n) (g : Labelled C pm as m) : n = m := by
  have h' := getLabel_ok.2 h
  rw [getLabel_ok.2 g] at h'
  cases h'; rfl

theorem shows_once {C : Cfg} {pm : Prefix.PrefixMap} (t : TE) (i j : Item) (h : Shows C pm t i)
    (g : Shows C pm t j) : i = j := by
  cases h with
  | mk id ng iv p v mn mx acts anns label name card value h1 h2 h3 h4 =>
    cases g with
    | mk _ _ _ _ _ _ _ _ _ label' name' card' value' g1 g2 g3 g4 =>
      cases labelled_once h1 g1
      cases refCalled_once h2 g2
      cases value_once h4 g4
      have h' := mkCard_ok.2 h3
      rw [mkCard_ok.2 g3] at h'
      cases h'; rfl

/-- A declaration is read in one way. -/
theorem C138_once (C : Cfg) (pm : Prefix.PrefixMap) (x : Label × SE) (d e : Decl) (h : Declares C pm x d)
    (g : Declares C pm x e) : d = e := by
  cases h with
  | mk l cl ex te acts anns ext name label exts ts items h1 h2 h3 h4 h5 =>
    cases g with
    | mk _ _ _ _ _ _ _ name' label' exts' ts' items' g1 g2 g3 g4 g5 =>
      cases called_once h1 g1
      cases labelled_once h2 g2
      cases each_once (R := Called C pm) (fun _ _ _ a b => called_once a b) h3 g3
      have : ts = ts' := by
        cases h4 <;> cases g4 <;> rfl
      subst this
      cases each_once shows_once h5 g5
      rfl

example : ∃ d, Declares exCfg exMap (.iri (ex "C"), exShape [exTC "v" none none none] (some [.iri (ex "D")])) d :=
  ⟨_, (each_mem_left exDeclared (List.mem_cons_of_mem _ List.mem_cons_self)).choose_spec.2⟩

theorem each_mem_right {α β : Type} {R : α → β → Prop} {as : List α} {bs : List β} (h : Each R as bs) {b : β}
    (hb : b ∈ bs) : ∃ a ∈ as, R a b := by
  induction h with
  | nil => cases hb
  | cons a x as bs h _ ih =>
    rcases List.mem_cons.1 hb with rfl | hb
    · exact ⟨a, List.mem_cons_self, h⟩
    · obtain ⟨c, hc, hr⟩ := ih hb
      exact ⟨c, List.mem_cons_of_mem _ hc, hr⟩

/-- If every shape referred to is declared, both ends of every link are drawn. -/
theorem C138_closed (C : Cfg) (pm : Option Prefix.PrefixMap) (xs : List (Label × SE)) (ds : List Decl) (u : St)
    (h : convert C pm (some xs) = .ok u) (hd : Each (Declares C (pm.getD Prefix.PrefixMap.new)) xs ds)
    (hall : ∀ d ∈ ds, ∀ i ∈ d.items, ∀ t, i.value = .inr t → ∀ s ∈ t.names, ∃ e ∈ ds, e.name.str = s) :
    ∀ l ∈ u.links, (∃ c, u.comp l.src = some c) ∧ ∃ c, u.comp l.dst = some c := by
  obtain ⟨ds', hds', D⟩ := C138_drawn C pm xs u h
  cases each_once (C138_once C (pm.getD Prefix.PrefixMap.new)) hd hds'
  have declared : ∀ s n, (∃ e ∈ ds, e.name.str = s) → u.find (.cls s) = some n → ∃ c, u.comp n = some c := by
    rintro s n ⟨e, he, hs⟩ hn
    have hne : named s ds ≠ [] := by
      intro h0
      have : e ∈ named s ds := List.mem_filter.2 ⟨he, by simp [hs]⟩
      rw [h0] at this; cases this
    obtain ⟨m, c, h1, h2, _⟩ := D.classes s _ (List.getLast?_eq_some_getLast hne)
    rw [hn] at h1
    cases h1
    exact ⟨_, h2⟩
  intro l hl
  obtain ⟨⟨x, hx⟩, _⟩ := D.ends l hl
  cases x with
  | cls s =>
    have hmem : l ∈ u.from l.src := List.mem_filter.2 ⟨hl, by simp⟩
    obtain ⟨a, ha, h1, h2, h3, h4⟩ := each_mem_right (D.links s _ hx) hmem
    obtain ⟨i, hi, hil⟩ := List.mem_filterMap.1 ha
    obtain ⟨d, hdm, hid⟩ := List.mem_flatMap.1 hi
    obtain ⟨hds, hns⟩ := List.mem_filter.1 hdm
    refine ⟨declared s _ ⟨d, hds, of_decide_eq_true hns⟩ hx, ?_⟩
    have hv : i.value = .inr a.2.2 := by
      unfold Item.link at hil
      split at hil
      · cases hil
      · rename_i t ht
        cases hil
        exact ht
    cases ht : a.2.2 with
    | one s' =>
      rw [ht] at h4 hv
      exact declared s' _ (hall d hds i hid _ hv s' List.mem_cons_self) h4
    | group k ss =>
      rw [ht] at h4
      obtain ⟨ids, h5, _⟩ := h4
      exact ⟨_, h5⟩
  | logic k j =>
    obtain ⟨⟨d, hdm, i, hi, ss, hv, ids, h5, h6, h7, h8, h9⟩, _⟩ := D.operators k j _ hx
    refine ⟨⟨_, h5⟩, ?_⟩
    have hmem : l ∈ u.from l.src := List.mem_filter.2 ⟨hl, by simp⟩
    rw [h9] at hmem
    obtain ⟨m, hm, he⟩ := List.mem_map.1 hmem
    obtain ⟨s, hs, hf⟩ := h8 m hm
    have : l.dst = m := by rw [← he]
    rw [this]
    exact declared s m (hall d hdm i hi _ hv s hs) hf

/-- The example with `e:D` declared. -/
example : ∃ u, convert exCfg (some exMap) (some (exSchema ++ [(.iri (ex "D"), exShape [] none)])) = .ok u ∧
    u.links.length = 4 ∧ u.comps.length = 4 := ⟨_, rfl, rfl, rfl⟩

/-- In general a link may end where nothing is drawn: at a shape that is referred to but not declared. -/
theorem C138_closed_refuted : ∃ C pm xs u, convert C pm (some xs) = .ok u ∧
    ∃ l ∈ u.links, u.comp l.dst = none :=
  ⟨exCfg, some exMap, [(.iri (ex "P"), exShape [exTC "w" (some (exRef "C")) none none] none)], _, rfl, _,
    List.mem_cons_self, rfl⟩

/-! ## Cardinalities -/

/-- A cardinality is drawn with its bounds exactly when it is one of the four usual ones, and refused
exactly when it is neither one of them nor an interval of more than one number. -/
theorem C138_cardinality (mn mx : Option Int) :
    (∀ c, mkCard mn mx = .ok c → (c.bounds = written mn mx ↔
      written mn mx ∈ [(1, some 1), (0, none), (0, some 1), ((1 : Int), (none : Option Int))])) ∧
    (mkCard mn mx = .err ↔ written mn mx ∉ [(1, some 1), (0, none), (0, some 1), ((1 : Int), (none : Option Int))] ∧
      ¬ (0 ≤ mn.getD 1 ∧ mn.getD 1 < mx.getD 1)) := by
  constructor
  · intro c hc
    cases mkCard_ok.1 hc with
    | usual _ hu hb =>
      refine ⟨fun _ => ?_, fun _ => hb⟩
      rw [← hb]
      simp only [List.mem_cons, List.not_mem_nil, or_false] at hu
      rcases hu with rfl | rfl | rfl | rfl <;> simp [Card.bounds]
    | other m n h1 h2 h3 h4 h5 =>
      simp only [written, h1, h2, Card.bounds]
      rw [if_neg (by omega)]
      simp only [Prod.mk.injEq, true_and, Option.some.injEq, List.mem_cons, reduceCtorEq, and_false, List.not_mem_nil,
        or_false, false_or]
      omega
  · unfold mkCard
    simp only [written]
    generalize mn.getD 1 = m
    generalize mx.getD 1 = n
    by_cases hn : n = -1
    · subst hn
      by_cases h0 : m = 0
      · subst h0; simp
      · by_cases h1 : m = 1
        · subst h1; simp
        · rw [if_neg (by omega), if_neg (by omega), if_neg (by omega), if_neg (by omega), if_neg (by omega)]
          simp [h0, h1]
    · by_cases h11 : m = 1 ∧ n = 1
      · obtain ⟨rfl, rfl⟩ := h11; simp
      · by_cases h01 : m = 0 ∧ n = 1
        · obtain ⟨rfl, rfl⟩ := h01; simp
        · rw [if_neg h11, if_neg (by omega), if_neg (by omega), if_neg (by omega)]
          by_cases hi : 0 ≤ m ∧ m < n
          · rw [if_pos (by omega)]
            simp [hi]
          · rw [if_neg (by omega)]
            simp [hn, h11, h01]

example : mkCard (some 0) (some (-1)) = .ok .star ∧ mkCard (some 2) (some 2) = .err := ⟨rfl, rfl⟩

/-- Two to three is drawn as exactly two; exactly two and at least two are refused. -/
theorem C138_cardinality_refuted :
    (∃ c, mkCard (some 2) (some 3) = .ok c ∧ c.bounds = (2, some 2)) ∧
      mkCard (some 2) (some 2) = .err ∧ mkCard (some 2) (some (-1)) = .err := ⟨⟨_, rfl, rfl⟩, rfl, rfl⟩

/-- The text of a cardinality on a link: the signs of regular expressions for the four usual ones (exactly
one has none), else numbers. -/
theorem C138_cardinality_text (showInt : Int → Str) (c : Card) :
    (c.bounds = (0, none) → cardText showInt c = ['*']) ∧ (c.bounds = (1, none) → cardText showInt c = ['+']) ∧
    (c = .optional → cardText showInt c = ['?']) ∧ (c = .oneOne → cardText showInt c = [' ']) ∧
    (∀ m n, c = .range m n → cardText showInt c = showInt m ++ ['-'] ++ showInt n) ∧
    ∀ m, c = .fixed m → cardText showInt c = ['{'] ++ showInt m ++ ['}'] := by
  cases c <;> simp [Card.bounds, cardText, chars]

example : (Card.star).bounds = (0, none) ∧ cardText (fun _ => ['7']) .star = ['*'] ∧
    cardText (fun _ => ['7']) (.fixed 7) = "{7}".toList := by decide

/-! ## Neighbours -/

/-- The neighbours written for a class: the components that are the class, extend it or are extended by
it, or are at the other end of a link; the links and the pairs of extension with the class at one end. -/
theorem C138_neighbours (C : Cfg) (pm : Option Prefix.PrefixMap) (xs : List (Label × SE)) (u : St)
    (h : convert C pm (some xs) = .ok u) (s : Str) :
    (u.find (.cls s) = none → neighsOf u s = .err) ∧
    ∀ n, u.find (.cls s) = some n → ∃ cs ls es, neighsOf u s = .ok (cs, ls, es) ∧
      (∀ m c, (m, c) ∈ cs ↔ (m, c) ∈ u.comps ∧ (m = n ∨ (m, n) ∈ u.exts ∨ (n, m) ∈ u.exts ∨
        ∃ l ∈ u.links, (l.src = n ∧ l.dst = m) ∨ (l.src = m ∧ l.dst = n))) ∧
      ls = u.links.filter (fun l => l.src = n ∨ l.dst = n) ∧
      es = u.exts.filter (fun e => e.1 = n ∨ e.2 = n) := by
  have hwf : u.WF := by
    obtain ⟨ds, hds⟩ := convertAll_ok h
    obtain ⟨v, hv, hi⟩ := convertAll_of hds inv_init
    have h' : convertAll C (pm.getD Prefix.PrefixMap.new) ((some xs).getD []) .init = .ok u := h
    rw [hv] at h'
    cases h'
    exact hi.wf
  constructor
  · intro hf
    simp only [neighsOf, hf]
  · intro n hn
    refine ⟨_, _, _, by simp only [neighsOf, hn]; rfl, ?_, ?_, ?_⟩
    · intro m c
      simp only [List.mem_filter, neighComp, Bool.or_eq_true, beq_iff_eq, decide_eq_true_eq, hwf.out, hwf.inc]
      refine and_congr_right fun _ => ?_
      constructor
      · rintro ((((h | h) | h) | ⟨l, hl, h⟩) | ⟨l, hl, h⟩)
        · exact .inl h
        · exact .inr (.inl h)
        · exact .inr (.inr (.inl h))
        · exact .inr (.inr (.inr ⟨l, hl, .inl h⟩))
        · exact .inr (.inr (.inr ⟨l, hl, .inr h⟩))
      · rintro (h | h | h | ⟨l, hl, h | h⟩)
        · exact .inl (.inl (.inl (.inl h)))
        · exact .inl (.inl (.inl (.inr h)))
        · exact .inl (.inl (.inr h))
        · exact .inl (.inr ⟨l, hl, h⟩)
        · exact .inr ⟨l, hl, h⟩
    · refine List.filter_congr fun l _ => ?_
      rw [Bool.decide_or]; rfl
    · refine List.filter_congr fun l _ => ?_
      rw [Bool.decide_or]; rfl

/-- The class `e:C` of the example is at the end of a link of `e:P` and a member of the operator. -/
example : ∃ u cs ls es, convert exCfg (some exMap) (some exSchema) = .ok u ∧
    neighsOf u (chars "e:C") = .ok (cs, ls, es) ∧ cs.map Prod.fst = [4, 1, 2] ∧ ls.length = 2 ∧ es = [(2, 3)] :=
  ⟨_, _, _, _, rfl, rfl, rfl, rfl, rfl⟩

/-! ## What is not drawn -/

/-- A schema of one shape. -/
def exOne (ts : List TE) : List (Label × SE) := [(.iri (ex "P"), exShape ts none)]

/-- The negation of a datatype is refused, though disjunctions and conjunctions of datatypes are not. -/
theorem C138_not_refuted :
    convert exCfg (some exMap) (some (exOne [exTC "p" (some (.not (.nc { datatype := some (ex "d") }))) none none])) = .err ∧
    (∃ u, convert exCfg (some exMap)
      (some (exOne [exTC "p" (some (.or [.nc { datatype := some (ex "d") }])) none none])) = .ok u) ∧
    ∃ u, convert exCfg (some exMap)
      (some (exOne [exTC "p" (some (.and [.nc { datatype := some (ex "d") }])) none none])) = .ok u :=
  ⟨rfl, ⟨_, rfl⟩, ⟨_, rfl⟩⟩

/-- A choice, a group in a group and an included expression are panics, and so is an annotation that is a
label and has an IRI as value. -/
theorem C138_group_refuted (ts : List TE) (l : TLabel) (i : IriRef) :
    convert exCfg (some exMap) (some [(.iri (ex "P"), .shape none none (some (.one none ts none none none none)) none none none)]) = .panic ∧
    convert exCfg (some exMap) (some (exOne [.each none ts none none none none])) = .panic ∧
    convert exCfg (some exMap) (some (exOne [.ref l])) = .panic ∧
    convert exCfg (some exMap) (some (exOne [.tc none none none (ex "p") none none none none
      (some [⟨.iri (chars "http://l"), .iri i⟩])])) = .panic := ⟨rfl, rfl, rfl, rfl⟩

/-- The direction and the sign of a triple constraint, the bounds of a group, the facets of datatypes in a
disjunction, and `CLOSED` and `EXTRA` leave no trace: there are schemas that differ in them and have the
same diagram. -/
theorem C138_lost_refuted :
    (∃ u, convert exCfg (some exMap) (some (exOne [exTC "p" none none none])) = .ok u ∧
      convert exCfg (some exMap) (some (exOne [.tc none (some true) (some true) (ex "p") none none none none none])) = .ok u ∧
      convert exCfg (some exMap) (some [(.iri (ex "P"), .shape (some true) (some [ex "q"])
        (some (.each none [exTC "p" none none none] (some 0) (some 1) none none)) none none none)]) = .ok u) ∧
    ∃ u, convert exCfg (some exMap) (some (exOne [exTC "p" (some (.or [.nc { datatype := some (ex "d") }])) none none])) = .ok u ∧
      convert exCfg (some exMap) (some (exOne [exTC "p"
        (some (.or [.nc { datatype := some (ex "d"), facets := some [.length 3] }])) none none])) = .ok u :=
  ⟨⟨_, rfl, rfl, rfl⟩, ⟨_, rfl, rfl⟩⟩

/-- A shape declared twice has the entries of the last declaration and the links of both. -/
theorem C138_redeclared_refuted : ∃ u n c, convert exCfg (some exMap)
    (some (exOne [exTC "p" none none none, exTC "q" (some (exRef "P")) none none] ++ exOne [exTC "r" none none none])) = .ok u ∧
    u.find (.cls (chars "e:P")) = some n ∧ u.comp n = some (.cls c) ∧
    c.entries.map Entry.name = [exName "r"] ∧ (u.from n).map Link.name = [exName "q"] :=
  ⟨_, _, _, rfl, rfl, rfl, rfl, rfl⟩

/-- A shape whose namespace has two prefixes may be drawn twice: declared under one name and referred to
under the other, the link ends where nothing is drawn. -/
theorem C138_alias_refuted : ∃ u l, convert exCfg
    (some ⟨[(chars "e", chars "http://e/"), (chars "f", chars "http://e/")], false⟩)
    (some [(.iri (ex "P"), exShape [exTC "q" (some (.ref (.iri (.prefixed (chars "f") (chars "P"))))) none none] none)]) = .ok u ∧
    u.labels.map Prod.fst = [.cls (chars "e:P"), .cls (chars "f:P")] ∧ u.links = [l] ∧ u.comp l.dst = none :=
  ⟨_, _, rfl, rfl, rfl, rfl⟩

/-- A converter that is used again keeps what it has: the second diagram is the one of both schemas. -/
theorem C138_again (C : Cfg) (pm : Prefix.PrefixMap) (xs ys : List (Label × SE)) (u : St) :
    convertAll C pm (xs ++ ys) u = (convertAll C pm xs u).bind (convertAll C pm ys) := by
  induction xs generalizing u with
  | nil => rfl
  | cons x xs ih =>
    simp only [List.cons_append, convertAll]
    cases labelName C pm x.1 with
    | err => rfl
    | panic => rfl
    | ok name =>
      simp only [Out.bind]
      cases shapeComp C pm name (u.node (.cls name.str)).1 (u.node (.cls name.str)).2.2 x.2 with
      | err => rfl
      | panic => rfl
      | ok r =>
        have := ih (r.2.setComp (u.node (.cls name.str)).1 r.1)
        simp only [Out.bind] at this ⊢
        exact this

example : ∃ u v, convertAll exCfg exMap exSchema .init = .ok u ∧
    convertAll exCfg exMap (exOne [exTC "z" none none none]) u = .ok v ∧ v.comps.length = u.comps.length :=
  ⟨_, _, rfl, rfl, rfl⟩

end Uml
