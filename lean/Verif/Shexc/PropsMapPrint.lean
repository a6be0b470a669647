import Verif.Shexc.MapPrint
import Verif.Shexc.SpecMapPrint
import Verif.Shexc.PropsMap
import Verif.Shexc.PropsPrint

/-!
# Properties of the printer of shape maps

C111: which shape maps are read back as they were, and on which the printer panics.
-/

namespace Shexc

open P Spec

/-! ## Lemmas -/

variable {X : Ext} {I : Iris} {N S : Str → Prop} {m : Prefix.PrefixMap}

theorem mspace : Gap false [' '] := .space (.inl rfl) .nil

/-- A word with a gap after it. -/
theorem mword {t : MTok} {ts : List MTok} {v g r : Str} (ht : MText X.lang t v) (hg : Gap false g) (hs : g ≠ [] ∨
    ∀ c ∈ r.head?, ¬ msticks t c) (h : MSp X ts r) : MSp X (t :: ts) (v ++ (g ++ r)) :=
  .cons ht hg (fun e => hs.resolve_left (fun h => h e)) h

theorem at_not_sticks {t : MTok} (h : ∀ s, t ≠ .lit (.str s)) : ¬ msticks t '@' := by
  unfold msticks
  split
  · exact id
  · exact id
  · exact id
  · exact absurd rfl (h _)
  · decide
  · decide

/-- How a pattern is written: one word. -/
theorem ppat (hN : Names N m) {o : Pat} (h : PPat N o) :
    ∃ t v, PatT .name (o.rename (shown m)) [t] ∧ Pp.pat id m o = some v ∧ MText X.lang t v := by
  cases h with
  | iri h => exact ⟨_, _, .name _, rfl, .name (hN _ h).ref⟩
  | wildcard => exact ⟨_, _, .wildcard, rfl, .sym (by decide)⟩
  | str h => exact ⟨_, _, .lit _, rfl, .lit (.base (.str h))⟩

theorem qualify_noFocus {base : Option Str} (hb : Prefix.Built m) (hh : m.hyperlink = false) (hf : NoFocus m) {i : Str}
    (h : Readable I base m i) : ¬ "focus".toList <+: (m.qualify i).map Char.toLower := by
  have hnd := Prefix.built_nodup hb
  unfold Prefix.PrefixMap.qualify Prefix.PrefixMap.qualifyOptional
  cases hl : m.longestMatch i with
  | none =>
    simp only [Option.map_none, Option.getD_none]
    rintro ⟨t, e⟩
    simp at e
  | some e =>
    obtain ⟨al, rest⟩ := e
    obtain ⟨ns, h1, h2⟩ := Prefix.longestMatch_some hnd hl
    have hn := hf al ns h1.1
    intro h
    have h' : "focus".toList <+: al.map Char.toLower ++ ':' :: rest.map Char.toLower := by
      simpa [hh, Prefix.PrefixMap.format, show Char.toLower ':' = ':' by decide] using h
    rcases List.prefix_or_prefix_of_prefix h' (List.prefix_append _ _) with h3 | ⟨k, h3⟩
    · exact hn h3
    · rw [← h3, List.prefix_append_right_inj] at h'
      cases k with
      | nil => exact hn (by rw [← h3, List.append_nil])
      | cons c k =>
        have hc : c = ':' := by
          obtain ⟨t, e⟩ := h'
          injection e
        have : ':' ∈ "focus".toList := by rw [← h3, ← hc]; simp
        revert this
        decide

theorem ppat_subj (hN : Names N m) (hF : ∀ i, N i → ¬ "focus".toList <+: (m.qualify i).map Char.toLower) {o : Pat}
    (h : PPat N o) :
    ∃ t v, PatT .subj (o.rename (shown m)) [t] ∧ Pp.pat id m o = some v ∧ MText X.lang t v := by
  cases h with
  | iri h => exact ⟨_, _, .name _, rfl, .subj (hN _ h).ref (hF _ h)⟩
  | wildcard => exact ⟨_, _, .wildcard, rfl, .sym (by decide)⟩
  | str h => exact ⟨_, _, .lit _, rfl, .lit (.base (.str h))⟩

/-- What is written as some words, before an `@`, a gap or the end. -/
def MW (X : Ext) (d : Str) (ts : List MTok) : Prop :=
  ∀ us g r, Gap false g → (g = [] → ∀ c ∈ r.head?, c = '@') → MSp X us r → MSp X (ts ++ us) (d ++ (g ++ r))

theorem MW.word {t : MTok} {v : Str} (ht : MText X.lang t v) (h : ¬ msticks t '@') : MW X v [t] :=
  fun _ _ _ hg hs hr => .cons ht hg (fun e c hc => hs e c hc ▸ h) hr

theorem psel (hN : Names N m) (hF : ∀ i, N i → ¬ "focus".toList <+: (m.qualify i).map Char.toLower) {s : Sel}
    (h : PSel N s) : ∃ ts v, SelT (s.rename (shown m)) ts ∧ Pp.sel id m s = some v ∧ MW X v ts := by
  cases h with
  | iri h =>
    exact ⟨_, _, .name _, rfl, .word (.name (hN _ h).ref) (at_not_sticks (by simp))⟩
  | bnode h => exact ⟨_, _, .bnode _, rfl, .word (.bnode h) (at_not_sticks (by simp))⟩
  | @object p o hp ho =>
    obtain ⟨t, v, h1, h2, h3⟩ := ppat (X := X) hN ho
    refine ⟨_, _, .object (.name _) h1, by rw [Pp.sel, h2]; rfl, ?_⟩
    intro us g r hg hs hr
    have := mword (X := X) (t := .sym '{') (.sym (by decide)) mspace (.inl (by simp))
      (mword (t := .kw "FOCUS") (v := "FOCUS".toList) (.kw (by decide) rfl) mspace (.inl (by simp))
      (mword (.name (hN _ hp).ref) mspace (.inl (by simp))
      (mword h3 mspace (.inl (by simp))
      (MW.word (X := X) (t := .sym '}') (.sym (by decide)) id us g r hg hs hr))))
    simpa [Pp.nameText] using this
  | @subject s p hs hp =>
    obtain ⟨t, v, h1, h2, h3⟩ := ppat_subj (X := X) hN hF hs
    refine ⟨_, _, .subject h1 (.name _), by rw [Pp.sel, h2]; rfl, ?_⟩
    intro us g r hg hs hr
    have := mword (X := X) (t := .sym '{') (.sym (by decide)) mspace (.inl (by simp))
      (mword h3 mspace (.inl (by simp))
      (mword (.name (hN _ hp).ref) mspace (.inl (by simp))
      (mword (t := .kw "FOCUS") (v := "FOCUS".toList) (.kw (by decide) rfl) mspace (.inl (by simp))
      (MW.word (X := X) (t := .sym '}') (.sym (by decide)) id us g r hg hs hr))))
    simpa [Pp.nameText] using this
  | @sparql q h =>
    refine ⟨_, _, .sparql q, rfl, ?_⟩
    intro us g r hg hs hr
    have := mword (X := X) (t := .kw "SPARQL") (v := "SPARQL".toList) (.kw (by decide) rfl) mspace (.inl (by simp))
      (MW.word (X := X) (t := .str q) (.str h) (at_not_sticks (by simp)) us g r hg hs hr)
    simpa using this

theorem pshape (hS : Names S m) {s : ShapeSel} (h : PShapeSel S s) :
    ∃ ts, ShapeT (s.rename (shown m)) ts ∧ MW X (Pp.shapeSel m s) ts := by
  cases h with
  | label h =>
    cases h with
    | iri h => exact ⟨_, .name _, .word (.name (hS _ h).ref) (at_not_sticks (by simp))⟩
    | bnode h => exact ⟨_, .bnode _, .word (.bnode h) (at_not_sticks (by simp))⟩
  | start => exact ⟨_, .start, .word (.kw (by decide) rfl) (at_not_sticks (by simp))⟩

theorem passoc {nodes shapes : Prefix.PrefixMap} (hN : Names N nodes)
    (hF : ∀ i, N i → ¬ "focus".toList <+: (nodes.qualify i).map Char.toLower) (hS : Names S shapes) {a : Assoc}
    (h : PAssoc N S a) :
    ∃ ts v, AssocT ⟨a.node.rename (shown nodes), a.shape.rename (shown shapes)⟩ ts ∧
      Pp.assoc id nodes shapes a = some v ∧ MW X v ts := by
  obtain ⟨ns, v, h1, h2, h3⟩ := psel (X := X) hN hF h.node
  obtain ⟨ss, h4, h5⟩ := pshape (X := X) hS h.shape
  refine ⟨_, v ++ '@' :: Pp.shapeSel shapes a.shape, .mk h1 h4, by rw [Pp.assoc, h2]; rfl, ?_⟩
  intro us g r hg hs hr
  have := h3 (.sym '@' :: (ss ++ us)) [] _ .nil (fun _ c hc => by cases hc; rfl)
    (mword (v := ['@']) (g := []) (.sym (by decide)) .nil (.inr fun _ _ => id) (h5 us g r hg hs hr))
  simpa using this

/-- The names that are written are resolved to what they were. -/
theorem sel_back {E : Env} (hB : Back N m I E) {s : Sel} (h : PSel N s) : (s.rename (shown m)).deref I E = some s := by
  have hp : ∀ {o : Pat}, PPat N o → (o.rename (shown m)).deref I E = some o := by
    intro o h
    cases h with
    | iri h => simp [Pat.rename, ObjVal.rename, Pat.deref, ObjVal.deref, hB _ h]
    | wildcard => rfl
    | str h => rfl
  cases h with
  | iri h => simp [Sel.rename, ObjVal.rename, Sel.deref, ObjVal.deref, hB _ h]
  | bnode h => rfl
  | object h1 h2 =>
    rw [Sel.rename, Sel.deref, hp h2]
    simp [PathRef.rename, PathRef.deref, hB _ h1, Pat.rename, Pat.deref]
  | subject h1 h2 =>
    rw [Sel.rename, Sel.deref, hp h1]
    simp [PathRef.rename, PathRef.deref, hB _ h2, Pat.rename, Pat.deref]
  | sparql h => rfl

theorem shape_back {E : Env} (hB : Back S m I E) {s : ShapeSel} (h : PShapeSel S s) :
    (s.rename (shown m)).deref I E = some s := by
  cases h with
  | label h =>
    cases h with
    | iri h => simp [ShapeSel.rename, Label.rename, ShapeSel.deref, Label.deref, hB _ h]
    | bnode h => rfl
  | start => rfl

theorem sel_head {s : Sel} {ts : List MTok} (h : SelT s ts) (us : List MTok) :
    ts ++ us ≠ [] ∧ ∀ t ∈ (ts ++ us).head?, ¬ mheads t ',' := by
  cases h <;> refine ⟨by simp, fun t ht => ?_⟩ <;> cases ht <;> simp [mheads] <;> decide

theorem assoc_head {a : Assoc} {ts : List MTok} (h : AssocT a ts) (us : List MTok) :
    ts ++ us ≠ [] ∧ ∀ t ∈ (ts ++ us).head?, ¬ mheads t ',' := by
  cases h with
  | mk hn hs => rw [List.append_assoc]; exact sel_head hn _

theorem passocs {nodes shapes : Prefix.PrefixMap} (hN : Names N nodes)
    (hF : ∀ i, N i → ¬ "focus".toList <+: (nodes.qualify i).map Char.toLower) (hS : Names S shapes) :
    ∀ {as : List Assoc}, (∀ a ∈ as, PAssoc N S a) → ∃ ts v, Pp.assocs id nodes shapes as = some v ∧ MSp X ts v ∧
      (as ≠ [] → ts ≠ []) ∧ ∀ t ∈ ts.head?, ¬ mheads t ',' := by
  intro as
  induction as with
  | nil => intro _; exact ⟨[], [], rfl, .nil, by simp, by simp⟩
  | cons a as ih =>
    intro h
    obtain ⟨ts, v, h1, h2, h3⟩ := passoc (X := X) hN hF hS (h a (by simp))
    obtain ⟨us, r, h4, h5, -, -⟩ := ih fun b hb => h b (by simp [hb])
    have hd := assoc_head h1
    cases as with
    | nil =>
      refine ⟨ts ++ [], v, h2, ?_, fun _ => (hd []).1, (hd []).2⟩
      simpa using h3 [] [] [] .nil (by simp) .nil
    | cons b as =>
      refine ⟨ts ++ us, v ++ '\n' :: r, by rw [Pp.assocs, h2, h4]; rfl; simp, ?_, fun _ => (hd us).1, (hd us).2⟩
      simpa using h3 us ['\n'] r (.space (by unfold space; decide) .nil) (by simp) h5

/-- The reader stops after an association that no comma follows. -/
theorem no_comma {a : Assoc} {as ts : List MTok} {w : Str} (ha : AssocT a as) (h : MSp X (as ++ ts) w) (ht : ts ≠ [])
    (hr : ∀ t ∈ ts.head?, ¬ mheads t ',') :
    ∃ c r, mapStatement X w = .ok [a] (c :: r) := by
  obtain ⟨u, e1, h1, -⟩ := massoc ha h
  obtain ⟨u', e2, h2, -⟩ := mtws0_at h1
  have ho : Off (· = ',') u' := msp_off h2 fun t ht' c hc' e => hr t ht' (e ▸ hc')
  have e3 : nextAssociation X u' = .err :=
    bind_err (tokenTws_err (g := []) (b := false) .nil (msp_noGap h2) ho)
  have e4 : char ',' u' = .err := char_err ho
  have e5 : mapStatement X w = .ok [a] u' := by
    unfold mapStatement
    rw [bind_ok e1, bind_ok e2, bind_ok (many0_steps .nil e3), bind_ok (mtws0_sp h2), bind_ok (opt_none e4),
      bind_ok (mtws0_sp h2)]
    rfl
  cases u' with
  | cons c r => exact ⟨c, r, e5⟩
  | nil =>
    cases ts with
    | nil => exact absurd rfl ht
    | cons t ts =>
      obtain ⟨v, u, e, h3, -, -, -⟩ := msp_tok h2
      obtain ⟨c, t', rfl, -⟩ := mtext_head h3
      cases e

/-! ## Properties -/

/-- **C111** (partial: one association; with more the text is refused, see `C111_many_refused`): a shape map with one
association whose names, strings and queries have nothing to be escaped is printed, and the text is read back to the
same shape map, if the prefixes are the same. -/
theorem C111_roundtrip_partial (X : Ext) (I : Iris) (V : MapEnv) (a : Assoc) (nodes shapes : Prefix.PrefixMap)
    (hn : V.nodesPm.getD .new = nodes) (hs : V.shapesPm.getD .new = shapes)
    (hbn : Prefix.Built nodes) (hbs : Prefix.Built shapes) (hpn : nodes.hyperlink = false)
    (hps : shapes.hyperlink = false) (hf : NoFocus nodes)
    (h : PAssoc (Readable I V.baseNodes nodes) (Readable I V.baseShapes shapes) a) :
    ∃ w, printMap id ⟨[a], nodes, shapes⟩ = some w ∧ parseMap X I V w = .ok ⟨[a], nodes, shapes⟩ := by
  obtain ⟨ts, v, h1, h2, h3⟩ := passoc (X := X) (names_readable hbn hpn)
    (fun i hi => qualify_noFocus hbn hpn hf hi) (names_readable hbs hps) h
  refine ⟨v, h2, ?_⟩
  have ht : MapText X.lang [⟨a.node.rename (shown nodes), a.shape.rename (shown shapes)⟩] v :=
    ⟨ts, [], v, .one h1, .nil, by simpa using h3 [] [] [] .nil (by simp) .nil, rfl⟩
  rw [parseMap_read I V ht]
  have e1 := sel_back (back_readable (I := I) (E := ⟨V.baseNodes, some nodes⟩) hbn (.inl rfl)) h.node
  have e2 := shape_back (back_readable (I := I) (E := ⟨V.baseShapes, some shapes⟩) hbs (.inl rfl)) h.shape
  subst hn hs
  simp only [ShapeMap.adds, ShapeMap.add, Assoc.make, MapEnv.empty, e1, e2, Option.bind_eq_bind, Option.bind_some,
    Option.pure_def, List.nil_append]

/-- **C111**: a shape map with two associations or more, each of which could be read back alone, is printed, but the
text is refused: the printer writes a line break where the reader wants a comma. -/
theorem C111_many_refused (X : Ext) (I : Iris) (V : MapEnv) (a b : Assoc) (as : List Assoc)
    (nodes shapes : Prefix.PrefixMap) (hbn : Prefix.Built nodes) (hbs : Prefix.Built shapes)
    (hpn : nodes.hyperlink = false) (hps : shapes.hyperlink = false) (hf : NoFocus nodes)
    (h : ∀ x ∈ a :: b :: as, PAssoc (Readable I V.baseNodes nodes) (Readable I V.baseShapes shapes) x) :
    ∃ w, printMap id ⟨a :: b :: as, nodes, shapes⟩ = some w ∧ parseMap X I V w = .error := by
  have hN := names_readable hbn hpn (I := I) (base := V.baseNodes)
  have hF := fun i (hi : Readable I V.baseNodes nodes i) => qualify_noFocus hbn hpn hf hi
  have hS := names_readable hbs hps (I := I) (base := V.baseShapes)
  obtain ⟨ts, v, h1, h2, h3⟩ := passoc (X := X) hN hF hS (h a (by simp))
  obtain ⟨us, r, h4, h5, h6, h7⟩ := passocs (X := X) hN hF hS (as := b :: as) fun x hx => h x (by simp at hx ⊢; tauto)
  refine ⟨v ++ '\n' :: r, by rw [printMap, Pp.assocs, h2, h4]; rfl; simp, ?_⟩
  have h8 : MSp X (ts ++ us) (v ++ '\n' :: r) := by
    simpa using h3 us ['\n'] r (.space (by unfold space; decide) .nil) (by simp) h5
  obtain ⟨c, u, e⟩ := no_comma h1 h8 (h6 (by simp)) h7
  unfold parseMap
  rw [show skip (v ++ '\n' :: r) = v ++ '\n' :: r from skip_mat (g := []) .nil h8, e]

theorem pat_none (paint : Str → Str) (m : Prefix.PrefixMap) (o : Pat) : Pp.pat paint m o = none ↔ OddPat o := by
  constructor
  · intro h
    cases o with
    | node o =>
      cases o with
      | iri r => cases h
      | lit l => cases l <;> first | cases h; done | constructor
    | wildcard => cases h
    | focus => cases h
  · rintro (_ | _ | _) <;> rfl

theorem sel_none (paint : Str → Str) (m : Prefix.PrefixMap) (s : Sel) : Pp.sel paint m s = none ↔ OddSel s := by
  cases s with
  | node o =>
    cases o with
    | iri r => exact ⟨nofun, nofun⟩
    | lit l =>
      cases l with
      | num n => exact ⟨nofun, fun h => by cases h with | lit h => exact absurd rfl (h n)⟩
      | _ => exact ⟨fun _ => .lit (by simp), fun _ => rfl⟩
  | bnode b => exact ⟨nofun, nofun⟩
  | triple s p o =>
    have hp : Pp.path m p = none ↔ ∀ r, p ≠ .pred r := by cases p <;> simp [Pp.path]
    have hs := pat_none paint m s
    have ho := pat_none paint m o
    constructor
    · intro h
      cases e1 : Pp.pat paint m s with
      | none => exact .subject (hs.1 e1)
      | some v1 =>
        cases e2 : Pp.path m p with
        | none => exact .path (hp.1 e2)
        | some v2 =>
          cases e3 : Pp.pat paint m o with
          | none => exact .object (ho.1 e3)
          | some v3 =>
            rw [Pp.sel, e1, e2, e3] at h
            cases h
    · intro h
      rw [Pp.sel]
      cases h with
      | subject h => rw [hs.2 h]; rfl
      | object h => rw [ho.2 h]; cases Pp.pat paint m s <;> cases Pp.path m p <;> rfl
      | path h => rw [hp.2 h]; cases Pp.pat paint m s <;> rfl
  | sparql q => exact ⟨nofun, nofun⟩
  | generic i p => exact ⟨fun _ => .generic _ _, fun _ => rfl⟩

/-- **C111**: the printer panics just on the shape maps that have a selector of nodes that it has no text for. -/
theorem C111_panics (paint : Str → Str) (M : ShapeMap) : printMap paint M = none ↔ ∃ a ∈ M.assocs, OddSel a.node := by
  have h1 : ∀ a, Pp.assoc paint M.nodesPm M.shapesPm a = none ↔ OddSel a.node := by
    intro a
    rw [← sel_none paint M.nodesPm, Pp.assoc]
    cases Pp.sel paint M.nodesPm a.node <;> simp
  unfold printMap
  induction M.assocs with
  | nil => simp [Pp.assocs]
  | cons a as ih =>
    cases as with
    | nil => simpa [Pp.assocs] using h1 a
    | cons b as =>
      rw [Pp.assocs, show (∃ x ∈ a :: b :: as, OddSel x.node) ↔ OddSel a.node ∨ ∃ x ∈ b :: as, OddSel x.node by
        simp]
      rw [← propext ih, ← h1]
      · cases Pp.assoc paint M.nodesPm M.shapesPm a <;> cases Pp.assocs paint M.nodesPm M.shapesPm (b :: as) <;> simp
      · simp

/-! ## What is lost -/

/-- What becomes of a text that is read, printed and read again: the SPARQL queries before and after, or `none`, if
what was printed is refused. -/
inductive Again where
  | read (before after : List Str)
  | refused (printed : Str)
  | panic
  | wrong
deriving DecidableEq

/-- The SPARQL queries of a shape map. -/
def ShapeMap.queries (M : ShapeMap) : List Str :=
  M.assocs.filterMap fun a => match a.node with | .sparql q => some q | _ => none

/-- A text is read, printed and read again, without prefixes. -/
def again (paint : Str → Str) (w : Str) : Again :=
  match parseMap tagExt anyIris {} w with
  | .ok M =>
    match printMap paint M with
    | some v =>
      match parseMap tagExt anyIris {} v with
      | .ok M' => .read M.queries M'.queries
      | .error => .refused v
      | _ => .wrong
    | none => .panic
  | _ => .wrong

/-- What `colored` makes of a text in red. -/
def red (s : Str) : Str := '\x1b' :: "[31m".toList ++ s ++ '\x1b' :: "[0m".toList

/-- **C111** (the full statement, that shape maps that were read are printed and read back, is false): with two
associations the text is refused; strings are printed in colours that were switched off, and then the text is refused;
strings and queries are not escaped, so that the text is refused or stands for another query; and the printer panics on
literals. -/
theorem C111_refuted :
    again id "<a>@<b>,<c>@START".toList = .refused "<a>@<b>\n<c>@START".toList ∧
    again red "{ FOCUS <p> \"a\" }@START".toList =
      .refused ("{ FOCUS <p> ".toList ++ red "\"a\"".toList ++ " }@START".toList) ∧
    again id "{ FOCUS <p> 'a\"b' }@START".toList = .refused "{ FOCUS <p> \"a\"b\" }@START".toList ∧
    again id "SPARQL \"'''\"@START".toList = .refused "SPARQL '''''''''@START".toList ∧
    again id "SPARQL \"a\\\\nb\"@START".toList = .read ["a\\nb".toList] ["a\nb".toList] ∧
    again id "42@START".toList = .panic ∧ again id "{ FOCUS <p> true }@START".toList = .panic ∧
    again id "\"x\" @START".toList = .panic := by
  refine ⟨?_, ?_, ?_, ?_, ?_, ?_, ?_, ?_⟩ <;> decide +kernel

/-! ## Examples -/

theorem sample_assoc (o : Pat) (ho : PPat (Readable anyIris none .new) o) :
    PAssoc (Readable anyIris none .new) (Readable anyIris none .new)
      ⟨.triple .focus (.pred (.iri "x:p".toList)) o, .label (.iri (.iri "x:S".toList))⟩ :=
  ⟨.object (readable_new (iriChars (by decide))) ho, .label (.iri (readable_new (iriChars (by decide))))⟩

theorem sample_str : PPat (Readable anyIris none .new) (.node (.lit (.str "a".toList))) :=
  .str (.double (.cons (w := ['a']) (.plain (by decide) (by decide)) .nil))

/-- `{ FOCUS x:p "a" }@<x:S>`. -/
example : ∃ w, printMap id ⟨[⟨.triple .focus (.pred (.iri "x:p".toList)) (.node (.lit (.str "a".toList))),
      .label (.iri (.iri "x:S".toList))⟩], .new, .new⟩ = some w ∧ parseMap noExt anyIris {} w =
    .ok ⟨[⟨.triple .focus (.pred (.iri "x:p".toList)) (.node (.lit (.str "a".toList))),
      .label (.iri (.iri "x:S".toList))⟩], .new, .new⟩ :=
  C111_roundtrip_partial noExt anyIris {} _ .new .new rfl rfl .new .new rfl rfl (fun _ _ h => by cases h)
    (sample_assoc _ sample_str)

example : ∃ w, printMap id ⟨[⟨.triple .focus (.pred (.iri "x:p".toList)) .wildcard, .label (.iri (.iri "x:S".toList))⟩,
      ⟨.sparql "q".toList, .start⟩], .new, .new⟩ = some w ∧ parseMap noExt anyIris {} w = .error := by
  refine C111_many_refused noExt anyIris {} _ _ [] .new .new .new .new rfl rfl (fun _ _ h => by cases h) ?_
  intro x hx
  simp only [List.mem_cons, List.not_mem_nil, or_false] at hx
  rcases hx with rfl | rfl
  · exact sample_assoc _ .wildcard
  · exact ⟨.sparql (.longSingle (.cons (w := ['q']) (.plain (by decide) (by decide)) .nil)), .start⟩

example : printMap id ⟨[⟨.node (.lit (.bool true)), .start⟩], .new, .new⟩ = none :=
  (C111_panics _ _).2 ⟨_, List.mem_singleton.2 rfl, .lit (fun _ h => by cases h)⟩

end Shexc
