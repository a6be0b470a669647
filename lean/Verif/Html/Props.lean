import Verif.Html.Lemmas
import Verif.Uml.Props

/-!
# Properties: HTML pages of schemas (C144)
-/

namespace Html
open Rbe Shexc
open Uml (Out Cfg Name Card RefCalled Labelled Shown Each Constraints exCfg exMap ex exName exTC exShape exRef chars)

/-! ## Examples -/

/-- The schema `e:P { e:n e:str; e:w @e:C * }  e:C extends e:D { e:v . } // label "see"`. -/
def exSchema : List (Label × SE) :=
  [(.iri (ex "P"), exShape [exTC "n" (some (.nc { datatype := some (ex "str") })) none none,
      exTC "w" (some (exRef "C")) (some 0) (some (-1))] none),
    (.iri (ex "C"), .shape none none (some (exTC "v" none none none)) none
      (some [⟨.iri (chars "http://l"), .lit (.str (chars "see"))⟩]) (some [.iri (ex "D")]))]

/-- What is declared in it. -/
def exDecls : List Decl :=
  [⟨exName "P", [], [⟨exName "n", .datatype (exName "str"), .oneOne⟩, ⟨exName "w", .ref (exName "C"), .star⟩]⟩,
    ⟨{ exName "C" with label := some (chars "see") }, [exName "D"], [⟨exName "v", .any, .oneOne⟩]⟩]

/-- The schema has a name. -/
def exParent : Name := ⟨chars "schema", none, none⟩

/-- What it declares is what the specification reads. -/
theorem exDeclared : Each (Declares exCfg (plain (some exMap))) exSchema exDecls := by
  refine .cons _ _ _ _ (.mk _ _ _ _ _ _ _ (exName "P") none [] _ _ (labelName_ok.1 rfl) (Uml.getLabel_ok.1 rfl) .nil
    (.each _ _ _ _ _ _) ?_) (.cons _ _ _ _ (.mk _ _ _ _ _ _ _ (exName "C") (some (chars "see")) [exName "D"] _ _
      (labelName_ok.1 rfl) (Uml.getLabel_ok.1 rfl) (.cons _ _ _ _ (labelName_ok.1 rfl) .nil)
      (.one _ _ _ _ _ _ _ _ _) ?_) .nil)
  · exact .cons _ _ _ _ (.mk _ _ _ _ _ _ _ _ _ none _ _ _ (Uml.getLabel_ok.1 rfl) (iriName_ok.1 rfl) (mkCard_ok.1 rfl)
      (.typed _ _ _ rfl (iriName_ok.1 rfl))) (.cons _ _ _ _ (.mk _ _ _ _ _ _ _ _ _ none _ _ _ (Uml.getLabel_ok.1 rfl)
        (iriName_ok.1 rfl) (mkCard_ok.1 rfl) (.ref _ (exName "C") (iriName_ok.1 rfl))) .nil)
  · exact .cons _ _ _ _ (.mk _ _ _ _ _ _ _ _ _ none _ _ _ (Uml.getLabel_ok.1 rfl) (iriName_ok.1 rfl) (mkCard_ok.1 rfl)
      .any) .nil

/-! ## The pages -/

/-- A schema is converted exactly when each of its declarations can be read by itself. -/
theorem C144_made (C : Cfg) (pm : Option Prefix.PrefixMap) (parent : Name) (xs : List (Label × SE)) :
    (∃ u, convert C pm parent (some xs) = .ok u) ↔ ∀ x ∈ xs, ∃ d, Declares C (plain pm) x d := by
  simp only [convert_inv]
  constructor
  · rintro ⟨u, ds, hds, _⟩ x hx
    obtain ⟨d, _, hd⟩ := Uml.each_mem_left hds hx
    exact ⟨d, hd⟩
  · intro h
    obtain ⟨ds, hds⟩ := Uml.each_of h
    exact ⟨_, ds, hds, rfl⟩

example : ∃ u, convert exCfg (some exMap) exParent (some exSchema) = .ok u :=
  (C144_made _ _ _ _).2 fun _ hx => (Uml.each_mem_left exDeclared hx).imp fun _ h => h.2

/-- There is exactly one page for each name that is declared or mentioned. It shows what the declarations of that name
show, in their order, and the name as it was first met. -/
theorem C144_pages (C : Cfg) (pm : Option Prefix.PrefixMap) (parent : Name) (xs : List (Label × SE)) (u : St)
    (h : convert C pm parent (some xs) = .ok u) :
    ∃ ds, Each (Declares C (plain pm)) xs ds ∧
      (∀ s, (∃ p ∈ u.all, p.name.str = s) ↔ Named ds s) ∧ (u.all.map fun p => p.name.str).Nodup ∧
      ∀ p ∈ u.all, p.entries = (declared ds p.name.str).flatMap Decl.entries ∧
        p.exts = (declared ds p.name.str).flatMap Decl.exts ∧ p.parent = parent ∧
        ∃ as bs, occurrences ds = as ++ p.name :: bs ∧ ∀ n ∈ as, n.str ≠ p.name.str := by
  obtain ⟨ds, hds, rfl⟩ := convert_inv.1 h
  have hi := inv_all ds (inv_init parent)
  rw [List.nil_append] at hi
  refine ⟨ds, hds, fun s => ?_, names_nodup hi, fun p hp => ?_⟩
  · constructor
    · rintro ⟨p, hp, rfl⟩
      rw [mem_all hi, hi.page, Option.map_eq_some_iff] at hp
      obtain ⟨n, hn, _⟩ := hp
      have h1 := List.mem_of_find?_eq_some hn
      have h2 := List.find?_some hn
      simp only [decide_eq_true_eq] at h2
      simp only [occurrences, List.mem_flatMap, List.mem_cons] at h1
      obtain ⟨d, hd, rfl | h1⟩ := h1
      · exact ⟨d, hd, .inl h2⟩
      · exact ⟨d, hd, .inr ⟨n, h1, h2⟩⟩
    · rintro ⟨d, hd, hs⟩
      have : ∃ n ∈ occurrences ds, n.str = s := by
        simp only [occurrences, List.mem_flatMap, List.mem_cons]
        rcases hs with hs | ⟨n, hn, hs⟩
        · exact ⟨d.name, ⟨d, hd, .inl rfl⟩, hs⟩
        · exact ⟨n, ⟨d, hd, .inr hn⟩, hs⟩
      obtain ⟨n, hn, hs⟩ := this
      cases hf : (occurrences ds).find? fun n => n.str = s with
      | none =>
        rw [List.find?_eq_none] at hf
        exact absurd hs (by simpa using hf n hn)
      | some m =>
        have h2 := List.find?_some hf
        simp only [decide_eq_true_eq] at h2
        refine ⟨⟨m, (declared ds s).flatMap Decl.entries, (declared ds s).flatMap Decl.exts, parent⟩, ?_, h2⟩
        rw [mem_all hi]
        simp only [h2]
        rw [hi.page, hf]; rfl
  · have hp' := (mem_all hi p).1 hp
    rw [hi.page, Option.map_eq_some_iff] at hp'
    obtain ⟨n, hn, he⟩ := hp'
    have hname : n = p.name := congrArg Page.name he
    refine ⟨(congrArg Page.entries he).symm, (congrArg Page.exts he).symm, (congrArg Page.parent he).symm, ?_⟩
    rw [List.find?_eq_some_iff_append] at hn
    obtain ⟨_, as, bs, ho, ha⟩ := hn
    rw [hname] at ho
    exact ⟨as, bs, ho, fun m hm => by simpa using ha m hm⟩

/-- In the example there are three pages. -/
example : ∃ u, convert exCfg (some exMap) exParent (some exSchema) = .ok u ∧
    u.all = [⟨exName "C", [⟨exName "v", .any, .oneOne⟩], [exName "D"], exParent⟩,
      ⟨exName "P", [⟨exName "n", .datatype (exName "str"), .oneOne⟩, ⟨exName "w", .ref (exName "C"), .star⟩], [], exParent⟩,
      ⟨exName "D", [], [], exParent⟩] := ⟨_, rfl, by decide +kernel⟩

/-- Whatever a page refers to or extends has a page. -/
theorem C144_closed (C : Cfg) (pm : Option Prefix.PrefixMap) (parent : Name) (xs : List (Label × SE)) (u : St)
    (h : convert C pm parent (some xs) = .ok u) (p : Page) (hp : p ∈ u.all) (n : Name)
    (hn : n ∈ p.exts ∨ ∃ e ∈ p.entries, e.vc = .ref n) : ∃ q ∈ u.all, q.name.str = n.str := by
  obtain ⟨ds, _, h1, _, h2⟩ := C144_pages C pm parent xs u h
  obtain ⟨he, hx, _⟩ := h2 p hp
  rw [h1]
  rcases hn with hn | ⟨e, hm, hv⟩
  · rw [hx] at hn
    simp only [List.mem_flatMap, declared, List.mem_filter] at hn
    obtain ⟨d, ⟨hd, _⟩, hn⟩ := hn
    exact ⟨d, hd, .inr ⟨n, by simp [Decl.mentions, hn], rfl⟩⟩
  · rw [he] at hm
    simp only [List.mem_flatMap, declared, List.mem_filter] at hm
    obtain ⟨d, ⟨hd, _⟩, hm⟩ := hm
    refine ⟨d, hd, .inr ⟨n, ?_, rfl⟩⟩
    simp only [Decl.mentions, List.mem_append, List.mem_filterMap]
    exact .inr ⟨e, hm, by simp [Entry.target, hv]⟩

/-- In the example the page of `e:P` refers to `e:C` and that of `e:C` extends `e:D`. -/
example : ∃ u, convert exCfg (some exMap) exParent (some exSchema) = .ok u ∧
    (∃ p ∈ u.all, ∃ e ∈ p.entries, e.vc = .ref (exName "C")) ∧ (∃ p ∈ u.all, exName "D" ∈ p.exts) ∧
    (∃ q ∈ u.all, q.name.str = chars "e:C") ∧ ∃ q ∈ u.all, q.name.str = chars "e:D" :=
  ⟨_, rfl, by decide +kernel, by decide +kernel, by decide +kernel, by decide +kernel⟩

/-- Every triple constraint of every declaration has its entry on the page of the name declared. -/
theorem C144_complete (C : Cfg) (pm : Option Prefix.PrefixMap) (parent : Name) (xs : List (Label × SE)) (u : St)
    (h : convert C pm parent (some xs) = .ok u) (l : Label) (cl : Option Bool) (ex : Option (List IriRef)) (te : Option TE)
    (acts : Option (List SemAct)) (anns : Option (List Annot)) (ext : Option (List Label))
    (hx : (l, SE.shape cl ex te acts anns ext) ∈ xs) (ts : List TE) (hts : Constraints te ts) (t : TE) (ht : t ∈ ts) :
    ∃ n, Called C (plain pm) l n ∧ ∃ p ∈ u.all, p.name.str = n.str ∧ ∃ e ∈ p.entries, Shows C (plain pm) t e := by
  obtain ⟨ds, hds, h1, _, h2⟩ := C144_pages C pm parent xs u h
  obtain ⟨d, hd, hD⟩ := Uml.each_mem_left hds hx
  cases hD with
  | mk _ _ _ _ _ _ _ name label exts ts' entries hn hl he hc hs =>
    have hts' : ts' = ts := by cases hts <;> cases hc <;> rfl
    subst hts'
    obtain ⟨e, hee, hse⟩ := Uml.each_mem_left hs ht
    obtain ⟨p, hp, hps⟩ := (h1 name.str).2 ⟨_, hd, .inl rfl⟩
    refine ⟨name, hn, p, hp, hps, e, ?_, hse⟩
    rw [(h2 p hp).1]
    simp only [List.mem_flatMap, declared, List.mem_filter, decide_eq_true_eq]
    exact ⟨_, ⟨hd, hps.symm⟩, hee⟩

/-- In the example the constraint on `e:w` has its entry on the page of `e:P`. -/
example : ∃ u, convert exCfg (some exMap) exParent (some exSchema) = .ok u ∧
    ∃ n, Called exCfg (plain (some exMap)) (.iri (ex "P")) n ∧ ∃ p ∈ u.all, p.name.str = n.str ∧
      ∃ e ∈ p.entries, Shows exCfg (plain (some exMap)) (exTC "w" (some (exRef "C")) (some 0) (some (-1))) e :=
  ⟨_, rfl, C144_complete exCfg (some exMap) exParent exSchema _ rfl (.iri (ex "P")) none none
    (some (.each none [exTC "n" (some (.nc { datatype := some (ex "str") })) none none,
      exTC "w" (some (exRef "C")) (some 0) (some (-1))] none none none none)) none none none
    (List.mem_cons_self ..) _ (.each ..) _ (by simp)⟩

/-! ## Labels -/

/-- The label of a declaration is that of its page, if its name is neither declared nor mentioned by an earlier
declaration. The full statement, for all declarations, is refuted below. -/
theorem C144_label_partial (C : Cfg) (pm : Option Prefix.PrefixMap) (parent : Name) (xs ys : List (Label × SE))
    (x : Label × SE) (u : St) (h : convert C pm parent (some (xs ++ x :: ys)) = .ok u) (d : Decl)
    (hd : Declares C (plain pm) x d) (hxs : ∀ y ∈ xs, ∀ e, Declares C (plain pm) y e → ¬ Named [e] d.name.str) :
    ∃ p ∈ u.all, p.name = d.name := by
  obtain ⟨ds, hds, h1, _, h2⟩ := C144_pages C pm parent _ u h
  have split : ∀ (xs : List (Label × SE)) (ds : List Decl), Each (Declares C (plain pm)) (xs ++ x :: ys) ds →
      ∃ as e bs, ds = as ++ e :: bs ∧ Each (Declares C (plain pm)) xs as ∧ Declares C (plain pm) x e := by
    intro xs
    induction xs with
    | nil => intro ds h; cases h with | cons _ e _ bs h1 _ => exact ⟨[], e, bs, rfl, .nil, h1⟩
    | cons y xs ih =>
      intro ds h
      cases h with
      | cons _ a _ ds h1 h2 =>
        obtain ⟨as, e, bs, rfl, h3, h4⟩ := ih ds h2
        exact ⟨a :: as, e, bs, rfl, .cons _ _ _ _ h1 h3, h4⟩
  obtain ⟨as, e, bs, rfl, has, he⟩ := split xs ds hds
  have hname : e.name = d.name := by
    cases hd with
    | mk _ _ _ _ _ _ _ name label exts ts entries hn hl _ _ _ =>
      cases he with
      | mk _ _ _ _ _ _ _ name' label' exts' ts' entries' hn' hl' _ _ _ =>
        have e1 := labelName_ok.2 hn
        rw [labelName_ok.2 hn'] at e1
        have e2 := Uml.getLabel_ok.2 hl
        rw [Uml.getLabel_ok.2 hl'] at e2
        cases e1; cases e2; rfl
  obtain ⟨p, hp, hps⟩ := (h1 d.name.str).2 ⟨e, by simp, .inl (by rw [hname])⟩
  refine ⟨p, hp, ?_⟩
  obtain ⟨cs, fs, hocc, hcs⟩ := (h2 p hp).2.2.2
  have hmem : ∀ {zs : List (Label × SE)} {as : List Decl}, Each (Declares C (plain pm)) zs as → ∀ a ∈ as,
      ∃ y ∈ zs, Declares C (plain pm) y a := by
    intro zs as hz
    induction hz with
    | nil => intro a ha; cases ha
    | cons y b zs as hb _ ih =>
      intro a ha
      rcases List.mem_cons.1 ha with rfl | ha
      · exact ⟨y, by simp, hb⟩
      · obtain ⟨z, hz, hz'⟩ := ih a ha
        exact ⟨z, by simp [hz], hz'⟩
  have hfirst : ∀ n ∈ occurrences as, n.str ≠ d.name.str := by
    intro n hn hs
    simp only [occurrences, List.mem_flatMap, List.mem_cons] at hn
    obtain ⟨a, ha, hn⟩ := hn
    obtain ⟨y, hy, hya⟩ := hmem has a ha
    refine hxs y hy a hya ⟨a, by simp, ?_⟩
    rcases hn with rfl | hn
    · exact .inl hs
    · exact .inr ⟨n, hn, hs⟩
  have e1 : (occurrences (as ++ e :: bs)).find? (fun n => n.str = d.name.str) = some d.name := by
    rw [List.find?_eq_some_iff_append]
    refine ⟨by simp, occurrences as, e.mentions ++ occurrences bs, by simp [occurrences, hname], ?_⟩
    intro a ha
    simpa using hfirst a ha
  have e2 : (occurrences (as ++ e :: bs)).find? (fun n => n.str = d.name.str) = some p.name := by
    rw [List.find?_eq_some_iff_append]
    exact ⟨by simpa using hps, cs, fs, hocc, fun a ha => by simpa [← hps] using hcs a ha⟩
  rw [e1] at e2
  simpa using e2.symm

/-- With the declaration of `e:C` first its page has the label. -/
example : ∃ u, convert exCfg (some exMap) exParent (some exSchema.reverse) = .ok u ∧
    ∃ p ∈ u.all, p.name = { exName "C" with label := some (chars "see") } :=
  ⟨_, rfl, by decide +kernel⟩

/-- The hypotheses are met by a declaration that follows another one. -/
example : ∃ u, ∃ d : Decl, convert exCfg (some exMap) exParent (some ([(Label.iri (ex "Q"), exShape [] none)] ++
      (Label.iri (ex "C"), SE.shape none none none none (some [⟨.iri (chars "http://l"), .lit (.str (chars "see"))⟩]) none)
        :: exSchema)) = .ok u ∧ d.name.label = some (chars "see") ∧ ∃ p ∈ u.all, p.name = d.name := by
  have hd : Declares exCfg (plain (some exMap))
      (Label.iri (ex "C"), SE.shape none none none none (some [⟨.iri (chars "http://l"), .lit (.str (chars "see"))⟩]) none)
      ⟨{ exName "C" with label := some (chars "see") }, [], []⟩ :=
    .mk _ none none none none _ none (exName "C") (some (chars "see")) [] [] [] (labelName_ok.1 rfl)
      (Uml.getLabel_ok.1 rfl) .nil .none .nil
  refine ⟨_, _, rfl, rfl, C144_label_partial _ _ exParent [(Label.iri (ex "Q"), exShape [] none)] exSchema _ _ rfl _ hd ?_⟩
  intro y hy e he
  rw [List.mem_singleton] at hy
  subst hy
  cases he with
  | mk _ _ _ _ _ _ _ name label exts ts entries hn hl hx ht hs =>
    have := labelName_ok.2 hn
    cases this
    cases hx; cases ht; cases hs
    rintro ⟨d, hd, h⟩
    rw [List.mem_singleton] at hd
    subst hd
    revert h
    simp only [Decl.mentions]
    decide

/-- A shape that is mentioned before it is declared loses its label: its page has the name with which it was mentioned. -/
theorem C144_label_refuted : ¬ ∀ (C : Cfg) (pm : Option Prefix.PrefixMap) (parent : Name) (xs : List (Label × SE)) (u : St),
    convert C pm parent (some xs) = .ok u → ∀ x ∈ xs, ∀ d, Declares C (plain pm) x d → ∃ p ∈ u.all, p.name = d.name := by
  intro h
  have hd : ∃ x ∈ exSchema, Declares exCfg (plain (some exMap)) x
      ⟨{ exName "C" with label := some (chars "see") }, [exName "D"], [⟨exName "v", .any, .oneOne⟩]⟩ := by
    have := exDeclared
    cases this with
    | cons _ _ _ _ _ h2 =>
      cases h2 with
      | cons _ _ _ _ h3 _ => exact ⟨_, by simp [exSchema], h3⟩
  obtain ⟨x, hx, hd⟩ := hd
  have := h exCfg (some exMap) exParent exSchema _ rfl x hx _ hd
  revert this
  decide +kernel

/-! ## The landing page and the files -/

/-- The landing page lists each page once, with its file and its label. -/
theorem C144_landing (C : Cfg) (pm : Option Prefix.PrefixMap) (parent : Name) (xs : List (Label × SE)) (u : St)
    (h : convert C pm parent (some xs) = .ok u) :
    ∃ ds, Each (Declares C (plain pm)) xs ds ∧ ((landing u).map fun r => r.1).Nodup ∧
      ∀ s f l, (s, f, l) ∈ landing u ↔ f = fileOf s ∧
        ∃ as n bs, occurrences ds = as ++ n :: bs ∧ n.str = s ∧ n.label.getD [] = l ∧ ∀ m ∈ as, m.str ≠ s := by
  obtain ⟨ds, hds, h1, h2, h3⟩ := C144_pages C pm parent xs u h
  refine ⟨ds, hds, ?_, fun s f l => ?_⟩
  · simpa [landing, St.all, Function.comp_def] using h2
  · have hm : (s, f, l) ∈ landing u ↔ ∃ p ∈ u.all, p.name.str = s ∧ f = fileOf s ∧ p.name.label.getD [] = l := by
      simp only [landing, St.all, List.mem_map, Prod.exists, Prod.mk.injEq]
      constructor
      · rintro ⟨n, p, hp, rfl, rfl, rfl⟩; exact ⟨p, ⟨n, p, hp, rfl⟩, rfl, rfl, rfl⟩
      · rintro ⟨p, ⟨n, q, hq, rfl⟩, rfl, rfl, rfl⟩; exact ⟨n, q, hq, rfl, rfl, rfl⟩
    rw [hm]
    constructor
    · rintro ⟨p, hp, rfl, rfl, rfl⟩
      obtain ⟨_, _, _, as, bs, ho, ha⟩ := h3 p hp
      exact ⟨rfl, as, p.name, bs, ho, rfl, rfl, ha⟩
    · rintro ⟨rfl, as, n, bs, ho, rfl, rfl, ha⟩
      have hn : Named ds n.str := by
        have : n ∈ occurrences ds := by rw [ho]; simp
        simp only [occurrences, List.mem_flatMap, List.mem_cons] at this
        obtain ⟨d, hd, rfl | hm⟩ := this
        · exact ⟨d, hd, .inl rfl⟩
        · exact ⟨d, hd, .inr ⟨n, hm, rfl⟩⟩
      obtain ⟨p, hp, hps⟩ := (h1 _).2 hn
      obtain ⟨_, _, _, cs, fs, ho', hc⟩ := h3 p hp
      have e1 : (occurrences ds).find? (fun m => m.str = n.str) = some n := by
        rw [List.find?_eq_some_iff_append]
        exact ⟨by simp, as, bs, ho, fun a h => by simpa using ha a h⟩
      have e2 : (occurrences ds).find? (fun m => m.str = n.str) = some p.name := by
        rw [List.find?_eq_some_iff_append]
        exact ⟨by simpa using hps, cs, fs, ho', fun a h => by simpa [← hps] using hc a h⟩
      rw [e1] at e2
      simp only [Option.some.injEq] at e2
      exact ⟨p, hp, hps, rfl, by rw [← e2]⟩

example : ∃ u, convert exCfg (some exMap) exParent (some exSchema.reverse) = .ok u ∧
    landing u = [(chars "e:D", chars "e_D.html", []), (chars "e:C", chars "e_C.html", chars "see"),
      (chars "e:P", chars "e_P.html", [])] := ⟨_, rfl, by decide +kernel⟩

/-- Two names have the same file exactly when they agree but for colons that are underscores in the other; so different
names without underscores have different files. -/
theorem C144_files (s t : Str) :
    (fileOf s = fileOf t ↔ s.length = t.length ∧ ∀ i : Nat, s[i]? = t[i]? ∨
      (s[i]? = some ':' ∧ t[i]? = some '_') ∨ (s[i]? = some '_' ∧ t[i]? = some ':')) ∧
    ('_' ∉ s → '_' ∉ t → fileOf s = fileOf t → s = t) := by
  have key : fileOf s = fileOf t ↔ s.length = t.length ∧ ∀ i : Nat, s[i]? = t[i]? ∨
      (s[i]? = some ':' ∧ t[i]? = some '_') ∨ (s[i]? = some '_' ∧ t[i]? = some ':') := by
    simp only [fileOf, List.append_left_inj]
    have hc : ∀ a b : Char, ((if a = ':' then '_' else a) = (if b = ':' then '_' else b)) ↔
        a = b ∨ (a = ':' ∧ b = '_') ∨ (a = '_' ∧ b = ':') := by
      intro a b
      by_cases ha : a = ':'
      · subst ha
        by_cases hb : b = ':'
        · subst hb; simp
        · have hb' : ¬ ':' = b := fun h => hb h.symm
          simp [hb, hb', eq_comm]
      · by_cases hb : b = ':'
        · subst hb; simp [ha]
        · simp [ha, hb]
    constructor
    · intro h
      have hl : s.length = t.length := by simpa using congrArg List.length h
      refine ⟨hl, fun i => ?_⟩
      have hi := congrArg (fun l : List Char => l[i]?) h
      simp only [List.getElem?_map] at hi
      cases hs : s[i]? with
      | none =>
        rw [hs] at hi
        cases ht : t[i]? with
        | none => exact .inl rfl
        | some b => rw [ht] at hi; simp at hi
      | some a =>
        rw [hs] at hi
        cases ht : t[i]? with
        | none => rw [ht] at hi; simp at hi
        | some b =>
          rw [ht] at hi
          simp only [Option.map_some, Option.some.injEq] at hi
          simpa using (hc a b).1 hi
    · rintro ⟨hl, hi⟩
      apply List.ext_getElem?
      intro i
      simp only [List.getElem?_map]
      rcases hi i with h | ⟨h1, h2⟩ | ⟨h1, h2⟩
      · rw [h]
      · rw [h1, h2]; rfl
      · rw [h1, h2]; rfl
  refine ⟨key, fun hs ht h => ?_⟩
  obtain ⟨_, hi⟩ := key.1 h
  apply List.ext_getElem?
  intro i
  rcases hi i with h | ⟨_, h⟩ | ⟨h, _⟩
  · exact h
  · exact absurd (List.mem_of_getElem? h) ht
  · exact absurd (List.mem_of_getElem? h) hs

example : fileOf (chars "e:P") = chars "e_P.html" ∧ '_' ∉ chars "e:P" := by decide

/-- Two shapes of one schema can have the same file. -/
theorem C144_files_refuted : ∃ (pm : Prefix.PrefixMap) (xs : List (Label × SE)) (u : St),
    convert exCfg (some pm) exParent (some xs) = .ok u ∧
      u.all.map (fun p => p.name.str) = [chars "a:b_c", chars "a_b:c"] ∧
      u.all.map (fun p => fileOf p.name.str) = [chars "a_b_c.html", chars "a_b_c.html"] :=
  ⟨⟨[(chars "a", chars "http://a/"), (chars "a_b", chars "http://b/")], false⟩,
    [(.iri (.prefixed (chars "a") (chars "b_c")), exShape [] none), (.iri (.prefixed (chars "a_b") (chars "c")), exShape [] none)],
    _, rfl, by decide +kernel, by decide +kernel⟩

/-! ## Cardinalities and directions -/

/-- The words for usual bounds. -/
def cardWords : Int × Option Int → Option String
  | (1, some 1) => some "Exactly one"
  | (0, none) => some "Zero or more"
  | (1, none) => some "One or more"
  | (0, some 1) => some "Zero or one (optional)"
  | _ => none

theorem cardText_ok {C : Cfg} {pm : Prefix.PrefixMap} {id ng iv p v mn mx acts anns} {e : Entry}
    (h : Shows C pm (.tc id ng iv p v mn mx acts anns) e) (w : Str) :
    cardText e.card = .ok w ↔ (cardWords (Uml.written mn mx)).map String.toList = some w := by
  cases h with
  | mk _ _ _ _ _ _ _ _ _ label name card value _ _ hs _ =>
    simp only
    cases hs with
    | usual _ hu hb =>
      rw [← hb]
      simp only [List.mem_cons, List.not_mem_nil, or_false] at hu
      rcases hu with rfl | rfl | rfl | rfl <;> simp [Card.bounds, cardWords, cardText]
    | other m n h1 h2 h3 h4 h5 =>
      have : cardWords (Uml.written mn mx) = none := by
        simp only [Uml.written, h1, h2]
        rw [if_neg (by omega)]
        unfold cardWords
        split <;> rename_i heq <;> simp only [Prod.mk.injEq, Option.some.injEq, reduceCtorEq, and_false] at heq
        · omega
        · exact absurd heq h5
        · rfl
      simp [this, cardText]

/-- The page with the entries of triple constraints is written exactly when the bounds of all of them are usual, and then
with the words for these bounds. -/
theorem C144_cardinality (C : Cfg) (pm : Prefix.PrefixMap) (ts : List TE) (es : List Entry) (ws : List Str)
    (h : Each (Shows C pm) ts es) :
    pageCards es = .ok ws ↔ Each (fun t w => ∃ id ng iv p v mn mx acts anns, t = TE.tc id ng iv p v mn mx acts anns ∧
      (cardWords (Uml.written mn mx)).map String.toList = some w) ts ws := by
  induction h generalizing ws with
  | nil =>
    simp only [pageCards, Out.ok.injEq]
    constructor
    · rintro rfl; exact .nil
    · intro h; cases h; rfl
  | cons t e ts es hs _ ih =>
    simp only [pageCards, Uml.bind_ok, ih, Out.ok.injEq]
    have ht : ∃ id ng iv p v mn mx acts anns, t = TE.tc id ng iv p v mn mx acts anns := by
      cases hs; exact ⟨_, _, _, _, _, _, _, _, _, rfl⟩
    obtain ⟨id, ng, iv, p, v, mn, mx, acts, anns, rfl⟩ := ht
    constructor
    · rintro ⟨w, hw, ws', hws, rfl⟩
      exact .cons _ _ _ _ ⟨_, _, _, _, _, _, _, _, _, rfl, (cardText_ok hs w).1 hw⟩ hws
    · intro hh
      cases hh with
      | cons _ w _ ws' h1 h2 =>
        obtain ⟨_, _, _, _, _, _, _, _, _, he, hw⟩ := h1
        cases he
        exact ⟨w, (cardText_ok hs w).2 hw, ws', h2, rfl⟩

example : pageCards [⟨exName "n", .any, .star⟩, ⟨exName "m", .any, .oneOne⟩] =
    .ok ["Zero or more".toList, "Exactly one".toList] := rfl

/-- Two to three makes a page that cannot be written, and two or more or exactly two make no page. -/
theorem C144_cardinality_refuted :
    (∃ u p, convert exCfg (some exMap) exParent (some [(.iri (ex "P"), exShape [exTC "n" none (some 2) (some 3)] none)]) = .ok u ∧
      u.all = [p] ∧ pageCards p.entries = .panic) ∧
    (∀ n, n = 2 ∨ n = -1 →
      convert exCfg (some exMap) exParent (some [(.iri (ex "P"), exShape [exTC "n" none (some 2) (some n)] none)]) = .err) := by
  refine ⟨⟨_, _, rfl, rfl, rfl⟩, ?_⟩
  rintro n (rfl | rfl) <;> rfl

/-- The pages of a schema do not tell whether a triple constraint is inverse. -/
theorem C144_direction_refuted : ∃ xs ys, xs ≠ ys ∧
    xs = [(Label.iri (ex "P"), SE.shape none none (some (.tc none none (some true) (ex "n") none none none none none)) none none none)] ∧
    ys = [(Label.iri (ex "P"), SE.shape none none (some (.tc none none none (ex "n") none none none none none)) none none none)] ∧
    convert exCfg (some exMap) exParent (some xs) = convert exCfg (some exMap) exParent (some ys) ∧
    ∃ u, convert exCfg (some exMap) exParent (some xs) = .ok u :=
  ⟨_, _, by simp, rfl, rfl, rfl, _, rfl⟩

end Html
