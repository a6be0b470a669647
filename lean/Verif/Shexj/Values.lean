import Verif.Shexj.Lemmas

/-!
# Lemmas: values of value sets and facets written and read back
-/

namespace Shexj

open Shexc
open Shexc.Pp (showInt showNat showDec)

/-! ## Exclusions and stems -/

theorem stem_types : ("IriStem".toList : Str) ≠ "LiteralStem".toList ∧ ("IriStem".toList : Str) ≠ "LanguageStem".toList ∧
    ("LanguageStem".toList : Str) ≠ "LiteralStem".toList := by
  decide

theorem readExcl_stem {X : Ext} (t : String) (j : Json) :
    readExcl X (.obj [("type", .lit t), ("stem", j)]) =
      (readStemValue X j).bind fun v =>
        if t.toList = "LiteralStem".toList then
          match v with
          | .inr s => some (.litStem s)
          | .inl _ => none
        else if t.toList = "LanguageStem".toList then
          match v with
          | .inr s => (X.lang s).map .langStem
          | .inl _ => none
        else if t.toList = "IriStem".toList then
          match v with
          | .inl r => some (.iriStem r)
          | .inr _ => none
        else none := by
  have hk : known ["type", "stem"] [("type", .lit t), ("stem", j)] = true := by simp [known]
  have k1 : req "type" [("type", .lit t), ("stem", j)] readStr = some t.toList :=
    req_of (j := .lit t) (by simp [vals_cons, vals_nil]) rfl
  have k2 : req "stem" [("type", .lit t), ("stem", j)] (readStemValue X) = readStemValue X j := by
    have : one "stem" [("type", .lit t), ("stem", j)] = some (some j) :=
      one_of (o := some j) (by simp [vals_cons, vals_nil])
    rw [req, this]
    rfl
  rw [readExcl, if_pos hk, k1, k2]
  rfl

theorem readStemValue_ref {X : Ext} {r : IriRef} (h : RefOk X r) : readStemValue X (.str (refText r)) = some (.inl r) := by
  have := readRef_ok h
  rw [writeRef] at this
  rw [readStemValue, this]

theorem readStemValue_str {X : Ext} {s : Str} (h : NoName X s) : readStemValue X (.str s) = some (.inr s) := by
  have : readRef X (.str s) = none := by
    rw [readRef, if_neg (by simp [h.1]), if_neg (by simp [h.2])]
  rw [readStemValue, this]
  rfl

theorem iriExcl_ok {X : Ext} {e : Excl IriRef} (h : ExclOk (IriOk X) (RefOk X) e) :
    ∃ r, readExcl X (writeExcl "IriStem" refText e) = some r ∧ iriExcl X r = some e := by
  obtain ⟨a, b, -⟩ := stem_types
  cases e with
  | exact r => exact ⟨.untyped (refText r), rfl, by rw [iriExcl, iriRef_ok h]; rfl⟩
  | stem r =>
    refine ⟨.iriStem r, ?_, rfl⟩
    rw [writeExcl, readExcl_stem, readStemValue_ref h]
    simp only [Option.bind_some, if_neg a, if_neg b, if_true]

theorem litExcl_ok {X : Ext} {e : Excl Str} (h : ExclOk (fun _ => True) (NoName X) e) :
    ∃ r, readExcl X (writeExcl "LiteralStem" id e) = some r ∧ litExcl r = some e := by
  cases e with
  | exact r => exact ⟨.untyped r, rfl, rfl⟩
  | stem r =>
    refine ⟨.litStem r, ?_, rfl⟩
    rw [writeExcl, readExcl_stem, id, readStemValue_str h]
    simp only [Option.bind_some, if_true]

theorem langExcl_ok {X : Ext} {e : Excl Str} (h : ExclOk (TagOk X) (fun t => TagOk X t ∧ NoName X t) e) :
    ∃ r, readExcl X (writeExcl "LanguageStem" id e) = some r ∧ langExcl X r = some e := by
  obtain ⟨-, -, c⟩ := stem_types
  cases e with
  | exact r =>
    refine ⟨.untyped r, rfl, ?_⟩
    have h : X.lang r = some r := h
    rw [langExcl, h]
    rfl
  | stem r =>
    obtain ⟨h1, h2⟩ := h
    have h1 : X.lang r = some r := h1
    refine ⟨.langStem r, ?_, rfl⟩
    rw [writeExcl, readExcl_stem, id, readStemValue_str h2]
    simp only [Option.bind_some, if_neg c, if_true, h1, Option.map_some]

theorem excls_ok {α : Type} {X : Ext} {w : α → Json} {f : RawExcl → Option α} {es : List α}
    (h : ∀ e ∈ es, ∃ r, readExcl X (w e) = some r ∧ f r = some e) :
    ∃ rs, readVec (readExcl X) (writeVec w es) = some rs ∧ rs.mapM f = some es := by
  rw [writeVec]
  induction es with
  | nil => exact ⟨[], rfl, rfl⟩
  | cons e es ih =>
    obtain ⟨r, h1, h2⟩ := h e (by simp)
    obtain ⟨rs, h3, h4⟩ := ih fun a ha => h a (by simp [ha])
    refine ⟨r :: rs, ?_, ?_⟩
    · rw [readVec] at h3 ⊢
      rw [List.map_cons, readAll, h1, h3]
      rfl
    · rw [List.mapM_cons, h2, h4]
      rfl

theorem readStem_ok {α : Type} (f : α → Str) (s : Option α) : readStem (writeStem f s) = some (s.map f) := by
  cases s with
  | some a => rfl
  | none =>
    rw [writeStem, readStem, if_pos (by simp [known]), req_of (j := .lit "Wildcard") (by simp [vals_cons, vals_nil])
      (readType_lit _)]
    rfl

/-! ## Values -/

theorem fields_of {X : Ext} {fs : Fields} {t v g tag : Option Str} {st : Option Json} {s : Option (Option Str)} {ex : Option Json}
    {es : Option (List RawExcl)}
    (hfs : fs = field "type" (t.map .str) ++ field "language" (g.map .str) ++ field "value" (v.map .str) ++
      field "languageTag" (tag.map .str) ++ field "stem" st ++ field "exclusions" ex)
    (hs : st.mapM readStem = some s) (he : ex.mapM (readVec (readExcl X)) = some es) :
    readValue X (.obj fs) = valueOf X t v s g tag es := by
  have hk : known ["type", "value", "stem", "language", "languageTag", "exclusions"] fs = true := by
    rw [hfs]
    rw [known_append, known_append, known_append, known_append, known_append, known_field _ (by decide),
      known_field _ (by decide), known_field _ (by decide), known_field _ (by decide), known_field _ (by decide),
      known_field _ (by decide)]
    rfl
  have k1 : may "type" fs readStr = some (t.map id) :=
    may_of (w := .str) (by simp [hfs, vals_append, vals_field]) (by simp [readStr])
  have k2 : may "value" fs readStr = some (v.map id) :=
    may_of (w := .str) (by simp [hfs, vals_append, vals_field]) (by simp [readStr])
  have k3 : may "language" fs readStr = some (g.map id) :=
    may_of (w := .str) (by simp [hfs, vals_append, vals_field]) (by simp [readStr])
  have k4 : may "languageTag" fs readStr = some (tag.map id) :=
    may_of (w := .str) (by simp [hfs, vals_append, vals_field]) (by simp [readStr])
  have k5 : may "stem" fs readStem = some s := by
    rw [may, one_of (o := st) (by simp [hfs, vals_append, vals_field])]
    cases st with
    | none => simpa using hs
    | some j => rw [← hs]; rfl
  have k6 : may "exclusions" fs (readVec (readExcl X)) = some es := by
    rw [may, one_of (o := ex) (by simp [hfs, vals_append, vals_field])]
    cases ex with
    | none => simpa using he
    | some j => rw [← he]; rfl
  rw [readValue, if_pos hk, k1, k2, k3, k4, k5, k6]
  simp only [Option.map_id_fun, id_eq, Option.bind_eq_bind, Option.bind_some]

theorem stem_type_ne {t : Str} (h : t ∉ stemTypes) : t ≠ "IriStem".toList ∧ t ≠ "LanguageStem".toList ∧
    t ≠ "LiteralStem".toList ∧ t ≠ "Language".toList ∧ t ≠ "IriStemRange".toList ∧ t ≠ "LanguageStemRange".toList ∧
    t ≠ "LiteralStemRange".toList := by
  simpa only [stemTypes, List.mem_cons, List.not_mem_nil, or_false, not_or] using h

theorem natives_stem : ∀ s ∈ natives, s ∉ stemTypes := by
  decide +kernel

theorem valueOf_lit {X : Ext} {t v g tag : Option Str} (h : ∀ s, t = some s → s ∉ stemTypes) :
    valueOf X t v none g tag none = (literalOf X t v g tag).map fun l => .obj (.lit l) := by
  cases t with
  | none => rfl
  | some t =>
    obtain ⟨a, b, c, d, e, f, g⟩ := stem_type_ne (h t rfl)
    simp only [valueOf, a, b, c, d, e, f, g, if_false]

theorem readValue_lit {X : Ext} {l : Lit} (h : LitOk X l) (ht : ∀ s dt, l = .typed s dt → refText dt ∉ stemTypes) :
    readValue X (writeObj (.lit l)) = some (.obj (.lit l)) := by
  obtain ⟨fs, t, v, g, h1, h2, h3, h4, h5⟩ := literal_back h
  rw [h1, fields_of (t := t) (v := some v) (g := g) (tag := none) (st := none) (s := none) (ex := none) (es := none)
    (by rw [h2]; simp [field]) rfl rfl, valueOf_lit, h3]
  · rfl
  · rintro s rfl
    by_cases hl : ∃ s dt, l = .typed s dt
    · obtain ⟨v, dt, rfl⟩ := hl
      have := h4 v dt rfl
      injection this with this
      rw [this]
      exact ht v dt rfl
    · rcases h5 fun s dt e => hl ⟨s, dt, e⟩ with h | ⟨s', h, e⟩
      · simp at h
      · injection e with e
        rw [e]
        exact natives_stem s' h

theorem readValue_ok {X : Ext} {v : Value} (h : ValueOk X v) : readValue X (writeValue v) = some v := by
  cases v with
  | obj o =>
    rw [writeValue]
    cases o with
    | iri r =>
      have h : IriOk X r := h
      rw [writeObj, readValue, iriRef_ok h]
      rfl
    | lit l =>
      by_cases hl : ∃ s dt, l = .typed s dt
      · obtain ⟨s, dt, rfl⟩ := hl
        obtain ⟨h1, h2⟩ := h
        refine readValue_lit h1 ?_
        rintro s' dt' e
        injection e with _ e
        rw [← e]
        exact h2
      · refine readValue_lit ?_ fun s dt e => (hl ⟨s, dt, e⟩).elim
        cases l with
        | typed s dt => exact (hl ⟨s, dt, rfl⟩).elim
        | _ => exact h
  | lang t =>
    have h : X.lang t = some t := h
    rw [writeValue]
    refine (fields_of (t := some "Language".toList) (v := none) (g := none) (tag := some t) (st := none)
      (s := none) (ex := none) (es := none) rfl rfl rfl).trans ?_
    show (X.lang t).bind _ = _
    rw [h]
    rfl
  | iriStem r =>
    have h : IriOk X r := h
    rw [writeValue]
    refine (fields_of (t := some "IriStem".toList) (v := none) (g := none) (tag := none) (st := some (writeRef r))
      (s := some (some (refText r))) (ex := none) (es := none) rfl rfl rfl).trans ?_
    show (iriRef X (refText r)).bind _ = _
    rw [iriRef_ok h]
    rfl
  | litStem s =>
    rw [writeValue]
    refine (fields_of (t := some "LiteralStem".toList) (v := none) (g := none) (tag := none) (st := some (.str s))
      (s := some (some s)) (ex := none) (es := none) rfl rfl rfl).trans ?_
    rfl
  | langStem s =>
    cases s with
    | none =>
      rw [writeValue]
      refine (fields_of (t := some "LanguageStem".toList) (v := none) (g := none) (tag := none)
        (st := some (.str [])) (s := some (some [])) (ex := none) (es := none) rfl rfl rfl).trans ?_
      rfl
    | some t =>
      obtain ⟨h1, h2⟩ := h t rfl
      have h2 : X.lang t = some t := h2
      rw [writeValue]
      refine (fields_of (t := some "LanguageStem".toList) (v := none) (g := none) (tag := none)
        (st := some (.str t)) (s := some (some t)) (ex := none) (es := none) rfl rfl rfl).trans ?_
      show (if t = [] then _ else (X.lang t).bind _) = _
      rw [if_neg h1, h2]
      rfl
  | iriStemRange s es =>
    obtain ⟨h1, l, rfl, h2⟩ := h
    obtain ⟨rs, h3, h4⟩ := excls_ok (X := X) (w := writeExcl "IriStem" refText) (f := iriExcl X) fun e he => iriExcl_ok (h2 e he)
    rw [writeValue]
    refine (fields_of (X := X) (t := some "IriStemRange".toList) (v := none) (g := none) (tag := none)
      (st := some (writeStem refText s)) (s := some (s.map refText)) (ex := some (writeVec (writeExcl "IriStem" refText) l))
      (es := some rs) rfl (by simp [readStem_ok]) (by simp [h3])).trans ?_
    have h5 : iriOrWild X (s.map refText) = some s := by
      cases s with
      | none => rfl
      | some r => rw [Option.map_some, iriOrWild, iriRef_ok (h1 r rfl)]; rfl
    show (rs.mapM (iriExcl X)).bind _ = _
    rw [h4]
    show (iriOrWild X (s.map refText)).bind _ = _
    rw [h5]
    rfl
  | litStemRange s es =>
    obtain ⟨l, rfl, h2⟩ := h
    obtain ⟨rs, h3, h4⟩ := excls_ok (X := X) (w := writeExcl "LiteralStem" id) (f := litExcl) fun e he => litExcl_ok (h2 e he)
    rw [writeValue]
    refine (fields_of (X := X) (t := some "LiteralStemRange".toList) (v := none) (g := none) (tag := none)
      (st := some (writeStem id s)) (s := some (s.map id)) (ex := some (writeVec (writeExcl "LiteralStem" id) l))
      (es := some rs) rfl (by simp [readStem_ok]) (by simp [h3])).trans ?_
    show (rs.mapM litExcl).bind _ = _
    rw [h4, Option.map_id_fun]
    rfl
  | langStemRange s es =>
    obtain ⟨h1, l, rfl, h2⟩ := h
    obtain ⟨rs, h3, h4⟩ := excls_ok (X := X) (w := writeExcl "LanguageStem" id) (f := langExcl X) fun e he => langExcl_ok (h2 e he)
    rw [writeValue]
    refine (fields_of (X := X) (t := some "LanguageStemRange".toList) (v := none) (g := none) (tag := none)
      (st := some (writeLangStem s)) (s := some (some (s.getD []))) (ex := some (writeVec (writeExcl "LanguageStem" id) l))
      (es := some rs) rfl (by cases s <;> rfl) (by simp [h3])).trans ?_
    have h5 : langOrWild X (some (s.getD [])) = some s := by
      cases s with
      | none => rfl
      | some t =>
        obtain ⟨a, b⟩ := h1 t rfl
        have b : X.lang t = some t := b
        rw [Option.getD_some, langOrWild, if_neg a, b]
        rfl
    show (rs.mapM (langExcl X)).bind _ = _
    rw [h4]
    show (langOrWild X (some (s.getD []))).bind _ = _
    rw [h5]
    rfl

end Shexj
