import Verif.Pg.Lemmas

/-!
# Lemmas on record types combined, property lists and base types
-/

namespace Pg

theorem toValueType_accepts (X : Ext) (t : TypeSpec) (vs : Finset Value) :
    Accepts X t.toValueType vs ↔ AcceptsSpec X t vs := by
  induction t with
  | conj a b iha ihb => simp [TypeSpec.toValueType, Accepts, AcceptsSpec, iha, ihb]
  | disj a b iha ihb => simp [TypeSpec.toValueType, Accepts, AcceptsSpec, iha, ihb]
  | value t => simp [TypeSpec.toValueType, AcceptsSpec]
  | cond t e => simp [TypeSpec.toValueType, Accepts, AcceptsSpec]

/-- Inserting selected entries of a list with distinct keys. -/
theorem foldl_insert_lookup {K V W : Type} [DecidableEq K] (f : (Sigma fun _ : K => V) → Option W)
    (g : HMap K W → (Sigma fun _ : K => V) → HMap K W)
    (hg : ∀ m e, g m e = (f e).elim m fun v => m.insert e.1 v)
    (es : List (Sigma fun _ : K => V)) (hn : es.NodupKeys) (m : HMap K W) (k : K) :
    (es.foldl g m).lookup k =
      ((es.find? fun e => decide (e.1 = k)).bind f).elim (m.lookup k) some := by
  induction es generalizing m with
  | nil => simp
  | cons e es ih =>
    rw [List.nodupKeys_cons] at hn
    rw [List.foldl_cons, ih hn.2, hg]
    by_cases hk : e.1 = k
    · have hnone : es.find? (fun e => decide (e.1 = k)) = none := by
        rw [List.find?_eq_none]
        intro x hx hxk
        exact hn.1 (by rw [hk, ← of_decide_eq_true hxk]; exact List.mem_keys_of_mem hx)
      simp only [hnone, List.find?_cons, hk, decide_true, Option.bind_none, Option.bind_some]
      cases f e with
      | none => rfl
      | some v => simp
    · simp only [List.find?_cons, hk, decide_false]
      cases f e with
      | none => rfl
      | some v => simp [AList.lookup_insert_ne (fun h : k = e.1 => hk h.symm)]

theorem find_entries {K V : Type} [DecidableEq K] (m : HMap K V) (k : K) :
    m.entries.find? (fun e => decide (e.1 = k)) = (m.lookup k).map fun v => ⟨k, v⟩ := by
  cases h : m.lookup k with
  | none =>
    rw [Option.map_none, List.find?_eq_none]
    intro e he hk
    have hk := of_decide_eq_true hk
    subst hk
    have := (lookup_entries m e.1 e.2).2 he
    rw [h] at this
    cases this
  | some v =>
    rw [Option.map_some]
    cases hf : m.entries.find? (fun e => decide (e.1 = k)) with
    | none =>
      rw [List.find?_eq_none] at hf
      exact (hf _ ((lookup_entries m k v).1 h) (by simp)).elim
    | some e =>
      have hk : e.1 = k := by simpa using List.find?_some hf
      subst hk
      have := (lookup_entries m e.1 e.2).2 (List.mem_of_find?_eq_some hf)
      rw [h] at this
      cases this
      rfl

theorem combine_lookup (a b : RecordType) (k : String) :
    (a.combine b).map.lookup k =
      match a.map.lookup k, b.map.lookup k with
      | some t, some u => some (.intersection t u)
      | some t, none => some t
      | none, some u => some u
      | none, none => none := by
  unfold RecordType.combine
  simp only
  rw [foldl_insert_lookup (fun e => if e.1 ∈ a.map.keys then none else some e.2) _ ?_ _ b.map.nodupKeys,
    foldl_insert_lookup (fun e => some ((b.map.lookup e.1).elim e.2 fun t => .intersection e.2 t)) _ ?_ _
      a.map.nodupKeys, find_entries, find_entries]
  rotate_left
  · intro m e
    unfold RecordType.leftStep
    cases AList.lookup e.1 b.map <;> rfl
  · intro m e
    unfold RecordType.rightStep
    by_cases h : e.1 ∈ a.map.keys <;> simp [h]
  have hmem : k ∈ a.map.keys ↔ ∃ v, a.map.lookup k = some v := mem_keys_lookup _ _
  cases ha : a.map.lookup k <;> cases hb : b.map.lookup k <;> simp [hmem, ha, hb]

theorem combine_open (a b : RecordType) : (a.combine b).isOpen = false := rfl

/-- Every declared key is present with values of its type. -/
def Declared (X : Ext) (t : RecordType) (r : Record) : Prop :=
  ∀ k T, t.map.lookup k = some T → ∃ vs, r.lookup k = some vs ∧ Accepts X T vs

/-- The declared keys. -/
def RecordType.keySet (t : RecordType) : Finset String := t.map.keys.toFinset

theorem mem_keySet (t : RecordType) (k : String) : k ∈ t.keySet ↔ ∃ T, t.map.lookup k = some T := by
  rw [RecordType.keySet, List.mem_toFinset, mem_keys_lookup]

theorem mem_keysOf (r : Record) (k : String) : k ∈ keysOf r ↔ ∃ T, r.lookup k = some T := by
  rw [keysOf, List.mem_toFinset, mem_keys_lookup]

theorem combine_keySet (a b : RecordType) : (a.combine b).keySet = a.keySet ∪ b.keySet := by
  ext k
  rw [Finset.mem_union, mem_keySet, mem_keySet, mem_keySet, combine_lookup]
  cases a.map.lookup k <;> cases b.map.lookup k <;> simp

theorem combine_declared (X : Ext) (a b : RecordType) (r : Record) :
    Declared X (a.combine b) r ↔ Declared X a r ∧ Declared X b r := by
  constructor
  · intro h
    constructor
    · intro k T hT
      have hl := combine_lookup a b k
      rw [hT] at hl
      cases hb : b.map.lookup k with
      | none =>
        rw [hb] at hl
        exact h k T hl
      | some U =>
        rw [hb] at hl
        obtain ⟨vs, hvs, ha⟩ := h k _ hl
        exact ⟨vs, hvs, ha.1⟩
    · intro k T hT
      have hl := combine_lookup a b k
      rw [hT] at hl
      cases hb : a.map.lookup k with
      | none =>
        rw [hb] at hl
        exact h k T hl
      | some U =>
        rw [hb] at hl
        obtain ⟨vs, hvs, ha⟩ := h k _ hl
        exact ⟨vs, hvs, ha.2⟩
  · rintro ⟨ha, hb⟩ k T hT
    rw [combine_lookup] at hT
    cases hla : a.map.lookup k with
    | none =>
      cases hlb : b.map.lookup k with
      | none => rw [hla, hlb] at hT; cases hT
      | some U =>
        rw [hla, hlb] at hT
        cases hT
        exact hb k _ hlb
    | some U =>
      cases hlb : b.map.lookup k with
      | none =>
        rw [hla, hlb] at hT
        cases hT
        exact ha k _ hla
      | some W =>
        rw [hla, hlb] at hT
        cases hT
        obtain ⟨vs, hvs, h1⟩ := ha k U hla
        obtain ⟨ws, hws, h2⟩ := hb k W hlb
        rw [hvs] at hws
        cases hws
        exact ⟨vs, hvs, h1, h2⟩

theorem closed_conforms (X : Ext) (t : RecordType) (r : Record) (hc : t.isOpen = false) :
    Positively (t.conforms X r) ↔ Declared X t r ∧ keysOf r = t.keySet := by
  rw [conforms_record, Belongs]
  constructor
  · rintro ⟨h1, h2⟩
    refine ⟨h1, ?_⟩
    ext k
    rw [mem_keysOf, mem_keySet]
    exact ⟨fun ⟨vs, hvs⟩ => h2 hc k vs hvs, fun ⟨T, hT⟩ => let ⟨vs, hvs, _⟩ := h1 k T hT; ⟨vs, hvs⟩⟩
  · rintro ⟨h1, h2⟩
    refine ⟨h1, fun _ k vs hvs => ?_⟩
    rw [← mem_keySet, ← h2, mem_keysOf]
    exact ⟨vs, hvs⟩

theorem empty_keySet : RecordType.empty.keySet = ∅ := rfl

theorem empty_declared (X : Ext) (r : Record) : Declared X RecordType.empty r := by
  intro k T hT
  simp [RecordType.empty] at hT

theorem single_lookup (k : String) (T : ValueType) (x : String) :
    (RecordType.empty.withKeyValue k T).map.lookup x = if x = k then some T else none := by
  by_cases h : x = k
  · subst h
    rw [if_pos rfl]
    exact AList.lookup_insert _
  · rw [if_neg h]
    exact (AList.lookup_insert_ne h).trans (AList.lookup_empty _)

theorem single_keySet (k : String) (T : ValueType) : (RecordType.empty.withKeyValue k T).keySet = {k} := by
  ext x
  rw [mem_keySet, Finset.mem_singleton, single_lookup]
  by_cases h : x = k <;> simp [h]

theorem single_declared (X : Ext) (k : String) (T : ValueType) (r : Record) :
    Declared X (RecordType.empty.withKeyValue k T) r ↔ ∃ vs, r.lookup k = some vs ∧ Accepts X T vs := by
  constructor
  · intro h
    exact h k T (by rw [single_lookup, if_pos rfl])
  · rintro h x U hU
    rw [single_lookup] at hU
    by_cases hx : x = k
    · subst hx
      rw [if_pos rfl] at hU
      cases hU
      exact h
    · rw [if_neg hx] at hU
      cases hU

/-- Some record type of a list has the keys `K` and its declared keys are right in `r`. -/
def Some' (X : Ext) (r : Record) (ts : List RecordType) (K : Finset String) : Prop :=
  ∃ t ∈ ts, t.keySet = K ∧ Declared X t r

theorem some_combine (X : Ext) (r : Record) (as bs : List RecordType) (K : Finset String) :
    Some' X r (as.flatMap fun l => bs.map fun x => l.combine x) K ↔
      ∃ K1 K2, K = K1 ∪ K2 ∧ Some' X r as K1 ∧ Some' X r bs K2 := by
  constructor
  · rintro ⟨t, ht, hk, hd⟩
    rw [List.mem_flatMap] at ht
    obtain ⟨a, ha, ht⟩ := ht
    rw [List.mem_map] at ht
    obtain ⟨b, hb, rfl⟩ := ht
    rw [combine_keySet] at hk
    rw [combine_declared] at hd
    exact ⟨a.keySet, b.keySet, hk.symm, ⟨a, ha, rfl, hd.1⟩, ⟨b, hb, rfl, hd.2⟩⟩
  · rintro ⟨K1, K2, rfl, ⟨a, ha, rfl, hd1⟩, ⟨b, hb, rfl, hd2⟩⟩
    refine ⟨a.combine b, List.mem_flatMap.2 ⟨a, ha, List.mem_map.2 ⟨b, hb, rfl⟩⟩, combine_keySet _ _, ?_⟩
    rw [combine_declared]
    exact ⟨hd1, hd2⟩

theorem semantics_choice (X : Ext) (r : Record) (p : PropValue) (hp : NoEmpty p) (K : Finset String) :
    Some' X r p.semantics K ↔ Choice X r p K := by
  induction p generalizing K with
  | eachOf a b iha ihb =>
    rw [PropValue.semantics, some_combine, Choice]
    simp only [iha hp.1, ihb hp.2]
  | oneOf a b iha ihb =>
    rw [Choice, ← iha hp.1, ← ihb hp.2]
    simp only [PropValue.semantics, Some', List.mem_append]
    constructor
    · rintro ⟨t, h | h, hk⟩
      exacts [Or.inl ⟨t, h, hk⟩, Or.inr ⟨t, h, hk⟩]
    · rintro (⟨t, h, hk⟩ | ⟨t, h, hk⟩)
      exacts [⟨t, Or.inl h, hk⟩, ⟨t, Or.inr h, hk⟩]
  | property k t =>
    simp only [PropValue.semantics, Some', List.mem_singleton, exists_eq_left, single_keySet, single_declared,
      toValueType_accepts, Choice, eq_comm]
  | optionalProperty k t =>
    simp only [PropValue.semantics, Some', List.mem_cons, List.not_mem_nil, or_false, Choice]
    constructor
    · rintro ⟨u, rfl | rfl, hk, hd⟩
      · rw [single_declared] at hd
        rw [single_keySet] at hk
        simp only [toValueType_accepts] at hd
        exact Or.inl ⟨hk.symm, hd⟩
      · exact Or.inr (by rw [← hk, empty_keySet])
    · rintro (⟨rfl, hd⟩ | rfl)
      · refine ⟨_, Or.inl rfl, single_keySet _ _, ?_⟩
        rw [single_declared]
        simpa only [toValueType_accepts] using hd
      · exact ⟨_, Or.inr rfl, empty_keySet, empty_declared X r⟩
  | empty => exact hp.elim

theorem semantics_closed (p : PropValue) : ∀ t ∈ p.semantics, t.isOpen = false := by
  induction p with
  | eachOf a b _ _ =>
    intro t ht
    simp only [PropValue.semantics, List.mem_flatMap, List.mem_map] at ht
    obtain ⟨x, _, y, _, rfl⟩ := ht
    rfl
  | oneOf a b iha ihb =>
    intro t ht
    simp only [PropValue.semantics, List.mem_append] at ht
    exact ht.elim (iha t) (ihb t)
  | property k t => simp [PropValue.semantics, RecordType.withKeyValue, RecordType.empty]
  | optionalProperty k t => simp [PropValue.semantics, RecordType.withKeyValue, RecordType.empty]
  | empty => simp [PropValue.semantics]

theorem semantics_nonempty (p : PropValue) (hp : NoEmpty p) : p.semantics ≠ [] := by
  induction p with
  | eachOf a b iha ihb =>
    obtain ⟨x, hx⟩ := List.exists_mem_of_ne_nil _ (iha hp.1)
    obtain ⟨y, hy⟩ := List.exists_mem_of_ne_nil _ (ihb hp.2)
    intro h
    have : x.combine y ∈ (PropValue.eachOf a b).semantics := by
      simp only [PropValue.semantics, List.mem_flatMap, List.mem_map]
      exact ⟨x, hx, y, hy, rfl⟩
    rw [h] at this
    cases this
  | oneOf a b iha ihb =>
    simp only [PropValue.semantics]
    intro h
    exact iha hp.1 (List.append_eq_nil_iff.1 h).1
  | property k t => simp [PropValue.semantics]
  | optionalProperty k t => simp [PropValue.semantics]
  | empty => exact hp.elim

theorem base_conforms (X : Ext) (t : BaseType) (L : LabelSet) (r : Record) :
    Positively (t.conforms X L r) ↔ L ∈ t.labels ∧ ∃ rt ∈ t.content, Positively (rt.conforms X r) := by
  unfold BaseType.conforms
  by_cases h1 : L ∈ t.labels
  · by_cases h2 : (t.content.any fun rt => (rt.conforms X r).isRight) = true
    · simp only [h1, decide_true, Bool.not_true, Bool.false_eq_true, if_false, h2, if_true, true_and]
      rw [List.any_eq_true] at h2
      obtain ⟨x, hx, hx'⟩ := h2
      exact ⟨fun _ => ⟨x, hx, (isRight_iff _).1 hx'⟩, fun _ => ⟨_, rfl⟩⟩
    · simp only [h1, decide_true, Bool.not_true, Bool.false_eq_true, if_false, h2, true_and]
      constructor
      · rintro ⟨_, h⟩
        cases h
      · rintro ⟨x, hx, hx'⟩
        exact (h2 (List.any_eq_true.2 ⟨x, hx, (isRight_iff _).2 hx'⟩)).elim
  · simp [h1, Positively]

theorem mem_combineLabelSets (a b : List LabelSet) (ha : a ≠ []) (hb : b ≠ []) (L : LabelSet) :
    L ∈ combineLabelSets a b ↔ ∃ x ∈ a, ∃ y ∈ b, x ∪ y = L := by
  simp [combineLabelSets, ha, hb]

theorem combineSetRecords_eq (a b : List RecordType) (ha : a ≠ []) (hb : b ≠ []) :
    combineSetRecords a b = a.flatMap fun x => b.map fun y => x.combine y := by
  simp [combineSetRecords, ha, hb]

end Pg
