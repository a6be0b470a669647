import Verif.Cache.LemmasBack
import Verif.Cache.LemmasStable

/-! # Property theorems: precompiled schemas (C139) -/

namespace Cache

open Rbe (Mx Card Struct)

variable (X : Ext)

/-! ## Helpers -/

theorem ofLe32_le32 (n : Nat) (h : n < 2 ^ 32) : ofLe32 (le32 n) = n := by
  simp only [le32, ofLe32, UInt8.toNat_ofNat']
  omega

theorem reads_readHeader (h : Header) (hl : (encHeader h).length < 2 ^ 32) :
    Reads readHeader (magic ⧺ le32 cacheVersion ⧺ le32 (encHeader h).length ⧺ encHeader h)
      (.ok h) := by
  refine Reads.tag (reads_take' magic 4 rfl) ?_
  rw [if_pos rfl]
  refine Reads.tag (reads_take' _ 4 rfl) ?_
  rw [if_pos (by decide)]
  refine Reads.tag (reads_take' _ 4 rfl) ?_
  rw [ofLe32_le32 _ hl]
  have h2 : fromBytes decHeader (encHeader h) = .ok h := by
    have h3 : Reads decHeader (encHeader h) (.ok h) :=
      Reads.tag (reads_var 0) (Reads.tag (reads_str _) (reads_lastOk (reads_bool _)))
    have h4 := h3 []
    rw [List.append_nil] at h4
    unfold fromBytes
    rw [h4]
    rfl
  exact Reads.cast (Reads.lastLift (reads_take _)) h2

theorem write_eq {v : String} {neg : Deps → Bool} {s : Schema} {b : Bytes}
    (hw : write v neg s = .ok b) :
    (encHeader ⟨v, neg s.deps⟩).length < 2 ^ 32 ∧
      b = (magic ⧺ le32 cacheVersion ⧺ le32 (encHeader ⟨v, neg s.deps⟩).length ⧺
        encHeader ⟨v, neg s.deps⟩) ++ encSchema s := by
  unfold write writeHeader at hw
  split at hw
  · rename_i h
    exact ⟨h, (Res.ok.inj hw).symm⟩
  · cases hw

theorem read_write {v : String} {neg : Deps → Bool} {s : Schema} {b : Bytes}
    (hw : write v neg s = .ok b) (registry : Nat) (mode : Mode) :
    read X registry mode b =
      if mode = .strict ∧ neg s.deps = true then .err
      else backSchema X s >>= fun s' => .ok { s' with registry := registry } := by
  obtain ⟨hl, rfl⟩ := write_eq hw
  unfold read
  rw [reads_readHeader _ hl (encSchema s)]
  simp only [res_ok_bind]
  split
  · rfl
  · have h := reads_schema X s []
    rw [List.append_nil] at h
    unfold fromBytes
    rw [h]
    cases backSchema X s <;> rfl

theorem read_ok {registry : Nat} {mode : Mode} {bs : Bytes} {s : Schema}
    (h : read X registry mode bs = .ok s) :
    ∃ hd body s' r, readHeader bs = .ok (hd, body) ∧ ¬ (mode = .strict ∧ hd.hasNegCycle = true) ∧
      decSchema X body = .ok (s', r) ∧ s = { s' with registry := registry } := by
  unfold read at h
  split at h
  · rename_i hd body hh
    split at h
    · cases h
    · rename_i hm
      cases hd2 : decSchema X body with
      | ok p =>
        simp only [fromBytes, hd2] at h
        exact ⟨hd, body, p.1, p.2, hh, hm, hd2, (Res.ok.inj h).symm⟩
      | err => simp [fromBytes, hd2] at h
      | panic => simp [fromBytes, hd2] at h
  · cases h
  · cases h

theorem var_length_le (n : Nat) : (var n).length ≤ n + 1 := by
  induction n using Nat.strongRecOn with
  | ind n ih =>
    unfold var
    split
    · simp
    · have := ih (n / 128) (by omega)
      simp only [List.length_cons]
      omega

/-! ## What can be written, and what can be read again -/

/-- Every compiled schema can be written, whatever is in it. -/
theorem C139_written (v : String) (neg : Deps → Bool) (s : Schema) (hv : v.toUTF8.size < 2 ^ 30) :
    ∃ b, write v neg s = .ok b := by
  have h : (encHeader ⟨v, neg s.deps⟩).length < 2 ^ 32 := by
    unfold encHeader encStr encBool
    have h1 := var_length_le v.toUTF8.data.toList.length
    have h2 : v.toUTF8.data.toList.length = v.toUTF8.size := rfl
    have h3 := var_length_le 0
    simp only [List.length_append, List.length_cons, List.length_nil]
    omega
  exact ⟨_, by unfold write writeHeader; rw [if_pos h]; rfl⟩

/-- A written schema can be read exactly when there is no negative cycle or the reader is lax, and
every part of it is readable. -/
theorem C139_read_iff (v : String) (neg : Deps → Bool) (s : Schema) (b : Bytes)
    (hw : write v neg s = .ok b) (registry : Nat) (mode : Mode) :
    (∃ s', read X registry mode b = .ok s') ↔
      (mode = .strict → neg s.deps = false) ∧ inSchema (Leaf.readable X) s := by
  rw [read_write X hw, ← ok_schema]
  split
  · rename_i h
    simp [h.1, h.2]
  · rename_i h
    rw [ok_bind_iff]
    have h2 : mode = .strict → neg s.deps = false := by
      intro hm
      cases hn : neg s.deps with
      | false => rfl
      | true => exact (h ⟨hm, hn⟩).elim
    constructor
    · rintro ⟨a, ha, _⟩
      exact ⟨h2, a, ha⟩
    · rintro ⟨_, a, ha⟩
      exact ⟨a, ha, _, rfl⟩

/-- When every part of a schema is kept, reading gives the schema with the registry of the reader,
without the sources of the node constraints and with `_:` before the labels of blank nodes. -/
theorem C139_again (v : String) (neg : Deps → Bool) (s : Schema) (b : Bytes)
    (hw : write v neg s = .ok b) (registry : Nat) (mode : Mode)
    (hm : mode = .strict → neg s.deps = false) (hk : inSchema (Leaf.kept X) s) :
    read X registry mode b = .ok (s.again registry) := by
  rw [read_write X hw, kept_schema X s hk, if_neg]
  · rfl
  · rintro ⟨h1, h2⟩
    rw [hm h1] at h2
    cases h2

theorem again_label {l : Label} (h : Leaf.plain (.label l)) : l.again = l := by
  cases l with
  | bnode m => exact h.elim
  | _ => rfl

theorem again_sexpr {e : SExpr} (h : inSExpr Leaf.plain e) : e.again = e := by
  cases e with
  | nodeConstraint b c d =>
    have hb : b = false := h.1
    subst hb
    rfl
  | _ => rfl

/-- When moreover there are no blank nodes among the labels and no sources of node constraints at
hand, what is read is what was written. -/
theorem C139_same_partial (v : String) (neg : Deps → Bool) (s : Schema) (b : Bytes)
    (hw : write v neg s = .ok b) (mode : Mode)
    (hm : mode = .strict → neg s.deps = false) (hk : inSchema (Leaf.kept X) s)
    (hp : inSchema Leaf.plain s) :
    read X s.registry mode b = .ok s := by
  rw [C139_again X v neg s b hw s.registry mode hm hk]
  congr 1
  obtain ⟨h1, h2, h3, _⟩ := hp
  have e1 : (s.labels.map fun e => (e.1.again, e.2)) = s.labels := by
    conv => rhs; rw [← List.map_id s.labels]
    exact List.map_congr_left fun e he => by rw [again_label (h1.1 e he).1]; rfl
  have e2 : (s.idxLabels.map fun e => (e.1, e.2.again)) = s.idxLabels := by
    conv => rhs; rw [← List.map_id s.idxLabels]
    exact List.map_congr_left fun e he => by rw [again_label (h2.1 e he).2]; rfl
  have e3 : (s.shapes.map fun e => (e.1, e.2.again)) = s.shapes := by
    conv => rhs; rw [← List.map_id s.shapes]
    refine List.map_congr_left fun e he => ?_
    have hi := (h3.1 e he).2
    have h4 : e.2.again = e.2 := by
      unfold Info.again
      rw [again_sexpr hi.2]
      have : e.2.label.map Label.again = e.2.label := by
        cases hl : e.2.label with
        | none => rfl
        | some l => simp [again_label (hi.1 l hl)]
      rw [this]
    rw [h4]
    rfl
  unfold Schema.again
  rw [e1, e2, e3]

/-! ## Labels -/

theorem lookup_map {β : Type} (l : List (Label × β)) (x : Label) :
    (l.map fun e => (e.1.again, e.2)).lookup x.again = l.lookup x := by
  induction l with
  | nil => rfl
  | cons e l ih =>
    obtain ⟨y, z⟩ := e
    simp only [List.map_cons, List.lookup_cons]
    by_cases h : x = y
    · subst h; simp
    · have h2 : x.again ≠ y.again := fun hh => h (again_injective hh)
      have h3 : (x.again == y.again) = false := by simpa using h2
      have h4 : (x == y) = false := by simpa using h
      rw [h3, h4]
      exact ih

/-- Shapes with an IRI as their label, and the start shape, are found again under it; one with a
blank node is found under another label only. -/
theorem C139_labels (v : String) (neg : Deps → Bool) (s : Schema) (b : Bytes)
    (hw : write v neg s = .ok b) (registry : Nat) (mode : Mode) (s' : Schema)
    (hr : read X registry mode b = .ok s') (hk : inSchema (Leaf.kept X) s) :
    (∀ i, s'.find (.iri i) = s.find (.iri i)) ∧ s'.find .start = s.find .start ∧
    (∀ m, s'.find (.bnode ("_:" ++ m)) = s.find (.bnode m)) ∧
    ∀ m, (∀ m', m ≠ "_:" ++ m') → s'.find (.bnode m) = none := by
  have hm := ((C139_read_iff X v neg s b hw registry mode).mp ⟨s', hr⟩).1
  rw [C139_again X v neg s b hw registry mode hm hk] at hr
  obtain rfl := (Res.ok.inj hr).symm
  refine ⟨fun i => lookup_map s.labels (.iri i), lookup_map s.labels .start,
    fun m => lookup_map s.labels (.bnode m), fun m hne => ?_⟩
  unfold Schema.find Schema.again
  rw [List.lookup_eq_none_iff]
  intro e he
  simp only [List.mem_map] at he
  obtain ⟨e0, _, rfl⟩ := he
  cases hl : e0.1 with
  | iri i => simp [Label.again]
  | bnode m' => simpa [Label.again] using hne m'
  | start => simp [Label.again]

/-! ## Negative cycles -/

/-- A strict reader refuses a schema with a negative cycle; otherwise both readers do the same. -/
theorem C139_strict (v : String) (neg : Deps → Bool) (s : Schema) (b : Bytes)
    (hw : write v neg s = .ok b) (registry : Nat) :
    read X registry .strict b = if neg s.deps then .err else read X registry .lax b := by
  rw [read_write X hw, read_write X hw]
  cases neg s.deps <;> simp

/-! ## Damaged files -/

/-- Nothing can be read from a file that was cut short. -/
theorem C139_cut (v : String) (neg : Deps → Bool) (s : Schema) (b p t : Bytes)
    (hw : write v neg s = .ok b) (hb : b = p ++ t) (ht : t ≠ []) (registry : Nat) (mode : Mode)
    (s' : Schema) : read X registry mode p ≠ .ok s' := by
  intro h
  obtain ⟨hd, body, s1, r, h1, _, h2, _⟩ := read_ok X h
  have h3 := stable_readHeader _ _ _ t h1
  have h4 := stable_schema X _ _ _ t h2
  obtain ⟨hl, he⟩ := write_eq hw
  have h5 := reads_readHeader _ hl (encSchema s)
  rw [← he, hb, h3] at h5
  simp only [res_ok_bind, Res.ok.injEq, Prod.mk.injEq] at h5
  have h6 := reads_schema X s []
  rw [List.append_nil, ← h5.2, h4] at h6
  cases hbk : backSchema X s with
  | ok x =>
    rw [hbk] at h6
    simp only [res_ok_bind, Res.ok.injEq, Prod.mk.injEq, List.append_eq_nil_iff] at h6
    exact ht h6.2.2
  | err => rw [hbk] at h6; cases h6
  | panic => rw [hbk] at h6; cases h6

/-- What follows the end of a file is ignored. -/
theorem C139_trailing (registry : Nat) (mode : Mode) (bs t : Bytes) (s : Schema)
    (h : read X registry mode bs = .ok s) : read X registry mode (bs ++ t) = .ok s := by
  obtain ⟨hd, body, s1, r, h1, h2, h3, h4⟩ := read_ok X h
  unfold read
  rw [stable_readHeader _ _ _ t h1]
  simp only
  rw [if_neg h2]
  simp only [fromBytes, stable_schema X _ _ _ t h3]
  rw [h4]

theorem ofLe32_one (b : Bytes) (hl : b.length = 4) (h : ofLe32 b = 1) : b = [1, 0, 0, 0] := by
  match b, hl with
  | [a, b, c, d], _ =>
    simp only [ofLe32] at h
    have ha : a.toNat = 1 := by omega
    have hb : b.toNat = 0 := by omega
    have hc : c.toNat = 0 := by omega
    have hd : d.toNat = 0 := by omega
    rw [← UInt8.ofNat_toNat (x := a), ← UInt8.ofNat_toNat (x := b), ← UInt8.ofNat_toNat (x := c),
      ← UInt8.ofNat_toNat (x := d), ha, hb, hc, hd]
    rfl

theorem take_ok {n : Nat} {bs a r : Bytes} (h : decTake n bs = .ok (a, r)) :
    bs = a ++ r ∧ a.length = n := by
  unfold decTake at h
  split at h
  · cases h
    simpa using by assumption
  · cases h

/-- Only files that begin with `RSIR` and with the number 1 in four bytes can be read. -/
theorem C139_magic (registry : Nat) (mode : Mode) (bs : Bytes) (s : Schema)
    (h : read X registry mode bs = .ok s) : ∃ rest, bs = [82, 83, 73, 82, 1, 0, 0, 0] ++ rest := by
  obtain ⟨hd, body, s1, r, h1, _⟩ := read_ok X h
  unfold readHeader at h1
  rw [dec_bind] at h1
  cases hm : decTake 4 bs with
  | ok p =>
    rw [hm] at h1
    simp only [res_ok_bind] at h1
    split at h1
    · rename_i hmag
      rw [dec_bind] at h1
      cases hv : decTake 4 p.2 with
      | ok q =>
        rw [hv] at h1
        simp only [res_ok_bind] at h1
        split at h1
        · rename_i hver
          have e1 := take_ok hm
          have e2 := take_ok hv
          refine ⟨q.2, ?_⟩
          rw [e1.1, hmag, e2.1, ofLe32_one q.1 e2.2 hver]
          rfl
        · cases h1
      | err => rw [hv] at h1; cases h1
      | panic => rw [hv] at h1; cases h1
    · cases h1
  | err => rw [hm] at h1; cases h1
  | panic => rw [hm] at h1; cases h1

/-- Reading computes the symbols and the flag of an expression again, and finds the same ones. -/
theorem C139_struct {A : Type} [DecidableEq A] (s : Struct A) (h : Rbe.Built s) :
    Struct.ofExpr s.rbe = s := ofExpr_built h

/-! ## Examples, and schemas that do not come back -/

/-- IRIs that begin with `http`; every decimal and every date-time. -/
def exExt : Ext := ⟨fun s => "http".toList.isPrefixOf s.toList, some, some⟩

/-- The shape with one predicate and one cardinality and value set. -/
def exTable (mx : Mx) (vs : List Value) : Table :=
  ⟨Struct.symbol 0 0 mx, [(⟨"http://p", true⟩, [0])],
   [(0, .single none (some (.valueSet vs [("ex", "http://e")])))], [(0, ⟨"http://p", true⟩)],
   false, 1⟩

/-- A schema with a shape and a node constraint. -/
def exSchema (l : Label) (src : Bool) (mx : Mx) (vs : List Value) : Schema :=
  ⟨[(l, 0), (.iri "http://n", 1)], [(0, l), (1, .iri "http://n")],
   [(0, ⟨some l, .shape ⟨true, [], exTable mx vs, [], [], [⟨"http://p", true⟩], []⟩, 0⟩),
    (1, ⟨some (.iri "http://n"), .nodeConstraint src (.and [.ref 0, .single none none]) "x", 0⟩)],
   2, [("http://s", 0)], [(0, "http://s")], 1, [("ex", "http://e")], 2, 2, [],
   ⟨[0, 1], [((1, 0), false)]⟩, ⟨[], []⟩, [], 7, some "http://b", []⟩

theorem exSchema_kept (l : Label) (src : Bool) (mx : Mx) (vs : List Value)
    (hl : Leaf.kept exExt (.label l)) (hn : l ≠ .iri "http://n") (hm : Leaf.kept exExt (.max mx))
    (hv : inAll (inValue (Leaf.kept exExt)) vs) :
    inSchema (Leaf.kept exExt) (exSchema l src mx vs) := by
  have hd : ∀ b, b = true → Leaf.kept exExt (.distinct b) := fun _ h => h
  have hi : ∀ i : String, "http".toList.isPrefixOf i.toList = true → Leaf.kept exExt (.iri i) :=
    fun i h => .inr h
  have hn2 : Leaf.kept exExt (.label (.iri "http://n")) := ⟨by decide, by decide +kernel⟩
  refine ⟨⟨?_, hd _ ?_⟩, ⟨?_, hd _ ?_⟩, ⟨?_, hd _ ?_⟩, ⟨?_, hd _ ?_⟩, ⟨?_, hd _ ?_⟩, ⟨?_, hd _ ?_⟩,
    ?_, hd _ ?_, ?_, ?_⟩
  all_goals try (show decide _ = true; first | decide | (simp [exSchema]; done))
  · intro e he
    simp only [exSchema, List.mem_cons, List.not_mem_nil, or_false] at he
    rcases he with rfl | rfl
    · exact ⟨hl, trivial⟩
    · exact ⟨hn2, trivial⟩
  · simp [exSchema, hn]
  · intro e he
    simp only [exSchema, List.mem_cons, List.not_mem_nil, or_false] at he
    rcases he with rfl | rfl
    · exact ⟨trivial, hl⟩
    · exact ⟨trivial, hn2⟩
  · intro e he
    simp only [exSchema, List.mem_cons, List.not_mem_nil, or_false] at he
    rcases he with rfl | rfl
    · refine ⟨trivial, fun a ha => ?_, ?_⟩
      · cases ha; exact hl
      · refine ⟨?_, ⟨⟨?_, .symbol _ _ _⟩, ⟨?_, hd _ ?_⟩, ⟨?_, hd _ ?_⟩, ⟨?_, hd _ ?_⟩⟩, ?_, ?_, ?_⟩
        all_goals try (show decide _ = true; first | decide | (simp [exTable]; done))
        · intro a ha; cases ha
        · simpa [exTable, Struct.symbol, inExpr] using hm
        · intro a ha
          simp only [exTable, List.mem_cons, List.not_mem_nil, or_false] at ha
          subst ha
          exact ⟨hi _ (by decide +kernel), hd _ (by decide)⟩
        · intro a ha
          simp only [exTable, List.mem_cons, List.not_mem_nil, or_false] at ha
          subst ha
          refine ⟨trivial, ?_⟩
          simp only [inCond]
          intro k hk
          cases hk
          refine ⟨hv, ?_, hd _ (by decide)⟩
          intro e he
          simp only [List.mem_cons, List.not_mem_nil, or_false] at he
          subst he
          exact ⟨trivial, hi _ (by decide +kernel)⟩
        · intro a ha
          simp only [exTable, List.mem_cons, List.not_mem_nil, or_false] at ha
          subst ha
          exact ⟨trivial, hi _ (by decide +kernel)⟩
        · intro a ha; cases ha
        · intro a ha; cases ha
        · intro a ha
          simp only [List.mem_cons, List.not_mem_nil, or_false] at ha
          subst ha
          exact hi _ (by decide +kernel)
    · refine ⟨trivial, fun a ha => ?_, ?_⟩
      · cases ha; exact hn2
      · refine ⟨trivial, ?_⟩
        simp [inCond, inConds, inOpt]
  · intro e he
    simp only [exSchema, List.mem_cons, List.not_mem_nil, or_false] at he
    subst he
    exact ⟨hi _ (by decide +kernel), trivial⟩
  · intro e he
    simp only [exSchema, List.mem_cons, List.not_mem_nil, or_false] at he
    subst he
    exact ⟨trivial, hi _ (by decide +kernel)⟩
  · intro e he
    simp only [exSchema, List.mem_cons, List.not_mem_nil, or_false] at he
    subst he
    exact ⟨trivial, hi _ (by decide +kernel)⟩
  · intro a ha; cases ha
  · intro a ha
    cases ha
    exact hi _ (by decide +kernel)
  · intro a ha; cases ha

/-- A schema with an IRI as label: it is written and read again. -/
example : ∃ b, write "0.3" (fun _ => false)
      (exSchema (.iri "http://S") true (.intMax 3) [.language "en"]) = .ok b ∧
    read exExt 5 .strict b =
      .ok ((exSchema (.iri "http://S") true (.intMax 3) [.language "en"]).again 5) ∧
    (∃ s', read exExt 5 .strict b = .ok s' ∧ s'.find (.iri "http://S") = some 0) := by
  obtain ⟨b, hb⟩ := C139_written "0.3" (fun _ => false)
    (exSchema (.iri "http://S") true (.intMax 3) [.language "en"]) (by decide +kernel)
  have hk : inSchema (Leaf.kept exExt)
      (exSchema (.iri "http://S") true (.intMax 3) [.language "en"]) := by
    refine exSchema_kept _ _ _ _ ⟨by decide, by decide +kernel⟩ (by decide) ⟨by decide, by decide⟩ ?_
    intro v hv
    simp only [List.mem_cons, List.not_mem_nil, or_false] at hv
    subst hv
    trivial
  have h := C139_again exExt _ _ _ b hb 5 .strict (fun _ => rfl) hk
  refine ⟨b, hb, h, _, h, ?_⟩
  exact ((C139_labels exExt _ _ _ b hb 5 .strict _ h hk).1 "http://S").trans rfl

/-- The same schema with a negative cycle, cut short, and with more after its end. -/
example : ∃ b, write "0.3" (fun _ => true)
      (exSchema (.iri "http://S") true (.intMax 3) []) = .ok b ∧
    read exExt 5 .strict b = .err ∧
    read exExt 5 .lax b = .ok ((exSchema (.iri "http://S") true (.intMax 3) []).again 5) ∧
    (∀ s', read exExt 5 .lax b.dropLast ≠ .ok s') ∧
    (∃ s', read exExt 5 .lax (b ++ [1, 2]) = .ok s') ∧
    ∃ rest, b = [82, 83, 73, 82, 1, 0, 0, 0] ++ rest := by
  obtain ⟨b, hb⟩ := C139_written "0.3" (fun _ => true)
    (exSchema (.iri "http://S") true (.intMax 3) []) (by decide +kernel)
  have hk : inSchema (Leaf.kept exExt) (exSchema (.iri "http://S") true (.intMax 3) []) :=
    exSchema_kept _ _ _ _ ⟨by decide, by decide +kernel⟩ (by decide) ⟨by decide, by decide⟩
      (fun _ h => by cases h)
  have h := C139_again exExt _ _ _ b hb 5 .lax (fun h => by cases h) hk
  have hne : b ≠ [] := by
    intro h0
    obtain ⟨rest, hr⟩ := C139_magic exExt _ _ _ _ h
    rw [h0] at hr
    cases hr
  refine ⟨b, hb, C139_strict exExt _ _ _ b hb 5, h, fun s' => ?_,
    ⟨_, C139_trailing exExt _ _ _ _ _ h⟩, C139_magic exExt _ _ _ _ h⟩
  exact C139_cut exExt _ _ _ b b.dropLast [b.getLast hne] hb
    (List.dropLast_append_getLast hne).symm (by simp) 5 .lax s'

example : Struct.ofExpr (Struct.opt (Struct.symbol 3 1 .unbounded)).rbe =
    Struct.opt (Struct.symbol 3 1 .unbounded) :=
  C139_struct _ (.opt _ (.symbol _ _ _))

/-- A blank node as the label of a shape comes back as another one, so that the shape is not found:
not every schema that is read is the one that was written. -/
theorem C139_same_refuted :
    ∃ (X : Ext) (s s' : Schema) (b : Bytes), write "0.3" (fun _ => false) s = .ok b ∧
      read X s.registry .strict b = .ok s' ∧
      s.find (.bnode "S") = some 0 ∧ s'.find (.bnode "S") = none := by
  obtain ⟨b, hb⟩ := C139_written "0.3" (fun _ => false) (exSchema (.bnode "S") false .unbounded [])
    (by decide +kernel)
  have hk : inSchema (Leaf.kept exExt) (exSchema (.bnode "S") false .unbounded []) :=
    exSchema_kept _ _ _ _ (by unfold Leaf.kept; decide +kernel) (by decide) trivial (fun _ h => by cases h)
  have h := C139_again exExt _ _ _ b hb 7 .strict (fun _ => rfl) hk
  refine ⟨exExt, _, _, b, hb, h, rfl, ?_⟩
  refine (C139_labels exExt _ _ _ b hb 7 .strict _ h hk).2.2.2 "S" ?_
  intro m hm
  have := congrArg String.toList hm
  simp at this

/-- A schema with a triple constraint that may not occur, which is written, makes the reader
panic. -/
theorem C139_zero_refuted :
    ∃ (X : Ext) (s : Schema) (b : Bytes), write "0.3" (fun _ => false) s = .ok b ∧
      read X s.registry .strict b = .panic := by
  obtain ⟨b, hb⟩ := C139_written "0.3" (fun _ => false)
    (exSchema (.iri "http://S") false (.intMax 0) []) (by decide +kernel)
  refine ⟨exExt, _, b, hb, ?_⟩
  rw [read_write exExt hb]
  rfl

/-- A schema with a boolean in a value set is written and cannot be read. -/
theorem C139_bool_refuted :
    ∃ (X : Ext) (s : Schema) (b : Bytes), write "0.3" (fun _ => false) s = .ok b ∧
      read X s.registry .strict b = .err := by
  obtain ⟨b, hb⟩ := C139_written "0.3" (fun _ => false)
    (exSchema (.iri "http://S") false .unbounded [.object (.literal (.boolean true))])
    (by decide +kernel)
  refine ⟨exExt, _, b, hb, ?_⟩
  rw [read_write exExt hb]
  rfl

end Cache
