import Verif.Qlever.StoreLemmas

/-!
# Properties of kept indexes (C151, C152)
-/

namespace Qlever

variable {Data : Type}

/-- C151: lists of inputs that come from paths give different bytes to the hash. -/
theorem C151_stream {l l' : List Source} (hl : ∀ s ∈ l, FromPath s) (hl' : ∀ s ∈ l', FromPath s) :
    stream l = stream l' ↔ l = l' :=
  ⟨stream_inj hl hl', congrArg stream⟩

/-- `/a` as N-Triples and as compressed N-Triples. -/
example : (∀ s ∈ [(⟨[47, 97], .nt, none, none⟩ : Source)], FromPath s) ∧
    ∀ s ∈ [(⟨[47, 97], .nt, none, some .bzip2⟩ : Source)], FromPath s := by
  simp [FromPath]

/-- C151: fingerprints differ when what is hashed differs in one byte. -/
theorem C151_one_byte {l l' : List Source} {a b : Bytes} {x y : UInt8} (h : stream l = a ++ x :: b)
    (h' : stream l' = a ++ y :: b) (hxy : x ≠ y) : fingerprint l ≠ fingerprint l' := by
  intro he
  have := fingerprint_eq he
  rw [h, h', fnv_append, fnv_append] at this
  exact fnv_byte hxy b this

/-- The same file as N-Triples and as N-Quads. -/
example : fingerprint [⟨[47, 97], .nt, none, none⟩] ≠ fingerprint [⟨[47, 97], .nq, none, none⟩] :=
  C151_one_byte (a := [47, 97, 0, 110]) (b := []) rfl rfl (by decide)

/-- C151: fingerprints are sixteen digits, and as texts they are the same only if the hashes are. -/
theorem C151_text (l l' : List Source) : (fingerprint l).length = 16 ∧
    (fingerprint l = fingerprint l' ↔ fnv fnvOffset (stream l) = fnv fnvOffset (stream l')) :=
  ⟨fingerprint_length l, fingerprint_eq, fun h => by unfold fingerprint; rw [h]⟩

/-- C151 (part): each load serves what its inputs hold at that time, whatever was loaded before. What is missing: a
directory given for the index (`C151_directory_refuted`), files written after they were loaded
(`C151_written_refuted`), inputs with graphs (`C151_graph_refuted`) and collisions of the hash. -/
theorem C151_served_partial (es : List (Event Data)) (k : Disk Data) (hk : ∀ d n, k.indexes d n = none) (hst : Steady es)
    (hd : ∀ c l, Event.load c l ∈ es → c.dir = none) (hp : ∀ c l, Event.load c l ∈ es → ∀ s ∈ l, FromPath s)
    (hh : ∀ c l c' l', Event.load c l ∈ es → Event.load c' l' ∈ es →
      fnv fnvOffset (stream l) = fnv fnvOffset (stream l') → stream l = stream l') :
    (history es k).1 = expected es k.files := by
  have hm : ∀ r ∈ loads es, Event.load r.1 r.2 ∈ es := by
    intro r hr
    clear hst hd hp hh
    induction es with
    | nil => simp [loads] at hr
    | cons e es ih =>
      cases e with
      | write p d => exact List.mem_cons_of_mem _ (ih hr)
      | load c l =>
        rcases List.mem_cons.1 hr with rfl | hr
        · simp
        · exact List.mem_cons_of_mem _ (ih hr)
  apply history_expected es [] k
  · intro d n es he
    rw [hk] at he
    simp at he
  · intro r hr r' hr' h
    simp only [List.nil_append] at hr hr'
    have e := resolve_eq (hd _ _ (hm r hr)) (hd _ _ (hm r' hr')) h
    exact stream_inj (hp _ _ (hm r hr)) (hp _ _ (hm r' hr')) (hh _ _ _ _ (hm r hr) (hm r' hr') (fingerprint_eq e))
  · simp
  · exact hst

/-- Two files loaded in turn, one written in between. -/
def sampleEvents : List (Event Nat) :=
  [.load ⟨none, [110], false, [47, 99]⟩ [⟨[47, 97], .nt, none, none⟩], .write [47, 98] 5,
   .load ⟨none, [110], false, [47, 99]⟩ [⟨[47, 98], .nt, none, none⟩],
   .load ⟨none, [110], false, [47, 99]⟩ [⟨[47, 97], .nt, none, none⟩]]

def sampleDisk : Disk Nat := ⟨fun p => if p = [47, 97] then some 3 else if p = [47, 98] then some 4 else none, fun _ _ => none⟩

example : (∀ d n, sampleDisk.indexes d n = none) ∧ Steady sampleEvents ∧
    (∀ c l, Event.load c l ∈ sampleEvents → c.dir = none) ∧
    (∀ c l, Event.load c l ∈ sampleEvents → ∀ s ∈ l, FromPath s) ∧
    (∀ c l c' l', Event.load c l ∈ sampleEvents → Event.load c' l' ∈ sampleEvents →
      fnv fnvOffset (stream l) = fnv fnvOffset (stream l') → stream l = stream l') := by
  refine ⟨fun _ _ => rfl, by simp [Steady, sampleEvents], ?_, ?_, ?_⟩
  · intro c l h
    simp only [sampleEvents, List.mem_cons, Event.load.injEq, reduceCtorEq, List.not_mem_nil, or_false, false_or] at h
    rcases h with ⟨rfl, rfl⟩ | ⟨rfl, rfl⟩ | ⟨rfl, rfl⟩ <;> rfl
  · intro c l h
    simp only [sampleEvents, List.mem_cons, Event.load.injEq, reduceCtorEq, List.not_mem_nil, or_false, false_or] at h
    rcases h with ⟨rfl, rfl⟩ | ⟨rfl, rfl⟩ | ⟨rfl, rfl⟩ <;> simp [FromPath]
  · intro c l c' l' h h'
    simp only [sampleEvents, List.mem_cons, Event.load.injEq, reduceCtorEq, List.not_mem_nil, or_false, false_or] at h h'
    rcases h with ⟨rfl, rfl⟩ | ⟨rfl, rfl⟩ | ⟨rfl, rfl⟩ <;> rcases h' with ⟨rfl, rfl⟩ | ⟨rfl, rfl⟩ | ⟨rfl, rfl⟩ <;>
      decide +kernel

example : (history sampleEvents sampleDisk).1 =
    [some [⟨.nt, none, none, 3⟩], none, some [⟨.nt, none, none, 5⟩], some [⟨.nt, none, none, 3⟩]] := by decide +kernel

/-- C151, as a whole, fails: in a directory given for the index the index of other inputs is served. -/
theorem C151_directory_refuted : ¬ ∀ (es : List (Event Nat)) (k : Disk Nat), (∀ d n, k.indexes d n = none) → Steady es →
    (∀ c l, Event.load c l ∈ es → ∀ s ∈ l, FromPath s) → (history es k).1 = expected es k.files := by
  intro h
  have := h [.load ⟨some [47, 105], [110], false, []⟩ [⟨[47, 97], .nt, none, none⟩],
    .load ⟨some [47, 105], [110], false, []⟩ [⟨[47, 98], .nt, none, none⟩]] sampleDisk (fun _ _ => rfl) (by simp [Steady]) (by
      intro c l h
      simp only [List.mem_cons, Event.load.injEq, List.not_mem_nil, or_false] at h
      rcases h with ⟨rfl, rfl⟩ | ⟨rfl, rfl⟩ <;> simp [FromPath])
  exact absurd this (by decide +kernel)

/-- C151, as a whole, fails: the index of a file is not made again when the file is written. -/
theorem C151_written_refuted : ¬ ∀ (es : List (Event Nat)) (k : Disk Nat), (∀ d n, k.indexes d n = none) →
    (∀ c l, Event.load c l ∈ es → c.dir = none ∧ ∀ s ∈ l, FromPath s) → (history es k).1 = expected es k.files := by
  intro h
  have := h [.load ⟨none, [110], false, [47, 99]⟩ [⟨[47, 97], .nt, none, none⟩], .write [47, 97] 9,
    .load ⟨none, [110], false, [47, 99]⟩ [⟨[47, 97], .nt, none, none⟩]] sampleDisk (fun _ _ => rfl) (by
      intro c l h
      simp only [List.mem_cons, Event.load.injEq, reduceCtorEq, List.not_mem_nil, or_false, false_or] at h
      rcases h with ⟨rfl, rfl⟩ | ⟨rfl, rfl⟩ <;> simp [FromPath])
  exact absurd this (by decide +kernel)

/-- C151, as a whole, fails: inputs in a graph with the name of a compression are taken for compressed ones. -/
theorem C151_graph_refuted : ¬ ∀ (es : List (Event Nat)) (k : Disk Nat), (∀ d n, k.indexes d n = none) → Steady es →
    (∀ c l, Event.load c l ∈ es → c.dir = none) → (history es k).1 = expected es k.files := by
  intro h
  have := h [.load ⟨none, [110], false, [47, 99]⟩ [⟨[47, 97], .nt, some [98, 122, 50], none⟩],
    .load ⟨none, [110], false, [47, 99]⟩ [⟨[47, 97], .nt, none, some .bzip2⟩]] sampleDisk (fun _ _ => rfl)
    (by simp [Steady]) (by
      intro c l h
      simp only [List.mem_cons, Event.load.injEq, List.not_mem_nil, or_false] at h
      rcases h with ⟨rfl, rfl⟩ | ⟨rfl, rfl⟩ <;> rfl)
  exact absurd this (by decide +kernel)

/-- Without names of compressions too: the name of a graph runs into the path of the next input. -/
example : fingerprint [⟨[47, 97], .nt, some [98], none⟩, ⟨[47, 99], .nt, none, none⟩] =
    fingerprint [⟨[47, 97], .nt, none, none⟩, ⟨[98, 47, 99], .nt, none, none⟩] := rfl

/-- C151: an index that is there is served, and the disk is left as it is, whatever the files hold. -/
theorem C151_reused {c : Setup} {l : List Source} {k : Disk Data} {e : List (Entry Data)} (hl : l ≠ [])
    (h : k.indexes (resolveDir c (fingerprint l)) c.name = some e) : load c l k = some (e, false, k) := by
  simp [load, buildIndex, hl, h]

/-! ## C152: what is removed -/

open Classical in
/-- C152: what is left of the files after inputs were loaded and the server was dropped. A file is gone exactly when it
was asked that what is made be removed, the index was not there before, and the file is in its directory. -/
theorem C152_removed {c : Setup} {l : List Source} {k k' : Disk Data} {e : List (Entry Data)} {b : Bool}
    (h : load c l k = some (e, b, k')) (p : Bytes) : (dropServer c l b k').files p =
      if c.autoDelete = true ∧ k.indexes (resolveDir c (fingerprint l)) c.name = none ∧
        (∃ r, p = resolveDir c (fingerprint l) ++ 47 :: r) then none else k.files p := by
  have hb : b = true ↔ k.indexes (resolveDir c (fingerprint l)) c.name = none := by
    unfold load at h
    split at h
    · simp at h
    · dsimp only at h
      split at h
      · simp at h
      · simp only [Option.some.injEq, Prod.mk.injEq] at h
        rw [← h.2.1]
        cases k.indexes (resolveDir c (fingerprint l)) c.name <;> simp
  have hf : k'.files = k.files := load_files h
  have hpre : (resolveDir c (fingerprint l) ++ [47]).isPrefixOf p = true ↔
      ∃ r, p = resolveDir c (fingerprint l) ++ 47 :: r := by
    rw [List.isPrefixOf_iff_prefix]
    constructor
    · rintro ⟨r, rfl⟩
      exact ⟨r, by simp⟩
    · rintro ⟨r, rfl⟩
      exact ⟨r, by simp⟩
  unfold dropServer
  by_cases h1 : c.autoDelete = true ∧ b = true
  · rw [if_pos h1]
    by_cases h2 : ∃ r, p = resolveDir c (fingerprint l) ++ 47 :: r
    · rw [if_pos ⟨h1.1, hb.1 h1.2, h2⟩]
      simp only [removeDir]
      rw [if_pos (hpre.2 h2)]
    · rw [if_neg fun h => h2 h.2.2]
      simp only [removeDir]
      rw [if_neg fun h => h2 (hpre.1 h), hf]
  · rw [if_neg h1, if_neg fun h => h1 ⟨h.1, hb.2 h.2.1⟩, hf]

/-- C152 (part): files are left as they were if no directory was given for the index and none of them is in the cache.
What is missing: directories that are given (`C152_files_refuted`). -/
theorem C152_files_partial {c : Setup} {l : List Source} {k k' : Disk Data} {e : List (Entry Data)} {b : Bool}
    (h : load c l k = some (e, b, k')) (hc : c.dir = none) (hk : ∀ r, k.files (c.base ++ 47 :: r) = none) :
    (dropServer c l b k').files = k.files := by
  funext p
  rw [C152_removed h]
  split
  · next hr =>
    obtain ⟨-, -, r, rfl⟩ := hr
    have := hk (fingerprint l ++ 47 :: r)
    simp only [resolveDir, hc, Option.getD_none, List.append_assoc, List.cons_append]
    exact this.symm
  · rfl

example : ∃ e b k', load ⟨none, [110], true, [47, 99]⟩ [⟨[47, 97], .nt, none, none⟩] sampleDisk = some (e, b, k') ∧ b = true :=
  ⟨_, _, _, rfl, by decide +kernel⟩

example : ∀ r, sampleDisk.files ([47, 99] ++ 47 :: r) = none := by
  intro r
  simp [sampleDisk]

/-- C152, as a whole, fails: with a directory given for the index all that was in it before is removed as well, the
inputs themselves if they are there. -/
theorem C152_files_refuted : ¬ ∀ (c : Setup) (l : List Source) (k k' : Disk Nat) (e : List (Entry Nat)) (b : Bool),
    load c l k = some (e, b, k') → (dropServer c l b k').files = k.files := by
  intro h
  let k : Disk Nat := ⟨fun p => if p = [47, 105, 47, 97] then some 3 else none, fun _ _ => none⟩
  obtain ⟨k', hk'⟩ : ∃ k', load ⟨some [47, 105], [110], true, []⟩ [⟨[47, 105, 47, 97], .nt, none, none⟩] k =
      some ([⟨.nt, none, none, 3⟩], true, k') := ⟨_, rfl⟩
  have h1 := congrFun (h _ _ _ _ _ _ hk') [47, 105, 47, 97]
  rw [C152_removed hk', if_pos ⟨rfl, rfl, [97], rfl⟩] at h1
  exact absurd h1 (by simp [k])

/-- C152: indexes in other directories are kept. -/
theorem C152_indexes {c : Setup} {l : List Source} {k k' : Disk Data} {e : List (Entry Data)} {b : Bool}
    (h : load c l k = some (e, b, k')) (d n : Bytes) (hd : d ≠ resolveDir c (fingerprint l))
    (hr : ∀ r, d ≠ resolveDir c (fingerprint l) ++ 47 :: r) : (dropServer c l b k').indexes d n = k.indexes d n := by
  have hf : k'.indexes d n = k.indexes d n := by
    unfold load at h
    split at h
    · simp at h
    · next k2 hk2 =>
      dsimp only at h
      split at h
      · simp at h
      · simp only [Option.some.injEq, Prod.mk.injEq] at h
        rw [← h.2.2]
        unfold buildIndex at hk2
        split at hk2
        · simp at hk2
        · dsimp only at hk2
          split at hk2
          · simp only [Option.some.injEq] at hk2
            rw [hk2]
          · obtain ⟨es, -, rfl⟩ := Option.map_eq_some_iff.1 hk2
            exact if_neg fun h => hd h.1
  unfold dropServer
  split
  · simp only [removeDir]
    rw [if_neg, hf]
    rintro (h | h)
    · exact hd h
    · obtain ⟨r, rfl⟩ := List.isPrefixOf_iff_prefix.1 h
      exact hr r (by simp)
  · exact hf

/-- C152: an index made to be removed is gone, and the next load makes it again from what the files hold then. -/
theorem C152_made_again {c : Setup} {l : List Source} {k k' : Disk Data} {e : List (Entry Data)}
    (h : load c l k = some (e, true, k')) (ha : c.autoDelete = true) :
    (dropServer c l true k').indexes (resolveDir c (fingerprint l)) c.name = none := by
  simp [dropServer, ha, removeDir]

end Qlever
