import Verif.Gen.Output
import Verif.Gen.FieldsProps
import Mathlib.Data.List.Dedup
import Mathlib.Data.Finset.Card

/-!
# C147: files to which generated data are written
-/

namespace Gen

/-! ## Specification -/

/-- Parts in which triples are written: they follow each other, none is empty, there are at most `n`, and all are of the same
size but for the last, which may be smaller. -/
structure Parted (ts : List OTriple) (n : Nat) (parts : List (List OTriple)) : Prop where
  all : parts.flatten = ts
  filled : ∀ p ∈ parts, p ≠ []
  few : parts.length ≤ n
  even : ∃ k, ∀ i, ∀ p, parts[i]? = some p → p.length ≤ k ∧ (i + 1 < parts.length → p.length = k)

/-- A triple is in a file. -/
def InFile (fs : Files) (f : Str) (t : OTriple) : Prop := ∃ ts, fs f = some (.graph ts) ∧ t ∈ ts

/-! ## Lemmas -/

variable {can : Str → Bool} {cpus : Nat} {c : OutConfig} {ts : List OTriple} {fs fs' : Files}

theorem padNat_inj {w m n : Nat} (h : padNat w m = padNat w n) : m = n := by
  rw [← number_pad w m, h, number_pad]

theorem part_inj {i j : Nat} (h : c.part i = c.part j) : i = j := by
  simp only [OutConfig.part, List.append_assoc] at h
  have h1 := List.append_cancel_left (List.append_cancel_left h)
  have := padNat_inj (List.append_cancel_right h1)
  omega

theorem part_ne_manifest (i : Nat) : c.part i ≠ c.manifestName := by
  intro h
  simp only [OutConfig.part, OutConfig.manifestName, List.append_assoc] at h
  have h1 := List.append_cancel_left h
  simp at h1

theorem part_ne_stats (i : Nat) : c.part i ≠ c.statsName := by
  intro h
  simp only [OutConfig.part, OutConfig.statsName, List.append_assoc] at h
  have h1 := List.append_cancel_left h
  simp at h1

theorem stats_ne_manifest : c.statsName ≠ c.manifestName := by
  intro h
  simp only [OutConfig.statsName, OutConfig.manifestName] at h
  have h1 := List.append_cancel_left h
  simp at h1

theorem main_ne_stats (h : ∀ e, c.ext = some e → '.' ∉ e) : c.main ≠ c.statsName := by
  intro he
  unfold OutConfig.main OutConfig.statsName at he
  cases hx : c.ext with
  | none =>
    rw [hx] at he
    simp only at he
    have h1 : c.stem ++ [] = c.stem ++ ".stats.json".toList := by rw [List.append_nil]; exact he
    have h2 := List.append_cancel_left h1
    simp at h2
  | some e =>
    rw [hx] at he
    simp only at he
    have h2 := List.append_cancel_left he
    have h3 : e = "stats.json".toList := by
      have : ".stats.json".toList = '.' :: "stats.json".toList := by decide
      rw [this] at h2
      exact (List.cons.inj h2).2
    exact h e hx (h3 ▸ (by decide))

theorem fileCount_pos (hc : 0 < cpus) (total : Nat) : 0 < c.fileCount cpus total := by
  unfold OutConfig.fileCount
  split
  · assumption
  · repeat' split
    all_goals omega

theorem divCeil_bounds {a b : Nat} (hb : 0 < b) : a ≤ divCeil a b * b ∧ (0 < a → divCeil a b * b < a + b) := by
  have hm := Nat.mod_lt a hb
  have hd := Nat.div_add_mod a b
  unfold divCeil
  rw [Nat.mul_comm] at hd
  split
  · rw [Nat.add_mul, Nat.one_mul]
    omega
  · omega

theorem divCeil_pos {a b : Nat} (ha : 0 < a) (hb : 0 < b) : 0 < divCeil a b := by
  have h := (divCeil_bounds (a := a) hb).1
  rcases Nat.eq_zero_or_pos (divCeil a b) with h0 | h0
  · rw [h0] at h; omega
  · exact h0

theorem chunksOf_spec {k : Nat} (hk : 0 < k) (ts : List OTriple) :
    (chunksOf k ts).flatten = ts ∧ (∀ p ∈ chunksOf k ts, p ≠ []) ∧
    (∀ i p, (chunksOf k ts)[i]? = some p → p.length ≤ k ∧ (i + 1 < (chunksOf k ts).length → p.length = k)) ∧
    (∀ n, ts.length ≤ k * n → (chunksOf k ts).length ≤ n) := by
  induction hn : ts.length using Nat.strong_induction_on generalizing ts with
  | _ m ih =>
    rw [chunksOf]
    by_cases h : ts = []
    · subst h
      simp
    · have hl : 0 < ts.length := List.length_pos_iff.2 h
      have hd : (ts.drop k).length = ts.length - k := List.length_drop
      obtain ⟨i1, i2, i3, i4⟩ := ih (ts.drop k).length (by omega) (ts.drop k) rfl
      rw [dif_neg (by simp only [h, false_or]; omega)]
      refine ⟨?_, ?_, ?_, ?_⟩
      · rw [List.flatten_cons, i1, List.take_append_drop]
      · intro p hp
        rcases List.mem_cons.1 hp with rfl | hp
        · intro he
          have := congrArg List.length he
          rw [List.length_take, List.length_nil] at this
          omega
        · exact i2 p hp
      · intro i p hp
        cases i with
        | zero =>
          simp only [List.getElem?_cons_zero, Option.some.injEq] at hp
          subst hp
          refine ⟨by rw [List.length_take]; omega, fun hlt => ?_⟩
          simp only [List.length_cons] at hlt
          have hne : chunksOf k (ts.drop k) ≠ [] := by
            intro he
            rw [he] at hlt
            simp at hlt
          have : ts.drop k ≠ [] := by
            intro he
            rw [he] at hne
            rw [chunksOf] at hne
            simp at hne
          have := List.length_pos_iff.2 this
          rw [List.length_take]
          omega
        | succ i =>
          rw [List.getElem?_cons_succ] at hp
          obtain ⟨a, b⟩ := i3 i p hp
          refine ⟨a, fun hlt => b ?_⟩
          simp only [List.length_cons] at hlt
          omega
      · intro n hn'
        cases n with
        | zero => omega
        | succ n =>
          rw [List.length_cons]
          have : k * (n + 1) = k * n + k := Nat.mul_succ k n
          have := i4 n (by omega)
          omega

theorem put_same (n : Str) (x : Content) : (fs.put n x) n = some x := if_pos rfl

theorem put_other {m n : Str} (h : m ≠ n) (x : Content) : (fs.put n x) m = fs m := if_neg h

/-- What writing of parts does to each file, whether it succeeds or not. -/
theorem writeParts_spec (ps : List (List OTriple)) : ∀ (i : Nat) (fs : Files),
    ((writeParts can c i ps fs).1 = true ↔ ∀ j < ps.length, can (c.part (i + j)) = true) ∧
    (∀ j p, ps[j]? = some p →
      (writeParts can c i ps fs).2 (c.part (i + j)) =
        if can (c.part (i + j)) then some (.graph p) else fs (c.part (i + j))) ∧
    (∀ n, (∀ j < ps.length, n ≠ c.part (i + j)) → (writeParts can c i ps fs).2 n = fs n) := by
  induction ps with
  | nil => intro i fs; simp [writeParts]
  | cons p ps ih =>
    intro i fs
    obtain ⟨h1, h2, h3⟩ := ih (i + 1) (writeOne can fs (c.part i) (.graph p)).2
    refine ⟨?_, ?_, ?_⟩
    · simp only [writeParts, Bool.and_eq_true, h1, List.length_cons]
      have e : (writeOne can fs (c.part i) (.graph p)).1 = can (c.part i) := by
        unfold writeOne; split <;> simp [*]
      rw [e]
      constructor
      · rintro ⟨a, b⟩ j hj
        cases j with
        | zero => exact a
        | succ j =>
          have := b j (by omega)
          rwa [show i + 1 + j = i + (j + 1) by omega] at this
      · intro h
        refine ⟨h 0 (by omega), fun j hj => ?_⟩
        have := h (j + 1) (by omega)
        rwa [show i + 1 + j = i + (j + 1) by omega]
    · intro j q hq
      simp only [writeParts]
      cases j with
      | zero =>
        simp only [List.getElem?_cons_zero, Option.some.injEq] at hq
        subst hq
        rw [h3 _ (fun j _ h => by have := part_inj h; omega)]
        unfold writeOne
        simp only [Nat.add_zero]
        split
        · exact put_same _ _
        · rfl
      | succ j =>
        rw [List.getElem?_cons_succ] at hq
        have := h2 j q hq
        rw [show i + 1 + j = i + (j + 1) by omega] at this
        rw [this]
        split
        · rfl
        · unfold writeOne
          split
          · exact put_other (fun h => by have := part_inj h; omega) _
          · rfl
    · intro n hn
      simp only [writeParts]
      rw [h3 n (fun j hj h => hn (j + 1) (by simp; omega) (by rw [h, show i + 1 + j = i + (j + 1) by omega]))]
      unfold writeOne
      split
      · exact put_other (hn 0 (by simp)) _
      · rfl

theorem writeOne_true {n : Str} {x : Content} (h : writeOne can fs n x = (true, fs')) : can n = true ∧ fs' = fs.put n x := by
  unfold writeOne at h
  split at h
  · rename_i hc
    exact ⟨hc, (Prod.mk.inj h).2.symm⟩
  · simp at h

theorem writeStats_true (h : writeStats can c ts fs = (true, fs')) :
    (c.writeStats = true → fs' c.statsName = some (.stats (statsOf ts))) ∧ (∀ n, n ≠ c.statsName → fs' n = fs n) := by
  unfold writeStats at h
  split at h
  · obtain ⟨_, rfl⟩ := writeOne_true h
    exact ⟨fun _ => put_same _ _, fun n hn => put_other hn _⟩
  · rename_i hs
    have : fs = fs' := (Prod.mk.inj h).2
    subst this
    exact ⟨fun h => absurd h hs, fun _ _ => rfl⟩

/-- What a parallel run that succeeds does. -/
theorem writeParallel_spec (hcpu : 0 < cpus) (hne : ts ≠ []) (h : writeParallel can cpus c ts fs = (true, fs')) :
    ∃ parts, Parted ts (c.fileCount cpus ts.length) parts ∧
      (∀ i p, parts[i]? = some p → fs' (c.part i) = some (.graph p)) ∧
      (∀ n, (∀ i < parts.length, n ≠ c.part i) → n ≠ c.statsName → n ≠ c.manifestName → fs' n = fs n) ∧
      (c.writeStats = true → fs' c.statsName = some (.stats (statsOf ts))) ∧
      fs' c.manifestName = some (.manifest (c.fileCount cpus ts.length)
        (((List.range (c.fileCount cpus ts.length)).map c.part).filter fun f => (fs' f).isSome)) := by
  have hn := fileCount_pos (c := c) hcpu ts.length
  have hl := List.length_pos_iff.2 hne
  have hk := divCeil_pos hl hn
  obtain ⟨s1, s2, s3, s4⟩ := chunksOf_spec hk ts
  refine ⟨chunksOf (divCeil ts.length (c.fileCount cpus ts.length)) ts,
    ⟨s1, s2, s4 _ (divCeil_bounds hn).1, _, s3⟩, ?_⟩
  unfold writeParallel at h
  simp only at h
  rw [if_neg (by omega)] at h
  obtain ⟨w1, w2, w3⟩ := writeParts_spec (can := can) (c := c)
    (chunksOf (divCeil ts.length (c.fileCount cpus ts.length)) ts) 0 fs
  generalize hr : writeParts can c 0 (chunksOf (divCeil ts.length (c.fileCount cpus ts.length)) ts) fs = r at h w1 w2 w3
  obtain ⟨b, fs1⟩ := r
  cases b with
  | false => simp at h
  | true =>
    simp only [Bool.not_true, Bool.false_eq_true, if_false] at h
    have hcan := w1.1 rfl
    generalize hst : writeStats can c ts fs1 = r2 at h
    obtain ⟨b2, fs2⟩ := r2
    cases b2 with
    | false => simp at h
    | true =>
      simp only [Bool.not_true, Bool.false_eq_true, if_false] at h
      obtain ⟨t1, t2⟩ := writeStats_true hst
      obtain ⟨_, rfl⟩ := writeOne_true h
      refine ⟨?_, ?_, ?_, ?_⟩
      · intro i p hp
        have hi : i < (chunksOf (divCeil ts.length (c.fileCount cpus ts.length)) ts).length :=
          (List.getElem?_eq_some_iff.1 hp).1
        rw [put_other (part_ne_manifest i), t2 _ (part_ne_stats i)]
        have := w2 i p hp
        rw [Nat.zero_add] at this
        refine this.trans (if_pos ?_)
        have := hcan i hi
        rwa [Nat.zero_add] at this
      · intro n a1 a2 a3
        rw [put_other a3, t2 n a2]
        exact w3 n (fun j hj => by rw [Nat.zero_add]; exact a1 j hj)
      · intro hs
        rw [put_other stats_ne_manifest]
        exact t1 hs
      · rw [put_same]
        congr 2
        refine List.filter_congr fun f hf => ?_
        obtain ⟨i, _, rfl⟩ := List.mem_map.1 hf
        rw [put_other (part_ne_manifest i)]

/-! ## C147 -/

/-- **C147**, several files. When data are written to several files and this succeeds, the files with the numbers from one on
have parts of the triples that follow each other, none of them empty, at most as many as configured and of the same size but
for the last; the statistics are written if they are asked for, and all other files but the list of files are as before. -/
theorem C147_parts (hcpu : 0 < cpus) (hp : c.parallel = true) (hne : ts ≠ [])
    (h : writeGraph can cpus c ts fs = (true, fs')) :
    ∃ parts, Parted ts (c.fileCount cpus ts.length) parts ∧
      (∀ i p, parts[i]? = some p → fs' (c.part i) = some (.graph p)) ∧
      (c.writeStats = true → fs' c.statsName = some (.stats (statsOf ts))) ∧
      (∀ n, (∀ i < parts.length, n ≠ c.part i) → n ≠ c.statsName → n ≠ c.manifestName → fs' n = fs n) := by
  rw [writeGraph, if_pos hp] at h
  obtain ⟨parts, h1, h2, h3, h4, _⟩ := writeParallel_spec hcpu hne h
  exact ⟨parts, h1, h2, h4, h3⟩

/-- **C147**, each triple once. Each triple of the data is in exactly one of the files of the first numbers, and these have no
other triples. -/
theorem C147_once (hcpu : 0 < cpus) (hp : c.parallel = true) (hne : ts ≠ []) (hd : ts.Nodup)
    (h : writeGraph can cpus c ts fs = (true, fs')) :
    ∃ k, 0 < k ∧ k ≤ c.fileCount cpus ts.length ∧
      (∀ t ∈ ts, ∃! i, i < k ∧ InFile fs' (c.part i) t) ∧
      (∀ i < k, ∀ t, InFile fs' (c.part i) t → t ∈ ts) := by
  obtain ⟨parts, hparts, hf, _, _⟩ := C147_parts hcpu hp hne h
  have hin : ∀ i < parts.length, ∀ t, InFile fs' (c.part i) t ↔ ∃ p, parts[i]? = some p ∧ t ∈ p := by
    intro i hi t
    have hg : parts[i]? = some parts[i] := List.getElem?_eq_getElem hi
    have hw := hf i _ hg
    constructor
    · rintro ⟨l, hl, ht⟩
      rw [hw] at hl
      cases hl
      exact ⟨_, hg, ht⟩
    · rintro ⟨p, h1, ht⟩
      exact ⟨p, hf i p h1, ht⟩
  have huniq : ∀ (i j : Nat) (p q : List OTriple) (t : OTriple), parts[i]? = some p → parts[j]? = some q → t ∈ p → t ∈ q →
      i = j := by
    have hd' : parts.flatten.Nodup := hparts.all ▸ hd
    have hpw := (List.nodup_flatten.1 hd').2
    rw [List.pairwise_iff_getElem] at hpw
    intro i j p q t hi hj hti htj
    obtain ⟨hi1, rfl⟩ := List.getElem?_eq_some_iff.1 hi
    obtain ⟨hj1, rfl⟩ := List.getElem?_eq_some_iff.1 hj
    rcases Nat.lt_trichotomy i j with hlt | he | hlt
    · exact absurd htj (hpw i j hi1 hj1 hlt hti)
    · exact he
    · exact absurd hti (hpw j i hj1 hi1 hlt htj)
  refine ⟨parts.length, ?_, hparts.few, ?_, ?_⟩
  · rcases Nat.eq_zero_or_pos parts.length with h0 | h0
    · have := hparts.all
      rw [List.length_eq_zero_iff.1 h0] at this
      exact absurd this.symm hne
    · exact h0
  · intro t ht
    rw [← hparts.all] at ht
    obtain ⟨p, hpm, htp⟩ := List.mem_flatten.1 ht
    obtain ⟨i, hi⟩ := List.mem_iff_getElem?.1 hpm
    have hlt : i < parts.length := (List.getElem?_eq_some_iff.1 hi).1
    refine ⟨i, ⟨hlt, (hin i hlt t).2 ⟨p, hi, htp⟩⟩, ?_⟩
    rintro j ⟨hj, hjt⟩
    obtain ⟨q, hq, htq⟩ := (hin j hj t).1 hjt
    exact huniq j i q p t hq hi htq htp
  · intro i hi t ht
    obtain ⟨p, hpi, htp⟩ := (hin i hi t).1 ht
    rw [← hparts.all]
    exact List.mem_flatten.2 ⟨p, List.mem_iff_getElem?.2 ⟨i, hpi⟩, htp⟩

/-- **C147**, one file: the file of the configuration has the triples, and all others but the statistics are as before. -/
theorem C147_single (hp : c.parallel = false) (hext : ∀ e, c.ext = some e → '.' ∉ e)
    (h : writeGraph can cpus c ts fs = (true, fs')) :
    fs' c.main = some (.graph ts) ∧ (c.writeStats = true → fs' c.statsName = some (.stats (statsOf ts))) ∧
    (∀ n, n ≠ c.main → n ≠ c.statsName → fs' n = fs n) := by
  rw [writeGraph, if_neg (by simp [hp]), writeSequential] at h
  generalize hw : writeOne can fs c.main (.graph ts) = r at h
  obtain ⟨b, fs1⟩ := r
  cases b with
  | false => simp at h
  | true =>
    simp only [Bool.not_true, Bool.false_eq_true, if_false] at h
    obtain ⟨_, rfl⟩ := writeOne_true hw
    obtain ⟨t1, t2⟩ := writeStats_true h
    refine ⟨?_, t1, ?_⟩
    · rw [t2 _ (main_ne_stats hext)]
      exact put_same _ _
    · intro n h1 h2
      rw [t2 n h2, put_other h1]

/-- **C147** (partial), the list of files. If no file with the name of a part was there before, the list has the names of the
parts that were written, in order.

Missing: files of earlier runs are listed too (`C147_list_refuted`), and the number of files at its head is the one that was
configured (`C147_total_refuted`). -/
theorem C147_list_partial (hcpu : 0 < cpus) (hp : c.parallel = true) (hne : ts ≠ []) (hfresh : ∀ i, fs (c.part i) = none)
    (h : writeGraph can cpus c ts fs = (true, fs')) :
    ∃ parts total, Parted ts (c.fileCount cpus ts.length) parts ∧
      fs' c.manifestName = some (.manifest total ((List.range parts.length).map c.part)) := by
  rw [writeGraph, if_pos hp] at h
  obtain ⟨parts, h1, h2, h3, _, h5⟩ := writeParallel_spec hcpu hne h
  refine ⟨parts, c.fileCount cpus ts.length, h1, ?_⟩
  rw [h5]
  congr 2
  rw [List.filter_map]
  congr 1
  have e : ∀ i, ((fun f => (fs' f).isSome) ∘ c.part) i = decide (i < parts.length) := by
    intro i
    simp only [Function.comp]
    by_cases hi : i < parts.length
    · rw [h2 i _ (List.getElem?_eq_getElem hi)]
      simp [hi]
    · rw [h3 _ (fun j hj he => hi (by rw [part_inj he]; exact hj)) (part_ne_stats i) (part_ne_manifest i), hfresh i]
      simp [hi]
  rw [List.filter_congr (fun i _ => e i)]
  have hfew := h1.few
  generalize c.fileCount cpus ts.length = n at hfew
  obtain ⟨d, rfl⟩ := Nat.exists_eq_add_of_le hfew
  rw [List.range_add, List.filter_append]
  have f1 : (List.range parts.length).filter (fun i => decide (i < parts.length)) = List.range parts.length :=
    List.filter_eq_self.2 fun i hi => by simpa using hi
  have f2 : ((List.range d).map (parts.length + ·)).filter (fun i => decide (i < parts.length)) = [] :=
    List.filter_eq_nil_iff.2 fun i hi => by
      obtain ⟨j, _, rfl⟩ := List.mem_map.1 hi
      simp
  rw [f1, f2, List.append_nil]

/-- Data with one triple. -/
def oneTriple : List OTriple := [⟨.iri ['s'], ['p'], .iri ['o']⟩]

/-- A configuration for two files. -/
def twoFiles : OutConfig := ⟨['d'], some "nt".toList, false, true, 2⟩

/-- **C147** is false of the code for files of earlier runs: a second file that was there before is kept and listed, though
the data have been written to the first. -/
theorem C147_list_refuted : ∃ fs' : Files,
    writeGraph (fun _ => true) 1 twoFiles oneTriple (fun n => if n = twoFiles.part 1 then some (.other ['x']) else none) =
      (true, fs') ∧
    fs' (twoFiles.part 0) = some (.graph oneTriple) ∧ fs' (twoFiles.part 1) = some (.other ['x']) ∧
    fs' twoFiles.manifestName = some (.manifest 2 [twoFiles.part 0, twoFiles.part 1]) := by
  exact ⟨_, Prod.ext (by decide +kernel) rfl, by decide +kernel, by decide +kernel, by decide +kernel⟩

/-- **C147** is false of the code for the number of files: two are announced and one is written. -/
theorem C147_total_refuted : ∃ fs' : Files,
    writeGraph (fun _ => true) 1 twoFiles oneTriple (fun _ => none) = (true, fs') ∧ fs' (twoFiles.part 1) = none ∧
    fs' twoFiles.manifestName = some (.manifest 2 [twoFiles.part 0]) := by
  exact ⟨_, Prod.ext (by decide +kernel) rfl, by decide +kernel, by decide +kernel⟩

/-- **C147** is false of the code for data without triples: no file is changed, so those of an earlier run are still there. -/
theorem C147_empty_refuted (can : Str → Bool) (hp : c.parallel = true) (fs : Files) :
    writeGraph can cpus c [] fs = (true, fs) := by
  rw [writeGraph, if_pos hp, writeParallel]
  simp [divCeil]

/-- **C147**, failures. If one of the parts cannot be written there is an error; the list and the statistics are as before,
and the other parts are written nevertheless. -/
theorem C147_failure (hcpu : 0 < cpus) (hp : c.parallel = true) (hne : ts ≠ []) :
    ∃ parts, Parted ts (c.fileCount cpus ts.length) parts ∧
      ∀ i < parts.length, can (c.part i) = false →
        ∃ fs', writeGraph can cpus c ts fs = (false, fs') ∧ fs' c.manifestName = fs c.manifestName ∧
          fs' c.statsName = fs c.statsName ∧
          (∀ j p, parts[j]? = some p →
            fs' (c.part j) = if can (c.part j) = true then some (.graph p) else fs (c.part j)) := by
  have hn := fileCount_pos (c := c) hcpu ts.length
  have hl := List.length_pos_iff.2 hne
  have hk := divCeil_pos hl hn
  obtain ⟨s1, s2, s3, s4⟩ := chunksOf_spec hk ts
  refine ⟨chunksOf (divCeil ts.length (c.fileCount cpus ts.length)) ts,
    ⟨s1, s2, s4 _ (divCeil_bounds hn).1, _, s3⟩, ?_⟩
  intro i hi hcan
  obtain ⟨w1, w2, w3⟩ := writeParts_spec (can := can) (c := c)
    (chunksOf (divCeil ts.length (c.fileCount cpus ts.length)) ts) 0 fs
  rw [writeGraph, if_pos hp, writeParallel]
  simp only
  rw [if_neg (by omega)]
  generalize writeParts can c 0 (chunksOf (divCeil ts.length (c.fileCount cpus ts.length)) ts) fs = r at w1 w2 w3
  obtain ⟨b, fs1⟩ := r
  have hb : b = false := by
    cases b with
    | false => rfl
    | true =>
      have := w1.1 rfl i hi
      rw [Nat.zero_add, hcan] at this
      simp at this
  subst hb
  refine ⟨fs1, rfl, w3 _ (fun j _ => (part_ne_manifest _).symm), w3 _ (fun j _ => (part_ne_stats _).symm), ?_⟩
  intro j p hj
  have := w2 j p hj
  rwa [Nat.zero_add] at this

/-! ### Statistics -/

theorem shown_inj {a b : OTerm} (h : a.shown = b.shown) : a = b := by
  cases a <;> cases b <;> simp_all [OTerm.shown]

theorem dedup_map_length {α β : Type} [DecidableEq α] [DecidableEq β] {f : α → β} (hf : Function.Injective f) (l : List α) :
    ((l.map f).dedup).length = l.toFinset.card := by
  rw [List.dedup_map_of_injective hf, List.length_map, List.card_toFinset]

/-- How often a key was counted. -/
def countIn (m : List (Str × Nat)) (k : Str) : Nat := ((m.find? fun e => decide (e.1 = k)).map (·.2)).getD 0

theorem countIn_bump (m : List (Str × Nat)) (k k' : Str) :
    countIn (bump k m) k' = countIn m k' + if k = k' then 1 else 0 := by
  induction m with
  | nil => by_cases h : k = k' <;> simp [bump, countIn, h]
  | cons e m ih =>
    obtain ⟨k0, n⟩ := e
    simp only [bump]
    by_cases h0 : k0 = k
    · subst h0
      by_cases h : k0 = k' <;> simp [countIn, h]
    · rw [if_neg h0]
      by_cases h : k0 = k'
      · subst h
        have : ¬ k = k0 := fun e => h0 e.symm
        simp [countIn, this]
      · simpa [countIn, h] using ih

theorem countIn_foldl (ts : List OTriple) (m : List (Str × Nat)) (k : Str) :
    countIn (ts.foldl countShape m) k = countIn m k +
      ts.countP fun t => decide ((OTerm.iri t.pred).shown = typeShown ∧ trimAngles t.obj.shown = k) := by
  induction ts generalizing m with
  | nil => simp
  | cons t ts ih =>
    rw [List.foldl_cons, ih, List.countP_cons]
    unfold countShape
    by_cases h : (OTerm.iri t.pred).shown = typeShown
    · rw [if_pos h, countIn_bump]
      by_cases h2 : trimAngles t.obj.shown = k
      · simp [h, h2]; omega
      · simp [h, h2]
    · rw [if_neg h]
      simp [h]

/-- An IRI has no angle brackets and starts with a letter (its scheme). -/
def IriLike (s : Str) : Prop := ∃ x r, s = x :: r ∧ x.isAlpha = true ∧ '<' ∉ s ∧ '>' ∉ s

theorem dropWhile_not_mem {s : Str} {x : Char} (h : x ∉ s) : s.dropWhile (· = x) = s := by
  cases s with
  | nil => rfl
  | cons y s =>
    rw [List.dropWhile_cons_of_neg]
    simp only [decide_eq_true_eq]
    intro e
    exact h (e ▸ List.mem_cons_self)

theorem trimAngles_iri {s : Str} (h : IriLike s) : trimAngles (OTerm.iri s).shown = s := by
  obtain ⟨x, r, rfl, hx, h1, h2⟩ := h
  have hx' : x ≠ '<' := fun e => h1 (e ▸ List.mem_cons_self)
  show (List.dropWhile _ (List.dropWhile _ ('<' :: (x :: r) ++ ['>'])).reverse).reverse = _
  rw [List.cons_append, List.dropWhile_cons_of_pos (by simp), List.cons_append, List.dropWhile_cons_of_neg (by simpa using hx'),
    ← List.cons_append, List.reverse_append]
  show (List.dropWhile _ ('>' :: (x :: r).reverse)).reverse = _
  rw [List.dropWhile_cons_of_pos (by simp), dropWhile_not_mem (fun h => h2 (List.mem_reverse.1 h)), List.reverse_reverse]

theorem trimAngles_head {x : Char} {r : Str} (hx : x ≠ '<') (hx2 : x ≠ '>') : (trimAngles (x :: r)).head? = some x := by
  unfold trimAngles
  rw [List.dropWhile_cons_of_neg (by simpa using hx)]
  have key : ∀ l : Str, ∃ l', ((l ++ [x]).dropWhile (· = '>')) = l' ++ [x] := by
    intro l
    induction l with
    | nil => exact ⟨[], by rw [List.nil_append, List.dropWhile_cons_of_neg (by simpa using hx2)]⟩
    | cons y l ih =>
      rw [List.cons_append, List.dropWhile_cons]
      split
      · exact ih
      · exact ⟨y :: l, rfl⟩
  obtain ⟨l', hl'⟩ := key r.reverse
  rw [List.reverse_cons, hl', List.reverse_append]
  rfl

/-- **C147**, the statistics. They have the number of triples and of different subjects, predicates and objects; and for each
class that is an IRI, the number of triples that say that something is in this class, where IRIs that are objects are IRIs of
RDF. -/
theorem C147_statistics (ts : List OTriple) (hiri : ∀ t ∈ ts, ∀ s, t.obj = .iri s → IriLike s) (cls : Str) (hcls : IriLike cls) :
    (statsOf ts).triples = ts.length ∧
    (statsOf ts).subjects = (ts.map OTriple.subj).toFinset.card ∧
    (statsOf ts).predicates = (ts.map OTriple.pred).toFinset.card ∧
    (statsOf ts).objects = (ts.map OTriple.obj).toFinset.card ∧
    countIn (statsOf ts).shapes cls =
      ts.countP fun t => decide (t.pred = "http://www.w3.org/1999/02/22-rdf-syntax-ns#type".toList ∧ t.obj = .iri cls) := by
  have hs : Function.Injective OTerm.shown := fun _ _ h => shown_inj h
  have hpi : Function.Injective fun s : Str => (OTerm.iri s).shown := fun a b h => OTerm.iri.inj (shown_inj h)
  refine ⟨rfl, ?_, ?_, ?_, ?_⟩
  · rw [← dedup_map_length hs, List.map_map]; rfl
  · rw [← dedup_map_length hpi, List.map_map]; rfl
  · rw [← dedup_map_length hs, List.map_map]; rfl
  · show countIn (ts.foldl countShape []) cls = _
    rw [countIn_foldl]
    show 0 + _ = _
    rw [Nat.zero_add]
    refine List.countP_congr fun t ht => ?_
    simp only [decide_eq_true_eq]
    refine and_congr ?_ ?_
    · have e : typeShown = (OTerm.iri "http://www.w3.org/1999/02/22-rdf-syntax-ns#type".toList).shown := by decide
      rw [e]
      exact hpi.eq_iff
    · cases ho : t.obj with
      | iri s =>
        rw [trimAngles_iri (hiri t ht s ho)]
        simp
      | bnode s =>
        refine iff_of_false (fun h => ?_) (by simp)
        obtain ⟨x, r, rfl, hx, _⟩ := hcls
        have := trimAngles_head (x := '_') (r := ':' :: s) (by decide) (by decide)
        rw [show (OTerm.bnode s).shown = '_' :: ':' :: s from rfl] at h
        rw [h] at this
        cases this
        revert hx; decide
      | lit s =>
        refine iff_of_false (fun h => ?_) (by simp)
        obtain ⟨x, r, rfl, hx, _⟩ := hcls
        have := trimAngles_head (x := '"') (r := s) (by decide) (by decide)
        rw [show (OTerm.lit s).shown = '"' :: s from rfl] at h
        rw [h] at this
        cases this
        revert hx; decide

/-- **C147**, the number of files: never zero, the configured one if there is one, otherwise at most sixteen, and one if
several files are not asked for or there are at most a thousand triples. -/
theorem C147_count (hcpu : 0 < cpus) (total : Nat) :
    0 < c.fileCount cpus total ∧ (0 < c.count → c.fileCount cpus total = c.count) ∧
    (c.count = 0 → c.fileCount cpus total ≤ 16 ∧ c.fileCount cpus total ≤ 2 * cpus ∧
      (c.parallel = false ∨ total ≤ 1000 → c.fileCount cpus total = 1)) := by
  refine ⟨fileCount_pos hcpu total, fun h => if_pos h, fun h0 => ?_⟩
  unfold OutConfig.fileCount
  rw [if_neg (by omega)]
  cases hp : c.parallel with
  | false => simp; omega
  | true =>
    simp only [Bool.not_true, Bool.false_eq_true, if_false, Bool.true_eq_false, false_or]
    refine ⟨?_, ?_, fun h => ?_⟩
    all_goals
      repeat' split
      all_goals omega

/-! ## Examples -/

/-- Three triples in two files: two in the first and one in the second. -/
example : let ts : List OTriple := ['a', 'b', 'c'].map fun x => ⟨.iri [x], ['p'], .lit ['v', '"']⟩
    ts ≠ [] ∧ ts.Nodup ∧ (writeGraph (fun _ => true) 4 twoFiles ts (fun _ => none)).1 = true ∧
    (writeGraph (fun _ => true) 4 twoFiles ts (fun _ => none)).2 "d_part_001.nt".toList = some (.graph (ts.take 2)) ∧
    (writeGraph (fun _ => true) 4 twoFiles ts (fun _ => none)).2 "d_part_002.nt".toList = some (.graph (ts.drop 2)) ∧
    (writeGraph (fun n => n ≠ twoFiles.part 0) 4 twoFiles ts (fun _ => none)).1 = false := by decide +kernel

/-- One file with statistics. -/
example : let c : OutConfig := ⟨['d'], some "ttl".toList, true, false, 0⟩
    (writeGraph (fun _ => true) 4 c oneTriple (fun _ => none)).1 = true ∧ (∀ e, c.ext = some e → '.' ∉ e) ∧
    (writeGraph (fun _ => true) 4 c oneTriple (fun _ => none)).2 "d.stats.json".toList = some (.stats ⟨1, 1, 1, 1, []⟩) := by
  refine ⟨by decide +kernel, ?_, by decide +kernel⟩
  intro e he
  cases he
  decide

/-- A class that is counted. -/
example : IriLike "http://e.org/C".toList ∧
    countIn (statsOf [⟨.iri "x".toList, "http://www.w3.org/1999/02/22-rdf-syntax-ns#type".toList, .iri "http://e.org/C".toList⟩]).shapes
      "http://e.org/C".toList = 1 :=
  ⟨⟨'h', "ttp://e.org/C".toList, by decide, by decide, by decide, by decide⟩, by decide +kernel⟩

end Gen
