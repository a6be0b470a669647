import Verif.Qlever.ReaderSpec
import Verif.Qlever.ConvertLemmas
import Verif.Qlever.StoreLemmas

/-!
# Lemmas on streams and prefixes
-/

namespace Qlever

variable {Data : Type}

theorem fileName_slash (dir n : Bytes) (h : ∀ b ∈ n, b ≠ 47) : fileName (dir ++ 47 :: n) = n := by
  unfold fileName
  rw [List.reverse_append, List.reverse_cons, List.append_assoc, List.takeWhile_append_of_pos (by
    intro b hb
    simpa using h b (List.mem_reverse.1 hb))]
  simp

theorem stem_source (tmp : Bytes) (r : RFmt) : fileStem (sourcePath tmp r) = ascii "input" := by
  have h : fileName (sourcePath tmp r) = ascii "input" ++ sourceExt r := by
    apply fileName_slash
    cases r <;> decide +kernel
  unfold fileStem
  rw [h]
  cases r <;> decide +kernel

theorem target_source (dir tmp : Bytes) (r : RFmt) : target dir (sourcePath tmp r) r = readerFile dir r := by
  unfold target
  rw [stem_source]
  cases r <;> exact congrArg (dir ++ ·) (by decide +kernel)

theorem guess_file (dir : Bytes) (r : RFmt) : ∃ f, guessFormat (readerFile dir r) = some f ∧ passThrough f = some (targetFmt r) ∧
    (f = .ntriples ∨ f = .nquads) := by
  have e1 : ascii "/input.nt" = 47 :: ascii "input.nt" := by decide +kernel
  have e2 : ascii "/input.nq" = 47 :: ascii "input.nq" := by decide +kernel
  have h1 : guessFormat (dir ++ ascii "/input.nt") = some .ntriples := by
    unfold guessFormat extension
    rw [e1, fileName_slash _ _ (by decide +kernel)]
    decide +kernel
  have h2 : guessFormat (dir ++ ascii "/input.nq") = some .nquads := by
    unfold guessFormat extension
    rw [e2, fileName_slash _ _ (by decide +kernel)]
    decide +kernel
  cases r
  case nquads => exact ⟨_, h2, rfl, .inr rfl⟩
  case trig => exact ⟨_, h2, rfl, .inr rfl⟩
  case jsonld => exact ⟨_, h2, rfl, .inr rfl⟩
  all_goals exact ⟨_, h1, rfl, .inl rfl⟩

theorem not_suffix (s t dir : Bytes) (hl : s.length ≤ t.length) (h : s.isSuffixOf t = false) : s.isSuffixOf (dir ++ t) = false := by
  rw [Bool.eq_false_iff] at h ⊢
  intro hs
  apply h
  rw [List.isSuffixOf_iff_suffix] at hs ⊢
  exact List.suffix_of_suffix_length_le hs (List.suffix_append dir t) hl

theorem strip_file (dir : Bytes) (r : RFmt) : stripCompression (readerFile dir r) = none := by
  have h : ∀ t ∈ [ascii "/input.nt", ascii "/input.nq"], stripCompression (dir ++ t) = none := by
    intro t ht
    have e : ∀ s ∈ [ascii ".bz2", ascii ".xz", ascii ".gz"], s.length ≤ t.length ∧ s.isSuffixOf t = false := by
      revert t
      decide +kernel
    have e' : ∀ s ∈ [ascii ".bz2", ascii ".xz", ascii ".gz"], s.isSuffixOf (dir ++ t) = false :=
      fun s hs => not_suffix s t dir (e s hs).1 (e s hs).2
    unfold stripCompression
    rw [e' (ascii ".bz2") (by simp), e' (ascii ".xz") (by simp), e' (ascii ".gz") (by simp)]
    rfl
  cases r <;> exact h _ (by simp)

theorem inputs_file (w : World Data) (dir dir' : Bytes) (r : RFmt) (k : Disk Data)
    (hc : w.canon (readerFile dir r) = some (readerFile dir r)) :
    inputsOf w none dir' [readerFile dir r] k = some ([⟨readerFile dir r, targetFmt r, none, none⟩], k) := by
  obtain ⟨f, h1, h2, _⟩ := guess_file dir r
  simp only [inputsOf, inputOf, strip_file, hc, Option.none_or, h1, h2]

/-- What is served for a stream, and what is on the disk after. -/
theorem reader_spec (w : World Data) (tmp : Bytes) (d : Data) (r : RFmt) (c : Setup) (k : Disk Data)
    (hc : w.canon (readerFile (readerDir c tmp r) r) = some (readerFile (readerDir c tmp r) r)) :
    (w.conv r d = none ∧ fromReader w tmp d r c k = none) ∨
    ∃ d' e k', w.conv r d = some d' ∧ fromReader w tmp d r c k = some (e, removeDir tmp k') ∧
      e = (k.indexes (readerDir c tmp r) c.name).getD [⟨targetFmt r, none, none, d'⟩] ∧
      (∀ x, k'.files x = if x = readerFile (readerDir c tmp r) r then some d' else if x = sourcePath tmp r then some d else k.files x) ∧
      (∀ x n, k'.indexes x n = if x = readerDir c tmp r ∧ n = c.name then some e else k.indexes x n) := by
  unfold fromReader convert
  simp only [if_pos]
  cases hd : w.conv r d with
  | none => exact .inl ⟨rfl, rfl⟩
  | some d' =>
    right
    simp only [target_source, fromPaths, inputs_file w _ _ r _ hc, load, buildIndex, resolveDir, Option.getD_some]
    rcases Option.eq_none_or_eq_some (k.indexes (readerDir c tmp r) c.name) with hi | ⟨es, hi⟩
    · refine ⟨d', [⟨targetFmt r, none, none, d'⟩], ⟨_, _⟩, rfl, ?_, by rw [hi]; rfl, fun x => rfl, fun x n => rfl⟩
      simp [hi, readAll]
      rfl
    · refine ⟨d', es, ⟨_, k.indexes⟩, rfl, ?_, by rw [hi]; rfl, fun x => rfl, fun x n => ?_⟩
      · simp [hi]
        rfl
      · split
        · next h => obtain ⟨rfl, rfl⟩ := h; exact hi
        · rfl

theorem wanted_conv (w : World Data) (d : Data) (r : RFmt) :
    readerWanted w d r = (w.conv r d).map fun x => [⟨targetFmt r, none, none, x⟩] := by cases r <;> rfl

theorem readerDir_inj {c : Setup} (hc : c.dir = none) {t t' : Bytes} {r r' : RFmt} (h : readerDir c t r = readerDir c t' r') :
    fnv fnvOffset (sourcePath t r ++ [0]) = fnv fnvOffset (sourcePath t' r' ++ [0]) := by
  unfold readerDir resolveDir at h
  rw [hc] at h
  simp only [Option.getD_none] at h
  have h1 := List.append_cancel_left h
  have h2 := (List.cons.inj h1).2
  have e : (16 : Nat) ^ 16 = 2 ^ 64 := by decide
  exact BitVec.eq_of_toNat_eq (hex_inj 16 _ _ (by rw [e]; exact BitVec.isLt _) (by rw [e]; exact BitVec.isLt _) h2)

theorem foldl_add (l : List (Bytes × Bytes)) (m : Prefixes) (a : Bytes) :
    (∃ i, l.foldl addPrefix m a = some i ∧ LastFor l a (some i)) ∨ (l.foldl addPrefix m a = m a ∧ LastFor l a none) := by
  induction l generalizing m with
  | nil => exact .inr ⟨rfl, by simp [LastFor]⟩
  | cons x l ih =>
    rw [List.foldl_cons]
    rcases ih (addPrefix m x) with ⟨i, h1, l1, l2, h2, h3⟩ | ⟨h1, h2⟩
    · exact .inl ⟨i, h1, x :: l1, l2, by rw [h2]; rfl, h3⟩
    · by_cases e : a = x.1
      · refine .inl ⟨x.2, by rw [h1, addPrefix, if_pos e], [], l, by rw [e]; rfl, h2⟩
      · refine .inr ⟨by rw [h1, addPrefix, if_neg e], fun y hy => ?_⟩
        rcases List.mem_cons.1 hy with rfl | hy
        · exact fun h => e h.symm
        · exact h2 y hy

theorem collect_flat {w : World Data} {unzip : Compression → Data → Data} {harvest : RFmt → Data → List (Bytes × Bytes)}
    {files files' : Bytes → Option Data} (h1 : ∀ d, harvest .ntriples d = []) (h2 : ∀ d, harvest .nquads d = []) (ps : List Bytes)
    (hc : ∀ p ∈ ps, stripCompression p = none ∧ w.canon p = some p ∧ files' p = files p) (m : Prefixes) :
    ps.foldl (collectOne harvest files') m = (ps.flatMap (declared w unzip harvest none files)).foldl addPrefix m := by
  induction ps generalizing m with
  | nil => rfl
  | cons p ps ih =>
    rw [List.foldl_cons, List.flatMap_cons, List.foldl_append, ih fun q hq => hc q (List.mem_cons_of_mem _ hq)]
    congr 1
    obtain ⟨hs, hp, hf⟩ := hc p List.mem_cons_self
    unfold collectOne declared
    rw [hp, hs, hf]
    cases hd : files p with
    | none => cases guessFormat p with
      | none => simp [hd]
      | some f => cases f <;> simp [hd]
    | some d => cases hg : guessFormat p with
      | none => simp [hd, formatFor, hg]
      | some f => cases f <;> simp [hd, formatFor, hg, h1, h2]

end Qlever
