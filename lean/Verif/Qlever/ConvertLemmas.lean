import Verif.Qlever.ConvertSpec
import Verif.Qlever.StoreLemmas

/-!
# Lemmas: inputs from paths
-/

namespace Qlever

variable {Data : Type}

theorem nativeOf_guess (p : Bytes) : nativeOf p = (guessFormat p).bind passThrough := by
  unfold nativeOf guessFormat
  cases extension p with
  | none => rfl
  | some e =>
    dsimp only
    split
    · rfl
    · split
      · rfl
      · split
        · rfl
        · split
          · rfl
          · split
            · rfl
            · split
              · rfl
              · split <;> rfl

theorem or_format (fmt : Option RFmt) (q : Bytes) : fmt.or (guessFormat q) = formatFor fmt q := by
  cases fmt <;> rfl

theorem convert_spec (w : World Data) (dir q : Bytes) (r : RFmt) (k : Disk Data) :
    (convert w dir q r k = none ∧ (k.files q).bind (w.conv r) = none) ∨
    ∃ k' d, convert w dir q r k = some (⟨target dir q r, targetFmt r, none, none⟩, k') ∧ k'.indexes = k.indexes ∧
      (∀ x, x ≠ target dir q r → k'.files x = k.files x) ∧ k'.files (target dir q r) = some d ∧
      (k.files q).bind (w.conv r) = some d := by
  unfold convert
  cases k.files q with
  | none => exact .inl ⟨rfl, rfl⟩
  | some d =>
    simp only [Option.bind_some]
    cases w.conv r d with
    | none => exact .inl ⟨rfl, rfl⟩
    | some d' => exact .inr ⟨_, d', rfl, rfl, fun x hx => if_neg hx, if_pos rfl, rfl⟩

theorem target_nt : ascii ".nt" = 46 :: Fmt.nt.bytes := by decide +kernel

theorem target_nq : ascii ".nq" = 46 :: Fmt.nq.bytes := by decide +kernel

/-- What one path gives: its input can be read as wanted, only the file written for it is changed, and where it reads
is that file or the path itself. -/
theorem inputOf_spec (w : World Data) (fmt : Option RFmt) (dir p : Bytes) (k : Disk Data)
    (hc : fmt = none ∨ stripCompression p = none) :
    (inputOf w fmt dir p k = none ∧ wanted w fmt k.files p = none) ∨
    ∃ s k', inputOf w fmt dir p k = some (s, k') ∧ k'.indexes = k.indexes ∧
      (∀ x, written w fmt dir p ≠ some x → k'.files x = k.files x) ∧
      wanted w fmt k.files p = (k'.files s.path).map (fun d => ⟨s.format, s.graph, s.compression, d⟩) ∧
      (written w fmt dir p = some s.path ∨ (written w fmt dir p = none ∧ w.canon p = some s.path)) := by
  unfold inputOf wanted written
  cases hs : stripCompression p with
  | some ic =>
    obtain ⟨inner, c⟩ := ic
    rcases hc with rfl | hc
    · dsimp only
      rw [nativeOf_guess]
      cases hq : w.canon p with
      | none => left; cases guessFormat inner <;> simp; split <;> rfl
      | some q =>
        cases hg : guessFormat inner with
        | none => left; cases hf : k.files q <;> simp [formatFor, hg, hf]
        | some r =>
          cases r <;> simp only [Option.bind_some, passThrough]
          case rdfxml | jsonld | trig | n3 => left; cases hf : k.files q <;> simp [formatFor, hg, hf]
          all_goals
            right
            refine ⟨_, _, rfl, rfl, fun _ _ => rfl, ?_, .inr (by simp)⟩
            cases hf : k.files q <;> simp [formatFor, hg, hf]
    · rw [hs] at hc
      simp at hc
  | none =>
    cases hq : w.canon p with
    | none => left; exact ⟨rfl, rfl⟩
    | some q =>
      dsimp only
      rw [or_format]
      cases hg : formatFor fmt q with
      | none => left; cases hf : k.files q <;> simp [hg, hf]
      | some r =>
        cases r <;> simp only [passThrough]
        case turtle | ntriples | nquads =>
          right
          refine ⟨_, _, rfl, rfl, fun _ _ => rfl, ?_, .inr (by simp)⟩
          cases hf : k.files q <;> simp [hg, hf]
        all_goals
          simp only [target_nt, target_nq, Option.bind_eq_bind, Option.bind_some]
          rcases convert_spec w dir q _ k with ⟨h1, h2⟩ | ⟨k', d, h1, h2, h3, h4, h5⟩
          · left
            refine ⟨h1, ?_⟩
            cases hf : k.files q with
            | none => rfl
            | some d =>
              rw [hf, Option.bind_some] at h2
              simp [hg, h2]
          · right
            refine ⟨_, k', h1, h2, ?_, ?_, .inl rfl⟩
            · intro x hx
              exact h3 x fun h => hx (by rw [h]; rfl)
            · rw [h4]
              cases hf : k.files q with
              | none => rw [hf] at h5; simp at h5
              | some d =>
                rw [hf, Option.bind_some] at h5
                simp [hg, h5, targetFmt]

theorem wanted_congr (w : World Data) (fmt : Option RFmt) {f g : Bytes → Option Data} {p : Bytes}
    (h : ∀ q, w.canon p = some q → f q = g q) : wanted w fmt f p = wanted w fmt g p := by
  unfold wanted
  cases hq : w.canon p with
  | none => rfl
  | some q =>
    show (f q).bind _ = (g q).bind _
    rw [h q hq]

theorem mapM_congr' {α β : Type} {f g : α → Option β} {l : List α} (h : ∀ a ∈ l, f a = g a) : l.mapM f = l.mapM g := by
  induction l with
  | nil => rfl
  | cons a l ih => rw [List.mapM_cons, List.mapM_cons, h a (by simp), ih fun x hx => h x (by simp [hx])]

theorem inputsOf_frame (w : World Data) (fmt : Option RFmt) (dir : Bytes) : ∀ (ps : List Bytes) (k : Disk Data)
    (ss : List Source) (k' : Disk Data), (fmt = none ∨ ∀ p ∈ ps, stripCompression p = none) →
    inputsOf w fmt dir ps k = some (ss, k') → k'.indexes = k.indexes ∧ (ss = [] ↔ ps = []) ∧
      ∀ x, (∀ p ∈ ps, written w fmt dir p ≠ some x) → k'.files x = k.files x
  | [], k, ss, k', _, h => by
    simp only [inputsOf, Option.some.injEq, Prod.mk.injEq] at h
    obtain ⟨rfl, rfl⟩ := h
    simp
  | p :: ps, k, ss, k', hc, h => by
    unfold inputsOf at h
    split at h
    · simp at h
    · next s k1 h1 =>
      split at h
      · simp at h
      · next ss k2 h2 =>
        simp only [Option.some.injEq, Prod.mk.injEq] at h
        obtain ⟨rfl, rfl⟩ := h
        rcases inputOf_spec w fmt dir p k (hc.imp_right fun h => h p (by simp)) with ⟨he, -⟩ | ⟨s', k1', he, g1, g2, -⟩
        · rw [he] at h1
          simp at h1
        · rw [he] at h1
          simp only [Option.some.injEq, Prod.mk.injEq] at h1
          obtain ⟨rfl, rfl⟩ := h1
          obtain ⟨i1, -, i3⟩ := inputsOf_frame w fmt dir ps k1' ss k2
            (hc.imp_right fun h p hp => h p (by simp [hp])) h2
          refine ⟨i1.trans g1, by simp, ?_⟩
          intro x hx
          rw [i3 x fun p hp => hx p (by simp [hp]), g2 x (hx p (by simp))]

theorem inputsOf_read (w : World Data) (fmt : Option RFmt) (dir : Bytes) : ∀ (ps : List Bytes) (k : Disk Data),
    (fmt = none ∨ ∀ p ∈ ps, stripCompression p = none) → (ps.filterMap (written w fmt dir)).Nodup →
    (∀ p ∈ ps, ∀ p' ∈ ps, ∀ x, written w fmt dir p = some x → w.canon p' ≠ some x) →
    ((inputsOf w fmt dir ps k).bind fun r => readAll r.2.files r.1) = ps.mapM (wanted w fmt k.files)
  | [], k, _, _, _ => rfl
  | p :: ps, k, hc, hn, hd => by
    have hn' : (ps.filterMap (written w fmt dir)).Nodup := by
      rw [List.filterMap_cons] at hn
      split at hn
      · exact hn
      · exact (List.nodup_cons.1 hn).2
    rw [List.mapM_cons]
    rcases inputOf_spec w fmt dir p k (hc.imp_right fun h => h p (by simp)) with ⟨he, hw⟩ | ⟨s, k1, he, g1, g2, g3, g4⟩
    · rw [inputsOf, he, hw]
      rfl
    · have ih := inputsOf_read w fmt dir ps k1 (hc.imp_right fun h p hp => h p (by simp [hp])) hn'
        fun p hp p' hp' => hd p (by simp [hp]) p' (by simp [hp'])
      rw [mapM_congr' (g := wanted w fmt k.files) fun p' hp' => wanted_congr w fmt fun q hq =>
        g2 q fun h => hd p (by simp) p' (by simp [hp']) q h hq] at ih
      rw [inputsOf, he]
      dsimp only
      cases hi : inputsOf w fmt dir ps k1 with
      | none =>
        rw [hi] at ih
        rw [← ih]
        cases wanted w fmt k.files p <;> rfl
      | some r =>
        obtain ⟨ss, k2⟩ := r
        rw [hi] at ih
        simp only [Option.bind_some] at ih ⊢
        rw [← ih]
        obtain ⟨-, -, hfr⟩ := inputsOf_frame w fmt dir ps k1 ss k2 (hc.imp_right fun h p hp => h p (by simp [hp])) hi
        have hk : k2.files s.path = k1.files s.path := by
          apply hfr
          intro p' hp' hw
          rcases g4 with g4 | ⟨-, g4⟩
          · rw [List.filterMap_cons, g4] at hn
            exact (List.nodup_cons.1 hn).1 (List.mem_filterMap.2 ⟨p', hp', hw⟩)
          · exact hd p' (by simp [hp']) p (by simp) _ hw g4
        rw [readAll, hk, g3]
        cases k1.files s.path <;> cases readAll k2.files ss <;> rfl

end Qlever
