import Verif.Qlever.StoreSpec
import Mathlib.Data.List.Basic

/-!
# Lemmas: hashes and kept indexes
-/

namespace Qlever

variable {Data : Type}

/-! ## The hash -/

theorem fnv_append (h : BitVec 64) (a b : Bytes) : fnv h (a ++ b) = fnv (fnv h a) b := by
  simp [fnv, List.foldl_append]

theorem mul_prime_inj {a b : BitVec 64} (h : a * fnvPrime = b * fnvPrime) : a = b := by
  have hq : fnvPrime * 0xce965057aff6957b#64 = 1#64 := by decide +kernel
  have := congrArg (· * 0xce965057aff6957b#64) h
  simpa only [BitVec.mul_assoc, hq, BitVec.mul_one] using this

theorem fnv_inj (l : Bytes) : ∀ {a b : BitVec 64}, fnv a l = fnv b l → a = b := by
  induction l with
  | nil => intro a b h; exact h
  | cons x l ih =>
    intro a b h
    have := mul_prime_inj (ih h)
    have h2 := congrArg (· ^^^ x.toBitVec.setWidth 64) this
    simpa [BitVec.xor_assoc] using h2

theorem byte_wide_inj {a b : UInt8} (h : a.toBitVec.setWidth 64 = b.toBitVec.setWidth 64) : a = b := by
  have := congrArg (BitVec.setWidth 8) h
  simp only [BitVec.setWidth_setWidth_of_le _ (by decide : 8 ≤ 64), BitVec.setWidth_eq] at this
  exact UInt8.toBitVec_inj.1 this

theorem fnv_byte {h : BitVec 64} {a b : UInt8} (hab : a ≠ b) (t : Bytes) : fnv h (a :: t) ≠ fnv h (b :: t) := by
  intro he
  have := mul_prime_inj (fnv_inj t (a := (h ^^^ a.toBitVec.setWidth 64) * fnvPrime)
    (b := (h ^^^ b.toBitVec.setWidth 64) * fnvPrime) he)
  exact hab (byte_wide_inj (BitVec.xor_right_inj (h)|>.1 this))

theorem hexDigit_inj {m n : Nat} (hm : m < 16) (hn : n < 16) (h : hexDigit m = hexDigit n) : m = n := by
  have : ∀ m < 16, ∀ n < 16, hexDigit m = hexDigit n → m = n := by decide +kernel
  exact this m hm n hn h

theorem hex_length (k : Nat) : ∀ n, (hex k n).length = k := by
  induction k with
  | zero => intro n; rfl
  | succ k ih => intro n; simp [hex, ih]

theorem hex_inj (k : Nat) : ∀ m n : Nat, m < 16 ^ k → n < 16 ^ k → hex k m = hex k n → m = n := by
  induction k with
  | zero => intro m n hm hn _; simp at hm hn; omega
  | succ k ih =>
    intro m n hm hn h
    unfold hex at h
    obtain ⟨h1, h2⟩ := List.append_inj' h rfl
    have h3 := ih (m / 16) (n / 16) (by rw [Nat.pow_succ] at hm; omega) (by rw [Nat.pow_succ] at hn; omega) h1
    have h4 := hexDigit_inj (Nat.mod_lt _ (by omega)) (Nat.mod_lt _ (by omega)) (List.singleton_inj.1 h2)
    omega

theorem fingerprint_eq {l l' : List Source} (h : fingerprint l = fingerprint l') :
    fnv fnvOffset (stream l) = fnv fnvOffset (stream l') := by
  have e : 16 ^ 16 = 2 ^ 64 := by decide
  exact BitVec.eq_of_toNat_eq (hex_inj 16 _ _ (by rw [e]; exact BitVec.isLt _) (by rw [e]; exact BitVec.isLt _) h)

theorem fingerprint_length (l : List Source) : (fingerprint l).length = 16 := hex_length _ _

theorem resolve_eq {c c' : Setup} {l l' : List Source} (hc : c.dir = none) (hc' : c'.dir = none)
    (h : resolveDir c (fingerprint l) = resolveDir c' (fingerprint l')) : fingerprint l = fingerprint l' := by
  unfold resolveDir at h
  rw [hc, hc'] at h
  simp only [Option.getD_none] at h
  have h' : (c.base ++ [47]) ++ fingerprint l = (c'.base ++ [47]) ++ fingerprint l' := by simpa using h
  exact (List.append_inj' h' (by simp [fingerprint_length])).2

/-! ## What is hashed -/

theorem bytes_split {a a' b b' : Bytes} (ha : (0 : UInt8) ∉ a) (ha' : (0 : UInt8) ∉ a') (h : a ++ 0 :: b = a' ++ 0 :: b') :
    a = a' ∧ b = b' := by
  induction a generalizing a' with
  | nil =>
    cases a' with
    | nil => simpa using h
    | cons x a' =>
      simp only [List.nil_append, List.cons_append, List.cons.injEq] at h
      exact absurd (by simp [h.1]) ha'
  | cons x a ih =>
    cases a' with
    | nil =>
      simp only [List.nil_append, List.cons_append, List.cons.injEq] at h
      exact absurd (by simp [h.1]) ha
    | cons y a' =>
      simp only [List.cons_append, List.cons.injEq] at h
      obtain ⟨h1, h2⟩ := ih (fun h => ha (by simp [h])) (fun h => ha' (by simp [h])) h.2
      exact ⟨by rw [h.1, h1], h2⟩

/-- What follows the name of a compression begins with a slash, or is nothing. -/
def SlashOrEnd (l : Bytes) : Prop := l = [] ∨ ∃ r, l = 47 :: r

theorem tail_split {f f' : Fmt} {c c' : Option Compression} {t t' : Bytes} (ht : SlashOrEnd t) (ht' : SlashOrEnd t')
    (h : f.bytes ++ ((c.map Compression.bytes).getD [] ++ t) = f'.bytes ++ ((c'.map Compression.bytes).getD [] ++ t')) :
    f = f' ∧ c = c' ∧ t = t' := by
  rcases ht with rfl | ⟨r, rfl⟩ <;> rcases ht' with rfl | ⟨r', rfl⟩ <;>
    cases f <;> cases f' <;> rcases c with _ | (_ | _ | _) <;> rcases c' with _ | (_ | _ | _) <;>
    simp_all [Fmt.bytes, Compression.bytes]

theorem stream_slash {l : List Source} (h : ∀ s ∈ l, FromPath s) : SlashOrEnd (stream l) := by
  cases l with
  | nil => exact .inl rfl
  | cons s l =>
    obtain ⟨-, ⟨r, hr⟩, -⟩ := h s (by simp)
    exact .inr ⟨_, by simp [stream, Source.bytes, hr]; rfl⟩

theorem stream_inj : ∀ {l l' : List Source}, (∀ s ∈ l, FromPath s) → (∀ s ∈ l', FromPath s) → stream l = stream l' →
    l = l'
  | [], [], _, _, _ => rfl
  | [], s :: l, _, _, h => by simp [stream, Source.bytes] at h
  | s :: l, [], _, _, h => by simp [stream, Source.bytes] at h
  | s :: l, s' :: l', hl, hl', h => by
    obtain ⟨g1, -, z1⟩ := hl s (by simp)
    obtain ⟨g2, -, z2⟩ := hl' s' (by simp)
    have h' : s.path ++ 0 :: (s.format.bytes ++ ((s.compression.map Compression.bytes).getD [] ++ stream l)) =
        s'.path ++ 0 :: (s'.format.bytes ++ ((s'.compression.map Compression.bytes).getD [] ++ stream l')) := by
      simpa [stream, Source.bytes, g1, g2] using h
    obtain ⟨e1, h'⟩ := bytes_split z1 z2 h'
    obtain ⟨e2, e3, e4⟩ := tail_split (stream_slash fun x hx => hl x (by simp [hx]))
      (stream_slash fun x hx => hl' x (by simp [hx])) h'
    have e5 := stream_inj (fun x hx => hl x (by simp [hx])) (fun x hx => hl' x (by simp [hx])) e4
    obtain ⟨p, f, g, c⟩ := s
    obtain ⟨p', f', g', c'⟩ := s'
    dsimp only at *
    subst e1 e2 e3 e5 g1 g2
    rfl

/-! ## Kept indexes -/

theorem readAll_mapM (f : Bytes → Option Data) (l : List Source) :
    readAll f l = l.mapM fun s => (f s.path).map fun d => ⟨s.format, s.graph, s.compression, d⟩ := by
  induction l with
  | nil => rfl
  | cons s l ih =>
    rw [readAll, List.mapM_cons, ← ih]
    cases f s.path <;> cases readAll f l <;> rfl

theorem readAll_congr {f g : Bytes → Option Data} {l : List Source} (h : ∀ s ∈ l, f s.path = g s.path) :
    readAll f l = readAll g l := by
  induction l with
  | nil => rfl
  | cons s l ih =>
    rw [readAll, readAll, h s (by simp), ih fun x hx => h x (by simp [hx])]

/-- Every index kept is that of something loaded before, in its directory. -/
def Kept (done : List (Setup × List Source)) (k : Disk Data) : Prop :=
  ∀ d n es, k.indexes d n = some es → ∃ r ∈ done, d = resolveDir r.1 (fingerprint r.2) ∧ readAll k.files r.2 = some es

theorem load_spec {done : List (Setup × List Source)} {k : Disk Data} (hk : Kept done k) {c : Setup} {l : List Source}
    (hs : ∀ r ∈ done, resolveDir r.1 (fingerprint r.2) = resolveDir c (fingerprint l) → r.2 = l) :
    (l = [] ∧ load c l k = none) ∨ (l ≠ [] ∧ readAll k.files l = none ∧ load c l k = none) ∨
    (l ≠ [] ∧ ∃ es b k', readAll k.files l = some es ∧ load c l k = some (es, b, k') ∧ k'.files = k.files ∧
      Kept ((c, l) :: done) k') := by
  by_cases hl : l = []
  · exact .inl ⟨hl, by simp [load, buildIndex, hl]⟩
  · right
    cases hi : k.indexes (resolveDir c (fingerprint l)) c.name with
    | some es =>
      obtain ⟨r, hr, h1, h2⟩ := hk _ _ _ hi
      rw [hs r hr h1.symm] at h2
      refine .inr ⟨hl, es, _, k, h2, by simp [load, buildIndex, hl, hi]; rfl, rfl, ?_⟩
      intro d n es he
      obtain ⟨r, hr, h⟩ := hk d n es he
      exact ⟨r, by simp [hr], h⟩
    | none =>
      cases hr : readAll k.files l with
      | none => exact .inl ⟨hl, rfl, by simp [load, buildIndex, hl, hi, hr]⟩
      | some es =>
        refine .inr ⟨hl, es, true, ⟨k.files, fun d' n' => if d' = resolveDir c (fingerprint l) ∧ n' = c.name then some es
          else k.indexes d' n'⟩, rfl, by simp [load, buildIndex, hl, hi, hr], rfl, ?_⟩
        intro d n es' he
        dsimp only at he
        split at he
        · next hd =>
          simp only [Option.some.injEq] at he
          subst he
          exact ⟨(c, l), by simp, hd.1, hr⟩
        · obtain ⟨r, hr, h⟩ := hk d n es' he
          exact ⟨r, by simp [hr], h⟩

/-- The loads of a history. -/
def loads : List (Event Data) → List (Setup × List Source)
  | [] => []
  | .write _ _ :: es => loads es
  | .load c l :: es => (c, l) :: loads es

theorem history_expected : ∀ (es : List (Event Data)) (done : List (Setup × List Source)) (k : Disk Data), Kept done k →
    (∀ r ∈ done ++ loads es, ∀ r' ∈ done ++ loads es,
      resolveDir r.1 (fingerprint r.2) = resolveDir r'.1 (fingerprint r'.2) → r.2 = r'.2) →
    (∀ r ∈ done, ∀ p d, Event.write p d ∈ es → ∀ s ∈ r.2, s.path ≠ p) → Steady es →
    (history es k).1 = expected es k.files
  | [], _, _, _, _, _, _ => rfl
  | .write p d :: es, done, k, hk, hs, hw, hst => by
    simp only [history, expected]
    congr 1
    refine history_expected es done _ ?_ hs (fun r hr p d he => hw r hr p d (by simp [he])) hst
    intro d' n es' he
    obtain ⟨r, hr, h1, h2⟩ := hk d' n es' he
    refine ⟨r, hr, h1, ?_⟩
    rw [← h2]
    apply readAll_congr
    intro s hs
    dsimp only
    rw [if_neg (hw r hr p d (by simp) s hs)]
  | .load c l :: es, done, k, hk, hs, hw, hst => by
    have hw' : ∀ r ∈ done, ∀ p d, Event.write p d ∈ es → ∀ s ∈ r.2, s.path ≠ p :=
      fun r hr p d he => hw r hr p d (by simp [he])
    have hs' : ∀ r ∈ done ++ loads es, ∀ r' ∈ done ++ loads es,
        resolveDir r.1 (fingerprint r.2) = resolveDir r'.1 (fingerprint r'.2) → r.2 = r'.2 := by
      intro r hr r' hr'
      refine hs r ?_ r' ?_
      · rcases List.mem_append.1 hr with h | h <;> simp [loads, h]
      · rcases List.mem_append.1 hr' with h | h <;> simp [loads, h]
    rw [expected, ← readAll_mapM]
    rcases load_spec hk (c := c) (l := l) (fun r hr h => hs r (by simp [hr]) (c, l) (by simp [loads]) h) with
      ⟨h1, h2⟩ | ⟨h1, h2, h3⟩ | ⟨h1, e, b, k', h2, h3, h4, h5⟩
    · rw [history, h2, if_pos h1]
      exact congrArg _ (history_expected es done k hk hs' hw' hst.2)
    · rw [history, h3, if_neg h1, h2]
      exact congrArg _ (history_expected es done k hk hs' hw' hst.2)
    · rw [history, h3, if_neg h1, h2]
      have := history_expected es ((c, l) :: done) k' h5 (by
        intro r hr r' hr'
        refine hs r ?_ r' ?_
        · rcases List.mem_append.1 hr with h | h
          · rcases List.mem_cons.1 h with rfl | h <;> simp [loads, *]
          · simp [loads, h]
        · rcases List.mem_append.1 hr' with h | h
          · rcases List.mem_cons.1 h with rfl | h <;> simp [loads, *]
          · simp [loads, h]) (by
        intro r hr p d he
        rcases List.mem_cons.1 hr with rfl | hr
        · exact hst.1 p d he
        · exact hw' r hr p d he) hst.2
      rw [h4] at this
      exact congrArg _ this

theorem load_files {c : Setup} {l : List Source} {k k' : Disk Data} {e : List (Entry Data)} {b : Bool}
    (h : load c l k = some (e, b, k')) : k'.files = k.files := by
  unfold load at h
  split at h
  · simp at h
  · next k2 hk2 =>
    dsimp only at h
    split at h
    · simp at h
    · simp only [Option.some.injEq, Prod.mk.injEq] at h
      rw [← h.2.2]
      unfold buildIndex at hk2
      split at hk2
      · simp at hk2
      · dsimp only at hk2
        split at hk2
        · simp only [Option.some.injEq] at hk2
          rw [hk2]
        · obtain ⟨es, -, rfl⟩ := Option.map_eq_some_iff.1 hk2
          rfl

end Qlever
