import Verif.Cache.Codec
import Mathlib.Tactic.Ring

/-! # Lemmas about readers and writers of bytes -/

namespace Cache

variable {α β γ : Type}

@[simp] theorem res_ok_bind (a : α) (f : α → Res β) : (Res.ok a >>= f) = f a := rfl
@[simp] theorem res_pure_bind (a : α) (f : α → Res β) : ((pure a : Res α) >>= f) = f a := rfl
@[simp] theorem res_err_bind (f : α → Res β) : ((Res.err : Res α) >>= f) = .err := rfl
@[simp] theorem res_panic_bind (f : α → Res β) : ((Res.panic : Res α) >>= f) = .panic := rfl
theorem res_pure (a : α) : (pure a : Res α) = .ok a := rfl

theorem dec_bind (d : Dec α) (k : α → Dec β) (bs : Bytes) :
    (d >>= k) bs = (d bs >>= fun p => k p.1 p.2) := by
  change Dec.bind d k bs = _
  unfold Dec.bind
  cases h : d bs with
  | ok p => rfl
  | err => rfl
  | panic => rfl

theorem dec_pure (a : α) (bs : Bytes) : (pure a : Dec α) bs = .ok (a, bs) := rfl

/-- Reading what stands at the front of the input. -/
def Reads (d : Dec α) (e : Bytes) (b : Res α) : Prop :=
  ∀ r, d (e ++ r) = (b >>= fun a => Res.ok (a, r))

theorem Reads.pure (a : α) : Reads (pure a) [] (.ok a) := fun _ => rfl

theorem Reads.bind {d : Dec α} {k : α → Dec β} {e e' : Bytes} {b : Res α} {b' : α → Res β}
    (h : Reads d e b) (h' : ∀ a, Reads (k a) e' (b' a)) :
    Reads (d >>= k) (e ++ e') (b >>= b') := by
  intro r
  rw [dec_bind, List.append_assoc, h (e' ++ r)]
  cases b with
  | ok a => exact h' a r
  | err => rfl
  | panic => rfl

theorem Reads.last {d : Dec α} {f : α → β} {e : Bytes} {b : Res α} (h : Reads d e b) :
    Reads (d >>= fun a => Pure.pure (f a)) e (b >>= fun a => Pure.pure (f a)) := by
  intro r
  rw [dec_bind, h r]
  cases b with
  | ok a => rfl
  | err => rfl
  | panic => rfl

theorem Reads.lastLift {d : Dec α} {f : α → Res β} {e : Bytes} {b : Res α} (h : Reads d e b) :
    Reads (d >>= fun a => Dec.lift (f a)) e (b >>= f) := by
  intro r
  rw [dec_bind, h r]
  cases b with
  | ok a => cases hf : f a <;> simp [Dec.lift, hf, Res.bind]
  | err => rfl
  | panic => rfl

theorem Reads.lift (x : Res α) : Reads (Dec.lift x) [] x := by
  intro r
  cases x <;> rfl

theorem Reads.tag {d : Dec α} {k : α → Dec β} {e e' : Bytes} {a : α} {b : Res β}
    (h : Reads d e (.ok a)) (h' : Reads (k a) e' b) : Reads (d >>= k) (e ++ e') b := by
  intro r
  rw [dec_bind, List.append_assoc, h (e' ++ r)]
  exact h' r

theorem Reads.tag0 {d : Dec α} {k : α → Dec β} {e : Bytes} {a : α} {x : β}
    (h : Reads d e (.ok a)) (h' : k a = Pure.pure x) : Reads (d >>= k) e (.ok x) := by
  intro r
  rw [dec_bind, h r]
  change k a r = _
  rw [h']
  rfl

/-! ## What a reader has read does not depend on what follows -/

/-- A reader that has read something reads the same when more follows. -/
def Stable (d : Dec α) : Prop :=
  ∀ bs a r t, d bs = .ok (a, r) → d (bs ++ t) = .ok (a, r ++ t)

theorem Stable.pure (a : α) : Stable (Pure.pure a : Dec α) := by
  intro bs x r t h
  cases h
  rfl

theorem Stable.fail : Stable (Dec.fail : Dec α) := by
  intro bs x r t h
  cases h

theorem Stable.lift (x : Res α) : Stable (Dec.lift x) := by
  intro bs a r t h
  cases x with
  | ok y => cases h; rfl
  | err => cases h
  | panic => cases h

theorem Stable.bind {d : Dec α} {k : α → Dec β} (h : Stable d) (h' : ∀ a, Stable (k a)) :
    Stable (d >>= k) := by
  intro bs x r t hb
  rw [dec_bind] at hb ⊢
  cases hd : d bs with
  | ok p =>
    rw [hd] at hb
    rw [h bs p.1 p.2 t hd]
    exact h' p.1 p.2 x r t hb
  | err => rw [hd] at hb; cases hb
  | panic => rw [hd] at hb; cases hb

theorem Stable.ite {p : Prop} [Decidable p] {d d' : Dec α} (h : Stable d) (h' : Stable d') :
    Stable (if p then d else d') := by
  split
  · exact h
  · exact h'

/-! ## Numbers -/

theorem var_ne_nil (n : Nat) : var n ≠ [] := by
  unfold var
  split <;> simp

theorem reads_var (n : Nat) : Reads decVar (var n) (.ok n) := by
  induction n using Nat.strongRecOn with
  | ind n ih =>
    intro r
    unfold var
    split
    · rename_i h
      have : (UInt8.ofNat n).toNat = n := by
        rw [UInt8.toNat_ofNat']
        exact Nat.mod_eq_of_lt (by omega)
      simp only [List.cons_append, List.nil_append, decVar, this, h, if_true]
      rfl
    · rename_i h
      have h2 : (UInt8.ofNat (n % 128 + 128)).toNat = n % 128 + 128 := by
        rw [UInt8.toNat_ofNat']
        exact Nat.mod_eq_of_lt (by omega)
      have h3 := ih (n / 128) (by omega) r
      simp only [List.cons_append, decVar, h2]
      rw [if_neg (by omega), h3]
      simp only [res_ok_bind]
      have : n % 128 + 128 - 128 + 128 * (n / 128) = n := by omega
      rw [this]

theorem stable_var : Stable decVar := by
  intro bs
  induction bs with
  | nil => intro a r t h; cases h
  | cons b bs ih =>
    intro a r t h
    simp only [List.cons_append, decVar] at h ⊢
    split at h
    · rename_i hb
      rw [if_pos hb]
      cases h
      rfl
    · rename_i hb
      rw [if_neg hb]
      cases hd : decVar bs with
      | ok p =>
        rw [hd] at h
        rw [ih p.1 p.2 t hd]
        cases h
        rfl
      | err => rw [hd] at h; cases h
      | panic => rw [hd] at h; cases h

theorem unzig_zig (i : Int) : unzig (zig i) = i := by
  unfold zig unzig
  split <;> split <;> omega

theorem reads_int (i : Int) : Reads decInt (encInt i) (.ok i) := by
  have h := Reads.last (f := unzig) (reads_var (zig i))
  intro r
  have h1 := h r
  simp only [res_ok_bind, res_pure_bind, unzig_zig] at h1
  exact h1

theorem stable_int : Stable decInt := Stable.bind stable_var fun _ => Stable.pure _

theorem reads_byte (b : UInt8) : Reads decByte [b] (.ok b) := fun _ => rfl

theorem stable_byte : Stable decByte := by
  intro bs a r t h
  cases bs with
  | nil => cases h
  | cons b bs => cases h; rfl

theorem reads_bool (b : Bool) : Reads decBool (encBool b) (.ok b) := by
  intro r
  cases b <;> rfl

theorem stable_bool : Stable decBool :=
  Stable.bind stable_byte fun _ => Stable.ite (Stable.pure _) (Stable.ite (Stable.pure _) Stable.fail)

theorem reads_take (b : Bytes) : Reads (decTake b.length) b (.ok b) := by
  intro r
  simp [decTake]

theorem reads_take' (b : Bytes) (n : Nat) (h : b.length = n) : Reads (decTake n) b (.ok b) := by
  subst h
  exact reads_take b

theorem stable_take (n : Nat) : Stable (decTake n) := by
  intro bs a r t h
  unfold decTake at h ⊢
  split at h
  · rename_i hn
    cases h
    rw [if_pos (by simp; omega), List.take_append_of_le_length hn, List.drop_append_of_le_length hn]
  · cases h

/-! ## Texts -/

theorem ofBytes_toUTF8 (s : String) : ofBytes s.toUTF8.data.toList = some s := by
  unfold ofBytes
  have : (⟨s.toUTF8.data.toList.toArray⟩ : ByteArray) = s.toUTF8 := by
    cases s.toUTF8
    simp
  rw [this, String.fromUTF8?]
  simp only [String.toUTF8_eq_toByteArray]
  rw [dif_pos s.isValidUTF8]
  rfl

theorem reads_str (s : String) : Reads decStr (encStr s) (.ok s) := by
  unfold decStr encStr
  refine Reads.tag (reads_var _) ?_
  intro r
  rw [dec_bind, reads_take]
  simp only [res_ok_bind, ofBytes_toUTF8]
  rfl

theorem stable_str : Stable decStr := by
  refine Stable.bind stable_var fun n => Stable.bind (stable_take n) fun b => ?_
  cases ofBytes b with
  | none => exact Stable.fail
  | some s => exact Stable.pure _

/-! ## Options, sequences, maps -/

/-- Reading back of an option. -/
def backOpt (b : α → Res α) : Option α → Res (Option α)
  | none => .ok none
  | some a => do
    let x ← b a
    pure (some x)

/-- Reading back of a sequence. -/
def backAll (b : α → Res α) : List α → Res (List α)
  | [] => .ok []
  | a :: as => do
    let x ← b a
    let xs ← backAll b as
    pure (x :: xs)

/-- Reading back of an entry. -/
def backPair (b : α → Res α) (c : β → Res β) (p : α × β) : Res (α × β) := do
  let x ← b p.1
  let y ← c p.2
  pure (x, y)

/-- Reading back of a map. -/
def backMap [DecidableEq α] (b : α → Res α) (c : β → Res β) (l : List (α × β)) :
    Res (List (α × β)) := do
  let xs ← backAll (backPair b c) l
  pure (mkMap xs)

/-- Reading back of a set. -/
def backSet [DecidableEq α] (b : α → Res α) (l : List α) : Res (List α) := do
  let xs ← backAll b l
  pure (mkSet xs)

theorem reads_opt {e : α → Bytes} {d : Dec α} {b : α → Res α} (o : Option α)
    (h : ∀ a, o = some a → Reads d (e a) (b a)) :
    Reads (decOpt d) (encOpt e o) (backOpt b o) := by
  cases o with
  | none => intro r; rfl
  | some a =>
    refine Reads.tag (reads_byte 1) ?_
    exact Reads.last (h a rfl)

theorem stable_opt {d : Dec α} (h : Stable d) : Stable (decOpt d) :=
  Stable.bind stable_byte fun _ =>
    Stable.ite (Stable.pure _) (Stable.ite (Stable.bind h fun _ => Stable.pure _) Stable.fail)

theorem reads_all {e : α → Bytes} {d : Dec α} {b : α → Res α} (l : List α)
    (h : ∀ a ∈ l, Reads d (e a) (b a)) : Reads (decAll d l.length) (encAll e l) (backAll b l) := by
  induction l with
  | nil => exact Reads.pure []
  | cons a l ih =>
    refine Reads.bind (h a (by simp)) fun x => ?_
    exact Reads.last (ih fun c hc => h c (by simp [hc]))

theorem stable_all {d : Dec α} (h : Stable d) (n : Nat) : Stable (decAll d n) := by
  induction n with
  | zero => exact Stable.pure _
  | succ n ih => exact Stable.bind h fun _ => Stable.bind ih fun _ => Stable.pure _

theorem reads_list {e : α → Bytes} {d : Dec α} {b : α → Res α} (l : List α)
    (h : ∀ a ∈ l, Reads d (e a) (b a)) : Reads (decList d) (encList e l) (backAll b l) :=
  Reads.tag (reads_var _) (reads_all l h)

theorem stable_list {d : Dec α} (h : Stable d) : Stable (decList d) :=
  Stable.bind stable_var fun n => stable_all h n

theorem reads_pair {e : α → Bytes} {d : Dec α} {b : α → Res α} {e' : β → Bytes} {d' : Dec β}
    {b' : β → Res β} (p : α × β) (h : Reads d (e p.1) (b p.1)) (h' : Reads d' (e' p.2) (b' p.2)) :
    Reads (decPair d d') (encPair e e' p) (backPair b b' p) :=
  Reads.bind h fun _ => Reads.last h'

theorem stable_pair {d : Dec α} {d' : Dec β} (h : Stable d) (h' : Stable d') :
    Stable (decPair d d') :=
  Stable.bind h fun _ => Stable.bind h' fun _ => Stable.pure _

theorem reads_map [DecidableEq α] {e : α → Bytes} {d : Dec α} {b : α → Res α} {e' : β → Bytes}
    {d' : Dec β} {b' : β → Res β} (l : List (α × β))
    (h : ∀ p ∈ l, Reads d (e p.1) (b p.1)) (h' : ∀ p ∈ l, Reads d' (e' p.2) (b' p.2)) :
    Reads (decMap d d') (encList (encPair e e') l) (backMap b b' l) :=
  Reads.last (reads_list l fun p hp => reads_pair p (h p hp) (h' p hp))

theorem stable_map [DecidableEq α] {d : Dec α} {d' : Dec β} (h : Stable d) (h' : Stable d') :
    Stable (decMap d d') :=
  Stable.bind (stable_list (stable_pair h h')) fun _ => Stable.pure _

theorem reads_set [DecidableEq α] {e : α → Bytes} {d : Dec α} {b : α → Res α} (l : List α)
    (h : ∀ a ∈ l, Reads d (e a) (b a)) : Reads (decSet d) (encList e l) (backSet b l) :=
  Reads.last (reads_list l h)

theorem stable_set [DecidableEq α] {d : Dec α} (h : Stable d) : Stable (decSet d) :=
  Stable.bind (stable_list h) fun _ => Stable.pure _

/-! ## Readers that read more -/

/-- What the first reader reads, the second reads too. -/
def Le (d d' : Dec α) : Prop := ∀ bs x, d bs = .ok x → d' bs = .ok x

theorem Le.refl (d : Dec α) : Le d d := fun _ _ h => h

theorem Le.fail (d : Dec α) : Le Dec.fail d := fun _ _ h => by cases h

theorem Le.bind {d d' : Dec α} {k k' : α → Dec β} (h : Le d d') (h' : ∀ a, Le (k a) (k' a)) :
    Le (d >>= k) (d' >>= k') := by
  intro bs x hb
  rw [dec_bind] at hb ⊢
  cases hd : d bs with
  | ok p =>
    rw [hd] at hb
    rw [h bs p hd]
    exact h' p.1 p.2 x hb
  | err => rw [hd] at hb; cases hb
  | panic => rw [hd] at hb; cases hb

theorem Le.all {d d' : Dec α} (h : Le d d') (n : Nat) : Le (decAll d n) (decAll d' n) := by
  induction n with
  | zero => exact Le.refl _
  | succ n ih => exact Le.bind h fun _ => Le.bind ih fun _ => Le.refl _

theorem Le.list {d d' : Dec α} (h : Le d d') : Le (decList d) (decList d') :=
  Le.bind (Le.refl _) fun n => Le.all h n

/-! ## Maps and sets with distinct keys -/

theorem insKey_new [DecidableEq α] (k : α) (v : β) (m : List (α × β)) (h : k ∉ m.map Prod.fst) :
    insKey k v m = m ++ [(k, v)] := by
  induction m with
  | nil => rfl
  | cons p m ih =>
    simp only [List.map_cons, List.mem_cons, not_or] at h
    simp only [insKey]
    rw [if_neg (fun hh => h.1 hh.symm), ih h.2]
    rfl

theorem foldl_insKey [DecidableEq α] (l m : List (α × β)) (h : ((m ++ l).map Prod.fst).Nodup) :
    l.foldl (fun m p => insKey p.1 p.2 m) m = m ++ l := by
  induction l generalizing m with
  | nil => simp
  | cons p l ih =>
    simp only [List.foldl_cons]
    have hp : p.1 ∉ m.map Prod.fst := by
      intro hm
      rw [List.map_append, List.map_cons, List.nodup_append] at h
      exact h.2.2 p.1 hm p.1 (by simp) rfl
    rw [insKey_new p.1 p.2 m hp, ih]
    · simp
    · simpa using h

theorem mkMap_id [DecidableEq α] (l : List (α × β)) (h : (l.map Prod.fst).Nodup) : mkMap l = l := by
  unfold mkMap
  rw [foldl_insKey l [] (by simpa using h)]
  simp

theorem foldl_set [DecidableEq α] (l m : List α) (h : (m ++ l).Nodup) :
    l.foldl (fun m a => if a ∈ m then m else m ++ [a]) m = m ++ l := by
  induction l generalizing m with
  | nil => simp
  | cons a l ih =>
    simp only [List.foldl_cons]
    have ha : a ∉ m := by
      intro hm
      rw [List.nodup_append] at h
      exact h.2.2 a hm a (by simp) rfl
    rw [if_neg ha, ih]
    · simp
    · simpa using h

theorem mkSet_id [DecidableEq α] (l : List α) (h : l.Nodup) : mkSet l = l := by
  unfold mkSet
  rw [foldl_set l [] (by simpa using h)]
  simp

end Cache
