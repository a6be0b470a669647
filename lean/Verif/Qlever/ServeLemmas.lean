import Verif.Qlever.ServeSpec
import Verif.Qlever.CommandLemmas

/-!
# Lemmas: flags of the server
-/

namespace Qlever

/-- What a flag with a value gives. -/
def valuedRead (flag : String) (v : Option Str) : List (Str × Option Str) :=
  match v with
  | some v => [(flag.toList, some v)]
  | none => []

/-- What a flag without value gives. -/
def switchRead (flag : String) (b : Bool) : List (Str × Option Str) := if b then [(flag.toList, none)] else []

theorem read_valued {flag : String} (hf : flag.toList ∈ valueFlags) (v : Option Str) {l : List Str}
    {r : List (Str × Option Str)} (h : readFlags l = some r) :
    readFlags (valued flag v ++ l) = some (valuedRead flag v ++ r) := by
  cases v with
  | none => exact h
  | some v => simp [valued, valuedRead, readFlags, hf, h]

theorem read_switch {flag : String} (hf : flag.toList ∈ switchFlags) (hn : flag.toList ∉ valueFlags) (b : Bool)
    {l : List Str} {r : List (Str × Option Str)} (h : readFlags l = some r) :
    readFlags (switch flag b ++ l) = some (switchRead flag b ++ r) := by
  cases b with
  | false => exact h
  | true =>
    cases l with
    | nil => simp [readFlags] at h; simp [switch, switchRead, readFlags, hf, h]
    | cons v l => simp [switch, switchRead, readFlags, hf, hn, h]

/-- What is read of the arguments. -/
def serverRead (name : Str) (c : ServerConfig) : List (Str × Option Str) :=
  valuedRead "-i" (some name) ++ (valuedRead "-p" (some (number c.port)) ++ (valuedRead "-a" c.token ++
  (valuedRead "-j" (c.queries.map number) ++ (valuedRead "-m" c.memory ++ (valuedRead "-c" c.cache ++
  (valuedRead "-e" c.entry ++ (valuedRead "-E" c.lazyCache ++ (valuedRead "-k" (c.entries.map number) ++
  (switchRead "-P" c.noPatterns ++ (switchRead "-T" c.noTrick ++ (switchRead "-t" c.text ++
  (switchRead "-o" c.onlyPso ++ (valuedRead "-s" c.timeout ++ (valuedRead "-S" (c.rows.map number) ++
  (valuedRead "--throw-on-unbound-variables" (if c.throwUnbound then some "true".toList else none) ++ [])))))))))))))))

theorem read_args (v1 : Bool) (name : Str) (c : ServerConfig) :
    readFlags (serverArgs v1 name c).tail = some (serverRead name c) := by
  have e : (serverArgs v1 name c).tail = valued "-i" (some name) ++ (valued "-p" (some (number c.port)) ++
      (valued "-a" c.token ++ (valued "-j" (c.queries.map number) ++ (valued "-m" c.memory ++ (valued "-c" c.cache ++
      (valued "-e" c.entry ++ (valued "-E" c.lazyCache ++ (valued "-k" (c.entries.map number) ++
      (switch "-P" c.noPatterns ++ (switch "-T" c.noTrick ++ (switch "-t" c.text ++ (switch "-o" c.onlyPso ++
      (valued "-s" c.timeout ++ (valued "-S" (c.rows.map number) ++ (valued "--throw-on-unbound-variables"
        (if c.throwUnbound then some "true".toList else none) ++ []))))))))))))))) := by
    unfold serverArgs
    cases c.throwUnbound <;> rfl
  rw [e]
  have hv : ∀ f ∈ ["-i", "-p", "-a", "-j", "-m", "-c", "-e", "-E", "-k", "-s", "-S", "--throw-on-unbound-variables"],
      String.toList f ∈ valueFlags := by decide +kernel
  have hs : ∀ f ∈ ["-P", "-T", "-t", "-o"], String.toList f ∈ switchFlags ∧ String.toList f ∉ valueFlags := by
    decide +kernel
  have h0 : readFlags [] = some [] := rfl
  have h1 := read_valued (hv "--throw-on-unbound-variables" (by simp)) (if c.throwUnbound then some "true".toList else none) h0
  exact read_valued (hv _ (by simp)) _ (read_valued (hv _ (by simp)) _ (read_valued (hv _ (by simp)) _
    (read_valued (hv _ (by simp)) _ (read_valued (hv _ (by simp)) _ (read_valued (hv _ (by simp)) _
    (read_valued (hv _ (by simp)) _ (read_valued (hv _ (by simp)) _ (read_valued (hv _ (by simp)) _
    (read_switch (hs "-P" (by simp)).1 (hs "-P" (by simp)).2 _ (read_switch (hs "-T" (by simp)).1 (hs "-T" (by simp)).2 _
    (read_switch (hs "-t" (by simp)).1 (hs "-t" (by simp)).2 _ (read_switch (hs "-o" (by simp)).1 (hs "-o" (by simp)).2 _
    (read_valued (hv _ (by simp)) _ (read_valued (hv _ (by simp)) _ h1))))))))))))))

theorem toList_inj {a b : String} : a.toList = b.toList ↔ a = b := String.toList_inj

theorem setting_valued (f g : String) (v : Option Str) (l : List (Str × Option Str)) :
    setting (valuedRead f v ++ l) g = if g = f ∧ v ≠ none then v.map some else setting l g := by
  cases v with
  | none => simp [valuedRead, setting]
  | some v =>
    by_cases h : g = f
    · simp [valuedRead, setting, h]
    · have : (g.toList == f.toList) = false := beq_eq_false_iff_ne.2 fun e => h (toList_inj.1 e)
      simp [valuedRead, setting, h, List.lookup_cons, this]

theorem setting_switch (f g : String) (b : Bool) (l : List (Str × Option Str)) :
    setting (switchRead f b ++ l) g = if g = f ∧ b = true then some none else setting l g := by
  cases b with
  | false => simp [switchRead, setting]
  | true =>
    by_cases h : g = f
    · simp [switchRead, setting, h]
    · have : (g.toList == f.toList) = false := beq_eq_false_iff_ne.2 fun e => h (toList_inj.1 e)
      simp [switchRead, setting, h, List.lookup_cons, this]

theorem number_ne (n : Nat) : number n ≠ [] := by
  intro h
  have := Nat.ofDigitChars_ten_toDigits (n := n)
  unfold number at h
  have h2 := Nat.length_toDigits_pos (b := 10) (n := n)
  rw [h] at h2
  simp at h2

theorem setting_nil (g : String) : setting [] g = none := rfl

theorem ite_map {α : Type} (v : Option α) : (if ¬ v = none then v.map some else none) = v.map some := by
  cases v <;> simp

theorem valued_nonempty {flag : String} (hf : flag.toList ≠ []) {v : Option Str} (hv : v ≠ some []) :
    ∀ a ∈ valued flag v, a ≠ [] := by
  intro a ha
  cases v with
  | none => simp [valued] at ha
  | some v =>
    simp only [valued, List.mem_cons, List.not_mem_nil, or_false] at ha
    rcases ha with rfl | rfl
    · exact hf
    · exact fun h => hv (by rw [h])

theorem switch_nonempty {flag : String} (hf : flag.toList ≠ []) {b : Bool} : ∀ a ∈ switch flag b, a ≠ [] := by
  intro a ha
  cases b with
  | false => simp [switch] at ha
  | true =>
    rw [List.mem_singleton.1 (show a ∈ [flag.toList] from ha)]
    exact hf

theorem number_some (n : Option Nat) : n.map number ≠ some [] := by
  cases n with
  | none => simp
  | some n => simpa using number_ne n

theorem append_nonempty {l l' : List Str} (h : ∀ a ∈ l, a ≠ []) (h' : ∀ a ∈ l', a ≠ []) : ∀ a ∈ l ++ l', a ≠ [] := by
  intro a ha
  rcases List.mem_append.1 ha with ha | ha
  · exact h a ha
  · exact h' a ha

theorem serverArgs_nonempty (v1 : Bool) {name : Str} {c : ServerConfig} (hn : name ≠ []) (hc : c.full) :
    ∀ a ∈ serverArgs v1 name c, a ≠ [] := by
  obtain ⟨h1, h2, h3, h4, h5, h6⟩ := hc
  unfold serverArgs
  refine append_nonempty ?_ (append_nonempty (valued_nonempty (by decide) h1)
    (append_nonempty (valued_nonempty (by decide) (number_some _)) (append_nonempty (valued_nonempty (by decide) h2)
    (append_nonempty (valued_nonempty (by decide) h3) (append_nonempty (valued_nonempty (by decide) h4)
    (append_nonempty (valued_nonempty (by decide) h5) (append_nonempty (valued_nonempty (by decide) (number_some _))
    (append_nonempty (switch_nonempty (by decide)) (append_nonempty (switch_nonempty (by decide))
    (append_nonempty (switch_nonempty (by decide)) (append_nonempty (switch_nonempty (by decide))
    (append_nonempty (valued_nonempty (by decide) h6) (append_nonempty (valued_nonempty (by decide) (number_some _))
    ?_)))))))))))))
  · intro a ha
    simp only [List.mem_cons, List.not_mem_nil, or_false] at ha
    rcases ha with rfl | rfl | rfl | rfl | rfl
    · cases v1 <;> decide
    · decide
    · exact hn
    · decide
    · exact number_ne _
  · cases c.throwUnbound
    · simp
    · decide

theorem switch_inj {b b' : Bool} (h : (if b then some none else none : Option (Option Str)) = if b' then some none else none) :
    b = b' := by
  cases b <;> cases b' <;> simp at h <;> rfl

theorem throw_inj {b b' : Bool} {v : Str} (h : (if b then some (some v) else none : Option (Option Str)) =
    if b' then some (some v) else none) : b = b' := by
  cases b <;> cases b' <;> simp at h <;> rfl

end Qlever
