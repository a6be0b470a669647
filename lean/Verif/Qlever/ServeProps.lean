import Verif.Qlever.ServeLemmas
import Mathlib.Data.Option.Basic

/-!
# Properties of the command of the server (C154)
-/

namespace Qlever

/-- C154 (part): the server is run as configured: reading its command gives back the program, the name of the index and
every setting, and no flag that was not asked for. What is missing: empty texts (`C154_token_refuted`). -/
theorem C154_settings_partial (v1 : Bool) (name : Str) (c : ServerConfig) (hn : name ≠ []) (hc : c.full) :
    ∃ l, readCommand (serverCmd v1 name c) = some (if v1 then "ServerMain".toList else "qlever-server".toList, l) ∧
      setting l "-i" = some (some name) ∧ setting l "-p" = some (some (Nat.toDigits 10 c.port)) ∧
      setting l "-a" = c.token.map some ∧ setting l "-j" = c.queries.map (some ∘ Nat.toDigits 10) ∧
      setting l "-m" = c.memory.map some ∧ setting l "-c" = c.cache.map some ∧ setting l "-e" = c.entry.map some ∧
      setting l "-E" = c.lazyCache.map some ∧ setting l "-k" = c.entries.map (some ∘ Nat.toDigits 10) ∧
      setting l "-P" = (if c.noPatterns then some none else none) ∧ setting l "-T" = (if c.noTrick then some none else none) ∧
      setting l "-t" = (if c.text then some none else none) ∧ setting l "-o" = (if c.onlyPso then some none else none) ∧
      setting l "-s" = c.timeout.map some ∧ setting l "-S" = c.rows.map (some ∘ Nat.toDigits 10) ∧
      setting l "--throw-on-unbound-variables" = (if c.throwUnbound then some (some "true".toList) else none) := by
  refine ⟨serverRead name c, ?_, ?_⟩
  · have hw : commandWords (serverCmd v1 name c) = some (serverArgs v1 name c) := 
      words_join _ (serverArgs_nonempty v1 hn hc)
    have h0 : serverArgs v1 name c = serverName v1 :: (serverArgs v1 name c).tail := rfl
    unfold readCommand
    rw [hw, h0]
    dsimp only
    rw [read_args]
    cases v1 <;> rfl
  · have e : number = Nat.toDigits 10 := rfl
    unfold serverRead
    simp only [setting_valued, setting_switch, setting_nil, String.reduceEq, false_and, true_and, if_false, ne_eq,
      ite_map]
    simp only [Option.map_map, e]
    cases c.throwUnbound <;> simp

/-- A configuration with all kinds of settings; the token has a quote and a blank. -/
def sampleServer : ServerConfig :=
  ⟨7001, some "it's me".toList, some 4, some "5G".toList, none, none, none, some 1000, true, false, false, true,
    some "30s".toList, none, true⟩

example : "default".toList ≠ [] ∧ sampleServer.full := by
  refine ⟨by decide, ?_⟩
  unfold ServerConfig.full
  decide +kernel

example : serverCmd false "default".toList sampleServer =
    "qlever-server -i default -p 7001 -a 'it'\\''s me' -j 4 -m 5G -k 1000 -P -o -s 30s --throw-on-unbound-variables true".toList := by
  decide +kernel

/-- C154, as a whole, fails: with an empty access token the next flag is taken as the token. -/
theorem C154_token_refuted : ¬ ∀ (v1 : Bool) (name : Str) (c : ServerConfig), name ≠ [] →
    ∃ p l, readCommand (serverCmd v1 name c) = some (p, l) ∧ setting l "-a" = c.token.map some := by
  intro h
  obtain ⟨p, l, h1, h2⟩ := h true "n".toList
    ⟨1, some [], none, none, none, none, none, none, true, false, false, false, none, none, false⟩ (by decide)
  have h3 : readCommand (serverCmd true "n".toList
      ⟨1, some [], none, none, none, none, none, none, true, false, false, false, none, none, false⟩) =
      some ("ServerMain".toList, [("-i".toList, some "n".toList), ("-p".toList, some "1".toList),
        ("-a".toList, some "-P".toList)]) := by decide +kernel
  rw [h3] at h1
  simp only [Option.some.injEq, Prod.mk.injEq] at h1
  rw [← h1.2] at h2
  exact absurd h2 (by decide +kernel)

/-- C154: servers that are run by the same command have the same configuration and index, if no text is empty. -/
theorem C154_injective {v1 v1' : Bool} {name name' : Str} {c c' : ServerConfig} (hn : name ≠ []) (hn' : name' ≠ [])
    (hc : c.full) (hc' : c'.full) (h : serverCmd v1 name c = serverCmd v1' name' c') :
    v1 = v1' ∧ name = name' ∧ c = c' := by
  obtain ⟨l, h0, h1, h2, h3, h4, h5, h6, h7, h8, h9, h10, h11, h12, h13, h14, h15, h16⟩ := C154_settings_partial v1 name c hn hc
  obtain ⟨l', g0, g1, g2, g3, g4, g5, g6, g7, g8, g9, g10, g11, g12, g13, g14, g15, g16⟩ :=
    C154_settings_partial v1' name' c' hn' hc'
  rw [h, g0] at h0
  simp only [Option.some.injEq, Prod.mk.injEq] at h0
  obtain ⟨e0, rfl⟩ := h0
  have inj : Function.Injective (some ∘ Nat.toDigits 10) := fun a b h => digits_inj (Option.some.inj h)
  have sinj : Function.Injective (some : Str → Option Str) := fun a b h => Option.some.inj h
  refine ⟨?_, ?_, ?_⟩
  · cases v1 <;> cases v1' <;> first | rfl | exact absurd e0 (by decide)
  · simpa using h1.symm.trans g1
  · obtain ⟨a1, a2, a3, a4, a5, a6, a7, a8, a9, a10, a11, a12, a13, a14, a15⟩ := c
    obtain ⟨b1, b2, b3, b4, b5, b6, b7, b8, b9, b10, b11, b12, b13, b14, b15⟩ := c'
    dsimp only at *
    have q1 : a1 = b1 := digits_inj (by simpa using h2.symm.trans g2)
    have q2 := Option.map_injective sinj (h3.symm.trans g3)
    have q3 := Option.map_injective inj (h4.symm.trans g4)
    have q4 := Option.map_injective sinj (h5.symm.trans g5)
    have q5 := Option.map_injective sinj (h6.symm.trans g6)
    have q6 := Option.map_injective sinj (h7.symm.trans g7)
    have q7 := Option.map_injective sinj (h8.symm.trans g8)
    have q8 := Option.map_injective inj (h9.symm.trans g9)
    have q9 := switch_inj (h10.symm.trans g10)
    have q10 := switch_inj (h11.symm.trans g11)
    have q11 := switch_inj (h12.symm.trans g12)
    have q12 := switch_inj (h13.symm.trans g13)
    have q13 := Option.map_injective sinj (h14.symm.trans g14)
    have q14 := Option.map_injective inj (h15.symm.trans g15)
    have q15 := throw_inj (h16.symm.trans g16)
    subst q1 q2 q3 q4 q5 q6 q7 q8 q9 q10 q11 q12 q13 q14 q15
    rfl

end Qlever
