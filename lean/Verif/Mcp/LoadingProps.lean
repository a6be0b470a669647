import Verif.Mcp.LoadingLemmas
import Verif.Load.Props

/-!
# Properties of loading through the MCP server (C167, C168)
-/

namespace Mcp.Loading

open Load Prefix

variable {G P : Type}

/-- C167 (part): when RDF sources are loaded the client is told so exactly when each of them was read, one after the other, into the data
there were; these are then the data. What is missing: endpoints (`C167_endpoint_refuted`). -/
theorem C167_loaded_partial (e : Env G P) (hn : DistinctNames e) (ser : Option (Data G P) → Option Str) (hser : ∀ d, ser (some d) ≠ none)
    (r : Request) (l : List Input) (f : Format) (hd : r.data = some (l.map some)) (hl : l ≠ [])
    (hf : r.format = some (some f) ∨ r.format = none ∧ f = .turtle) (hpg : f ≠ .pg) (he : r.endpoint = none) (st : Option (Data G P)) :
    ((∃ t, (locked e ser r st).2 = .loaded t) ↔ ∃ base d s, UsedBase e r.base base ∧ Start e st d ∧ Reads e f base .strict d.store l s) ∧
    ∀ base d s, UsedBase e r.base base → Start e st d → Reads e f base .strict d.store l s → Loaded d s [] (locked e ser r st).1 := by
  let a : Args := ⟨some l, some f, r.base, r.endpoint, none, none, none⟩
  have ha : a.IsRdf l f .strict := ⟨rfl, he, hpg, .inl rfl, .inr ⟨rfl, rfl⟩⟩
  obtain ⟨h1, h2⟩ := C145_merged e hn a l f .strict ha (by simp [a]) hl st
  have hfm : r.format.getD (some .turtle) = some f := by
    rcases hf with h | ⟨h, rfl⟩ <;> rw [h] <;> rfl
  have hemp : ((r.data.getD []).isEmpty && r.endpoint.isNone) = false := by
    rw [hd]
    cases l with
    | nil => exact absurd rfl hl
    | cons i l => rfl
  have hlk : locked e ser r st = match loadData e a st with
      | (st, .ok) =>
        match ser st with
        | none => (st, .protocolError)
        | some t => (st, .loaded t)
      | (st, .err) => (st, .protocolError)
      | (st, .panic) => (st, .panic) := by
    unfold locked
    simp only [hemp, hfm]
    rw [hd, Option.getD_some, specs_map]
    rfl
  have hnone : ArgDecls e.ws e.validIri a.prefixes [] := .inl ⟨rfl, rfl⟩
  have hmem : (locked e ser r st).1 = (loadData e a st).1 := by
    rw [hlk]
    cases loadData e a st with
    | mk m o =>
      cases o <;> simp only
      cases ser m <;> rfl
  refine ⟨⟨?_, ?_⟩, fun base d s hb hs hr => by rw [hmem]; exact h2 base d s [] hb hs hr hnone⟩
  · rintro ⟨t, ht⟩
    have ho : (loadData e a st).2 = .ok := by
      rw [hlk] at ht
      cases hld : loadData e a st with
      | mk m o =>
        rw [hld] at ht
        cases o with
        | ok => rfl
        | err => cases ht
        | panic => cases ht
    obtain ⟨base, d, s, _, hb, hs, hr, _⟩ := h1.1 ho
    exact ⟨base, d, s, hb, hs, hr⟩
  · rintro ⟨base, d, s, hb, hs, hr⟩
    have ho := h1.2 ⟨base, d, s, [], hb, hs, hr, hnone⟩
    obtain ⟨pm, hm, _⟩ := h2 base d s [] hb hs hr hnone
    rw [hlk]
    cases hld : loadData e a st with
    | mk m o =>
      rw [hld] at ho hm
      simp only at ho hm
      subst ho
      simp only
      cases ht : ser m with
      | none => rw [hm] at ht; exact absurd ht (hser _)
      | some t => exact ⟨t, rfl⟩

/-- A serializer for the examples: the texts of the data, each on a line. -/
def sampleSer : Option (Data (List Str) (List Str)) → Option Str
  | none => none
  | some (.rdf r) => some (ended r.store.1)
  | some (.pg p) => some (ended p)

example : (locked demo sampleSer ⟨some [some (txt "a"), some (txt "b")], none, none, none⟩ none).2 = .loaded (chars "a\nb\n") := by
  decide +kernel

/-- C167: a call with a source or a format that is none is refused, whatever the other sources are, and changes nothing. -/
theorem C167_unread (e : Env G P) (ser : Option (Data G P) → Option Str) (r : Request) (l : List (Option Input)) (hd : r.data = some l)
    (h : none ∈ l ∨ r.format = some none) (st : Option (Data G P)) : locked e ser r st = (st, .toolError) := by
  have hs : ∀ l : List (Option Input), none ∈ l → specs l = none := by
    intro l
    induction l with
    | nil => simp
    | cons x l ih =>
      intro hm
      cases x with
      | none => rfl
      | some i =>
        simp only [List.mem_cons, reduceCtorEq, false_or] at hm
        simp [specs, ih hm]
  unfold locked
  simp only [hd, Option.getD_some]
  split
  · rfl
  · rcases h with h | h
    · rw [hs l h]
    · rw [h]
      cases specs l <;> rfl

example : locked demo sampleSer ⟨some [some (txt "a"), none], none, none, none⟩ none = (none, .toolError) := by rfl

/-- C167: a call without sources and without an endpoint is refused, and changes nothing. -/
theorem C167_nothing (e : Env G P) (ser : Option (Data G P) → Option Str) (r : Request) (hd : r.data = none ∨ r.data = some [])
    (he : r.endpoint = none) (st : Option (Data G P)) : locked e ser r st = (st, .toolError) := by
  unfold locked
  rcases hd with hd | hd <;> simp [hd, he]

example : locked demo sampleSer ⟨some [], none, none, none⟩ none = (none, .toolError) := by rfl

/-- C167: the number that is told is that of the lines of triples. -/
theorem C167_count (ws : Char → Bool) (ls : List Str) (h : TripleLines ws ls) : count ws (ended ls) = ls.length :=
  count_ended ws ls h

example : TripleLines (· == ' ') [chars "<a> <b> <c> .", chars "_:x <b> \"#\" ."] := by
  intro l hl
  simp only [List.mem_cons, List.not_mem_nil, or_false] at hl
  rcases hl with rfl | rfl
  · exact ⟨by decide, '<', rfl, rfl, by decide⟩
  · exact ⟨by decide, '_', rfl, rfl, by decide⟩

/-- C167: a call with an endpoint always fails and changes nothing, since the list of sources is passed on even when it is empty. -/
theorem C167_endpoint (e : Env G P) (ser : Option (Data G P) → Option Str) (r : Request) (he : r.endpoint ≠ none) (st : Option (Data G P)) :
    (locked e ser r st).1 = st ∧ ((locked e ser r st).2 = .toolError ∨ (locked e ser r st).2 = .protocolError) :=
  locked_endpoint e ser r he st

/-- C167, as a whole, fails: the call that the server itself suggests, with an endpoint and no sources, is refused, though the loader takes
the endpoint. -/
theorem C167_endpoint_refuted : ¬ ∀ (e : Env (List Str) (List Str)) (x : Str), (loadData e ⟨none, none, none, some x, none, none, none⟩ none).2 = .ok →
    ∃ t, (locked e sampleSer ⟨some [], none, none, some x⟩ none).2 = .loaded t := by
  intro h
  obtain ⟨t, ht⟩ := h demo (chars "wd") (by decide +kernel)
  rcases (C167_endpoint demo sampleSer ⟨some [], none, none, some (chars "wd")⟩ (by simp) none).2 with h | h <;>
    · rw [h] at ht; cases ht

/-- C168 (part): after calls of which none begins before the one before it has ended, and of which each succeeds or changes nothing, what
is kept is what there is. What is missing: calls at the same time (`C168_race_refuted`) and failures that change the data
(`C168_failed_refuted`). -/
theorem C168_kept_partial (e : Env G P) (ser : Option (Data G P) → Option Str) (cs : List (Nat × Request)) (s : Server G P)
    (hp : s.pending = fun _ => none) (hk : Kept ser s)
    (hc : ∀ pre c post, cs = pre ++ c :: post → (∃ t, (locked e ser c.2 (run e ser s (calls pre)).mem).2 = .loaded t) ∨
      (locked e ser c.2 (run e ser s (calls pre)).mem).1 = (run e ser s (calls pre)).mem) :
    Kept ser (run e ser s (calls cs)) := by
  induction cs generalizing s with
  | nil => exact hk
  | cons c cs ih =>
    obtain ⟨h1, h2, h3, h4⟩ := call_step e ser s c.1 c.2 hp
    have hrun : ∀ l, run e ser s (calls (c :: l)) = run e ser (run e ser s [.lock c.1 c.2, .persist c.1]) (calls l) := by
      intro l
      simp [calls, run]
    rw [hrun]
    refine ih _ h2 ?_ ?_
    · by_cases hl : ∃ t, (locked e ser c.2 s.mem).2 = .loaded t
      · obtain ⟨t, ht⟩ := hl
        unfold Kept
        rw [h3 t ht, h1, locked_loaded e ser c.2 s.mem t ht]
      · rcases hc [] c cs rfl with ⟨t, ht⟩ | hu
        · exact absurd ⟨t, ht⟩ hl
        · unfold Kept
          have hu' : (locked e ser c.2 s.mem).1 = s.mem := hu
          rw [h4 fun t ht => hl ⟨t, ht⟩, h1, hu']
          exact hk
    · intro pre d post hd
      have := hc (c :: pre) d post (by rw [hd]; rfl)
      rwa [hrun] at this

example : (run demo sampleSer ⟨none, none, fun _ => none⟩ (calls [(0, ⟨some [some (txt "a")], none, none, none⟩),
    (1, ⟨some [some (txt "b")], none, none, none⟩)])).disk = some (chars "a\nb\n") := by decide +kernel

/-- C168: what is kept is what a new server has, if the text of RDF data can be read again; of an empty text it has no data. -/
theorem C168_restart (e : Env G P) (hn : DistinctNames e) (ser : Option (Data G P) → Option Str) (hr : Reload e ser) (base : Str)
    (hb : UsedBase e none base) (d0 : Rdf G) (hf : Fresh e d0) (d : Rdf G) (s : Server G P) (hm : s.mem = some (.rdf d)) (t : Str)
    (ht : ser s.mem = some t) (hk : Kept ser s) :
    (t = [] ∧ restart e s.disk = none) ∨ ∃ d', restart e s.disk = some (.rdf d') ∧ d'.store.1 = d.store.1 := by
  have hd : s.disk = some t := by rw [hk, ht]
  rw [hm] at ht
  rw [hd]
  cases t with
  | nil => exact .inl ⟨rfl, rfl⟩
  | cons c t =>
    right
    obtain ⟨pm, hread⟩ := hr d (c :: t) ht base
    let a : Args := ⟨some [⟨.str (c :: t), some (some (c :: t))⟩], some .ntriples, none, none, none, none, none⟩
    obtain ⟨-, h2⟩ := C145_merged e hn a _ .ntriples .strict ⟨rfl, rfl, by simp, .inl rfl, .inr ⟨rfl, rfl⟩⟩ (by simp [a])
      (by simp) none
    have hs : d0.store = (e.emptyGraph, PrefixMap.new) := by rw [hf.2]
    obtain ⟨pm', hl, _⟩ := h2 base d0 (d.store.1, pm) [] hb (.inr ⟨by simp, hf⟩)
      (.cons rfl (.other (by simp)) (by rw [hs]; exact hread) .nil) (.inl ⟨rfl, rfl⟩)
    exact ⟨_, hl, rfl⟩

/-- Graphs of one text, which is written as it is. -/
def oneSer : Option (Data (List Str) (List Str)) → Option Str
  | some (.rdf r) =>
    match r.store.1 with
    | [t] => if t.head? = some '!' then none else some t
    | _ => none
  | _ => none

example : Reload demo oneSer ∧ restart demo (some (chars "a")) = some (.rdf ⟨([chars "a"], .new), demo.configEndpoints, []⟩) := by
  refine ⟨?_, by rfl⟩
  rintro ⟨⟨g, pm⟩, eps, used⟩ t h base
  unfold oneSer at h
  match g, h with
  | [x], h =>
    simp only at h
    split at h
    · cases h
    · rename_i hx
      cases h
      exact ⟨PrefixMap.new, by simp [demo, hx]⟩

/-- C168, as a whole, fails: of two calls at the same time the first may save last, and then what the second loaded is not kept although
both were told that it is loaded. -/
theorem C168_race_refuted : ¬ ∀ (es : List Event) (s : Server (List Str) (List Str)), s.mem = none → s.disk = none →
    (s.pending = fun _ => none) → ((run demo sampleSer s es).pending 0 = none ∧ (run demo sampleSer s es).pending 1 = none) →
    (∀ k r, Event.lock k r ∈ es → k = 0 ∨ k = 1) → Kept sampleSer (run demo sampleSer s es) := by
  intro h
  have := h [.lock 0 ⟨some [some (txt "a")], none, none, none⟩, .lock 1 ⟨some [some (txt "b")], none, none, none⟩, .persist 1, .persist 0]
    ⟨none, none, fun _ => none⟩ rfl rfl rfl (by decide +kernel) (by
      intro k r hm
      simp only [List.mem_cons, Event.lock.injEq, List.not_mem_nil, or_false, reduceCtorEq] at hm
      rcases hm with ⟨rfl, _⟩ | ⟨rfl, _⟩
      · exact .inl rfl
      · exact .inr rfl)
  unfold Kept at this
  exact absurd this (by decide +kernel)

/-- C168, as a whole, fails: a call that fails at its second source leaves the first in the data, and not in what is kept. -/
theorem C168_failed_refuted : ¬ ∀ (cs : List (Nat × Request)) (s : Server (List Str) (List Str)), (s.pending = fun _ => none) →
    Kept sampleSer s → Kept sampleSer (run demo sampleSer s (calls cs)) := by
  intro h
  have := h [(0, ⟨some [some (txt "a"), some noFile], none, none, none⟩)] ⟨none, none, fun _ => none⟩ rfl rfl
  unfold Kept at this
  exact absurd this (by decide +kernel)

end Mcp.Loading
