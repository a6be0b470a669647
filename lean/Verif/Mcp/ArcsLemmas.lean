import Verif.Mcp.ArcsSpec
import Verif.Mcp.MappingLemmas

/-!
# Lemmas on lines of arcs
-/

namespace Mcp.Arcs

open Prefix (Str)
open Mcp.Asking (Lib linesFrom linesFrom_unlines unlines)
open Mcp.Mapping (Trimmed Blank trim_blank)

/-- What is before the first delimiter is put before. -/
def pre (p : Str) (o : Option (Str × Str)) : Option (Str × Str) := o.map fun q => (p ++ q.1, q.2)

theorem pre_pre (p q : Str) (o : Option (Str × Str)) : pre p (pre q o) = pre (p ++ q) o := by
  cases o <;> simp [pre]

theorem split_char (x c : Char) (s : Str) (hc : c ≠ ' ') :
    splitOnce [' ', '─', x, ' '] (c :: s) = pre [c] (splitOnce [' ', '─', x, ' '] s) := by
  have : [' ', '─', x, ' '].isPrefixOf (c :: s) = false := by
    simp [List.isPrefixOf, Ne.symm hc]
  rw [splitOnce, this]
  simp [pre]

theorem split_blank (x d : Char) (s : Str) (hd : d ≠ '─') :
    splitOnce [' ', '─', x, ' '] (' ' :: d :: s) = pre [' '] (splitOnce [' ', '─', x, ' '] (d :: s)) := by
  have : [' ', '─', x, ' '].isPrefixOf (' ' :: d :: s) = false := by
    simp [List.isPrefixOf, Ne.symm hd]
  rw [splitOnce, this]
  simp [pre]

theorem split_here (x : Char) (s : Str) : splitOnce [' ', '─', x, ' '] ([' ', '─', x, ' '] ++ s) = some ([], s) := by
  have : [' ', '─', x, ' '].isPrefixOf ([' ', '─', x, ' '] ++ s) = true := by
    simp [List.isPrefixOf]
  rw [List.cons_append, splitOnce, ← List.cons_append, this]
  simp

theorem split_pred (x : Char) (p s : Str) (hp : '─' ∉ p) (hl : p.getLast? ≠ some ' ') :
    splitOnce [' ', '─', x, ' '] (p ++ ([' ', '─', x, ' '] ++ s)) = some (p, s) := by
  induction p with
  | nil => exact split_here x s
  | cons c p ih =>
    have hp' : '─' ∉ p := fun h => hp (by simp [h])
    cases p with
    | nil =>
      have hc : c ≠ ' ' := by rintro rfl; simp at hl
      have := split_here x s
      rw [List.singleton_append, split_char x c _ hc, this]
      rfl
    | cons d p =>
      have hl' : (d :: p).getLast? ≠ some ' ' := by simpa using hl
      have ih := ih hp' hl'
      by_cases hc : c = ' '
      · subst hc
        have hd : d ≠ '─' := by rintro rfl; simp at hp
        rw [List.cons_append, List.cons_append, split_blank x d _ hd, ← List.cons_append, ih]
        rfl
      · rw [List.cons_append, split_char x c _ hc, ih]
        rfl

theorem indent_head (l : List Bool) (k : Char) (hk : k ≠ '─') (s : Str) : ∃ d r, indent l ++ k :: s = d :: r ∧ d ≠ '─' := by
  cases l with
  | nil => exact ⟨k, s, rfl, hk⟩
  | cons b l =>
    cases b
    · exact ⟨' ', _, rfl, by decide⟩
    · exact ⟨'│', _, rfl, by decide⟩

theorem split_indent (x : Char) (l : List Bool) (k : Char) (hk : k ≠ '─') (s : Str) :
    splitOnce [' ', '─', x, ' '] (indent l ++ k :: s) = pre (indent l) (splitOnce [' ', '─', x, ' '] (k :: s)) := by
  induction l with
  | nil =>
    simp only [indent, List.nil_append]
    cases splitOnce [' ', '─', x, ' '] (k :: s) <;> simp [pre]
  | cons b l ih =>
    obtain ⟨d, r, hd, hne⟩ := indent_head l k hk s
    have h3 : splitOnce [' ', '─', x, ' '] (' ' :: ' ' :: ' ' :: (indent l ++ k :: s)) =
        pre "   ".toList (splitOnce [' ', '─', x, ' '] (indent l ++ k :: s)) := by
      rw [split_blank x ' ' _ (by decide), split_blank x ' ' _ (by decide), hd, split_blank x d _ hne, pre_pre, pre_pre]
      rfl
    cases b
    · have : indent (false :: l) ++ k :: s = ' ' :: ' ' :: ' ' :: (indent l ++ k :: s) := rfl
      rw [this, h3, ih, pre_pre]
      rfl
    · have : indent (true :: l) ++ k :: s = '│' :: ' ' :: ' ' :: ' ' :: (indent l ++ k :: s) := rfl
      rw [this, split_char x '│' _ (by decide), h3, ih, pre_pre, pre_pre]
      rfl

/-- The sign before an arc. -/
def Shown.sign (a : Shown) : Char := if a.last then '└' else '├'

theorem split_line {L : Lib} (hS : Signs L) (a : Shown) (ha : a.Plain L) (x : Char) :
    splitOnce [' ', '─', x, ' '] (a.line [' ', '─', x, ' ']) =
      some (indent a.above ++ a.sign :: "─── ".toList ++ a.predicate, a.target) := by
  have hk : a.sign ≠ '─' := by unfold Shown.sign; split <;> decide
  have hk' : a.sign ≠ ' ' := by unfold Shown.sign; split <;> decide
  have hp : '─' ∉ a.predicate := fun h => ha.predSigns _ h (by decide)
  have hl : a.predicate.getLast? ≠ some ' ' := by
    intro h
    have := ha.predTrimmed.2 _ h
    rw [hS.blank] at this
    cases this
  have hline : a.line [' ', '─', x, ' '] =
      indent a.above ++ a.sign :: '─' :: '─' :: '─' :: ' ' :: (a.predicate ++ ([' ', '─', x, ' '] ++ a.target)) := by
    simp [Shown.line, Shown.sign]
  rw [hline, split_indent x _ _ hk, split_char x _ _ hk', split_char x '─' _ (by decide), split_char x '─' _ (by decide),
    split_char x '─' _ (by decide)]
  obtain ⟨d, p, hd⟩ : ∃ d p, a.predicate = d :: p := by
    cases h : a.predicate with
    | nil => exact absurd h ha.pred
    | cons d p => exact ⟨d, p, rfl⟩
  have hdn : d ≠ '─' := by
    rintro rfl
    exact hp (by simp [hd])
  have hpred := split_pred x a.predicate a.target hp hl
  rw [hd] at hpred ⊢
  rw [List.cons_append, split_blank x d _ hdn, ← List.cons_append, hpred]
  simp [pre]

theorem filter_indent (l : List Bool) : ∃ b : Str, (indent l).filter (fun c => !(c = '│' || c = '├' || c = '└' || c = '─')) = b ∧
    ∀ c ∈ b, c = ' ' := by
  refine ⟨_, rfl, ?_⟩
  induction l with
  | nil => simp [indent]
  | cons b l ih =>
    intro c hc
    cases b
    · have : indent (false :: l) = [' ', ' ', ' '] ++ indent l := rfl
      rw [this, List.filter_append, List.mem_append] at hc
      rcases hc with hc | hc
      · simp at hc; exact hc
      · exact ih c hc
    · have : indent (true :: l) = ['│', ' ', ' ', ' '] ++ indent l := rfl
      rw [this, List.filter_append, List.mem_append] at hc
      rcases hc with hc | hc
      · simp at hc; exact hc
      · exact ih c hc

theorem strip_left {L : Lib} (hS : Signs L) (a : Shown) (ha : a.Plain L) :
    strip L.ws (indent a.above ++ a.sign :: "─── ".toList ++ a.predicate) = a.predicate := by
  obtain ⟨b, hb, hbs⟩ := filter_indent a.above
  have h1 : (a.sign :: "─── ".toList).filter (fun c => !(c = '│' || c = '├' || c = '└' || c = '─')) = [' '] := by
    unfold Shown.sign
    split <;> decide
  have h2 : a.predicate.filter (fun c => !(c = '│' || c = '├' || c = '└' || c = '─')) = a.predicate := by
    rw [List.filter_eq_self]
    intro c hc
    have := ha.predSigns c hc
    simp only [List.mem_cons, List.not_mem_nil, or_false, not_or] at this
    simp [this]
  unfold strip
  rw [List.filter_append, List.filter_append, hb, h1, h2]
  have := trim_blank L (b ++ [' ']) a.predicate [] (by
    intro c hc
    rcases List.mem_append.1 hc with h | h
    · rw [hbs c h]; exact hS.blank
    · simp at h; rw [h]; exact hS.blank) (by simp [Blank]) ha.predTrimmed
  rwa [List.append_nil] at this

theorem parse_line {L : Lib} (hS : Signs L) (a : Shown) (ha : a.Plain L) (x : Char) :
    parseLine L.ws (a.line [' ', '─', x, ' ']) [' ', '─', x, ' '] =
      some ⟨a.predicate, a.target, treeDepth (a.line [' ', '─', x, ' '])⟩ := by
  have ht : Prefix.trim L.ws a.target = a.target := by
    have := trim_blank L [] a.target [] (by simp [Blank]) (by simp [Blank]) ha.targetTrimmed
    rwa [List.nil_append, List.append_nil] at this
  unfold parseLine
  rw [split_line hS a ha x]
  simp only [strip_left hS a ha, ht]
  rw [if_neg]
  simp [ha.pred, ha.target]

theorem mem_dropWhile (ws : Char → Bool) (c : Char) (hc : ws c = false) (s : Str) (h : c ∈ s) : c ∈ s.dropWhile ws := by
  induction s with
  | nil => simp at h
  | cons d s ih =>
    rw [List.dropWhile_cons]
    split
    · rename_i hd
      rcases List.mem_cons.1 h with rfl | h
      · rw [hc] at hd; cases hd
      · exact ih h
    · exact h

theorem mem_trim (ws : Char → Bool) (c : Char) (hc : ws c = false) (s : Str) (h : c ∈ s) : c ∈ Prefix.trim ws s := by
  unfold Prefix.trim
  rw [List.mem_reverse]
  apply mem_dropWhile ws c hc
  rw [List.mem_reverse]
  exact mem_dropWhile ws c hc s h

theorem sign_mem (a : Shown) (arrow : Str) : a.sign ∈ a.line arrow := by
  simp [Shown.line, Shown.sign]

/-- A line of an arc is no heading and not empty. -/
theorem line_other {L : Lib} (hS : Signs L) (a : Shown) (arrow : Str) :
    sameName (Prefix.trim L.ws (a.line arrow)) "Outgoing arcs" = false ∧
    sameName (Prefix.trim L.ws (a.line arrow)) "Incoming arcs" = false ∧
    ¬(Prefix.trim L.ws (a.line arrow) = [] ∨ Prefix.trim L.ws (a.line arrow) = "▲".toList) := by
  have hs : a.sign = '└' ∨ a.sign = '├' := by unfold Shown.sign; split <;> simp
  have hw : L.ws a.sign = false := by rcases hs with h | h <;> rw [h] <;> exact hS.sign _ (by decide)
  have hm := mem_trim L.ws a.sign hw _ (sign_mem a arrow)
  have hn : ∀ n : String, '└' ∉ n.toList.map Char.toLower → '├' ∉ n.toList.map Char.toLower →
      sameName (Prefix.trim L.ws (a.line arrow)) n = false := by
    intro n h1 h2
    unfold sameName
    rw [decide_eq_false_iff_not]
    intro h
    have : a.sign.toLower ∈ n.toList.map Char.toLower := by
      rw [← h]
      exact List.mem_map_of_mem hm
    rcases hs with h | h <;> rw [h] at this
    · exact h1 this
    · exact h2 this
  refine ⟨hn _ (by decide) (by decide), hn _ (by decide) (by decide), ?_⟩
  rintro (h | h) <;> rw [h] at hm
  · simp at hm
  · rcases hs with h | h <;> rw [h] at hm <;> revert hm <;> decide

theorem fold_out {L : Lib} (hS : Signs L) (l : List Shown) (hl : ∀ a ∈ l, a.Plain L) (o i : List Arc) :
    (l.map (·.line " ─► ".toList)).foldl (step L.ws) (some .outgoing, o, i) =
      (some .outgoing, o ++ l.map (fun a => ⟨a.predicate, a.target, treeDepth (a.line " ─► ".toList)⟩), i) := by
  induction l generalizing o with
  | nil => simp
  | cons a l ih =>
    obtain ⟨h1, h2, h3⟩ := line_other hS a " ─► ".toList
    have hp : parseLine L.ws (a.line " ─► ".toList) Sec.outgoing.delim = _ := parse_line hS a (hl a (by simp)) '►'
    have hst : step L.ws (some .outgoing, o, i) (a.line " ─► ".toList) =
        (some .outgoing, o ++ [⟨a.predicate, a.target, treeDepth (a.line " ─► ".toList)⟩], i) := by
      unfold step
      simp only [h1, h2, h3, hp]
      rfl
    rw [List.map_cons, List.foldl_cons, hst, ih (fun b hb => hl b (by simp [hb]))]
    simp

theorem fold_in {L : Lib} (hS : Signs L) (l : List Shown) (hl : ∀ a ∈ l, a.Plain L) (o i : List Arc) :
    (l.map (·.line " ── ".toList)).foldl (step L.ws) (some .incoming, o, i) =
      (some .incoming, o, i ++ l.map (fun a => ⟨a.predicate, a.target, treeDepth (a.line " ── ".toList)⟩)) := by
  induction l generalizing i with
  | nil => simp
  | cons a l ih =>
    obtain ⟨h1, h2, h3⟩ := line_other hS a " ── ".toList
    have hp : parseLine L.ws (a.line " ── ".toList) Sec.incoming.delim = _ := parse_line hS a (hl a (by simp)) '─'
    have hst : step L.ws (some .incoming, o, i) (a.line " ── ".toList) =
        (some .incoming, o, i ++ [⟨a.predicate, a.target, treeDepth (a.line " ── ".toList)⟩]) := by
      unfold step
      simp only [h1, h2, h3, hp]
      rfl
    rw [List.map_cons, List.foldl_cons, hst, ih (fun b hb => hl b (by simp [hb]))]
    simp

/-- Without the bar of the delimiter nothing is split. -/
theorem split_none (x : Char) (s : Str) (h : '─' ∉ s) : splitOnce [' ', '─', x, ' '] s = none := by
  induction s with
  | nil => rfl
  | cons c s ih =>
    have hs : '─' ∉ s := fun hm => h (by simp [hm])
    by_cases hc : c = ' '
    · subst hc
      cases s with
      | nil => rfl
      | cons d s =>
        rw [split_blank x d s (by rintro rfl; simp at hs), ih hs]
        rfl
    · rw [split_char x c s hc, ih hs]
      rfl

theorem step_root {L : Lib} (root : Str) (hr : '─' ∉ root)
    (h1 : sameName (Prefix.trim L.ws root) "Outgoing arcs" = false) (h2 : sameName (Prefix.trim L.ws root) "Incoming arcs" = false)
    (s : Sec) (o i : List Arc) : step L.ws (some s, o, i) root = (some s, o, i) := by
  unfold step
  simp only [h1, h2]
  cases s
  · have : parseLine L.ws root Sec.outgoing.delim = none := by
      unfold parseLine
      have : splitOnce Sec.outgoing.delim root = none := split_none '►' root hr
      rw [this]
    simp [this]
  · have : parseLine L.ws root Sec.incoming.delim = none := by
      unfold parseLine
      have : splitOnce Sec.incoming.delim root = none := split_none '─' root hr
      rw [this]
    simp [this]

theorem line_newline {L : Lib} (a : Shown) (ha : a.Plain L) (x : Char) (hx : x ≠ '\n') : '\n' ∉ a.line [' ', '─', x, ' '] := by
  have hi : ∀ l, '\n' ∉ indent l := by
    intro l
    induction l with
    | nil => simp [indent]
    | cons b l ih => cases b <;> simp [indent, ih]
  have hs : '\n' ≠ a.sign := by unfold Shown.sign; split <;> decide
  have hp : '\n' ∉ a.predicate := fun h => ha.predSigns _ h (by decide)
  have hline : a.line [' ', '─', x, ' '] =
      indent a.above ++ a.sign :: '─' :: '─' :: '─' :: ' ' :: (a.predicate ++ ([' ', '─', x, ' '] ++ a.target)) := by
    simp [Shown.line, Shown.sign]
  rw [hline]
  simp [hi, hs, hp, ha.targetLine, Ne.symm hx]

theorem depth_bars (l : List Bool) (h : ∀ b ∈ l, b = true) (k : Char) (hk : k ≠ '│') (hk' : k ≠ ' ') (s : Str) :
    treeDepth (indent l ++ k :: s) = l.length := by
  induction l with
  | nil =>
    simp only [indent, List.nil_append, List.length_nil]
    unfold treeDepth
    split
    · rename_i h; simp at h; exact absurd h.1 hk
    · rename_i h; simp at h; exact absurd h.1 hk'
    · rfl
  | cons b l ih =>
    have hb : b = true := h b (by simp)
    subst hb
    have : indent (true :: l) ++ k :: s = '│' :: ' ' :: ' ' :: ' ' :: (indent l ++ k :: s) := rfl
    rw [this, treeDepth, ih fun c hc => h c (by simp [hc])]
    rfl

theorem depth_line (a : Shown) (arrow : Str) (h : ∀ b ∈ a.above, b = true) : treeDepth (a.line arrow) = a.above.length := by
  have hk : (if a.last then '└' else '├') ≠ '│' := by split <;> decide
  have hk' : (if a.last then '└' else '├') ≠ ' ' := by split <;> decide
  have := depth_bars a.above h (if a.last then '└' else '├') hk hk' ("─── ".toList ++ a.predicate ++ arrow ++ a.target)
  unfold Shown.line
  simpa using this

/-- All that is read of the text of the arcs of a node. -/
theorem parse_text (L : Lib) (hS : Signs L) (root : Str) (outs ins : List Shown) (ho : ∀ a ∈ outs, a.Plain L)
    (hi : ∀ a ∈ ins, a.Plain L) (hr : ∀ c ∈ root, c ≠ '─' ∧ c ≠ '\n') (hc : ':' ∈ root) (hw : L.ws ':' = false) :
    parse L.ws (text root outs ins) =
      (outs.map (fun a => ⟨a.predicate, a.target, treeDepth (a.line " ─► ".toList)⟩),
       ins.map (fun a => ⟨a.predicate, a.target, treeDepth (a.line " ── ".toList)⟩)) := by
  have hhead : ∀ n : String, ':' ∉ n.toList.map Char.toLower → sameName (Prefix.trim L.ws root) n = false := by
    intro n hn
    unfold sameName
    rw [decide_eq_false_iff_not]
    intro h
    apply hn
    rw [← h]
    exact List.mem_map_of_mem (f := Char.toLower) (mem_trim L.ws ':' hw root hc)
  have hrt := fun s o i => step_root (L := L) root (fun h => (hr _ h).1 rfl) (hhead _ (by decide)) (hhead _ (by decide)) s o i
  have htrim : ∀ s : Str, Trimmed L s → Prefix.trim L.ws s = s := by
    intro s hs
    have := Mapping.trim_blank L [] s [] (by simp [Mapping.Blank]) (by simp [Mapping.Blank]) hs
    rwa [List.nil_append, List.append_nil] at this
  have hO : ∀ st, step L.ws st "Outgoing arcs".toList = (some .outgoing, st.2) := by
    intro st
    have : sameName (Prefix.trim L.ws "Outgoing arcs".toList) "Outgoing arcs" = true := by
      rw [htrim]
      · decide
      · refine ⟨fun c h => ?_, fun c h => ?_⟩
        · have h0 : "Outgoing arcs".toList.head? = some 'O' := by decide
          rw [h0] at h; cases h; exact hS.sign _ (by decide)
        · have h0 : "Outgoing arcs".toList.getLast? = some 's' := by decide
          rw [h0] at h; cases h; exact hS.sign _ (by decide)
    unfold step
    rw [if_pos this]
  have hI : ∀ st, step L.ws st "Incoming arcs".toList = (some .incoming, st.2) := by
    intro st
    have ht : Prefix.trim L.ws "Incoming arcs".toList = "Incoming arcs".toList := by
      rw [htrim]
      refine ⟨fun c h => ?_, fun c h => ?_⟩
      · have h0 : "Incoming arcs".toList.head? = some 'I' := by decide
        rw [h0] at h; cases h; exact hS.sign _ (by decide)
      · have h0 : "Incoming arcs".toList.getLast? = some 's' := by decide
        rw [h0] at h; cases h; exact hS.sign _ (by decide)
    have h1 : sameName (Prefix.trim L.ws "Incoming arcs".toList) "Outgoing arcs" = false := by rw [ht]; decide
    have h2 : sameName (Prefix.trim L.ws "Incoming arcs".toList) "Incoming arcs" = true := by rw [ht]; decide
    unfold step
    rw [if_neg (by rw [h1]; simp), if_pos h2]
  have hE : ∀ st, step L.ws st [] = st := by
    intro st
    have h1 : sameName (Prefix.trim L.ws []) "Outgoing arcs" = false := by
      have : Prefix.trim L.ws [] = [] := rfl
      rw [this]; decide
    have h2 : sameName (Prefix.trim L.ws []) "Incoming arcs" = false := by
      have : Prefix.trim L.ws [] = [] := rfl
      rw [this]; decide
    unfold step
    rw [if_neg (by rw [h1]; simp), if_neg (by rw [h2]; simp), if_pos (.inl rfl)]
  have hU : ∀ st, step L.ws st "▲".toList = st := by
    intro st
    have ht : Prefix.trim L.ws "▲".toList = "▲".toList := by
      rw [htrim]
      have h0 : "▲".toList = ['▲'] := by decide
      rw [h0]
      exact Mapping.trimmed_of_ws (by intro c hc; simp at hc; rw [hc]; exact hS.sign _ (by decide))
    have h1 : sameName (Prefix.trim L.ws "▲".toList) "Outgoing arcs" = false := by rw [ht]; decide
    have h2 : sameName (Prefix.trim L.ws "▲".toList) "Incoming arcs" = false := by rw [ht]; decide
    unfold step
    rw [if_neg (by rw [h1]; simp), if_neg (by rw [h2]; simp), if_pos (.inr ht)]
  have hlines : linesFrom [] (text root outs ins) = ["Outgoing arcs".toList, root] ++ outs.map (·.line " ─► ".toList) ++ [[]] ++
      ["Incoming arcs".toList, root, "▲".toList] ++ ins.map (·.line " ── ".toList) ++ [[]] := by
    have hroot : '\n' ∉ root := fun h => (hr _ h).2 rfl
    have := linesFrom_unlines (["Outgoing arcs".toList, root] ++ outs.map (·.line " ─► ".toList) ++ [[]] ++
      ["Incoming arcs".toList, root, "▲".toList] ++ ins.map (·.line " ── ".toList) ++ [[]]) (by
        intro l hl
        simp only [List.mem_append, List.mem_cons, List.not_mem_nil, or_false, List.mem_map] at hl
        rcases hl with (((((rfl | rfl) | ⟨a, ha, rfl⟩) | rfl) | rfl | rfl | rfl) | ⟨a, ha, rfl⟩) | rfl
        · decide
        · exact hroot
        · exact line_newline a (ho a ha) '►' (by decide)
        · decide
        · decide
        · exact hroot
        · decide
        · exact line_newline a (hi a ha) '─' (by decide)
        · decide) []
    rw [List.append_nil] at this
    unfold text
    rw [this]
    simp [linesFrom, Asking.flush]
  unfold parse
  rw [hlines]
  simp only [List.foldl_append, List.foldl_cons, List.foldl_nil, hO, hrt, fold_out hS outs ho, hE, hI, hU, fold_in hS ins hi]
  simp

end Mcp.Arcs
