import Verif.Gen.Topo
import Mathlib.Logic.Relation
import Mathlib.Data.List.Nodup

/-!
# Properties: the order of shapes for the generation of data (C129)
-/

namespace Gen
open Relation

variable {α : Type} [DecidableEq α]

/-! ## Specification -/

/-- `a` comes before `b`. -/
def Before (order : List α) (a b : α) : Prop := ∃ l m r, order = l ++ a :: m ++ b :: r

/-- `b` is one of those that `a` depends on. -/
def DependsOn (g : List (α × List α)) (a b : α) : Prop :=
  ∃ l d r, g = l ++ (a, d) :: r ∧ a ∉ l.map (·.1) ∧ b ∈ d

/-- What is in the map, or is needed by it. -/
def Needed (g : List (α × List α)) (v : α) : Prop := ∃ k ∈ g.map (·.1), ReflTransGen (DependsOn g) k v

/-! ## Lemmas -/

theorem mem_deps (g : List (α × List α)) (a b : α) : b ∈ deps g a ↔ DependsOn g a b := by
  induction g with
  | nil => simp [deps, DependsOn]
  | cons p g ih =>
    obtain ⟨k, d⟩ := p
    by_cases h : k = a
    · subst h
      simp only [deps, List.find?_cons, decide_true, Option.map_some, Option.getD_some]
      constructor
      · intro hb
        exact ⟨[], d, g, rfl, by simp, hb⟩
      · rintro ⟨l, d', r, e, hl, hb⟩
        cases l with
        | nil =>
          simp only [List.nil_append, List.cons.injEq, Prod.mk.injEq, true_and] at e
          rw [e.1]; exact hb
        | cons q l =>
          simp only [List.cons_append, List.cons.injEq] at e
          exact absurd (by rw [← e.1]; simp) hl
    · have : deps ((k, d) :: g) a = deps g a := by simp [deps, List.find?_cons, h]
      rw [this, ih]
      constructor
      · rintro ⟨l, d', r, rfl, hl, hb⟩
        exact ⟨(k, d) :: l, d', r, rfl, by simp only [List.map_cons, List.mem_cons, not_or]; exact ⟨fun e => h e.symm, hl⟩, hb⟩
      · rintro ⟨l, d', r, e, hl, hb⟩
        cases l with
        | nil =>
          simp only [List.nil_append, List.cons.injEq, Prod.mk.injEq] at e
          exact absurd e.1.1 h
        | cons q l =>
          simp only [List.cons_append, List.cons.injEq] at e
          exact ⟨l, d', r, e.2, fun h' => hl (by simp [h']), hb⟩

/-- What holds between the steps. -/
structure Inv (g : List (α × List α)) (s : Visited α) : Prop where
  same : ∀ v, v ∈ s.visited ↔ v ∈ s.result
  nodup : s.result.Nodup
  apart : ∀ v ∈ s.temp, v ∉ s.result
  post : ∀ l v r, s.result = l ++ v :: r → ∀ b, DependsOn g v b → b ∈ l

/-- What a step does. -/
structure Step (g : List (α × List α)) (v : α) (s s' : Visited α) : Prop where
  inv : Inv g s'
  temp : s'.temp = s.temp
  more : ∃ l, s'.result = s.result ++ l ∧ ∀ x ∈ l, ReflTransGen (DependsOn g) v x
  mem : v ∈ s'.result

/-- What a sequence of steps does. -/
structure Steps (g : List (α × List α)) (vs : List α) (s s' : Visited α) : Prop where
  inv : Inv g s'
  temp : s'.temp = s.temp
  more : ∃ l, s'.result = s.result ++ l ∧ ∀ x ∈ l, ∃ v ∈ vs, ReflTransGen (DependsOn g) v x
  mem : ∀ v ∈ vs, v ∈ s'.result

/-- What an error means. -/
def Circular (g : List (α × List α)) (v : α) : Prop :=
  ∃ x, ReflTransGen (DependsOn g) v x ∧ TransGen (DependsOn g) x x

theorem all_spec {g : List (α × List α)} {f : α → Visited α → Option (Option (Visited α))} (t : List α) :
    ∀ (vs : List α) (s : Visited α), Inv g s → s.temp = t →
      (∀ v ∈ vs, ∀ s, Inv g s → s.temp = t → match f v s with
        | none => False
        | some none => Circular g v
        | some (some s') => Step g v s s') →
      match visitAll f vs s with
        | none => False
        | some none => ∃ v ∈ vs, Circular g v
        | some (some s') => Steps g vs s s'
  | [], s, hi, _, _ => ⟨hi, rfl, ⟨[], by simp, by simp⟩, by simp⟩
  | v :: vs, s, hi, ht, hf => by
    have h := hf v List.mem_cons_self s hi ht
    rw [visitAll]
    revert h
    cases f v s with
    | none => exact False.elim
    | some r =>
      cases r with
      | none => exact fun h => ⟨v, List.mem_cons_self, h⟩
      | some s1 =>
        intro h
        have ih := all_spec t vs s1 h.inv (h.temp.trans ht) fun v hv => hf v (List.mem_cons_of_mem _ hv)
        simp only
        revert ih
        cases visitAll f vs s1 with
        | none => exact False.elim
        | some r =>
          cases r with
          | none => rintro ⟨w, hw, h'⟩; exact ⟨w, List.mem_cons_of_mem _ hw, h'⟩
          | some s2 =>
            intro ih
            obtain ⟨l1, e1, h1⟩ := h.more
            obtain ⟨l2, e2, h2⟩ := ih.more
            refine ⟨ih.inv, ih.temp.trans h.temp, ⟨l1 ++ l2, by rw [e2, e1, List.append_assoc], ?_⟩, ?_⟩
            · intro x hx
              rcases List.mem_append.1 hx with hx | hx
              · exact ⟨v, List.mem_cons_self, h1 x hx⟩
              · obtain ⟨w, hw, h'⟩ := h2 x hx
                exact ⟨w, List.mem_cons_of_mem _ hw, h'⟩
            · intro w hw
              rcases List.mem_cons.1 hw with rfl | hw
              · rw [e2]; exact List.mem_append_left _ h.mem
              · exact ih.mem w hw

theorem filter_count {l : List α} {t : List α} {v : α} (hv : v ∈ l) (ht : v ∉ t) :
    (l.filter (· ∉ v :: t)).length < (l.filter (· ∉ t)).length := by
  have h1 : l.filter (· ∉ v :: t) = (l.filter (· ∉ t)).filter (· ≠ v) := by
    rw [List.filter_filter]
    congr 1
    funext x
    by_cases h1 : x = v <;> by_cases h2 : x ∈ t <;> simp [h1, h2]
  rw [h1]
  apply Nat.lt_of_le_of_ne (List.length_filter_le _ _)
  intro h
  have := List.length_filter_eq_length_iff.1 h v (by simp [hv, ht])
  simp at this

theorem deps_nil {g : List (α × List α)} {v : α} (h : v ∉ g.map (·.1)) : deps g v = [] := by
  have : g.find? (fun p => decide (p.1 = v)) = none := by
    rw [List.find?_eq_none]
    intro p hp e
    exact h (List.mem_map.2 ⟨p, hp, by simpa using e⟩)
  simp [deps, this]

theorem visit_spec {g : List (α × List α)} : ∀ (n : Nat) (v : α) (s : Visited α), Inv g s →
    (∀ t ∈ s.temp, TransGen (DependsOn g) t v) → ((g.map (·.1)).filter (· ∉ s.temp)).length < n →
    match visit g n v s with
      | none => False
      | some none => Circular g v
      | some (some s') => Step g v s s'
  | 0, _, _, _, _, h => by omega
  | n + 1, v, s, hi, ht, hn => by
    rw [visit]
    by_cases h1 : v ∈ s.temp
    · simp only [h1, if_true]
      exact ⟨v, .refl, ht v h1⟩
    · simp only [h1, if_false]
      by_cases h2 : v ∈ s.visited
      · simp only [h2, if_true]
        exact ⟨hi, rfl, ⟨[], by simp, by simp⟩, (hi.same v).1 h2⟩
      · simp only [h2, if_false]
        have hr : v ∉ s.result := fun h => h2 ((hi.same v).2 h)
        have hi' : Inv g { s with temp := v :: s.temp } := by
          refine ⟨hi.same, hi.nodup, ?_, hi.post⟩
          intro w hw
          rcases List.mem_cons.1 hw with rfl | hw
          · exact hr
          · exact hi.apart w hw
        have key := all_spec (g := g) (f := visit g n) (v :: s.temp) (deps g v) { s with temp := v :: s.temp } hi' rfl (by
          intro b hb s1 hs1 hs1t
          refine visit_spec n b s1 hs1 ?_ ?_
          · rw [hs1t]
            intro t htm
            have hvb : DependsOn g v b := (mem_deps g v b).1 hb
            rcases List.mem_cons.1 htm with rfl | htm
            · exact .single hvb
            · exact (ht t htm).tail hvb
          · rw [hs1t]
            have hk : v ∈ g.map (·.1) := by
              by_contra hk
              rw [deps_nil hk] at hb
              cases hb
            have := filter_count hk h1
            omega)
        revert key
        cases visitAll (visit g n) (deps g v) { s with temp := v :: s.temp } with
        | none => exact False.elim
        | some r =>
          cases r with
          | none =>
            rintro ⟨b, hb, x, hx, hc⟩
            exact ⟨x, .head ((mem_deps g v b).1 hb) hx, hc⟩
          | some s1 =>
            intro h
            obtain ⟨l, e, hl⟩ := h.more
            have hv1 : v ∉ s1.result := h.inv.apart v (by rw [h.temp]; exact List.mem_cons_self)
            have htemp : s1.temp.filter (· ≠ v) = s.temp := by
              rw [h.temp]
              simp only [ne_eq, decide_not, List.filter_cons, decide_true, Bool.not_true, Bool.false_eq_true, if_false]
              rw [List.filter_eq_self]
              intro w hw
              simp only [Bool.not_eq_true', decide_eq_false_iff_not]
              rintro rfl
              exact h1 hw
            simp only
            refine ⟨⟨?_, ?_, ?_, ?_⟩, htemp, ⟨l ++ [v], by simp only [e, List.append_assoc], ?_⟩, by simp⟩
            · intro w
              simp only [List.mem_cons, List.mem_append, List.not_mem_nil, or_false, h.inv.same w]
              exact or_comm
            · exact List.nodup_append.2 ⟨h.inv.nodup, by simp, by
                intro a ha b hb
                rcases List.mem_singleton.1 hb with rfl
                rintro rfl
                exact hv1 ha⟩
            · intro w hw
              simp only [htemp] at hw
              simp only [List.mem_append, List.mem_singleton, not_or]
              refine ⟨h.inv.apart w (by rw [h.temp]; exact List.mem_cons_of_mem _ hw), ?_⟩
              rintro rfl
              exact h1 hw
            · intro l' w r e' b hb
              simp only at e'
              rcases List.eq_nil_or_concat r with rfl | ⟨r', z, rfl⟩
              · have := List.append_inj' e' rfl
                obtain ⟨e1, e2⟩ := this
                have hw : v = w := by simpa using e2
                subst hw
                rw [← e1]
                exact h.mem b ((mem_deps g v b).2 hb)
              · have e'' : s1.result ++ [v] = (l' ++ w :: r') ++ [z] := by simpa using e'
                obtain ⟨e1, _⟩ := List.append_inj' e'' rfl
                exact h.inv.post l' w r' e1 b hb
            · intro x hx
              rcases List.mem_append.1 hx with hx | hx
              · obtain ⟨b, hb, hbx⟩ := hl x hx
                exact .head ((mem_deps g v b).1 hb) hbx
              · rcases List.mem_singleton.1 hx with rfl
                exact .refl

theorem sort_spec (g : List (α × List α)) {n : Nat} (hn : g.length < n) :
    match visitKeys g n (g.map (·.1)) ⟨[], [], []⟩ with
      | none => False
      | some none => ∃ v ∈ g.map (·.1), Circular g v
      | some (some s') => Steps g (g.map (·.1)) ⟨[], [], []⟩ s' := by
  refine all_spec [] (g.map (·.1)) ⟨[], [], []⟩ ⟨by simp, by simp, by simp, by simp⟩ rfl ?_
  intro v _ s hi ht
  by_cases h : v ∈ s.visited
  · simp only [h, if_true]
    exact ⟨hi, rfl, ⟨[], by simp, by simp⟩, (hi.same v).1 h⟩
  · simp only [h, if_false]
    refine visit_spec n v s hi (by rw [ht]; simp) ?_
    have := List.length_filter_le (fun x => decide (x ∉ s.temp)) (g.map (·.1))
    simp only [List.length_map] at this
    omega

/-- Every step goes forward in a result. -/
theorem before_of_post {g : List (α × List α)} {s : Visited α} (h : Inv g s) {a b : α} (ha : a ∈ s.result)
    (hab : DependsOn g a b) : Before s.result.reverse a b := by
  obtain ⟨l, r, e⟩ := List.append_of_mem ha
  have hb := h.post l a r e b hab
  obtain ⟨l1, l2, rfl⟩ := List.append_of_mem hb
  refine ⟨r.reverse, l2.reverse, l1.reverse, ?_⟩
  rw [e]
  simp

theorem before_trans {o : List α} (h : o.Nodup) {a b c : α} (h1 : Before o a b) (h2 : Before o b c) : Before o a c := by
  obtain ⟨l, m, r, e1⟩ := h1
  obtain ⟨l', m', r', e2⟩ := h2
  have hn : (l ++ a :: m ++ b :: r).Nodup := e1 ▸ h
  have e : l ++ a :: m ++ b :: r = l' ++ b :: (m' ++ c :: r') := by rw [← e1, e2]; simp
  have : l ++ a :: m = l' ∧ r = m' ++ c :: r' := by
    have hb : b ∉ l ++ a :: m := by
      intro hb
      have := (List.nodup_append.1 hn).2.2 b hb b (by simp)
      exact this rfl
    have hb' : b ∉ l' := by
      intro hb'
      rw [e] at hn
      exact (List.nodup_append.1 hn).2.2 b hb' b (by simp) rfl
    obtain ⟨x, hx⟩ | ⟨x, hx⟩ := List.append_eq_append_iff.1 e
    · obtain ⟨h3, h4⟩ := hx
      cases x with
      | nil => simp at h3 h4; exact ⟨h3.symm, h4⟩
      | cons y x =>
        simp only [List.cons_append, List.cons.injEq] at h4
        exact absurd (by rw [h3, ← h4.1]; simp) hb'
    · obtain ⟨h3, h4⟩ := hx
      cases x with
      | nil => simp at h3 h4; exact ⟨h3, h4.symm⟩
      | cons y x =>
        simp only [List.cons_append, List.cons.injEq] at h4
        exact absurd (by rw [h3, ← h4.1]; simp) hb
  obtain ⟨rfl, rfl⟩ := this
  exact ⟨l, m ++ b :: m', r', by rw [e1]; simp⟩

theorem before_irrefl {o : List α} (h : o.Nodup) (a : α) : ¬ Before o a a := by
  rintro ⟨l, m, r, rfl⟩
  exact (List.nodup_append.1 h).2.2 a (by simp) a (by simp) rfl

/-! ## C129 -/

/-- **C129**. With enough fuel for the depth there is always an answer. It is an error exactly if a shape that is needed
depends on itself, at any distance. Otherwise it has each shape that is needed once, and shapes come before all that they
depend on. -/
theorem C129_order (g : List (α × List α)) (n : Nat) (hn : g.length < n) :
    (topoSort g n = some none ↔ ∃ v, Needed g v ∧ TransGen (DependsOn g) v v) ∧
    (topoSort g n ≠ none) ∧
    ∀ order, topoSort g n = some (some order) → order.Nodup ∧ (∀ v, v ∈ order ↔ Needed g v) ∧
      ∀ a b, Needed g a → DependsOn g a b → Before order a b := by
  have h := sort_spec g hn
  unfold topoSort
  revert h
  cases visitKeys g n (g.map (·.1)) ⟨[], [], []⟩ with
  | none => exact False.elim
  | some r =>
    cases r with
    | none =>
      rintro ⟨k, hk, x, hx, hc⟩
      exact ⟨by simpa using ⟨x, ⟨k, hk, hx⟩, hc⟩, by simp, by simp⟩
    | some s =>
      intro h
      have hmem : ∀ v, v ∈ s.result ↔ Needed g v := by
        intro v
        obtain ⟨l, e, hl⟩ := h.more
        simp only [List.nil_append] at e
        constructor
        · intro hv
          obtain ⟨k, hk, hkv⟩ := hl v (e ▸ hv)
          exact ⟨k, hk, hkv⟩
        · rintro ⟨k, hk, hkv⟩
          induction hkv with
          | refl => exact h.mem k hk
          | tail _ hbc ih =>
            obtain ⟨l1, l2, e'⟩ := List.append_of_mem ih
            rw [e']
            exact List.mem_append_left _ (h.inv.post l1 _ l2 e' _ hbc)
      have hnd : s.result.reverse.Nodup := List.nodup_reverse.2 h.inv.nodup
      have hedge : ∀ a b, Needed g a → DependsOn g a b → Before s.result.reverse a b :=
        fun a b ha hab => before_of_post h.inv ((hmem a).2 ha) hab
      refine ⟨?_, by simp, ?_⟩
      · simp only [Option.map_some, reduceCtorEq, Option.some.injEq, false_iff]
        rintro ⟨v, hv, hc⟩
        have : ∀ w, TransGen (DependsOn g) v w → Before s.result.reverse v w ∧ Needed g w := by
          intro w hw
          induction hw with
          | single h1 => exact ⟨hedge _ _ hv h1, hv.elim fun k hk => ⟨k, hk.1, hk.2.tail h1⟩⟩
          | tail _ h2 ih =>
            exact ⟨before_trans hnd ih.1 (hedge _ _ ih.2 h2), ih.2.elim fun k hk => ⟨k, hk.1, hk.2.tail h2⟩⟩
        exact before_irrefl hnd v (this v hc).1
      · intro order ho
        simp only [Option.map_some, Option.some.injEq] at ho
        subst ho
        exact ⟨hnd, fun v => by rw [List.mem_reverse]; exact hmem v, hedge⟩

/-- A diamond: the shape that all need comes last. -/
example : topoSort [(1, [2, 3]), (2, [4]), (3, [4])] 4 = some (some [1, 3, 2, 4]) := by decide

/-- A shape with a reference to itself, which ShEx has in many schemas, is an error. -/
example : topoSort [(1, [2]), (2, [2])] 3 = some none ∧ Needed [(1, [2]), (2, [2])] 2 ∧
    TransGen (DependsOn [(1, [2]), (2, [2])]) 2 2 :=
  ⟨by decide, ⟨2, by simp, .refl⟩, .single ⟨[(1, [2])], [2], [], rfl, by simp, by simp⟩⟩

end Gen
