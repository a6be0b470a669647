import Verif.Shex.LemmasSingle
import Verif.Shex.LemmasWhole

/-!
# Lemmas: parents that are conjunctions
-/

namespace Shex
open Rbe

variable {N P : Type} [DecidableEq N] [DecidableEq P]

/-- One turn of the loop of `mainShape` over found conjuncts. -/
def mainStep (acc : List (VCond N P) × Option (Shape N P) × List (ShapeExpr N P)) (se : ShapeExpr N P) :
    List (VCond N P) × Option (Shape N P) × List (ShapeExpr N P) :=
  match se with
  | .shape s =>
    match acc.2.1 with
    | none => (acc.1, some s, acc.2.2)
    | some _ => (acc.1, acc.2.1, acc.2.2 ++ [.shape s])
  | .nodeConstraint c => (acc.1 ++ [c], acc.2.1, acc.2.2)
  | se => (acc.1, acc.2.1, acc.2.2 ++ [se])

/-- The conditions among the conjuncts. -/
def condsOf (ses : List (ShapeExpr N P)) : List (VCond N P) :=
  ses.filterMap fun se => match se with | .nodeConstraint c => some c | _ => none

/-- The conjuncts that are not node constraints. -/
def othersOf (ses : List (ShapeExpr N P)) : List (ShapeExpr N P) :=
  ses.filter fun se => match se with | .nodeConstraint _ => false | _ => true

omit [DecidableEq N] [DecidableEq P] in
theorem mainShape_and {sch : Schema N P} {i : Nat} {es : List Nat}
    (h : sch.find (sch.deref i) = some (.and es)) :
    sch.mainShape i = some ((es.filterMap sch.find).foldl mainStep ([], none, [])) := by
  simp only [Schema.mainShape, h, Option.some.injEq]
  clear h
  generalize (([], none, []) : List (VCond N P) × Option (Shape N P) × List (ShapeExpr N P)) = acc
  induction es generalizing acc with
  | nil => rfl
  | cons e es ih =>
    rw [List.foldl_cons, ih]
    cases hf : sch.find e with
    | none => simp [List.filterMap_cons, hf]
    | some se =>
      simp only [List.filterMap_cons, hf, List.foldl_cons]
      congr 1
      cases se <;> rfl

omit [DecidableEq N] [DecidableEq P] in
theorem mainFold_some (ses : List (ShapeExpr N P)) (ncs : List (VCond N P)) (m : Shape N P)
    (rest : List (ShapeExpr N P)) :
    ses.foldl mainStep (ncs, some m, rest) = (ncs ++ condsOf ses, some m, rest ++ othersOf ses) := by
  induction ses generalizing ncs rest with
  | nil => simp [condsOf, othersOf]
  | cons se ses ih =>
    rw [List.foldl_cons]
    cases se <;> simp [mainStep, ih, condsOf, othersOf]

omit [DecidableEq N] [DecidableEq P] in
theorem mainFold_none (ses : List (ShapeExpr N P)) (ncs : List (VCond N P))
    (rest : List (ShapeExpr N P)) :
    ((∀ se ∈ ses, ¬ IsShape se) ∧
      ses.foldl mainStep (ncs, none, rest) = (ncs ++ condsOf ses, none, rest ++ othersOf ses)) ∨
    ∃ pre m post, ses = pre ++ .shape m :: post ∧ (∀ se ∈ pre, ¬ IsShape se) ∧
      ses.foldl mainStep (ncs, none, rest) =
        (ncs ++ condsOf ses, some m, rest ++ othersOf (pre ++ post)) := by
  induction ses generalizing ncs rest with
  | nil => exact .inl ⟨by simp, by simp [condsOf, othersOf]⟩
  | cons se ses ih =>
    rw [List.foldl_cons]
    have key : ¬ IsShape se → mainStep (ncs, none, rest) se =
        (ncs ++ condsOf [se], none, rest ++ othersOf [se]) := by
      intro h
      cases se with
      | shape s => exact absurd ⟨s, rfl⟩ h
      | _ => simp [mainStep, condsOf, othersOf]
    by_cases hs : IsShape se
    · obtain ⟨s, rfl⟩ := hs
      refine .inr ⟨[], s, ses, rfl, by simp, ?_⟩
      show ses.foldl mainStep (ncs, some s, rest) = _
      rw [mainFold_some]
      simp [condsOf, othersOf]
    · rw [key hs]
      have hc : ∀ l, condsOf (se :: l) = condsOf [se] ++ condsOf l := fun l =>
        List.filterMap_append (l := [se]) (l' := l)
      have ho : ∀ l, othersOf (se :: l) = othersOf [se] ++ othersOf l := fun l =>
        List.filter_append (l₁ := [se]) (l₂ := l)
      rcases ih (ncs ++ condsOf [se]) (rest ++ othersOf [se]) with ⟨h1, h2⟩ | ⟨pre, m, post, rfl, h1, h2⟩
      · refine .inl ⟨fun x hx => ?_, ?_⟩
        · rcases List.mem_cons.1 hx with rfl | hx
          · exact hs
          · exact h1 x hx
        · rw [h2, hc ses, ho ses, List.append_assoc, List.append_assoc]
      · refine .inr ⟨se :: pre, m, post, rfl, fun x hx => ?_, ?_⟩
        · rcases List.mem_cons.1 hx with rfl | hx
          · exact hs
          · exact h1 x hx
        · rw [h2, hc (pre ++ _), List.cons_append, ho (pre ++ post), List.append_assoc,
            List.append_assoc]

omit [DecidableEq N] [DecidableEq P] in
/-- `mainShape` finds the conjuncts and divides them. -/
theorem mainShape_spec {sch : Schema N P} {rank : Nat → Nat} (hg : Grounded sch rank) (i : Nat) :
    (sch.mainShape i = none → ∀ ses, ¬ Conjuncts sch i ses) ∧
    ∀ conds main rest, sch.mainShape i = some (conds, main, rest) →
      ∃ ses, Conjuncts sch i ses ∧ Divided ses conds main rest := by
  have ht : Target sch i (sch.deref i) := (target_iff hg i _).2 rfl
  cases hf : sch.find (sch.deref i) with
  | none =>
    have hm : sch.mainShape i = none := by simp [Schema.mainShape, hf]
    rw [hm]
    refine ⟨fun _ ses ⟨k, hk, h⟩ => ?_, by simp⟩
    rw [(target_iff hg i k).1 hk] at h
    rcases h with ⟨s, h, _⟩ | ⟨es, h, _⟩ <;> exact absurd (hf.symm.trans h) (by simp)
  | some se =>
    have hother : (∀ s, se ≠ .shape s) → (∀ es, se ≠ .and es) → ∀ ses, ¬ Conjuncts sch i ses := by
      rintro h1 h2 ses ⟨k, hk, h⟩
      rw [(target_iff hg i k).1 hk] at h
      rcases h with ⟨s, h, _⟩ | ⟨es, h, _⟩
      · exact h1 s (Option.some.inj (hf.symm.trans h))
      · exact h2 es (Option.some.inj (hf.symm.trans h))
    cases se with
    | shape s =>
      have hm : sch.mainShape i = some ([], some s, []) := by simp [Schema.mainShape, hf]
      rw [hm]
      refine ⟨by simp, ?_⟩
      rintro conds main rest h
      cases h
      exact ⟨[.shape s], ⟨_, ht, .inl ⟨s, hf, rfl⟩⟩, rfl, .inr ⟨[], s, [], rfl, by simp, rfl, rfl⟩⟩
    | and es =>
      rw [mainShape_and hf]
      refine ⟨by simp, ?_⟩
      intro conds main rest h
      refine ⟨es.filterMap sch.find, ⟨_, ht, .inr ⟨es, hf, rfl⟩⟩, ?_⟩
      rcases mainFold_none (es.filterMap sch.find) [] [] with ⟨h1, h2⟩ | ⟨pre, m, post, h0, h1, h2⟩
      · rw [h2] at h
        simp only [List.nil_append, Option.some.injEq, Prod.mk.injEq] at h
        obtain ⟨rfl, rfl, rfl⟩ := h
        exact ⟨rfl, .inl ⟨rfl, h1, rfl⟩⟩
      · rw [h2] at h
        simp only [List.nil_append, Option.some.injEq, Prod.mk.injEq] at h
        obtain ⟨rfl, rfl, rfl⟩ := h
        exact ⟨rfl, .inr ⟨pre, m, post, h0, h1, rfl, rfl⟩⟩
    | _ =>
      have hm : sch.mainShape i = none := by simp [Schema.mainShape, hf]
      rw [hm]
      exact ⟨fun _ => hother (by simp) (by simp), by simp⟩

omit [DecidableEq N] [DecidableEq P] in
/-- The division is unique. -/
theorem divided_unique {ses : List (ShapeExpr N P)} {conds conds' : List (VCond N P)}
    {main main' : Option (Shape N P)} {rest rest' : List (ShapeExpr N P)}
    (h : Divided ses conds main rest) (h' : Divided ses conds' main' rest') :
    conds = conds' ∧ main = main' ∧ rest = rest' := by
  have key : ∀ (pre pre' post post' : List (ShapeExpr N P)) (m m' : Shape N P),
      pre ++ .shape m :: post = pre' ++ .shape m' :: post' → (∀ se ∈ pre, ¬ IsShape se) →
      (∀ se ∈ pre', ¬ IsShape se) → pre = pre' ∧ m = m' ∧ post = post' := by
    intro pre
    induction pre with
    | nil =>
      intro pre' post post' m m' h _ hp'
      cases pre' with
      | nil => simp at h; exact ⟨rfl, h⟩
      | cons a pre' =>
        simp at h
        exact absurd ⟨m, h.1.symm⟩ (hp' a (by simp))
    | cons a pre ih =>
      intro pre' post post' m m' h hp hp'
      cases pre' with
      | nil =>
        simp at h
        exact absurd ⟨m', h.1⟩ (hp a (by simp))
      | cons b pre' =>
        simp at h
        obtain ⟨h1, h2, h3⟩ := ih pre' post post' m m' h.2 (fun x hx => hp x (by simp [hx]))
          (fun x hx => hp' x (by simp [hx]))
        exact ⟨by rw [h.1, h1], h2, h3⟩
  obtain ⟨rfl, h⟩ := h
  obtain ⟨rfl, h'⟩ := h'
  refine ⟨rfl, ?_⟩
  rcases h with ⟨rfl, h1, rfl⟩ | ⟨pre, m, post, he, hp, rfl, rfl⟩ <;>
    rcases h' with ⟨rfl, h1', rfl⟩ | ⟨pre', m', post', he', hp', rfl, rfl⟩
  · exact ⟨rfl, rfl⟩
  · exact absurd ⟨m', rfl⟩ (h1 (.shape m') (by simp [he']))
  · exact absurd ⟨m, rfl⟩ (h1' (.shape m) (by simp [he]))
  · obtain ⟨rfl, rfl, rfl⟩ := key _ _ _ _ _ _ (he.symm.trans he') hp hp'
    exact ⟨rfl, rfl⟩

omit [DecidableEq N] [DecidableEq P] in
theorem conjuncts_unique {sch : Schema N P} {rank : Nat → Nat} (hg : Grounded sch rank) {i : Nat}
    {ses ses' : List (ShapeExpr N P)} (h : Conjuncts sch i ses) (h' : Conjuncts sch i ses') :
    ses = ses' := by
  obtain ⟨k, hk, h⟩ := h
  obtain ⟨k', hk', h'⟩ := h'
  have : k = k' := ((target_iff hg i k).1 hk).trans ((target_iff hg i k').1 hk').symm
  subst this
  rcases h with ⟨s, h, rfl⟩ | ⟨es, h, rfl⟩ <;> rcases h' with ⟨s', h', rfl⟩ | ⟨es', h', rfl⟩ <;>
    cases h.symm.trans h'
  · rfl
  · rfl

omit [DecidableEq N] [DecidableEq P] in
theorem mainShape_iff {sch : Schema N P} {rank : Nat → Nat} (hg : Grounded sch rank) (i : Nat)
    (conds : List (VCond N P)) (main : Option (Shape N P)) (rest : List (ShapeExpr N P)) :
    sch.mainShape i = some (conds, main, rest) ↔
      ∃ ses, Conjuncts sch i ses ∧ Divided ses conds main rest := by
  refine ⟨(mainShape_spec hg i).2 _ _ _, ?_⟩
  rintro ⟨ses, h1, h2⟩
  cases hm : sch.mainShape i with
  | none => exact absurd h1 ((mainShape_spec hg i).1 hm ses)
  | some r =>
    obtain ⟨c', m', r'⟩ := r
    obtain ⟨ses', h1', h2'⟩ := (mainShape_spec hg i).2 _ _ _ hm
    obtain rfl := conjuncts_unique hg h1 h1'
    obtain ⟨rfl, rfl, rfl⟩ := divided_unique h2 h2'
    rfl

omit [DecidableEq N] [DecidableEq P] in
theorem mainExtends_iff {sch : Schema N P} {rank : Nat → Nat} (hg : Grounded sch rank) (i j : Nat) :
    j ∈ sch.mainExtends i ↔ MainExtends sch i j := by
  unfold Schema.mainExtends MainExtends
  cases hm : sch.mainShape i with
  | none =>
    simp only [List.not_mem_nil, false_iff]
    rintro ⟨ses, _, _, _, h, _⟩
    exact (mainShape_spec hg i).1 hm ses h
  | some r =>
    obtain ⟨c, m, r⟩ := r
    cases m with
    | none =>
      simp only [List.not_mem_nil, false_iff]
      rintro ⟨ses, c', m', r', h1, h2, _⟩
      have := (mainShape_iff hg i c' (some m') r').2 ⟨ses, h1, h2⟩
      rw [hm] at this
      cases this
    | some m =>
      obtain ⟨ses, h1, h2⟩ := (mainShape_spec hg i).2 _ _ _ hm
      constructor
      · intro h; exact ⟨ses, c, m, r, h1, h2, h⟩
      · rintro ⟨ses', c', m', r', h1', h2', h⟩
        have := (mainShape_iff hg i c' (some m') r').2 ⟨ses', h1', h2'⟩
        rw [hm] at this
        cases this
        exact h

omit [DecidableEq N] [DecidableEq P] in
theorem closure_mainAncestor {sch : Schema N P} {rank : Nat → Nat} (hg : Grounded sch rank)
    (hk : (sch.shapes.map Prod.fst).Nodup) (s : Shape N P) (d : Nat) :
    d ∈ sch.extendsClosure s.extends ↔ MainAncestor sch s d := by
  rw [extendsClosure_iff hk]
  unfold MainAncestor
  have : (fun a b => b ∈ sch.mainExtends a) = MainExtends sch := by
    funext a b
    exact propext (mainExtends_iff hg a b)
  rw [this]

/-! ## Collected conjuncts -/

theorem collectFold {sch : Schema N P} {node : N} (f : ShapeExpr N P → Option (List (TExpr N P)))
    (ses : List (ShapeExpr N P)) (hf : ∀ se ∈ ses, ∀ ts, f se = some ts → Collected sch node se ts)
    (acc ts : List (TExpr N P))
    (h : ses.foldl (fun acc r =>
      match acc, f r with
      | some tes, some tes' => some (tes ++ tes')
      | _, _ => none) (some acc) = some ts) :
    ∃ ts', CollectedAll sch node ses ts' ∧ ts = acc ++ ts' := by
  induction ses generalizing acc with
  | nil => cases h; exact ⟨[], .nil, by simp⟩
  | cons se ses ih =>
    rw [List.foldl_cons] at h
    cases hr : f se with
    | none =>
      rw [hr] at h
      have : ∀ l : List (ShapeExpr N P), l.foldl (fun acc r =>
          match acc, f r with
          | some tes, some tes' => some (tes ++ tes')
          | _, _ => none) (none : Option (List (TExpr N P))) = none := by
        intro l
        induction l with
        | nil => rfl
        | cons a l ih => exact ih
      simp only [this] at h
      cases h
    | some t =>
      rw [hr] at h
      obtain ⟨ts', h1, h2⟩ := ih (fun x hx => hf x (by simp [hx])) (acc ++ t) h
      exact ⟨t ++ ts', .cons (hf se (by simp) t hr) h1, by rw [h2]; simp⟩

theorem othersOf_mem {pre : List (ShapeExpr N P)} {x : ShapeExpr N P} (h : x ∈ othersOf pre) : x ∈ pre :=
  (List.mem_filter.1 h).1

omit [DecidableEq N] [DecidableEq P] in
/-- The conjuncts beside the main shape of a conjunction are stored below it. -/
theorem divided_rest {sch : Schema N P} {rank : Nat → Nat} (hg : Grounded sch rank) {j : Nat}
    {ses : List (ShapeExpr N P)} {conds : List (VCond N P)} {main : Option (Shape N P)}
    {rest : List (ShapeExpr N P)} (h : Conjuncts sch j ses) (hd : Divided ses conds main rest) :
    ∀ se ∈ rest, ∃ e, sch.At e se ∧ rank e < rank j := by
  obtain ⟨k, hk, h⟩ := h
  have hr : rank k ≤ rank j := by
    rw [(target_iff hg j k).1 hk]
    exact (deref_spec hg (fun _ => True) (fun _ _ _ => Iff.rfl) j).2.2
  intro se hse
  rcases h with ⟨s, h, rfl⟩ | ⟨es, h, rfl⟩
  · exfalso
    rcases hd.2 with ⟨_, h1, _⟩ | ⟨pre, m, post, h0, hp, _, hrest⟩
    · exact h1 (.shape s) (by simp) ⟨s, rfl⟩
    · have : pre = [] ∧ post = [] := by
        cases pre with
        | nil => simp at h0; exact ⟨rfl, h0.2⟩
        | cons a pre => simp at h0
      rw [hrest, this.1, this.2] at hse
      simp at hse
  · have hmem : se ∈ es.filterMap sch.find := by
      rcases hd.2 with ⟨_, _, hrest⟩ | ⟨pre, m, post, h0, _, _, hrest⟩
      · rw [hrest] at hse
        exact (List.mem_filter.1 hse).1
      · rw [hrest] at hse
        have := (List.mem_filter.1 hse).1
        rw [h0]
        simp only [List.mem_append, List.mem_cons] at this ⊢
        tauto
    obtain ⟨e, he, hf⟩ := List.mem_filterMap.1 hmem
    exact ⟨e, hf, Nat.lt_of_lt_of_le (hg.and k es h e he) hr⟩

theorem collect_sound {sch : Schema N P} {rank : Nat → Nat} (hg : Grounded sch rank) (node : N)
    (n : Nat) (path : List Nat) (e : Nat) (se : ShapeExpr N P) (he : sch.At e se) (hn : path.Nodup)
    (hs : ∀ x ∈ path, sch.find x ≠ none ∧ rank e < rank x)
    (hl : path.length + n = sch.shapes.length + 1) (ts : List (TExpr N P))
    (h : collectConstraint sch node n se = some ts) : Collected sch node se ts := by
  induction n generalizing path e se ts with
  | zero =>
    have := length_found hn fun x hx => (hs x hx).1
    omega
  | succ n ih =>
    cases se with
    | shape s => simp only [collectConstraint, Option.some.injEq] at h; subst h; exact .shape s
    | nodeConstraint c =>
      simp only [collectConstraint] at h
      split at h
      · rename_i hc
        cases h
        exact .nodeConstraint c ((matches_isSome node (node, none) c).1 hc)
      · cases h
    | ref j =>
      simp only [collectConstraint] at h
      cases hm : sch.mainShape j with
      | none =>
        rw [hm] at h
        cases h
        exact .refNone ((mainShape_spec hg j).1 hm)
      | some r =>
        obtain ⟨conds, main, rest⟩ := r
        rw [hm] at h
        simp only at h
        obtain ⟨ses, h1, h2⟩ := (mainShape_spec hg j).2 _ _ _ hm
        split at h
        · rename_i hc
          have hei : e ∉ path := fun hx => Nat.lt_irrefl _ (hs e hx).2
          obtain ⟨ts', g1, rfl⟩ := collectFold (collectConstraint sch node n) rest (by
            intro se' hse' ts' hts'
            obtain ⟨e', he', hlt⟩ := divided_rest hg h1 h2 se' hse'
            have hlt' : rank e' < rank e := Nat.lt_trans hlt (hg.ref e j he)
            refine ih (e :: path) e' se' he' (List.nodup_cons.2 ⟨hei, hn⟩) ?_ (by simp; omega) ts' hts'
            intro x hx
            rcases List.mem_cons.1 hx with rfl | hx
            · exact ⟨by rw [show sch.find x = some _ from he]; simp, hlt'⟩
            · exact ⟨(hs x hx).1, Nat.lt_trans hlt' (hs x hx).2⟩) _ _ h
          refine .ref h1 h2 (fun c hcm => ?_) g1
          exact (matches_isSome node (node, none) c).1 (List.all_eq_true.1 hc c hcm)
        · cases h
    | and es => simp only [collectConstraint] at h; cases h; exact .other (by rintro ⟨_, h⟩; cases h) (by simp) (by simp)
    | or es => simp only [collectConstraint] at h; cases h; exact .other (by rintro ⟨_, h⟩; cases h) (by simp) (by simp)
    | not e => simp only [collectConstraint] at h; cases h; exact .other (by rintro ⟨_, h⟩; cases h) (by simp) (by simp)
    | external => simp only [collectConstraint] at h; cases h; exact .other (by rintro ⟨_, h⟩; cases h) (by simp) (by simp)
    | empty => simp only [collectConstraint] at h; cases h; exact .other (by rintro ⟨_, h⟩; cases h) (by simp) (by simp)

/-- What the buckets and the constraints of the ancestors are, when no conjunct fails. -/
theorem ancestorBuckets_spec {E : Env N P} {rank : Nat → Nat} (hg : Grounded E.schema rank) (node : N)
    (as : List Nat) (bs : List (Option Nat × List (TExpr N P)))
    (splits : List (List Nat × List (TExpr N P)))
    (h : E.ancestorBuckets node as = some (bs, splits)) :
    (∀ l ts, (l, ts) ∈ bs ↔ ∃ a ∈ as, ∃ ses conds m rest, l = some a ∧ Conjuncts E.schema a ses ∧
      Divided ses conds (some m) rest ∧ ts = [m.expr]) ∧
    (bs.map Prod.fst).Sublist (as.map some) ∧
    (∀ a ∈ as, ∀ ses conds main rest, Conjuncts E.schema a ses → Divided ses conds main rest →
      (∀ c ∈ conds, c.Sat node (node, none)) ∧ ∃ ts, CollectedAll E.schema node rest ts ∧
        (ts ≠ [] → (a :: (main.toList.flatMap fun m => E.schema.extendsClosure m.extends), ts) ∈ splits)) ∧
    ∀ sp ∈ splits, ∃ a ∈ as, ∃ ses conds main rest, Conjuncts E.schema a ses ∧
      Divided ses conds main rest ∧ CollectedAll E.schema node rest sp.2 := by
  induction as generalizing bs splits with
  | nil =>
    cases h
    exact ⟨by simp, by simp, by simp, by simp⟩
  | cons a as ih =>
    simp only [Env.ancestorBuckets] at h
    cases hm : E.schema.mainShape a with
    | none =>
      rw [hm] at h
      obtain ⟨h1, h2, h3, h4⟩ := ih bs splits h
      have hno := (mainShape_spec hg a).1 hm
      refine ⟨fun l ts => ?_, ?_, ?_, ?_⟩
      · rw [h1]
        constructor
        · rintro ⟨x, hx, r⟩; exact ⟨x, by simp [hx], r⟩
        · rintro ⟨x, hx, ses, c, m, r, hl, hc, hrest⟩
          rcases List.mem_cons.1 hx with rfl | hx
          · exact absurd hc (hno ses)
          · exact ⟨x, hx, ses, c, m, r, hl, hc, hrest⟩
      · exact h2.trans (by simp)
      · intro x hx ses c m r hc hd
        rcases List.mem_cons.1 hx with rfl | hx
        · exact absurd hc (hno ses)
        · exact h3 x hx ses c m r hc hd
      · intro sp hsp
        obtain ⟨x, hx, r⟩ := h4 sp hsp
        exact ⟨x, by simp [hx], r⟩
    | some r =>
      obtain ⟨conds, main, rest⟩ := r
      rw [hm] at h
      simp only at h
      obtain ⟨ses, hc0, hd0⟩ := (mainShape_spec hg a).2 _ _ _ hm
      have huniq : ∀ ses' conds' main' rest', Conjuncts E.schema a ses' →
          Divided ses' conds' main' rest' → conds' = conds ∧ main' = main ∧ rest' = rest := by
        intro ses' conds' main' rest' hc' hd'
        obtain rfl := conjuncts_unique hg hc0 hc'
        exact divided_unique hd' hd0
      split at h
      · cases h
      · rename_i tes ht
        split at h
        · rename_i hall
          obtain ⟨ts', g1, g2⟩ := collectFold (collectConstraint E.schema node (E.schema.shapes.length + 1))
            rest (by
              intro se hse ts hts
              obtain ⟨e, he, _⟩ := divided_rest hg hc0 hd0 se hse
              exact collect_sound hg node _ [] e se he (by simp) (by simp) (by simp) ts hts) [] tes ht
          rw [List.nil_append] at g2
          subst g2
          rw [Option.map_eq_some_iff] at h
          obtain ⟨⟨bs', sp'⟩, hrec, heq⟩ := h
          obtain ⟨h1, h2, h3, h4⟩ := ih bs' sp' hrec
          simp only [Prod.mk.injEq] at heq
          obtain ⟨rfl, hsp⟩ := heq
          have hsub : ∀ x ∈ sp', x ∈ splits := by
            intro x hx
            rw [← hsp]
            split
            · exact hx
            · simp [hx]
          refine ⟨fun l ts => ?_, ?_, ?_, ?_⟩
          · rw [List.mem_append, h1]
            constructor
            · rintro (hl | ⟨x, hx, r⟩)
              · obtain ⟨m, hmm, he⟩ := List.mem_map.1 hl
                cases main with
                | none => simp at hmm
                | some m' =>
                  simp only [Option.toList_some, List.mem_singleton] at hmm
                  subst hmm
                  cases he
                  exact ⟨a, by simp, ses, conds, m, rest, rfl, hc0, hd0, rfl⟩
              · exact ⟨x, by simp [hx], r⟩
            · rintro ⟨x, hx, ses', c, m, r, rfl, hc, hd, rfl⟩
              rcases List.mem_cons.1 hx with rfl | hx
              · obtain ⟨_, hmain, _⟩ := huniq ses' c (some m) r hc hd
                left
                rw [← hmain]
                simp
              · exact .inr ⟨x, hx, ses', c, m, r, rfl, hc, hd, rfl⟩
          · cases main with
            | none => simpa using h2.trans (by simp)
            | some m => simpa using h2
          · intro x hx ses' c m r hc hd
            rcases List.mem_cons.1 hx with rfl | hx
            · obtain ⟨rfl, rfl, rfl⟩ := huniq ses' c m r hc hd
              refine ⟨fun c' hc' => (matches_isSome node (node, none) c').1 (List.all_eq_true.1 hall c' hc'),
                tes, g1, fun hne => ?_⟩
              rw [← hsp, if_neg (by simpa using hne)]
              simp
            · obtain ⟨k1, ts, k2, k3⟩ := h3 x hx ses' c m r hc hd
              exact ⟨k1, ts, k2, fun hne => hsub _ (k3 hne)⟩
          · intro sp hspm
            rw [← hsp] at hspm
            split at hspm
            · obtain ⟨x, hx, r⟩ := h4 sp hspm
              exact ⟨x, by simp [hx], r⟩
            · rcases List.mem_cons.1 hspm with rfl | hspm
              · exact ⟨a, by simp, ses, conds, main, rest, hc0, hd0, g1⟩
              · obtain ⟨x, hx, r⟩ := h4 sp hspm
                exact ⟨x, by simp [hx], r⟩
        · cases h

theorem collected_plain {sch : Schema N P} {rank : Nat → Nat} (hg : Grounded sch rank)
    (hp : ∀ i s, sch.At i (.shape s) → Plain s.expr) {node : N}
    {ses : List (ShapeExpr N P)} {ts : List (TExpr N P)} (h : CollectedAll sch node ses ts)
    (hses : ∀ se ∈ ses, ∃ e, sch.At e se) : ∀ t ∈ ts, Plain t := by
  revert hses
  refine CollectedAll.rec
    (motive_1 := fun se ts _ => (∃ e, sch.At e se) → ∀ t ∈ ts, Plain t)
    (motive_2 := fun ses ts _ => (∀ se ∈ ses, ∃ e, sch.At e se) → ∀ t ∈ ts, Plain t)
    ?_ ?_ ?_ ?_ ?_ ?_ ?_ h
  · rintro s ⟨e, he⟩ t ht
    rw [List.mem_singleton] at ht
    subst ht
    exact hp e s he
  · simp
  · intro j ses conds main rest ts hc hd hn _ ih _ t ht
    rcases List.mem_append.1 ht with ht | ht
    · obtain ⟨m, hm, rfl⟩ := List.mem_map.1 ht
      cases main with
      | none => simp at hm
      | some m' =>
        simp only [Option.toList_some, List.mem_singleton] at hm
        subst hm
        rcases hd.2 with ⟨h0, _⟩ | ⟨pre, m', post, h0, _, h1, _⟩
        · cases h0
        · cases h1
          obtain ⟨k, _, hk⟩ := hc
          rcases hk with ⟨s, hs, rfl⟩ | ⟨es, _, rfl⟩
          · cases pre with
            | nil => simp at h0; obtain ⟨rfl, _⟩ := h0; exact hp k _ hs
            | cons a pre => simp at h0
          · have : ShapeExpr.shape m ∈ es.filterMap sch.find := by rw [h0]; simp
            obtain ⟨e, _, he⟩ := List.mem_filterMap.1 this
            exact hp e m he
    · exact ih (fun se hse => (divided_rest hg hc hd se hse).imp fun _ h => h.1) t ht
  · simp
  · simp
  · simp
  · intro se ses ts ts' _ _ ih1 ih2 hses t ht
    rcases List.mem_append.1 ht with ht | ht
    · exact ih1 (hses se (by simp)) t ht
    · exact ih2 (fun x hx => hses x (by simp [hx])) t ht

/-! ## Predicates that are read -/

omit [DecidableEq N] [DecidableEq P] in
theorem predsOf_iff {sch : Schema N P} {rank : Nat → Nat} (hl : Layered sch rank) (n : Nat)
    (path : List Nat) (i : Nat) (se : ShapeExpr N P) (hi : sch.At i se) (hn : path.Nodup)
    (hs : ∀ x ∈ path, sch.find x ≠ none ∧ rank i < rank x)
    (hlen : path.length + n = sch.shapes.length + 1) (p : Pred P) :
    p ∈ predsOf sch n se ↔ ∃ m, Within sch i m ∧ p ∈ m.preds := by
  induction n generalizing path i se with
  | zero =>
    have := length_found hn fun x hx => (hs x hx).1
    omega
  | succ n ih =>
    have hf : sch.find i = some se := hi
    have hei : i ∉ path := fun hx => Nat.lt_irrefl _ (hs i hx).2
    have key : ∀ e, rank e < rank i → ((∃ se', sch.find e = some se' ∧ p ∈ predsOf sch n se') ↔
        ∃ m, Within sch e m ∧ p ∈ m.preds) := by
      intro e he
      cases hfe : sch.find e with
      | none =>
        simp only [reduceCtorEq, false_and, exists_false, false_iff]
        rintro ⟨m, hw, _⟩
        cases hw with
        | shape h => exact absurd (hfe.symm.trans h) (by simp)
        | ref h => exact absurd (hfe.symm.trans h) (by simp)
        | not h => exact absurd (hfe.symm.trans h) (by simp)
        | or h => exact absurd (hfe.symm.trans h) (by simp)
        | and h => exact absurd (hfe.symm.trans h) (by simp)
      | some se' =>
        simp only [Option.some.injEq, exists_eq_left']
        refine ih (i :: path) e se' hfe (List.nodup_cons.2 ⟨hei, hn⟩) ?_ (by simp; omega)
        intro x hx
        rcases List.mem_cons.1 hx with rfl | hx
        · exact ⟨by rw [hf]; simp, he⟩
        · exact ⟨(hs x hx).1, Nat.lt_trans he (hs x hx).2⟩
    have hgo : ∀ e, p ∈ (match sch.find e with
        | none => []
        | some se' => predsOf sch n se') ↔ ∃ se', sch.find e = some se' ∧ p ∈ predsOf sch n se' := by
      intro e
      cases sch.find e <;> simp
    cases se with
    | shape s =>
      simp only [predsOf]
      constructor
      · intro h; exact ⟨s, .shape hi, h⟩
      · rintro ⟨m, hw, h⟩
        cases hw with
        | shape h' => cases hf.symm.trans h'; exact h
        | ref h' => cases hf.symm.trans h'
        | not h' => cases hf.symm.trans h'
        | or h' => cases hf.symm.trans h'
        | and h' => cases hf.symm.trans h'
    | ref j =>
      simp only [predsOf]
      refine (hgo j).trans ((key j (hl.grounded.ref i j hi)).trans ?_)
      constructor
      · rintro ⟨m, hw, h⟩; exact ⟨m, .ref hi hw, h⟩
      · rintro ⟨m, hw, h⟩
        cases hw with
        | shape h' => cases hf.symm.trans h'
        | ref h' hw => cases hf.symm.trans h'; exact ⟨m, hw, h⟩
        | not h' => cases hf.symm.trans h'
        | or h' => cases hf.symm.trans h'
        | and h' => cases hf.symm.trans h'
    | not j =>
      simp only [predsOf]
      refine (hgo j).trans ((key j (hl.not i j hi)).trans ?_)
      constructor
      · rintro ⟨m, hw, h⟩; exact ⟨m, .not hi hw, h⟩
      · rintro ⟨m, hw, h⟩
        cases hw with
        | shape h' => cases hf.symm.trans h'
        | ref h' => cases hf.symm.trans h'
        | not h' hw => cases hf.symm.trans h'; exact ⟨m, hw, h⟩
        | or h' => cases hf.symm.trans h'
        | and h' => cases hf.symm.trans h'
    | or es =>
      simp only [predsOf, List.mem_flatMap]
      constructor
      · rintro ⟨e, he, h⟩
        obtain ⟨m, hw, h⟩ := (key e (hl.grounded.or i es hi e he)).1 ((hgo e).1 h)
        exact ⟨m, .or hi he hw, h⟩
      · rintro ⟨m, hw, h⟩
        cases hw with
        | shape h' => cases hf.symm.trans h'
        | ref h' => cases hf.symm.trans h'
        | not h' => cases hf.symm.trans h'
        | or h' he hw =>
          cases hf.symm.trans h'
          exact ⟨_, he, (hgo _).2 ((key _ (hl.grounded.or i es hi _ he)).2 ⟨m, hw, h⟩)⟩
        | and h' => cases hf.symm.trans h'
    | and es =>
      simp only [predsOf, List.mem_flatMap]
      constructor
      · rintro ⟨e, he, h⟩
        obtain ⟨m, hw, h⟩ := (key e (hl.grounded.and i es hi e he)).1 ((hgo e).1 h)
        exact ⟨m, .and hi he hw, h⟩
      · rintro ⟨m, hw, h⟩
        cases hw with
        | shape h' => cases hf.symm.trans h'
        | ref h' => cases hf.symm.trans h'
        | not h' => cases hf.symm.trans h'
        | or h' => cases hf.symm.trans h'
        | and h' he hw =>
          cases hf.symm.trans h'
          exact ⟨_, he, (hgo _).2 ((key _ (hl.grounded.and i es hi _ he)).2 ⟨m, hw, h⟩)⟩
    | _ =>
      simp only [predsOf, List.not_mem_nil, false_iff]
      rintro ⟨m, hw, _⟩
      cases hw with
      | shape h' => cases hf.symm.trans h'
      | ref h' => cases hf.symm.trans h'
      | not h' => cases hf.symm.trans h'
      | or h' => cases hf.symm.trans h'
      | and h' => cases hf.symm.trans h'

theorem readFor_iff {sch : Schema N P} {rank : Nat → Nat} (hl : Layered sch rank) {i : Nat}
    {s : Shape N P} (hi : sch.At i (.shape s)) (p : Pred P) :
    p ∈ addPreds (sch.predsExtends i) s.extra ↔ ReadFor sch i s p := by
  have hf : sch.find i = some (.shape s) := hi
  have hdepth : ∀ e se, sch.find e = some se → (p ∈ predsOf sch (sch.shapes.length + 1) se ↔
      ∃ m, Within sch e m ∧ p ∈ m.preds) := fun e se h =>
    predsOf_iff hl _ [] e se h List.nodup_nil (by simp) (by simp) p
  have hself : ∀ m, Within sch i m → m = s := by
    intro m hw
    cases hw with
    | shape h' => cases hf.symm.trans h'; rfl
    | ref h' => cases hf.symm.trans h'
    | not h' => cases hf.symm.trans h'
    | or h' => cases hf.symm.trans h'
    | and h' => cases hf.symm.trans h'
  rw [mem_addPreds]
  simp only [Schema.predsExtends, hf, List.mem_append, List.mem_flatMap, parents_iff, ReadFor]
  have h1 : p ∈ predsOf sch (sch.shapes.length + 1) (.shape s) ↔ p ∈ s.preds := by simp [predsOf]
  rw [h1]
  constructor
  · rintro ((h | ⟨e, ⟨_, he⟩, h⟩) | h)
    · exact .inl h
    · cases hfe : sch.find e with
      | none => rw [hfe] at h; simp at h
      | some se =>
        rw [hfe] at h
        obtain ⟨m, hw, hm⟩ := (hdepth e se hfe).1 h
        exact .inr (.inr ⟨e, m, he, hw, hm⟩)
    · exact .inr (.inl h)
  · rintro (h | h | ⟨e, m, he, hw, hm⟩)
    · exact .inl (.inl h)
    · exact .inr h
    · by_cases hei : e = i
      · subst hei
        rw [hself m hw] at hm
        exact .inl (.inl hm)
      · refine .inl (.inr ⟨e, ⟨hei, he⟩, ?_⟩)
        cases hfe : sch.find e with
        | none =>
          cases hw with
          | shape h' => cases hfe.symm.trans h'
          | ref h' => cases hfe.symm.trans h'
          | not h' => cases hfe.symm.trans h'
          | or h' => cases hfe.symm.trans h'
          | and h' => cases hfe.symm.trans h'
        | some se => exact (hdepth e se hfe).2 ⟨m, hw, hm⟩

omit [DecidableEq N] [DecidableEq P] in
/-- Only expressions of stored shapes are collected. -/
theorem collectExprs_stored {sch : Schema N P} (n i : Nat) (vis : List Nat) :
    ∀ t ∈ (collectExprs sch n i vis).1, ∃ k m, sch.At k (.shape m) ∧ t = m.expr := by
  induction n generalizing i vis with
  | zero => simp [collectExprs]
  | succ n ih =>
    have hov : ∀ es vis, ∀ t ∈ (collectOver (collectExprs sch n) es vis).1,
        ∃ k m, sch.At k (.shape m) ∧ t = m.expr := fun es vis =>
      collectOver_sound _ (fun t => ∃ k m, sch.At k (.shape m) ∧ t = m.expr) es
        (fun e _ vis => ih e vis) vis
    intro t ht
    unfold collectExprs at ht
    split at ht
    · simp at ht
    · split at ht
      · rename_i s hf
        rcases List.mem_cons.1 ht with rfl | ht
        · exact ⟨i, s, hf, rfl⟩
        · exact hov _ _ t ht
      · exact hov _ _ t ht
      · exact ih _ _ t ht
      · simp at ht

omit [DecidableEq N] [DecidableEq P] in
/-- The main shape of a parent is stored below it. -/
theorem mainShapeOf_at {sch : Schema N P} {rank : Nat → Nat} (hg : Grounded sch rank) {a : Nat}
    {m : Shape N P} (h : MainShapeOf sch a m) : ∃ k, sch.At k (.shape m) ∧ rank k ≤ rank a := by
  obtain ⟨ses, conds, rest, ⟨k, hk, hc⟩, hd⟩ := h
  have hr : rank k ≤ rank a := by
    rw [(target_iff hg a k).1 hk]
    exact (deref_spec hg (fun _ => True) (fun _ _ _ => Iff.rfl) a).2.2
  have hm : ShapeExpr.shape m ∈ ses := by
    rcases hd.2 with ⟨h, _⟩ | ⟨pre, m', post, h0, _, h1, _⟩
    · cases h
    · cases h1
      rw [h0]
      simp
  rcases hc with ⟨s, hs, rfl⟩ | ⟨es, hs, rfl⟩
  · rw [List.mem_singleton] at hm
    cases hm
    exact ⟨k, hs, hr⟩
  · obtain ⟨e, he, hf⟩ := List.mem_filterMap.1 hm
    exact ⟨e, hf, Nat.le_of_lt (Nat.lt_of_lt_of_le (hg.and k es hs e he) hr)⟩

omit [DecidableEq N] [DecidableEq P] in
theorem mainAncestor_rank {sch : Schema N P} {rank : Nat → Nat} (hg : Grounded sch rank) {a d : Nat}
    {m : Shape N P} (h : MainShapeOf sch a m) (hd : MainAncestor sch m d) : rank d < rank a := by
  have hstep : ∀ x m, MainShapeOf sch x m → ∀ e ∈ m.extends, rank e < rank x := by
    intro x m hx e he
    obtain ⟨k, hk, hr⟩ := mainShapeOf_at hg hx
    exact Nat.lt_of_lt_of_le (hg.shape k m hk e he) hr
  obtain ⟨e, he, hr⟩ := hd
  have h0 := hstep a m h e he
  induction hr with
  | refl => exact h0
  | tail _ h1 ih =>
    obtain ⟨ses, c, m', r, g1, g2, g3⟩ := h1
    exact Nat.lt_trans (hstep _ m' ⟨ses, c, r, g1, g2⟩ _ g3) ih

/-! ## The path for single alternatives -/

theorem checkMainShape_found {E : Env N P} {node : N} {T : N × Nat → Bool} {n : Nat} {child : Shape N P}
    {i : Nat} (h : E.checkMainShape node T n child i = true) :
    E.schema.mainShape i ≠ none ∧
      ∀ j ∈ E.schema.mainExtends i, ∃ n child, E.checkMainShape node T n child j = true := by
  cases n with
  | zero => cases h
  | succ n =>
    simp only [Env.checkMainShape] at h
    unfold Schema.mainExtends
    cases hm : E.schema.mainShape i with
    | none => rw [hm] at h; cases h
    | some r =>
      obtain ⟨ncs, main, rest⟩ := r
      rw [hm] at h
      refine ⟨by simp, ?_⟩
      cases main with
      | none => simp
      | some m =>
        simp only [Bool.and_eq_true, List.all_eq_true] at h
        exact fun j hj => ⟨n, m, h.1.1.2 j hj⟩

theorem checkSingle_meets {E : Env N P} (he : Enumerates E.enum) (hsh : E.Shuffles) {S : Search N P}
    (hS : S.Fair) {rank : Nat → Nat} (hl : Layered E.schema rank)
    (hk : (E.schema.shapes.map Prod.fst).Nodup)
    (hp : ∀ i s, E.schema.At i (.shape s) → Plain s.expr) {i : Nat} {s : Shape N P}
    (hi : E.schema.At i (.shape s)) (node : N) (T : N × Nat → Bool)
    (h : E.checkSingle S node i s T = true) :
    LineMeets E (fun x => T x = true) node i s := by
  have hg := hl.grounded
  have hanc := fun d => closure_mainAncestor hg hk s d
  unfold Env.checkSingle at h
  simp only at h
  split at h
  · cases h
  rename_i hclosed
  split at h
  · cases h
  rename_i abuckets splits hab
  split at h
  · cases h
  rename_i hmain
  split at h
  · cases h
  obtain ⟨h1, h2, h3, h4⟩ := ancestorBuckets_spec hg node _ _ _ hab
  have hlab : (((none, [s.expr]) :: abuckets).map Prod.fst).Nodup := by
    rw [List.map_cons, List.nodup_cons]
    refine ⟨fun hmem => ?_, ?_⟩
    · have := h2.subset hmem
      simp at this
    · exact h2.nodup ((dfs_nodup _ _ _ _ List.nodup_nil).map (Option.some_injective _))
  have hb : ∀ l ts, (l, ts) ∈ (none, [s.expr]) :: abuckets ↔
      ∃ b, InLine E.schema s l b ∧ ts = [b.expr] := by
    intro l ts
    rw [List.mem_cons, h1]
    constructor
    · rintro (h | ⟨a, ha, ses, c, m, r, rfl, hc, hd, rfl⟩)
      · cases h
        exact ⟨s, .inl ⟨rfl, rfl⟩, rfl⟩
      · exact ⟨m, .inr ⟨a, rfl, (hanc a).1 ha, ses, c, r, hc, hd⟩, rfl⟩
    · rintro ⟨b, ⟨rfl, rfl⟩ | ⟨a, rfl, ha, ses, c, r, hc, hd⟩, rfl⟩
      · exact .inl rfl
      · exact .inr ⟨a, (hanc a).2 ha, ses, c, b, r, rfl, hc, hd, rfl⟩
  have hmade : ∀ l b, InLine E.schema s l b → Plain b.expr := by
    rintro l b (⟨_, rfl⟩ | ⟨a, _, _, hm⟩)
    · exact hp i b hi
    · obtain ⟨k, hk, _⟩ := mainShapeOf_at hg hm
      exact hp k b hk
  have hshared := (search_iff hS he hlab (by
      rintro ⟨l, ts⟩ hbm t ht
      obtain ⟨b, hlb, rfl⟩ := (hb l ts).1 hbm
      rw [List.mem_singleton] at ht
      rw [ht]
      exact hmade l b hlb) (by
      intro sp hsp
      obtain ⟨a, _, ses, conds, main, rest, hc, hd, hcol⟩ := h4 sp hsp
      exact collected_plain hg hp hcol fun se hse => (divided_rest hg hc hd se hse).imp fun _ h => h.1)
    _ T).1 h
  refine ⟨fun hc p v hv => ?_, _, _, splits, hlab, hb, ?_, ?_, ?_, ?_, hshared⟩
  · by_contra hno
    apply hclosed
    have hmem := (mem_remainder E.graph node (addPreds (E.schema.predsExtends i) s.extra) p).2
      ⟨v, hv, fun hm => hno ((readFor_iff hl hi _).1 hm)⟩
    rw [hc, Bool.true_and, Bool.not_eq_true', List.isEmpty_eq_false_iff]
    exact List.ne_nil_of_mem hmem
  · refine List.Nodup.filter _ ?_
    refine List.Nodup.map ?_ ((hsh _).nodup_iff.2 (nodup_arcs _ _ _))
    rintro ⟨a, b⟩ ⟨a', b'⟩ h
    simp only [Prod.mk.injEq] at h ⊢
    exact ⟨h.1, h.2.1⟩
  · rintro ⟨p, v, ctx⟩ hx
    obtain ⟨hx, _⟩ := List.mem_filter.1 hx
    obtain ⟨⟨q, o⟩, hmem, heq⟩ := List.mem_map.1 hx
    simp only [Prod.mk.injEq] at heq
    obtain ⟨rfl, rfl, rfl⟩ := heq
    rw [mem_neighs hsh, readFor_iff hl hi] at hmem
    exact ⟨rfl, hmem⟩
  · intro p v hv hr hcount
    refine List.mem_filter.2 ⟨List.mem_map.2 ⟨(p, v), (mem_neighs hsh _ _ _ _).2
      ⟨hv, (readFor_iff hl hi p).2 hr⟩, rfl⟩, ?_⟩
    rw [Bool.or_eq_true]
    rcases hcount with ⟨l, b, hlb, hmm⟩ | ⟨hex, hno⟩
    · left
      unfold matchesSomeBucket
      rw [List.any_eq_true]
      exact ⟨(l, [b.expr]), (hb _ _).2 ⟨b, hlb, rfl⟩, by
        simpa using (matchesAnyLeaf_iff (hmade l b hlb).made node p v).2 hmm⟩
    · right
      rw [Bool.and_eq_true]
      refine ⟨by simpa using hex, ?_⟩
      rw [Bool.not_eq_true', List.any_eq_false]
      intro t ht hany
      have hst : ∃ k m, E.schema.At k (.shape m) ∧ t = m.expr := by
        rcases List.mem_append.1 ht with ht | ht
        · exact collectOver_sound _ (fun t => ∃ k m, E.schema.At k (.shape m) ∧ t = m.expr) _
            (fun e _ vis => collectExprs_stored _ e vis) _ t ht
        · rw [List.mem_singleton] at ht
          exact ⟨i, s, hi, ht⟩
      obtain ⟨k, m, hkm, rfl⟩ := hst
      rw [List.any_eq_true] at hany
      obtain ⟨⟨q, cond⟩, hmem, hc⟩ := hany
      simp only [Bool.and_eq_true, decide_eq_true_eq] at hc
      obtain ⟨rfl, hc⟩ := hc
      exact hno k m cond hkm ((mem_components (hp k m hkm).made _ _).1 hmem)
        ((matches_isSome _ _ _).1 hc)
  · intro a ha
    have hfound : E.schema.mainShape a ≠ none := by
      obtain ⟨e, hee, hreach⟩ := ha
      rw [Bool.not_eq_true', Bool.not_eq_false, List.all_eq_true] at hmain
      have : ∃ n child, E.checkMainShape node T n child a = true := by
        induction hreach with
        | refl => exact ⟨_, _, hmain e hee⟩
        | tail _ hstep ih =>
          obtain ⟨n, child, hc⟩ := ih
          exact (checkMainShape_found hc).2 _ ((mainExtends_iff hg _ _).2 hstep)
      obtain ⟨n, child, hc⟩ := this
      exact (checkMainShape_found hc).1
    cases hm : E.schema.mainShape a with
    | none => exact absurd hm hfound
    | some r =>
      obtain ⟨conds, main, rest⟩ := r
      obtain ⟨ses, hc, hd⟩ := (mainShape_iff hg a conds main rest).1 hm
      obtain ⟨g1, ts, g2, g3⟩ := h3 a ((hanc a).2 ha) ses conds main rest hc hd
      refine ⟨ses, conds, main, rest, hc, hd, g1, ts, _, g2, ?_, ?_, g3⟩
      · cases main with
        | none => simp
        | some m =>
          simp only [Option.toList_some, List.flatMap_cons, List.flatMap_nil, List.append_nil]
          refine List.nodup_cons.2 ⟨fun hmem => ?_, dfs_nodup _ _ _ _ List.nodup_nil⟩
          exact Nat.lt_irrefl _ (mainAncestor_rank hg ⟨ses, conds, rest, hc, hd⟩
            ((closure_mainAncestor hg hk m a).1 hmem))
      · intro d
        cases main with
        | none => simp
        | some m => simp [closure_mainAncestor hg hk m d]

end Shex
