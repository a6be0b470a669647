import Verif.Comp.Spec
import Verif.Rbe.LemmasTable

/-!
# Helper lemmas: results, the schema under construction, and indices with their owners
-/

namespace Comp
open Shex Rbe

variable {N P NC : Type}

theorem Res.bind_eq_ok {α β : Type} {x : Res α} {f : α → Res β} {b : β} :
    x.bind f = .ok b ↔ ∃ a, x = .ok a ∧ f a = .ok b := by
  cases x with
  | ok a => simp [Res.bind]
  | err => simp [Res.bind]
  | more => simp [Res.bind]

theorem Res.of_eq_ok {α : Type} {x : Option α} {a : α} : Res.of x = .ok a ↔ x = some a := by
  cases x <;> simp [Res.of]

theorem mapRes_eq_ok {α β : Type} {f : α → Res β} {as : List α} {bs : List β} :
    mapRes f as = .ok bs ↔ List.Forall₂ (fun a b => f a = .ok b) as bs := by
  induction as generalizing bs with
  | nil =>
    simp only [mapRes, Res.ok.injEq]
    constructor
    · rintro rfl; exact .nil
    · intro h; cases h; rfl
  | cons a as ih =>
    simp only [mapRes, Res.bind_eq_ok]
    constructor
    · rintro ⟨b, hb, bs', hbs, h⟩
      cases h
      exact .cons hb (ih.1 hbs)
    · intro h
      cases h with
      | cons hb hbs => exact ⟨_, hb, _, ih.2 hbs, rfl⟩

/-! ## State -/

/-- The indices in use are those below the counter, each once. -/
def St.Keys (st : St N P) : Prop := st.shapes.map Prod.fst = List.range st.counter

theorem alookup_isSome_iff {X Y : Type} [DecidableEq X] (x : X) (l : List (X × Y)) :
    (alookup x l).isSome = true ↔ x ∈ l.map Prod.fst := by
  induction l with
  | nil => simp [alookup]
  | cons e l ih =>
    obtain ⟨y, v⟩ := e
    simp only [alookup]
    by_cases h : y = x
    · simp [h]
    · simp only [if_neg h, ih, List.map_cons, List.mem_cons]
      constructor
      · exact Or.inr
      · rintro (rfl | h')
        · exact (h rfl).elim
        · exact h'

theorem St.Keys.find_isSome {st : St N P} (h : st.Keys) (i : Nat) :
    (st.find i).isSome = true ↔ i < st.counter := by
  rw [St.find, alookup_isSome_iff, h, List.mem_range]

theorem upsert_new {X Y : Type} [DecidableEq X] (x : X) (d : Y) (f : Y → Y) (l : List (X × Y))
    (h : x ∉ l.map Prod.fst) : upsert x d f l = l ++ [(x, f d)] := by
  induction l with
  | nil => rfl
  | cons e l ih =>
    obtain ⟨y, v⟩ := e
    simp only [List.map_cons, List.mem_cons, not_or] at h
    have : ¬ y = x := fun h' => h.1 h'.symm
    simp [upsert, this, ih h.2]

theorem St.keys_init : (St.init : St N P).Keys := rfl

theorem St.Keys.newIndex {st : St N P} (h : st.Keys) : st.newIndex.2.Keys := by
  unfold St.Keys at *
  have hn : st.counter ∉ st.shapes.map Prod.fst := by rw [h]; simp
  simp only [St.newIndex, upsert_new _ _ _ _ hn, List.map_append, h, List.range_succ]
  rfl

theorem St.Keys.replace {st : St N P} (h : st.Keys) (i : Nat) (se : ShapeExpr N P) :
    (st.replace i se).Keys := by
  unfold St.Keys at *
  simp only [St.replace, List.map_map]
  rw [← h]
  apply List.map_congr_left
  intro x _
  simp only [Function.comp]
  split <;> rfl

theorem St.find_newIndex (st : St N P) (i : Nat) :
    st.newIndex.2.find i = if i = st.counter then some .empty else st.find i := by
  simp only [St.find, St.newIndex, alookup_upsert]

theorem alookup_replace {Y : Type} (l : List (Nat × Y)) (i k : Nat) (y : Y) :
    alookup k (l.map fun x => if x.1 = i then (x.1, y) else x) =
      if k = i then (alookup k l).map (fun _ => y) else alookup k l := by
  induction l with
  | nil => simp [alookup]
  | cons e l ih =>
    obtain ⟨z, v⟩ := e
    simp only [List.map_cons, alookup]
    by_cases hz : z = i
    · subst hz
      simp only [if_true]
      by_cases hk : z = k
      · subst hk; simp
      · have : ¬ k = z := fun h => hk h.symm
        simp [hk, this, ih]
    · simp only [if_neg hz]
      by_cases hk : z = k
      · subst hk; simp [hz]
      · simp [hk, ih]

theorem St.find_replace (st : St N P) (i k : Nat) (se : ShapeExpr N P) :
    (st.replace i se).find k = if k = i then (st.find k).map (fun _ => se) else st.find k := by
  simp only [St.find, St.replace, alookup_replace]

section
variable [DecidableEq P]

theorem St.Keys.addShape {st : St N P} (h : st.Keys) (l : SLabel P) : (st.addShape l).2.Keys := by
  unfold St.Keys at *
  have hn : st.counter ∉ st.shapes.map Prod.fst := by rw [h]; simp
  simp only [St.addShape, upsert_new _ _ _ _ hn, List.map_append, h, List.range_succ]
  rfl

theorem St.find_addShape (st : St N P) (l : SLabel P) (i : Nat) :
    (st.addShape l).2.find i = if i = st.counter then some .empty else st.find i := by
  simp only [St.find, St.addShape, alookup_upsert]

theorem St.idx_addShape (st : St N P) (l k : SLabel P) :
    (st.addShape l).2.idx k = if k = l then some st.counter else st.idx k := by
  simp only [St.idx, St.addShape, alookup_upsert]

theorem St.name_addShape (st : St N P) (l : SLabel P) (i : Nat) :
    (st.addShape l).2.name i = if i = st.counter then some l else st.name i := by
  simp only [St.name, St.addShape, alookup_upsert]

end

/-! ## Names -/

theorem toLabel_eq_ok {l : Label P} {s : SLabel P} : toLabel l = .ok s ↔ l.Names s := by
  cases l with
  | ref r => cases r <;> cases s <;> simp [toLabel, Label.Names]
  | bnode b => cases s <;> simp [toLabel, Label.Names]
  | start => cases s <;> simp [toLabel, Label.Names]

theorem cnvIri_eq_ok {G : Ctxt N P NC} {r : IRef P} {i : P} :
    cnvIri G r = .ok i ↔ r.Means G.expand i := by
  cases r with
  | iri j => simp [cnvIri, IRef.Means]
  | prefixed a l => simp [cnvIri, IRef.Means, Res.of_eq_ok]

theorem cnvAct_eq_ok {G : Ctxt N P NC} {a : Act P} {x : P × Option String} :
    cnvAct G a = .ok x ↔ a.name.Means G.expand x.1 ∧ x.2 = a.code := by
  obtain ⟨i, c⟩ := x
  simp only [cnvAct, Res.bind_eq_ok, cnvIri_eq_ok, Res.ok.injEq, Prod.mk.injEq]
  constructor
  · rintro ⟨j, hj, rfl, rfl⟩; exact ⟨hj, rfl⟩
  · rintro ⟨hj, rfl⟩; exact ⟨i, hj, rfl, rfl⟩

theorem cnvExtra_eq_ok {G : Ctxt N P NC} {ex : List (IRef P)} {ps : List (Pred P)} :
    cnvExtra G ex = .ok ps ↔ ∃ is, List.Forall₂ (IRef.Means G.expand) ex is ∧
      ps = is.map fun i => ⟨i, true⟩ := by
  simp only [cnvExtra, mapRes_eq_ok, Res.bind_eq_ok, cnvIri_eq_ok, Res.ok.injEq]
  constructor
  · intro h
    induction h with
    | nil => exact ⟨[], .nil, rfl⟩
    | cons h _ ih =>
      obtain ⟨i, hi, rfl⟩ := h
      obtain ⟨is, his, rfl⟩ := ih
      exact ⟨i :: is, .cons hi his, rfl⟩
  · rintro ⟨is, h, rfl⟩
    induction h with
    | nil => exact .nil
    | cons h _ ih => exact .cons ⟨_, h, rfl⟩ ih

theorem cnvPredicate_eq_ok {r : IRef P} {iv : Option Bool} {p : Pred P} :
    cnvPredicate r iv = .ok p ↔ r = .iri p.iri ∧ p.direct = !(iv.getD false) := by
  obtain ⟨i, d⟩ := p
  cases r with
  | iri j =>
    cases iv with
    | none => simp [cnvPredicate, eq_comm]
    | some b => simp [cnvPredicate, eq_comm]
  | prefixed a l => simp [cnvPredicate]

theorem cnvMin_eq_ok {m : Option Int} {k : Nat} : cnvMin m = .ok k ↔ m.getD 1 = k := by
  cases m with
  | none => simp [cnvMin]; omega
  | some m =>
    simp only [cnvMin, Option.getD_some]
    split
    · simp; omega
    · simp; omega

theorem cnvMax_eq_ok {m : Option Int} {k : Mx} : cnvMax m = .ok k ↔
    match k with
    | .unbounded => m = some (-1)
    | .intMax j => m.getD 1 = j := by
  cases m with
  | none => cases k <;> simp [cnvMax]; omega
  | some m =>
    simp only [cnvMax]
    split
    · subst m; cases k <;> simp
    · split
      · cases k <;> simp <;> omega
      · cases k <;> simp <;> omega

theorem cnvMinMax_eq_ok {mn mx : Option Int} {c : Card} : cnvMinMax mn mx = .ok c ↔ CardOf mn mx c := by
  obtain ⟨a, b⟩ := c
  simp only [cnvMinMax, Res.bind_eq_ok, cnvMin_eq_ok, cnvMax_eq_ok, Res.ok.injEq, CardOf, Card.mk.injEq]
  constructor
  · rintro ⟨a', h1, b', h2, rfl, rfl⟩; exact ⟨h1, h2⟩
  · rintro ⟨h1, h2⟩; exact ⟨a, h1, b, h2, rfl, rfl⟩

theorem actConds_eq_ok {G : Ctxt N P NC} {acts : List (Act P)} {cs : List (VCond N P)} :
    actConds G acts = .ok cs ↔ ∃ fs, List.Forall₂ (Act.Runs G) acts fs ∧ cs = fs.map actCond := by
  simp only [actConds, Res.bind_eq_ok, mapRes_eq_ok]
  constructor
  · rintro ⟨as, h1, h2⟩
    induction h1 generalizing cs with
    | nil => cases h2; exact ⟨[], .nil, rfl⟩
    | @cons a x _ _ h _ ih =>
      cases h2 with
      | cons h' h2' =>
        obtain ⟨fs, hfs, rfl⟩ := ih h2'
        obtain ⟨i, code⟩ := x
        rw [cnvAct_eq_ok] at h
        dsimp only at h h'
        split at h'
        · rename_i hr
          cases h'
          obtain ⟨hm, rfl⟩ := h
          exact ⟨_ :: fs, .cons ⟨i, hm, hr, rfl⟩ hfs, rfl⟩
        · cases h'
  · rintro ⟨fs, h, rfl⟩
    induction h with
    | nil => exact ⟨[], .nil, .nil⟩
    | @cons a _ _ _ h _ ih =>
      obtain ⟨as, h1, h2⟩ := ih
      obtain ⟨i, hm, hr, rfl⟩ := h
      refine ⟨(i, a.code) :: as, .cons (cnvAct_eq_ok.2 ⟨hm, rfl⟩) h1, ?_⟩
      rw [List.map_cons]
      exact .cons (by simp [hr]) h2

/-! ## Owners -/

/-- The condition of a value. -/
def ValRep (idx : SLabel P → Option Nat) (own : Nat → Option (Core N P)) (v : Core N P)
    (cond : VCond N P) : Prop :=
  match v with
  | .ref l => ∃ j, idx l = some j ∧ cond = .ref j
  | .test ok => cond = testCond ok
  | d => ∃ j, cond = .ref j ∧ own j = some d

/-- The condition of a constraint. -/
def CondRep (idx : SLabel P → Option Nat) (own : Nat → Option (Core N P))
    (x : Pred P × List (Ctx N P → Bool) × Core N P) (cond : VCond N P) : Prop :=
  ∃ c0, ValRep idx own x.2.2 c0 ∧ cond = withActs (x.2.1.map actCond) c0

/-- `mk_card_group` on expressions. -/
def groupE (e : Expr Nat) (c : Card) : Expr Nat :=
  if c.is11 then e
  else if c.min = 0 ∧ c.max = .unbounded then .star e
  else if c.min = 1 ∧ c.max = .unbounded then .plus e
  else .repeat e c

mutual
/-- The expression with its constraints numbered from `a`. -/
def CTE.rbe : CTE N P → Nat → Expr Nat
  | .nothing, _ => .empty
  | .eachOf es c, a => groupE (.and (rbes es a)) c
  | .oneOf es c, a => groupE (.or (rbes es a)) c
  | .tc _ _ _ c, a => .symbol a c
  | .incl e, a => e.rbe a
/-- One by one. -/
def rbes : List (CTE N P) → Nat → List (Expr Nat)
  | [], _ => []
  | e :: es, a => e.rbe a :: rbes es (a + e.constraints.length)
end

/-- Add the components in order. -/
def addAll [DecidableEq P] (t : TExpr N P) (l : List (Pred P × VCond N P)) : TExpr N P :=
  l.foldl (fun t x => t.addComponent x.1 x.2) t

/-- The shape represents the core shape. -/
structure ShapeRep [DecidableEq P] (idx : SLabel P → Option Nat) (own : Nat → Option (Core N P))
    (closed : Bool) (extra : List P) (e : CTE N P) (exts : List (SLabel P)) (s : Shape N P) : Prop where
  closed : s.closed = closed
  extra : s.extra = extra.map fun i => ⟨i, true⟩
  preds : s.preds = e.constraints.map Prod.fst
  exts : List.Forall₂ (fun l j => idx l = some j) exts s.extends
  table : ∃ conds r, List.Forall₂ (CondRep idx own) e.constraints conds ∧ Built r ∧ r.rbe = e.rbe 0 ∧
    s.expr = (addAll Table.new ((e.constraints.map Prod.fst).zip conds)).withRbe r

/-- The stored expression represents the core expression, whose parts own the indices named. -/
def Loc [DecidableEq P] (idx : SLabel P → Option Nat) (own : Nat → Option (Core N P)) :
    Core N P → ShapeExpr N P → Prop
  | .ref l, r => ∃ j, idx l = some j ∧ r = .ref j
  | .or cs, r => ∃ is, r = .or is ∧ List.Forall₂ (fun c j => own j = some c) cs is
  | .and cs, r => ∃ is, r = .and is ∧ List.Forall₂ (fun c j => own j = some c) cs is
  | .not c, r => ∃ j, r = .not j ∧ own j = some c
  | .shape cl ex e xs, r => ∃ s, r = .shape s ∧ ShapeRep idx own cl ex e xs s
  | .test ok, r => r = .nodeConstraint (testCond ok)
  | .external, r => r = .external

/-- More indices are owned. -/
def OwnLe (own own' : Nat → Option (Core N P)) : Prop := ∀ j d, own j = some d → own' j = some d

theorem ValRep.mono {idx : SLabel P → Option Nat} {own own' : Nat → Option (Core N P)}
    (h : OwnLe own own') {v : Core N P} {cond : VCond N P} (hv : ValRep idx own v cond) :
    ValRep idx own' v cond := by
  cases v with
  | ref l => exact hv
  | test ok => exact hv
  | or cs => obtain ⟨j, h1, h2⟩ := hv; exact ⟨j, h1, h _ _ h2⟩
  | and cs => obtain ⟨j, h1, h2⟩ := hv; exact ⟨j, h1, h _ _ h2⟩
  | not c => obtain ⟨j, h1, h2⟩ := hv; exact ⟨j, h1, h _ _ h2⟩
  | shape cl ex e xs => obtain ⟨j, h1, h2⟩ := hv; exact ⟨j, h1, h _ _ h2⟩
  | external => obtain ⟨j, h1, h2⟩ := hv; exact ⟨j, h1, h _ _ h2⟩

theorem CondRep.mono {idx : SLabel P → Option Nat} {own own' : Nat → Option (Core N P)}
    (h : OwnLe own own') {x : Pred P × List (Ctx N P → Bool) × Core N P} {cond : VCond N P}
    (hv : CondRep idx own x cond) : CondRep idx own' x cond := by
  obtain ⟨c0, h1, h2⟩ := hv
  exact ⟨c0, h1.mono h, h2⟩

section
variable [DecidableEq P]

theorem Loc.mono {idx : SLabel P → Option Nat} {own own' : Nat → Option (Core N P)}
    (h : OwnLe own own') {c : Core N P} {r : ShapeExpr N P} (hl : Loc idx own c r) :
    Loc idx own' c r := by
  cases c with
  | ref l => exact hl
  | or cs =>
    obtain ⟨is, h1, h2⟩ := hl
    exact ⟨is, h1, h2.imp fun _ _ => h _ _⟩
  | and cs =>
    obtain ⟨is, h1, h2⟩ := hl
    exact ⟨is, h1, h2.imp fun _ _ => h _ _⟩
  | not c =>
    obtain ⟨j, h1, h2⟩ := hl
    exact ⟨j, h1, h _ _ h2⟩
  | shape cl ex e xs =>
    obtain ⟨s, h1, h2⟩ := hl
    obtain ⟨conds, r, h3, h4⟩ := h2.table
    exact ⟨s, h1, h2.closed, h2.extra, h2.preds, h2.exts, conds, r, h3.imp fun _ _ => .mono h, h4⟩
  | test ok => exact hl
  | external => exact hl

/-- The index is owned by an expression which the stored one represents. -/
def Cons (st : St N P) (own : Nat → Option (Core N P)) (j : Nat) : Prop :=
  ∃ d r, own j = some d ∧ st.find j = some r ∧ Loc st.idx own d r

/-- From one state to a later one: old indices keep their expressions, but for those in `X`; every new
index is owned, by an expression in `Q`. -/
structure Grow (Q : Core N P → Prop) (X : Nat → Prop) (st st' : St N P) (own own' : Nat → Option (Core N P)) : Prop where
  labels : st'.labels = st.labels
  names : st'.names = st.names
  abstr : st'.abstr = st.abstr
  keys : st'.Keys
  counter : st.counter ≤ st'.counter
  find : ∀ i, i < st.counter → ¬ X i → st'.find i = st.find i
  old : ∀ j, j < st.counter → own' j = own j
  fresh : ∀ j, st'.counter ≤ j → own' j = none
  cons : ∀ j, st.counter ≤ j → j < st'.counter → Cons st' own' j
  sub : ∀ j d, st.counter ≤ j → own' j = some d → Q d

/-- Indices not yet in use have no owner. -/
structure Ready (st : St N P) (own : Nat → Option (Core N P)) : Prop where
  keys : st.Keys
  fresh : ∀ j, st.counter ≤ j → own j = none

variable {Q : Core N P → Prop} {X : Nat → Prop} {st st' st'' : St N P} {own own' own'' : Nat → Option (Core N P)}

theorem Grow.refl (h : Ready st own) : Grow Q X st st own own :=
  ⟨rfl, rfl, rfl, h.keys, le_refl _, fun _ _ _ => rfl, fun _ _ => rfl, h.fresh,
    fun j h1 h2 => absurd h2 (by omega), fun j d h1 h2 => by rw [h.fresh j h1] at h2; cases h2⟩

theorem Grow.ready (h : Grow Q X st st' own own') : Ready st' own' := ⟨h.keys, h.fresh⟩

theorem Grow.idx (h : Grow Q X st st' own own') : st'.idx = st.idx := by
  funext l; simp only [St.idx, h.labels]

theorem Grow.name (h : Grow Q X st st' own own') : st'.name = st.name := by
  funext l; simp only [St.name, h.names]

theorem Grow.own_le (hr : Ready st own) (h : Grow Q X st st' own own') : OwnLe own own' := by
  intro j d hj
  by_cases hlt : j < st.counter
  · rw [h.old j hlt]; exact hj
  · rw [hr.fresh j (by omega)] at hj; cases hj

theorem Grow.trans (hX : ∀ i, X i → i < st.counter) (h1 : Grow Q X st st' own own')
    (h2 : Grow Q X st' st'' own' own'') : Grow Q X st st'' own own'' := by
  refine ⟨h2.labels.trans h1.labels, h2.names.trans h1.names, h2.abstr.trans h1.abstr, h2.keys,
    le_trans h1.counter h2.counter, ?_, ?_, h2.fresh, ?_, ?_⟩
  · intro i hi hx
    rw [h2.find i (lt_of_lt_of_le hi h1.counter) hx, h1.find i hi hx]
  · intro j hj
    rw [h2.old j (lt_of_lt_of_le hj h1.counter), h1.old j hj]
  · intro j h3 h4
    by_cases hj : j < st'.counter
    · obtain ⟨d, r, ho, hf, hl⟩ := h1.cons j h3 hj
      refine ⟨d, r, ?_, ?_, ?_⟩
      · rw [h2.old j hj]; exact ho
      · rw [h2.find j hj (fun hx => absurd (hX j hx) (by omega))]; exact hf
      · rw [h2.idx]; exact hl.mono (h2.own_le h1.ready)
    · exact h2.cons j (by omega) h4
  · intro j d h3 h4
    by_cases hj : j < st'.counter
    · rw [h2.old j hj] at h4; exact h1.sub j d h3 h4
    · exact h2.sub j d (by omega) h4

theorem Grow.weaken {Q' : Core N P → Prop} {Y : Nat → Prop} (hQ : ∀ d, Q d → Q' d)
    (hXY : ∀ i, X i → Y i) (h : Grow Q X st st' own own') : Grow Q' Y st st' own own' :=
  { h with
    find := fun i hi hy => h.find i hi fun hx => hy (hXY i hx)
    sub := fun j d h1 h2 => hQ d (h.sub j d h1 h2) }

/-- Writing at an old index. -/
theorem Grow.replace (h : Grow Q X st st' own own') (i : Nat) (hi : i < st.counter) (hX : X i)
    (se : ShapeExpr N P) : Grow Q X st (st'.replace i se) own own' := by
  refine ⟨h.labels, h.names, h.abstr, h.keys.replace i se, h.counter, ?_, h.old, h.fresh, ?_, h.sub⟩
  · intro k hk hx
    rw [St.find_replace, if_neg (fun he : k = i => hx (by rw [he]; exact hX))]
    exact h.find k hk hx
  · intro j h1 h2
    obtain ⟨d, r, ho, hf, hl⟩ := h.cons j h1 h2
    refine ⟨d, r, ho, ?_, hl⟩
    rw [St.find_replace, if_neg (by omega)]
    exact hf

theorem Ready.newIndex (h : Ready st own) : Ready st.newIndex.2 own :=
  ⟨h.keys.newIndex, fun j hj => h.fresh j (by simp only [St.newIndex] at hj; omega)⟩

theorem Ready.replace (h : Ready st own) (i : Nat) (se : ShapeExpr N P) :
    Ready (st.replace i se) own := ⟨h.keys.replace i se, h.fresh⟩

/-- A new index, work on later indices, and the result written at the index. -/
theorem Grow.alloc (hr : Ready st own)
    (h : Grow Q (fun i => i = st.counter) st.newIndex.2 st' own own') {c : Core N P}
    {r : ShapeExpr N P} (hl : Loc st.idx own' c r) (hc : Q c) :
    Grow Q X st (st'.replace st.counter r) own (Function.update own' st.counter (some c)) := by
  have hlt : st.counter < st'.counter := h.counter
  have hnone : own' st.counter = none := by
    rw [h.old st.counter (by simp [St.newIndex])]
    exact hr.fresh _ (le_refl _)
  have hle : OwnLe own' (Function.update own' st.counter (some c)) := by
    intro j d hj
    by_cases he : j = st.counter
    · subst he; rw [hnone] at hj; cases hj
    · rw [Function.update_of_ne he]; exact hj
  have hidx : st'.idx = st.idx := by
    have := h.idx
    rw [this]; rfl
  refine ⟨h.labels, h.names, h.abstr, h.keys.replace _ _, le_of_lt hlt, ?_, ?_, ?_, ?_, ?_⟩
  · intro i hi _
    rw [St.find_replace, if_neg (by omega),
      h.find i (by simp only [St.newIndex]; omega) (by omega), St.find_newIndex, if_neg (by omega)]
  · intro j hj
    rw [Function.update_of_ne (by omega), h.old j (by simp only [St.newIndex]; omega)]
  · intro j hj
    have hj' : st'.counter ≤ j := hj
    rw [Function.update_of_ne (by omega)]
    exact h.fresh j hj'
  · intro j h1 h2
    have h2' : j < st'.counter := h2
    by_cases he : j = st.counter
    · subst he
      refine ⟨c, r, by simp, ?_, ?_⟩
      · rw [St.find_replace, if_pos rfl]
        have := (h.keys.find_isSome st.counter).2 hlt
        obtain ⟨x, hx⟩ := Option.isSome_iff_exists.1 this
        rw [hx]; rfl
      · show Loc st'.idx _ _ _
        rw [hidx]; exact hl.mono hle
    · obtain ⟨d, r', ho, hf, hl'⟩ := h.cons j (by simp only [St.newIndex]; omega) h2'
      refine ⟨d, r', hle _ _ ho, ?_, ?_⟩
      · rw [St.find_replace, if_neg he]; exact hf
      · exact hl'.mono hle
  · intro j d h1 h2
    by_cases he : j = st.counter
    · subst he
      rw [Function.update_self] at h2
      cases h2; exact hc
    · rw [Function.update_of_ne he] at h2
      exact h.sub j d (by simp only [St.newIndex]; omega) h2

/-- A new index for a given expression. -/
theorem Grow.store (hr : Ready st own) {c : Core N P} {r : ShapeExpr N P} (hl : Loc st.idx own c r)
    (hc : Q c) : Grow Q X st (st.newIndex.2.replace st.counter r) own (Function.update own st.counter (some c)) :=
  Grow.alloc hr (Grow.refl hr.newIndex) hl hc

end

end Comp
