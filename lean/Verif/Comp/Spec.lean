import Verif.Comp.Model
import Verif.Shex.SpecShape

/-!
# Specification: what a schema stands for, and its meaning

A written schema stands for a core schema: names are resolved, cardinalities are given their defaults
and inclusions are written out. The meaning of the core schema is the one of the ShEx literature, over
bags of arcs. Neither mentions indices, tables or components.
-/

namespace Comp
open Shex Rbe

mutual
/-- Shape expressions with names resolved. -/
inductive Core (N P : Type) : Type where
  | ref (l : SLabel P)
  | or (cs : List (Core N P))
  | and (cs : List (Core N P))
  | not (c : Core N P)
  | shape (closed : Bool) (extra : List P) (expr : CTE N P) (exts : List (SLabel P))
  | test (ok : N → Bool)
  | external
/-- Triple expressions with names resolved; `incl` is an inclusion written out, `nothing` the absent
triple expression. -/
inductive CTE (N P : Type) : Type where
  | nothing
  | eachOf (es : List (CTE N P)) (c : Card)
  | oneOf (es : List (CTE N P)) (c : Card)
  | tc (p : Pred P) (acts : List (Ctx N P → Bool)) (v : Core N P) (c : Card)
  | incl (e : CTE N P)
end

variable {N P NC : Type}

/-! ## From the written schema to the core schema -/

/-- The label as written is the label `s`. -/
def Label.Names (l : Label P) (s : SLabel P) : Prop :=
  match s with
  | .iri i => l = .ref (.iri i)
  | .bnode b => l = .bnode b
  | .start => l = .start

/-- The name stands for the IRI. -/
def IRef.Means (expand : String → String → Option P) (r : IRef P) (i : P) : Prop :=
  r = .iri i ∨ ∃ a l, r = .prefixed a l ∧ expand a l = some i

/-- Written cardinality: `1` when absent, `-1` for no upper bound. -/
def CardOf (min max : Option Int) (c : Card) : Prop :=
  min.getD 1 = c.min ∧
    match c.max with
    | .unbounded => max = some (-1)
    | .intMax m => max.getD 1 = m

/-- The action has a name which is registered, and runs `f`. -/
def Act.Runs (G : Ctxt N P NC) (a : Act P) (f : Ctx N P → Bool) : Prop :=
  ∃ i, a.name.Means G.expand i ∧ G.registered i = true ∧ f = G.run i a.code

mutual
/-- The shape expression stands for the core expression; `tes` gives the triple expression of a
label. -/
def Stands (G : Ctxt N P NC) (tes : TLabel P → Option (TE P NC)) : Core N P → SE P NC → Prop
  | .ref l, se => ∃ r, se = .ref r ∧ r.Names l
  | .or cs, se => ∃ es, se = .or es ∧ StandsAll G tes cs es
  | .and cs, se => ∃ es, se = .and es ∧ StandsAll G tes cs es
  | .not c, se => ∃ e, se = .not e ∧ Stands G tes c e
  | .shape closed extra e exts, se => ∃ cl ex te xs acts, se = .shape cl ex te xs acts ∧
      closed = cl.getD false ∧ List.Forall₂ (IRef.Means G.expand) ex extra ∧
      StandsO G tes e te ∧ List.Forall₂ Label.Names xs exts ∧
      ∀ a ∈ acts, ∃ i, a.name.Means G.expand i
  | .test ok, se => ∃ c, se = .nc c ∧ G.nc c = some ok
  | .external, se => se = .external
/-- One by one. -/
def StandsAll (G : Ctxt N P NC) (tes : TLabel P → Option (TE P NC)) :
    List (Core N P) → List (SE P NC) → Prop
  | [], es => es = []
  | c :: cs, es => ∃ e es', es = e :: es' ∧ Stands G tes c e ∧ StandsAll G tes cs es'
/-- The triple expression of a shape, which may be absent. -/
def StandsO (G : Ctxt N P NC) (tes : TLabel P → Option (TE P NC)) : CTE N P → Option (TE P NC) → Prop
  | .nothing, te => te = none
  | .eachOf es c, te => ∃ t, te = some t ∧ ∃ id ts mn mx acts, t = .eachOf id ts mn mx acts ∧
      StandsTs G tes es ts ∧ CardOf mn mx c ∧ ∀ a ∈ acts, ∃ f, a.Runs G f
  | .oneOf es c, te => ∃ t, te = some t ∧ ∃ id ts mn mx acts, t = .oneOf id ts mn mx acts ∧
      StandsTs G tes es ts ∧ CardOf mn mx c
  | .tc p acts v c, te => ∃ t, te = some t ∧ ∃ id ng iv val mn mx as,
      t = .tc id ng iv (.iri p.iri) val mn mx as ∧ p.direct = !(iv.getD false) ∧
      List.Forall₂ (Act.Runs G) as acts ∧ CardOf mn mx c ∧
      ((val = none ∧ v = .test fun _ => true) ∨ ∃ se, val = some se ∧ Stands G tes v se)
  | .incl e, te => ∃ l t, te = some (.ref l) ∧ tes l = some t ∧ StandsO G tes e (some t)
/-- One by one. -/
def StandsTs (G : Ctxt N P NC) (tes : TLabel P → Option (TE P NC)) :
    List (CTE N P) → List (TE P NC) → Prop
  | [], ts => ts = []
  | e :: es, ts => ∃ t ts', ts = t :: ts' ∧ StandsO G tes e (some t) ∧ StandsTs G tes es ts'
end

/-! ## Meaning -/

mutual
/-- The triple constraints of an expression, in order: predicate, actions and value. -/
def CTE.constraints : CTE N P → List (Pred P × List (Ctx N P → Bool) × Core N P)
  | .nothing => []
  | .eachOf es _ => constraintsAll es
  | .oneOf es _ => constraintsAll es
  | .tc p acts v _ => [(p, acts, v)]
  | .incl e => e.constraints
/-- Those of all. -/
def constraintsAll : List (CTE N P) → List (Pred P × List (Ctx N P → Bool) × Core N P)
  | [] => []
  | e :: es => e.constraints ++ constraintsAll es
end

/-- A direct part of an expression: an operand, or the value of a triple constraint. -/
def Child : Core N P → Core N P → Prop
  | d, .or cs => d ∈ cs
  | d, .and cs => d ∈ cs
  | d, .not c => d = c
  | d, .shape _ _ e _ => ∃ p acts, (p, acts, d) ∈ e.constraints
  | _, _ => False

/-- The expression has a constraint for the predicate. -/
def CTE.Mentions (e : CTE N P) (p : Pred P) : Prop := ∃ acts v, (p, acts, v) ∈ e.constraints

/-- The value may match a constraint for the predicate: constraints other than node constraints are
taken to match. -/
def CTE.MayMatch (e : CTE N P) (node : N) (x : Pred P × N) : Prop :=
  ∃ acts v, (x.1, acts, v) ∈ e.constraints ∧
    ∀ ok, v = .test ok → (∀ a ∈ acts, a (node, some x) = true) ∧ ok x.2 = true

/-- The arc is subject to the triple expression of the shape. -/
def BoundArc (g : Graph N P) (extra : List P) (e : CTE N P) (node : N) (x : Pred P × N) : Prop :=
  g.Arc node x.1 x.2 ∧ (e.Mentions x.1 ∨ (x.1.direct = true ∧ x.1.iri ∈ extra)) ∧
    ((x.1.direct = true ∧ x.1.iri ∈ extra) → e.MayMatch node x)

mutual
/-- The node conforms to the expression, given the typing `T` of the labels and the answers `ext` for
external shapes; `l` is the label of the expression, if it has one. Parents are not looked at. -/
def Sat (g : Graph N P) (ext : Option (SLabel P) → N → Prop) (T : N → SLabel P → Prop) :
    Core N P → Option (SLabel P) → N → Prop
  | .ref l, _, n => T n l
  | .or cs, _, n => SatSome g ext T cs n
  | .and cs, _, n => SatAll g ext T cs n
  | .not c, _, n => ¬ Sat g ext T c none n
  | .shape closed extra e _, _, n =>
      (closed = true → ∀ p v, g.Arc n ⟨p, true⟩ v → e.Mentions ⟨p, true⟩ ∨ p ∈ extra) ∧
      ∃ vs : List (Pred P × N), vs.Nodup ∧ (∀ x, x ∈ vs ↔ BoundArc g extra e n x) ∧
        Matches g ext T e n (vs : Multiset (Pred P × N))
  | .test ok, _, n => ok n = true
  | .external, l, n => ext l n
/-- All hold. -/
def SatAll (g : Graph N P) (ext : Option (SLabel P) → N → Prop) (T : N → SLabel P → Prop) :
    List (Core N P) → N → Prop
  | [], _ => True
  | c :: cs, n => Sat g ext T c none n ∧ SatAll g ext T cs n
/-- One holds. -/
def SatSome (g : Graph N P) (ext : Option (SLabel P) → N → Prop) (T : N → SLabel P → Prop) :
    List (Core N P) → N → Prop
  | [], _ => False
  | c :: cs, n => Sat g ext T c none n ∨ SatSome g ext T cs n
/-- The bag of arcs of the node matches the triple expression. -/
def Matches (g : Graph N P) (ext : Option (SLabel P) → N → Prop) (T : N → SLabel P → Prop) :
    CTE N P → N → Multiset (Pred P × N) → Prop
  | .nothing, _, s => s = 0
  | .eachOf es c, n, s => ∃ k, c.Holds k ∧ SumOf (fun t => MatchesAll g ext T es n t) k s
  | .oneOf es c, n, s => ∃ k, c.Holds k ∧ SumOf (fun t => MatchesSome g ext T es n t) k s
  | .tc p acts v c, n, s => c.Holds (Multiset.card s) ∧
      ∀ x ∈ s, x.1 = p ∧ (∀ a ∈ acts, a (n, some x) = true) ∧ Sat g ext T v none x.2
  | .incl e, n, s => Matches g ext T e n s
/-- The bag splits into one part per expression. -/
def MatchesAll (g : Graph N P) (ext : Option (SLabel P) → N → Prop) (T : N → SLabel P → Prop) :
    List (CTE N P) → N → Multiset (Pred P × N) → Prop
  | [], _, s => s = 0
  | e :: es, n, s => ∃ t u, s = t + u ∧ Matches g ext T e n t ∧ MatchesAll g ext T es n u
/-- The bag matches one of the expressions. -/
def MatchesSome (g : Graph N P) (ext : Option (SLabel P) → N → Prop) (T : N → SLabel P → Prop) :
    List (CTE N P) → N → Multiset (Pred P × N) → Prop
  | [], _, _ => False
  | e :: es, n, s => Matches g ext T e n s ∨ MatchesSome g ext T es n s
end

/-- A core schema: the expression of each declared label. -/
abbrev Decls (N P : Type) := SLabel P → Option (Core N P)

/-- A typing of the schema: a node has a label exactly when it conforms to its expression. -/
def Typing (g : Graph N P) (ext : Option (SLabel P) → N → Prop) (D : Decls N P)
    (T : N → SLabel P → Prop) : Prop :=
  ∀ n l, T n l ↔ ∃ c, D l = some c ∧ Sat g ext T c (some l) n

/-- The greatest typing: the union of all typings in which every pair is justified. -/
def GreatestOf (g : Graph N P) (ext : Option (SLabel P) → N → Prop) (D : Decls N P) (n : N)
    (l : SLabel P) : Prop :=
  ∃ X : N → SLabel P → Prop, X n l ∧ ∀ m k, X m k → ∃ c, D k = some c ∧ Sat g ext X c (some k) m

/-! ## Declarations -/

/-- The last declaration of the label. -/
def LastOf (ds : List (Label P × SE P NC)) (l : SLabel P) (e : SE P NC) : Prop :=
  ∃ pre post id, ds = pre ++ (id, e) :: post ∧ id.Names l ∧ ∀ d ∈ post, ¬ d.1.Names l

/-- `D` is the core schema of the declarations: what the last declaration of each label stands for. -/
def CoreOf (G : Ctxt N P NC) (tes : TLabel P → Option (TE P NC)) (ds : List (Label P × SE P NC))
    (D : Decls N P) : Prop :=
  ∀ l, (∀ c, D l = some c → ∃ e, LastOf ds l e ∧ Stands G tes c e) ∧
    (D l = none → ∀ d ∈ ds, ¬ d.1.Names l)

/-- The start expression as a declaration. -/
def startDecls (root : Source P NC) : List (Label P × SE P NC) :=
  match root.start with
  | none => []
  | some e => [(Label.start, e)]

/-- The declarations in the order in which they are compiled: the start expression, those of the
imported schemas, those of the root. -/
def allDecls (imported : List (Source P NC)) (root : Source P NC) : List (Label P × SE P NC) :=
  startDecls root ++
    (imported.flatMap Source.shapes ++ root.shapes).map fun d => (d.id, d.expr)

/-! ## Imports -/

/-- The schema, read with the base, imports the IRI. -/
def Imports (W : World N P NC) (s : Source P NC) (base : Option P) (i : P) : Prop :=
  ∃ t ∈ s.imports, W.resolve base t = some i

/-- The IRI is imported by the root, or by an imported schema which is itself reached. -/
inductive Reaches (W : World N P NC) (root : Source P NC) (base : Option P)
    (asts : List (Source P NC × P)) : P → Prop
  | first {i} : Imports W root base i → Reaches W root base asts i
  | next {x j} : x ∈ asts → Reaches W root base asts x.2 → Imports W x.1 (some x.2) j →
      Reaches W root base asts j

/-- The IRI is imported by the schema of source `from_`. -/
def Link (W : World N P NC) (root : Source P NC) (src : P) (base : Option P)
    (asts : List (Source P NC × P)) (i from_ : P) : Prop :=
  (from_ = src ∧ Imports W root base i) ∨
    ∃ x ∈ asts, x.2 = from_ ∧ Imports W x.1 (some x.2) i

/-- `asts` are the schemas imported by the root, directly or not, each once. -/
structure Imported (W : World N P NC) (root : Source P NC) (src : P) (base : Option P)
    (asts : List (Source P NC × P)) : Prop where
  once : (asts.map Prod.snd).Nodup
  reached : ∀ i, i ∈ asts.map Prod.snd ↔ Reaches W root base asts i
  fetched : ∀ x ∈ asts, ∃ from_ s, Link W root src base asts x.2 from_ ∧ W.fetch x.2 from_ = some s ∧
    x.1 = W.rewrite s

/-! ## Labels of triple expressions -/

/-- The label written on the triple expression. -/
def TE.label : TE P NC → Option (TLabel P)
  | .eachOf id _ _ _ _ => id
  | .oneOf id _ _ _ _ => id
  | .tc id _ _ _ _ _ _ _ => id
  | .ref _ => none

/-- Part of a triple expression; values are not looked into. -/
inductive TE.Part (t : TE P NC) : TE P NC → Prop
  | self : TE.Part t t
  | each {id es mn mx as e} : e ∈ es → TE.Part t e → TE.Part t (.eachOf id es mn mx as)
  | one {id es mn mx as e} : e ∈ es → TE.Part t e → TE.Part t (.oneOf id es mn mx as)

/-- Part of a shape expression; values are not looked into. -/
inductive SE.Part (t : TE P NC) : SE P NC → Prop
  | or {es e} : e ∈ es → SE.Part t e → SE.Part t (.or es)
  | and {es e} : e ∈ es → SE.Part t e → SE.Part t (.and es)
  | not {e} : SE.Part t e → SE.Part t (.not e)
  | shape {cl ex te xs as} : TE.Part t te → SE.Part t (.shape cl ex (some te) xs as)

/-- Part of the schema. -/
def Source.Part (t : TE P NC) (s : Source P NC) : Prop :=
  (∃ e, s.start = some e ∧ SE.Part t e) ∨ ∃ d ∈ s.shapes, SE.Part t d.expr

/-- `tes` gives the triple expressions labelled in the schemas. -/
def Labelled (ss : List (Source P NC)) (tes : TLabel P → Option (TE P NC)) : Prop :=
  ∀ l t, tes l = some t ↔ t.label = some l ∧ ∃ s ∈ ss, s.Part t

/-! ## Fragments -/

/-- No negation in the expression. -/
def Core.Positive (c : Core N P) : Prop :=
  ∀ d, Relation.ReflTransGen Child d c → ∀ d', d ≠ .not d'

/-- One, `*` or `+`. -/
def SimpleCard (c : Card) : Prop :=
  (c.min = 1 ∧ c.max = .intMax 1) ∨ (c.min ≤ 1 ∧ c.max = .unbounded)

mutual
/-- Every group in the expression has cardinality one, `*` or `+`. -/
def CTE.Simple : CTE N P → Prop
  | .nothing => True
  | .eachOf es c => SimpleCard c ∧ SimpleAll es
  | .oneOf es c => SimpleCard c ∧ SimpleAll es
  | .tc _ _ _ _ => True
  | .incl e => e.Simple
/-- All are. -/
def SimpleAll : List (CTE N P) → Prop
  | [] => True
  | e :: es => e.Simple ∧ SimpleAll es
end

mutual
/-- Groups with other cardinalities can be met, are not nested in repeated groups, and no choice is
empty. -/
def CTE.Regular : CTE N P → Prop
  | .nothing => True
  | .eachOf es c => c.Holds c.min ∧ c.max ≠ .intMax 0 ∧ RegularAll es ∧
      ((c.min = 1 ∧ c.max = .intMax 1) ∨ SimpleAll es)
  | .oneOf es c => es ≠ [] ∧ c.Holds c.min ∧ c.max ≠ .intMax 0 ∧ RegularAll es ∧
      ((c.min = 1 ∧ c.max = .intMax 1) ∨ SimpleAll es)
  | .tc _ _ _ _ => True
  | .incl e => e.Regular
/-- All are. -/
def RegularAll : List (CTE N P) → Prop
  | [] => True
  | e :: es => e.Regular ∧ RegularAll es
end

mutual
/-- The expression may be met without any arc. -/
def CTE.Nullable : CTE N P → Prop
  | .nothing => True
  | .eachOf es c => c.min = 0 ∨ NullableAll es
  | .oneOf es c => c.min = 0 ∨ NullableSome es
  | .tc _ _ _ c => c.min = 0
  | .incl e => e.Nullable
/-- All may. -/
def NullableAll : List (CTE N P) → Prop
  | [] => True
  | e :: es => e.Nullable ∧ NullableAll es
/-- One may. -/
def NullableSome : List (CTE N P) → Prop
  | [] => False
  | e :: es => e.Nullable ∨ NullableSome es
end

/-- Conditions on one expression under which the engine decides it exactly: no parents, regular
groups, distinct predicates where nothing may be required, and actions only on constraints whose value
is a node constraint. -/
def Core.Decided : Core N P → Prop
  | .shape _ _ e exts => exts = [] ∧ e.Regular ∧ (e.Nullable → (e.constraints.map Prod.fst).Nodup) ∧
      ∀ p acts v, (p, acts, v) ∈ e.constraints → acts = [] ∨ ∃ ok, v = .test ok
  | _ => True

/-- All parts of the expression are decided. -/
def Core.Plain (c : Core N P) : Prop := ∀ d, Relation.ReflTransGen Child d c → d.Decided

/-! ## Schemas which can be compiled -/

/-- The expression refers to the label: as a reference or as a parent. -/
def Core.Uses (c : Core N P) (l : SLabel P) : Prop :=
  ∃ d, Relation.ReflTransGen Child d c ∧
    (d = .ref l ∨ ∃ cl ex e xs, d = .shape cl ex e xs ∧ l ∈ xs)

mutual
/-- The labels written on the triple expression and its parts, in order. -/
def TE.labels : TE P NC → List (TLabel P)
  | .eachOf id es _ _ _ => id.toList ++ teLabels es
  | .oneOf id es _ _ _ => id.toList ++ teLabels es
  | .tc id _ _ _ _ _ _ _ => id.toList
  | .ref _ => []
/-- Those of all. -/
def teLabels : List (TE P NC) → List (TLabel P)
  | [] => []
  | e :: es => e.labels ++ teLabels es
end

mutual
/-- The labels of triple expressions in a shape expression, outside values. -/
def SE.labels : SE P NC → List (TLabel P)
  | .or es => seLabels es
  | .and es => seLabels es
  | .not e => e.labels
  | .shape _ _ te _ _ => match te with
    | none => []
    | some t => t.labels
  | .nc _ => []
  | .external => []
  | .ref _ => []
/-- Those of all. -/
def seLabels : List (SE P NC) → List (TLabel P)
  | [] => []
  | e :: es => e.labels ++ seLabels es
end

/-- The labels of triple expressions in a schema, outside values. -/
def Source.labels (s : Source P NC) : List (TLabel P) :=
  s.start.toList.flatMap SE.labels ++ s.shapes.flatMap fun d => d.expr.labels

/-- Every declaration stands for something and refers to declared labels only. -/
def Resolved (G : Ctxt N P NC) (tes : TLabel P → Option (TE P NC)) (ds : List (Label P × SE P NC)) :
    Prop :=
  (∀ d ∈ ds, ∃ l, d.1.Names l) ∧
    ∀ d ∈ ds, ∃ c, Stands G tes c d.2 ∧ ∀ l, c.Uses l → ∃ d' ∈ ds, d'.1.Names l

/-- Every import of the schema, read with the base, can be resolved. -/
def ImportsResolve (W : World N P NC) (s : Source P NC) (base : Option P) : Prop :=
  ∀ t ∈ s.imports, ∃ i, W.resolve base t = some i

/-- The schema can be compiled: imports are resolved and retrieved, labels of triple expressions are
distinct, every declaration stands for something and refers to declared labels, the start expression
includes no triple expression, and the names of the start actions are known. -/
structure Compilable (W : World N P NC) (root : Source P NC) (src : P) (base : Option P)
    (asts : List (Source P NC × P)) (tes : TLabel P → Option (TE P NC)) : Prop where
  imported : Imported W root src base asts
  imports : ImportsResolve W root base ∧ ∀ x ∈ asts, ImportsResolve W x.1 (some x.2)
  acts : ∀ a ∈ root.startActs, ∃ i, a.name.Means root.expand i
  distinct : ((asts.map Prod.fst ++ [root]).flatMap Source.labels).Nodup
  labelled : Labelled (asts.map Prod.fst ++ [root]) tes
  resolved : Resolved (W.ctxt root) tes (allDecls (asts.map Prod.fst) root)
  start : ∀ e, root.start = some e → ∃ c, Stands (W.ctxt root) (fun _ => none) c e

/-! ## Inclusions -/

mutual
/-- The shape expression includes the triple expression of the label, at any depth. -/
def SE.Includes (l : TLabel P) : SE P NC → Prop
  | .or es => SE.IncludesSome l es
  | .and es => SE.IncludesSome l es
  | .not e => e.Includes l
  | .shape _ _ te _ _ => match te with
    | none => False
    | some t => t.Includes l
  | .nc _ => False
  | .external => False
  | .ref _ => False
/-- One does. -/
def SE.IncludesSome (l : TLabel P) : List (SE P NC) → Prop
  | [] => False
  | e :: es => e.Includes l ∨ SE.IncludesSome l es
/-- The triple expression includes the one of the label, at any depth. -/
def TE.Includes (l : TLabel P) : TE P NC → Prop
  | .eachOf _ es _ _ _ => TE.IncludesSome l es
  | .oneOf _ es _ _ _ => TE.IncludesSome l es
  | .tc _ _ _ _ v _ _ _ => match v with
    | none => False
    | some e => e.Includes l
  | .ref k => k = l
/-- One does. -/
def TE.IncludesSome (l : TLabel P) : List (TE P NC) → Prop
  | [] => False
  | e :: es => e.Includes l ∨ TE.IncludesSome l es
end

/-- No labelled triple expression of the schemas includes itself, directly or not. -/
def NoCycle (ss : List (Source P NC)) : Prop :=
  WellFounded fun l k : TLabel P => ∃ t, t.label = some k ∧ (∃ s ∈ ss, s.Part t) ∧ t.Includes l

/-! ## The compiled schema -/

/-- A typing of the compiled schema: a pair belongs to it exactly when the stored expression holds. -/
def Fixed (E : Env N P) (I : N × Nat → Prop) : Prop :=
  ∀ n i, I (n, i) ↔ ∃ se, E.schema.At i se ∧ ExprSat E I n i se

/-- The schema written by the root and its imports: `asts` are the imported schemas, `tes` the labelled
triple expressions, `D` what each label is declared to be. -/
structure Written (W : World N P NC) (root : Source P NC) (src : P) (base : Option P)
    (asts : List (Source P NC × P)) (tes : TLabel P → Option (TE P NC)) (D : Decls N P) : Prop where
  imported : Imported W root src base asts
  labelled : Labelled (asts.map Prod.fst ++ [root]) tes
  core : CoreOf (W.ctxt root) tes (allDecls (asts.map Prod.fst) root) D

/-! ## Stratified negation -/

/-- The expression refers to the label below a negation. -/
def Core.Negates (c : Core N P) (l : SLabel P) : Prop :=
  ∃ d, Relation.ReflTransGen Child (.not d) c ∧ d.Uses l

/-- The ranking of labels never grows along references and falls at negations. -/
def Ranks (D : Decls N P) (rank : SLabel P → Nat) : Prop :=
  ∀ l c, D l = some c → (∀ k, c.Uses k → rank k ≤ rank l) ∧ ∀ k, c.Negates k → rank k < rank l

/-- The typing of a schema with stratified negation: at each rank the union of all typings in which
every pair is justified, labels of other ranks being read from `T`. -/
def StratifiedOf (g : Graph N P) (ext : Option (SLabel P) → N → Prop) (D : Decls N P)
    (rank : SLabel P → Nat) (T : N → SLabel P → Prop) : Prop :=
  ∀ n l, T n l ↔ ∃ X : N → SLabel P → Prop, X n l ∧ ∀ m k, X m k → rank k = rank l ∧
    ∃ c, D k = some c ∧
      Sat g ext (fun m' k' => (rank k' = rank l ∧ X m' k') ∨ (rank k' ≠ rank l ∧ T m' k')) c (some k) m

/-! ## Well-formed schemas -/

mutual
/-- Part of a triple expression, at any depth. -/
inductive TE.Within (t : TE P NC) : TE P NC → Prop
  | self : TE.Within t t
  | each {id es mn mx as e} : e ∈ es → TE.Within t e → TE.Within t (.eachOf id es mn mx as)
  | one {id es mn mx as e} : e ∈ es → TE.Within t e → TE.Within t (.oneOf id es mn mx as)
  | value {id ng iv p v mn mx as} : SE.Within t v → TE.Within t (.tc id ng iv p (some v) mn mx as)
/-- Part of a shape expression, at any depth. -/
inductive SE.Within (t : TE P NC) : SE P NC → Prop
  | or {es e} : e ∈ es → SE.Within t e → SE.Within t (.or es)
  | and {es e} : e ∈ es → SE.Within t e → SE.Within t (.and es)
  | not {e} : SE.Within t e → SE.Within t (.not e)
  | shape {cl ex te xs as} : TE.Within t te → SE.Within t (.shape cl ex (some te) xs as)
end

/-- Part of the schema, at any depth. -/
def Source.Within (t : TE P NC) (s : Source P NC) : Prop :=
  (∃ e, s.start = some e ∧ SE.Within t e) ∨ ∃ d ∈ s.shapes, SE.Within t d.expr

/-- The schema is well formed: imports are resolved and retrieved, a label written on a triple
expression, at any depth, gives one triple expression, and every declaration stands for something and
refers to declared labels. -/
structure WellFormed (W : World N P NC) (root : Source P NC) (src : P) (base : Option P)
    (asts : List (Source P NC × P)) (tes : TLabel P → Option (TE P NC)) : Prop where
  imported : Imported W root src base asts
  imports : ImportsResolve W root base ∧ ∀ x ∈ asts, ImportsResolve W x.1 (some x.2)
  acts : ∀ a ∈ root.startActs, ∃ i, a.name.Means root.expand i
  labelled : ∀ l t, tes l = some t ↔
    t.label = some l ∧ ∃ s ∈ asts.map Prod.fst ++ [root], s.Within t
  resolved : Resolved (W.ctxt root) tes (allDecls (asts.map Prod.fst) root)

end Comp
