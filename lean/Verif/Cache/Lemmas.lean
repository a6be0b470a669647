import Verif.Cache.Spec
import Verif.Cache.LemmasCodec

/-! # What is read from what was written, part by part -/

namespace Cache

open Rbe (Mx Card Struct)

variable (X : Ext)

/-! ## Reading back -/

/-- Reading back of an IRI. -/
def backIri (s : String) : Res String := readIri X s

/-- Reading back of a label. -/
def backLabel (l : Label) : Res Label := .ok (readLabel X (showLabel l))

/-- Reading back of the datatype of a literal. -/
def backRef (r : Ref) : Res Ref := readRef X (showRef r)

/-- Reading back of a number. -/
def backNum : Num → Res Num
  | .decimal s => do
    let d ← ofOption (X.decimal s)
    pure (.decimal d)
  | n => .ok n

/-- Reading back of a literal. -/
def backLit : Lit → Res Lit
  | .string lex lang => .ok (.string lex lang)
  | .datatype lex dt => do
    let d ← backRef X dt
    pure (.datatype lex d)
  | .numeric n => do
    let m ← backNum X n
    pure (.numeric m)
  | .dateTime s => do
    let d ← ofOption (X.dateTime s)
    pure (.dateTime d)
  | .boolean _ => .err
  | .wrong lex dt e => do
    let d ← backRef X dt
    pure (.wrong lex d e)

/-- Reading back of an object value. -/
def backObj : Obj → Res Obj
  | .iri s => do let i ← backIri X s; pure (.iri i)
  | .literal l => do let m ← backLit X l; pure (.literal m)

/-- Reading back of an exclusion of IRIs. -/
def backIriExcl : IriExcl → Res IriExcl
  | .iri s => do let i ← backIri X s; pure (.iri i)
  | .stem s => do let i ← backIri X s; pure (.stem i)

/-- Reading back of the stem of a range of IRIs. -/
def backIriOrWild : OrWild → Res OrWild
  | .text s => do let i ← backIri X s; pure (.text i)
  | .wildcard t => .ok (.wildcard t)

/-- Reading back of an element of a value set. -/
def backValue : Value → Res Value
  | .iriStem s => do let i ← backIri X s; pure (.iriStem i)
  | .iriStemRange s e => do
    let i ← backIriOrWild X s
    let f ← backOpt (backAll (backIriExcl X)) e
    pure (.iriStemRange i f)
  | .object o => do let p ← backObj X o; pure (.object p)
  | v => .ok v

/-- Reading back of a prefix map. -/
def backPrefixMap (pm : List (String × String)) : Res (List (String × String)) :=
  backMap Res.ok (backIri X) pm

/-- Reading back of a primitive condition. -/
def backKind : Kind → Res Kind
  | .datatype i q => do let j ← backIri X i; pure (.datatype j q)
  | .pattern r f b => do
    let c ← backOpt (backIri X) b
    pure (.pattern r f c)
  | .minInclusive n => do let m ← backNum X n; pure (.minInclusive m)
  | .minExclusive n => do let m ← backNum X n; pure (.minExclusive m)
  | .maxInclusive n => do let m ← backNum X n; pure (.maxInclusive m)
  | .maxExclusive n => do let m ← backNum X n; pure (.maxExclusive m)
  | .valueSet vs pm => do
    let ws ← backAll (backValue X) vs
    let qm ← backPrefixMap X pm
    pure (.valueSet ws qm)
  | .semAct n c => do let m ← backIri X n; pure (.semAct m c)
  | k => .ok k

mutual
/-- Reading back of a condition. -/
def backCond : Cond → Res Cond
  | .single n k => do let l ← backOpt (backKind X) k; pure (.single n l)
  | .ref i => .ok (.ref i)
  | .and cs => do let ds ← backConds cs; pure (.and ds)
/-- Reading back of several conditions. -/
def backConds : List Cond → Res (List Cond)
  | [] => .ok []
  | c :: cs => do
    let d ← backCond c
    let ds ← backConds cs
    pure (d :: ds)
end

/-- Reading back of an upper bound. -/
def backMax : Mx → Res Mx
  | .unbounded => .ok .unbounded
  | .intMax n => readMax (asI64 n)

/-- Reading back of a cardinality. -/
def backCard (c : Card) : Res Card := do
  let m ← backMax c.max
  pure ⟨c.min, m⟩

mutual
/-- Reading back of a regular bag expression. -/
def backExpr : Rbe.Expr Nat → Res (Rbe.Expr Nat)
  | .fail => .ok .fail
  | .empty => .ok .empty
  | .symbol v c => do let d ← backCard c; pure (.symbol v d)
  | .and vs => do let ws ← backExprs vs; pure (.and ws)
  | .or vs => do let ws ← backExprs vs; pure (.or ws)
  | .star v => do let w ← backExpr v; pure (.star w)
  | .plus v => do let w ← backExpr v; pure (.plus w)
  | .repeat v c => do
    let w ← backExpr v
    let d ← backCard c
    pure (.repeat w d)
/-- Reading back of several. -/
def backExprs : List (Rbe.Expr Nat) → Res (List (Rbe.Expr Nat))
  | [] => .ok []
  | v :: vs => do
    let w ← backExpr v
    let ws ← backExprs vs
    pure (w :: ws)
end

/-- Reading back of an expression with its symbols and flag. -/
def backStruct (s : Struct Nat) : Res (Struct Nat) := do
  let e ← backExpr s.rbe
  pure (Struct.ofExpr e)

/-- Reading back of a predicate. -/
def backPred (p : Pred) : Res Pred := do
  let i ← backIri X p.iri
  pure ⟨i, p.isDirect⟩

/-- Reading back of the table of a shape. -/
def backTable (t : Table) : Res Table := do
  let r ← backStruct t.rbe
  let kc ← backMap (backPred X) (backSet Res.ok) t.keyComponents
  let cc ← backMap Res.ok (backCond X) t.componentCond
  let ck ← backMap Res.ok (backPred X) t.componentKey
  pure ⟨r, kc, cc, ck, t.isOpen, t.counter⟩

/-- Reading back of a semantic action. -/
def backAct (a : Act) : Res Act := do
  let n ← backIri X a.name
  pure ⟨n, a.code⟩

/-- Reading back of an annotation. -/
def backAnn (a : Ann) : Res Ann := do
  let p ← backIri X a.predicate
  let o ← backObj X a.object
  pure ⟨p, o⟩

/-- Reading back of a shape. -/
def backShape (s : Shape) : Res Shape := do
  let ex ← backAll (backPred X) s.extra
  let t ← backTable X s.expr
  let sa ← backAll (backAct X) s.semActs
  let an ← backAll (backAnn X) s.annotations
  let ps ← backAll (backPred X) s.preds
  pure ⟨s.closed, ex, t, sa, an, ps, s.extends_⟩

/-- Reading back of a shape expression. -/
def backSExpr : SExpr → Res SExpr
  | .nodeConstraint _ c d => do let e ← backCond X c; pure (.nodeConstraint false e d)
  | .shape s => do let t ← backShape X s; pure (.shape t)
  | e => .ok e

/-- Reading back of a shape expression with its label. -/
def backInfo (i : Info) : Res Info := do
  let l ← backOpt (backLabel X) i.label
  let e ← backSExpr X i.expr
  pure ⟨l, e, i.source⟩

/-- Reading back of a compiled schema. -/
def backSchema (s : Schema) : Res Schema := do
  let l ← backMap (backLabel X) Res.ok s.labels
  let il ← backMap Res.ok (backLabel X) s.idxLabels
  let sh ← backMap Res.ok (backInfo X) s.shapes
  let sm ← backMap (backIri X) Res.ok s.sourcesMap
  let so ← backMap Res.ok (backIri X) s.sources
  let pm ← backPrefixMap X s.prefixmap
  let im ← backAll (backIri X) s.imported
  let ab ← backSet Res.ok s.abstracts
  let b ← backOpt (backIri X) s.base
  let sa ← backAll (backAct X) s.startActs
  pure ⟨l, il, sh, s.labelCounter, sm, so, s.sourcesCounter, pm, s.localShapes, s.totalShapes,
    im, s.deps, s.inh, ab, 0, b, sa⟩

/-! ## Each reader reads what its writer writes -/

theorem backAll_ok {α : Type} (l : List α) : backAll Res.ok l = .ok l := by
  induction l with
  | nil => rfl
  | cons a l ih => simp [backAll, ih, res_pure]

theorem backOpt_ok {α : Type} (o : Option α) : backOpt Res.ok o = .ok o := by
  cases o <;> rfl

theorem Reads.cast {α : Type} {d : Dec α} {e : Bytes} {b b' : Res α} (h : Reads d e b)
    (hb : b = b') : Reads d e b' := hb ▸ h

theorem reads_lastOk {α β : Type} {d : Dec α} {f : α → β} {e : Bytes} {a : α}
    (h : Reads d e (.ok a)) : Reads (d >>= fun x => pure (f x)) e (.ok (f a)) :=
  Reads.last h

theorem reads_lastMap {α β γ : Type} {d : Dec α} {g : α → Res β} {f : β → γ} {e : Bytes} {a : α}
    (h : Reads d e (.ok a)) :
    Reads (d >>= fun s => Dec.lift (g s) >>= fun x => pure (f x)) e
      (g a >>= fun x => pure (f x)) := by
  have h2 := Reads.tag (k := fun s => Dec.lift (g s) >>= fun x => pure (f x)) h
    (Reads.last (f := f) (Reads.lift (g a)))
  rw [List.append_nil] at h2
  exact h2

theorem reads_iri (s : String) : Reads (decIri X) (encIri s) (backIri X s) :=
  Reads.lastLift (b := .ok s) (reads_str s)

theorem reads_label (l : Label) : Reads (decLabel X) (encLabel l) (backLabel X l) :=
  reads_lastOk (reads_str (showLabel l))

theorem reads_ref (r : Ref) : Reads (decRef X) (encRef r) (backRef X r) :=
  Reads.lastLift (b := .ok (showRef r)) (reads_str (showRef r))

theorem reads_nodeKind (k : NodeKind) : Reads decNodeKind (encNodeKind k) (.ok k) := by
  cases k <;> exact Reads.tag0 (reads_var _) rfl

theorem reads_raw (k : Nat) (b : {b : Bytes // b.length = k}) :
    Reads (decRaw k) b.1 (.ok b) := by
  intro r
  unfold decRaw
  rw [dec_bind, reads_take' b.1 k b.2 r]
  simp only [res_ok_bind, dif_pos b.2]
  rfl

theorem reads_num (n : Num) : Reads (decNum X) (encNum n) (backNum X n) := by
  cases n with
  | decimal s => exact Reads.tag (reads_var _) (reads_lastMap (reads_str s))
  | integer i => exact Reads.tag (reads_var _) (reads_lastOk (reads_int i))
  | byte b => exact Reads.tag (reads_var _) (reads_lastOk (reads_byte b))
  | short i => exact Reads.tag (reads_var _) (reads_lastOk (reads_int i))
  | nonNegativeInteger n => exact Reads.tag (reads_var _) (reads_lastOk (reads_var n))
  | unsignedLong n => exact Reads.tag (reads_var _) (reads_lastOk (reads_var n))
  | unsignedInt n => exact Reads.tag (reads_var _) (reads_lastOk (reads_var n))
  | unsignedShort n => exact Reads.tag (reads_var _) (reads_lastOk (reads_var n))
  | unsignedByte b => exact Reads.tag (reads_var _) (reads_lastOk (reads_byte b))
  | positiveInteger n => exact Reads.tag (reads_var _) (reads_lastOk (reads_var n))
  | negativeInteger i => exact Reads.tag (reads_var _) (reads_lastOk (reads_int i))
  | nonPositiveInteger i => exact Reads.tag (reads_var _) (reads_lastOk (reads_int i))
  | long i => exact Reads.tag (reads_var _) (reads_lastOk (reads_int i))
  | double b => exact Reads.tag (reads_var _) (reads_lastOk (reads_raw 8 b))
  | float b => exact Reads.tag (reads_var _) (reads_lastOk (reads_raw 4 b))

theorem reads_optOk {α : Type} {e : α → Bytes} {d : Dec α} (o : Option α)
    (h : ∀ a, Reads d (e a) (.ok a)) : Reads (decOpt d) (encOpt e o) (.ok o) :=
  Reads.cast (reads_opt (b := Res.ok) o fun a _ => h a) (backOpt_ok o)

theorem reads_listOk {α : Type} {e : α → Bytes} {d : Dec α} (l : List α)
    (h : ∀ a, Reads d (e a) (.ok a)) : Reads (decList d) (encList e l) (.ok l) :=
  Reads.cast (reads_list (b := Res.ok) l fun a _ => h a) (backAll_ok l)

theorem reads_boolLit (b : Bool) :
    Reads (decBool >>= fun b => pure (Lit.boolean b)) (encBoolLit b) .err := by
  intro r
  cases b
  · have : ∃ t, encBoolLit false = 5 :: t :=
      ⟨[102, 97, 108, 115, 101], by decide +kernel⟩
    obtain ⟨t, ht⟩ := this
    rw [ht]
    rfl
  · have : ∃ t, encBoolLit true = 4 :: t :=
      ⟨[116, 114, 117, 101], by decide +kernel⟩
    obtain ⟨t, ht⟩ := this
    rw [ht]
    rfl

theorem reads_lit (l : Lit) : Reads (decLit X) (encLit l) (backLit X l) := by
  cases l with
  | string lex lang =>
    exact Reads.tag (reads_var _) (Reads.tag (reads_str lex)
      (reads_lastOk (reads_optOk lang reads_str)))
  | datatype lex dt =>
    exact Reads.tag (reads_var _) (Reads.tag (reads_str lex) (Reads.last (reads_ref X dt)))
  | numeric n => exact Reads.tag (reads_var _) (Reads.last (reads_num X n))
  | dateTime s => exact Reads.tag (reads_var _) (reads_lastMap (reads_str s))
  | boolean b => exact Reads.tag (reads_var _) (reads_boolLit b)
  | wrong lex dt e =>
    exact Reads.tag (reads_var _) (Reads.tag (reads_str lex)
      (Reads.bind (reads_ref X dt) fun d => reads_lastOk (reads_str e)))

theorem reads_obj (o : Obj) : Reads (decObj X) (encObj o) (backObj X o) := by
  cases o with
  | iri s => exact Reads.tag (reads_var _) (Reads.last (reads_iri X s))
  | literal l => exact Reads.tag (reads_var _) (Reads.last (reads_lit X l))

theorem reads_iriExcl (e : IriExcl) : Reads (decIriExcl X) (encIriExcl e) (backIriExcl X e) := by
  cases e with
  | iri s => exact Reads.tag (reads_var _) (Reads.last (reads_iri X s))
  | stem s => exact Reads.tag (reads_var _) (Reads.last (reads_iri X s))

theorem reads_textExcl (e : TextExcl) : Reads decTextExcl (encTextExcl e) (.ok e) := by
  cases e with
  | text s => exact Reads.tag (reads_var _) (reads_lastOk (reads_str s))
  | stem s => exact Reads.tag (reads_var _) (reads_lastOk (reads_str s))

theorem reads_iriOrWild (o : OrWild) :
    Reads (decOrWild (decIri X)) (encOrWild o) (backIriOrWild X o) := by
  cases o with
  | text s => exact Reads.tag (reads_var _) (Reads.last (reads_iri X s))
  | wildcard s => exact Reads.tag (reads_var _) (reads_lastOk (reads_str s))

theorem reads_orWild (o : OrWild) : Reads (decOrWild decStr) (encOrWild o) (.ok o) := by
  cases o with
  | text s => exact Reads.tag (reads_var _) (reads_lastOk (reads_str s))
  | wildcard s => exact Reads.tag (reads_var _) (reads_lastOk (reads_str s))

theorem reads_value (v : Value) : Reads (decValue X) (encValue v) (backValue X v) := by
  cases v with
  | iriStem s => exact Reads.tag (reads_var _) (Reads.last (reads_iri X s))
  | iriStemRange s e =>
    exact Reads.tag (reads_var _) (Reads.bind (reads_iriOrWild X s) fun _ =>
      Reads.last (reads_opt e fun l _ => reads_list l fun a _ => reads_iriExcl X a))
  | literalStem s => exact Reads.tag (reads_var _) (reads_lastOk (reads_str s))
  | literalStemRange s e =>
    exact Reads.tag (reads_var _) (Reads.tag (reads_orWild s)
      (reads_lastOk (reads_optOk e fun l => reads_listOk l reads_textExcl)))
  | language s => exact Reads.tag (reads_var _) (reads_lastOk (reads_str s))
  | languageStem s => exact Reads.tag (reads_var _) (reads_lastOk (reads_orWild s))
  | languageStemRange s e =>
    exact Reads.tag (reads_var _) (Reads.tag (reads_orWild s)
      (reads_lastOk (reads_optOk e fun l => reads_listOk l reads_textExcl)))
  | object o => exact Reads.tag (reads_var _) (Reads.last (reads_obj X o))

theorem reads_prefixMap (pm : List (String × String)) :
    Reads (decPrefixMap X) (encPrefixMap pm) (backPrefixMap X pm) :=
  reads_map pm (fun p _ => reads_str p.1) (fun p _ => reads_iri X p.2)

theorem reads_kind (k : Kind) : Reads (decKind X) (encKind k) (backKind X k) := by
  cases k with
  | any => exact Reads.tag0 (reads_var _) rfl
  | nodeKind k => exact Reads.tag (reads_var _) (reads_lastOk (reads_nodeKind k))
  | datatype i q =>
    exact Reads.tag (reads_var _) (Reads.bind (reads_iri X i) fun _ => reads_lastOk (reads_str q))
  | length n => exact Reads.tag (reads_var _) (reads_lastOk (reads_var n))
  | minLength n => exact Reads.tag (reads_var _) (reads_lastOk (reads_var n))
  | maxLength n => exact Reads.tag (reads_var _) (reads_lastOk (reads_var n))
  | pattern r f b =>
    exact Reads.tag (reads_var _) (Reads.tag (reads_str r) (Reads.tag (reads_optOk f reads_str)
      (Reads.last (reads_opt b fun s _ => reads_iri X s))))
  | minInclusive n => exact Reads.tag (reads_var _) (Reads.last (reads_num X n))
  | minExclusive n => exact Reads.tag (reads_var _) (Reads.last (reads_num X n))
  | maxInclusive n => exact Reads.tag (reads_var _) (Reads.last (reads_num X n))
  | maxExclusive n => exact Reads.tag (reads_var _) (Reads.last (reads_num X n))
  | totalDigits n => exact Reads.tag (reads_var _) (reads_lastOk (reads_var n))
  | fractionDigits n => exact Reads.tag (reads_var _) (reads_lastOk (reads_var n))
  | valueSet vs pm =>
    exact Reads.tag (reads_var _) (Reads.bind (reads_list vs fun v _ => reads_value X v) fun _ =>
      Reads.last (reads_prefixMap X pm))
  | semAct n c =>
    exact Reads.tag (reads_var _) (Reads.bind (reads_iri X n) fun _ =>
      reads_lastOk (reads_optOk c reads_str))

theorem var_pos (n : Nat) : 0 < (var n).length := List.length_pos_iff.mpr (var_ne_nil n)

theorem encConds_eq (cs : List Cond) : encConds cs = encAll encCond cs := by
  induction cs with
  | nil => rfl
  | cons c cs ih => simp only [encConds, encAll, ih]

theorem backConds_eq (cs : List Cond) : backConds X cs = backAll (backCond X) cs := by
  induction cs with
  | nil => rfl
  | cons c cs ih => simp only [backConds, backAll, ih]

theorem encAll_length_le {α : Type} (e : α → Bytes) (l : List α) (a : α) (h : a ∈ l) :
    (e a).length ≤ (encAll e l).length := by
  induction l with
  | nil => cases h
  | cons b l ih =>
    simp only [encAll, List.length_append]
    rcases List.mem_cons.mp h with rfl | h
    · omega
    · have := ih h
      omega

theorem encCond_pos (c : Cond) : 0 < (encCond c).length := by
  cases c <;> simp only [encCond, List.length_append] <;> have := var_pos <;>
    first | (have := this 0; omega) | (have := this 1; omega) | (have := this 2; omega)

theorem reads_condN (n : Nat) (c : Cond) (h : (encCond c).length ≤ n) :
    Reads (decCondN X n) (encCond c) (backCond X c) := by
  induction n generalizing c with
  | zero => have := encCond_pos c; omega
  | succ n ih =>
    cases c with
    | single m k =>
      simp only [encCond, backCond]
      exact Reads.tag (reads_var _) (Reads.tag (reads_optOk m reads_str)
        (Reads.last (reads_opt k fun k _ => reads_kind X k)))
    | ref i =>
      simp only [encCond, backCond]
      exact Reads.tag (reads_var _) (reads_lastOk (reads_var i))
    | and cs =>
      simp only [encCond, backCond, encConds_eq, backConds_eq] at h ⊢
      refine Reads.tag (reads_var _) (Reads.last (reads_list cs fun c hc => ih c ?_))
      have h1 := encAll_length_le encCond cs c hc
      have h2 := var_pos 2
      simp only [List.length_append] at h
      omega

theorem reads_cond (c : Cond) : Reads (decCond X) (encCond c) (backCond X c) := by
  intro r
  unfold decCond
  exact reads_condN X _ c (by simp; omega) r

theorem reads_max (m : Mx) : Reads decMax (encMax m) (backMax m) := by
  cases m with
  | intMax n => exact Reads.lastLift (b := .ok (asI64 n)) (reads_int _)
  | unbounded => exact Reads.lastLift (b := .ok (-1)) (reads_int _)

theorem reads_card (c : Card) : Reads decCard (encCard c) (backCard c) :=
  Reads.tag (reads_var _) (Reads.last (reads_max c.max))

theorem encExprs_eq (vs : List (Rbe.Expr Nat)) : encExprs vs = encAll encExpr vs := by
  induction vs with
  | nil => rfl
  | cons c cs ih => simp only [encExprs, encAll, ih]

theorem backExprs_eq (vs : List (Rbe.Expr Nat)) : backExprs vs = backAll backExpr vs := by
  induction vs with
  | nil => rfl
  | cons c cs ih => simp only [backExprs, backAll, ih]

theorem encExpr_pos (v : Rbe.Expr Nat) : 0 < (encExpr v).length := by
  cases v <;> simp only [encExpr, List.length_append] <;> have := var_pos
  · exact this 0
  · exact this 1
  · have := this 2; omega
  · have := this 3; omega
  · have := this 4; omega
  · have := this 5; omega
  · have := this 6; omega
  · have := this 7; omega

theorem reads_exprN (n : Nat) (v : Rbe.Expr Nat) (h : (encExpr v).length ≤ n) :
    Reads (decExprN n) (encExpr v) (backExpr v) := by
  induction n generalizing v with
  | zero => have := encExpr_pos v; omega
  | succ n ih =>
    cases v with
    | fail => simp only [encExpr, backExpr]; exact Reads.tag0 (reads_var _) rfl
    | empty => simp only [encExpr, backExpr]; exact Reads.tag0 (reads_var _) rfl
    | symbol v c =>
      simp only [encExpr, backExpr]
      exact Reads.tag (reads_var _) (Reads.tag (reads_var v) (Reads.last (reads_card c)))
    | and cs =>
      simp only [encExpr, backExpr, encExprs_eq, backExprs_eq] at h ⊢
      refine Reads.tag (reads_var _) (Reads.last (reads_list cs fun c hc => ih c ?_))
      have h1 := encAll_length_le encExpr cs c hc
      have h2 := var_pos 3
      simp only [List.length_append] at h
      omega
    | or cs =>
      simp only [encExpr, backExpr, encExprs_eq, backExprs_eq] at h ⊢
      refine Reads.tag (reads_var _) (Reads.last (reads_list cs fun c hc => ih c ?_))
      have h1 := encAll_length_le encExpr cs c hc
      have h2 := var_pos 4
      simp only [List.length_append] at h
      omega
    | star v =>
      simp only [encExpr, backExpr] at h ⊢
      refine Reads.tag (reads_var _) (Reads.last (ih v ?_))
      have h2 := var_pos 5
      simp only [List.length_append] at h
      omega
    | plus v =>
      simp only [encExpr, backExpr] at h ⊢
      refine Reads.tag (reads_var _) (Reads.last (ih v ?_))
      have h2 := var_pos 6
      simp only [List.length_append] at h
      omega
    | «repeat» v c =>
      simp only [encExpr, backExpr] at h ⊢
      refine Reads.tag (reads_var _) (Reads.bind (ih v ?_) fun _ => Reads.last (reads_card c))
      have h2 := var_pos 7
      simp only [List.length_append] at h
      omega

theorem reads_expr (v : Rbe.Expr Nat) : Reads decExpr (encExpr v) (backExpr v) := by
  intro r
  unfold decExpr
  exact reads_exprN _ v (by simp; omega) r

theorem reads_struct (s : Struct Nat) : Reads decStruct (encStruct s) (backStruct s) :=
  Reads.last (reads_expr s.rbe)

theorem reads_pred (p : Pred) : Reads (decPred X) (encPred p) (backPred X p) :=
  Reads.bind (reads_iri X p.iri) fun _ => reads_lastOk (reads_bool _)

theorem reads_table (t : Table) : Reads (decTable X) (encTable t) (backTable X t) :=
  Reads.bind (reads_struct t.rbe) fun _ =>
  Reads.bind (reads_map t.keyComponents (fun p _ => reads_pred X p.1)
    (fun p _ => reads_set (b := Res.ok) p.2 fun a _ => reads_var a)) fun _ =>
  Reads.bind (reads_map (b := Res.ok) t.componentCond (fun p _ => reads_var p.1)
    (fun p _ => reads_cond X p.2)) fun _ =>
  Reads.bind (reads_map (b := Res.ok) t.componentKey (fun p _ => reads_var p.1)
    (fun p _ => reads_pred X p.2)) fun _ =>
  Reads.tag (reads_bool _) (reads_lastOk (reads_var _))

theorem reads_act (a : Act) : Reads (decAct X) (encAct a) (backAct X a) :=
  Reads.bind (reads_iri X a.name) fun _ => reads_lastOk (reads_optOk _ reads_str)

theorem reads_ann (a : Ann) : Reads (decAnn X) (encAnn a) (backAnn X a) :=
  Reads.bind (reads_iri X a.predicate) fun _ => Reads.last (reads_obj X a.object)

theorem reads_shape (s : Shape) : Reads (decShape X) (encShape s) (backShape X s) :=
  Reads.tag (reads_bool s.closed) <|
  Reads.bind (reads_list s.extra fun p _ => reads_pred X p) fun _ =>
  Reads.bind (reads_table X s.expr) fun _ =>
  Reads.bind (reads_list s.semActs fun p _ => reads_act X p) fun _ =>
  Reads.bind (reads_list s.annotations fun p _ => reads_ann X p) fun _ =>
  Reads.bind (reads_list s.preds fun p _ => reads_pred X p) fun _ =>
  reads_lastOk (reads_listOk s.extends_ reads_var)

theorem reads_sexpr (e : SExpr) : Reads (decSExpr X) (encSExpr e) (backSExpr X e) := by
  cases e with
  | or es => exact Reads.tag (reads_var _) (reads_lastOk (reads_listOk es reads_var))
  | and es => exact Reads.tag (reads_var _) (reads_lastOk (reads_listOk es reads_var))
  | not e => exact Reads.tag (reads_var _) (reads_lastOk (reads_var e))
  | nodeConstraint b c d =>
    exact Reads.tag (reads_var _) (Reads.bind (reads_cond X c) fun _ => reads_lastOk (reads_str d))
  | shape s => exact Reads.tag (reads_var _) (Reads.last (reads_shape X s))
  | external => exact Reads.tag0 (reads_var _) rfl
  | ref i => exact Reads.tag (reads_var _) (reads_lastOk (reads_var i))
  | empty => exact Reads.tag0 (reads_var _) rfl

theorem reads_info (i : Info) : Reads (decInfo X) (encInfo i) (backInfo X i) :=
  Reads.bind (reads_opt i.label fun l _ => reads_label X l) fun _ =>
  Reads.bind (reads_sexpr X i.expr) fun _ => reads_lastOk (reads_var _)

theorem reads_pairOk {α β : Type} {e : α → Bytes} {d : Dec α} {e' : β → Bytes} {d' : Dec β}
    (p : α × β) (h : Reads d (e p.1) (.ok p.1)) (h' : Reads d' (e' p.2) (.ok p.2)) :
    Reads (decPair d d') (encPair e e' p) (.ok p) :=
  reads_pair (b := Res.ok) (b' := Res.ok) p h h'

theorem reads_deps (g : Deps) : Reads decDeps (encDeps g) (.ok g) :=
  Reads.tag (reads_listOk g.nodes reads_var) <|
  reads_lastOk (reads_listOk g.edges fun p =>
    reads_pairOk p (reads_pairOk p.1 (reads_var _) (reads_var _)) (reads_bool _))

theorem reads_inh (g : Inh) : Reads decInh (encInh g) (.ok g) :=
  Reads.tag (reads_listOk g.nodes reads_var) <|
  reads_lastOk (reads_listOk g.edges fun p => reads_pairOk p (reads_var _) (reads_var _))

theorem reads_schema (s : Schema) : Reads (decSchema X) (encSchema s) (backSchema X s) :=
  Reads.bind (reads_map (b' := Res.ok) s.labels (fun p _ => reads_label X p.1)
    (fun p _ => reads_var p.2)) fun _ =>
  Reads.bind (reads_map (b := Res.ok) s.idxLabels (fun p _ => reads_var p.1)
    (fun p _ => reads_label X p.2)) fun _ =>
  Reads.bind (reads_map (b := Res.ok) s.shapes (fun p _ => reads_var p.1)
    (fun p _ => reads_info X p.2)) fun _ =>
  Reads.tag (reads_var s.labelCounter) <|
  Reads.bind (reads_map (b' := Res.ok) s.sourcesMap (fun p _ => reads_iri X p.1)
    (fun p _ => reads_var p.2)) fun _ =>
  Reads.bind (reads_map (b := Res.ok) s.sources (fun p _ => reads_var p.1)
    (fun p _ => reads_iri X p.2)) fun _ =>
  Reads.tag (reads_var s.sourcesCounter) <|
  Reads.bind (reads_prefixMap X s.prefixmap) fun _ =>
  Reads.tag (reads_var s.localShapes) <|
  Reads.tag (reads_var s.totalShapes) <|
  Reads.bind (reads_list s.imported fun p _ => reads_iri X p) fun _ =>
  Reads.tag (reads_deps s.deps) <|
  Reads.tag (reads_inh s.inh) <|
  Reads.bind (reads_set (b := Res.ok) s.abstracts fun a _ => reads_var a) fun _ =>
  Reads.bind (reads_opt s.base fun p _ => reads_iri X p) fun _ =>
  Reads.last (reads_list s.startActs fun p _ => reads_act X p)

end Cache
