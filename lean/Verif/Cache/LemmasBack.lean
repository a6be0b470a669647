import Verif.Cache.Lemmas

/-! # When reading back succeeds, and when it changes nothing -/

namespace Cache

open Rbe (Mx Card Struct)

variable {α β γ : Type}

theorem ok_bind_iff (b : Res α) (f : α → Res β) :
    (∃ x, (b >>= f) = .ok x) ↔ ∃ a, b = .ok a ∧ ∃ x, f a = .ok x := by
  cases b with
  | ok a => simp
  | err => simp
  | panic => simp

theorem ok_pure_iff (a : α) : (∃ x, (pure a : Res α) = .ok x) ↔ True := by
  simp [res_pure]

theorem ok_ok_iff (a : α) : (∃ x, (Res.ok a) = .ok x) ↔ True := by simp

theorem ok_map_iff (b : Res α) (f : α → β) :
    (∃ x, (b >>= fun a => pure (f a)) = .ok x) ↔ ∃ a, b = .ok a := by
  rw [ok_bind_iff]
  simp [res_pure]

theorem ok_and_iff (b : Res α) (q : Prop) : (∃ a, b = .ok a ∧ q) ↔ (∃ a, b = .ok a) ∧ q :=
  exists_and_right

theorem ok_opt_iff (b : α → Res α) (o : Option α) :
    (∃ x, backOpt b o = .ok x) ↔ inOpt (fun a => ∃ x, b a = .ok x) o := by
  cases o with
  | none => simp [backOpt, inOpt]
  | some a => simp only [backOpt, ok_map_iff]; simp [inOpt]

theorem ok_all_iff (b : α → Res α) (l : List α) :
    (∃ x, backAll b l = .ok x) ↔ inAll (fun a => ∃ x, b a = .ok x) l := by
  induction l with
  | nil => simp [backAll, inAll]
  | cons a l ih =>
    simp only [backAll, ok_bind_iff, ok_pure_iff, and_true, ok_and_iff, ih]
    simp [inAll]

theorem ok_pair_iff (b : α → Res α) (c : β → Res β) (p : α × β) :
    (∃ x, backPair b c p = .ok x) ↔ (∃ x, b p.1 = .ok x) ∧ ∃ x, c p.2 = .ok x := by
  simp only [backPair, ok_bind_iff, ok_pure_iff, and_true, ok_and_iff]

theorem ok_mapOf_iff [DecidableEq α] (b : α → Res α) (c : β → Res β) (l : List (α × β)) :
    (∃ x, backMap b c l = .ok x) ↔
      ∀ e ∈ l, (∃ x, b e.1 = .ok x) ∧ ∃ x, c e.2 = .ok x := by
  simp only [backMap, ok_map_iff, ok_all_iff, inAll, ok_pair_iff]

theorem ok_set_iff [DecidableEq α] (b : α → Res α) (l : List α) :
    (∃ x, backSet b l = .ok x) ↔ inAll (fun a => ∃ x, b a = .ok x) l := by
  simp only [backSet, ok_map_iff, ok_all_iff]

theorem kept_opt (b : α → Res α) (o : Option α) (h : inOpt (fun a => b a = .ok a) o) :
    backOpt b o = .ok o := by
  cases o with
  | none => rfl
  | some a => simp only [backOpt, h a rfl, res_ok_bind]; rfl

theorem kept_all (b : α → Res α) (l : List α) (h : inAll (fun a => b a = .ok a) l) :
    backAll b l = .ok l := by
  induction l with
  | nil => rfl
  | cons a l ih =>
    simp only [backAll, h a (by simp), res_ok_bind, ih fun c hc => h c (by simp [hc])]
    rfl

theorem kept_optTo (b : α → Res α) (f : α → α) (o : Option α)
    (h : inOpt (fun a => b a = .ok (f a)) o) : backOpt b o = .ok (o.map f) := by
  cases o with
  | none => rfl
  | some a => simp only [backOpt, h a rfl, res_ok_bind]; rfl

theorem kept_allTo (b : α → Res α) (f : α → α) (l : List α)
    (h : inAll (fun a => b a = .ok (f a)) l) : backAll b l = .ok (l.map f) := by
  induction l with
  | nil => rfl
  | cons a l ih =>
    simp only [backAll, h a (by simp), res_ok_bind, ih fun c hc => h c (by simp [hc])]
    rfl

theorem kept_mapTo [DecidableEq α] (b : α → Res α) (c : β → Res β) (f : α → α) (g : β → β)
    (l : List (α × β)) (h : ∀ e ∈ l, b e.1 = .ok (f e.1) ∧ c e.2 = .ok (g e.2))
    (hf : Function.Injective f) (hd : (l.map Prod.fst).Nodup) :
    backMap b c l = .ok (l.map fun e => (f e.1, g e.2)) := by
  unfold backMap
  rw [kept_allTo _ (fun e => (f e.1, g e.2)) l fun e he => by
    simp only [backPair, (h e he).1, (h e he).2, res_ok_bind]; rfl]
  simp only [res_ok_bind]
  rw [mkMap_id]
  · rfl
  · rw [List.map_map]
    have := hd.map hf
    rw [List.map_map] at this
    exact this

theorem kept_map [DecidableEq α] (b : α → Res α) (c : β → Res β) (l : List (α × β))
    (h : ∀ e ∈ l, b e.1 = .ok e.1 ∧ c e.2 = .ok e.2) (hd : (l.map Prod.fst).Nodup) :
    backMap b c l = .ok l := by
  unfold backMap
  rw [kept_all _ l fun e he => by
    simp only [backPair, (h e he).1, (h e he).2, res_ok_bind]; rfl]
  simp only [res_ok_bind, mkMap_id l hd]
  rfl

theorem kept_set [DecidableEq α] (b : α → Res α) (l : List α)
    (h : inAll (fun a => b a = .ok a) l) (hd : l.Nodup) : backSet b l = .ok l := by
  unfold backSet
  rw [kept_all b l h]
  simp only [res_ok_bind, mkSet_id l hd]
  rfl

variable (X : Ext)

/-! ## Leaves -/

theorem ok_iri (s : String) : (∃ x, backIri X s = .ok x) ↔ Leaf.readable X (.iri s) := by
  unfold backIri readIri Leaf.readable
  split
  · simp_all
  · split <;> simp_all

theorem kept_iri (s : String) (h : Leaf.kept X (.iri s)) : backIri X s = .ok s := by
  unfold backIri readIri
  unfold Leaf.kept at h
  split
  · simp_all
  · split
    · rfl
    · simp_all

theorem ok_label (l : Label) : (∃ x, backLabel X l = .ok x) ↔ Leaf.readable X (.label l) := by
  simp [backLabel, Leaf.readable]

theorem bnode_ne_start (m : String) : "_:" ++ m ≠ "Start" := by
  intro h
  have := congrArg String.toList h
  simp at this

theorem kept_label (l : Label) (h : Leaf.kept X (.label l)) : backLabel X l = .ok l.again := by
  cases l with
  | iri s =>
    obtain ⟨h1, h2⟩ := h
    simp [backLabel, showLabel, readLabel, h1, h2, Label.again]
  | bnode m =>
    have h : X.iriOk ("_:" ++ m) = false := h
    simp [backLabel, showLabel, readLabel, h, bnode_ne_start m, Label.again]
  | start => simp [backLabel, showLabel, readLabel, Label.again]

theorem span_colon_nil (l : List Char) :
    (l.span (· != ':')).2 = [] ↔ ':' ∉ l := by
  rw [List.span_eq_takeWhile_dropWhile]
  dsimp only
  induction l with
  | nil => simp
  | cons c l ih =>
    by_cases hc : c = ':'
    · subst hc
      simp
    · have h1 : (c != ':') = true := by simpa using hc
      have h2 : ¬ ':' = c := fun h => hc h.symm
      simp only [List.dropWhile_cons, h1, if_true, List.mem_cons, h2, false_or]
      exact ih

theorem ok_ref_text (s : String) :
    (∃ x, readRef X s = .ok x) ↔ X.iriOk s = true ∨ ':' ∈ s.toList := by
  unfold readRef
  split
  · simp_all
  · rename_i h
    have h1 := span_colon_nil s.toList
    split
    · rename_i a b c
      rw [c] at h1
      simp_all
    · rename_i a b c d e
      rw [e] at h1
      simp_all

theorem ok_ref (r : Ref) : (∃ x, backRef X r = .ok x) ↔ Leaf.readable X (.ref r) := by
  unfold backRef
  rw [ok_ref_text]
  cases r with
  | iri s => rfl
  | prefixed p l => simp [showRef, Leaf.readable]

theorem kept_ref (r : Ref) (h : Leaf.kept X (.ref r)) : backRef X r = .ok r := by
  cases r with
  | iri s =>
    have : X.iriOk s = true := h
    simp [backRef, readRef, showRef, this]
  | prefixed p l =>
    obtain ⟨h1, h2⟩ := h
    have h3 : (p ++ ":" ++ l).toList = p.toList ++ ':' :: l.toList := by simp
    unfold backRef readRef
    simp only [showRef, h1]
    rw [h3, List.span_eq_takeWhile_dropWhile]
    have h4 : (p.toList ++ ':' :: l.toList).takeWhile (· != ':') = p.toList := by
      rw [List.takeWhile_append_of_pos (by intro a ha; simp; rintro rfl; exact h2 ha)]
      simp
    have h5 : (p.toList ++ ':' :: l.toList).dropWhile (· != ':') = ':' :: l.toList := by
      rw [List.dropWhile_append_of_pos (by intro a ha; simp; rintro rfl; exact h2 ha)]
      simp
    rw [h4, h5]
    simp

theorem ok_ofOption (o : Option α) : (∃ x, ofOption o = .ok x) ↔ o.isSome := by
  cases o <;> simp [ofOption]

theorem ok_max (m : Mx) : (∃ x, backMax m = .ok x) ↔ Leaf.readable X (.max m) := by
  cases m with
  | unbounded => simp [backMax, Leaf.readable]
  | intMax n =>
    have hlt : n % 2 ^ 64 < 2 ^ 64 := Nat.mod_lt _ (by decide)
    have hi : (n % 2 ^ 64 < 2 ^ 63 ∧ asI64 n = ((n % 2 ^ 64 : Nat) : Int)) ∨
        (¬ n % 2 ^ 64 < 2 ^ 63 ∧ asI64 n = ((n % 2 ^ 64 : Nat) : Int) - 2 ^ 64) := by
      unfold asI64
      split
      · exact .inl ⟨by assumption, rfl⟩
      · exact .inr ⟨by assumption, rfl⟩
    simp only [backMax, Leaf.readable, readMax]
    revert hi hlt
    generalize asI64 n = i
    generalize n % 2 ^ 64 = m
    intro hlt hi
    split
    · simp only [reduceCtorEq, exists_false, false_iff]; omega
    · split
      · simp only [Res.ok.injEq, exists_eq', true_iff]; omega
      · split
        · simp only [Res.ok.injEq, exists_eq', true_iff]; omega
        · simp only [reduceCtorEq, exists_false, false_iff]; omega

theorem kept_max (m : Mx) (h : Leaf.kept X (.max m)) : backMax m = .ok m := by
  cases m with
  | unbounded => rfl
  | intMax n =>
    obtain ⟨h1, h2⟩ := h
    have h3 : asI64 n = (n : Int) := by
      unfold asI64
      rw [Nat.mod_eq_of_lt (by omega), if_pos h2]
    simp only [backMax, h3, readMax]
    rw [if_neg (by omega), if_neg (by omega), if_pos (by omega)]
    simp

/-! ## Every type -/

syntax "okparts" : tactic
macro_rules | `(tactic| okparts) => `(tactic| simp only [ok_bind_iff, ok_pure_iff, ok_ok_iff,
  ok_map_iff, ok_and_iff, and_true, true_and, ok_opt_iff, ok_all_iff, ok_mapOf_iff, ok_set_iff,
  ok_iri, ok_label, ok_ref, ok_ofOption])

theorem ok_num (n : Num) : (∃ x, backNum X n = .ok x) ↔ inNum (Leaf.readable X) n := by
  cases n <;> simp only [backNum, inNum] <;> okparts <;> rfl

theorem ok_lit (l : Lit) : (∃ x, backLit X l = .ok x) ↔ inLit (Leaf.readable X) l := by
  cases l <;> simp only [backLit, inLit] <;> try okparts
  · exact ok_num X _
  · rfl
  · simp [Leaf.readable]

theorem ok_obj (o : Obj) : (∃ x, backObj X o = .ok x) ↔ inObj (Leaf.readable X) o := by
  cases o <;> simp only [backObj, inObj] <;> okparts
  exact ok_lit X _

theorem ok_iriExcl (e : IriExcl) : (∃ x, backIriExcl X e = .ok x) ↔ inIriExcl (Leaf.readable X) e := by
  cases e <;> simp only [backIriExcl, inIriExcl] <;> okparts

theorem ok_iriOrWild (e : OrWild) :
    (∃ x, backIriOrWild X e = .ok x) ↔ inIriOrWild (Leaf.readable X) e := by
  cases e <;> simp only [backIriOrWild, inIriOrWild] <;> okparts

theorem ok_value (v : Value) : (∃ x, backValue X v = .ok x) ↔ inValue (Leaf.readable X) v := by
  cases v <;> simp only [backValue, inValue] <;> okparts
  · rw [ok_iriOrWild]
    simp only [ok_iriExcl]
  · exact ok_obj X _

theorem ok_prefixMap (pm : List (String × String)) :
    (∃ x, backPrefixMap X pm = .ok x) ↔ inPrefixMap (Leaf.readable X) pm := by
  unfold backPrefixMap inPrefixMap inMap
  okparts
  simp [Leaf.readable]

theorem ok_kind (k : Kind) : (∃ x, backKind X k = .ok x) ↔ inKind (Leaf.readable X) k := by
  cases k <;> simp only [backKind, inKind] <;> okparts
  all_goals first | exact ok_num X _ | skip
  simp only [ok_value, ok_prefixMap]

mutual
theorem ok_cond (c : Cond) : (∃ x, backCond X c = .ok x) ↔ inCond (Leaf.readable X) c := by
  cases c with
  | single n k =>
    simp only [backCond, inCond]
    okparts
    simp only [ok_kind]
  | ref i => simp only [backCond, inCond]; okparts
  | and cs =>
    simp only [backCond, inCond]
    okparts
    exact ok_conds cs
theorem ok_conds (cs : List Cond) :
    (∃ x, backConds X cs = .ok x) ↔ inConds (Leaf.readable X) cs := by
  cases cs with
  | nil => simp [backConds, inConds]
  | cons c cs =>
    simp only [backConds, inConds]
    okparts
    rw [ok_cond c, ok_conds cs]
end

theorem ok_card (c : Card) : (∃ x, backCard c = .ok x) ↔ Leaf.readable X (.max c.max) := by
  unfold backCard
  rw [ok_map_iff, ok_max X]

mutual
theorem ok_expr (v : Rbe.Expr Nat) : (∃ x, backExpr v = .ok x) ↔ inExpr (Leaf.readable X) v := by
  cases v with
  | fail => simp [backExpr, inExpr]
  | empty => simp [backExpr, inExpr]
  | symbol v c => simp only [backExpr, inExpr]; okparts; exact ok_card X c
  | and vs => simp only [backExpr, inExpr]; okparts; exact ok_exprs vs
  | or vs => simp only [backExpr, inExpr]; okparts; exact ok_exprs vs
  | star v => simp only [backExpr, inExpr]; okparts; exact ok_expr v
  | plus v => simp only [backExpr, inExpr]; okparts; exact ok_expr v
  | «repeat» v c =>
    simp only [backExpr, inExpr]
    okparts
    rw [ok_expr v, ok_card X c]
theorem ok_exprs (vs : List (Rbe.Expr Nat)) :
    (∃ x, backExprs vs = .ok x) ↔ inExprs (Leaf.readable X) vs := by
  cases vs with
  | nil => simp [backExprs, inExprs]
  | cons v vs =>
    simp only [backExprs, inExprs]
    okparts
    rw [ok_expr v, ok_exprs vs]
end

theorem ok_struct (s : Struct Nat) : (∃ x, backStruct s = .ok x) ↔ inStruct (Leaf.readable X) s := by
  unfold backStruct inStruct
  okparts
  rw [ok_expr X]
  simp [Leaf.readable]

theorem ok_pred (p : Pred) : (∃ x, backPred X p = .ok x) ↔ inPred (Leaf.readable X) p := by
  unfold backPred inPred
  okparts

theorem ok_table (t : Table) : (∃ x, backTable X t = .ok x) ↔ inTable (Leaf.readable X) t := by
  unfold backTable inTable inMap
  okparts
  simp only [ok_struct X, ok_pred, ok_cond]
  simp [Leaf.readable, inAll]

theorem ok_act (a : Act) : (∃ x, backAct X a = .ok x) ↔ inAct (Leaf.readable X) a := by
  unfold backAct inAct
  okparts

theorem ok_ann (a : Ann) : (∃ x, backAnn X a = .ok x) ↔ inAnn (Leaf.readable X) a := by
  unfold backAnn inAnn
  okparts
  rw [ok_obj]

theorem ok_shape (s : Shape) : (∃ x, backShape X s = .ok x) ↔ inShape (Leaf.readable X) s := by
  unfold backShape inShape
  okparts
  simp only [ok_pred, ok_table, ok_act, ok_ann]

theorem ok_sexpr (e : SExpr) : (∃ x, backSExpr X e = .ok x) ↔ inSExpr (Leaf.readable X) e := by
  cases e <;> simp only [backSExpr, inSExpr] <;> okparts
  · rw [ok_cond]; simp [Leaf.readable]
  · exact ok_shape X _

theorem ok_info (i : Info) : (∃ x, backInfo X i = .ok x) ↔ inInfo (Leaf.readable X) i := by
  unfold backInfo inInfo
  okparts
  rw [ok_sexpr]

theorem ok_schema (s : Schema) : (∃ x, backSchema X s = .ok x) ↔ inSchema (Leaf.readable X) s := by
  unfold backSchema inSchema inMap
  okparts
  simp only [ok_info, ok_prefixMap, ok_act]
  have h : ∀ b, Leaf.readable X (.distinct b) ↔ True := fun b => by simp [Leaf.readable]
  have h2 : ∀ l, Leaf.readable X (.label l) ↔ True := fun b => by simp [Leaf.readable]
  simp only [h, h2, and_true, true_and, inAll, implies_true]

/-! ## Keeping -/

theorem kept_num (n : Num) (h : inNum (Leaf.kept X) n) : backNum X n = .ok n := by
  cases n <;> try rfl
  rename_i s
  have h : X.decimal s = some s := h
  simp only [backNum, h, ofOption, res_ok_bind]
  rfl

theorem kept_lit (l : Lit) (h : inLit (Leaf.kept X) l) : backLit X l = .ok l := by
  cases l with
  | string lex lang => rfl
  | datatype lex dt => simp only [backLit, kept_ref X dt h, res_ok_bind]; rfl
  | numeric n => simp only [backLit, kept_num X n h, res_ok_bind]; rfl
  | dateTime s =>
    have h : X.dateTime s = some s := h
    simp only [backLit, h, ofOption, res_ok_bind]; rfl
  | boolean b => exact h.elim
  | wrong lex dt e => simp only [backLit, kept_ref X dt h, res_ok_bind]; rfl

theorem kept_obj (o : Obj) (h : inObj (Leaf.kept X) o) : backObj X o = .ok o := by
  cases o with
  | iri s => simp only [backObj, kept_iri X s h, res_ok_bind]; rfl
  | literal l => simp only [backObj, kept_lit X l h, res_ok_bind]; rfl

theorem kept_iriExcl (e : IriExcl) (h : inIriExcl (Leaf.kept X) e) : backIriExcl X e = .ok e := by
  cases e with
  | iri s => simp only [backIriExcl, kept_iri X s h, res_ok_bind]; rfl
  | stem s => simp only [backIriExcl, kept_iri X s h, res_ok_bind]; rfl

theorem kept_iriOrWild (e : OrWild) (h : inIriOrWild (Leaf.kept X) e) :
    backIriOrWild X e = .ok e := by
  cases e with
  | text s => simp only [backIriOrWild, kept_iri X s h, res_ok_bind]; rfl
  | wildcard s => rfl

theorem kept_value (v : Value) (h : inValue (Leaf.kept X) v) : backValue X v = .ok v := by
  cases v with
  | iriStem s => simp only [backValue, kept_iri X s h, res_ok_bind]; rfl
  | iriStemRange s e =>
    simp only [backValue, kept_iriOrWild X s h.1, res_ok_bind,
      kept_opt _ e fun l hl => kept_all _ l fun a ha => kept_iriExcl X a (h.2 l hl a ha)]
    rfl
  | object o => simp only [backValue, kept_obj X o h, res_ok_bind]; rfl
  | _ => rfl

theorem kept_distinct {b : Bool} (h : Leaf.kept X (.distinct b)) : b = true := h

theorem kept_prefixMap (pm : List (String × String)) (h : inPrefixMap (Leaf.kept X) pm) :
    backPrefixMap X pm = .ok pm :=
  kept_map _ _ pm (fun e he => ⟨rfl, kept_iri X e.2 (h.1 e he).2⟩)
    (of_decide_eq_true (kept_distinct X h.2))

theorem kept_kind (k : Kind) (h : inKind (Leaf.kept X) k) : backKind X k = .ok k := by
  cases k with
  | datatype i q => simp only [backKind, kept_iri X i h, res_ok_bind]; rfl
  | pattern r f b =>
    simp only [backKind, kept_opt _ b fun s hs => kept_iri X s (h s hs), res_ok_bind]; rfl
  | minInclusive n => simp only [backKind, kept_num X n h, res_ok_bind]; rfl
  | minExclusive n => simp only [backKind, kept_num X n h, res_ok_bind]; rfl
  | maxInclusive n => simp only [backKind, kept_num X n h, res_ok_bind]; rfl
  | maxExclusive n => simp only [backKind, kept_num X n h, res_ok_bind]; rfl
  | valueSet vs pm =>
    simp only [backKind, kept_all _ vs fun v hv => kept_value X v (h.1 v hv), res_ok_bind,
      kept_prefixMap X pm h.2]
    rfl
  | semAct n c => simp only [backKind, kept_iri X n h, res_ok_bind]; rfl
  | _ => rfl

mutual
theorem kept_cond (c : Cond) (h : inCond (Leaf.kept X) c) : backCond X c = .ok c := by
  cases c with
  | single n k =>
    simp only [inCond] at h
    simp only [backCond, kept_opt _ k fun l hl => kept_kind X l (h l hl), res_ok_bind]; rfl
  | ref i => rfl
  | and cs =>
    simp only [inCond] at h
    simp only [backCond, kept_conds cs h, res_ok_bind]; rfl
theorem kept_conds (cs : List Cond) (h : inConds (Leaf.kept X) cs) : backConds X cs = .ok cs := by
  cases cs with
  | nil => rfl
  | cons c cs =>
    simp only [inConds] at h
    simp only [backConds, kept_cond c h.1, kept_conds cs h.2, res_ok_bind]; rfl
end

theorem kept_card (c : Card) (h : Leaf.kept X (.max c.max)) : backCard c = .ok c := by
  simp only [backCard, kept_max X _ h, res_ok_bind]; rfl

mutual
theorem kept_expr (v : Rbe.Expr Nat) (h : inExpr (Leaf.kept X) v) : backExpr v = .ok v := by
  cases v with
  | fail => rfl
  | empty => rfl
  | symbol v c => simp only [inExpr] at h; simp only [backExpr, kept_card X c h, res_ok_bind]; rfl
  | and vs => simp only [inExpr] at h; simp only [backExpr, kept_exprs vs h, res_ok_bind]; rfl
  | or vs => simp only [inExpr] at h; simp only [backExpr, kept_exprs vs h, res_ok_bind]; rfl
  | star v => simp only [inExpr] at h; simp only [backExpr, kept_expr v h, res_ok_bind]; rfl
  | plus v => simp only [inExpr] at h; simp only [backExpr, kept_expr v h, res_ok_bind]; rfl
  | «repeat» v c =>
    simp only [inExpr] at h
    simp only [backExpr, kept_expr v h.1, kept_card X c h.2, res_ok_bind]; rfl
theorem kept_exprs (vs : List (Rbe.Expr Nat)) (h : inExprs (Leaf.kept X) vs) :
    backExprs vs = .ok vs := by
  cases vs with
  | nil => rfl
  | cons v vs =>
    simp only [inExprs] at h
    simp only [backExprs, kept_expr v h.1, kept_exprs vs h.2, res_ok_bind]; rfl
end

theorem ofExprs_eq {A : Type} [DecidableEq A] (vs : List (Rbe.Expr A)) :
    Struct.ofExprs vs = vs.map Struct.ofExpr := by
  induction vs with
  | nil => rfl
  | cons v vs ih => simp only [Struct.ofExprs, ih, List.map_cons]

mutual
theorem ofExpr_idem {A : Type} [DecidableEq A] (e : Rbe.Expr A) :
    Struct.ofExpr (Struct.ofExpr e).rbe = Struct.ofExpr e := by
  cases e with
  | fail => rfl
  | empty => rfl
  | symbol v c => rfl
  | and vs =>
    simp only [Struct.ofExpr, Struct.and, ofExprs_idem vs]
  | or vs =>
    simp only [Struct.ofExpr, Struct.or, ofExprs_idem vs]
  | star v => simp only [Struct.ofExpr, Struct.star, ofExpr_idem v]
  | plus v => simp only [Struct.ofExpr, Struct.plus, ofExpr_idem v]
  | «repeat» v c => simp only [Struct.ofExpr, Struct.repeat, ofExpr_idem v]
theorem ofExprs_idem {A : Type} [DecidableEq A] (vs : List (Rbe.Expr A)) :
    Struct.ofExprs ((Struct.ofExprs vs).map Struct.rbe) = Struct.ofExprs vs := by
  cases vs with
  | nil => rfl
  | cons v vs => simp only [Struct.ofExprs, List.map_cons, ofExpr_idem v, ofExprs_idem vs]
end

theorem ofExprs_built {A : Type} [DecidableEq A] (l : List (Struct A))
    (h : ∀ s ∈ l, Struct.ofExpr s.rbe = s) : Struct.ofExprs (l.map Struct.rbe) = l := by
  rw [ofExprs_eq, List.map_map]
  conv => rhs; rw [← List.map_id l]
  exact List.map_congr_left h

theorem ofExpr_built {A : Type} [DecidableEq A] {s : Struct A} (h : Rbe.Built s) :
    Struct.ofExpr s.rbe = s := by
  induction h with
  | empty => rfl
  | symbol x min max => rfl
  | or l h ih => simp only [Struct.or, Struct.ofExpr, ofExprs_built l ih]
  | and l h ih => simp only [Struct.and, Struct.ofExpr, ofExprs_built l ih]
  | opt s h ih =>
    simp only [Struct.opt, Struct.ofExpr, Struct.ofExprs, ih, Struct.or]
    simp [Struct.empty, Struct.overlap, Struct.overlapItem]
  | plus s h ih => simp only [Struct.plus, Struct.ofExpr, ih]
  | star s h ih => simp only [Struct.star, Struct.ofExpr, ih]
  | «repeat» s min max h ih => simp only [Struct.repeat, Struct.ofExpr, ih]
  | ofExpr e => exact ofExpr_idem e

theorem kept_struct (s : Struct Nat) (h : inStruct (Leaf.kept X) s) : backStruct s = .ok s := by
  simp only [backStruct, kept_expr X _ h.1, res_ok_bind, ofExpr_built (A := Nat) h.2]
  rfl

theorem kept_pred (p : Pred) (h : inPred (Leaf.kept X) p) : backPred X p = .ok p := by
  simp only [backPred, kept_iri X _ h, res_ok_bind]; rfl

theorem kept_table (t : Table) (h : inTable (Leaf.kept X) t) : backTable X t = .ok t := by
  obtain ⟨h1, h2, h3, h4⟩ := h
  unfold backTable
  rw [kept_struct X _ h1,
    kept_map (backPred X) (backSet Res.ok) t.keyComponents (fun e he =>
      ⟨kept_pred X _ (h2.1 e he).1,
        kept_set _ _ (fun _ _ => rfl) (of_decide_eq_true (kept_distinct X (h2.1 e he).2))⟩)
      (of_decide_eq_true (kept_distinct X h2.2)),
    kept_map Res.ok (backCond X) t.componentCond (fun e he => ⟨rfl, kept_cond X _ (h3.1 e he).2⟩)
      (of_decide_eq_true (kept_distinct X h3.2)),
    kept_map Res.ok (backPred X) t.componentKey (fun e he => ⟨rfl, kept_pred X _ (h4.1 e he).2⟩)
      (of_decide_eq_true (kept_distinct X h4.2))]
  rfl

theorem kept_act (a : Act) (h : inAct (Leaf.kept X) a) : backAct X a = .ok a := by
  simp only [backAct, kept_iri X _ h, res_ok_bind]; rfl

theorem kept_ann (a : Ann) (h : inAnn (Leaf.kept X) a) : backAnn X a = .ok a := by
  simp only [backAnn, kept_iri X _ h.1, kept_obj X _ h.2, res_ok_bind]; rfl

theorem kept_shape (s : Shape) (h : inShape (Leaf.kept X) s) : backShape X s = .ok s := by
  obtain ⟨h1, h2, h3, h4, h5⟩ := h
  unfold backShape
  rw [kept_all _ s.extra fun p hp => kept_pred X p (h1 p hp), kept_table X _ h2,
    kept_all _ s.semActs fun p hp => kept_act X p (h3 p hp),
    kept_all _ s.annotations fun p hp => kept_ann X p (h4 p hp),
    kept_all _ s.preds fun p hp => kept_pred X p (h5 p hp)]
  rfl

theorem kept_sexpr (e : SExpr) (h : inSExpr (Leaf.kept X) e) : backSExpr X e = .ok e.again := by
  cases e with
  | nodeConstraint b c d => simp only [backSExpr, kept_cond X _ h.2, res_ok_bind]; rfl
  | shape s => simp only [backSExpr, kept_shape X _ h, res_ok_bind]; rfl
  | _ => rfl

theorem kept_info (i : Info) (h : inInfo (Leaf.kept X) i) : backInfo X i = .ok i.again := by
  unfold backInfo
  rw [kept_optTo _ Label.again i.label fun l hl => kept_label X l (h.1 l hl), kept_sexpr X _ h.2]
  rfl

theorem again_injective : Function.Injective Label.again := by
  intro a b h
  cases a <;> cases b <;> simp_all [Label.again]

theorem kept_schema (s : Schema) (h : inSchema (Leaf.kept X) s) :
    backSchema X s = .ok (s.again 0) := by
  obtain ⟨h1, h2, h3, h4, h5, h6, h7, h8, h9, h10⟩ := h
  unfold backSchema
  rw [kept_mapTo (backLabel X) Res.ok Label.again id s.labels
      (fun e he => ⟨kept_label X _ (h1.1 e he).1, rfl⟩) again_injective
      (of_decide_eq_true (kept_distinct X h1.2)),
    kept_mapTo Res.ok (backLabel X) id Label.again s.idxLabels
      (fun e he => ⟨rfl, kept_label X _ (h2.1 e he).2⟩) Function.injective_id
      (of_decide_eq_true (kept_distinct X h2.2)),
    kept_mapTo Res.ok (backInfo X) id Info.again s.shapes
      (fun e he => ⟨rfl, kept_info X _ (h3.1 e he).2⟩) Function.injective_id
      (of_decide_eq_true (kept_distinct X h3.2)),
    kept_map (backIri X) Res.ok s.sourcesMap (fun e he => ⟨kept_iri X _ (h4.1 e he).1, rfl⟩)
      (of_decide_eq_true (kept_distinct X h4.2)),
    kept_map Res.ok (backIri X) s.sources (fun e he => ⟨rfl, kept_iri X _ (h5.1 e he).2⟩)
      (of_decide_eq_true (kept_distinct X h5.2)),
    kept_prefixMap X _ h6,
    kept_all _ s.imported fun p hp => kept_iri X p (h7 p hp),
    kept_set _ s.abstracts (fun _ _ => rfl) (of_decide_eq_true (kept_distinct X h8)),
    kept_opt _ s.base fun p hp => kept_iri X p (h9 p hp),
    kept_all _ s.startActs fun p hp => kept_act X p (h10 p hp)]
  rfl

end Cache
