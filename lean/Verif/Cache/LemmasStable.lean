import Verif.Cache.Lemmas

/-! # What is read does not depend on what follows, part by part -/

namespace Cache

open Rbe (Mx Card Struct)

variable (X : Ext)

syntax "stab1" : tactic
macro_rules | `(tactic| stab1) => `(tactic| with_reducible exact Stable.pure _)
macro_rules | `(tactic| stab1) => `(tactic| with_reducible exact Stable.fail)
macro_rules | `(tactic| stab1) => `(tactic| with_reducible exact Stable.lift _)
macro_rules | `(tactic| stab1) => `(tactic| with_reducible exact stable_var)
macro_rules | `(tactic| stab1) => `(tactic| with_reducible exact stable_int)
macro_rules | `(tactic| stab1) => `(tactic| with_reducible exact stable_byte)
macro_rules | `(tactic| stab1) => `(tactic| with_reducible exact stable_bool)
macro_rules | `(tactic| stab1) => `(tactic| with_reducible exact stable_str)
macro_rules | `(tactic| stab1) => `(tactic| with_reducible refine stable_opt ?_)
macro_rules | `(tactic| stab1) => `(tactic| with_reducible refine stable_list ?_)
macro_rules | `(tactic| stab1) => `(tactic| with_reducible refine stable_pair ?_ ?_)
macro_rules | `(tactic| stab1) => `(tactic| with_reducible refine stable_map ?_ ?_)
macro_rules | `(tactic| stab1) => `(tactic| with_reducible refine stable_set ?_)
macro_rules | `(tactic| stab1) => `(tactic| with_reducible refine Stable.bind ?_ fun _ => ?_)
macro_rules | `(tactic| stab1) => `(tactic| split)

/-- Takes a reader apart. -/
macro "stab" : tactic => `(tactic| repeat' stab1)

theorem stable_iri : Stable (decIri X) := by unfold decIri; stab
theorem stable_label : Stable (decLabel X) := by unfold decLabel; stab
theorem stable_ref : Stable (decRef X) := by unfold decRef; stab
theorem stable_nodeKind : Stable decNodeKind := by unfold decNodeKind; stab
theorem stable_raw (k : Nat) : Stable (decRaw k) := by
  refine Stable.bind (stable_take k) fun b => ?_
  split <;> stab
macro_rules | `(tactic| stab1) => `(tactic| with_reducible exact stable_iri _)
macro_rules | `(tactic| stab1) => `(tactic| with_reducible exact stable_label _)
macro_rules | `(tactic| stab1) => `(tactic| with_reducible exact stable_ref _)
macro_rules | `(tactic| stab1) => `(tactic| with_reducible exact stable_nodeKind)
macro_rules | `(tactic| stab1) => `(tactic| with_reducible exact stable_raw _)
theorem stable_num : Stable (decNum X) := by unfold decNum; stab
macro_rules | `(tactic| stab1) => `(tactic| with_reducible exact stable_num _)
theorem stable_lit : Stable (decLit X) := by unfold decLit; stab
macro_rules | `(tactic| stab1) => `(tactic| with_reducible exact stable_lit _)
theorem stable_obj : Stable (decObj X) := by unfold decObj; stab
macro_rules | `(tactic| stab1) => `(tactic| with_reducible exact stable_obj _)
theorem stable_iriExcl : Stable (decIriExcl X) := by unfold decIriExcl; stab
theorem stable_textExcl : Stable decTextExcl := by unfold decTextExcl; stab
theorem stable_orWild {d : Dec String} (h : Stable d) : Stable (decOrWild d) := by
  refine Stable.bind stable_var fun t => ?_
  split
  · exact Stable.bind h fun _ => Stable.pure _
  · stab
  · stab
macro_rules | `(tactic| stab1) => `(tactic| with_reducible exact stable_iriExcl _)
macro_rules | `(tactic| stab1) => `(tactic| with_reducible exact stable_textExcl)
macro_rules | `(tactic| stab1) => `(tactic| with_reducible refine stable_orWild ?_)
theorem stable_value : Stable (decValue X) := by unfold decValue; stab
macro_rules | `(tactic| stab1) => `(tactic| with_reducible exact stable_value _)
theorem stable_prefixMap : Stable (decPrefixMap X) := by unfold decPrefixMap; stab
macro_rules | `(tactic| stab1) => `(tactic| with_reducible exact stable_prefixMap _)
theorem stable_kind : Stable (decKind X) := by unfold decKind; stab
macro_rules | `(tactic| stab1) => `(tactic| with_reducible exact stable_kind _)

theorem stable_condN (n : Nat) : Stable (decCondN X n) := by
  induction n with
  | zero => exact Stable.fail
  | succ n ih =>
    unfold decCondN
    refine Stable.bind stable_var fun t => ?_
    split
    · stab
    · stab
    · exact Stable.bind (stable_list ih) fun _ => Stable.pure _
    · stab

theorem le_condN (n : Nat) : Le (decCondN X n) (decCondN X (n + 1)) := by
  induction n with
  | zero => exact Le.fail _
  | succ n ih =>
    rw [decCondN, decCondN]
    refine Le.bind (Le.refl _) fun t => ?_
    split
    · exact Le.refl _
    · exact Le.refl _
    · exact Le.bind (Le.list ih) fun _ => Le.refl _
    · exact Le.refl _

theorem le_condN_add (n m : Nat) : Le (decCondN X n) (decCondN X (n + m)) := by
  induction m with
  | zero => exact Le.refl _
  | succ m ih => exact fun bs x h => le_condN X (n + m) bs x (ih bs x h)

theorem stable_cond : Stable (decCond X) := by
  intro bs a r t h
  have h1 := stable_condN X _ bs a r t h
  have h2 := le_condN_add X (bs.length + 1) t.length _ _ h1
  unfold decCond
  rw [show (bs ++ t).length + 1 = bs.length + 1 + t.length by simp; omega]
  exact h2
macro_rules | `(tactic| stab1) => `(tactic| with_reducible exact stable_cond _)

theorem stable_max : Stable decMax := by unfold decMax; stab
macro_rules | `(tactic| stab1) => `(tactic| with_reducible exact stable_max)
theorem stable_card : Stable decCard := by unfold decCard; stab
macro_rules | `(tactic| stab1) => `(tactic| with_reducible exact stable_card)

theorem stable_exprN (n : Nat) : Stable (decExprN n) := by
  induction n with
  | zero => exact Stable.fail
  | succ n ih =>
    unfold decExprN
    refine Stable.bind stable_var fun t => ?_
    split
    · stab
    · stab
    · stab
    · exact Stable.bind (stable_list ih) fun _ => Stable.pure _
    · exact Stable.bind (stable_list ih) fun _ => Stable.pure _
    · exact Stable.bind ih fun _ => Stable.pure _
    · exact Stable.bind ih fun _ => Stable.pure _
    · exact Stable.bind ih fun _ => by stab
    · stab

theorem le_exprN (n : Nat) : Le (decExprN n) (decExprN (n + 1)) := by
  induction n with
  | zero => exact Le.fail _
  | succ n ih =>
    rw [decExprN, decExprN]
    refine Le.bind (Le.refl _) fun t => ?_
    split
    · exact Le.refl _
    · exact Le.refl _
    · exact Le.refl _
    · exact Le.bind (Le.list ih) fun _ => Le.refl _
    · exact Le.bind (Le.list ih) fun _ => Le.refl _
    · exact Le.bind ih fun _ => Le.refl _
    · exact Le.bind ih fun _ => Le.refl _
    · exact Le.bind ih fun _ => Le.refl _
    · exact Le.refl _

theorem le_exprN_add (n m : Nat) : Le (decExprN n) (decExprN (n + m)) := by
  induction m with
  | zero => exact Le.refl _
  | succ m ih => exact fun bs x h => le_exprN (n + m) bs x (ih bs x h)

theorem stable_expr : Stable decExpr := by
  intro bs a r t h
  have h1 := stable_exprN _ bs a r t h
  have h2 := le_exprN_add (bs.length + 1) t.length _ _ h1
  unfold decExpr
  rw [show (bs ++ t).length + 1 = bs.length + 1 + t.length by simp; omega]
  exact h2
macro_rules | `(tactic| stab1) => `(tactic| with_reducible exact stable_expr)

theorem stable_struct : Stable decStruct := by unfold decStruct; stab
macro_rules | `(tactic| stab1) => `(tactic| with_reducible exact stable_struct)
theorem stable_pred : Stable (decPred X) := by unfold decPred; stab
macro_rules | `(tactic| stab1) => `(tactic| with_reducible exact stable_pred _)
theorem stable_table : Stable (decTable X) := by unfold decTable; stab
macro_rules | `(tactic| stab1) => `(tactic| with_reducible exact stable_table _)
theorem stable_act : Stable (decAct X) := by unfold decAct; stab
macro_rules | `(tactic| stab1) => `(tactic| with_reducible exact stable_act _)
theorem stable_ann : Stable (decAnn X) := by unfold decAnn; stab
macro_rules | `(tactic| stab1) => `(tactic| with_reducible exact stable_ann _)
theorem stable_shape : Stable (decShape X) := by unfold decShape; stab
macro_rules | `(tactic| stab1) => `(tactic| with_reducible exact stable_shape _)
theorem stable_sexpr : Stable (decSExpr X) := by unfold decSExpr; stab
macro_rules | `(tactic| stab1) => `(tactic| with_reducible exact stable_sexpr _)
theorem stable_info : Stable (decInfo X) := by unfold decInfo; stab
macro_rules | `(tactic| stab1) => `(tactic| with_reducible exact stable_info _)
theorem stable_deps : Stable decDeps := by unfold decDeps; stab
theorem stable_inh : Stable decInh := by unfold decInh; stab
macro_rules | `(tactic| stab1) => `(tactic| with_reducible exact stable_deps)
macro_rules | `(tactic| stab1) => `(tactic| with_reducible exact stable_inh)
theorem stable_schema : Stable (decSchema X) := by unfold decSchema; stab

theorem stable_header : Stable decHeader := by unfold decHeader; stab

theorem stable_readHeader : Stable readHeader := by
  unfold readHeader
  refine Stable.bind (stable_take 4) fun m => Stable.ite ?_ Stable.fail
  refine Stable.bind (stable_take 4) fun m => Stable.ite ?_ Stable.fail
  refine Stable.bind (stable_take 4) fun m => ?_
  exact Stable.bind (stable_take _) fun m => Stable.lift _

end Cache
