import Verif.Comp.LemmasSuccess

/-!
# The depth of the recursion
-/

namespace Comp
open Shex Rbe

variable {N P NC : Type}

/-! ## More depth does not change a result -/

/-- The second is the first, unless the first did not end. -/
def Res.Le {A : Type} (a b : Res A) : Prop := a = .more ∨ a = b

theorem Res.Le.refl {A : Type} (a : Res A) : a.Le a := .inr rfl

theorem Res.Le.bind {A B : Type} {a b : Res A} (h : a.Le b) {f g : A → Res B} (hf : ∀ x, (f x).Le (g x)) :
    (a.bind f).Le (b.bind g) := by
  rcases h with rfl | rfl
  · exact .inl rfl
  · cases a with
    | ok x => exact hf x
    | err => exact .inr rfl
    | more => exact .inl rfl

variable [DecidableEq P]

theorem operands_le {go go' : SE P NC → Nat → St N P → Res (ShapeExpr N P × St N P)}
    (h : ∀ e i st, (go e i st).Le (go' e i st)) (es : List (SE P NC)) (st : St N P) :
    (operands go es st).Le (operands go' es st) := by
  induction es generalizing st with
  | nil => exact .refl _
  | cons e es ih =>
    simp only [operands]
    exact (h _ _ _).bind fun r => (ih _).bind fun _ => .refl _

theorem valueCond_le {G : Ctxt N P NC} {go go' : SE P NC → Nat → St N P → Res (ShapeExpr N P × St N P)}
    (h : ∀ e i st, (go e i st).Le (go' e i st)) (v : Option (SE P NC)) (st : St N P) :
    (valueCond G go v st).Le (valueCond G go' v st) := by
  cases v with
  | none => exact .refl _
  | some e =>
    cases e with
    | ref l => exact .refl _
    | or es => exact (operands_le h es st).bind fun _ => .refl _
    | and es => exact (operands_le h es st).bind fun _ => .refl _
    | not e => exact (h _ _ _).bind fun _ => .refl _
    | shape _ _ _ _ _ => exact (h _ _ _).bind fun _ => .refl _
    | nc c => exact .refl _
    | external => exact .refl _

theorem parts_le {go go' : TE P NC → TExpr N P → St N P → Res (Rbe.Struct Nat × TExpr N P × St N P)}
    (h : ∀ e t st, (go e t st).Le (go' e t st)) (es : List (TE P NC)) (t : TExpr N P) (st : St N P) :
    (parts go es t st).Le (parts go' es t st) := by
  induction es generalizing t st with
  | nil => exact .refl _
  | cons e es ih =>
    simp only [parts]
    exact (h _ _ _).bind fun r => (ih _ _).bind fun _ => .refl _

theorem predsOver_le {go go' : TE P NC → Res (List (Pred P))} (h : ∀ e, (go e).Le (go' e))
    (es : List (TE P NC)) : (predsOver go es).Le (predsOver go' es) := by
  induction es with
  | nil => exact .refl _
  | cons e es ih =>
    simp only [predsOver]
    exact (h _).bind fun r => ih.bind fun _ => .refl _

theorem getPreds_le (tes : TLabel P → Option (TE P NC)) (n : Nat) (te : TE P NC) (vis : List (TLabel P)) :
    (getPreds tes n te vis).Le (getPreds tes (n + 1) te vis) := by
  induction n generalizing te vis with
  | zero => exact .inl rfl
  | succ n ih =>
    cases te with
    | eachOf id es mn mx as =>
      simp only [getPreds]
      exact predsOver_le (fun e => ih e vis) es
    | oneOf id es mn mx as =>
      simp only [getPreds]
      exact predsOver_le (fun e => ih e vis) es
    | tc id ng iv p v mn mx as => exact .refl _
    | ref l =>
      rw [getPreds, getPreds]
      split
      · exact .refl _
      · exact (Res.Le.refl _).bind fun e => ih e _

theorem compile_le (G : Ctxt N P NC) (tes : TLabel P → Option (TE P NC)) (n : Nat) :
    (∀ e i (st : St N P), (compileSE G tes n e i st).Le (compileSE G tes (n + 1) e i st)) ∧
      ∀ te vis t (st : St N P), (compileTE G tes n te vis t st).Le (compileTE G tes (n + 1) te vis t st) := by
  induction n with
  | zero => exact ⟨fun _ _ _ => .inl rfl, fun _ _ _ _ => .inl rfl⟩
  | succ n ih =>
    obtain ⟨ih1, ih2⟩ := ih
    refine ⟨?_, ?_⟩
    · intro e i st
      cases e with
      | ref l => exact .refl _
      | or es =>
        rw [compileSE, compileSE]
        exact (operands_le ih1 es st).bind fun _ => .refl _
      | and es =>
        rw [compileSE, compileSE]
        exact (operands_le ih1 es st).bind fun _ => .refl _
      | not e =>
        rw [compileSE, compileSE]
        exact (ih1 _ _ _).bind fun _ => .refl _
      | shape cl ex te xs as =>
        rw [compileSE, compileSE]
        refine (Res.Le.refl _).bind fun _ => ?_
        cases te with
        | none => exact .refl _
        | some te =>
          simp only [shapeTable, shapePreds]
          refine Res.Le.bind ((ih2 _ _ _ _).bind fun _ => .refl _) fun r => ?_
          exact (getPreds_le _ _ _ _).bind fun _ => .refl _
      | nc c => exact .refl _
      | external => exact .refl _
    · intro te vis t st
      cases te with
      | eachOf id es mn mx as =>
        rw [compileTE, compileTE]
        exact (parts_le (fun e => ih2 e vis) es t st).bind fun _ => .refl _
      | oneOf id es mn mx as =>
        rw [compileTE, compileTE]
        exact (parts_le (fun e => ih2 e vis) es t st).bind fun _ => .refl _
      | tc id ng iv p v mn mx as =>
        rw [compileTE, compileTE]
        refine (Res.Le.refl _).bind fun _ => (Res.Le.refl _).bind fun _ => (Res.Le.refl _).bind fun _ =>
          (Res.Le.refl _).bind fun _ => ?_
        exact (valueCond_le ih1 v st).bind fun _ => .refl _
      | ref l =>
        rw [compileTE, compileTE]
        split
        · exact .refl _
        · exact (Res.Le.refl _).bind fun e => ih2 e _ _ _

theorem compileDecls_le (G : Ctxt N P NC) (tes : TLabel P → Option (TE P NC)) (n : Nat)
    (ds : List (Decl P NC)) (st : St N P) :
    (compileDecls G tes n ds st).Le (compileDecls G tes (n + 1) ds st) := by
  induction ds generalizing st with
  | nil => exact .refl _
  | cons d ds ih =>
    simp only [compileDecls]
    exact (Res.Le.refl _).bind fun i => ((compile_le G tes n).1 _ _ _).bind fun r => ih _

theorem compileSources_le (G : Ctxt N P NC) (tes : TLabel P → Option (TE P NC)) (n : Nat)
    (ss : List (Source P NC)) (st : St N P) :
    (compileSources G tes n ss st).Le (compileSources G tes (n + 1) ss st) := by
  rw [compileSources_eq, compileSources_eq]
  exact compileDecls_le _ _ _ _ _

theorem importLoop_le {W : World N P NC} {src : P}
    {go go' : Source P NC → P → Option P → Acc N P NC → Res (Acc N P NC)}
    (h : ∀ s i b a, (go s i b a).Le (go' s i b a)) (is : List P) (a : Acc N P NC) :
    (importLoop W src go is a).Le (importLoop W src go' is a) := by
  induction is generalizing a with
  | nil => exact .refl _
  | cons i is ih =>
    simp only [importLoop]
    split
    · exact ih a
    · exact (Res.Le.refl _).bind fun s => (h _ _ _ _).bind fun b => (Res.Le.refl _).bind fun st => ih _

theorem collectImports_le (W : World N P NC) (n : Nat) (s : Source P NC) (src : P) (base : Option P)
    (a : Acc N P NC) : (collectImports W n s src base a).Le (collectImports W (n + 1) s src base a) := by
  induction n generalizing s src base a with
  | zero => exact .inl rfl
  | succ n ih =>
    rw [collectImports, collectImports]
    exact (Res.Le.refl _).bind fun is => importLoop_le (fun s i b a => ih s i b a) is a

theorem compile_all_le (W : World N P NC) (n : Nat) (s : Source P NC) (src : P) (base : Option P) :
    (compile (N := N) W n s src base).Le (compile W (n + 1) s src base) := by
  unfold compile
  refine (collectImports_le _ _ _ _ _ _).bind fun a => (Res.Le.refl _).bind fun _ =>
    (Res.Le.refl _).bind fun st1 => Res.Le.bind ?_ fun st2 => (Res.Le.refl _).bind fun m =>
      (compileSources_le _ _ _ _ _).bind fun _ => .refl _
  cases (W.rewrite s).start with
  | none => exact .refl _
  | some e => exact ((compile_le _ _ n).1 _ _ _).bind fun _ => .refl _

/-- A result does not change with more depth. -/
theorem compile_stable {W : World N P NC} {n m : Nat} (hnm : n ≤ m) {s : Source P NC} {src : P}
    {base : Option P} (h : compile (N := N) W n s src base ≠ .more) :
    compile (N := N) W m s src base = compile W n s src base := by
  induction hnm with
  | refl => rfl
  | @step m _ ih =>
    rcases compile_all_le (N := N) W m s src base with h1 | h1
    · rw [ih] at h1; exact (h h1).elim
    · rw [← h1, ih]

/-! ## Enough depth -/

/-- With enough depth the expression is compiled or refused. -/
def SE.Ends (G : Ctxt N P NC) (tes : TLabel P → Option (TE P NC)) (e : SE P NC) : Prop :=
  ∃ n, ∀ m ≥ n, ∀ i (st : St N P), compileSE G tes m e i st ≠ .more

/-- With enough depth the triple expression is compiled or refused. -/
def TE.Ends (G : Ctxt N P NC) (tes : TLabel P → Option (TE P NC)) (e : TE P NC) : Prop :=
  ∃ n, ∀ m ≥ n, ∀ vis, (∀ t (st : St N P), compileTE G tes m e vis t st ≠ .more) ∧
    getPreds tes m e vis ≠ .more

theorem Res.bind_ne_more {A B : Type} {a : Res A} (h : a ≠ .more) {f : A → Res B}
    (hf : ∀ x, f x ≠ .more) : a.bind f ≠ .more := by
  cases a with
  | ok x => exact hf x
  | err => simp [Res.bind]
  | more => exact (h rfl).elim

theorem Res.bind_ne_more' {A B : Type} {a : Res A} (h : a ≠ .more) {f : A → Res B}
    (hf : ∀ x, a = .ok x → f x ≠ .more) : a.bind f ≠ .more := by
  cases a with
  | ok x => exact hf x rfl
  | err => simp [Res.bind]
  | more => exact (h rfl).elim

omit [DecidableEq P] in
theorem Res.of_ne_more {A : Type} (a : Option A) : Res.of a ≠ .more := by
  cases a <;> simp [Res.of]

theorem mapRes_ne_more {A B : Type} {f : A → Res B} (h : ∀ a, f a ≠ .more) (as : List A) :
    mapRes f as ≠ .more := by
  induction as with
  | nil => simp [mapRes]
  | cons a as ih => exact Res.bind_ne_more (h a) fun _ => Res.bind_ne_more ih fun _ => by simp

omit [DecidableEq P] in
theorem cnvIri_ne_more (G : Ctxt N P NC) (r : IRef P) : cnvIri G r ≠ .more := by
  cases r with
  | iri i => simp [cnvIri]
  | prefixed a l => exact Res.of_ne_more _

omit [DecidableEq P] in
theorem cnvAct_ne_more (G : Ctxt N P NC) (a : Act P) : cnvAct G a ≠ .more :=
  Res.bind_ne_more (cnvIri_ne_more _ _) fun _ => by simp

omit [DecidableEq P] in
theorem toLabel_ne_more (l : Label P) : toLabel l ≠ .more := by
  cases l with
  | ref r => cases r <;> simp [toLabel]
  | bnode b => simp [toLabel]
  | start => simp [toLabel]

theorem refIdx_ne_more (st : St N P) (l : Label P) : refIdx st l ≠ .more :=
  Res.bind_ne_more (toLabel_ne_more l) fun _ => Res.of_ne_more _

theorem cnvMin_ne_more (a : Option Int) : cnvMin a ≠ .more := by
  cases a with
  | none => simp [cnvMin]
  | some m => simp only [cnvMin]; split <;> simp

theorem cnvMax_ne_more (a : Option Int) : cnvMax a ≠ .more := by
  cases a with
  | none => simp [cnvMax]
  | some m => simp only [cnvMax]; split <;> (try split) <;> simp

omit [DecidableEq P] in
theorem cnvPredicate_ne_more (p : IRef P) (iv : Option Bool) : cnvPredicate p iv ≠ .more := by
  cases p <;> simp [cnvPredicate]

omit [DecidableEq P] in
theorem actConds_ne_more (G : Ctxt N P NC) (as : List (Act P)) : actConds G as ≠ .more :=
  Res.bind_ne_more (mapRes_ne_more (cnvAct_ne_more G) _) fun _ =>
    mapRes_ne_more (fun a => by split <;> simp) _

theorem operands_ne_more {go : SE P NC → Nat → St N P → Res (ShapeExpr N P × St N P)} (es : List (SE P NC))
    (h : ∀ e ∈ es, ∀ i st, go e i st ≠ .more) (st : St N P) : operands go es st ≠ .more := by
  induction es generalizing st with
  | nil => simp [operands]
  | cons e es ih =>
    simp only [operands]
    exact Res.bind_ne_more (h e (by simp) _ _) fun _ =>
      Res.bind_ne_more (ih (fun e he => h e (by simp [he])) _) fun _ => by simp

theorem parts_ne_more {go : TE P NC → TExpr N P → St N P → Res (Rbe.Struct Nat × TExpr N P × St N P)}
    (es : List (TE P NC)) (h : ∀ e ∈ es, ∀ t st, go e t st ≠ .more) (t : TExpr N P) (st : St N P) :
    parts go es t st ≠ .more := by
  induction es generalizing t st with
  | nil => simp [parts]
  | cons e es ih =>
    simp only [parts]
    exact Res.bind_ne_more (h e (by simp) _ _) fun _ =>
      Res.bind_ne_more (ih (fun e he => h e (by simp [he])) _ _) fun _ => by simp

theorem predsOver_ne_more {go : TE P NC → Res (List (Pred P))} (es : List (TE P NC))
    (h : ∀ e ∈ es, go e ≠ .more) : predsOver go es ≠ .more := by
  induction es with
  | nil => simp [predsOver]
  | cons e es ih =>
    simp only [predsOver]
    exact Res.bind_ne_more (h e (by simp)) fun _ =>
      Res.bind_ne_more (ih fun e he => h e (by simp [he])) fun _ => by simp

/-- The bounds of finitely many expressions. -/
theorem ends_all {G : Ctxt N P NC} {tes : TLabel P → Option (TE P NC)} (es : List (SE P NC))
    (h : ∀ e ∈ es, SE.Ends G tes e) :
    ∃ n, ∀ m ≥ n, ∀ e ∈ es, ∀ i (st : St N P), compileSE G tes m e i st ≠ .more := by
  obtain ⟨m, hm⟩ := exists_bound (F := fun e n => ∀ m ≥ n, ∀ i (st : St N P),
    compileSE G tes m e i st ≠ .more) es h
  refine ⟨m, fun k hk e he => ?_⟩
  obtain ⟨n, hn, h1⟩ := hm e he
  exact h1 k (le_trans hn hk)

theorem ends_allT {G : Ctxt N P NC} {tes : TLabel P → Option (TE P NC)} (es : List (TE P NC))
    (h : ∀ e ∈ es, TE.Ends G tes e) :
    ∃ n, ∀ m ≥ n, ∀ e ∈ es, ∀ vis, (∀ t (st : St N P), compileTE G tes m e vis t st ≠ .more) ∧
      getPreds tes m e vis ≠ .more := by
  obtain ⟨m, hm⟩ := exists_bound (F := fun e n => ∀ m ≥ n, ∀ vis,
    (∀ t (st : St N P), compileTE G tes m e vis t st ≠ .more) ∧ getPreds tes m e vis ≠ .more) es h
  refine ⟨m, fun k hk e he => ?_⟩
  obtain ⟨n, hn, h1⟩ := hm e he
  exact h1 k (le_trans hn hk)

/-- Shift by one. -/
theorem ge_succ {n m : Nat} (h : m ≥ n + 1) : ∃ k, m = k + 1 ∧ k ≥ n := ⟨m - 1, by omega, by omega⟩

mutual
theorem SE.ends {G : Ctxt N P NC} {tes : TLabel P → Option (TE P NC)} : ∀ (e : SE P NC),
    (∀ l t, e.Includes l → tes l = some t → TE.Ends G tes t) → SE.Ends G tes e
  | .ref l, _ => ⟨1, fun m hm i st => by
      obtain ⟨k, rfl, _⟩ := ge_succ hm
      rw [compileSE]
      exact Res.bind_ne_more (refIdx_ne_more _ _) fun _ => by simp⟩
  | .or es, h => by
    obtain ⟨n, hn⟩ := ends_all es (SE.ends_list es h)
    refine ⟨n + 1, fun m hm i st => ?_⟩
    obtain ⟨k, rfl, hk⟩ := ge_succ hm
    rw [compileSE]
    exact Res.bind_ne_more (operands_ne_more es (hn k hk) st) fun _ => by simp
  | .and es, h => by
    obtain ⟨n, hn⟩ := ends_all es (SE.ends_list es h)
    refine ⟨n + 1, fun m hm i st => ?_⟩
    obtain ⟨k, rfl, hk⟩ := ge_succ hm
    rw [compileSE]
    exact Res.bind_ne_more (operands_ne_more es (hn k hk) st) fun _ => by simp
  | .not e, h => by
    obtain ⟨n, hn⟩ := SE.ends e h
    refine ⟨n + 1, fun m hm i st => ?_⟩
    obtain ⟨k, rfl, hk⟩ := ge_succ hm
    rw [compileSE]
    exact Res.bind_ne_more (hn k hk _ _) fun _ => by simp
  | .shape cl ex none xs as, _ => ⟨1, fun m hm i st => by
      obtain ⟨k, rfl, _⟩ := ge_succ hm
      rw [compileSE]
      refine Res.bind_ne_more (mapRes_ne_more (fun r => Res.bind_ne_more (cnvIri_ne_more _ _) fun _ => by simp) _)
        fun _ => Res.bind_ne_more (by simp [shapeTable]) fun _ => Res.bind_ne_more (by simp [shapePreds]) fun _ =>
          Res.bind_ne_more (mapRes_ne_more (refIdx_ne_more _) _) fun _ =>
            Res.bind_ne_more (mapRes_ne_more (cnvAct_ne_more _) _) fun _ => by simp⟩
  | .shape cl ex (some te) xs as, h => by
    obtain ⟨n, hn⟩ := TE.ends te h
    refine ⟨n + 1, fun m hm i st => ?_⟩
    obtain ⟨k, rfl, hk⟩ := ge_succ hm
    rw [compileSE]
    refine Res.bind_ne_more (mapRes_ne_more (fun r => Res.bind_ne_more (cnvIri_ne_more _ _) fun _ => by simp) _)
      fun _ => Res.bind_ne_more ?_ fun _ => Res.bind_ne_more ?_ fun _ =>
        Res.bind_ne_more (mapRes_ne_more (refIdx_ne_more _) _) fun _ =>
          Res.bind_ne_more (mapRes_ne_more (cnvAct_ne_more _) _) fun _ => by simp
    · simp only [shapeTable]
      exact Res.bind_ne_more ((hn k hk []).1 _ _) fun _ => by simp
    · exact (hn k hk []).2
  | .nc c, _ => ⟨1, fun m hm i st => by
      obtain ⟨k, rfl, _⟩ := ge_succ hm
      rw [compileSE]
      exact Res.bind_ne_more (Res.of_ne_more _) fun _ => by simp⟩
  | .external, _ => ⟨1, fun m hm i st => by
      obtain ⟨k, rfl, _⟩ := ge_succ hm
      rw [compileSE]
      simp⟩
theorem SE.ends_list {G : Ctxt N P NC} {tes : TLabel P → Option (TE P NC)} : ∀ (es : List (SE P NC)),
    (∀ l t, SE.IncludesSome l es → tes l = some t → TE.Ends G tes t) → ∀ e ∈ es, SE.Ends G tes e
  | [], _ => by simp
  | e :: es, h => by
    have h1 := SE.ends e fun l t hl => h l t (.inl hl)
    have h2 := SE.ends_list es (fun l t hl => h l t (.inr hl))
    intro x hx
    rcases List.mem_cons.1 hx with hx | hx
    · rw [hx]; exact h1
    · exact h2 x hx
theorem TE.ends {G : Ctxt N P NC} {tes : TLabel P → Option (TE P NC)} : ∀ (e : TE P NC),
    (∀ l t, e.Includes l → tes l = some t → TE.Ends G tes t) → TE.Ends G tes e
  | .eachOf id es mn mx as, h => by
    obtain ⟨n, hn⟩ := ends_allT es (TE.ends_list es h)
    refine ⟨n + 1, fun m hm vis => ?_⟩
    obtain ⟨k, rfl, hk⟩ := ge_succ hm
    refine ⟨fun t st => ?_, ?_⟩
    · rw [compileTE]
      exact Res.bind_ne_more (parts_ne_more es (fun e he t st => (hn k hk e he vis).1 t st) t st) fun _ =>
        Res.bind_ne_more (Res.bind_ne_more (cnvMin_ne_more _) fun _ =>
          Res.bind_ne_more (cnvMax_ne_more _) fun _ => by simp) fun _ =>
          Res.bind_ne_more (actConds_ne_more _ _) fun _ => by simp
    · rw [getPreds]
      exact predsOver_ne_more es fun e he => (hn k hk e he vis).2
  | .oneOf id es mn mx as, h => by
    obtain ⟨n, hn⟩ := ends_allT es (TE.ends_list es h)
    refine ⟨n + 1, fun m hm vis => ?_⟩
    obtain ⟨k, rfl, hk⟩ := ge_succ hm
    refine ⟨fun t st => ?_, ?_⟩
    · rw [compileTE]
      exact Res.bind_ne_more (parts_ne_more es (fun e he t st => (hn k hk e he vis).1 t st) t st) fun _ =>
        Res.bind_ne_more (Res.bind_ne_more (cnvMin_ne_more _) fun _ =>
          Res.bind_ne_more (cnvMax_ne_more _) fun _ => by simp) fun _ => by simp
    · rw [getPreds]
      exact predsOver_ne_more es fun e he => (hn k hk e he vis).2
  | .tc id ng iv p none mn mx as, _ => ⟨1, fun m hm vis => by
      obtain ⟨k, rfl, _⟩ := ge_succ hm
      refine ⟨fun t st => ?_, ?_⟩
      · rw [compileTE]
        exact Res.bind_ne_more (cnvMin_ne_more _) fun _ => Res.bind_ne_more (cnvMax_ne_more _) fun _ =>
          Res.bind_ne_more (cnvPredicate_ne_more _ _) fun _ =>
            Res.bind_ne_more (actConds_ne_more _ _) fun _ =>
              Res.bind_ne_more (by simp [valueCond]) fun _ => by simp
      · rw [getPreds]
        exact Res.bind_ne_more (cnvPredicate_ne_more _ _) fun _ => by simp⟩
  | .tc id ng iv p (some (.or es)) mn mx as, h => by
    obtain ⟨n, hn⟩ := ends_all es (SE.ends_list es h)
    refine ⟨n + 1, fun m hm vis => ?_⟩
    obtain ⟨k, rfl, hk⟩ := ge_succ hm
    refine ⟨fun t st => ?_, ?_⟩
    · rw [compileTE]
      exact Res.bind_ne_more (cnvMin_ne_more _) fun _ => Res.bind_ne_more (cnvMax_ne_more _) fun _ =>
        Res.bind_ne_more (cnvPredicate_ne_more _ _) fun _ =>
          Res.bind_ne_more (actConds_ne_more _ _) fun _ =>
            Res.bind_ne_more (Res.bind_ne_more (operands_ne_more es (hn k hk) st) fun _ => by simp)
              fun _ => by simp
    · rw [getPreds]
      exact Res.bind_ne_more (cnvPredicate_ne_more _ _) fun _ => by simp
  | .tc id ng iv p (some (.and es)) mn mx as, h => by
    obtain ⟨n, hn⟩ := ends_all es (SE.ends_list es h)
    refine ⟨n + 1, fun m hm vis => ?_⟩
    obtain ⟨k, rfl, hk⟩ := ge_succ hm
    refine ⟨fun t st => ?_, ?_⟩
    · rw [compileTE]
      exact Res.bind_ne_more (cnvMin_ne_more _) fun _ => Res.bind_ne_more (cnvMax_ne_more _) fun _ =>
        Res.bind_ne_more (cnvPredicate_ne_more _ _) fun _ =>
          Res.bind_ne_more (actConds_ne_more _ _) fun _ =>
            Res.bind_ne_more (Res.bind_ne_more (operands_ne_more es (hn k hk) st) fun _ => by simp)
              fun _ => by simp
    · rw [getPreds]
      exact Res.bind_ne_more (cnvPredicate_ne_more _ _) fun _ => by simp
  | .tc id ng iv p (some (.not e)) mn mx as, h => by
    obtain ⟨n, hn⟩ := SE.ends e h
    refine ⟨n + 1, fun m hm vis => ?_⟩
    obtain ⟨k, rfl, hk⟩ := ge_succ hm
    refine ⟨fun t st => ?_, ?_⟩
    · rw [compileTE]
      exact Res.bind_ne_more (cnvMin_ne_more _) fun _ => Res.bind_ne_more (cnvMax_ne_more _) fun _ =>
        Res.bind_ne_more (cnvPredicate_ne_more _ _) fun _ =>
          Res.bind_ne_more (actConds_ne_more _ _) fun _ =>
            Res.bind_ne_more (Res.bind_ne_more (hn k hk _ _) fun _ => by simp) fun _ => by simp
    · rw [getPreds]
      exact Res.bind_ne_more (cnvPredicate_ne_more _ _) fun _ => by simp
  | .tc id ng iv p (some (.shape cl ex te xs as')) mn mx as, h => by
    obtain ⟨n, hn⟩ := SE.ends (.shape cl ex te xs as') h
    refine ⟨n + 1, fun m hm vis => ?_⟩
    obtain ⟨k, rfl, hk⟩ := ge_succ hm
    refine ⟨fun t st => ?_, ?_⟩
    · rw [compileTE]
      exact Res.bind_ne_more (cnvMin_ne_more _) fun _ => Res.bind_ne_more (cnvMax_ne_more _) fun _ =>
        Res.bind_ne_more (cnvPredicate_ne_more _ _) fun _ =>
          Res.bind_ne_more (actConds_ne_more _ _) fun _ =>
            Res.bind_ne_more (Res.bind_ne_more (hn k hk _ _) fun _ => by simp) fun _ => by simp
    · rw [getPreds]
      exact Res.bind_ne_more (cnvPredicate_ne_more _ _) fun _ => by simp
  | .tc id ng iv p (some (.nc c)) mn mx as, _ => ⟨1, fun m hm vis => by
      obtain ⟨k, rfl, _⟩ := ge_succ hm
      refine ⟨fun t st => ?_, ?_⟩
      · rw [compileTE]
        exact Res.bind_ne_more (cnvMin_ne_more _) fun _ => Res.bind_ne_more (cnvMax_ne_more _) fun _ =>
          Res.bind_ne_more (cnvPredicate_ne_more _ _) fun _ =>
            Res.bind_ne_more (actConds_ne_more _ _) fun _ =>
              Res.bind_ne_more (Res.bind_ne_more (Res.of_ne_more _) fun _ => by simp) fun _ => by simp
      · rw [getPreds]
        exact Res.bind_ne_more (cnvPredicate_ne_more _ _) fun _ => by simp⟩
  | .tc id ng iv p (some (.ref l)) mn mx as, _ => ⟨1, fun m hm vis => by
      obtain ⟨k, rfl, _⟩ := ge_succ hm
      refine ⟨fun t st => ?_, ?_⟩
      · rw [compileTE]
        exact Res.bind_ne_more (cnvMin_ne_more _) fun _ => Res.bind_ne_more (cnvMax_ne_more _) fun _ =>
          Res.bind_ne_more (cnvPredicate_ne_more _ _) fun _ =>
            Res.bind_ne_more (actConds_ne_more _ _) fun _ =>
              Res.bind_ne_more (Res.bind_ne_more (refIdx_ne_more _ _) fun _ => by simp) fun _ => by simp
      · rw [getPreds]
        exact Res.bind_ne_more (cnvPredicate_ne_more _ _) fun _ => by simp⟩
  | .tc id ng iv p (some .external) mn mx as, _ => ⟨1, fun m hm vis => by
      obtain ⟨k, rfl, _⟩ := ge_succ hm
      refine ⟨fun t st => ?_, ?_⟩
      · rw [compileTE]
        exact Res.bind_ne_more (cnvMin_ne_more _) fun _ => Res.bind_ne_more (cnvMax_ne_more _) fun _ =>
          Res.bind_ne_more (cnvPredicate_ne_more _ _) fun _ =>
            Res.bind_ne_more (actConds_ne_more _ _) fun _ =>
              Res.bind_ne_more (by simp [valueCond]) fun _ => by simp
      · rw [getPreds]
        exact Res.bind_ne_more (cnvPredicate_ne_more _ _) fun _ => by simp⟩
  | .ref l, h => by
    cases hl : tes l with
    | none =>
      refine ⟨1, fun m hm vis => ?_⟩
      obtain ⟨k, rfl, _⟩ := ge_succ hm
      refine ⟨fun t st => ?_, ?_⟩
      · rw [compileTE, hl]
        split <;> simp [Res.of, Res.bind]
      · rw [getPreds, hl]
        split <;> simp [Res.of, Res.bind]
    | some t =>
      obtain ⟨n, hn⟩ := h l t rfl hl
      refine ⟨n + 1, fun m hm vis => ?_⟩
      obtain ⟨k, rfl, hk⟩ := ge_succ hm
      refine ⟨fun t st => ?_, ?_⟩
      · rw [compileTE, hl]
        split
        · simp
        · exact (hn k hk _).1 _ _
      · rw [getPreds, hl]
        split
        · simp
        · exact (hn k hk _).2
theorem TE.ends_list {G : Ctxt N P NC} {tes : TLabel P → Option (TE P NC)} : ∀ (es : List (TE P NC)),
    (∀ l t, TE.IncludesSome l es → tes l = some t → TE.Ends G tes t) → ∀ e ∈ es, TE.Ends G tes e
  | [], _ => by simp
  | e :: es, h => by
    have h1 := TE.ends e fun l t hl => h l t (.inl hl)
    have h2 := TE.ends_list es (fun l t hl => h l t (.inr hl))
    intro x hx
    rcases List.mem_cons.1 hx with hx | hx
    · rw [hx]; exact h1
    · exact h2 x hx
end

theorem ends_of_noCycle {G : Ctxt N P NC} {ss : List (Source P NC)} {tes : TLabel P → Option (TE P NC)}
    (hl : Labelled ss tes) (hc : NoCycle ss) (k : TLabel P) :
    ∀ t, tes k = some t → TE.Ends G tes t := by
  induction k using hc.induction with
  | _ k ih =>
    intro t ht
    obtain ⟨h1, h2⟩ := (hl k t).1 ht
    exact TE.ends t fun l t' hi ht' => ih l ⟨t, h1, h2, hi⟩ t' ht'

theorem addDecls_ne_more (ds : List (Decl P NC)) (st : St N P) : addDecls ds st ≠ .more := by
  induction ds generalizing st with
  | nil => simp [addDecls]
  | cons d ds ih =>
    simp only [addDecls]
    exact Res.bind_ne_more (toLabel_ne_more _) fun l => ih _

theorem registerT_ne_more (id : Option (TLabel P)) (e : TE P NC) (m : List (TLabel P × TE P NC)) :
    registerT id e m ≠ .more := by
  cases id with
  | none => simp [registerT]
  | some l => simp only [registerT]; split <;> simp

mutual
theorem collectT_ne_more : ∀ (e : TE P NC) (m : List (TLabel P × TE P NC)), collectT e m ≠ .more
  | .eachOf id es mn mx as, m => by
    rw [collectT]; exact Res.bind_ne_more (registerT_ne_more _ _ _) fun m => collectTs_ne_more es m
  | .oneOf id es mn mx as, m => by
    rw [collectT]; exact Res.bind_ne_more (registerT_ne_more _ _ _) fun m => collectTs_ne_more es m
  | .tc id ng iv p v mn mx as, m => by rw [collectT]; exact registerT_ne_more _ _ _
  | .ref l, m => by simp [collectT]
theorem collectTs_ne_more : ∀ (es : List (TE P NC)) (m : List (TLabel P × TE P NC)),
    collectTs es m ≠ .more
  | [], m => by simp [collectTs]
  | e :: es, m => by
    rw [collectTs]; exact Res.bind_ne_more (collectT_ne_more e m) fun m => collectTs_ne_more es m
end

mutual
theorem collectS_ne_more : ∀ (e : SE P NC) (m : List (TLabel P × TE P NC)), collectS e m ≠ .more
  | .or es, m => by rw [collectS]; exact collectSs_ne_more es m
  | .and es, m => by rw [collectS]; exact collectSs_ne_more es m
  | .not e, m => by rw [collectS]; exact collectS_ne_more e m
  | .shape cl ex none xs as, m => by simp [collectS]
  | .shape cl ex (some te) xs as, m => by simp only [collectS]; exact collectT_ne_more te m
  | .nc c, m => by simp [collectS]
  | .external, m => by simp [collectS]
  | .ref l, m => by simp [collectS]
theorem collectSs_ne_more : ∀ (es : List (SE P NC)) (m : List (TLabel P × TE P NC)),
    collectSs es m ≠ .more
  | [], m => by simp [collectSs]
  | e :: es, m => by
    rw [collectSs]; exact Res.bind_ne_more (collectS_ne_more e m) fun m => collectSs_ne_more es m
end

theorem collectDecls_ne_more (ds : List (Decl P NC)) (m : List (TLabel P × TE P NC)) :
    collectDecls ds m ≠ .more := by
  induction ds generalizing m with
  | nil => simp [collectDecls]
  | cons d ds ih => exact Res.bind_ne_more (collectS_ne_more _ _) ih

theorem collectSources_ne_more (ss : List (Source P NC)) (m : List (TLabel P × TE P NC)) :
    collectSources ss m ≠ .more := by
  induction ss generalizing m with
  | nil => simp [collectSources]
  | cons s ss ih =>
    refine Res.bind_ne_more (Res.bind_ne_more ?_ (collectDecls_ne_more _)) ih
    cases s.start with
    | none => simp [collectStart]
    | some e => exact collectS_ne_more e m

theorem collectImports_ends {W : World N P NC} {L : List P}
    (hL : ∀ i f, (W.fetch i f).isSome = true → i ∈ L) (n : Nat) :
    ∀ (s : Source P NC) (f : P) (base : Option P) (a : Acc N P NC), (remaining L a.visited).length < n →
      collectImports W n s f base a ≠ .more := by
  induction n with
  | zero => intro s f base a h; omega
  | succ n ih =>
    intro s f base a hn
    rw [collectImports]
    refine Res.bind_ne_more (mapRes_ne_more (fun i => Res.of_ne_more _) _) fun is => ?_
    induction is generalizing a with
    | nil => simp [importLoop]
    | cons i is ihl =>
      simp only [importLoop]
      split
      · exact ihl a hn
      · rename_i hv
        refine Res.bind_ne_more' (Res.of_ne_more _) fun s' hs => ?_
        rw [Res.of_eq_ok] at hs
        have hiL := hL i f (by rw [hs]; rfl)
        have hlt := remaining_lt hiL hv
        refine Res.bind_ne_more' (ih _ _ _ _ (by simp only; omega)) fun b hb => ?_
        have hvis := collectImports_visited n hb
        refine Res.bind_ne_more (addDecls_ne_more _ _) fun st => ihl _ ?_
        have := remaining_mono L (v := a.visited) (v' := b.visited) (fun j hj => hvis j (by simp [hj]))
        simp only
        omega

theorem compileDecls_ends {G : Ctxt N P NC} {tes : TLabel P → Option (TE P NC)} (ds : List (Decl P NC))
    (h : ∀ d ∈ ds, SE.Ends G tes d.expr) :
    ∃ n, ∀ m ≥ n, ∀ st : St N P, compileDecls G tes m ds st ≠ .more := by
  induction ds with
  | nil => exact ⟨0, fun m _ st => by simp [compileDecls]⟩
  | cons d ds ih =>
    obtain ⟨n1, h1⟩ := h d (by simp)
    obtain ⟨n2, h2⟩ := ih fun d hd => h d (by simp [hd])
    refine ⟨max n1 n2, fun m hm st => ?_⟩
    simp only [compileDecls]
    exact Res.bind_ne_more (refIdx_ne_more _ _) fun i =>
      Res.bind_ne_more (h1 m (le_trans (le_max_left _ _) hm) _ _) fun r =>
        h2 m (le_trans (le_max_right _ _) hm) _

/-- The compiler ends when finitely many schemas can be retrieved and no labelled triple expression
includes itself. -/
theorem compile_ends {W : World N P NC} {L : List P}
    (hL : ∀ i f, (W.fetch i f).isSome = true → i ∈ L) (s : Source P NC) (src : P) (base : Option P)
    (hc : ∀ asts, Imported W (W.rewrite s) src base asts →
      NoCycle (asts.map Prod.fst ++ [W.rewrite s])) :
    ∃ n₀, ∀ n ≥ n₀, compile (N := N) W n s src base ≠ .more := by
  -- the imports
  have hlen : (remaining L ([] : List P)).length < L.length + 1 :=
    Nat.lt_succ_of_le (List.length_filter_le _ _)
  have h0 := collectImports_ends (N := N) hL (L.length + 1) (W.rewrite s) src base ⟨[], [], St.init⟩ hlen
  have hstable : ∀ n ≥ L.length + 1, collectImports W n (W.rewrite s) src base ⟨[], [], St.init⟩ =
      collectImports (N := N) W (L.length + 1) (W.rewrite s) src base ⟨[], [], St.init⟩ := by
    intro n hn
    induction hn with
    | refl => rfl
    | @step m hm ih =>
      rcases collectImports_le W m (W.rewrite s) src base (⟨[], [], St.init⟩ : Acc N P NC) with h1 | h1
      · rw [ih] at h1; exact (h0 h1).elim
      · rw [← h1, ih]
  cases ha : collectImports (N := N) W (L.length + 1) (W.rewrite s) src base ⟨[], [], St.init⟩ with
  | more => exact (h0 ha).elim
  | err =>
    refine ⟨L.length + 1, fun n hn => ?_⟩
    simp [compile, hstable n hn, ha, Res.bind]
  | ok a =>
    obtain ⟨hi, _⟩ := collectImports_imported _ ha
    -- the start expression
    have hstart : ∃ n1, ∀ n ≥ n1, ∀ st : St N P,
        compileStart (W.ctxt (W.rewrite s)) n (W.rewrite s).start st ≠ .more := by
      cases (W.rewrite s).start with
      | none => exact ⟨0, fun _ _ st => by simp [compileStart]⟩
      | some e =>
        obtain ⟨n1, h1⟩ := SE.ends (G := W.ctxt (W.rewrite s)) (tes := fun _ => none) e
          (fun l t _ h => by cases h)
        exact ⟨n1, fun n hn st => Res.bind_ne_more (h1 n hn _ _) fun _ => by simp⟩
    obtain ⟨n1, h1⟩ := hstart
    -- the declarations
    have hdecls : ∃ n2, ∀ n ≥ n2, ∀ m, collectSources (a.asts.map Prod.fst ++ [W.rewrite s]) [] = .ok m →
        ∀ st : St N P, compileSources (W.ctxt (W.rewrite s)) (fun l => alookup l m) n
          (a.asts.map Prod.fst ++ [W.rewrite s]) st ≠ .more := by
      cases hm : collectSources (a.asts.map Prod.fst ++ [W.rewrite s]) [] with
      | more => exact ⟨0, fun _ _ _ h => by cases h⟩
      | err => exact ⟨0, fun _ _ _ h => by cases h⟩
      | ok m =>
        have hl := collectSources_labelled hm
        obtain ⟨n2, h2⟩ := compileDecls_ends (G := W.ctxt (W.rewrite s)) (tes := fun l => alookup l m)
          ((a.asts.map Prod.fst ++ [W.rewrite s]).flatMap Source.shapes)
          (fun d _ => SE.ends d.expr fun l t _ ht => ends_of_noCycle hl (hc _ hi) l t ht)
        refine ⟨n2, fun n hn m' h => ?_⟩
        cases h
        intro st
        rw [compileSources_eq]
        exact h2 n hn st
    obtain ⟨n2, h2⟩ := hdecls
    refine ⟨max (L.length + 1) (max n1 n2), fun n hn => ?_⟩
    have e0 : n ≥ L.length + 1 := le_trans (le_max_left _ _) hn
    have e1 : n ≥ n1 := le_trans (le_trans (le_max_left _ _) (le_max_right _ _)) hn
    have e2 : n ≥ n2 := le_trans (le_trans (le_max_right _ _) (le_max_right _ _)) hn
    simp only [compile, hstable n e0, ha]
    refine Res.bind_ne_more (mapRes_ne_more (cnvAct_ne_more _) _) fun _ =>
      Res.bind_ne_more (addDecls_ne_more _ _) fun st1 => Res.bind_ne_more (h1 n e1 st1) fun st2 => ?_
    cases hm : collectSources (a.asts.map Prod.fst ++ [W.rewrite s]) [] with
    | more => exact (collectSources_ne_more _ _ hm).elim
    | err => simp [Res.bind]
    | ok m => exact Res.bind_ne_more (h2 n e2 m hm st2) fun _ => by simp

end Comp
