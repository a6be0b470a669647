import Verif.Tap.LemmasRead
import Mathlib.Data.List.OfFn
import Mathlib.Logic.Equiv.Basic

/-!
# Lemmas: a table says no more than its cells

The rows come from a list of things of any type, and two ways to write a thing as a record are compared.
-/

namespace Tap

theorem splitBy_map {α β : Type*} (f : α → β) (r : β → β → Bool) (l : List α) :
    (l.map f).splitBy r = (l.splitBy fun a b => r (f a) (f b)).map (List.map f) := by
  rw [List.splitBy_eq_iff]
  obtain ⟨h1, h2, h3, h4⟩ := (List.splitBy_eq_iff (r := fun a b => r (f a) (f b)) (m := l)).mp rfl
  refine ⟨?_, ?_, ?_, ?_⟩
  · rw [← List.map_flatten, ← h1]
  · intro h
    obtain ⟨a, ha, hb⟩ := List.mem_map.mp h
    rw [List.map_eq_nil_iff] at hb
    subst hb
    exact h2 ha
  · intro m hm
    obtain ⟨a, ha, rfl⟩ := List.mem_map.mp hm
    rw [List.isChain_map]
    exact h3 a ha
  · rw [List.isChain_map]
    refine h4.imp ?_
    rintro a b ⟨ha, hb, h⟩
    refine ⟨by simpa using ha, by simpa using hb, ?_⟩
    rw [List.getLast_map, List.head_map]
    exact h

variable (T : Text) (cfg : Config) {ρ : Type*}

/-- The records of a list of things. -/
def write (g : ρ → Record) (src : List (Nat × Option ρ)) : List Item :=
  src.map fun e => ⟨e.1, e.2.map g⟩

/-- The two records say the same under their headers. -/
structure Same (header header' : Record) (r r' : Record) : Prop where
  cell : ∀ c, Spec.cell T header c r = Spec.cell T header' c r'
  blank : Spec.Blank T r ↔ Spec.Blank T r'

variable {header header' : Record}

theorem Same.text {r r' : Record} (h : Same T header header' r r') (c : Col) :
    Spec.text T header c r = Spec.text T header' c r' := by
  simp [Spec.text, h.cell]

theorem Same.placeholder {r r' : Record} (h : Same T header header' r r') :
    Spec.placeholder T cfg header r = Spec.placeholder T cfg header' r' := by
  simp [Spec.placeholder, h.cell]

theorem Same.property {r r' : Record} (h : Same T header header' r r') {above above' : List Record}
    (ha : ∀ k, Spec.uses T cfg header k above = Spec.uses T cfg header' k above') :
    Spec.property T cfg header above r = Spec.property T cfg header' above' r' := by
  simp [Spec.property, h.cell, h.placeholder, ha]

theorem Same.rowError {r r' : Record} (h : Same T header header' r r') (line : Nat) :
    Spec.rowError T cfg header line r = Spec.rowError T cfg header' line r' := by
  have : Spec.property T cfg header [] r = Spec.property T cfg header' [] r' :=
    h.property T cfg (fun k => rfl)
  simp only [Spec.rowError, h.cell, this]

theorem Same.constraint {r r' : Record} (h : Same T header header' r r') :
    Spec.constraint T cfg header r = Spec.constraint T cfg header' r' := by
  simp only [Spec.constraint, h.cell, h.text]

theorem Same.statement {r r' : Record} (h : Same T header header' r r') {above above' : List Record}
    (ha : ∀ k, Spec.uses T cfg header k above = Spec.uses T cfg header' k above') (line : Nat) :
    Spec.statement T cfg header above line r = Spec.statement T cfg header' above' line r' := by
  simp only [Spec.statement, h.property T cfg ha, h.cell, h.text, h.constraint]

/-- A thing in its place. -/
structure Place (ρ : Type*) where
  thing : ρ
  line : Nat
  above : List ρ
  name : Str

/-- The row of a thing in its place. -/
def Place.row (g : ρ → Record) (p : Place ρ) : Spec.Row := ⟨g p.thing, p.line, p.above.map g, p.name⟩

/-- The things in their places. -/
def places (own : ρ → Str) (name : Str) (above : List ρ) : List (Nat × Option ρ) → List (Place ρ)
  | [] => []
  | (_, none) :: es => places own name above es
  | (l, some x) :: es =>
    let name := if own x = [] then name else own x
    ⟨x, l, above, name⟩ :: places own name (above ++ [x]) es

theorem rows_write (g : ρ → Record) : ∀ (src : List (Nat × Option ρ)) (name : Str) (above : List ρ),
    Spec.rows T header name (above.map g) (write g src)
      = (places (fun x => own T header (g x)) name above src).map (Place.row g)
  | [], name, above => rfl
  | (l, none) :: es, name, above => by
    simpa [write, Spec.rows, places] using rows_write g es name above
  | (l, some x) :: es, name, above => by
    have := rows_write g es
      (if own T header (g x) = [] then name else own T header (g x)) (above ++ [x])
    rw [List.map_append] at this
    simp only [write, List.map_cons, Option.map_some, Spec.rows, places, Place.row]
    congr 1

theorem places_congr {own own' : ρ → Str} : ∀ (src : List (Nat × Option ρ)) (name : Str) (above : List ρ),
    (∀ e ∈ src, ∀ x ∈ e.2, own x = own' x) → places own name above src = places own' name above src
  | [], name, above, _ => rfl
  | (l, none) :: es, name, above, h => by
    simp only [places]
    exact places_congr es name above fun e he => h e (by simp [he])
  | (l, some x) :: es, name, above, h => by
    simp only [places, h (l, some x) (by simp) x rfl]
    congr 1
    exact places_congr es _ _ fun e he => h e (by simp [he])

theorem places_mem {own : ρ → Str} : ∀ (src : List (Nat × Option ρ)) (name : Str) (above : List ρ)
    (P : ρ → Prop), (∀ x ∈ above, P x) → (∀ e ∈ src, ∀ x ∈ e.2, P x) →
    ∀ p ∈ places own name above src, P p.thing ∧ ∀ x ∈ p.above, P x
  | [], name, above, P, _, _ => by simp [places]
  | (l, none) :: es, name, above, P, ha, h => by
    simp only [places]
    exact places_mem es name above P ha fun e he => h e (by simp [he])
  | (l, some x) :: es, name, above, P, ha, h => by
    simp only [places, List.mem_cons]
    have hx : P x := h (l, some x) (by simp) x rfl
    rintro p (rfl | hp)
    · exact ⟨hx, ha⟩
    · refine places_mem es _ _ P ?_ (fun e he => h e (by simp [he])) p hp
      intro y hy
      rcases List.mem_append.mp hy with hy | hy
      · exact ha y hy
      · rw [List.mem_singleton.mp hy]; exact hx

theorem uses_map {g g' : ρ → Record} {above : List ρ}
    (h : ∀ x ∈ above, Same T header header' (g x) (g' x)) (k : Str) :
    Spec.uses T cfg header k (above.map g) = Spec.uses T cfg header' k (above.map g') := by
  unfold Spec.uses
  rw [List.countP_map, List.countP_map]
  apply List.countP_congr
  intro x hx
  simp [(h x hx).placeholder T cfg]

theorem body_write (g : ρ → Record) (src : List (Nat × Option ρ)) :
    Spec.body T (write g src)
      = write g (src.dropWhile fun e => decide (∃ x ∈ e.2, Spec.Blank T (g x))) := by
  unfold Spec.body write
  rw [List.dropWhile_map]
  congr 2
  funext e
  obtain ⟨l, o⟩ := e
  cases o <;> simp

/-- Two tables which say the same row by row are read alike. -/
theorem table_congr (g g' : ρ → Record) (src : List (Nat × Option ρ))
    (h : ∀ e ∈ src, ∀ x ∈ e.2, Same T header header' (g x) (g' x)) :
    Spec.table T cfg header (write g src) = Spec.table T cfg header' (write g' src) := by
  rw [Spec.table, Spec.table, body_write, body_write]
  have hd : src.dropWhile (fun e => decide (∃ x ∈ e.2, Spec.Blank T (g x)))
      = src.dropWhile (fun e => decide (∃ x ∈ e.2, Spec.Blank T (g' x))) := by
    clear * - h
    induction src with
    | nil => rfl
    | cons e es ih =>
      have he : (∃ x ∈ e.2, Spec.Blank T (g x)) ↔ (∃ x ∈ e.2, Spec.Blank T (g' x)) := by
        constructor
        · rintro ⟨x, hx, hb⟩; exact ⟨x, hx, ((h e (by simp) x hx).blank).mp hb⟩
        · rintro ⟨x, hx, hb⟩; exact ⟨x, hx, ((h e (by simp) x hx).blank).mpr hb⟩
      rw [List.dropWhile_cons, List.dropWhile_cons, ih fun e he => h e (by simp [he])]
      simp only [he]
  rw [hd]
  set es := src.dropWhile (fun e => decide (∃ x ∈ e.2, Spec.Blank T (g' x))) with hes
  have h' : ∀ e ∈ es, ∀ x ∈ e.2, Same T header header' (g x) (g' x) :=
    fun e he => h e ((List.dropWhile_suffix _).subset he)
  have herr : (write g es).findSome? (Spec.itemError T cfg header)
      = (write g' es).findSome? (Spec.itemError T cfg header') := by
    clear_value es
    clear hd hes
    induction es with
    | nil => rfl
    | cons e es ih =>
      have : Spec.itemError T cfg header ⟨e.1, e.2.map g⟩ = Spec.itemError T cfg header' ⟨e.1, e.2.map g'⟩ := by
        obtain ⟨l, o⟩ := e
        cases o with
        | none => rfl
        | some x => exact (h' (l, some x) (by simp) x rfl).rowError T cfg l
      simp only [write, List.map_cons, List.findSome?_cons, this]
      have ih := ih fun e he => h' e (by simp [he])
      unfold write at ih
      rw [ih]
  rw [herr]
  have hr := rows_write T (header := header) g es [] []
  have hr' := rows_write T (header := header') g' es [] []
  have hp : places (fun x => own T header (g x)) [] [] es
      = places (fun x => own T header' (g' x)) [] [] es :=
    places_congr es [] [] fun e he x hx => by simp [own, (h' e he x hx).cell]
  have hm := places_mem (own := fun x => own T header' (g' x)) es [] []
    (fun x => Same T header header' (g x) (g' x)) (by simp) h'
  rw [hp] at hr
  simp only [List.map_nil] at hr hr'
  rw [hr, hr']
  generalize places (fun x => own T header' (g' x)) [] [] es = ps at hm
  have hb : ∀ k : ρ → Record, Spec.blocks (ps.map (Place.row k))
      = (ps.splitBy fun a b => decide (a.name = b.name)).map (List.map (Place.row k)) := by
    intro k
    rw [Spec.blocks, splitBy_map]
    rfl
  rw [hb, hb]
  have hmem : ∀ b ∈ ps.splitBy (fun a b => decide (a.name = b.name)), ∀ p ∈ b, p ∈ ps := by
    intro b hb p hp
    rw [← List.flatten_splitBy (fun a b : Place ρ => decide (a.name = b.name)) ps]
    exact List.mem_flatten.mpr ⟨b, hb, hp⟩
  generalize ps.splitBy (fun a b => decide (a.name = b.name)) = bs at hmem
  have hsame : ∀ b ∈ bs, Spec.shape T cfg header (b.map (Place.row g))
        = Spec.shape T cfg header' (b.map (Place.row g'))
      ∧ Spec.warnings T header (b.map (Place.row g)) = Spec.warnings T header' (b.map (Place.row g')) := by
    intro b hb
    have hs : ∀ p ∈ b, Spec.statement T cfg header (p.row g).above (p.row g).line (p.row g).cells
        = Spec.statement T cfg header' (p.row g').above (p.row g').line (p.row g').cells := by
      intro p hp
      have := hm p (hmem b hb p hp)
      exact this.1.statement T cfg (uses_map T cfg this.2) p.line
    have hw : ∀ p ∈ b, Spec.noProperty T header (p.row g) = Spec.noProperty T header' (p.row g') := by
      intro p hp
      have := hm p (hmem b hb p hp)
      have hcc : ∀ c, Spec.cell T header c (p.row g).cells = Spec.cell T header' c (p.row g').cells :=
        this.1.cell
      unfold Spec.noProperty
      rw [hcc, hcc]
      rfl
    cases b with
    | nil => simp [Spec.shape, Spec.warnings]
    | cons p b =>
      have hc := (hm p (hmem _ hb p (by simp))).1
      constructor
      · simp only [List.map_cons, Spec.shape]
        rw [Shape.mk.injEq]
        refine ⟨?_, ?_, ?_, ?_, ?_⟩
        · simp [Place.row, hc.cell]
        · simp [Place.row, hc.cell]
        · rw [← List.map_cons, ← List.map_cons (f := Place.row g'), List.filterMap_map, List.filterMap_map]
          exact List.filterMap_congr hs
        · simp [Spec.extends_, Place.row, hc.cell, hc.text]
        · simp only [Place.row, hc.cell]
          congr!
      · simp only [List.map_cons, Spec.warnings]
        congr 1
        · simp only [Spec.loneLabel, Place.row, hc.cell, hc.text]
        · rw [← List.map_cons, ← List.map_cons (f := Place.row g'), List.flatMap_map, List.flatMap_map]
          exact List.flatMap_congr hw
  have h1 : (bs.map (List.map (Place.row g))).map (Spec.shape T cfg header)
      = (bs.map (List.map (Place.row g'))).map (Spec.shape T cfg header') := by
    rw [List.map_map, List.map_map]
    exact List.map_congr_left fun b hb => (hsame b hb).1
  have h2 : (bs.map (List.map (Place.row g))).flatMap (Spec.warnings T header)
      = (bs.map (List.map (Place.row g'))).flatMap (Spec.warnings T header') := by
    rw [List.flatMap_map, List.flatMap_map]
    exact List.flatMap_congr fun b hb => (hsame b hb).2
  dsimp only
  rw [h1, h2]

/-! ## Columns of functions -/

variable {n : Nat}

theorem column_ofFn {H : Fin n → Str} {c : Col} {i : Fin n} (hi : T.upper (trim T (H i)) = c.name)
    (hu : ∀ j, T.upper (trim T (H j)) = c.name → j = i) :
    Spec.column T (List.ofFn H) c = some i.val := by
  unfold Spec.column
  have hmem : ∀ k, k ∈ (List.ofFn H).findIdxs (fun f => decide (T.upper (trim T f) = c.name)) ↔ k = i.val := by
    intro k
    rw [List.mem_findIdxs_iff_exists_getElem_pos]
    simp only [List.length_ofFn, List.getElem_ofFn, decide_eq_true_eq]
    constructor
    · rintro ⟨hk, h⟩; exact congrArg Fin.val (hu ⟨k, hk⟩ h)
    · rintro rfl; exact ⟨i.isLt, hi⟩
  rw [List.getLast?_eq_some_iff]
  cases hl : (List.ofFn H).findIdxs (fun f => decide (T.upper (trim T f) = c.name)) with
  | nil => have := (hmem i.val).mpr rfl; rw [hl] at this; simp at this
  | cons a l =>
    have hnd : ((List.ofFn H).findIdxs (fun f => decide (T.upper (trim T f) = c.name))).Nodup :=
      List.nodup_findIdxs
    rw [hl] at hnd hmem
    have ha : a = i.val := (hmem a).mp (by simp)
    cases l with
    | nil => exact ⟨[], by simp [ha]⟩
    | cons b l =>
      have hb : b = i.val := (hmem b).mp (by simp)
      simp [ha, hb] at hnd

theorem column_ofFn_none {H : Fin n → Str} {c : Col} (h : ∀ j, T.upper (trim T (H j)) ≠ c.name) :
    Spec.column T (List.ofFn H) c = none := by
  unfold Spec.column
  rw [List.getLast?_eq_none_iff, List.findIdxs_eq_nil_iff]
  intro x hx
  rw [List.mem_ofFn] at hx
  obtain ⟨j, rfl⟩ := hx
  simpa using h j

/-- The headers with a meaning are told apart. -/
def Apart (H : Fin n → Str) : Prop :=
  ∀ (c : Col) (i j : Fin n), T.upper (trim T (H i)) = c.name → T.upper (trim T (H j)) = c.name → i = j

theorem same_perm {H : Fin n → Str} (hH : Apart T H) (σ : Equiv.Perm (Fin n)) (f : Fin n → Str) :
    Same T (List.ofFn (H ∘ σ)) (List.ofFn H) (List.ofFn (f ∘ σ)) (List.ofFn f) := by
  constructor
  · intro c
    by_cases h : ∃ i, T.upper (trim T (H i)) = c.name
    · obtain ⟨i, hi⟩ := h
      unfold Spec.cell
      rw [column_ofFn T (i := σ.symm i) (by simpa using hi)
          (fun j hj => by rw [Equiv.eq_symm_apply]; exact hH c _ _ hj hi),
        column_ofFn T hi (fun j hj => hH c _ _ hj hi)]
      simp
    · have h' : ∀ i, T.upper (trim T (H i)) ≠ c.name := fun i hi => h ⟨i, hi⟩
      unfold Spec.cell
      rw [column_ofFn_none T h', column_ofFn_none T (H := H ∘ σ) (fun j => h' (σ j))]
      rfl
  · unfold Spec.Blank
    simp only [List.mem_ofFn, forall_exists_index, forall_apply_eq_imp_iff, Function.comp]
    exact σ.forall_congr_left.trans (by simp)

end Tap
