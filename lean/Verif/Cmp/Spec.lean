import Verif.Cmp.Model

/-!
# Specification: what a comparison of shapes tells
-/

namespace Cmp.Spec

open Shexc (SE TE NC IriRef Label Kind Str)

/-- A map, by its entries. -/
def Maps {α : Type} (m : List (Str × α)) (p : Str) (a : α) : Prop := (p, a) ∈ m

/-- Every key is there once, as in a `HashMap`. -/
def IsMap {α : Type} (m : List (Str × α)) : Prop := (m.map Prod.fst).Nodup

/-- The IRI of a name: in full, or a name whose prefix the schema declares. -/
inductive Names (E : Env) (m : Prefix.PrefixMap) : IriRef → Str → Prop where
  | iri {s : Str} : Names E m (.iri s) s
  | prefixed {pfx loc s : Str} (h : m.resolvePrefixLocal E.valid pfx loc = some s) : Names E m (.prefixed pfx loc) s

/-- The first shape whose label is an IRI; the names of the labels before it are known. -/
inductive Found (E : Env) (m : Prefix.PrefixMap) (iri : Str) : List (Label × SE) → SE → Prop where
  | here {r : IriRef} {e : SE} {ds} (h : Names E m r iri) : Found E m iri ((.iri r, e) :: ds) e
  | later {r : IriRef} {i : Str} {e f : SE} {ds} (h : Names E m r i) (hne : i ≠ iri) (hd : Found E m iri ds e) :
      Found E m iri ((.iri r, f) :: ds) e
  | bnode {s : Str} {e f : SE} {ds} (hd : Found E m iri ds e) : Found E m iri ((.bnode s, f) :: ds) e
  | start {e f : SE} {ds} (hd : Found E m iri ds e) : Found E m iri ((.start, f) :: ds) e

/-- What is said of the values of a property. -/
inductive Describes (E : Env) (S : Schema) : Option SE → VC → Prop where
  | any : Describes E S none .any
  | datatype {c : NC} {dt : IriRef} {m : Prefix.PrefixMap} {i : Str} (hd : c.datatype = some dt) (hm : S.prefixmap = some m)
      (h : Names E m dt i) : Describes E S (some (.nc c)) (.datatype i)
  | kind {c : NC} {k : Kind} (hd : c.datatype = none) (hk : c.kind = some k) : Describes E S (some (.nc c)) (.kind k)
  | ref {l : Label} : Describes E S (some (.ref l)) (.ref (E.showLabel l))

/-- A triple constraint for a property and its values. If the values are ignored, they may be anything. -/
inductive Constrains (E : Env) (S : Schema) (ignore : Bool) : TE → Str → Desc → Prop where
  | seen {id ng iv r v mn mx a b m i vc} (hi : ignore = false) (hm : S.prefixmap = some m) (h : Names E m r i)
      (hv : Describes E S v vc) : Constrains E S ignore (.tc id ng iv r v mn mx a b) i ⟨r, vc⟩
  | ignored {id ng iv r v mn mx a b m i} (hi : ignore = true) (hm : S.prefixmap = some m) (h : Names E m r i) :
      Constrains E S ignore (.tc id ng iv r v mn mx a b) i ⟨r, .any⟩

/-- The last triple constraint of a group for a property. -/
inductive LastIn (E : Env) (S : Schema) (ignore : Bool) : List TE → Str → Desc → Prop where
  | here {t : TE} {ts : List TE} {p : Str} {d : Desc} (h : Constrains E S ignore t p d)
      (hn : ∀ u ∈ ts, ∀ d', ¬ Constrains E S ignore u p d') : LastIn E S ignore (t :: ts) p d
  | later {t : TE} {ts : List TE} {p : Str} {d : Desc} (h : LastIn E S ignore ts p d) : LastIn E S ignore (t :: ts) p d

/-- A label that is looked up is an IRI, neither `START` nor a blank node. -/
def IriLabel (E : Env) (l : Str) : Prop := l ≠ ['S', 'T', 'A', 'R', 'T'] ∧ (∀ s, l ≠ '_' :: ':' :: s) ∧ E.valid l = true

/-- The shape of a label. -/
def ShapeOf (E : Env) (S : Schema) (l : Str) (e : SE) : Prop :=
  IriLabel E l ∧ ∃ ds, S.shapes = some ds ∧ Found E (S.prefixmap.getD Prefix.PrefixMap.new) l ds e

end Cmp.Spec
