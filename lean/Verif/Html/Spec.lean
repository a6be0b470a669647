import Verif.Html.Model
import Verif.Uml.Spec

/-!
# Specification: what the pages of a schema have to show

Every declaration is read by itself, as in `Uml/Spec.lean`, from where names, labels, bounds and lists of triple constraints are
taken: a name, the names it extends, and one entry for each triple constraint.
-/

namespace Html
open Shexc
open Uml (Cfg Name Card RefCalled Labelled Shown Each Constraints)

/-- What the value of a triple constraint is shown as. -/
inductive Value (C : Cfg) (pm : Prefix.PrefixMap) : Option SE → VC → Prop
  | any : Value C pm none .any
  | typed (nc d n) : nc.datatype = some d → RefCalled C pm none d n → Value C pm (some (.nc nc)) (.datatype n)
  | ref (r n) : RefCalled C pm none r n → Value C pm (some (.ref (.iri r))) (.ref n)

/-- The entry of a triple constraint. -/
inductive Shows (C : Cfg) (pm : Prefix.PrefixMap) : TE → Entry → Prop
  | mk (id ng iv p v mn mx acts anns label name card value) : Labelled C pm (anns.getD []) label →
      RefCalled C pm label p name → Shown mn mx card → Value C pm v value →
      Shows C pm (.tc id ng iv p v mn mx acts anns) ⟨name, value, card⟩

/-- A declaration, read. -/
structure Decl where
  name : Name
  exts : List Name
  entries : List Entry

/-- The name of a label that is an IRI. -/
inductive Called (C : Cfg) (pm : Prefix.PrefixMap) : Label → Name → Prop
  | iri (r n) : RefCalled C pm none r n → Called C pm (.iri r) n

/-- The declaration of a shape. -/
inductive Declares (C : Cfg) (pm : Prefix.PrefixMap) : Label × SE → Decl → Prop
  | mk (l cl ex te acts anns ext name label exts ts entries) : Called C pm l name →
      Labelled C pm (anns.getD []) label → Each (Called C pm) (ext.getD []) exts → Constraints te ts →
      Each (Shows C pm) ts entries →
      Declares C pm (l, .shape cl ex te acts anns ext) ⟨{ name with label := label }, exts, entries⟩

/-- The shape that an entry refers to. -/
def Entry.target (e : Entry) : Option Name :=
  match e.vc with
  | .ref n => some n
  | _ => none

/-- The names that a declaration mentions: those it extends and those its entries refer to. -/
def Decl.mentions (d : Decl) : List Name := d.exts ++ d.entries.filterMap Entry.target

/-- A text is the name of a shape that is declared or mentioned. -/
def Named (ds : List Decl) (s : Str) : Prop := ∃ d ∈ ds, d.name.str = s ∨ ∃ n ∈ d.mentions, n.str = s

/-- The names in the order in which they are met: that of a declaration before those it mentions. -/
def occurrences (ds : List Decl) : List Name := ds.flatMap fun d => d.name :: d.mentions

/-- A map of prefixes without links, or the empty one. -/
def plain (pm : Option Prefix.PrefixMap) : Prefix.PrefixMap := ⟨(pm.getD Prefix.PrefixMap.new).map, false⟩

/-- The declarations of a name. -/
def declared (ds : List Decl) (s : Str) : List Decl := ds.filter fun d => d.name.str = s

/-- The pages. -/
def St.all (u : St) : List Page := u.pages.map Prod.snd

end Html
