import Verif.Answers.Model
import Mathlib.Data.List.Forall2

/-!
# Specification: reading comma-separated values, and what a table says
-/

namespace Answers
open Prefix (PrefixMap)

variable {T L U : Type}

/-- Where a reader of comma-separated values is: at the start of a field, in a field without quotation marks, between quotation
marks, or after a quotation mark that may be the last. -/
inductive Mode where
  | start | plain | quoted | closed
deriving DecidableEq

/-- A reader of comma-separated values (RFC 4180), with the field and the record so far. Outside of quotation marks, both
ends of lines end a record, and empty lines are skipped. -/
def readGo : Mode → Str → List Str → Str → List (List Str)
  | m, f, r, [] => if m = .start ∧ r = [] then [] else [r ++ [f]]
  | .quoted, f, r, c :: cs => if c = '"' then readGo .closed f r cs else readGo .quoted (f ++ [c]) r cs
  | m, f, r, c :: cs =>
    if c = ',' then readGo .start [] (r ++ [f]) cs
    else if c = '\n' ∨ c = '\r' then
      if m = .start ∧ r = [] then readGo .start [] [] cs else (r ++ [f]) :: readGo .start [] [] cs
    else if c = '"' then
      if m = .start then readGo .quoted f r cs
      else if m = .closed then readGo .quoted (f ++ ['"']) r cs
      else readGo .plain (f ++ ['"']) r cs
    else readGo .plain (f ++ [c]) r cs

/-- The records of a text of comma-separated values. -/
def readCsv (s : Str) : List (List Str) := readGo .start [] [] s

/-- What is to be in the cell of a value: nothing if it is unbound, and otherwise the object, with IRIs qualified. -/
inductive CellOf (O : Outside T L) (pm : PrefixMap) : Option T → Str → Prop
  | unbound : CellOf O pm none []
  | iri {t i} : O.obj t = some (.iri i) → CellOf O pm (some t) (pm.qualify i)
  | bnode {t b} : O.obj t = some (.bnode b) → CellOf O pm (some t) ("_:".toList ++ b)
  | lit {t l} : O.obj t = some (.lit l) → CellOf O pm (some t) (O.lit l)
  | triple {t s p o} : O.obj t = some (.triple s p o) →
      CellOf O pm (some t)
        ("<<".toList ++ (s.show pm ++ " ".toList ++ pm.qualify p ++ " ".toList ++ o.show O pm) ++ ">>".toList)

/-- The values that are shown can be converted to objects. -/
def Readable (O : Outside T L) (s : Sol T) : Prop := ∀ i, i < s.vars.length → ∀ t, s.at i = some t → O.obj t ≠ none

/-- A grid has one row for each solution and one cell for each of the variables `vs`, with the value of the variable in this
solution. -/
def Grid (O : Outside T L) (pm : PrefixMap) (vs : List Str) (rows : List (Sol T)) (g : List (List Str)) : Prop :=
  List.Forall₂ (fun s r => List.Forall₂ (fun v c => CellOf O pm (s.get v) c) vs r) rows g

/-- The last of some prefix maps that has an alias decides. -/
def lastFind (pms : List PrefixMap) (al : Str) : Option Str := pms.reverse.findSome? fun m => m.find al

end Answers
