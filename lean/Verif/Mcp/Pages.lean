/-!
# Model: listings of the MCP server, page by page

* PG = `rudof_mcp/src/service/pagination.rs`
* HD = `rudof_mcp/src/service/handlers.rs`
* RI = `rudof_mcp/src/service/resources/resources_impl.rs`
* HP = `rudof_mcp/src/service/tools/helpers.rs`

The listings of tools, prompts and resources differ only in what is listed. `usize` has 64 bits.
-/

namespace Mcp.Pages

/-- `DEFAULT_PAGE_SIZE` (PG 4). -/
def pageSize : Nat := 20

/-- One step of `usize::from_str`, with its checks of overflow. -/
def step (n : Option Nat) (c : Char) : Option Nat :=
  match n with
  | none => none
  | some n =>
    if '0'.toNat ≤ c.toNat ∧ c.toNat ≤ '9'.toNat then
      if n * 10 + (c.toNat - '0'.toNat) < 2 ^ 64 then some (n * 10 + (c.toNat - '0'.toNat)) else none
    else none

/-- A plus sign before the digits is skipped. -/
def skipPlus (l : List Char) : List Char := if l.head? = some '+' then l.drop 1 else l

/-- `str::parse::<usize>`. -/
def parse (l : List Char) : Option Nat :=
  if skipPlus l = [] then none else (skipPlus l).foldl step (some 0)

/-- `usize::to_string`. -/
def digits (n : Nat) : List Char :=
  if n < 10 then [Char.ofNat ('0'.toNat + n)] else digits (n / 10) ++ [Char.ofNat ('0'.toNat + n % 10)]

/-- `parse_cursor` (PG 10-27); `none` is the error. -/
def parseCursor (cursor : Option (List Char)) (bound : Nat) : Option Nat :=
  match cursor with
  | none => some 0
  | some c =>
    match parse c with
    | none => none
    | some n => if n > bound then none else some n

/-- `list_tools`, `list_prompts`, `list_resources` (HD 84-110, 120-146; RI 43-67): the page and the next cursor, or the error. -/
def list {A : Type} (items : List A) (request : Option (Option (List Char))) : Option (List A × Option (List Char)) :=
  match request with
  | none => some (items, none)
  | some cursor =>
    match parseCursor cursor items.length with
    | none => none
    | some n =>
      let start := min n items.length
      let stop := min (start + pageSize) items.length
      some ((items.take stop).drop start, if stop < items.length then some (digits stop) else none)

/-- `code_block_preview` (HP 157-166). -/
def preview (language text : List Char) (maxChars : Nat) : List Char :=
  let truncated := decide (text.length > maxChars)
  let display := if truncated then text.take maxChars else text
  "```".toList ++ language ++ '\n' :: display ++ "\n```".toList ++
    if truncated then "\n\nPreview truncated. Full output is available in structuredContent.".toList else []

end Mcp.Pages
