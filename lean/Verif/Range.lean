import Verif.Node

/-!
# LSP positions and ranges

Model of `src/environment/mod.rs` lines 35–72.  `u32` is `Nat`: no arithmetic is done on the numbers.
-/

namespace PhpLs

/-- `lsp_types::Position`: line and character. -/
structure Pos where
  line : Nat
  character : Nat
deriving DecidableEq, Repr

/-- `lsp_types::Range`. -/
structure LspRange where
  start : Pos
  «end» : Pos
deriving DecidableEq, Repr

/-- `get_range` (`src/environment/mod.rs` 36–47). -/
def getRange (coords : NodeRange) : LspRange :=
  { start := { line := coords.startLine, character := coords.startCol },
    «end» := { line := coords.endLine, character := coords.endCol } }

/-- `impl From<Range> for NodeRange` (`src/parser/node.rs` 43–52). -/
def NodeRange.ofLsp (r : LspRange) : NodeRange :=
  { startCol := r.start.character, startLine := r.start.line, endCol := r.end.character, endLine := r.end.line }

/-- `in_range` (`src/environment/mod.rs` 50–72). -/
def inRange (position : Pos) (range : LspRange) : Bool :=
  if position.line > range.end.line || position.line < range.start.line then
    false
  else if position.line > range.start.line && position.line < range.end.line then
    true
  else if position.line == range.start.line && position.character < range.start.character then
    false
  else if position.line == range.end.line && position.character > range.end.character then
    false
  else
    true

end PhpLs
