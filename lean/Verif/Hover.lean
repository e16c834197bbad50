import Verif.Backend
import Verif.Fs

/-!
# The text of a hover

Model of `Symbol::hover_text` (`src/environment/symbol.rs` 783–808) and of the whole answer of `hover` (`src/backend/hover.rs`).
-/

namespace PhpLs

/-- The frame around the lines (`src/environment/symbol.rs` 795–804). -/
def hoverFrame (doc : Text) : Text := c!"\n# Documentation\n```php\n<?php\n" ++ doc ++ c!"\n```\n"

/-- The first file among some symbols (`find_map` in `src/environment/symbol.rs` 784–792); the outer `none` is a panic. -/
def firstFile (a : Arena Symbol) : List NodeId → Option (Option Symbol)
  | [] => some none
  | n :: r => do
    let s ← a.get? n
    if s.kind = .file then pure (some s) else firstFile a r

/-- `Symbol::hover_text` (`src/environment/symbol.rs` 783–808).  `disk` gives the contents of the files.  The lines are read with
`file_read_range`, which panics if the last line is before the first one (in a build with overflow checks; without them it gives
all lines behind the first one). -/
def Symbol.hoverText (disk : Text → Option Text) (a : Arena Symbol) (n : NodeId) (s : Symbol) : Out Text := do
  let up ← .ofOption (a.ancestors? n)
  let file ← .ofOption (firstFile a up)
  match file with
  | some file => do
    let doc ← .ofOption (Fs.fileReadRange (disk file.name) s.range.start.line s.range.end.line)
    pure (hoverFrame doc)
  | none => pure s.name

/-- `hover` (`src/backend/hover.rs` 6–49): the range that is marked and the text.  `Backend.hover` finds the symbol. -/
def Backend.hoverShown (disk : Text → Option Text) (H : HashOrder) (st : Backend) (position : Pos) (path : Text) :
    Out (Option (LspRange × Text)) := do
  match ← Backend.hover H st position path with
  | none => pure none
  | some x => do
    let s ← .ofOption (st.arena.get? x.1)
    let t ← s.hoverText disk st.arena x.1
    pure (some (x.2, t))

end PhpLs
