import Verif.Basic

/-!
# Files and folders

Model of `src/environment/fs.rs`.  A file system is a finite tree; symbolic links (which `is_dir` follows) are not modelled.
-/

namespace PhpLs.Fs

/-- A path as the list of its components, as `std::path::Path::components` has it; the root folder of an absolute path is
a component of its own. -/
abbrev Path := List Text

/-- What a folder lists. -/
inductive Entry where
  /-- Anything that is not a folder. -/
  | file (name : Text)
  /-- A folder and what it lists.  A folder that cannot be read lists nothing (`src/environment/fs.rs` 8–15). -/
  | dir (name : Text) (entries : List Entry)
  /-- An entry the listing fails at (`src/environment/fs.rs` 18–25). -/
  | broken
deriving Repr

/-- `Path::file_name` and `Path::extension` of a path that ends with this component: what follows the last dot, unless
there is no dot or the only dot is the first character (documentation of `std::path::Path::extension`). -/
def extension (name : Text) : Option Text :=
  if name = c!".." then none
  else
    let after := (name.reverse.takeWhile (· ≠ '.')).reverse
    let before := (name.reverse.dropWhile (· ≠ '.')).reverse
    if before.length ≤ 1 then none else some after

/-- `Path::ends_with`: whole components are compared. -/
def endsWith (path s : Path) : Bool := s.isSuffixOf path

/-- `reindex_folder` (`src/environment/fs.rs` 4–42) on the entries a folder lists.  The function never returns an error. -/
def reindex (dir : Path) (ignore : List Path) : List Entry → List Path
  | [] => []
  | .broken :: _ => []
  | .file name :: entries =>
    let path := dir ++ [name]
    if ignore.any (endsWith path) then reindex dir ignore entries
    else if extension name = some c!"php" then path :: reindex dir ignore entries
    else reindex dir ignore entries
  | .dir name inner :: entries =>
    let path := dir ++ [name]
    if ignore.any (endsWith path) then reindex dir ignore entries
    else reindex path ignore inner ++ reindex dir ignore entries

/-- The end of a line: one carriage return before the line feed is not part of it (documentation of `str::lines`).  The
line is in reverse. -/
def stripCr : Text → Text
  | '\r' :: acc => acc.reverse
  | acc => acc.reverse

/-- `str::lines` splits at line feeds and takes one carriage return before a line feed away
(documentation of `str::lines`).  `acc` is the current line read so far, in reverse. -/
def linesGo (acc : Text) : Text → List Text
  | [] => if acc = [] then [] else [acc.reverse]
  | c :: cs =>
    if c = '\n' then stripCr acc :: linesGo [] cs
    else linesGo (c :: acc) cs

/-- `str::lines`. -/
def lines (t : Text) : List Text := linesGo [] t

/-- `u32::MAX`. -/
def u32Max : Nat := 4294967295

/-- `file_read_range` (`src/environment/fs.rs` 48–60).  `content` is what `fs::read_to_string` gives, `none` for an error.
`none` is the panic of `end - start + 1` leaving the range of `u32` (in a build with overflow checks). -/
def fileReadRange (content : Option Text) (start «end» : Nat) : Option Text :=
  match content with
  | none => some c!"Error reading source file"
  | some content =>
    if «end» < start then none
    else if «end» - start + 1 > u32Max then none
    else some ((((lines content).drop start).take («end» - start + 1)).flatMap fun s => s ++ ['\n'])

end PhpLs.Fs
