import Verif.BackendQueries
import Verif.Fs

/-!
# The command line

Model of `main` (`src/main.rs` 18–103).  The options are those `clap` hands over; what `clap` itself prints (help, version, a missing
`--stubs`) is not modelled, nor are the messages of `reindex_folder` about folders that cannot be read.
-/

namespace PhpLs.CommandLine

/-- The options (`src/main.rs` 20–56).  The folder is given as it is written and as its components, with what it lists. -/
structure Args where
  stubs : Text
  file : Option Text
  dir : Option (Text × Fs.Path × List Fs.Entry)
  ignorePatterns : List Fs.Path

/-- `PathBuf::push` with a name that is not absolute (documentation of `std::path::PathBuf::push`). -/
def push (path name : Text) : Text :=
  if path = [] ∨ path.getLast? = some '/' then path ++ name else path ++ '/' :: name

/-- The files `reindex_folder` finds, through `normalize_path` (`src/main.rs` 75–79, `src/environment/fs.rs` 4–46).  The panic of
`normalize_path` for paths that are not Unicode is not modelled: all texts are Unicode here. -/
def listed (dir : Text) (path : Fs.Path) (entries : List Fs.Entry) (ignore : List Fs.Path) : List Text :=
  (Fs.reindex path ignore entries).map fun p => (p.drop path.length).foldl push dir

/-- The loop over the files of `--dir` (`src/main.rs` 76–85): only errors are printed.  The path is taken as the source. -/
def checkDir (h : Host) : List Text → Out (List Backend.Report)
  | [] => .ok []
  | file :: rest => do
    let p ← Backend.sourceToAst h file
    let l ← checkDir h rest
    match p with
    | some _ => pure l
    | none => pure (.error :: l)

/-- What `main` does: it prints, or it serves the editor. -/
inductive Run where
  | printed (l : List Backend.Report)
  | serve (stubs : Text) (ignorePatterns : List Fs.Path)

/-- `main` (`src/main.rs` 58–103).  `disk` gives the contents of the files; it is not used for `--file` and `--dir`. -/
def main (h : Host) (disk : Text → Option Text) (args : Args) : Out Run :=
  match args.file with
  | some file => do
    let r ← Backend.checkFile h file ((disk file).getD [])
    pure (.printed [r])
  | none =>
    match args.dir with
    | some (dir, path, entries) => do
      let l ← checkDir h (listed dir path entries args.ignorePatterns)
      pure (.printed l)
    | none => pure (.serve args.stubs args.ignorePatterns)

end PhpLs.CommandLine
