import Verif.Backend

/-!
# Concrete runs

The setting of the examples and of the witnesses: ASCII text, hash maps in the order of insertion.
-/

namespace PhpLs

/-- The setting of the concrete runs. -/
def plainHost : Host := ⟨Unicode.ascii, HashOrder.id, 60⟩

/-- The tree of a text, without the errors. -/
def treeOf (source : Text) : List Node :=
  match Backend.sourceToAst plainHost source with
  | .ok (some (ast, _, _)) => ast
  | _ => []

/-- A workspace with some files is started. -/
def startWith (files : List (Text × Text)) : Out Backend := Backend.initWorkspace plainHost files Backend.empty

/-- A workspace with some files is started and one of them is opened. -/
def startAndOpen (files : List (Text × Text)) (path : Text) : Out Backend := do
  let st ← startWith files
  Backend.didOpen plainHost path (Dict.get? files path) st

/-- A file gets a new text. -/
def reindex (path : Text) (source : Text) (st : Backend) : Out Backend :=
  Backend.collectSymbols plainHost path (treeOf source) (getRange .empty) st

/-- The references of a file in a state: the symbols with the columns (and lines) where they are mentioned. -/
def refsIn (path : Text) : Out Backend → Option (List (NodeId × List (Nat × Nat)))
  | .ok st => (Dict.get? st.references path).map fun m => m.map fun e => (e.1, e.2.map fun r => (r.startLine, r.startCol))
  | _ => none

end PhpLs
