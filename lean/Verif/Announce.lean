import Verif.Suggester

/-!
# What the server says about itself

The answer of `initialize` and the methods that the server implements, `src/backend/mod.rs`, and the reading of the trigger of a
completion, `src/backend/completion.rs`.
-/

namespace PhpLs

namespace Announce

/-- The methods of the protocol that a client uses only if the server says so, as far as `ServerCapabilities` of the library knows
them, without those of later versions of the protocol (semantic tokens, call hierarchies, monikers, linked editing, file
operations). -/
inductive Method where
  | hover | completion | completionResolve | signatureHelp | declaration | definition | typeDefinition | implementation
  | references | documentHighlight | documentSymbol | codeAction | codeLens | documentLink | documentColor | formatting
  | rangeFormatting | onTypeFormatting | rename | prepareRename | foldingRange | selectionRange | workspaceSymbol
  | executeCommand | didOpen | didChange | didClose | willSave | didSave | didChangeWorkspaceFolders
deriving DecidableEq, Repr

/-- How texts are synchronised (`TextDocumentSyncKind`). -/
inductive SyncKind where
  | none | full | incremental
deriving DecidableEq, Repr

/-- The fields of `ServerCapabilities` that `initialize` sets.  `none` for an option and `false` for the simple ones mean that the
server does not offer the thing.  All fields that are not here are left at their default, which is that the thing is not offered
(`..ServerCapabilities::default()`, `src/backend/mod.rs` 637). -/
structure Capabilities where
  sync : Option SyncKind
  hover : Bool
  /-- The trigger characters and whether items can be resolved. -/
  completion : Option (List Text × Bool)
  implementation : Bool
  references : Bool
  /-- Whether a rename can be prepared. -/
  rename : Option Bool
  definition : Bool
  documentHighlight : Bool
  documentSymbol : Bool
  workspaceSymbol : Bool
  commands : List Text
  formatting : Bool
  /-- Whether the server wants to know about changes of the folders of the workspace. -/
  folderChanges : Bool
deriving DecidableEq, Repr

/-- The characters from `a` up to `b`, without `b`: Rust's `a..b`. -/
def charRange (a b : Nat) : List Char := (List.range (b - a)).map fun i => Char.ofNat (a + i)

/-- The trigger characters (`src/backend/mod.rs` 576–584). -/
def triggers : List Text := (charRange 'a'.toNat 'z'.toNat).map (fun c => [c]) ++ [c!"$", c!"_", c!"\\", c!":", c!">"]

/-- The capabilities (`src/backend/mod.rs` 586–638). -/
def capabilities : Capabilities where
  sync := some .full
  hover := true
  completion := some (triggers, true)
  implementation := true
  references := true
  rename := some false
  definition := true
  documentHighlight := true
  documentSymbol := true
  workspaceSymbol := true
  commands := [c!"dummy.do_something"]
  formatting := false
  folderChanges := true

/-- `initialize` (`src/backend/mod.rs` 564–640): the state behind it and the answer.  The workspace is given by its files, as for
`Backend.initWorkspace`, or by nothing if there is no root or reading it fails.  Lines 565–574 ignore a failure. -/
def initialise (h : Host) (root : Option (List (Text × Text))) (st : Backend) : Out (Backend × Capabilities) := do
  match root with
  | none => pure (st, capabilities)
  | some files =>
    let st ← Backend.initWorkspace h files st
    pure (st, capabilities)

/-- The methods for which the server has a function of its own (`impl LanguageServer for Backend`, `src/backend/mod.rs` 563–906).
All others are those of the library, which answer a request with the error that the method is not found and do nothing for a
notification. -/
def implements : Method → Bool
  | .workspaceSymbol => true    -- 666–673
  | .documentSymbol => true     -- 675–682
  | .documentHighlight => true  -- 684–691
  | .implementation => true     -- 693–700
  | .references => true         -- 702–754
  | .rename => true             -- 756–821
  | .definition => true         -- 823–830
  | .didChange => true          -- 838–850
  | .didClose => true           -- 852–855
  | .didOpen => true            -- 857–873
  | .hover => true              -- 875–878
  | .completion => true         -- 884–887
  | .completionResolve => true  -- 889–891
  | .formatting => true         -- 893–896
  | _ => false

/-- `get_trigger` (`src/backend/completion.rs` 11–21).  The argument is the context of a request, which has perhaps a trigger. -/
def getTrigger (context : Option (Option Text)) : Option Char :=
  match context with
  | some (some w) => w.head?
  | some none => none
  | none => none

/-- A request for a completion as it comes from the client (`src/backend/completion.rs` 23–40): the trigger is taken from the
context. -/
def complete (h : Host) (st : Backend) (context : Option (Option Text)) (position : Pos) (path : Text) :
    Out (Option (List CompletionItem)) :=
  Backend.completion h st (getTrigger context) position path

end Announce

end PhpLs
