import Verif.WorkspaceSymbol
import Verif.Scanner
import Verif.Grammar

/-!
# The state of the server and its handlers

Model of `BackendState` and of the functions that read and write it (`src/backend/mod.rs` and the files in `src/backend`).

* A request names a document by its normalised path; the conversion of the URI (`to_file_path().unwrap()`,
  `EnvFs::normalize_path`) and back (`Url::from_file_path(..).unwrap()`, which panics for relative paths) is left out.
* The content of a file on the disk is an argument: `none` is a read error.
* A handler that holds the lock from its start to its end is one function here.  The handlers that lock several times
  (`initialize`, `references`, `rename`) are one function too: they are modelled for the case that no other handler runs in
  between.
* A panic in one of the tasks of `references_of_symbol_under_cursor` is a panic here; in the code the task is given up and the
  state stays as it is at that point.
-/

namespace PhpLs

/-- The message of a diagnostic.  Texts with debug output of tokens are kept apart by what they print. -/
inductive Message where
  | missingIdentifier
  | wrongToken (found : TT) (expected : List TT)
  | unexpectedToken (found : TT)
  | illegalOffsetType
  | endOfFile
  | text (t : Text)
deriving DecidableEq, Repr

/-- `lsp_types::Diagnostic`, the three fields that are used. -/
structure Diagnostic where
  range : LspRange
  message : Message
  severity : Option Severity
deriving DecidableEq, Repr

/-- `From<&ParserError> for Diagnostic` (`src/backend/mod.rs` 111–146): `none` is a panic of `range`. -/
def Diagnostic.ofError : Parser.Err → Option Diagnostic
  | .missingIdentifier token => do
    let r ← token.range
    pure ⟨getRange r, .missingIdentifier, none⟩
  | .wrongToken expected token => do
    let r ← token.range
    pure ⟨getRange r, .wrongToken token.t expected, none⟩
  | .unexpectedToken token => do
    let r ← token.range
    pure ⟨getRange r, .unexpectedToken token.t, none⟩
  | .illegalOffsetType expr => do
    let r ← expr.range
    pure ⟨getRange r, .illegalOffsetType, none⟩
  | .eof => some ⟨getRange ⟨0, 0, 0, 0⟩, .endOfFile, none⟩

/-- `Diagnostic` of a notification (`src/backend/mod.rs` 500–505). -/
def Diagnostic.ofNotification (n : Notification) : Diagnostic := ⟨getRange n.range, .text n.message, some n.severity⟩

/-- `FileReferenceMap` (`src/backend/mod.rs` 65). -/
abbrev FileRefs := Dict NodeId (List NodeRange)

/-- `BackendState` (`src/backend/mod.rs` 70–94). -/
structure Backend where
  arena : Arena Symbol
  files : Dict Text NodeId
  globals : Dict Text NodeId
  diagnostics : Dict Text (List Diagnostic)
  references : Dict Text FileRefs
  opened : Dict Text (List Node × LspRange)
  latest : Dict Text Text

/-- `entry(key).or_insert_with(Vec::new).push(x)`. -/
def Dict.push {κ α : Type} [DecidableEq κ] (d : Dict κ (List α)) (k : κ) (x : α) : Dict κ (List α) :=
  Dict.insert d k ((Dict.get? d k).getD [] ++ [x])

/-- What the handlers need from outside: the Unicode tables, the order of hash maps, and the bound of the recursion. -/
structure Host where
  U : Unicode
  H : HashOrder
  fuel : Nat

namespace Backend

/-- `BackendState::default()` (`src/backend/mod.rs` 70). -/
def empty : Backend := ⟨Arena.empty, [], [], [], [], [], []⟩

/-- `Backend::source_to_ast` (`src/backend/mod.rs` 388–404): `some` is `Ok`. -/
def sourceToAst (h : Host) (source : Text) : Out (Option (List Node × LspRange × List Parser.Err)) :=
  match Scanner.scan h.U source with
  | .ok s =>
    match Parser.ast h.U h.fuel s.tokens with
    | .ok ns p => .ok (some (ns, getRange ⟨0, 0, s.col, s.line⟩, p.errors))
    | .err _ _ => .ok none
    | .panic => .panic
    | .diverge _ => .deep
  | .err _ _ => .ok none
  | .panic => .panic
  | .outOfFuel => .deep

/-- `errors.iter().map(Diagnostic::from).collect()`. -/
def diagnosticsOf (errors : List Parser.Err) : Option (List Diagnostic) := errors.mapM Diagnostic.ofError

/-- The key of a symbol in the global table: `symbol.fqdn().to_lowercase()`. -/
def key (U : Unicode) (s : Symbol) : Text := U.lower s.fqdn

/-- The symbol of a file (`src/backend/mod.rs` 412–418). -/
def fileSymbol (path : Text) (range : LspRange) : Symbol :=
  { Symbol.default with kind := .file, name := path, range := range, selectionRange := range }

/-- The loop that adds the symbols of a file to the global table (`src/backend/mod.rs` 445–453 and 370–376). -/
def registerAll (U : Unicode) (kids : List (NodeId × Symbol)) (globals : Dict Text NodeId) : Dict Text NodeId :=
  kids.foldl (fun g c => if c.2.kind.registerGlobal then Dict.insert g (key U c.2) c.1 else g) globals

/-- The part of `collect_symbols` that takes the old symbols of a file away (`src/backend/mod.rs` 426–443). -/
def dropFile (U : Unicode) (old : NodeId) (st : Backend) : Out Backend := do
  let kids ← .ofOption (st.arena.children? old)
  let all ← .ofOption (st.arena.descendants? old)
  pure { st with
    globals := kids.foldl (fun g c => Dict.remove g (key U c.2)) st.globals,
    references := st.references.map fun e => (e.1, all.foldl (fun m c => Dict.remove m c.1) e.2),
    arena := st.arena.removeSubtree old }

/-- `Backend::collect_symbols` (`src/backend/mod.rs` 406–456). -/
def collectSymbols (h : Host) (path : Text) (ast : List Node) (range : LspRange) (st : Backend) : Out Backend := do
  let root := st.arena.addRoot (fileSymbol path range)
  let c ← ast.foldlM (fun s node => traverse Node.children Collector.visitor h.fuel node root.1 s) (Collector.mk none root.2)
  let old := Dict.get? st.files path
  let st := { st with arena := c.arena, files := Dict.insert st.files path root.1 }
  let st ← (match old with
    | some old => dropFile h.U old st
    | none => pure st)
  let kids ← .ofOption (st.arena.children? root.1)
  pure { st with globals := registerAll h.U kids st.globals }

/-- The variables of a file are taken away (`src/backend/mod.rs` 476–485). -/
def purge (file : NodeId) (a : Arena Symbol) : Out (Arena Symbol) := do
  let all ← .ofOption (a.descendants? file)
  pure ((all.filter fun c => decide (c.2.kind = .variable)).foldl (fun a c => a.remove c.1) a)

/-- The references to each symbol (`src/backend/mod.rs` 508–520). -/
def groupRefs (refs : List NameRef) : FileRefs := refs.foldl (fun m r => Dict.push m r.node r.range) []

/-- `Backend::collect_references` (`src/backend/mod.rs` 462–529) up to the place where the references are stored: the references
of the file, or `none` if the file is not known. -/
def resolveFile (h : Host) (path : Text) (ast : List Node) (st : Backend) : Out (Option FileRefs × Backend) :=
  match Dict.get? st.files path with
  | none => .ok (none, st)
  | some file => do
    let a ← purge file st.arena
    let e ← ast.foldlM (fun s node => traverse Node.children (Env.nameVisitor h.U h.H file h.fuel) h.fuel node file s)
      (Env.mk a (Resolver.new st.globals file))
    let ds := e.resolver.diagnostics.foldl (fun d n => Dict.push d n.file (Diagnostic.ofNotification n)) st.diagnostics
    let refs := groupRefs ((Dict.get? e.resolver.documentReferences file).getD [])
    pure (some refs, { st with arena := e.arena, diagnostics := ds })

/-- `Backend::collect_references` (`src/backend/mod.rs` 462–529) without a container. -/
def collectReferences (h : Host) (path : Text) (ast : List Node) (st : Backend) : Out Backend := do
  let p ← resolveFile h path ast st
  match p.1 with
  | some refs => pure { p.2 with references := Dict.insert p.2.references path refs }
  | none => pure p.2

/-- `Backend::refresh_file` (`src/backend/mod.rs` 531–559). -/
def refreshFile (h : Host) (path : Text) (source : Text) (st : Backend) : Out Backend := do
  let p ← sourceToAst h source
  let st ← (match p with
    | some (ast, range, errors) => do
      let st ← collectSymbols h path ast range st
      let ds ← .ofOption (diagnosticsOf errors)
      pure { st with
        diagnostics := Dict.insert st.diagnostics path ds,
        opened := Dict.insert st.opened path (ast, range) }
    | none => pure st)
  (h.H.order st.opened).foldlM (fun st e => collectReferences h e.1 e.2.1 st) st

/-- `did_open` (`src/backend/did_open.rs` 5–33): the text that the client sends is not used. -/
def didOpen (h : Host) (path : Text) (disk : Option Text) (st : Backend) : Out Backend := do
  let source ← .ofOption disk
  let st := { st with latest := Dict.insert st.latest path source }
  match Dict.get? st.opened path with
  | some (ast, _) => collectReferences h path ast st
  | none => do
    let p ← sourceToAst h source
    match p with
    | none => pure st
    | some (ast, range, errors) => do
      let ds ← .ofOption (diagnosticsOf errors)
      collectReferences h path ast { st with
        diagnostics := Dict.insert st.diagnostics path ds,
        opened := Dict.insert st.opened path (ast, range) }

/-- `did_change` (`src/backend/did_change.rs` 5–17): only the first change is used. -/
def didChange (h : Host) (path : Text) (changes : List Text) (st : Backend) : Out Backend :=
  match changes with
  | [] => .ok st
  | text :: _ => refreshFile h path text { st with latest := Dict.insert st.latest path text }

/-- `did_close` (`src/backend/did_close.rs` 5–10). -/
def didClose (path : Text) (st : Backend) : Backend :=
  { st with
    latest := Dict.remove st.latest path,
    opened := Dict.remove st.opened path,
    references := Dict.remove st.references path }

/-- `did_change_watched_files` (`src/backend/did_change_watched_files.rs` 6–35): the loop ends at the first file that is
open. -/
def didChangeWatched (h : Host) : List (Text × Option Text) → Backend → Out Backend
  | [], st => .ok st
  | (path, disk) :: rest, st =>
    if (Dict.get? st.opened path).isSome then .ok st
    else do
      let content ← .ofOption disk
      let p ← sourceToAst h content
      match p with
      | none => didChangeWatched h rest st
      | some (ast, range, errors) => do
        let st ← collectSymbols h path ast range st
        let ds ← .ofOption (diagnosticsOf errors)
        didChangeWatched h rest { st with diagnostics := Dict.insert st.diagnostics path ds }

/-- The loop of `init_workspace` over the files that were read and parsed (`src/backend/mod.rs` 296–310, 333–349), in the order
in which they arrive. -/
def indexFiles (h : Host) : List (Text × Text) → Backend → Out Backend
  | [], st => .ok st
  | (path, content) :: rest, st => do
    let p ← sourceToAst h content
    match p with
    | none => indexFiles h rest st
    | some (ast, range, errors) => do
      let st ← collectSymbols h path ast range st
      let ds ← .ofOption (diagnosticsOf errors)
      indexFiles h rest { st with diagnostics := Dict.insert st.diagnostics path ds }

/-- The global table of all files (`src/backend/mod.rs` 368–379). -/
def rebuildGlobals (h : Host) (st : Backend) : Out Backend := do
  let g ← (h.H.order st.files).foldlM (fun g f => do
    let kids ← .ofOption (st.arena.children? f.2)
    pure (registerAll h.U kids g)) []
  pure { st with globals := g }

/-- `init_workspace` (`src/backend/mod.rs` 287–385), given the files that are found.  In the code the symbols are collected in a
task of its own, so that a panic there becomes an error of `init_workspace` after which only a part of the files is known; here it is
a panic. -/
def initWorkspace (h : Host) (files : List (Text × Text)) (st : Backend) : Out Backend := do
  let st ← indexFiles h files st
  rebuildGlobals h st

/-- The effect of `initialized` (`src/backend/mod.rs` 642–664) on the state. -/
def initialized (st : Backend) : Backend := { st with diagnostics := [] }

/-- `Backend::symbol_under_cursor` (`src/backend/mod.rs` 190–206). -/
def symbolUnderCursor (st : Backend) (position : Pos) (path : Text) : Out (Option (NodeId × Text)) :=
  match Dict.get? st.files path with
  | none => .ok none
  | some file => do
    let n ← .ofOption (symbolAt position file st.arena)
    let s ← .ofOption (st.arena.get? n)
    pure (some (n, s.plainName))

/-- Whether one of the ranges contains the position. -/
def covers (position : Pos) (ranges : List NodeRange) : Bool := ranges.any fun r => inRange position (getRange r)

/-- `Backend::referenced_symbol_under_cursor` (`src/backend/mod.rs` 208–219). -/
def referencedSymbol (H : HashOrder) (position : Pos) (refs : FileRefs) : Option NodeId :=
  ((H.order refs).find? fun e => covers position e.2).map (·.1)

/-- `str::contains`. -/
def contains (needle : Text) : Text → Bool
  | [] => needle.isEmpty
  | c :: r => needle.isPrefixOf (c :: r) || contains needle r

/-- One task of `Backend::references_of_symbol_under_cursor` (`src/backend/mod.rs` 238–272): a file that contains the name is
parsed and its names are resolved; the references go into the container. -/
def searchFile (h : Host) (disk : Text → Option Text) (name : Text) (acc : Dict Text FileRefs × Backend) (f : Text × NodeId) :
    Out (Dict Text FileRefs × Backend) :=
  match disk f.1 with
  | none => .ok acc
  | some content =>
    if contains name content then do
      let p ← sourceToAst h content
      match p with
      | none => pure acc
      | some (ast, _, _) => do
        let q ← resolveFile h f.1 ast acc.2
        match q.1 with
        | some refs => pure (Dict.insert acc.1 f.1 refs, q.2)
        | none => pure (acc.1, q.2)
    else .ok acc

/-- `Backend::references_of_symbol_under_cursor` (`src/backend/mod.rs` 221–285): the tasks run one after the other in some order;
`disk` gives the contents of the files. -/
def collectEverywhere (h : Host) (disk : Text → Option Text) (name : Text) (st : Backend) :
    Out (Dict Text FileRefs × Backend) :=
  (h.H.order st.files).foldlM (searchFile h disk name) ([], st)

/-- A place in a file (`lsp_types::Location`). -/
structure Location where
  path : Text
  range : LspRange
deriving DecidableEq, Repr

/-- The locations of the references to a symbol (`src/backend/mod.rs` 731–751). -/
def locationsOf (H : HashOrder) (n : NodeId) (refs : Dict Text FileRefs) : List Location :=
  (H.order refs).foldl (fun cur e =>
    match Dict.get? e.2 n with
    | some ranges => ranges.map (fun r => ⟨e.1, getRange r⟩) ++ cur
    | none => cur) []

/-- `references` (`src/backend/mod.rs` 702–754). -/
def findReferences (h : Host) (disk : Text → Option Text) (position : Pos) (path : Text) (st : Backend) :
    Out (Option (List Location) × Backend) := do
  let s ← symbolUnderCursor st position path
  match s with
  | none => pure (none, st)
  | some (n, name) => do
    let p ← collectEverywhere h disk name st
    pure (some (locationsOf h.H n p.1), p.2)

/-- `rename` (`src/backend/mod.rs` 756–821): for each file the ranges that get the new name. -/
def rename (h : Host) (disk : Text → Option Text) (position : Pos) (path : Text) (st : Backend) :
    Out (Option (List (Text × List LspRange)) × Backend) :=
  match Dict.get? st.references path with
  | none => .ok (none, st)
  | some refs =>
    match referencedSymbol h.H position refs with
    | none => .ok (none, st)
    | some n => do
      let s ← .ofOption (st.arena.get? n)
      let p ← collectEverywhere h disk s.name st
      pure (some ((h.H.order p.1).map fun e =>
        (e.1, (h.H.order e.2).flatMap fun x => if x.1 = n then x.2.map getRange else [])), p.2)

/-- `symbol_location` (`src/environment/mod.rs` 14–33): the outer `none` is a panic. -/
def symbolLocation (a : Arena Symbol) (n : NodeId) : Option (Option Location) := do
  let s ← a.get? n
  let up ← a.ancestors? n
  let syms ← up.tail.mapM a.get?
  pure ((syms.find? fun v => v.kind = .file).map fun v => ⟨v.plainName, s.selectionRange⟩)

/-- The loop of `goto_definition` (`src/backend/goto_definition.rs` 16–22). -/
def definitionIn (a : Arena Symbol) (position : Pos) : List (NodeId × List NodeRange) → Out (Option Location)
  | [] => .ok none
  | e :: rest =>
    if covers position e.2 then do
      let l ← .ofOption (symbolLocation a e.1)
      match l with
      | some l => .ok (some l)
      | none => definitionIn a position rest
    else definitionIn a position rest

/-- `goto_definition` (`src/backend/goto_definition.rs` 6–26). -/
def gotoDefinition (H : HashOrder) (st : Backend) (position : Pos) (path : Text) : Out (Option Location) :=
  match Dict.get? st.references path with
  | none => .ok none
  | some refs => definitionIn st.arena position (H.order refs)

/-- The symbol that `hover` describes and the range it reports (`src/backend/hover.rs` 6–49); the text (`hover_text`) is left
out. -/
def hover (H : HashOrder) (st : Backend) (position : Pos) (path : Text) : Out (Option (NodeId × LspRange)) := do
  let c ← symbolUnderCursor st position path
  let own ← (match c with
    | none => pure none
    | some (n, _) => do
      let s ← .ofOption (st.arena.get? n)
      pure (if inRange position s.selectionRange then some (n, s.range) else none))
  match own with
  | some x => pure (some x)
  | none =>
    match Dict.get? st.references path with
    | none => pure none
    | some refs =>
      match (H.order refs).find? fun e => covers position e.2 with
      | none => pure none
      | some e => do
        let _ ← .ofOption (st.arena.get? e.1)
        pure ((e.2.find? fun r => inRange position (getRange r)).map fun r => (e.1, getRange r))

/-- `document_highlight` (`src/backend/document_highlight.rs` 25–52). -/
def documentHighlight (H : HashOrder) (st : Backend) (position : Pos) (path : Text) : Option (List LspRange) :=
  match Dict.get? st.references path with
  | none => none
  | some refs =>
    ((H.order refs).find? fun e => covers position e.2).map fun e => e.2.map getRange

end Backend

end PhpLs
