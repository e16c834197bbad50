import Verif.Backend

/-!
# Requests that only read the state

Model of the workspace symbol search (`src/backend/symbol.rs`), of the outline of a document (`src/backend/document_symbol.rs`),
of go-to-implementation (`src/backend/goto_implementation.rs`) and of the two command line modes of `src/main.rs`.
-/

namespace PhpLs

/-- `PhpSymbolKind::get_symbol_kind` (`src/environment/symbol.rs` 234–259).  The kinds of the LSP are named like those of the
server; a trait is shown as a class. -/
def SymbolKind.lspKind : SymbolKind → Option SymbolKind
  | .trait => some .cls
  | .import | .builtInType | .magicConst | .functionParameter | .unknown => none
  | k => some k

/-- `SymbolInformation`, the fields that are set (`src/backend/symbol.rs` 28–39). -/
structure SymbolInfo where
  name : Text
  kind : SymbolKind
  deprecated : Bool
  location : Backend.Location
deriving DecidableEq, Repr

/-- `DocumentSymbol` (`src/environment/symbol.rs` 766–780).  `children: None` is the empty list here.  The `detail` is a text that
is shown; here it is the names of the types of a variable, and the empty list for everything else. -/
inductive DocSym where
  | mk (kind : SymbolKind) (name : Text) (range selection : LspRange) (detail : List Text) (deprecated : Bool)
      (children : List DocSym)

namespace Backend

/-- The loop over the symbols of a file (`src/backend/symbol.rs` 18–40). -/
def matching (U : Unicode) (query path : Text) (l : List (NodeId × Symbol)) : List SymbolInfo :=
  l.filterMap fun e =>
    if query.isPrefixOf (e.2.normalizedName U) then
      e.2.kind.lspKind.map fun k => ⟨e.2.plainName, k, e.2.deprecated.isSome, ⟨path, e.2.range⟩⟩
    else none

/-- `symbol` (`src/backend/symbol.rs` 5–45). -/
def workspaceSymbols (h : Host) (st : Backend) (query : Text) : Out (Option (List SymbolInfo)) :=
  if query.isEmpty then .ok none
  else do
    let all ← (h.H.order st.files).mapM fun f => do
      let l ← .ofOption (st.arena.descendants? f.2)
      pure (matching h.U (h.U.lower query) f.1 l)
    pure (some all.flatten)

/-- The part of `Symbol::detail` (`src/environment/symbol.rs` 721–749) that looks at other symbols: the names of the types of a
variable.  The texts of methods are left out. -/
def detail (a : Arena Symbol) (s : Symbol) : Out (List Text) :=
  if s.kind = .variable then .ofOption ((s.dataTypes.filterMap (·.node)).mapM fun n => (a.get? n).map (·.name))
  else .ok []

/-- `Symbol::to_doc_sym` (`src/environment/symbol.rs` 751–781) of each of the trees.  `top` is set for the children of a file,
which are not filtered by `is_internal`. -/
def outline (a : Arena Symbol) (top : Bool) : Forest Symbol → Out (List DocSym)
  | .nil => .ok []
  | .cons _ s kids rest =>
    if s.kind.isInternal && !top then outline a top rest
    else do
      let children ← outline a false kids
      match s.kind.lspKind with
      | none => outline a top rest
      | some k => do
        let d ← detail a s
        let r ← outline a top rest
        pure (.mk k s.name s.range s.selectionRange d s.deprecated.isSome children :: r)

/-- `document_symbol` (`src/backend/document_symbol.rs` 6–24). -/
def documentSymbols (st : Backend) (path : Text) : Out (Option (List DocSym)) :=
  match Dict.get? st.files path with
  | none => .ok none
  | some file => do
    let x ← .ofOption (st.arena.forest.node? file.idx)
    let r ← outline st.arena true x.2.2
    pure (some r)

/-- `symbol.kind == File` up the tree (`src/backend/goto_implementation.rs` 106–117): the file of a symbol with its name. -/
def enclosingFile (a : Arena Symbol) (n : NodeId) : Out (NodeId × Text) := do
  let up ← .ofOption (a.ancestors? n)
  let syms ← .ofOption (up.mapM fun i => (a.get? i).map fun v => (i, v))
  .ofOption ((syms.find? fun v => v.2.kind = .file).map fun v => (v.1, v.2.name))

/-- The test of one type of a class (`src/backend/goto_implementation.rs` 104–141). -/
def implementsVia (h : Host) (st : Backend) (interface : NodeId) (file : NodeId) (t : TypeRef) : Out Bool := do
  let p ← Resolver.resolveTypeRef h.U st.arena h.fuel (Resolver.new st.globals file) t file false
  match p.1 with
  | none => pure false
  | some n =>
    if n = interface then pure true
    else do
      let s ← .ofOption (st.arena.get? n)
      let q ← Resolver.isChildOf h.U h.H st.arena h.fuel p.2 s n interface
      pure q.1

/-- The types of a class without those whose last part is its own name (`src/backend/goto_implementation.rs` 91–103). -/
def otherTypes (U : Unicode) (s : Symbol) : List TypeRef :=
  (s.dataTypes.map (·.typeRef)).filter fun t =>
    match t.tip with
    | some tip => U.lower tip != s.normalizedName U
    | none => false

/-- `.find(|x| ..)` with a test that may fail. -/
def anyOut {α : Type} (f : α → Out Bool) : List α → Out Bool
  | [] => .ok false
  | x :: l => do
    let b ← f x
    if b then .ok true else anyOut f l

/-- `implementing_interfaces` (`src/backend/goto_implementation.rs` 81–150), with the names of the files. -/
def implementing (h : Host) (st : Backend) (interface : NodeId) : Out (List (Text × NodeId)) :=
  (h.H.order st.globals).foldlM (init := []) fun acc e => do
    let s ← .ofOption (st.arena.get? e.2)
    if s.kind ≠ .cls then pure acc
    else if (otherTypes h.U s).isEmpty then pure acc
    else do
      let f ← enclosingFile st.arena e.2
      let b ← anyOut (implementsVia h st interface f.1) (otherTypes h.U s)
      pure (if b then acc ++ [(f.2, e.2)] else acc)

/-- `goto_implementation` (`src/backend/goto_implementation.rs` 12–79). -/
def gotoImplementation (h : Host) (st : Backend) (position : Pos) (path : Text) : Out (Option (List Location)) := do
  let c ← symbolUnderCursor st position path
  match c with
  | none => pure (some [])
  | some (n, name) => do
    let s ← .ofOption (st.arena.get? n)
    if s.kind = .method then do
      let up ← .ofOption (st.arena.parent? n)
      match up with
      | none => pure none
      | some p => do
        let ps ← .ofOption (st.arena.get? p)
        if ps.kind = .interface then do
          let classes ← implementing h st p
          let l ← classes.foldlM (init := []) fun acc c => do
            let kids ← .ofOption (st.arena.children? c.2)
            pure (acc ++ ((kids.find? fun k => k.2.normalizedName h.U = h.U.lower name).map fun k =>
              (⟨c.1, k.2.selectionRange⟩ : Location)).toList)
          pure (some l)
        else pure none
    else if s.kind = .interface then do
      let classes ← implementing h st n
      let l ← classes.foldlM (init := []) fun acc c => do
        let k ← .ofOption (st.arena.get? c.2)
        pure (acc ++ [(⟨c.1, k.selectionRange⟩ : Location)])
      pure (some l)
    else pure (some [])

/-- What `phpls-rs --file F` prints (`src/main.rs` 64–71): the argument itself is taken as the source, and errors of the parser
are not looked at. -/
inductive Report where
  | parsedOk
  | error
deriving DecidableEq, Repr

/-- The branch for `--file` in `main` (`src/main.rs` 64–71).  `content` is what is in the file; it is not used. -/
def checkFile (h : Host) (file : Text) (_content : Text) : Out Report := do
  let p ← sourceToAst h file
  match p with
  | some _ => pure .parsedOk
  | none => pure .error

end Backend

end PhpLs
