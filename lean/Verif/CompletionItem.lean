import Verif.Suggester

/-!
# What a completion item shows and inserts

Model of `Symbol::completion_item` (`src/environment/symbol.rs` 281–381), of the items made from keywords (`src/parser/token.rs`
738–746) and of the whole answer of `completion` (`src/backend/completion.rs`).  `Backend.completion` in `Suggester.lean` gives the
labels and the additional edits only; here are all the fields that the server fills in.
-/

namespace PhpLs

/-- The kinds of items that the server uses (`CompletionItemKind` of `tower-lsp`). -/
inductive ItemKind where
  | interface | cls | constant | method | function | keyword
deriving DecidableEq, Repr

/-- The fields of `CompletionItem` (`tower-lsp`) that the server fills in.  `deprecated` is the tag `DEPRECATED`, `snippet` the insert
text format `SNIPPET`.  The other fields are always empty. -/
structure ShownItem where
  label : Text
  edits : List (LspRange × Text)
  detail : Option Text
  kind : Option ItemKind
  deprecated : Bool
  insertText : Option Text
  snippet : Bool
deriving DecidableEq, Repr

/-- `CompletionItem { label, ..CompletionItem::default() }`. -/
def ShownItem.plain (label : Text) : ShownItem := ⟨label, [], none, none, false, none, false⟩

/-- `impl Display for Visibility` (`src/environment/symbol.rs` 60–75). -/
def Visibility.text : Visibility → Text
  | .none => []
  | .public => c!"public"
  | .protected => c!"protected"
  | .private => c!"private"

/-- One argument of a snippet (`src/environment/symbol.rs` 378). -/
def snippetArgument (i : Nat) (name : Text) : Text := c!"${" ++ natText i ++ c!":\\$" ++ name ++ c!"}"

/-- The arguments of a snippet from number `i` on (`src/environment/symbol.rs` 375–380, without the separators). -/
def snippetArguments : Nat → List Text → List Text
  | _, [] => []
  | i, c :: r => snippetArgument i c :: snippetArguments (i + 1) r

/-- `[String]::join(", ")`. -/
def joinComma : List Text → Text
  | [] => []
  | [c] => c
  | c :: r => c ++ c!", " ++ joinComma r

namespace Symbol

/-- `Symbol::parameters` (`src/environment/symbol.rs` 368–372): the names of all children. -/
def parameterNames (a : Arena Symbol) (n : NodeId) : Option (List Text) := do
  let cs ← a.children? n
  pure (cs.map fun c => c.2.plainName)

/-- `Symbol::parameters_as_snippets` (`src/environment/symbol.rs` 374–381). -/
def parametersAsSnippets (a : Arena Symbol) (n : NodeId) : Option Text := do
  let ps ← parameterNames a n
  pure (joinComma (snippetArguments 1 ps))

/-- `Symbol::completion_item` (`src/environment/symbol.rs` 282–366). -/
def completionItem (a : Arena Symbol) (n : NodeId) (s : Symbol) : Option ShownItem :=
  let dep := s.deprecated == some true
  let ns := s.namespace.getD []
  let item : ShownItem := { ShownItem.plain s.plainName with deprecated := dep }
  match s.kind with
  | .interface => some { item with detail := some (c!"interface " ++ ns ++ c!"\\" ++ s.name), kind := some .interface }
  | .cls => some { item with detail := some (c!"class " ++ ns ++ c!"\\" ++ s.name), kind := some .cls }
  | .trait => some { item with detail := some (c!"trait " ++ ns ++ c!"\\" ++ s.name), kind := some .cls }
  | .constant => some { item with
      detail := some (s.visibility.text ++ c!" " ++ s.name ++ c!"()"), kind := some .constant }
  | .magicConst => some { item with kind := some .constant }
  | .method => do
    let ps ← parametersAsSnippets a n
    pure { item with
      detail := some (s.visibility.text ++ c!" " ++ s.name ++ c!"()"), kind := some .method,
      insertText := some (s.name ++ c!"(" ++ ps ++ c!")"), snippet := true }
  | .function => do
    let ps ← parametersAsSnippets a n
    pure { item with
      detail := some (s.name ++ c!"()"), kind := some .function,
      insertText := some (s.name ++ c!"(" ++ ps ++ c!")"), snippet := true }
  | _ => some item

end Symbol

namespace Backend

/-- The item of one suggestion (`src/backend/completion.rs` 60–143, `src/parser/token.rs` 738–746). -/
def shownItem (a : Arena Symbol) (file : Symbol) (sug : Suggestion) : Out ShownItem :=
  if sug.isThis then .ok (.plain c!"$this")
  else
    match sug.token with
    | some t => do
      let l ← .ofOption t.display
      pure { ShownItem.plain l with kind := some .keyword }
    | none => do
      let sn ← .ofOption sug.node
      let s ← .ofOption (a.get? sn)
      if s.kind = .cls ∨ s.kind = .trait then
        if sug.context = .import then do
          let r ← .ofOption sug.replace
          let item ← .ofOption (s.completionItem a sn)
          pure { item with label := s.fqdn, edits := [(getRange r, [])] }
        else if s.namespace.isNone then .ofOption (s.completionItem a sn)
        else if file.namespace = s.namespace then .ofOption (s.completionItem a sn)
        else do
          match ← importLine s.fqdn file with
          | none => .ofOption (s.completionItem a sn)
          | some line => do
            let item ← .ofOption (s.completionItem a sn)
            pure { item with edits := [(⟨⟨line, 0⟩, ⟨line, 0⟩⟩, c!"use " ++ s.fqdn ++ c!";\n")] }
      else do
        let item ← .ofOption (s.completionItem a sn)
        pure { item with label := c!"$" ++ sug.alias.getD item.label }

/-- `completion` (`src/backend/completion.rs` 23–149) with all the fields. -/
def completionShown (h : Host) (st : Backend) (trigger : Option Char) (position : Pos) (path : Text) :
    Out (Option (List ShownItem)) :=
  match Dict.get? st.opened path with
  | none => .ok none
  | some (ast, _) =>
    match Dict.get? st.files path with
    | none => .ok none
    | some file => do
      let fileSymbol ← .ofOption (st.arena.get? file)
      let cursor ← .ofOption (symbolAt position file st.arena)
      match Dict.get? st.references path with
      | none => .ok none
      | some refs => do
        let l ← Suggester.suggestionsAt h trigger position cursor ast st.arena st.globals refs
        let items ← l.foldlM (init := []) fun acc sug => do
          let i ← shownItem st.arena fileSymbol sug
          pure (acc ++ [i])
        pure (some items)

end Backend

end PhpLs
