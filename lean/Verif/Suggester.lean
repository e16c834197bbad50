import Verif.Backend

/-!
# Completion

Model of `src/suggester/mod.rs` (1–480) and of `src/backend/completion.rs`.  Left out: of the items sent to the editor the
details, kinds, tags and texts to insert (`Symbol::completion_item`, `src/environment/symbol.rs` 282–381), which are modelled in
`CompletionItem.lean`, and the conversion of the URI into a path.
-/

namespace PhpLs

/-- `SuggestionContext` (`src/suggester/mod.rs` 14–36). -/
inductive SuggestionContext where
  | «import» | traitUsage | unknown | constructorCall | call | reference | keyword
deriving DecidableEq, Repr

/-- `Suggestion` (`src/suggester/mod.rs` 38–46). -/
structure Suggestion where
  node : Option NodeId
  token : Option TT
  context : SuggestionContext
  replace : Option NodeRange
  «alias» : Option Text
  isThis : Bool
deriving DecidableEq, Repr

namespace Suggestion

/-- `Suggestion::token` (`src/suggester/mod.rs` 49–58). -/
def ofToken (t : TT) : Suggestion := ⟨none, some t, .keyword, none, none, false⟩

/-- `Suggestion::node` (`src/suggester/mod.rs` 60–69). -/
def ofNode (n : NodeId) (role : SuggestionContext) (replace : Option NodeRange) : Suggestion :=
  ⟨some n, none, role, replace, none, false⟩

/-- `Suggestion::aliased` (`src/suggester/mod.rs` 71–85). -/
def aliased (n : NodeId) («alias» : Text) (role : SuggestionContext) (replace : Option NodeRange) : Suggestion :=
  ⟨some n, none, role, replace, some «alias», false⟩

/-- `Suggestion::this` (`src/suggester/mod.rs` 87–96). -/
def this (n : NodeId) (role : SuggestionContext) : Suggestion := ⟨some n, none, role, none, some c!"this", true⟩

end Suggestion

namespace Suggester

/-- `in_range(position, &get_range(n.range()))` (`src/suggester/mod.rs` 110, 115). -/
def at? (position : Pos) (n : Node) : Out Bool := do
  let r ← .ofOption n.range
  pure (inRange position (getRange r))

/-- The first child that contains the position (`src/suggester/mod.rs` 109–113): the ranges of later ones are not computed. -/
def firstAt (position : Pos) : List Node → Out (Option Node)
  | [] => .ok none
  | c :: r => do
    if ← at? position c then .ok (some c) else firstAt position r

/-- `find` (`src/suggester/mod.rs` 98–120), with a bound on the depth of the recursion.  The ancestors are listed as in the code:
the last one is the node itself. -/
def find (position : Pos) : Nat → Node → List Node → Out (Option (Node × List Node))
  | 0, _, _ => .deep
  | fuel + 1, n, ancestors => do
    let ancestors := ancestors ++ [n]
    match ← firstAt position n.children with
    | some c => find position fuel c ancestors
    | none =>
      if ← at? position n then .ok (some (n, ancestors)) else .ok none

/-- `ast.iter().find_map(|n| find(n, &pos, Vec::new()))` (`src/suggester/mod.rs` 413). -/
def findIn (position : Pos) (fuel : Nat) : List Node → Out (Option (Node × List Node))
  | [] => .ok none
  | n :: r => do
    match ← find position fuel n [] with
    | some x => .ok (some x)
    | none => findIn position fuel r

/-- `Node::normalized_name` (`src/parser/node.rs` 1843–1845). -/
def normalizedName (U : Unicode) (n : Node) : Option Text := n.name.map U.lower

/-- `suggest_imports_starting_with` (`src/suggester/mod.rs` 123–143): the range is only computed for a match. -/
def importsStarting (h : Host) (globals : Dict Text NodeId) (declaration : Node) : Out (List Suggestion) := do
  let pre ← .ofOption (normalizedName h.U declaration)
  (h.H.order globals).foldlM (init := []) fun acc e =>
    if pre.isPrefixOf e.1 then do
      let r ← .ofOption declaration.range
      pure (acc ++ [.ofNode e.2 .import (some r)])
    else .ok acc

/-- `suggest_traits_starting_with` (`src/suggester/mod.rs` 146–175). -/
def traitsStarting (h : Host) (globals : Dict Text NodeId) (declaration : Node) (a : Arena Symbol) (node : Node) :
    Out (List Suggestion) := do
  let pre ← .ofOption (normalizedName h.U declaration)
  (h.H.order globals).foldlM (init := []) fun acc e => do
    let s ← .ofOption (a.get? e.2)
    if s.kind ≠ .trait then .ok acc
    else if pre.isPrefixOf (s.normalizedName h.U) then do
      let r ← .ofOption node.range
      pure (acc ++ [.ofNode e.2 .traitUsage (some r)])
    else .ok acc

/-- `suggest_symbol_starting_with` (`src/suggester/mod.rs` 178–199). -/
def symbolsStarting (h : Host) (globals : Dict Text NodeId) (a : Arena Symbol) (node : Node) : Out (List Suggestion) := do
  let pre ← .ofOption (normalizedName h.U node)
  (h.H.order globals).foldlM (init := []) fun acc e => do
    let s ← .ofOption (a.get? e.2)
    if pre.isPrefixOf (s.normalizedName h.U) then do
      let r ← .ofOption node.range
      pure (acc ++ [.ofNode e.2 .unknown (some r)])
    else .ok acc

/-- `n.ancestors(arena).find(|n| arena[*n].get().kind == PhpSymbolKind::Class)` (`src/suggester/mod.rs` 214–217, 284–288). -/
def nearestClass (a : Arena Symbol) : List NodeId → Out (Option NodeId)
  | [] => .ok none
  | n :: r => do
    let s ← .ofOption (a.get? n)
    if s.kind = .cls then .ok (some n) else nearestClass a r

/-- `suggest_variables_of_scope` (`src/suggester/mod.rs` 202–223). -/
def variablesOf (a : Arena Symbol) (scope : NodeId) : Out (List Suggestion) := do
  let cs ← .ofOption (a.children? scope)
  let vars := cs.filterMap fun c =>
    if c.2.kind = .variable ∨ c.2.kind = .functionParameter then some (Suggestion.ofNode c.1 .reference none) else none
  let ancestors ← .ofOption (a.ancestors? scope)
  match ← nearestClass a ancestors with
  | none => .ok vars
  | some c => .ok (vars ++ [.this c .reference])

/-- Where the object of a member access is looked for (`src/suggester/mod.rs` 242–265): the range, the class of `$this` if the
object is `$this`, and whether magic constants are left out. -/
def objectOf (a : Arena Symbol) (cursor : NodeId) (node parent : Node) : Out (NodeRange × Option NodeId × Bool) := do
  let r ← .ofOption parent.range
  match node with
  | .member object _ _ _ _ => do
    let r ← .ofOption object.range
    pure (r, none, true)
  | _ =>
    match parent with
    | .member object _ _ _ _ =>
      match object with
      | .call callee _ _ _ =>
        match callee with
        | .member _ _ _ m _ => do
          let r ← .ofOption m.range
          pure (r, none, true)
        | _ => .ok (r, none, true)
      | .member _ _ _ m _ => do
        let r ← .ofOption m.range
        pure (r, none, true)
      | .variable token =>
        if token.label = some c!"this" then do
          let p ← .ofOption (a.parent? cursor)
          pure (r, p, true)
        else .ok (r, none, true)
      | _ => .ok (r, none, true)
    | _ => .ok (r, none, false)

/-- The members that can be used where the cursor is (`src/suggester/mod.rs` 282–313). -/
def accessibleMembers (h : Host) (a : Arena Symbol) (globals : Dict Text NodeId) (cursor : NodeId) : Out Members := do
  let ancestors ← .ofOption (a.ancestors? cursor)
  match ← nearestClass a ancestors with
  | none => .ok []
  | some c => do
    let cs ← .ofOption (a.children? c)
    let own := Resolver.ownMembers h.U c cs
    let s ← .ofOption (a.get? c)
    let imports ← Resolver.importedSymbols h.U h.H a h.fuel (Resolver.new globals c) s c
    let inherited ← Resolver.inheritedSymbols h.U h.H a h.fuel imports.2 s c
    (h.H.order inherited.1).foldlM (init := Dict.extend own imports.1) fun acc e => do
      let m ← .ofOption (a.get? e.2.symbol)
      if m.visibility.ge .protected then .ok (Dict.insert acc e.1 e.2) else .ok acc

/-- The classes of an object (`src/suggester/mod.rs` 320–332). -/
def typesOf (h : Host) (a : Arena Symbol) (object cursor : NodeId) : List SymRef → Resolver → Out (List NodeId)
  | [], _ => .ok []
  | d :: l, r =>
    match d.node with
    | some n => do
      let rest ← typesOf h a object cursor l r
      pure (n :: rest)
    | none => do
      let root ← .ofOption d.typeRef.root
      let root ← .ofOption root
      if root = c!"$this" then do
        let p ← .ofOption (a.parent? object)
        let rest ← typesOf h a object cursor l r
        pure (p.toList ++ rest)
      else do
        let p ← Resolver.resolveTypeRef h.U a h.fuel r d.typeRef cursor false
        let rest ← typesOf h a object cursor l p.2
        pure (p.1.toList ++ rest)

/-- Whether a member of a class is offered (`src/suggester/mod.rs` 341–370). -/
def offered (U : Unicode) (pre : Text) (staticOnly noMagic : Bool) (accessible : Members) (n : SymbolAlias) (s : Symbol) : Bool :=
  pre.isPrefixOf n.alias && !((staticOnly && !s.isStatic) || (noMagic && decide (s.kind = .magicConst))) &&
    (n.visibility.ge .public || (Dict.get? accessible (s.normalizedName U)).isSome)

/-- The members of one class that are offered (`src/suggester/mod.rs` 333–374): each class has its own resolver. -/
def membersOf (h : Host) (a : Arena Symbol) (globals : Dict Text NodeId) (cursor : NodeId) (pre : Text)
    (staticOnly noMagic : Bool) (accessible : Members) (c : NodeId) : Out (List Suggestion) := do
  let all ← Resolver.allSymbols h.U h.H a h.fuel (Resolver.new globals cursor) c
  (h.H.order all.1).foldlM (init := []) fun acc e => do
    let s ← .ofOption (a.get? e.2.symbol)
    if offered h.U pre staticOnly noMagic accessible e.2 s then
      pure (acc ++ [.aliased e.2.symbol e.2.alias .call none])
    else .ok acc

/-- `suggest_members_of_symbol` (`src/suggester/mod.rs` 226–377).  The parent is always there (431).  The classes are found one
by one while the members are collected; no step of the one depends on the other, except that a panic of a later name would
come after the members of an earlier one were computed. -/
def membersOfSymbol (h : Host) (trigger : Option Char) (node parent : Node) (a : Arena Symbol) (globals : Dict Text NodeId)
    (cursor : NodeId) (refs : FileRefs) : Out (List Suggestion) := do
  let pre ← .ofOption node.name
  let o ← objectOf a cursor node parent
  let position : Pos := ⟨o.1.startLine, o.1.startCol⟩
  match o.2.1.or (Backend.referencedSymbol h.H position refs) with
  | none => .ok []
  | some object => do
    let accessible ← accessibleMembers h a globals cursor
    let s ← .ofOption (a.get? object)
    let classes ← typesOf h a object cursor s.dataTypes (Resolver.new globals cursor)
    classes.foldlM (init := []) fun acc c => do
      let l ← membersOf h a globals cursor pre (trigger = some ':') o.2.2 accessible c
      pure (acc ++ l)

/-- `suggest_keywords` (`src/suggester/mod.rs` 379–394). -/
def keywords (a : Arena Symbol) (cursor : NodeId) : Out (List Suggestion) := do
  let s ← .ofOption (a.get? cursor)
  if s.kind = .file then
    pure ([TT.kwNamespace, .kwUse, .kwClass, .kwFunction, .kwConst, .kwTrait, .kwInterface].map .ofToken)
  else .ok []

/-- Whether the cursor is in the block of a class (`src/suggester/mod.rs` 447–466).  The ancestors are given from the inside to
the outside. -/
def inClassBlock : List Node → Bool
  | [] => false
  | .classStatement .. :: _ => true
  | .block .. :: .classStatement .. :: _ => true
  | .block .. :: _ => false
  | _ :: r => inClassBlock r

/-- `get_suggestions_at` (`src/suggester/mod.rs` 404–478). -/
def suggestionsAt (h : Host) (trigger : Option Char) (position : Pos) (cursor : NodeId) (ast : List Node) (a : Arena Symbol)
    (globals : Dict Text NodeId) (refs : FileRefs) : Out (List Suggestion) := do
  match ← findIn position h.fuel ast with
  | none => if trigger = some '$' then variablesOf a cursor else keywords a cursor
  | some (node, path) =>
    let ancestors := path.dropLast
    match node with
    | .useTrait typeRef => traitsStarting h globals typeRef a node
    | .groupedUse _ declaration _ _ _ => importsStarting h globals declaration
    | .useDeclaration _ declaration _ _ => importsStarting h globals declaration
    | .variable _ => variablesOf a cursor
    | .aliasedVariable _ _ => variablesOf a cursor
    | .missing _ | .literal _ | .member _ _ _ _ _ => do
      let parent ← .ofOption ancestors.getLast?
      membersOfSymbol h trigger node parent a globals cursor refs
    | _ =>
      if inClassBlock ancestors.reverse then
        .ok ([TT.kwPublic, .kwPrivate, .kwProtected].map .ofToken)
      else symbolsStarting h globals a node

end Suggester

/-- Of an item of the list for the editor (`CompletionItem`): the label and the additional edits. -/
structure CompletionItem where
  label : Text
  edits : List (LspRange × Text)
deriving DecidableEq, Repr

namespace Backend

/-- Whether an import of the file has the name (`imports.all().any(|import| import.full_name() == fqdn)`,
`src/backend/completion.rs` 106). -/
def hasImport (fqdn : Text) : List SymbolImport → Out Bool
  | [] => .ok false
  | i :: r => do
    let n ← .ofOption i.fullName
    if n = fqdn then .ok true else hasImport fqdn r

/-- The line where an import is added (`src/backend/completion.rs` 104–121); `none` if the file has it already. -/
def importLine (fqdn : Text) (file : Symbol) : Out (Option Nat) :=
  match file.imports with
  | none => .ok (some 3)
  | some l => do
    if ← hasImport fqdn l then .ok none
    else
      match l with
      | [] => .ok (some 3)
      | i :: _ => do
        let r ← .ofOption i.path.range
        pure (some r.startLine)

/-- The item of a suggestion (`src/backend/completion.rs` 67–141). -/
def completionItem (a : Arena Symbol) (file : Symbol) (sug : Suggestion) : Out CompletionItem :=
  if sug.isThis then .ok ⟨c!"$this", []⟩
  else
    match sug.token with
    | some t => do
      let l ← .ofOption t.display
      pure ⟨l, []⟩
    | none => do
      let sn ← .ofOption sug.node
      let s ← .ofOption (a.get? sn)
      if s.kind = .cls ∨ s.kind = .trait then
        if sug.context = .import then do
          let r ← .ofOption sug.replace
          pure ⟨s.fqdn, [(getRange r, [])]⟩
        else if s.namespace.isNone then .ok ⟨s.plainName, []⟩
        else if file.namespace = s.namespace then .ok ⟨s.plainName, []⟩
        else do
          match ← importLine s.fqdn file with
          | none => .ok ⟨s.plainName, []⟩
          | some line => .ok ⟨s.plainName, [(⟨⟨line, 0⟩, ⟨line, 0⟩⟩, c!"use " ++ s.fqdn ++ c!";\n")]⟩
      else .ok ⟨c!"$" ++ sug.alias.getD s.plainName, []⟩

/-- `completion` (`src/backend/completion.rs` 23–149). -/
def completion (h : Host) (st : Backend) (trigger : Option Char) (position : Pos) (path : Text) :
    Out (Option (List CompletionItem)) :=
  match Dict.get? st.opened path with
  | none => .ok none
  | some (ast, _) =>
    match Dict.get? st.files path with
    | none => .ok none
    | some file => do
      let fileSymbol ← .ofOption (st.arena.get? file)
      let cursor ← .ofOption (symbolAt position file st.arena)
      match Dict.get? st.references path with
      | none => .ok none
      | some refs => do
        let l ← Suggester.suggestionsAt h trigger position cursor ast st.arena st.globals refs
        let items ← l.foldlM (init := []) fun acc sug => do
          let i ← completionItem st.arena fileSymbol sug
          pure (acc ++ [i])
        pure (some items)

end Backend

end PhpLs
