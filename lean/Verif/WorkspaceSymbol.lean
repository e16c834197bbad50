import Verif.NameResolve

/-!
# The visitor that collects symbols

Model of `WorkspaceSymbolVisitor` (`src/environment/visitor/workspace_symbol.rs` 14–531) and of the macros `ref_from_doc!` and
`deprecated_from_doc!` (`src/environment/visitor/mod.rs` 5–37).
-/

namespace PhpLs

/-- `WorkspaceSymbolVisitor` (`src/environment/visitor/workspace_symbol.rs` 14–23) and the arena. -/
structure Collector where
  «namespace» : Option Text
  arena : Arena Symbol

namespace Collector

/-- `ref_from_doc!` and the loops over type references (`src/environment/visitor/mod.rs` 5–19,
`src/environment/visitor/workspace_symbol.rs` 117–137, 213–219, 270–277, 303–310): references without a node.  `none` is a panic of `TypeRef::range`. -/
def toTypes (ts : List TypeRef) : Option (List SymRef) := ts.mapM SymRef.toType

/-- The part of a doc comment that is read by `ref_from_doc!(…, var_docs)`. -/
def varDocs : Option Node → List TypeRef
  | some (.docComment _ _ _ _ _ vs _) => vs.flatMap getTypeRefs
  | _ => []

/-- The part of a doc comment that is read by `ref_from_doc!(…, return_type)`. -/
def returnDocs : Option Node → List TypeRef
  | some (.docComment _ rs _ _ _ _ _) => rs.flatMap getTypeRefs
  | _ => []

/-- `deprecated_from_doc!` (`src/environment/visitor/mod.rs` 22–37). -/
def deprecated : Option Node → Option Bool
  | some (.docComment _ _ _ d _ _ _) => if d then some true else none
  | _ => none

/-- `arena.new_node(symbol)` and `parent.append(child, arena)`; the panic is the one of an access to a parent that does not
exist. -/
def add (s : Collector) (parent : NodeId) (v : Symbol) : Out (NodeId × Collector) := do
  let _ ← .ofOption (s.arena.get? parent)
  let r := s.arena.addChild parent v
  pure (r.1, { s with arena := r.2 })

/-- `arena[id].get_mut()` with a change. -/
def change (s : Collector) (i : NodeId) (f : Symbol → Symbol) : Out Collector := do
  let _ ← .ofOption (s.arena.get? i)
  pure { s with arena := s.arena.modify i f }

/-- The imports of a symbol, with some more (`src/environment/visitor/workspace_symbol.rs` 48–52, 62–66). -/
def addImports (v : Symbol) (is : List SymbolImport) : Symbol :=
  match v.imports with
  | some l => { v with imports := some (l ++ is) }
  | none => { v with imports := some is }

/-- The trait rules of a symbol, with some more (`src/environment/visitor/workspace_symbol.rs` 68–72). -/
def addRules (v : Symbol) (rs : List TraitUseAlteration) : Symbol :=
  match v.importResolutions with
  | some l => { v with importResolutions := some (l ++ rs) }
  | none => { v with importResolutions := some rs }

/-- The part of `visit` for imports (`src/environment/visitor/workspace_symbol.rs` 37–55). -/
def visitUse (node : Node) (parent : NodeId) (s : Collector) : Out (NextAction × Collector) := do
  let up ← .ofOption (s.arena.parent? parent)
  let is ← .ofOption (collectUses node (.one []))
  let s ← s.change (up.getD parent) fun v => addImports v is
  pure (.abort, s)

/-- The part of `visit` for the use of traits (`src/environment/visitor/workspace_symbol.rs` 56–75). -/
def visitUseTrait (node : Node) (parent : NodeId) (s : Collector) : Out (NextAction × Collector) := do
  let is ← .ofOption (collectUses node (.one []))
  let rs ← .ofOption (collectAlterations node)
  let s ← s.change parent fun v => addRules (addImports v is) rs
  pure (.abort, s)

/-- The part of `visit` for namespaces (`src/environment/visitor/workspace_symbol.rs` 77–95). -/
def visitNamespace (typeRef : Node) (parent : NodeId) (s : Collector) : Out (NextAction × Collector) :=
  match typeRef with
  | .typeRef t => do
    let n ← .ofOption t.toFqdn
    let r ← .ofOption t.range
    let p ← .ofOption (s.arena.get? parent)
    let c ← s.add parent { Symbol.default with
      kind := .namespace, name := n, selectionRange := getRange r, range := p.selectionRange }
    pure (.processChildren c.1, c.2)
  | _ => .panic

/-- `expressions.iter().any(..)` and `attributes.iter().any(..)` of the search for the attribute `Attribute`
(`src/environment/visitor/workspace_symbol.rs` 139–151): `none` is a panic. -/
def anyM {α : Type} (f : α → Option Bool) : List α → Option Bool
  | [] => some false
  | x :: r =>
    match f x with
    | none => none
    | some true => some true
    | some false => anyM f r

/-- Whether a class is an attribute (`src/environment/visitor/workspace_symbol.rs` 139–151). -/
def isAttribute (attributes : List Node) : Option Bool :=
  anyM (fun a =>
    match a with
    | .attr _ es _ => anyM (fun e =>
        match e with
        | .typeRef t => do
          let k ← t.rootToken
          let n ← k.display
          pure (n = c!"Attribute")
        | _ => some false) es
    | _ => some false) attributes

/-- The part of `visit` for classes (`src/environment/visitor/workspace_symbol.rs` 109–181). -/
def visitClass (node : Node) (name : Token) (implementing : Option (List Node)) (extending : Option Node) (doc : Option Node)
    (attributes : List Node) (parent : NodeId) (s : Collector) : Out (NextAction × Collector) := do
  let inherits ← .ofOption (match extending with
    | some e => (toTypes (getTypeRef e)).map some
    | none => some none)
  let sel ← .ofOption name.range
  let n ← .ofOption name.display
  let range ← .ofOption node.range
  let own ← .ofOption (SymRef.toType (.one [name]))
  let impls ← .ofOption (toTypes ((implementing.getD []).flatMap getTypeRef))
  let att ← .ofOption (isAttribute attributes)
  let c ← s.add parent { Symbol.default with
    «namespace» := s.namespace, name := n, kind := .cls, range := getRange range, selectionRange := getRange sel,
    inheritsFrom := inherits, dataTypes := own :: impls, deprecated := deprecated doc, isAttribute := att }
  let m ← c.2.add c.1 { Symbol.default with
    name := c!"class", kind := .magicConst, range := getRange sel, selectionRange := getRange sel, isStatic := true }
  pure (.processChildren c.1, m.2)

/-- The part of `visit` for traits (`src/environment/visitor/workspace_symbol.rs` 182–203). -/
def visitTrait (node : Node) (name : Token) (doc : Option Node) (parent : NodeId) (s : Collector) :
    Out (NextAction × Collector) := do
  let sel ← .ofOption name.range
  let n ← .ofOption name.display
  let range ← .ofOption node.range
  let c ← s.add parent { Symbol.default with
    «namespace» := s.namespace, name := n, kind := .trait, range := getRange range, selectionRange := getRange sel,
    deprecated := deprecated doc }
  pure (.processChildren c.1, c.2)

/-- The part of `visit` for interfaces (`src/environment/visitor/workspace_symbol.rs` 204–236). -/
def visitInterface (node : Node) (name : Token) (extending : Option (List Node)) (doc : Option Node) (parent : NodeId)
    (s : Collector) : Out (NextAction × Collector) := do
  let sel ← .ofOption name.range
  let n ← .ofOption name.display
  let range ← .ofOption node.range
  let inherits ← .ofOption (match extending with
    | some es => (toTypes (es.flatMap getTypeRef)).map some
    | none => some none)
  let c ← s.add parent { Symbol.default with
    «namespace» := s.namespace, name := n, kind := .interface, range := getRange range, selectionRange := getRange sel,
    inheritsFrom := inherits, deprecated := deprecated doc }
  pure (.processChildren c.1, c.2)

/-- The loop over the constants of a class (`src/environment/visitor/workspace_symbol.rs` 244–265). -/
def addConsts (node : Node) (doc : Option Node) (parent : NodeId) : List Node → Collector → Out Collector
  | [], s => .ok s
  | .classConstant visibility name _ :: rest, s => do
    let ts ← .ofOption (toTypes (varDocs doc))
    let range ← .ofOption node.range
    let n ← .ofOption name.display
    let c ← s.add parent { Symbol.default with
      name := n, kind := .constant, range := getRange range, selectionRange := getRange range,
      visibility := Visibility.ofToken visibility, dataTypes := ts, deprecated := deprecated doc }
    addConsts node doc parent rest c.2
  | _ :: rest, s => addConsts node doc parent rest s

/-- The loop over the properties of a definition (`src/environment/visitor/workspace_symbol.rs` 314–329). -/
def addProperties (range : NodeRange) (ts : List SymRef) (visibility : Option Token) (dep : Option Bool) (parent : NodeId) :
    List Node → Collector → Out Collector
  | [], s => .ok s
  | .property name _ :: rest, s => do
    let n ← .ofOption name.display
    let c ← s.add parent { Symbol.default with
      name := n, kind := .property, range := getRange range, selectionRange := getRange range, dataTypes := ts,
      visibility := Visibility.ofToken visibility, deprecated := dep }
    addProperties range ts visibility dep parent rest c.2
  | _ :: rest, s => addProperties range ts visibility dep parent rest s

/-- The range of a function with its comment (`src/environment/visitor/workspace_symbol.rs` 361–365, 422–426). -/
def rangeWithDoc (node : Node) : Option Node → Option NodeRange
  | some doc => rangeNN doc.range node.range
  | none => node.range

/-- The part of `visit` for methods (`src/environment/visitor/workspace_symbol.rs` 333–382). -/
def visitMethod (node : Node) (name : Token) (function : Node) (isStatic : Option Token) (doc : Option Node)
    (visibility : Option Token) (parent : NodeId) (s : Collector) : Out (NextAction × Collector) :=
  match function with
  | .functionDefinitionStatement _ _ _ returnType _ _ => do
    let ts ← .ofOption (toTypes ((match returnType with | some t => getTypeRefs t | none => []) ++ returnDocs doc))
    let range ← .ofOption (rangeWithDoc node doc)
    let n ← .ofOption name.display
    let sel ← .ofOption name.range
    let c ← s.add parent { Symbol.default with
      name := n, kind := .method, range := getRange range, selectionRange := getRange sel, dataTypes := ts,
      isStatic := isStatic.isSome, visibility := Visibility.ofToken visibility, deprecated := deprecated doc }
    pure (.processChildren c.1, c.2)
  | _ => .ok (.abort, s)

/-- The part of `visit` for functions (`src/environment/visitor/workspace_symbol.rs` 399–440). -/
def visitFunction (node : Node) (name : Token) (function : Node) (parent : NodeId) (s : Collector) :
    Out (NextAction × Collector) :=
  match function with
  | .functionDefinitionStatement _ _ _ returnType _ doc => do
    let ts ← .ofOption (toTypes ((match returnType with | some t => getTypeRefs t | none => []) ++ returnDocs doc))
    let range ← .ofOption (rangeWithDoc node doc)
    let n ← .ofOption name.display
    let sel ← .ofOption name.range
    let c ← s.add parent { Symbol.default with
      name := n, kind := .function, range := getRange range, selectionRange := getRange sel, dataTypes := ts }
    pure (.processChildren c.1, c.2)
  | _ => .ok (.abort, s)

/-- The part of `visit` for arguments (`src/environment/visitor/workspace_symbol.rs` 441–483). -/
def visitArgument (node : Node) (argumentType : Option Node) (name : Token) (doc : Option Node) (parent : NodeId)
    (s : Collector) : Out (NextAction × Collector) := do
  let ts ← .ofOption (toTypes ((match argumentType with | some t => getTypeRefs t | none => []) ++
    (match doc with | some d => getTypeRefs d | none => [])))
  let n ← .ofOption name.display
  let range ← .ofOption node.range
  let sel ← .ofOption name.range
  let c ← s.add parent { Symbol.default with
    name := n, kind := .functionParameter, range := getRange range, selectionRange := getRange sel, dataTypes := ts,
    deprecated := deprecated doc }
  let s ← c.2.change parent fun v => { v with parameters := v.parameters ++ [⟨c.1⟩] }
  pure (.abort, s)

/-- `WorkspaceSymbolVisitor::visit` (`src/environment/visitor/workspace_symbol.rs` 27–504). -/
def visit (node : Node) (parent : NodeId) (s : Collector) : Out (NextAction × Collector) :=
  match node with
  | .groupedUse .. => visitUse node parent s
  | .useDeclaration .. => visitUse node parent s
  | .useFunction .. => visitUse node parent s
  | .useConst .. => visitUse node parent s
  | .useTraitInsteadOf .. => visitUseTrait node parent s
  | .useTraitAs .. => visitUseTrait node parent s
  | .useTraitAlterationBlock .. => visitUseTrait node parent s
  | .useTrait .. => visitUseTrait node parent s
  | .namespaceStatement _ t => visitNamespace t parent s
  | .const name _ _ => do
    let n ← .ofOption name.display
    let range ← .ofOption node.range
    let c ← s.add parent { Symbol.default with
      name := n, kind := .constant, range := getRange range, selectionRange := getRange range }
    pure (.abort, c.2)
  | .classStatement _ name _ _ implementing extending _ doc attributes =>
    visitClass node name implementing extending doc attributes parent s
  | .traitStatement _ name _ doc => visitTrait node name doc parent s
  | .interface _ name extending _ doc => visitInterface node name extending doc parent s
  | .classConstantDefinitionStatement _ consts doc _ _ => do
    let s ← addConsts node doc parent consts s
    pure (.abort, s)
  | .docCommentProperty name types _ => do
    let range ← .ofOption node.range
    let ts ← .ofOption (toTypes (types.getD []))
    let n ← .ofOption name.label
    let c ← s.add parent { Symbol.default with
      name := n, kind := .property, range := getRange range, selectionRange := getRange range, dataTypes := ts,
      visibility := .private }
    pure (.abort, c.2)
  | .propertyDefinitionStatement properties doc visibility dataType _ _ _ => do
    let range ← .ofOption node.range
    let ts ← .ofOption (toTypes ((match dataType with | some t => getTypeRefs t | none => []) ++ varDocs doc))
    let s ← addProperties range ts visibility (deprecated doc) parent properties s
    pure (.abort, s)
  | .methodDefinitionStatement _ _ _ name visibility _ function isStatic doc _ =>
    visitMethod node name function isStatic doc visibility parent s
  | .arrowFunction _ _ token _ _ _ _ _ _ _ => do
    let sel ← .ofOption token.range
    let range ← .ofOption node.range
    let c ← s.add parent { Symbol.default with
      name := afName sel, kind := .function, range := getRange range, selectionRange := getRange sel }
    pure (.processChildren c.1, c.2)
  | .namedFunctionDefinitionStatement _ _ name function _ => visitFunction node name function parent s
  | .functionArgument argumentType name _ _ _ _ doc _ => visitArgument node argumentType name doc parent s
  | .defineStatement (.literal token) _ _ _ _ _ => do
    let n ← .ofOption token.label
    let range ← .ofOption node.range
    let sel ← .ofOption token.range
    let c ← s.add parent { Symbol.default with
      name := n, kind := .constant, range := getRange range, selectionRange := getRange sel }
    pure (.abort, c.2)
  | .defineStatement .. => .ok (.abort, s)
  | _ => .ok (.processChildren parent, s)

/-- `WorkspaceSymbolVisitor::before` (`src/environment/visitor/workspace_symbol.rs` 506–524). -/
def before (node : Node) (_parent : NodeId) (s : Collector) : Out Collector :=
  match node with
  | .namespaceStatement _ (.typeRef t) => do
    let n ← .ofOption t.toFqdn
    pure { s with «namespace» := some n }
  | .namespaceBlock _ (some (.typeRef t)) _ => do
    let n ← .ofOption t.toFqdn
    pure { s with «namespace» := some n }
  | .namespaceBlock _ none _ => .ok { s with «namespace» := none }
  | _ => .ok s

/-- `WorkspaceSymbolVisitor::after` (`src/environment/visitor/workspace_symbol.rs` 526–530). -/
def after (node : Node) (_parent : NodeId) (s : Collector) : Out Collector :=
  match node with
  | .namespaceBlock .. => .ok { s with «namespace» := none }
  | _ => .ok s

/-- `impl Visitor for WorkspaceSymbolVisitor` (`src/environment/visitor/workspace_symbol.rs` 25–531). -/
def visitor : Visitor Node Collector where
  before := before
  visit := visit
  after := after

end Collector

end PhpLs
