import Verif.Resolver
import Verif.Traverser

/-!
# The visitor that resolves names

Model of `NameResolveVisitor` (`src/environment/visitor/name_resolver.rs` 362–1140) and of `get_type_ref`, `get_type_refs`
(`src/environment/visitor/workspace_symbol.rs` 533–562).

As in `Verif/Resolver.lean` the recursion is bounded; the same bound is handed on to the resolver.
-/

namespace PhpLs

/-- `get_type_ref` (`src/environment/visitor/workspace_symbol.rs` 550–562). -/
def getTypeRef : Node → List TypeRef
  | .typeRef t => [t]
  | .docCommentReturn (some ts) _ => ts
  | _ => []

/-- `get_type_refs` (`src/environment/visitor/workspace_symbol.rs` 533–548). -/
def getTypeRefs : Node → List TypeRef
  | .returnType _ dt => getTypeRefs dt
  | .dataType _ ts => ts.flatMap getTypeRef
  | .docCommentVar _ ts _ => ts.getD []
  | .docCommentReturn ts _ => ts.getD []
  | .docCommentParam _ ts _ => ts.getD []
  | _ => []

/-- A number in decimal digits (`Display` of `u32`). -/
def natText (n : Nat) : Text := (Nat.toDigits 10 n)

/-- `format!("af-{:?}", range)`, the name of an arrow function (`src/environment/visitor/name_resolver.rs` 741,
`src/environment/visitor/workspace_symbol.rs` 385). -/
def afName (r : NodeRange) : Text :=
  c!"af-NodeRange { start_col: " ++ natText r.startCol ++ c!", start_line: " ++ natText r.startLine ++
    c!", end_col: " ++ natText r.endCol ++ c!", end_line: " ++ natText r.endLine ++ c!" }"

/-- The arena and the resolver: what `NameResolveVisitor` and the traversal change. -/
structure Env where
  arena : Arena Symbol
  resolver : Resolver

namespace Env

/-- `self.resolver.diagnostic(file, range, message, severity)`. -/
def diagnostic (s : Env) (n : Notification) : Env := { s with resolver := s.resolver.diagnostic n }

/-- `self.resolver.reference(file, Reference::new(range, node))`. -/
def addRef (s : Env) (file : NodeId) (range : NodeRange) (node : NodeId) : Env :=
  { s with resolver := s.resolver.reference file ⟨range, node⟩ }

/-- `arena.new_node(symbol)` and `self.resolver.scope_container.append(child, arena)`; the panic is the one of an access to a
scope container that does not exist. -/
def addVar (s : Env) (v : Symbol) : Out (NodeId × Env) := do
  let _ ← .ofOption (s.arena.get? s.resolver.scopeContainer)
  let r := s.arena.addChild s.resolver.scopeContainer v
  pure (r.1, { s with arena := r.2 })

/-- `resolver.resolve_type_ref(t, arena, &anchor, true)`. -/
def resolve (U : Unicode) (fuel : Nat) (s : Env) (t : TypeRef) (anchor : NodeId) : Out (Option NodeId × Env) := do
  let p ← Resolver.resolveTypeRef U s.arena fuel s.resolver t anchor true
  pure (p.1, { s with resolver := p.2 })

/-- `resolve_type_ref` for each of some names; the answers are not used. -/
def resolveEach (U : Unicode) (fuel : Nat) (s : Env) (ts : List TypeRef) (anchor : NodeId) : Out Env :=
  ts.foldlM (fun s t => do
    let p ← s.resolve U fuel t anchor
    pure p.2) s

/-- Each type with the node it is resolved to (`src/environment/visitor/name_resolver.rs` 481–493, 593–616). -/
def resolveTypes (U : Unicode) (fuel : Nat) (s : Env) (ts : List TypeRef) (anchor : NodeId) : Out (List SymRef × Env) :=
  ts.foldlM (init := ([], s)) fun acc t => do
    let p ← acc.2.resolve U fuel t anchor
    let ref ← .ofOption (match p.1 with
      | some n => SymRef.toNode t n
      | none => SymRef.toType t)
    pure (acc.1 ++ [ref], p.2)

/-- `self.resolver.reference_local(self.file, token, &node)`. -/
def refLocal (s : Env) (file : NodeId) (token : Token) (node : NodeId) : Out Env := do
  let r ← s.resolver.referenceLocal file token node
  pure { s with resolver := r }

/-- `self.resolver.declare_local_if_new(self.file, token, child)`. -/
def declareNew (s : Env) (file : NodeId) (token : Token) (child : NodeId) : Out (Option NodeId × Env) := do
  let p ← s.resolver.declareLocalIfNew file token child
  pure (p.1, { s with resolver := p.2 })

/-- `self.resolver.declare_or_overwrite_local(self.file, token, child, add_ref)`. -/
def declareOver (s : Env) (file : NodeId) (token : Token) (child : NodeId) (addRef : Bool) : Out Env := do
  let r ← s.resolver.declareOrOverwriteLocal file token child addRef
  pure { s with resolver := r }

/-- The symbol of an assigned variable (`src/environment/visitor/name_resolver.rs` 636–646, 799–809). -/
def assigned (token : Token) (dataType : Option NodeId) : Out Symbol := do
  match dataType with
  | some d => do
    let r ← .ofOption (SymRef.toNode (.one [token]) d)
    let v ← .ofOption (Symbol.ofToken token)
    pure { v with dataTypes := [r] }
  | none => .ofOption (Symbol.ofToken token)

/-- The first data type of a variable that leads to a symbol, else the variable (`src/environment/visitor/name_resolver.rs`
884–916). -/
def variableType (U : Unicode) (fuel : Nat) (node : NodeId) : List SymRef → Env → Out ((NodeId × Visibility) × Env)
  | [], s => .ok ((node, .public), s)
  | ref :: rest, s =>
    match ref.node with
    | some n => .ok ((n, if s.resolver.currentClass = some n then .private else .public), s)
    | none => do
      let p ← s.resolve U fuel ref.typeRef node
      match p.1 with
      | some n => .ok ((n, .public), p.2)
      | none => variableType U fuel node rest p.2

/-- The result of the first loop of `resolve_member_type`: the function returns, or the loop is left with a root, a minimal
visibility, and the links (the last one first). -/
inductive Root where
  | returned (r : Option NodeId)
  | root (r : Option NodeId) (minimal : Visibility) (chain : List Node)

/-- The loop of `resolve_member_type` that looks for the root of the chain (`src/environment/visitor/name_resolver.rs` 786–997).
`call` is the function itself, `node` its argument, `cur` is `current_object` and `chain` is `reversed_chain`, in which the last
element is the first one here. -/
def rootOf (U : Unicode) (file : NodeId) (call : Env → Node → Out (Option NodeId × Env)) (node : Node) :
    Nat → Node → List Node → Env → Out (Root × Env)
  | 0, _, _, _ => .deep
  | fuel + 1, cur, chain, s =>
    match cur with
    | .binary left token right =>
      if token.t = .assignment then
        match left with
        | .variable v => do
          let d ← call s right
          let sym ← assigned v d.1
          let c ← d.2.addVar sym
          let e ← c.2.declareNew file v c.1
          rootOf U file call node fuel left chain e.2
        | _ => .ok (.returned none, s)
      else do
        let p ← call s left
        let q ← call p.2 right
        .ok (.returned q.1, q.2)
    | .ternary check _ trueArm _ falseArm => do
      let p ← call s check
      let q ← (match trueArm with
        | some t => call p.2 t
        | none => pure (none, p.2))
      let w ← call q.2 falseArm
      .ok (.returned none, w.2)
    | .unary expr _ => rootOf U file call node fuel expr chain s
    | .cloneExpr _ object => rootOf U file call node fuel object chain s
    | .newExpr _ cls => rootOf U file call node fuel cls chain s
    | .grouping inside => rootOf U file call node fuel inside chain s
    | .call callee _ parameters _ => do
      let s ← parameters.foldlM (fun s p => do let q ← call s p; pure q.2) s
      rootOf U file call node fuel callee chain s
    | .array _ elements _ => do
      let s ← elements.foldlM (fun s p => do let q ← call s p; pure q.2) s
      .ok (.returned none, s)
    | .arrayElement _ _ value => do
      let p ← call s value
      .ok (.returned none, p.2)
    | .staticMember object _ _ member _ => rootOf U file call node fuel object (member :: chain) s
    | .member object _ _ member _ => rootOf U file call node fuel object (member :: chain) s
    | .variable token =>
      match s.resolver.getLocal token with
      | none => .ok (.returned none, s)
      | some n => do
        let s ← s.refLocal file token n
        match token.label with
        | none => .ok (.root (some n) .public chain, s)
        | some name =>
          if name = c!"this" then .ok (.root (some n) .private chain, s)
          else do
            let sym ← .ofOption (s.arena.get? n)
            let p ← variableType U fuel n sym.dataTypes s
            .ok (.root (some p.1.1) p.1.2 chain, p.2)
    | .literal token =>
      if token.t = .typeSelf ∨ token.t = .kwStatic then .ok (.root s.resolver.currentClass .private chain, s)
      else if token.t = .kwParent then
        match s.resolver.currentClass with
        | none => .ok (.returned none, s)
        | some c => do
          let sym ← .ofOption (s.arena.get? c)
          let p ← Resolver.uniqueParent U s.arena fuel s.resolver sym c
          .ok (.root p.1 .protected chain, { s with resolver := p.2 })
      else if token.t = .constantEncapsedString ∨ token.t = .encapsedAndWhitespaceString then .ok (.returned none, s)
      else do
        let p ← s.resolve U fuel (.one [token]) s.resolver.scopeContainer
        .ok (.root p.1 .public chain, p.2)
    | .typeRef t => do
      let p ← s.resolve U fuel t s.resolver.scopeContainer
      match p.1 with
      | some n => .ok (.root (some n) .public chain, p.2)
      | none => .ok (.returned none, p.2)
    | .field array _ index _ => do
      let s ← (match index with
        | some i => do let p ← call s i; pure p.2
        | none => pure s)
      match array with
      | .variable collection =>
        match s.resolver.getLocal collection with
        | none => .ok (.returned none, s)
        | some v => do
          let s ← s.refLocal file collection v
          let sym ← .ofOption (s.arena.get? v)
          match sym.dataTypes.findSome? (fun ref => if ref.typeRef.multiple then ref.node else none) with
          | some n => .ok (.root (some n) .public chain, s)
          | none => .ok (.returned none, s)
      | .member object _ _ member _ => rootOf U file call node fuel object (member :: chain) s
      | .field array _ index _ => do
        let s ← (match index with
          | some i => do let p ← call s i; pure p.2
          | none => pure s)
        rootOf U file call node fuel array chain s
      | _ => .ok (.returned none, s)
    | _ => do
      let s ← node.children.foldlM (fun s c => do let q ← call s c; pure q.2) s
      .ok (.returned none, s)

/-- The name of a link (`src/environment/visitor/name_resolver.rs` 1017–1030): the inner `none` is the early return of
`::class`, the outer one is a panic. -/
def linkName : Node → Option (Option Text)
  | .literal token => do
    let n ← token.display
    if n = c!"class" then pure none else pure (some n)
  | .variable token => token.label.map some
  | link => link.name.map some

/-- The result of a look at the data types of a member. -/
inductive Hop where
  | next (root : NodeId)
  | stop

/-- The loop over the data types of a property or a method (`src/environment/visitor/name_resolver.rs` 1073–1117). -/
def memberTypes (U : Unicode) (fuel : Nat) (fileName : Text) (range : Option NodeRange) (root : NodeId) :
    List SymRef → Env → Out (Hop × Env)
  | [], s => .ok (.stop, s)
  | ref :: rest, s => do
    let first ← .ofOption ref.typeRef.rootToken
    if first.t = .typeSelf ∨ first.t = .kwStatic then .ok (.next root, s)
    else do
      let name ← .ofOption ref.typeRef.root
      let name ← .ofOption name
      if name = c!"$this" then .ok (.next root, s)
      else if first.t = .kwParent then do
        let sym ← .ofOption (s.arena.get? root)
        let p ← Resolver.uniqueParent U s.arena fuel s.resolver sym root
        match p.1 with
        | some n => .ok (.next n, { s with resolver := p.2 })
        | none => do
          let range ← .ofOption range
          .ok (.stop, Env.diagnostic { s with resolver := p.2 } ⟨fileName,
            c!"Method returns an instance of its parent, but its class has no parent or the parent could not be resolved.",
            range, .warning⟩)
      else do
        let p ← s.resolve U fuel ref.typeRef root
        match p.1 with
        | some n => .ok (.next n, p.2)
        | none => memberTypes U fuel fileName range root rest p.2

/-- One turn of the loop over the links (`src/environment/visitor/name_resolver.rs` 1013–1134). -/
def link (U : Unicode) (H : HashOrder) (file : NodeId) (fuel : Nat) (fileName : Text) (minimal : Visibility) (root : NodeId)
    (l : Node) (s : Env) : Out (Hop × Env) := do
  let name ← .ofOption (linkName l)
  match name with
  | none => .ok (.stop, s)
  | some name => do
    let m ← Resolver.allSymbols U H s.arena fuel s.resolver root
    let s := { s with resolver := m.2 }
    match Dict.get? m.1 (U.lower name) with
    | none => do
      let range ← .ofOption l.range
      let shown ← .ofOption l.name
      .ok (.stop, s.diagnostic ⟨fileName, c!"Unresolvable symbol " ++ shown, range, .error⟩)
    | some child => do
      let sym ← .ofOption (s.arena.get? child.symbol)
      if child.visibility.ge minimal then do
        let s ← (if child.alias ≠ name then do
            let range ← .ofOption l.range
            pure (s.diagnostic ⟨fileName, c!"Case mismatch between call and definition", range, .warning⟩)
          else pure s)
        let s ← (match l with
          | .variable token => s.refLocal file token child.symbol
          | .literal token => s.refLocal file token child.symbol
          | _ => pure s)
        if sym.kind = .property ∨ sym.kind = .method then memberTypes U fuel fileName l.range root sym.dataTypes s
        else .ok (.next child.symbol, s)
      else do
        let range ← .ofOption l.range
        .ok (.stop, s.diagnostic ⟨fileName, c!"Method is not accessible from this scope", range, .error⟩)

/-- The loop over the links (`src/environment/visitor/name_resolver.rs` 1010–1138). -/
def links (U : Unicode) (H : HashOrder) (file : NodeId) (fuel : Nat) (fileName : Text) (minimal : Visibility) :
    NodeId → List Node → Env → Out (Option NodeId × Env)
  | root, [], s => .ok (some root, s)
  | root, l :: rest, s => do
    let p ← link U H file fuel fileName minimal root l s
    match p.1 with
    | .stop => .ok (none, p.2)
    | .next n => links U H file fuel fileName minimal n rest p.2

/-- `NameResolveVisitor::resolve_member_type` (`src/environment/visitor/name_resolver.rs` 778–1142). -/
def memberType (U : Unicode) (H : HashOrder) (file : NodeId) : Nat → Env → Node → Out (Option NodeId × Env)
  | 0, _, _ => .deep
  | fuel + 1, s, node => do
    let p ← rootOf U file (memberType U H file fuel) node fuel node [] s
    match p.1 with
    | .returned r => .ok (r, p.2)
    | .root r minimal chain => do
      let s := p.2
      let ancestors ← .ofOption (s.arena.ancestors? s.resolver.scopeContainer)
      let top ← .ofOption ancestors.getLast?
      let fileSymbol ← .ofOption (s.arena.get? top)
      match r with
      | none => .ok (none, s)
      | some root => links U H file fuel fileSymbol.plainName minimal root chain s

/-- The first child of the scope container with a name (`src/environment/visitor/name_resolver.rs` 566–580, 718, 731, 744). -/
def childNamed (s : Env) (name : Text) : Out (Option NodeId) := do
  let cs ← .ofOption (s.arena.children? s.resolver.scopeContainer)
  pure ((cs.find? fun c => c.2.plainName = name).map (·.1))

/-- The part of `visit` for classes, traits and interfaces (`src/environment/visitor/name_resolver.rs` 422–449). -/
def visitClass (U : Unicode) (fuel : Nat) (name : Token) (parent : NodeId) (s : Env) : Out (NextAction × Env) := do
  let p ← s.resolve U fuel (.one [name]) parent
  match p.1 with
  | some c => .ok (.processChildren c, { p.2 with resolver := p.2.resolver.enterClass c })
  | none => .ok (.abort, p.2)

/-- The part of `visit` for functions with a doc comment (`src/environment/visitor/name_resolver.rs` 450–470). -/
def visitFunction (U : Unicode) (fuel : Nat) (doc : Option Node) (parent : NodeId) (s : Env) : Out (NextAction × Env) := do
  let s ← (match doc with
    | some (.docComment _ returnType _ _ _ _ _) => s.resolveEach U fuel (returnType.flatMap getTypeRef) parent
    | _ => pure s)
  .ok (.processChildren s.resolver.scopeContainer, s)

/-- The data types of a loop variable (`src/environment/visitor/name_resolver.rs` 544–556). -/
def itemTypes : List SymRef → Option (List SymRef)
  | [] => some []
  | ref :: rest => do
    let r ← (match ref.node with
      | some n => if ref.typeRef.multiple then SymRef.toNode ref.typeRef.toCollectionItem n else some ref
      | none => some ref)
    let rs ← itemTypes rest
    pure (r :: rs)

/-- The part of `visit` for `foreach` behind the look up of the collection (`src/environment/visitor/name_resolver.rs`
541–568). -/
def foreachItem (file collection : NodeId) (kv : Node) (s : Env) : Out Env := do
  let c ← .ofOption (s.arena.get? collection)
  match kv with
  | .arrayElement _ _ (.variable item) => do
    let ts ← .ofOption (itemTypes c.dataTypes)
    let v ← .ofOption (Symbol.ofToken item)
    let n ← s.addVar { v with dataTypes := ts }
    n.2.declareOver file item n.1 false
  | _ => .ok s

/-- The part of `visit` for function arguments (`src/environment/visitor/name_resolver.rs` 573–632). -/
def visitArgument (U : Unicode) (file : NodeId) (fuel : Nat) (name : Token) (doc : Option Node) (parent : NodeId) (s : Env) :
    Out Env := do
  let arg ← (match name.label with
    | some l => childNamed s l
    | none => do
      let _ ← .ofOption (s.arena.children? s.resolver.scopeContainer)
      pure none)
  match arg with
  | none => .ok s
  | some arg => do
    let sym ← .ofOption (s.arena.get? arg)
    let p ← s.resolveTypes U fuel (sym.dataTypes.map (·.typeRef)) parent
    let s := { p.2 with arena := p.2.arena.modify arg fun v => { v with dataTypes := p.1 } }
    let s ← s.declareOver file name arg true
    match doc with
    | some (.docCommentParam name _ _) => s.refLocal file name arg
    | _ => .ok s

/-- The part of `visit` for assignments (`src/environment/visitor/name_resolver.rs` 641–684). -/
def visitAssignment (U : Unicode) (H : HashOrder) (file : NodeId) (fuel : Nat) (left right : Node) (s : Env) : Out Env := do
  let d ← memberType U H file fuel s right
  match left with
  | .variable v => do
    let sym ← Env.assigned v d.1
    let c ← d.2.addVar sym
    let p ← c.2.declareNew file v c.1
    let repr ← .ofOption p.1
    match d.1 with
    | some dt =>
      if repr ≠ c.1 then do
        let ref ← .ofOption (SymRef.toNode (.one [v]) dt)
        .ok { p.2 with arena := p.2.arena.modify repr fun x => { x with dataTypes := x.dataTypes ++ [ref] } }
      else .ok p.2
    | none => .ok p.2
  | _ => do
    let p ← memberType U H file fuel d.2 left
    .ok p.2

/-- The part of `visit` for `@var` comments (`src/environment/visitor/name_resolver.rs` 484–515). -/
def visitDocVar (U : Unicode) (file : NodeId) (fuel : Nat) (name : Token) (types : Option (List TypeRef)) (parent : NodeId)
    (s : Env) : Out Env := do
  let p ← s.resolveTypes U fuel (types.getD []) parent
  let s := p.2
  match s.resolver.getLocal name with
  | some existing => do
    let a := s.arena.modify existing fun v => { v with dataTypes := v.dataTypes ++ p.1 }
    let a ← .ofOption (a.moveTo s.resolver.scopeContainer existing)
    let q ← Env.declareNew { s with arena := a } file name existing
    .ok q.2
  | none => do
    let v ← .ofOption (Symbol.ofToken name)
    let c ← s.addVar { v with dataTypes := p.1 }
    let q ← c.2.declareNew file name c.1
    .ok q.2

/-- `NameResolveVisitor::visit` (`src/environment/visitor/name_resolver.rs` 392–703). -/
def visitName (U : Unicode) (H : HashOrder) (file : NodeId) (fuel : Nat) (node : Node) (parent : NodeId) (s : Env) :
    Out (NextAction × Env) :=
  match node with
  | .useDeclaration _ declaration _ _ => do
    let name ← .ofOption declaration.name
    match s.resolver.resolveFullyQualified U name with
    | none => .ok (.abort, s)
    | some n => do
      let sym ← .ofOption (s.arena.get? n)
      let s ← (if sym.fqdnMatches name then pure s
        else do
          let f ← .ofOption (s.arena.get? file)
          let range ← .ofOption declaration.range
          pure (s.diagnostic ⟨f.plainName, c!"Case mismatch between call and definition", range, .warning⟩))
      let range ← .ofOption node.range
      .ok (.abort, s.addRef file range n)
  | .typeRef t => do
    let p ← s.resolve U fuel t parent
    .ok (.abort, p.2)
  | .classStatement _ name _ _ _ _ _ _ _ => visitClass U fuel name parent s
  | .traitStatement _ name _ _ => visitClass U fuel name parent s
  | .interface _ name _ _ _ => visitClass U fuel name parent s
  | .methodDefinitionStatement _ _ _ _ _ _ _ _ doc _ => visitFunction U fuel doc parent s
  | .functionDefinitionStatement _ _ _ _ _ doc => visitFunction U fuel doc parent s
  | .arrowFunction .. => .ok (.processChildren s.resolver.scopeContainer, s)
  | .namedFunctionDefinitionStatement .. => .ok (.processChildren s.resolver.scopeContainer, s)
  | .variable token =>
    match s.resolver.getLocal token with
    | some n => do
      let s ← s.refLocal file token n
      .ok (.abort, s)
    | none => do
      let v ← .ofOption (Symbol.ofToken token)
      let c ← s.addVar v
      let p ← c.2.declareNew file token c.1
      .ok (.abort, p.2)
  | .docCommentVar name types _ => do
    let s ← visitDocVar U file fuel name types parent s
    .ok (.abort, s)
  | .catchBlock _ _ types var _ _ => do
    let ts ← .ofOption ((types.flatMap getTypeRef).mapM SymRef.toType)
    let v ← .ofOption (Symbol.ofToken var)
    let c ← s.addVar { v with dataTypes := ts }
    let s ← c.2.declareOver file var c.1 false
    .ok (.processChildren parent, s)
  | .forEachStatement _ _ collection _ kv _ _ =>
    match collection with
    | .variable c =>
      match s.resolver.getLocal c with
      | some n => do
        let s ← foreachItem file n kv s
        .ok (.processChildren parent, s)
      | none => .ok (.processChildren parent, s)
    | .call callee _ _ _ => do
      let p ← memberType U H file fuel s callee
      match p.1 with
      | some n => do
        let s ← foreachItem file n kv p.2
        .ok (.processChildren parent, s)
      | none => .ok (.processChildren parent, p.2)
    | _ => .ok (.processChildren parent, s)
  | .functionArgument _ name _ _ _ _ doc _ => do
    let s ← visitArgument U file fuel name doc parent s
    .ok (.abort, s)
  | .returnType .. => do
    let s ← s.resolveEach U fuel (getTypeRefs node) parent
    .ok (.abort, s)
  | .binary left token right =>
    if token.t = .assignment then do
      let s ← visitAssignment U H file fuel left right s
      .ok (.abort, s)
    else .ok (.processChildren parent, s)
  | .staticMember .. => do
    let p ← memberType U H file fuel s node
    .ok (.abort, p.2)
  | .member .. => do
    let p ← memberType U H file fuel s node
    .ok (.abort, p.2)
  | .namespaceStatement .. => .ok (.abort, s)
  | _ => .ok (.processChildren parent, s)

/-- The part of `before` for functions and methods (`src/environment/visitor/name_resolver.rs` 707–726). -/
def beforeFunction (file : NodeId) (name : Token) (s : Env) : Out Env := do
  let s := { s with resolver := s.resolver.pushScope }
  let n ← .ofOption name.display
  let c ← childNamed s n
  match c with
  | none => .ok s
  | some m => do
    let range ← .ofOption name.range
    .ok (Env.addRef { s with resolver := { s.resolver with scopeContainer := m } } file range m)

/-- The part of `before` for properties and constants (`src/environment/visitor/name_resolver.rs` 727–738). -/
def beforeProperty (file : NodeId) (name : Token) (s : Env) : Out Env :=
  match name.label with
  | none => .ok s
  | some label => do
    let c ← childNamed s label
    match c with
    | none => .ok s
    | some m => do
      let range ← .ofOption name.range
      .ok (s.addRef file range m)

/-- `NameResolveVisitor::before` (`src/environment/visitor/name_resolver.rs` 705–756). -/
def beforeName (file : NodeId) (node : Node) (_parent : NodeId) (s : Env) : Out Env :=
  match node with
  | .namedFunctionDefinitionStatement _ _ name _ _ => beforeFunction file name s
  | .methodDefinitionStatement _ _ _ name _ _ _ _ _ _ => beforeFunction file name s
  | .property name _ => beforeProperty file name s
  | .const name _ _ => beforeProperty file name s
  | .arrowFunction _ _ token _ _ _ _ _ _ _ => do
    let s := { s with resolver := s.resolver.cloneScope }
    let range ← .ofOption token.range
    let c ← childNamed s (afName range)
    match c with
    | none => .ok s
    | some m => .ok { s with resolver := { s.resolver with scopeContainer := m } }
  | _ => .ok s

/-- `NameResolveVisitor::after` (`src/environment/visitor/name_resolver.rs` 758–775). -/
def afterName (node : Node) (parent : NodeId) (s : Env) : Out Env :=
  let leave := .ok { s with resolver := { s.resolver.leaveClass with scopeContainer := parent } }
  let pop := .ok { s with resolver := { s.resolver.popScope with scopeContainer := parent } }
  match node with
  | .classStatement .. => leave
  | .traitStatement .. => leave
  | .interface .. => leave
  | .methodDefinitionStatement .. => pop
  | .namedFunctionDefinitionStatement .. => pop
  | .arrowFunction .. => pop
  | _ => .ok s

/-- `impl Visitor for NameResolveVisitor` (`src/environment/visitor/name_resolver.rs` 390–776). -/
def nameVisitor (U : Unicode) (H : HashOrder) (file : NodeId) (fuel : Nat) : Visitor Node Env where
  before := beforeName file
  visit := visitName U H file fuel
  after := afterName

end Env

end PhpLs
