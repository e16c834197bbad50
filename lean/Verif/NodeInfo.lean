import Verif.TypeRef
import Verif.ParserCore

/-!
# Children, ranges and names of nodes

Model of `Node::children`, `Node::range`, `Node::name` and `Node::descendants` (`src/parser/node.rs` 929–1863) and of the
conversions into `NodeRange` (43–152).  `none` as a range or a name is a panic (an `unwrap` of the first or last element of an
empty list, or of a token without a text).
-/

namespace PhpLs

namespace NodeRange

/-- `NodeRange::from_range` (`src/parser/node.rs` 141–143). -/
def fromRange (a b : NodeRange) : NodeRange := ⟨a.startCol, a.startLine, b.endCol, b.endLine⟩

/-- `NodeRange::empty` (`src/parser/node.rs` 149–151). -/
def empty : NodeRange := ⟨0, 0, 0, 0⟩

end NodeRange

/-- `From<(&Token, &Token)> for NodeRange` (`src/parser/node.rs` 92–98). -/
def rangeTT (a b : Token) : Option NodeRange := do
  let e ← b.end
  pure ⟨a.col, a.line, e.1, e.2⟩

/-- `From<(&Token, &Node)> for NodeRange` (`src/parser/node.rs` 66–76), given the range of the node. -/
def rangeTN (a : Token) (b : Option NodeRange) : Option NodeRange := do
  let r ← b
  pure ⟨a.col, a.line, r.endCol, r.endLine⟩

/-- `From<(&Node, &Node)> for NodeRange` (`src/parser/node.rs` 78–90), given the ranges of the nodes. -/
def rangeNN (a b : Option NodeRange) : Option NodeRange := do
  let r ← a
  let r' ← b
  pure (r.fromRange r')

/-- `Into<NodeRange> for (&Node, &Token)` (`src/parser/node.rs` 117–129), given the range of the node. -/
def rangeNT (a : Option NodeRange) (b : Token) : Option NodeRange := do
  let r ← a
  let e ← b.end
  pure ⟨r.startCol, r.startLine, e.1, e.2⟩

/-- `TypeRef::range` (`src/parser/node.rs` 193–198). -/
def TypeRef.range (t : TypeRef) : Option NodeRange := do
  let a ← t.kind.head?
  let b ← t.kind.getLast?
  let r ← a.range
  let r' ← b.range
  pure (r.fromRange r')

/-- `From<(&Token, &TypeRef)> for NodeRange` for the last of a list of names (`src/parser/node.rs` 109–115, 1809). -/
def rangeTypes (a : Token) (l : List TypeRef) : Option NodeRange := do
  let t ← l.getLast?
  let b ← t.kind.getLast?
  rangeTT a b

/-- A token if there is one, else another one. -/
def orTok (a : Option Token) (b : Token) : Token := a.getD b

mutual

/-- `Node::children` (`src/parser/node.rs` 929–1370). -/
def Node.children : Node → List Node
  | .binary l _ r => [l, r]
  | .unary e _ => [e]
  | .postUnary e _ => [e]
  | .aliasedVariable _ e => [e]
  | .dynamicVariable _ _ e _ => [e]
  | .namedParameter _ _ e => [e]
  | .yieldFrom _ e => [e]
  | .ternary c _ t _ f => c :: (t.toList ++ [f])
  | .unsetStatement _ _ l _ => l
  | .globalVariablesStatement _ l => l
  | .array _ l _ => l
  | .oldArray _ _ l _ => l
  | .list _ _ l _ => l
  | .echoStatement _ l => l
  | .printStatement _ l => l
  | .constStatement _ l => l
  | .staticExpr _ l => l
  | .arrayElement k _ v => k.toList ++ [v]
  | .call c _ ps _ => ps ++ [c]
  | .isset _ _ ps _ => ps
  | .emptyExpr _ _ ps _ => ps
  | .exitExpr _ _ ps _ => ps.getD []
  | .dieExpr _ _ ps _ => ps.getD []
  | .cloneExpr _ o => [o]
  | .newExpr _ c => [c]
  | .member o _ _ m _ => [o, m]
  | .staticMember o _ _ m _ => [o, m]
  | .field a _ i _ => a :: i.toList
  | .arrowFunction _ _ _ _ as _ _ _ b _ => as.getD [] ++ [b]
  | .yieldExpr _ e => e.toList
  | .fileInclude _ r => [r]
  | .expressionStatement e => [e]
  | .throwStatement _ e => [e]
  | .dieStatement _ _ e _ => Node.childrenO e
  | .returnStatement _ e => e.toList
  | .namespaceStatement _ t => [t]
  | .staticVariable _ _ v => v.toList
  | .closure _ _ _ _ as _ us rt b _ => as.getD [] ++ us.getD [] ++ rt.toList ++ [b]
  | .functionArgument t _ _ d _ _ _ _ => t.toList ++ d.toList
  | .anonClass _ as ext imp b _ => as.getD [] ++ ext.toList ++ imp.getD [] ++ [b]
  | .namespaceBlock _ t b => t.toList ++ [b]
  | .classStatement _ _ _ _ imp ext b doc _ => doc.toList ++ ext.toList ++ imp.getD [] ++ [b]
  | .traitStatement _ _ b _ => [b]
  | .classConstantDefinitionStatement _ cs _ _ ats => cs ++ ats
  | .const _ _ v => [v]
  | .classConstant _ _ v => [v]
  | .property _ v => v.toList
  | .propertyDefinitionStatement ps _ _ dt _ _ ats => dt.toList ++ (ps ++ ats)
  | .methodDefinitionStatement _ _ _ _ _ _ f _ _ ats => ats ++ [f]
  | .namedFunctionDefinitionStatement _ _ _ f ats => ats ++ [f]
  | .functionDefinitionStatement _ as _ rt b _ => as.getD [] ++ rt.toList ++ b.toList
  | .interface _ _ ext b _ => ext.getD [] ++ [b]
  | .whileStatement _ _ c _ b => [c, b]
  | .doWhileStatement _ _ _ _ c b => [c, b]
  | .forStatement _ i c s b => i ++ c ++ s ++ [b]
  | .forEachStatement _ _ c _ kv _ b => [c, kv, b]
  | .block _ l _ => l
  | .alternativeBlock _ l _ => l
  | .ifBranch _ _ c _ b => [c, b]
  | .elseBranch _ b => [b]
  | .ifStatement i es e => i :: (es ++ e.toList)
  | .switchBranch cs b => cs.filterMap id ++ b
  | .switchCase _ _ e _ b => [e, b]
  | .switchBody _ bs _ => bs
  | .tokenStatement _ e => e.toList
  | .catchBlock _ _ _ _ _ b => [b]
  | .finallyBlock _ b => [b]
  | .tryCatch _ t cs f => t :: (cs ++ f.toList)
  | .staticVariablesStatement _ l => l
  | .useDeclaration _ d _ _ => [d]
  | .useStatement _ l => l
  | .useFunctionStatement _ l => l
  | .useConstStatement _ l => l
  | .useTraitStatement _ l => l
  | .docComment _ _ _ _ _ vs ps => vs ++ ps
  | .grouping n => [n]
  | .attr _ l _ => l
  | .dataType _ l => l
  | .matchExpr _ _ _ c _ b _ => c :: b
  | .matchArm ps _ e => ps.getD [] ++ [e]
  | _ => []

/-- `expr.children()` of an optional node (`src/parser/node.rs` 1034–1040). -/
def Node.childrenO : Option Node → List Node
  | none => []
  | some n => n.children

end

/-- `NodeRange` of the nodes without a case in `Node::range` (`src/parser/node.rs` 1827–1830). -/
def NodeRange.unknown : NodeRange := ⟨1, 1, 1, 1⟩

mutual

/-- `Node::range` (`src/parser/node.rs` 1387–1832). -/
def Node.range : Node → Option NodeRange
  | .unary e t => rangeTN t e.range
  | .postUnary e t => rangeNT e.range t
  | .const _ t v => rangeTN t v.range
  | .binary l _ r => rangeNN l.range r.range
  | .ternary c _ _ _ f => rangeNN c.range f.range
  | .lexicalVariable r v => rangeTT (orTok r v) v
  | .aliasedVariable v e => rangeTN v e.range
  | .dynamicVariable v _ _ cc => rangeTT v cc
  | .staticVariable v _ none => v.range
  | .staticVariable v _ (some e) => rangeTN v e.range
  | .array ob _ cb => rangeTT ob cb
  | .oldArray t _ _ cp => rangeTT t cp
  | .arrayElement none _ v => v.range
  | .arrayElement (some k) _ v => rangeNN k.range v.range
  | .list t _ _ cp => rangeTT t cp
  | .call c _ _ cp => rangeNT c.range cp
  | .isset t _ _ cp => rangeTT t cp
  | .emptyExpr t _ _ cp => rangeTT t cp
  | .exitExpr t _ _ cp => rangeTT t (orTok cp t)
  | .haltCompiler t _ _ cp => rangeTT t (orTok cp t)
  | .dieExpr t _ _ cp => rangeTT t (orTok cp t)
  | .newExpr t c => rangeTN t c.range
  | .cloneExpr t o => rangeTN t o.range
  | .member o _ _ m _ => rangeNN o.range m.range
  | .staticMember o _ _ m none => rangeNN o.range m.range
  | .staticMember o _ _ _ (some cc) => rangeNT o.range cc
  | .field a _ _ cb => rangeNT a.range cb
  | .staticExpr t es => rangeTN t (Node.rangeLast es)
  | .closure st br t _ _ _ _ _ b _ => rangeTN (orTok st (orTok br t)) b.range
  | .arrowFunction st br t _ _ _ _ _ b _ => rangeTN (orTok st (orTok br t)) b.range
  | .functionArgument ty n _ d sp rf _ _ => do
    let start ← match rf with
      | some rf => rf.range
      | none =>
        match Node.rangeO ty with
        | some r => r
        | none => (orTok sp n).range
    let stop ← match Node.rangeO d with
      | some r => r
      | none => n.range
    pure (start.fromRange stop)
  | .dataType (some q) ts => rangeTN q (Node.rangeLast ts)
  | .dataType none ts => rangeNN (Node.rangeFirst ts) (Node.rangeLast ts)
  | .returnType _ d => d.range
  | .anonClass t _ _ _ b _ => rangeTN t b.range
  | .yieldExpr t none => t.range
  | .yieldExpr t (some e) => rangeTN t e.range
  | .yieldFrom t e => rangeTN t e.range
  | .fileInclude t r => rangeTN t r.range
  | .useDeclaration t d _ al => do
    let start ← match t with
      | some t => t.range
      | none => d.range
    let stop ← match al with
      | some al => al.range
      | none => d.range
    pure (start.fromRange stop)
  | .useConst t d _ al => do
    let start ← match t with
      | some t => t.range
      | none => d.range
    match al with
    | some al => do
      let stop ← al.range
      pure (start.fromRange stop)
    | none => d.range
  | .useFunction t d _ al => do
    let start ← match t with
      | some t => t.range
      | none => d.range
    match al with
    | some al => do
      let stop ← al.range
      pure (start.fromRange stop)
    | none => d.range
  | .groupedUse t _ _ _ cc => rangeTT t cc
  | .expressionStatement e => e.range
  | .echoStatement t es => rangeTN t (Node.rangeLast es)
  | .constStatement t es => rangeTN t (Node.rangeLast es)
  | .printStatement t es => rangeTN t (Node.rangeLast es)
  | .gotoStatement t l => rangeTT t l
  | .labelStatement l c => rangeTT l c
  | .throwStatement t e => rangeTN t e.range
  | .declareStatement _ _ _ _ cp t => rangeTT t cp
  | .unsetStatement t _ _ cp => rangeTT t cp
  | .dieStatement t _ _ cp => rangeTT t cp
  | .returnStatement t none => t.range
  | .returnStatement t (some e) => rangeTN t e.range
  | .namespaceStatement t n => rangeTN t n.range
  | .namespaceBlock t _ b => rangeTN t b.range
  | .useStatement t l => rangeTN t (Node.rangeLast l)
  | .useFunctionStatement t l => rangeTN t (Node.rangeLast l)
  | .useConstStatement t l => rangeTN t (Node.rangeLast l)
  | .useTraitStatement t l => rangeTN t (Node.rangeLast l)
  | .useTrait t => t.range
  | .useTraitAlterationBlock _ oc _ cc => rangeTT oc cc
  | .useTraitInsteadOf (some l) _ _ _ is => rangeNN l.range (Node.rangeLast is)
  | .useTraitInsteadOf none _ m _ is => rangeNN m.range (Node.rangeLast is)
  | .useTraitAs (some l) _ _ _ _ (some a) => rangeNT l.range a
  | .useTraitAs (some l) _ _ _ (some v) none => rangeNT l.range v
  | .useTraitAs (some l) _ _ _ none none => l.range
  | .useTraitAs none _ m _ _ (some a) => rangeNT m.range a
  | .useTraitAs none _ m _ (some v) none => rangeNT m.range v
  | .useTraitAs none _ m _ none none => m.range
  | .classStatement _ _ _ _ _ _ b (some d) _ => rangeNN d.range b.range
  | .classStatement t _ ab fi _ _ b none _ => rangeTN (orTok ab (orTok fi t)) b.range
  | .traitStatement t _ b _ => rangeTN t b.range
  | .interface t _ _ b _ => rangeTN t b.range
  | .classConstant _ n v => rangeTN n v.range
  | .classConstantDefinitionStatement _ cs _ _ _ => rangeNN (Node.rangeFirst cs) (Node.rangeLast cs)
  | .property n none => n.range
  | .property n (some v) => rangeTN n v.range
  | .propertyDefinitionStatement ps _ _ (some d) _ _ _ => rangeNN d.range (Node.rangeLast ps)
  | .propertyDefinitionStatement ps _ _ none _ _ _ => rangeNN (Node.rangeFirst ps) (Node.rangeLast ps)
  | .methodDefinitionStatement t fi _ _ vi ab f _ _ _ => rangeTN (orTok ab (orTok fi (orTok vi t))) f.range
  | .functionDefinitionStatement op _ _ _ (some b) _ => rangeTN op b.range
  | .functionDefinitionStatement op _ _ (some r) none _ => rangeTN op r.range
  | .functionDefinitionStatement op _ cp none none _ => rangeTT op cp
  | .namedFunctionDefinitionStatement t br _ f _ => rangeTN (orTok br t) f.range
  | .whileStatement t _ _ _ b => rangeTN t b.range
  | .doWhileStatement t _ cp _ _ _ => rangeTT t cp
  | .forStatement t _ _ _ b => rangeTN t b.range
  | .forEachStatement t _ _ _ _ _ b => rangeTN t b.range
  | .block oc _ cc => rangeTT oc cc
  | .alternativeBlock c _ t => rangeTT c t
  | .ifBranch t _ _ _ b => rangeTN t b.range
  | .elseBranch t b => rangeTN t b.range
  | .ifStatement i _ (some e) => rangeNN i.range e.range
  | .ifStatement i (e :: es) none => rangeNN i.range (Node.rangeLast (e :: es))
  | .ifStatement i [] none => i.range
  | .switchBranch _ b => rangeNN (Node.rangeFirst b) (Node.rangeLast b)
  | .switchCase t _ _ _ b => rangeTN t b.range
  | .switchBody s _ e => rangeTT s e
  | .tokenStatement t none => t.range
  | .tokenStatement t (some e) => rangeTN t e.range
  | .catchBlock t _ _ _ _ b => rangeTN t b.range
  | .finallyBlock t b => rangeTN t b.range
  | .tryCatch t _ _ (some f) => rangeTN t f.range
  | .tryCatch t _ (c :: cs) none => rangeTN t (Node.rangeLast (c :: cs))
  | .tryCatch t b [] none => rangeTN t b.range
  | .staticVariablesStatement t l => rangeTN t (Node.rangeLast l)
  | .globalVariablesStatement t l => rangeTN t (Node.rangeLast l)
  | .typeRef t => t.range
  | .literal t => t.range
  | .variable t => t.range
  | .missing t => t.range
  | .defineStatement _ _ _ cp t _ => rangeTT t cp
  | .docComment c _ _ _ _ _ _ => c.range
  | .docCommentProperty n none _ => n.range
  | .docCommentProperty n (some ts) _ => rangeTypes n ts
  | .grouping n => n.range
  | .matchExpr _ oc _ _ _ _ cc => rangeTT oc cc
  | .matchArm none _ e => e.range
  | .matchArm (some ps) _ e => rangeNN (Node.rangeFirst ps) e.range
  | _ => some NodeRange.unknown

/-- The range of the last node of a list (`last().unwrap()`). -/
def Node.rangeLast : List Node → Option NodeRange
  | [] => none
  | n :: r =>
    match Node.rangeLast r with
    | none => if r.isEmpty then n.range else none
    | some x => some x

/-- The range of the first node of a list (`first().unwrap()`). -/
def Node.rangeFirst : List Node → Option NodeRange
  | [] => none
  | n :: _ => n.range

/-- The range of an optional node; the inner `none` is a panic. -/
def Node.rangeO : Option Node → Option (Option NodeRange)
  | none => none
  | some n => some n.range

end

/-- `Node::name` (`src/parser/node.rs` 1834–1841). -/
def Node.name : Node → Option Text
  | .namedFunctionDefinitionStatement _ _ n _ _ => n.display
  | .variable t => t.display
  | .literal t => t.display
  | .typeRef t => t.toFqdn
  | _ => some []

end PhpLs
