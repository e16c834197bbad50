import Verif.Token

/-!
# AST nodes

Model of the data types of `src/parser/node.rs` (lines 1–918).  `Box<T>` is `T`, `Vec<T>` is `List T`, `String` is `Text`.
The line numbers in the comments of the constructors are those of `src/parser/node.rs`.
-/

namespace PhpLs

/-- `TypeRef` (`src/parser/node.rs` 6–13). -/
structure TypeRef where
  kind : List Token
  multiple : Bool
deriving DecidableEq, Repr

/-- `NodeRange` (`src/parser/node.rs` 28–41). -/
structure NodeRange where
  startCol : Nat
  startLine : Nat
  endCol : Nat
  endLine : Nat
deriving DecidableEq, Repr

/-- `Node` (`src/parser/node.rs` 332–918). -/
inductive Node where
  /-- `DocComment` (336–344). -/
  | docComment (comment : Token) (returnType : List Node) (description : Text) (isDeprecated : Bool) (params : List
      Node) (varDocs : List Node) (properties : List Node)
  /-- `DocCommentParam` (346–352). -/
  | docCommentParam (name : Token) (types : Option (List TypeRef)) (description : Text)
  /-- `DocCommentProperty` (353–357). -/
  | docCommentProperty (name : Token) (types : Option (List TypeRef)) (description : Text)
  /-- `DocCommentVar` (358–364). -/
  | docCommentVar (name : Token) (types : Option (List TypeRef)) (description : Text)
  /-- `DocCommentReturn` (365–369). -/
  | docCommentReturn (types : Option (List TypeRef)) (description : Text)
  /-- `Unary` (371–374). -/
  | unary (expr : Node) (token : Token)
  /-- `PostUnary` (375–378). -/
  | postUnary (expr : Node) (token : Token)
  /-- `Const` (379–383). -/
  | const (name : Token) (token : Token) (value : Node)
  /-- `Binary` (384–388). -/
  | binary (left : Node) (token : Token) (right : Node)
  /-- `Ternary` (389–395). -/
  | ternary (check : Node) (qm : Token) (trueArm : Option Node) (colon : Token) (falseArm : Node)
  /-- `Missing` (397). -/
  | missing (token : Token)
  /-- `Literal` (398). -/
  | literal (token : Token)
  /-- `Variable` (399). -/
  | variable (token : Token)
  /-- `LexicalVariable` (400–403). -/
  | lexicalVariable (reference : Option Token) (var : Token)
  /-- `AliasedVariable` (404–407). -/
  | aliasedVariable (var : Token) (expr : Node)
  /-- `DynamicVariable` (408–413). -/
  | dynamicVariable (var : Token) (oc : Token) (expr : Node) (cc : Token)
  /-- `StaticVariable` (414–418). -/
  | staticVariable (var : Token) (assignment : Option Token) (value : Option Node)
  /-- `Identifier` (419). -/
  | identifier (token : Token)
  /-- `Grouping` (422). -/
  | grouping (expr : Node)
  /-- `Array` (424–428). -/
  | array (ob : Token) (elements : List Node) (cb : Token)
  /-- `OldArray` (429–434). -/
  | oldArray (token : Token) (op : Token) (elements : List Node) (cp : Token)
  /-- `ArrayElement` (435–439). -/
  | arrayElement (key : Option Node) (arrow : Option Token) (value : Node)
  /-- `List` (440–445). -/
  | list (token : Token) (op : Token) (elements : List Node) (cp : Token)
  /-- `Call` (446–451). -/
  | call (callee : Node) (op : Token) (parameters : List Node) (cp : Token)
  /-- `Isset` (452–457). -/
  | isset (isset : Token) (op : Token) (parameters : List Node) (cp : Token)
  /-- `Empty` (458–463). -/
  | emptyExpr (empty : Token) (op : Token) (parameters : List Node) (cp : Token)
  /-- `Exit` (464–469). -/
  | exitExpr (exit : Token) (op : Option Token) (parameters : Option (List Node)) (cp : Option Token)
  /-- `HaltCompiler` (470–475). -/
  | haltCompiler (hc : Token) (op : Option Token) (parameters : Option (List Node)) (cp : Option Token)
  /-- `Die` (476–481). -/
  | dieExpr (die : Token) (op : Option Token) (parameters : Option (List Node)) (cp : Option Token)
  /-- `New` (482–485). -/
  | newExpr (token : Token) (cls : Node)
  /-- `Clone` (486–489). -/
  | cloneExpr (token : Token) (object : Node)
  /-- `Member` (490–496). -/
  | member (object : Node) (arrow : Token) (oc : Option Token) (member : Node) (cc : Option Token)
  /-- `StaticMember` (497–503). -/
  | staticMember (object : Node) (pn : Token) (oc : Option Token) (member : Node) (cc : Option Token)
  /-- `Field` (504–509). -/
  | field (array : Node) (ob : Token) (index : Option Node) (cb : Token)
  /-- `Match` (510–518). -/
  | matchExpr (mtch : Token) (oc : Token) (op : Token) (condition : Node) (cp : Token) (body : List Node) (cc : Token)
  /-- `MatchArm` (519–523). -/
  | matchArm (patterns : Option (List Node)) (arrow : Token) (expression : Node)
  /-- `Static` (524–527). -/
  | staticExpr (token : Token) (expr : List Node)
  /-- `Function` (529–540). -/
  | closure (isStatic : Option Token) (byRef : Option Token) (token : Token) (op : Token) (arguments : Option (List
      Node)) (cp : Token) (uses : Option (List Node)) (returnType : Option Node) (body : Node) (attributes : List
      Node)
  /-- `ArrowFunction` (541–552). -/
  | arrowFunction (isStatic : Option Token) (byRef : Option Token) (token : Token) (op : Token) (arguments : Option
      (List Node)) (cp : Token) (arrow : Token) (returnType : Option Node) (body : Node) (attributes : List Node)
  /-- `NamedParameter` (553–557). -/
  | namedParameter (name : Token) (colon : Token) (expr : Node)
  /-- `FunctionArgument` (558–567). -/
  | functionArgument (argumentType : Option Node) (name : Token) (hasDefault : Option Token) (defaultValue : Option
      Node) (spread : Option Token) (reference : Option Token) (docComment : Option Node) (attributes : List Node)
  /-- `DataType` (568–571). -/
  | dataType (nullable : Option Token) (typeRefs : List Node)
  /-- `ReturnType` (572–576). -/
  | returnType (token : Token) (dataType : Node)
  /-- `TypeRef` (577). -/
  | typeRef (typeRef : TypeRef)
  /-- `Class` (578–585). -/
  | anonClass (token : Token) (arguments : Option (List Node)) (extending : Option Node) (implementing : Option
      (List Node)) (body : Node) (attributes : List Node)
  /-- `Yield` (586–589). -/
  | yieldExpr (token : Token) (expr : Option Node)
  /-- `YieldFrom` (590–593). -/
  | yieldFrom (token : Token) (expr : Node)
  /-- `FileInclude` (594–597). -/
  | fileInclude (token : Token) (resource : Node)
  /-- `UseDeclaration` (598–603). -/
  | useDeclaration (token : Option Token) (declaration : Node) (aliased : Option Token) (aliasName : Option Token)
  /-- `UseConst` (604–609). -/
  | useConst (token : Option Token) (constant : Node) (aliased : Option Token) (aliasName : Option Token)
  /-- `UseFunction` (610–615). -/
  | useFunction (token : Option Token) (function : Node) (aliased : Option Token) (aliasName : Option Token)
  /-- `GroupedUse` (616–622). -/
  | groupedUse (token : Token) (parent : Node) (oc : Token) (uses : List Node) (cc : Token)
  /-- `ExpressionStatement` (625–627). -/
  | expressionStatement (expression : Node)
  /-- `EchoStatement` (628–631). -/
  | echoStatement (token : Token) (expressions : List Node)
  /-- `ConstStatement` (632–635). -/
  | constStatement (token : Token) (constants : List Node)
  /-- `PrintStatement` (636–639). -/
  | printStatement (token : Token) (expressions : List Node)
  /-- `GotoStatement` (640–643). -/
  | gotoStatement (token : Token) (label : Token)
  /-- `LabelStatement` (644–647). -/
  | labelStatement (label : Token) (colon : Token)
  /-- `ThrowStatement` (648–651). -/
  | throwStatement (token : Token) (expression : Node)
  /-- `DeclareStatement` (652–659). -/
  | declareStatement (directive : Token) (value : Token) (assignment : Token) (op : Token) (cp : Token) (token :
      Token)
  /-- `DefineStatement` (660–667). -/
  | defineStatement (name : Node) (value : Node) (op : Token) (cp : Token) (token : Token) (isCaseinsensitive :
      Option Token)
  /-- `UnsetStatement` (668–673). -/
  | unsetStatement (token : Token) (op : Token) (vars : List Node) (cp : Token)
  /-- `DieStatement` (674–679). -/
  | dieStatement (token : Token) (op : Token) (expr : Option Node) (cp : Token)
  /-- `ReturnStatement` (680–683). -/
  | returnStatement (token : Token) (expression : Option Node)
  /-- `NamespaceStatement` (684–687). -/
  | namespaceStatement (token : Token) (typeRef : Node)
  /-- `NamespaceBlock` (688–692). -/
  | namespaceBlock (token : Token) (typeRef : Option Node) (block : Node)
  /-- `UseStatement` (693–696). -/
  | useStatement (token : Token) (imports : List Node)
  /-- `UseFunctionStatement` (697–700). -/
  | useFunctionStatement (token : Token) (imports : List Node)
  /-- `UseConstStatement` (701–704). -/
  | useConstStatement (token : Token) (imports : List Node)
  /-- `UseTraitStatement` (705–708). -/
  | useTraitStatement (token : Token) (traitsUsages : List Node)
  /-- `UseTrait` (709–711). -/
  | useTrait (typeRef : Node)
  /-- `UseTraitAlterationBlock` (712–717). -/
  | useTraitAlterationBlock (alterationGroupTypeRefs : List Node) (oc : Token) (alterations : List Node) (cc : Token)
  /-- `UseTraitInsteadOf` (718–724). -/
  | useTraitInsteadOf (left : Option Node) (paa : Option Token) (member : Node) (insteadof : Token) (insteadofList :
      List Node)
  /-- `UseTraitAs` (725–732). -/
  | useTraitAs (left : Option Node) (paa : Option Token) (member : Node) (asToken : Token) (visibility : Option
      Token) (asName : Option Token)
  /-- `ClassStatement(ClassStatement)` (752), the fields are those of the struct (16–26). -/
  | classStatement (token : Token) (name : Token) (isAbstract : Option Token) (isFinal : Option Token) (implementing
      : Option (List Node)) (extending : Option Node) (body : Node) (docComment : Option Node) (attributes : List
      Node)
  /-- `TraitStatement` (735–740). -/
  | traitStatement (token : Token) (name : Token) (body : Node) (docComment : Option Node)
  /-- `Interface` (741–747). -/
  | interface (token : Token) (name : Token) (extending : Option (List Node)) (body : Node) (docComment : Option Node)
  /-- `ClassConstantDefinitionStatement` (748–755). -/
  | classConstantDefinitionStatement (token : Token) (consts : List Node) (docComment : Option Node) (visibility :
      Option Token) (attributes : List Node)
  /-- `ClassConstant` (756–760). -/
  | classConstant (visibility : Option Token) (name : Token) (value : Node)
  /-- `Property` (761–764). -/
  | property (name : Token) (value : Option Node)
  /-- `PropertyDefinitionStatement` (765–773). -/
  | propertyDefinitionStatement (properties : List Node) (docComment : Option Node) (visibility : Option Token)
      (dataType : Option Node) (isStatic : Option Token) (isAbstract : Option Token) (attributes : List Node)
  /-- `MethodDefinitionStatement` (775–786). -/
  | methodDefinitionStatement (token : Token) (isFinal : Option Token) (byRef : Option Token) (name : Token)
      (visibility : Option Token) (isAbstract : Option Token) (function : Node) (isStatic : Option Token)
      (docComment : Option Node) (attributes : List Node)
  /-- `FunctionDefinitionStatement` (788–795). -/
  | functionDefinitionStatement (op : Token) (arguments : Option (List Node)) (cp : Token) (returnType : Option
      Node) (body : Option Node) (docComment : Option Node)
  /-- `NamedFunctionDefinitionStatement` (797–803). -/
  | namedFunctionDefinitionStatement (token : Token) (byRef : Option Token) (name : Token) (function : Node)
      (attributes : List Node)
  /-- `WhileStatement` (804–810). -/
  | whileStatement (token : Token) (op : Token) (condition : Node) (cp : Token) (body : Node)
  /-- `DoWhileStatement` (811–818). -/
  | doWhileStatement (doToken : Token) (op : Token) (cp : Token) (whileToken : Token) (condition : Node) (body : Node)
  /-- `ForStatement` (819–825). -/
  | forStatement (token : Token) (init : List Node) (condition : List Node) (step : List Node) (body : Node)
  /-- `ForEachStatement` (826–834). -/
  | forEachStatement (token : Token) (op : Token) (collection : Node) (asToken : Token) (kv : Node) (cp : Token)
      (body : Node)
  /-- `Block` (835–839). -/
  | block (oc : Token) (statements : List Node) (cc : Token)
  /-- `AlternativeBlock` (840–844). -/
  | alternativeBlock (colon : Token) (statements : List Node) (terminator : Token)
  /-- `IfBranch` (845–851). -/
  | ifBranch (token : Token) (op : Token) (condition : Node) (cp : Token) (body : Node)
  /-- `ElseBranch` (852–855). -/
  | elseBranch (token : Token) (body : Node)
  /-- `IfStatement` (856–860). -/
  | ifStatement (ifBranch : Node) (elseifBranches : List Node) (elseBranch : Option Node)
  /-- `SwitchBranch` (861–865). -/
  | switchBranch (cases : List (Option Node)) (body : List Node)
  /-- `SwitchCase` (866–872). -/
  | switchCase (token : Token) (op : Token) (expr : Node) (cp : Token) (body : Node)
  /-- `SwitchBody` (873–877). -/
  | switchBody (start : Token) (branches : List Node) (stop : Token)
  /-- `TokenStatement` (878–881). -/
  | tokenStatement (token : Token) (expr : Option Node)
  /-- `CatchBlock` (882–889). -/
  | catchBlock (token : Token) (op : Token) (types : List Node) (var : Token) (cp : Token) (body : Node)
  /-- `FinallyBlock` (890–893). -/
  | finallyBlock (token : Token) (body : Node)
  /-- `TryCatch` (894–899). -/
  | tryCatch (token : Token) (tryBlock : Node) (catchBlocks : List Node) (finallyBlock : Option Node)
  /-- `StaticVariablesStatement` (900–903). -/
  | staticVariablesStatement (token : Token) (assignments : List Node)
  /-- `GlobalVariablesStatement` (904–907). -/
  | globalVariablesStatement (token : Token) (vars : List Node)
  /-- `InlineHtml` (908–911). -/
  | inlineHtml (start : Token) (stop : Option Token)
  /-- `Attribute` (912–916). -/
  | attr (ats : Token) (expressions : List Node) (cb : Token)
  /-- `EmptyScript` (917). -/
  | emptyScript

/-- The tokens of an optional list of type references. -/
def TypeRef.toksOL : Option (List TypeRef) → List Token
  | none => []
  | some l => l.flatMap TypeRef.kind

mutual

/-- All tokens stored in a node, in the order of the fields of the Rust enum.  Specification device (no counterpart in
the Rust code). -/
def Node.toks : Node → List Token
  | .docComment a b _ _ e f g => [a] ++ Node.toksL b ++ Node.toksL e ++ Node.toksL f ++ Node.toksL g
  | .docCommentParam a b _ => [a] ++ TypeRef.toksOL b
  | .docCommentProperty a b _ => [a] ++ TypeRef.toksOL b
  | .docCommentVar a b _ => [a] ++ TypeRef.toksOL b
  | .docCommentReturn a _ => TypeRef.toksOL a
  | .unary a b => a.toks ++ [b]
  | .postUnary a b => a.toks ++ [b]
  | .const a b c => [a] ++ [b] ++ c.toks
  | .binary a b c => a.toks ++ [b] ++ c.toks
  | .ternary a b c d e => a.toks ++ [b] ++ Node.toksO c ++ [d] ++ e.toks
  | .missing a => [a]
  | .literal a => [a]
  | .variable a => [a]
  | .lexicalVariable a b => a.toList ++ [b]
  | .aliasedVariable a b => [a] ++ b.toks
  | .dynamicVariable a b c d => [a] ++ [b] ++ c.toks ++ [d]
  | .staticVariable a b c => [a] ++ b.toList ++ Node.toksO c
  | .identifier a => [a]
  | .grouping a => a.toks
  | .array a b c => [a] ++ Node.toksL b ++ [c]
  | .oldArray a b c d => [a] ++ [b] ++ Node.toksL c ++ [d]
  | .arrayElement a b c => Node.toksO a ++ b.toList ++ c.toks
  | .list a b c d => [a] ++ [b] ++ Node.toksL c ++ [d]
  | .call a b c d => a.toks ++ [b] ++ Node.toksL c ++ [d]
  | .isset a b c d => [a] ++ [b] ++ Node.toksL c ++ [d]
  | .emptyExpr a b c d => [a] ++ [b] ++ Node.toksL c ++ [d]
  | .exitExpr a b c d => [a] ++ b.toList ++ Node.toksOL c ++ d.toList
  | .haltCompiler a b c d => [a] ++ b.toList ++ Node.toksOL c ++ d.toList
  | .dieExpr a b c d => [a] ++ b.toList ++ Node.toksOL c ++ d.toList
  | .newExpr a b => [a] ++ b.toks
  | .cloneExpr a b => [a] ++ b.toks
  | .member a b c d e => a.toks ++ [b] ++ c.toList ++ d.toks ++ e.toList
  | .staticMember a b c d e => a.toks ++ [b] ++ c.toList ++ d.toks ++ e.toList
  | .field a b c d => a.toks ++ [b] ++ Node.toksO c ++ [d]
  | .matchExpr a b c d e f g => [a] ++ [b] ++ [c] ++ d.toks ++ [e] ++ Node.toksL f ++ [g]
  | .matchArm a b c => Node.toksOL a ++ [b] ++ c.toks
  | .staticExpr a b => [a] ++ Node.toksL b
  | .closure a b c d e f g h i j => a.toList ++ b.toList ++ [c] ++ [d] ++ Node.toksOL e ++ [f] ++ Node.toksOL g ++
      Node.toksO h ++ i.toks ++ Node.toksL j
  | .arrowFunction a b c d e f g h i j => a.toList ++ b.toList ++ [c] ++ [d] ++ Node.toksOL e ++ [f] ++ [g] ++
      Node.toksO h ++ i.toks ++ Node.toksL j
  | .namedParameter a b c => [a] ++ [b] ++ c.toks
  | .functionArgument a b c d e f g h => Node.toksO a ++ [b] ++ c.toList ++ Node.toksO d ++ e.toList ++ f.toList ++
      Node.toksO g ++ Node.toksL h
  | .dataType a b => a.toList ++ Node.toksL b
  | .returnType a b => [a] ++ b.toks
  | .typeRef a => a.kind
  | .anonClass a b c d e f => [a] ++ Node.toksOL b ++ Node.toksO c ++ Node.toksOL d ++ e.toks ++ Node.toksL f
  | .yieldExpr a b => [a] ++ Node.toksO b
  | .yieldFrom a b => [a] ++ b.toks
  | .fileInclude a b => [a] ++ b.toks
  | .useDeclaration a b c d => a.toList ++ b.toks ++ c.toList ++ d.toList
  | .useConst a b c d => a.toList ++ b.toks ++ c.toList ++ d.toList
  | .useFunction a b c d => a.toList ++ b.toks ++ c.toList ++ d.toList
  | .groupedUse a b c d e => [a] ++ b.toks ++ [c] ++ Node.toksL d ++ [e]
  | .expressionStatement a => a.toks
  | .echoStatement a b => [a] ++ Node.toksL b
  | .constStatement a b => [a] ++ Node.toksL b
  | .printStatement a b => [a] ++ Node.toksL b
  | .gotoStatement a b => [a] ++ [b]
  | .labelStatement a b => [a] ++ [b]
  | .throwStatement a b => [a] ++ b.toks
  | .declareStatement a b c d e f => [a] ++ [b] ++ [c] ++ [d] ++ [e] ++ [f]
  | .defineStatement a b c d e f => a.toks ++ b.toks ++ [c] ++ [d] ++ [e] ++ f.toList
  | .unsetStatement a b c d => [a] ++ [b] ++ Node.toksL c ++ [d]
  | .dieStatement a b c d => [a] ++ [b] ++ Node.toksO c ++ [d]
  | .returnStatement a b => [a] ++ Node.toksO b
  | .namespaceStatement a b => [a] ++ b.toks
  | .namespaceBlock a b c => [a] ++ Node.toksO b ++ c.toks
  | .useStatement a b => [a] ++ Node.toksL b
  | .useFunctionStatement a b => [a] ++ Node.toksL b
  | .useConstStatement a b => [a] ++ Node.toksL b
  | .useTraitStatement a b => [a] ++ Node.toksL b
  | .useTrait a => a.toks
  | .useTraitAlterationBlock a b c d => Node.toksL a ++ [b] ++ Node.toksL c ++ [d]
  | .useTraitInsteadOf a b c d e => Node.toksO a ++ b.toList ++ c.toks ++ [d] ++ Node.toksL e
  | .useTraitAs a b c d e f => Node.toksO a ++ b.toList ++ c.toks ++ [d] ++ e.toList ++ f.toList
  | .classStatement a b c d e f g h i => [a] ++ [b] ++ c.toList ++ d.toList ++ Node.toksOL e ++ Node.toksO f ++
      g.toks ++ Node.toksO h ++ Node.toksL i
  | .traitStatement a b c d => [a] ++ [b] ++ c.toks ++ Node.toksO d
  | .interface a b c d e => [a] ++ [b] ++ Node.toksOL c ++ d.toks ++ Node.toksO e
  | .classConstantDefinitionStatement a b c d e => [a] ++ Node.toksL b ++ Node.toksO c ++ d.toList ++ Node.toksL e
  | .classConstant a b c => a.toList ++ [b] ++ c.toks
  | .property a b => [a] ++ Node.toksO b
  | .propertyDefinitionStatement a b c d e f g => Node.toksL a ++ Node.toksO b ++ c.toList ++ Node.toksO d ++
      e.toList ++ f.toList ++ Node.toksL g
  | .methodDefinitionStatement a b c d e f g h i j => [a] ++ b.toList ++ c.toList ++ [d] ++ e.toList ++ f.toList ++
      g.toks ++ h.toList ++ Node.toksO i ++ Node.toksL j
  | .functionDefinitionStatement a b c d e f => [a] ++ Node.toksOL b ++ [c] ++ Node.toksO d ++ Node.toksO e ++
      Node.toksO f
  | .namedFunctionDefinitionStatement a b c d e => [a] ++ b.toList ++ [c] ++ d.toks ++ Node.toksL e
  | .whileStatement a b c d e => [a] ++ [b] ++ c.toks ++ [d] ++ e.toks
  | .doWhileStatement a b c d e f => [a] ++ [b] ++ [c] ++ [d] ++ e.toks ++ f.toks
  | .forStatement a b c d e => [a] ++ Node.toksL b ++ Node.toksL c ++ Node.toksL d ++ e.toks
  | .forEachStatement a b c d e f g => [a] ++ [b] ++ c.toks ++ [d] ++ e.toks ++ [f] ++ g.toks
  | .block a b c => [a] ++ Node.toksL b ++ [c]
  | .alternativeBlock a b c => [a] ++ Node.toksL b ++ [c]
  | .ifBranch a b c d e => [a] ++ [b] ++ c.toks ++ [d] ++ e.toks
  | .elseBranch a b => [a] ++ b.toks
  | .ifStatement a b c => a.toks ++ Node.toksL b ++ Node.toksO c
  | .switchBranch a b => Node.toksLO a ++ Node.toksL b
  | .switchCase a b c d e => [a] ++ [b] ++ c.toks ++ [d] ++ e.toks
  | .switchBody a b c => [a] ++ Node.toksL b ++ [c]
  | .tokenStatement a b => [a] ++ Node.toksO b
  | .catchBlock a b c d e f => [a] ++ [b] ++ Node.toksL c ++ [d] ++ [e] ++ f.toks
  | .finallyBlock a b => [a] ++ b.toks
  | .tryCatch a b c d => [a] ++ b.toks ++ Node.toksL c ++ Node.toksO d
  | .staticVariablesStatement a b => [a] ++ Node.toksL b
  | .globalVariablesStatement a b => [a] ++ Node.toksL b
  | .inlineHtml a b => [a] ++ b.toList
  | .attr a b c => [a] ++ Node.toksL b ++ [c]
  | .emptyScript => []

/-- `Node.toks` for `Vec<Node>`. -/
def Node.toksL : List Node → List Token
  | [] => []
  | n :: r => n.toks ++ Node.toksL r

/-- `Node.toks` for `Option<Box<Node>>`. -/
def Node.toksO : Option Node → List Token
  | none => []
  | some n => n.toks

/-- `Node.toks` for `Option<Vec<Node>>`. -/
def Node.toksOL : Option (List Node) → List Token
  | none => []
  | some l => Node.toksL l

/-- `Node.toks` for `Vec<Option<Node>>`. -/
def Node.toksLO : List (Option Node) → List Token
  | [] => []
  | o :: r => Node.toksO o ++ Node.toksLO r

end

end PhpLs
