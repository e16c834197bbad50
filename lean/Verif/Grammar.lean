import Verif.ParserCore

/-!
# Grammar

Model of `src/parser/ast/*.rs` and of the statement level of `src/parser/mod.rs` (lines 102–139, 159–471), function by
function.

The functions are mutually recursive in Rust.  Here every function takes a `Rec`, which holds the three entry points through
which all recursion passes (`expression`, `statement`, `call`); `knot n` ties the knot with fuel `n`.
-/

namespace PhpLs.Parser

open PhpLs

/-- The recursive entry points, the fuel for loops and the doc comment scanner. -/
structure Rec where
  doc : Token → Option Node
  fuel : Nat
  expression : Nat → P Node
  statement : P Node
  call : P Node

/-- The loop `while parser.consume_or_ignore(TokenType::Comma).is_some() { acc.push(item(parser)?) }`. -/
def moreByComma (r : Rec) (item : P Node) (acc : List Node) : P (List Node) :=
  loopP .other r.fuel (fun acc => do
    match ← consumeOrIgnore .comma with
    | some _ => do
      let e ← item
      pure (.inl (acc ++ [e]))
    | none => pure (.inr acc)) acc

/-! ## attributes.rs -/

/-- `attribute` (`src/parser/ast/attributes.rs` 15–31). -/
def attribute' (r : Rec) : P Node := do
  let ats ← consume .attributeStart
  let e ← r.expression 0
  let es ← moreByComma r (r.expression 0) [e]
  let cb ← consume .closeBrackets
  pure (.attr ats es cb)

/-- `attributes_block` (`src/parser/ast/attributes.rs` 33–40). -/
def attributesBlock (r : Rec) : P (List Node) :=
  loopP .other r.fuel (fun acc => do
    if ← nextOneOf [.attributeStart] then do
      let a ← attribute' r
      pure (.inl (acc ++ [a]))
    else pure (.inr acc)) []

/-! ## types.rs -/

/-- `types::non_empty_type_ref` (`src/parser/ast/types.rs` 45–60). -/
def nonEmptyTypeRef (r : Rec) : P Node := do
  let ns ← consumeOrIgnore .namespaceSeparator
  let i ← consumeIdentifier
  let path ← loopP .other r.fuel (fun path => do
    match ← consumeOrIgnore .namespaceSeparator with
    | some ns => do
      let i ← consumeIdentifier
      pure (.inl (path ++ [ns, i]))
    | none => pure (.inr path)) (ns.toList ++ [i])
  pure (.typeRef ⟨path, false⟩)

/-- `types::type_ref_list` (`src/parser/ast/types.rs` 5–13). -/
def typeRefList (r : Rec) : P (List Node) := do
  let t ← nonEmptyTypeRef r
  moreByComma r (nonEmptyTypeRef r) [t]

/-- `types::type_ref` (`src/parser/ast/types.rs` 16–42). -/
def typeRef (r : Rec) : P (Option Node) := do
  let ns ← consumeOrIgnore .namespaceSeparator
  let path ← loopP .other r.fuel (fun (path : List Token) => do
    match ← takeIf Token.isIdentifier with
    | some i => do
      match ← consumeOrIgnore .namespaceSeparator with
      | some ns => pure (.inl (path ++ [i, ns]))
      | none => pure (.inr (path ++ [i]))
    | none => pure (.inr path)) ns.toList
  pure (if path.isEmpty then none else some (.typeRef ⟨path, false⟩))

/-- `types::non_empty_namespace_ref` (`src/parser/ast/types.rs` 63–86).  The path is never empty; it is returned as its
initial part and its last token. -/
def nonEmptyNamespaceRef (r : Rec) : P (List Token × Token) := do
  let ns ← consumeOrIgnore .namespaceSeparator
  let i ← consumeIdentifier
  loopP .other r.fuel (fun (path : List Token × Token) => do
    match ← consumeOrIgnore .namespaceSeparator with
    | some ns => do
      match ← takeIf Token.isIdentifier with
      | some i => pure (.inl (path.1 ++ [path.2, ns], i))
      | none => pure (.inr (path.1 ++ [path.2], ns))
    | none => pure (.inr path)) (ns.toList, i)

/-- The loop of `types::non_empty_type_ref_union` and `types::type_ref_union` (`src/parser/ast/types.rs` 100–102,
125–127). -/
def moreByOr (r : Rec) (acc : List Node) : P (List Node) :=
  loopP .other r.fuel (fun acc => do
    match ← consumeOrIgnore .binaryOr with
    | some _ => do
      let e ← nonEmptyTypeRef r
      pure (.inl (acc ++ [e]))
    | none => pure (.inr acc)) acc

/-- `types::non_empty_type_ref_union` (`src/parser/ast/types.rs` 97–105). -/
def nonEmptyTypeRefUnion (r : Rec) : P (List Node) := do
  let t ← nonEmptyTypeRef r
  moreByOr r [t]

/-- `types::type_ref_union` (`src/parser/ast/types.rs` 116–130). -/
def typeRefUnion (r : Rec) : P (Option (List Node)) := do
  match ← typeRef r with
  | some t => do
    let ts ← moreByOr r [t]
    pure (some ts)
  | none => pure none

/-- `types::data_type` (`src/parser/ast/types.rs` 138–143). -/
def dataType (r : Rec) : P Node := do
  let q ← consumeOrIgnore .questionMark
  let ts ← nonEmptyTypeRefUnion r
  pure (.dataType q ts)

/-! ## variables.rs -/

/-- `variables::variable` (`src/parser/ast/variables.rs` 7–59).  The list of `$` tokens (lines 27–49) is kept with the last
one apart (first component) and the earlier ones newest first. -/
def variable' (r : Rec) : P Node := do
  let v ← consume .variable
  if v.label.isSome then pure (.variable v)
  else do
    match ← consumeOrIgnore .openCurly with
    | some oc => do
      let e ← r.expression 0
      let cc ← consume .closeCurly
      pure (.dynamicVariable v oc e cc)
    | none =>
      loopP .other r.fuel (fun (list : Token × List Token) => do
        if ← nextOneOf [.variable] then do
          let v ← consumeOrFfBefore .variable [.semicolon, .scriptEnd]
          if v.label.isSome then
            pure (.inr ((list.1 :: list.2).foldl (fun root link => .aliasedVariable link root) (.variable v)))
          else pure (.inl (v, list.1 :: list.2))
        else
          match list.1.end with
          | none => P.panic
          | some pos => do
            pushErr (.missingIdentifier list.1)
            pure (.inr (.variable (Token.missing pos)))) (v, [])

/-- `variables::global_variables` (`src/parser/ast/variables.rs` 61–80). -/
def globalVariables (r : Rec) : P Node := do
  let token ← consume .kwGlobal
  let v ← variable' r
  let _ ← consumeOrIgnore .comma
  let vars ← loopP .globals r.fuel (fun vars => do
    if ← nextOneOf [.semicolon] then pure (.inr vars)
    else do
      let v ← variable' r
      if ← nextOneOf [.semicolon] then pure (.inr (vars ++ [v]))
      else do
        consumeOrFfAfter .comma [.semicolon]
        pure (.inl (vars ++ [v]))) [v]
  consumeOrFfAfter .semicolon [.semicolon]
  pure (.globalVariablesStatement token vars)

/-- `variables::static_variables` (`src/parser/ast/variables.rs` 84–104). -/
def staticVariables (r : Rec) (token : Token) : P Node := do
  let assignments ← loopP .other r.fuel (fun (as : List Node) => do
    let v ← consume .variable
    let as ← (do
      match ← consumeOrIgnore .assignment with
      | some a => do
        let e ← r.expression 0
        pure (as ++ [.staticVariable v (some a) (some e)])
      | none => pure as : P (List Node))
    match ← consumeOrIgnore .comma with
    | none => pure (.inr as)
    | some _ => pure (.inl as)) []
  pure (.staticVariablesStatement token assignments)

/-- One entry of a `const` statement (`src/parser/ast/variables.rs` 110–114, 118–122). -/
def constEntry (r : Rec) : P Node := do
  let name ← consumeIdentifier
  let token ← consume .assignment
  let value ← r.expression 0
  pure (.const name token value)

/-- `variables::const_statement` (`src/parser/ast/variables.rs` 107–126). -/
def constStatement (r : Rec) : P Node := do
  let token ← consume .kwConst
  let c ← constEntry r
  let cs ← loopP .other r.fuel (fun (cs : List Node) => do
    match ← consumeOrIgnore .semicolon with
    | some _ => pure (.inr cs)
    | none => do
      consumeOrFfAfter .comma [.semicolon]
      let c ← constEntry r
      pure (.inl (cs ++ [c]))) [c]
  pure (.constStatement token cs)

/-- `variables::lexical_variable` (`src/parser/ast/variables.rs` 152–157). -/
def lexicalVariable : P Node := do
  let reference ← consumeOrIgnore .binaryAnd
  let v ← consume .variable
  pure (.lexicalVariable reference v)

/-- `variables::non_empty_lexical_variables_list` (`src/parser/ast/variables.rs` 129–149). -/
def nonEmptyLexicalVariablesList (r : Rec) : P (List Node) := do
  consumeOrFfAfter .openParenthesis [.semicolon]
  let v ← lexicalVariable
  let _ ← consumeOrIgnore .comma
  let args ← loopP .lexicals r.fuel (fun args => do
    if ← nextOneOf [.closeParenthesis] then pure (.inr args)
    else do
      let v ← lexicalVariable
      if ← nextOneOf [.closeParenthesis] then pure (.inr (args ++ [v]))
      else do
        consumeOrFfAfter .comma [.semicolon]
        pure (.inl (args ++ [v]))) [v]
  consumeOrFfAfter .closeParenthesis [.semicolon]
  pure args

/-! ## arrays.rs -/

/-- `Node::is_offset` (`src/parser/node.rs` 921–923). -/
def _root_.PhpLs.Node.isOffset (_ : Node) : Bool := true

/-- `arrays::array_pair` (`src/parser/ast/arrays.rs` 51–85). -/
def arrayPair (r : Rec) : P Node := do
  let key ← r.expression 0
  match ← consumeOrIgnore .doubleArrow with
  | some arrow =>
    if !key.isOffset then P.fail (.illegalOffsetType key)
    else do
      if ← nextOneOf [.binaryAnd] then do
        let v ← lexicalVariable
        pure (.arrayElement (some key) (some arrow) v)
      else do
        let v ← r.expression 0
        pure (.arrayElement (some key) (some arrow) v)
  | none => pure (.arrayElement none none key)

/-- The loop of `arrays::array` (`src/parser/ast/arrays.rs` 13–23) and `keywords::list`
(`src/parser/ast/keywords.rs` 144–153). -/
def pairsUntil (r : Rec) (close : TT) : P (List Node) :=
  loopP .other r.fuel (fun es => do
    if ← nextOneOf [close] then pure (.inr es)
    else do
      match ← consumeOrIgnore .comma with
      | some _ => pure (.inl es)
      | none => do
        let e ← arrayPair r
        let _ ← consumeOrIgnore .comma
        pure (.inl (es ++ [e]))) []

/-- `arrays::array` (`src/parser/ast/arrays.rs` 9–30). -/
def array (r : Rec) : P Node := do
  let ob ← consume .openBrackets
  let es ← pairsUntil r .closeBrackets
  let cb ← consume .closeBrackets
  pure (.array ob es cb)

/-- `arrays::old_array` (`src/parser/ast/arrays.rs` 32–49). -/
def oldArray (r : Rec) : P Node := do
  let token ← consume .typeArray
  let op ← consume .openParenthesis
  let es ← loopP .other r.fuel (fun es => do
    if ← nextOneOf [.closeParenthesis] then pure (.inr es)
    else do
      let e ← arrayPair r
      let _ ← consumeOrIgnore .comma
      pure (.inl (es ++ [e]))) []
  let cp ← consume .closeParenthesis
  pure (.oldArray token op es cp)

/-- `keywords::list` (`src/parser/ast/keywords.rs` 139–160). -/
def list (r : Rec) : P Node := do
  let token ← consume .kwList
  let op ← consume .openParenthesis
  let es ← pairsUntil r .closeParenthesis
  let cp ← consume .closeParenthesis
  pure (.list token op es cp)

/-! ## Blocks (mod.rs) -/

/-- One iteration of the statement loops (`src/parser/mod.rs` 115–135, 173–193, 222–242): an error is recorded and the
parser fast forwards. -/
def statementInto (r : Rec) (stmts : List Node) : P (List Node) :=
  P.catchErr r.statement
    (fun n => do
      let ds ← drainDocs r.doc
      pure (stmts ++ ds ++ [n]))
    (fun e => do
      pushErr e
      errorFastForward
      pure stmts)

/-- The statement loop of `block` and `alternative_block` (`src/parser/mod.rs` 172–194, 215–243): until one of the given
tokens or the end of the tokens. -/
def statementsUntil (r : Rec) (site : Site) (stop : List TT) : P (List Node) :=
  loopP site r.fuel (fun stmts => do
    if ← nextOneOf stop then pure (.inr stmts)
    else do
      match ← peek with
      | none => pure (.inr stmts)
      | some _ => do
        let stmts ← statementInto r stmts
        pure (.inl stmts)) []

/-- `Parser::block` (`src/parser/mod.rs` 167–200). -/
def block (r : Rec) : P Node := do
  let oc ← consume .openCurly
  let stmts ← statementsUntil r .block [.closeCurly]
  let cc ← consume .closeCurly
  pure (.block oc stmts cc)

/-- `Parser::alternative_block` (`src/parser/mod.rs` 209–254). -/
def alternativeBlock (r : Rec) (terminator : TT) : P Node := do
  let colon ← consume .colon
  let stmts ← statementsUntil r .altBlock [.endFor, .endForeach, .endWhile, .endIf]
  let t ← consume terminator
  let _ ← consume .semicolon
  pure (.alternativeBlock colon stmts t)

/-- `Parser::alternative_block_or_statement` (`src/parser/mod.rs` 303–309). -/
def alternativeBlockOrStatement (r : Rec) (terminator : TT) : P Node := do
  if ← nextOneOf [.colon] then alternativeBlock r terminator
  else r.statement

/-! ## functions.rs -/

/-- `functions::argument_type` (`src/parser/ast/functions.rs` 72–86). -/
def argumentType (r : Rec) : P (Option Node) := do
  match ← consumeOrIgnore .questionMark with
  | some q => do
    let ts ← nonEmptyTypeRefUnion r
    pure (some (.dataType (some q) ts))
  | none => do
    match ← typeRefUnion r with
    | some ts => pure (some (.dataType none ts))
    | none => pure none

/-- One argument of `functions::argument_list` (`src/parser/ast/functions.rs` 28–52). -/
def argument (r : Rec) (doc : Option Node) : P Node := do
  let attributes ← attributesBlock r
  let ty ← argumentType r
  let reference ← consumeOrIgnore .binaryAnd
  let spread ← consumeOrIgnore .elipsis
  let name ← consume .variable
  match ← consumeOrIgnore .assignment with
  | some a => do
    let e ← r.expression 0
    pure (.functionArgument ty name (some a) (some e) spread reference (DocBlock.paramCommentFor doc name) attributes)
  | none =>
    pure (.functionArgument ty name none none spread reference (DocBlock.paramCommentFor doc name) attributes)

/-- `functions::argument_list` (`src/parser/ast/functions.rs` 17–62). -/
def argumentList (r : Rec) (doc : Option Node) : P (Option (List Node)) := do
  if ← nextOneOf [.closeParenthesis] then pure none
  else
    loopP .other r.fuel (fun (args : List Node) => do
      let a ← argument r doc
      match ← consumeOrIgnore .comma with
      | some _ => pure (.inl (args ++ [a]))
      | none => pure (.inr (some (args ++ [a])))) []

/-- `functions::return_type` (`src/parser/ast/functions.rs` 96–105). -/
def returnType (r : Rec) : P (Option Node) := do
  match ← consumeOrIgnore .colon with
  | some colon => do
    let d ← dataType r
    pure (some (.returnType colon d))
  | none => pure none

/-- `functions::anonymous_function_statement` (`src/parser/ast/functions.rs` 142–173). -/
def anonymousFunctionStatement (r : Rec) (doc : Option Node) : P Node := do
  let op ← consume .openParenthesis
  let args ← argumentList r doc
  let cp ← consume .closeParenthesis
  let rt ← returnType r
  match ← consumeOrIgnore .semicolon with
  | some _ => pure (.functionDefinitionStatement op args cp rt none doc)
  | none => do
    let body ← block r
    pure (.functionDefinitionStatement op args cp rt (some body) doc)

/-- `functions::named_function` (`src/parser/ast/functions.rs` 117–129). -/
def namedFunction (r : Rec) (doc : Option Node) (attributes : List Node) : P Node := do
  let token ← consume .kwFunction
  let byRef ← consumeOrIgnore .binaryAnd
  let name ← consumeIdentifier
  let f ← anonymousFunctionStatement r doc
  pure (.namedFunctionDefinitionStatement token byRef name f attributes)

/-- `functions::arrow_function` (`src/parser/ast/functions.rs` 175–204). -/
def arrowFunction (r : Rec) (isStatic : Option Token) (attributes : List Node) : P Node := do
  let token ← consume .kwFn
  let byRef ← consumeOrIgnore .binaryAnd
  let op ← consume .openParenthesis
  let args ← argumentList r none
  let cp ← consume .closeParenthesis
  let rt ← returnType r
  let arrow ← consume .doubleArrow
  let body ← r.expression 0
  pure (.arrowFunction isStatic byRef token op args cp arrow rt body attributes)

/-- `functions::anonymous_function` (`src/parser/ast/functions.rs` 206–241). -/
def anonymousFunction (r : Rec) (isStatic : Option Token) (attributes : List Node) : P Node := do
  let token ← consume .kwFunction
  let byRef ← consumeOrIgnore .binaryAnd
  let op ← consume .openParenthesis
  let args ← argumentList r none
  let cp ← consume .closeParenthesis
  let uses ← (do
    match ← consumeOrIgnore .kwUse with
    | some _ => do
      let l ← nonEmptyLexicalVariablesList r
      pure (some l)
    | none => pure none : P (Option (List Node)))
  let rt ← returnType r
  let body ← block r
  pure (.closure isStatic byRef token op args cp uses rt body attributes)

/-- The loop of `functions::non_empty_parameter_list` and `functions::parameter_list` (`src/parser/ast/functions.rs`
249–257, 266–274). -/
def parametersUntil (r : Rec) (acc : List Node) : P (List Node) :=
  loopP .other r.fuel (fun args => do
    if ← nextOneOf [.closeParenthesis] then pure (.inr args)
    else do
      let e ← r.expression 0
      if ← nextOneOf [.closeParenthesis] then pure (.inr (args ++ [e]))
      else do
        consumeOrFfAfter .comma [.closeParenthesis]
        pure (.inl (args ++ [e]))) acc

/-- `functions::non_empty_parameter_list` (`src/parser/ast/functions.rs` 244–260). -/
def nonEmptyParameterList (r : Rec) : P (List Node) := do
  let e ← r.expression 0
  let _ ← consumeOrIgnore .comma
  parametersUntil r [e]

/-- `functions::parameter_list` (`src/parser/ast/functions.rs` 264–276). -/
def parameterList (r : Rec) : P (List Node) := parametersUntil r []

/-- `functions::return_statement` (`src/parser/ast/functions.rs` 278–297). -/
def returnStatement (r : Rec) : P Node := do
  let token ← consume .kwReturn
  if ← nextOneOf [.semicolon] then do
    consumeOrFfAfter .semicolon [.semicolon]
    pure (.returnStatement token none)
  else do
    let e ← r.expression 0
    consumeOrFfAfter .semicolon [.semicolon]
    pure (.returnStatement token (some e))

/-! ## classes.rs -/

/-- `classes::identifier_list` (`src/parser/ast/classes.rs` 287–300). -/
def identifierList (r : Rec) : P (List Node) :=
  loopP .other r.fuel (fun (acc : List Node) => do
    let t ← nonEmptyTypeRef r
    match ← consumeOrIgnore .comma with
    | some _ => pure (.inl (acc ++ [t]))
    | none => pure (.inr (acc ++ [t]))) []

/-- One alteration (`src/parser/ast/classes.rs` 364–411); `none` if it is neither `as` nor `insteadof`. -/
def alteration (r : Rec) : P (Option Node) := do
  let classOrMember ← nonEmptyTypeRef r
  let (left, paa, member) ← (do
    match ← consumeOrIgnore .paamayimNekudayim with
    | some paa => do
      let m ← nonEmptyTypeRef r
      pure (some classOrMember, some paa, m)
    | none => pure (none, none, classOrMember) : P (Option Node × Option Token × Node))
  match ← consumeOrIgnore .kwAs with
  | some asToken => do
    let visibility ← consumeOneOfOrIgnore [.kwPrivate, .kwPublic, .kwProtected]
    if ← nextOneOf [.semicolon] then
      pure (some (.useTraitAs left paa member asToken visibility none))
    else do
      let name ← consumeIdentifier
      pure (some (.useTraitAs left paa member asToken visibility (some name)))
  | none => do
    match ← consumeOrIgnore .insteadof with
    | some io => do
      let l ← typeRefList r
      pure (some (.useTraitInsteadOf left paa member io l))
    | none => pure none

/-- `classes::trait_usage_alteration_group` (`src/parser/ast/classes.rs` 356–422). -/
def traitUsageAlterationGroup (r : Rec) (typeRefs : List Node) : P Node := do
  let oc ← consume .openCurly
  let as ← loopP .alterations r.fuel (fun (as : List Node) => do
    if ← nextOneOf [.closeCurly] then pure (.inr as)
    else do
      let a ← alteration r
      consumeOrFfAfter .semicolon [.closeCurly]
      pure (.inl (as ++ a.toList))) []
  let cc ← consume .closeCurly
  pure (.useTraitAlterationBlock typeRefs oc as cc)

/-- `classes::trait_usages` (`src/parser/ast/classes.rs` 324–353). -/
def traitUsages (r : Rec) : P (List Node) := do
  let res : List Node ⊕ List Node ← loopP .other r.fuel (fun (ts : List Node) => do
    if ← nextOneOf [.semicolon] then pure (.inr (.inl ts))
    else do
      let t ← nonEmptyTypeRef r
      if ← nextOneOf [.openCurly] then do
        let g ← traitUsageAlterationGroup r (ts ++ [t])
        pure (.inr (.inr [g]))
      else do
        match ← consumeOrIgnore .comma with
        | some _ => pure (.inl (ts ++ [t]))
        | none => pure (.inr (.inl (ts ++ [t])))) []
  match res with
  | .inr usages => pure usages
  | .inl ts => do
    consumeOrFfAfter .semicolon [.semicolon]
    pure (ts.map Node.useTrait)

/-- `classes::use_trait_statement` (`src/parser/ast/classes.rs` 314–321). -/
def useTraitStatement (r : Rec) : P Node := do
  let token ← consume .kwUse
  let us ← traitUsages r
  pure (.useTraitStatement token us)

/-- The modifiers of a class member: `is_abstract`, `is_final`, `visibility`, `is_static`. -/
abbrev Modifiers := Option Token × Option Token × Option Token × Option Token

/-- The modifier tokens (`src/parser/ast/classes.rs` 117–125). -/
def modifierSet : List TT := [.kwAbstract, .kwFinal, .kwPublic, .kwVar, .kwPrivate, .kwProtected, .kwStatic]

/-- The modifier loop of `classes::class_block_statement` (`src/parser/ast/classes.rs` 110–134): every iteration assigns all
four variables. -/
def modifiers (r : Rec) : P Modifiers :=
  loopP .other r.fuel (fun (m : Modifiers) => do
    if ← nextOneOf modifierSet then do
      let a ← consumeOrIgnore .kwAbstract
      let f ← consumeOrIgnore .kwFinal
      let v ← consumeOneOfOrIgnore [.kwPublic, .kwVar, .kwPrivate, .kwProtected]
      let st ← consumeOrIgnore .kwStatic
      pure (.inl (a, f, v, st))
    else pure (.inr m)) (none, none, none, none)

/-- The constants of a class constant definition (`src/parser/ast/classes.rs` 137–156). -/
def classConsts (r : Rec) (visibility : Option Token) : P (List Node) :=
  loopP .other r.fuel (fun (cs : List Node) => do
    let name ← consumeIdentifier
    consumeOrFfAfter .assignment [.semicolon]
    let value ← r.expression 0
    match ← consumeOrIgnore .comma with
    | some _ => pure (.inl (cs ++ [.classConstant visibility name value]))
    | none => pure (.inr (cs ++ [.classConstant visibility name value]))) []

/-- The properties of a property definition (`src/parser/ast/classes.rs` 199–222). -/
def classProps (r : Rec) : P (List Node) :=
  loopP .other r.fuel (fun (ps : List Node) => do
    let name ← consume .variable
    let value ← (do
      match ← consumeOrIgnore .assignment with
      | some _ => do
        let e ← r.expression 0
        pure (some e)
      | none => pure none : P (Option Node))
    match ← consumeOrIgnore .comma with
    | some _ => pure (.inl (ps ++ [.property name value]))
    | none => pure (.inr (ps ++ [.property name value]))) []

/-- `classes::class_block_statement` from the modifiers on (`src/parser/ast/classes.rs` 110–234). -/
def classMember (r : Rec) (doc : Option Node) (attributes : List Node) : P Node := do
  let (isAbstract, isFinal, visibility, isStatic) ← modifiers r
  match ← consumeOrIgnore .kwConst with
  | some token => do
    let cs ← classConsts r visibility
    consumeOrFfAfter .semicolon [.semicolon]
    pure (.classConstantDefinitionStatement token cs doc visibility attributes)
  | none => do
    match ← consumeOrIgnore .kwFunction with
    | some token => do
      let byRef ← consumeOrIgnore .binaryAnd
      let name ← consumeIdentifier
      let f ← anonymousFunctionStatement r doc
      pure (.methodDefinitionStatement token isFinal byRef name visibility isAbstract f isStatic doc attributes)
    | none => do
      let ty ← (do
        if ← nextOneOf [.variable] then pure none
        else do
          let d ← dataType r
          pure (some d) : P (Option Node))
      let props ← classProps r
      consumeOrFfAfter .semicolon [.semicolon]
      pure (.propertyDefinitionStatement props doc visibility ty isStatic isAbstract attributes)

/-- `classes::class_block_statement` (`src/parser/ast/classes.rs` 95–234). -/
def classBlockStatement (r : Rec) : P Node := do
  if ← nextOneOf [.kwUse] then useTraitStatement r
  else do
    let doc ← popDoc r.doc
    let attributes ← attributesBlock r
    match doc with
    | some d => classMember r (some d) attributes
    | none => do
      let doc ← popDoc r.doc
      classMember r doc attributes

/-- `classes::class_block` (`src/parser/ast/classes.rs` 245–262): errors of members are dropped. -/
def classBlock (r : Rec) : P Node := do
  let oc ← consume .openCurly
  let stmts ← loopP .other r.fuel (fun (stmts : List Node) => do
    if ← nextOneOf [.closeCurly] then pure (.inr stmts)
    else do
      let stmts ← P.catchErr (classBlockStatement r) (fun n => pure (stmts ++ [n])) (fun _ => pure stmts)
      match ← peek with
      | none => pure (.inr stmts)
      | some _ => pure (.inl stmts)) []
  let cc ← consume .closeCurly
  pure (.block oc stmts cc)

/-- The `extends` clause of a class (`src/parser/ast/classes.rs` 39–42, 75–78). -/
def extendsOne (r : Rec) : P (Option Node) := do
  match ← consumeOrIgnore .kwExtends with
  | some _ => do
    let t ← nonEmptyTypeRef r
    pure (some t)
  | none => pure none

/-- The `implements` clause of a class and the `extends` clause of an interface (`src/parser/ast/classes.rs` 44–47, 80–83,
270–273). -/
def clauseList (r : Rec) (t : TT) : P (Option (List Node)) := do
  match ← consumeOrIgnore t with
  | some _ => do
    let l ← identifierList r
    pure (some l)
  | none => pure none

/-- `classes::class_statement` (`src/parser/ast/classes.rs` 29–60). -/
def classStatement (r : Rec) (isAbstract isFinal : Option Token) (attributes : List Node) : P Node := do
  let doc ← popDoc r.doc
  let token ← consume .kwClass
  let name ← consumeIdentifier
  let ext ← extendsOne r
  let impl ← clauseList r .kwImplements
  let body ← classBlock r
  pure (.classStatement token name isAbstract isFinal impl ext body doc attributes)

/-- `classes::abstract_class_statement` (`src/parser/ast/classes.rs` 9–16). -/
def abstractClassStatement (r : Rec) (attributes : List Node) : P Node := do
  let a ← consume .kwAbstract
  classStatement r (some a) none attributes

/-- `classes::final_class_statement` (`src/parser/ast/classes.rs` 19–26). -/
def finalClassStatement (r : Rec) (attributes : List Node) : P Node := do
  let f ← consume .kwFinal
  classStatement r none (some f) attributes

/-- `classes::anonymous_class` (`src/parser/ast/classes.rs` 62–93). -/
def anonymousClass (r : Rec) (attributes : List Node) : P Node := do
  let token ← consume .kwClass
  let args ← (do
    if ← nextOneOf [.openParenthesis] then do
      consumeOrFfAfter .openParenthesis [.openParenthesis]
      let l ← parameterList r
      consumeOrFfAfter .closeParenthesis [.openCurly]
      pure (some l)
    else pure none : P (Option (List Node)))
  let ext ← extendsOne r
  let impl ← clauseList r .kwImplements
  let body ← classBlock r
  pure (.anonClass token args ext impl body attributes)

/-- `classes::interface` (`src/parser/ast/classes.rs` 265–284). -/
def interface' (r : Rec) : P Node := do
  let doc ← popDoc r.doc
  let token ← consume .kwInterface
  let name ← consume .identifier
  let ext ← clauseList r .kwExtends
  let body ← classBlock r
  pure (.interface token name ext body doc)

/-- `classes::trait_statement` (`src/parser/ast/classes.rs` 303–311). -/
def traitStatement (r : Rec) : P Node := do
  let doc ← popDoc r.doc
  let token ← consume .kwTrait
  let name ← consume .identifier
  let body ← classBlock r
  pure (.traitStatement token name body doc)

/-! ## calls.rs -/

/-- One parameter of a call (`src/parser/ast/calls.rs` 143–161). -/
def callParameter (r : Rec) : P Node := do
  match ← lookahead Token.isIdentifier (fun k => k.t == .colon) with
  | some name => do
    let colon ← consume .colon
    let e ← r.expression 0
    pure (.namedParameter name colon e)
  | none => r.expression 0

/-- `calls::finish_call` (`src/parser/ast/calls.rs` 137–175). -/
def finishCall (r : Rec) (expr : Node) : P Node := do
  let op ← consume .openParenthesis
  let ps ← loopP .other r.fuel (fun (ps : List Node) => do
    if ← nextOneOf [.closeParenthesis] then pure (.inr ps)
    else do
      let p ← callParameter r
      if ← nextOneOf [.closeParenthesis] then pure (.inr (ps ++ [p]))
      else do
        let _ ← consumeOrFfBefore .comma [.closeParenthesis]
        pure (.inl (ps ++ [p]))) []
  let cp ← consume .closeParenthesis
  pure (.call expr op ps cp)

/-- The `->` case of `calls::init_call` (`src/parser/ast/calls.rs` 25–62). -/
def memberAccess (r : Rec) (expr : Node) (os : Token) : P Node := do
  match ← consumeOrIgnore .openCurly with
  | some oc => do
    let m ← r.expression 0
    let cc ← consume .closeCurly
    pure (.member expr os (some oc) m (some cc))
  | none => do
    if ← nextOneOf [.variable] then do
      let m ← variable' r
      pure (.member expr os none m none)
    else
      P.catchErr consumeIdentifier
        (fun i => pure (.member expr os none (.literal i) none))
        (fun _ => do
          pushErr (.missingIdentifier os)
          pure (.member expr os none (.missing os) none))

/-- The `::` case of `calls::init_call` (`src/parser/ast/calls.rs` 66–104). -/
def staticAccess (r : Rec) (expr : Node) (pn : Token) : P Node := do
  if ← nextOneOf [.variable] then do
    let m ← variable' r
    pure (.staticMember expr pn none m none)
  else do
    if ← nextOneOf [.openCurly] then do
      let oc ← consume .openCurly
      let m ← variable' r
      let cc ← consume .closeCurly
      pure (.staticMember expr pn (some oc) m (some cc))
    else do
      if ← nextIsMember then do
        let m ← consumeMember
        pure (.staticMember expr pn none (.literal m) none)
      else do
        pushErr (.missingIdentifier pn)
        pure (.staticMember expr pn none (.missing pn) none)

/-- The `[` case of `calls::init_call` (`src/parser/ast/calls.rs` 107–120). -/
def fieldAccess (r : Rec) (expr : Node) (ob : Token) : P Node := do
  match ← consumeOrIgnore .closeBrackets with
  | some cb => pure (.field expr ob none cb)
  | none => do
    let i ← r.expression 0
    let cb ← consume .closeBrackets
    pure (.field expr ob (some i) cb)

/-- `calls::init_call` (`src/parser/ast/calls.rs` 14–134). -/
def initCall (r : Rec) (expr : Node) : P Node :=
  loopP .other r.fuel (fun (expr : Node) => do
    if ← nextOneOf [.openParenthesis] then do
      let e ← finishCall r expr
      pure (.inl e)
    else do
      match ← consumeOneOfOrIgnore [.objectOperator, .nullsafeObjectOperator] with
      | some os => do
        let e ← memberAccess r expr os
        pure (.inl e)
      | none => do
        match ← consumeOrIgnore .paamayimNekudayim with
        | some pn => do
          let e ← staticAccess r expr pn
          pure (.inl e)
        | none => do
          match ← consumeOrIgnore .openBrackets with
          | some ob => do
            let e ← fieldAccess r expr ob
            pure (.inl e)
          | none => do
            match ← consumeOrIgnore .openCurly with
            | some oc => do
              let i ← r.expression 0
              let cc ← consume .closeCurly
              pure (.inl (.field expr oc (some i) cc))
            | none => pure (.inr expr)) expr

/-! ## conditionals.rs: match -/

/-- The patterns and the body of one match arm (`src/parser/ast/conditionals.rs` 241–252). -/
def matchArm (r : Rec) : P Node :=
  loopP .other r.fuel (fun (ps : List Node) => do
    let p ← r.expression 0
    match ← consumeOrIgnore .comma with
    | some _ => pure (.inl (ps ++ [p]))
    | none => do
      let arrow ← consume .doubleArrow
      let e ← r.expression 0
      pure (.inr (.matchArm (some (ps ++ [p])) arrow e))) []

/-- One iteration of the loop of `conditionals::match_body` up to line 253 (`src/parser/ast/conditionals.rs` 231–253). -/
def matchOption (r : Rec) : P Node := do
  match ← consumeOrIgnore .kwDefault with
  | some _ => do
    let arrow ← consume .doubleArrow
    let e ← r.expression 0
    pure (.matchArm none arrow e)
  | none => matchArm r

/-- `conditionals::match_body` (`src/parser/ast/conditionals.rs` 227–263). -/
def matchBody (r : Rec) : P (List Node) :=
  loopP .other r.fuel (fun (os : List Node) => do
    if ← nextOneOf [.closeCurly] then pure (.inr os)
    else do
      let o ← matchOption r
      let _ ← consumeOrIgnore .comma
      match ← peek with
      | none => pure (.inr (os ++ [o]))
      | some _ => pure (.inl (os ++ [o]))) []

/-! ## expressions.rs -/

/-- The literal tokens of `primary` (`src/parser/ast/expressions.rs` 106–127). -/
def literalSet : List TT := [.kwFalse, .kwTrue, .kwNull, .longNumber, .decimalNumber, .exponentialNumber, .hexNumber,
  .binaryNumber, .constantEncapsedString, .encapsedAndWhitespaceString, .shellEscape, .constDir, .constFile,
  .constFunction, .constLine, .constMethod, .constTrait, .constClass, .constNan, .constInf]

/-- The end of `primary` (`src/parser/ast/expressions.rs` 302–311). -/
def primaryRest : P Node := do
  match ← next with
  | some k => if k.isIdentifier then pure (.literal k) else P.fail (.unexpectedToken k)
  | none => P.fail .eof

/-- `primary` from line 265 on (`src/parser/ast/expressions.rs` 265–311): `new`, `yield`, `match`. -/
def primaryNew (r : Rec) : P Node := do
  match ← consumeOrIgnore .kwNew with
  | some new => do
    let c ← r.call
    pure (.newExpr new c)
  | none => do
    match ← consumeOrIgnore .kwYield with
    | some token => do
      if ← nextOneOf [.semicolon] then pure (.yieldExpr token none)
      else do
        let e ← arrayPair r
        pure (.yieldExpr token (some e))
    | none => do
      match ← consumeOrIgnore .yieldFrom with
      | some token => do
        let e ← r.expression 0
        pure (.yieldFrom token e)
      | none => do
        match ← consumeOrIgnore .kwMatch with
        | some mtch => do
          let op ← consume .openParenthesis
          let c ← r.expression 0
          let cp ← consume .closeParenthesis
          let oc ← consume .openCurly
          let body ← matchBody r
          let cc ← consume .closeCurly
          pure (.matchExpr mtch oc op c cp body cc)
        | none => primaryRest

/-- The `static` case of `primary` (`src/parser/ast/expressions.rs` 229–246). -/
def primaryStatic (r : Rec) (token : Token) (attributes : List Node) : P Node := do
  if ← nextOneOf [.paamayimNekudayim] then pure (.literal token)
  else do
    if ← nextOneOf [.kwFunction] then anonymousFunction r (some token) attributes
    else do
      if ← nextOneOf [.kwFn] then arrowFunction r (some token) attributes
      else pure (.literal token)

/-- `primary` from line 218 on (`src/parser/ast/expressions.rs` 218–311): attributes, functions, `static`, `self`,
anonymous classes. -/
def primaryAttr (r : Rec) : P Node := do
  let attributes ← attributesBlock r
  if ← nextOneOf [.kwFn] then arrowFunction r none attributes
  else do
    if ← nextOneOf [.kwFunction] then anonymousFunction r none attributes
    else do
      match ← consumeOrIgnore .kwStatic with
      | some token => primaryStatic r token attributes
      | none => do
        match ← consumeOneOfOrIgnore [.typeSelf, .kwParent] with
        | some token => do
          let _ ← nextOneOf [.paamayimNekudayim]
          pure (.literal token)
        | none => do
          if ← nextOneOf [.kwClass] then anonymousClass r attributes
          else primaryNew r

/-- `primary` from line 184 on (`src/parser/ast/expressions.rs` 184–311): arrays, includes, parentheses. -/
def primaryArray (r : Rec) : P Node := do
  if ← nextOneOf [.typeArray] then oldArray r
  else do
    if ← nextOneOf [.kwList] then list r
    else do
      match ← consumeOneOfOrIgnore [.kwRequire, .requireOnce, .kwInclude, .includeOnce] with
      | some token => do
        let e ← r.expression 0
        pure (.fileInclude token e)
      | none => do
        if ← nextOneOf [.openBrackets] then array r
        else do
          if ← nextOneOf [.openParenthesis] then do
            consumeOrFfAfter .openParenthesis [.openParenthesis]
            let e ← r.expression 0
            consumeOrFfAfter .closeParenthesis [.semicolon]
            pure (.grouping e)
          else primaryAttr r

/-- `primary` from line 148 on (`src/parser/ast/expressions.rs` 148–311): `isset`, `exit`, `empty`. -/
def primaryIsset (r : Rec) : P Node := do
  match ← consumeOrIgnore .kwIsset with
  | some isset => do
    let op ← consume .openParenthesis
    let ps ← nonEmptyParameterList r
    let cp ← consume .closeParenthesis
    pure (.isset isset op ps cp)
  | none => do
    match ← consumeOrIgnore .kwExit with
    | some exit => do
      match ← consumeOrIgnore .openParenthesis with
      | some op => do
        let ps ← parameterList r
        let cp ← consume .closeParenthesis
        pure (.exitExpr exit (some op) (some ps) (some cp))
      | none => pure (.exitExpr exit none none none)
    | none => do
      match ← consumeOrIgnore .kwEmpty with
      | some empty => do
        let op ← consume .openParenthesis
        let ps ← nonEmptyParameterList r
        let cp ← consume .closeParenthesis
        pure (.emptyExpr empty op ps cp)
      | none => primaryArray r

/-- `expressions::primary` (`src/parser/ast/expressions.rs` 105–312). -/
def primary (r : Rec) : P Node := do
  match ← consumeOneOfOrIgnore literalSet with
  | some k => pure (.literal k)
  | none => do
    if ← nextOneOf [.variable] then variable' r
    else do
      if ← nextOneOf [.namespaceSeparator, .identifier] then nonEmptyTypeRef r
      else do
        match ← hereDocBody with
        | some k => do
          consumeOrFfAfter .hereDocEnd [.hereDocEnd]
          pure (.literal k)
        | none => primaryIsset r

/-- `calls::call` (`src/parser/ast/calls.rs` 8–12). -/
def callF (r : Rec) : P Node := do
  let e ← primary r
  initCall r e

/-- The first operand of `expression` (`src/parser/ast/expressions.rs` 21–35). -/
def operand (r : Rec) : P Node := do
  match ← takeOr (fun k => k.t.prefixBP.isSome) with
  | none => P.fail .eof
  | some (k, taken) =>
    if taken then
      match k.t.prefixBP with
      | some rb => do
        let e ← r.expression rb
        pure (.unary e k)
      | none => r.call
    else r.call

/-- The right-hand side of an infix operator (`src/parser/ast/expressions.rs` 64–93). -/
def infixRhs (r : Rec) (lhs : Node) (op : Token) (rb : Nat) : P Node := do
  if op.t = .questionMark then do
    match ← consumeOrIgnore .colon with
    | some colon => do
      let rhs ← r.expression rb
      pure (.ternary lhs op none colon rhs)
    | none => do
      let mhs ← r.expression 0
      let colon ← consume .colon
      let rhs ← r.expression rb
      pure (.ternary lhs op (some mhs) colon rhs)
  else do
    let rhs ← r.expression rb
    pure (.binary lhs op rhs)

/-- Whether the loop of `expression` takes the operator `k` as a postfix operator with minimal binding power `minBp`
(`src/parser/ast/expressions.rs` 37, 41–44). -/
def takesPostfix (minBp : Nat) (k : Token) : Bool :=
  (k.t.infixBP.isSome || k.t.prefixBP.isSome) &&
    match k.t.postfixBP with
    | some lb => decide (minBp ≤ lb)
    | none => false

/-- Whether the loop of `expression` takes the operator `k` as an infix operator (`src/parser/ast/expressions.rs` 37, 57–60):
only if it is not a postfix operator. -/
def takesInfix (minBp : Nat) (k : Token) : Bool :=
  (k.t.infixBP.isSome || k.t.prefixBP.isSome) && k.t.postfixBP.isNone &&
    match k.t.infixBP with
    | some (lb, _) => decide (minBp ≤ lb)
    | none => false

/-- The loop of `expressions::expression` (`src/parser/ast/expressions.rs` 37–100). -/
def operators (r : Rec) (minBp : Nat) (lhs : Node) : P Node :=
  loopP .other r.fuel (fun (lhs : Node) => do
    match ← takeOr (fun k => takesPostfix minBp k || takesInfix minBp k) with
    | none => pure (.inr lhs)
    | some (k, taken) =>
      if taken then
        if takesPostfix minBp k then pure (.inl (.postUnary lhs k))
        else
          match k.t.infixBP with
          | some (_, rb) => do
            let e ← infixRhs r lhs k rb
            pure (.inl e)
          | none => pure (.inr lhs)
      else pure (.inr lhs)) lhs

/-- `expressions::expression` (`src/parser/ast/expressions.rs` 18–103). -/
def expressionF (r : Rec) (minBp : Nat) : P Node := do
  let lhs ← operand r
  operators r minBp lhs

/-! ## keywords.rs -/

/-- `keywords::declare_statement` (`src/parser/ast/keywords.rs` 9–36). -/
def declareStatement : P Node := do
  let token ← consume .kwDeclare
  let op ← consume .openParenthesis
  let directive ← consume .identifier
  let assignment ← consume .assignment
  let value ← consumeOneOf [.kwFalse, .kwTrue, .kwNull, .longNumber, .decimalNumber, .exponentialNumber, .hexNumber,
    .binaryNumber, .constantEncapsedString, .encapsedAndWhitespaceString]
  let cp ← consume .closeParenthesis
  pure (.declareStatement directive value assignment op cp token)

/-- `keywords::unset_statement` (`src/parser/ast/keywords.rs` 39–51). -/
def unsetStatement (r : Rec) : P Node := do
  let token ← consume .kwUnset
  let op ← consume .openParenthesis
  let vars ← nonEmptyParameterList r
  let cp ← consume .closeParenthesis
  pure (.unsetStatement token op vars cp)

/-- `keywords::die_statement` (`src/parser/ast/keywords.rs` 54–73). -/
def dieStatement (r : Rec) : P Node := do
  let token ← consume .kwDie
  let op ← consume .openParenthesis
  match ← consumeOrIgnore .closeParenthesis with
  | some cp => pure (.dieStatement token op none cp)
  | none => do
    let e ← r.expression 0
    let cp ← consume .closeParenthesis
    pure (.dieStatement token op (some e) cp)

/-- `keywords::define_statement` (`src/parser/ast/keywords.rs` 76–99). -/
def defineStatement (r : Rec) : P Node := do
  let token ← consume .kwDefine
  let op ← consume .openParenthesis
  let name ← r.expression 0
  let _ ← consume .comma
  let value ← r.expression 0
  let ci ← (do
    match ← consumeOrIgnore .comma with
    | some _ => do
      let k ← consumeOneOf [.kwTrue, .kwFalse]
      pure (some k)
    | none => pure none : P (Option Token))
  let cp ← consume .closeParenthesis
  pure (.defineStatement name value op cp token ci)

/-- `keywords::echo_statement` (`src/parser/ast/keywords.rs` 101–112). -/
def echoStatement (r : Rec) : P Node := do
  let token ← consume .kwEcho
  let e ← r.expression 0
  let es ← moreByComma r (r.expression 0) [e]
  consumeEndOfStatement
  pure (.echoStatement token es)

/-- `keywords::short_tag_echo_statement` (`src/parser/ast/keywords.rs` 114–127). -/
def shortTagEchoStatement (r : Rec) : P Node := do
  let token ← consume .scriptStartEcho
  let e ← r.expression 0
  let es ← moreByComma r (r.expression 0) [e]
  consumeEndOfStatement
  consumeOrFfAfter .scriptEnd [.scriptEnd]
  pure (.echoStatement token es)

/-- `keywords::print_statement` (`src/parser/ast/keywords.rs` 129–136). -/
def printStatement (r : Rec) : P Node := do
  let token ← consume .kwPrint
  let e ← r.expression 0
  consumeEndOfStatement
  pure (.printStatement token [e])

/-- `keywords::goto_statement` (`src/parser/ast/keywords.rs` 162–170). -/
def gotoStatement : P Node := do
  let token ← consume .kwGoto
  let label ← consumeIdentifier
  consumeOrFfAfter .semicolon [.semicolon]
  pure (.gotoStatement token label)

/-! ## exception_handling.rs -/

/-- `exception_handling::catch_block` (`src/parser/ast/exception_handling.rs` 53–70). -/
def catchBlock (r : Rec) : P Node := do
  let token ← consume .kwCatch
  let op ← consume .openParenthesis
  let types ← nonEmptyTypeRefUnion r
  let var ← consume .variable
  let cp ← consume .closeParenthesis
  let body ← block r
  pure (.catchBlock token op types var cp body)

/-- `exception_handling::try_catch_statement` (`src/parser/ast/exception_handling.rs` 17–42). -/
def tryCatchStatement (r : Rec) : P Node := do
  let token ← consume .kwTry
  let tryBlock ← block r
  let catches ← loopP .other r.fuel (fun (cs : List Node) => do
    if ← nextOneOf [.kwCatch] then do
      let c ← catchBlock r
      pure (.inl (cs ++ [c]))
    else pure (.inr cs)) []
  match ← consumeOrIgnore .kwFinally with
  | some f => do
    let b ← block r
    pure (.tryCatch token tryBlock catches (some (.finallyBlock f b)))
  | none => pure (.tryCatch token tryBlock catches none)

/-- `exception_handling::throw_statement` (`src/parser/ast/exception_handling.rs` 72–79). -/
def throwStatement (r : Rec) : P Node := do
  let token ← consume .kwThrow
  let e ← r.expression 0
  consumeOrFfAfter .semicolon [.semicolon]
  pure (.throwStatement token e)

/-! ## loops.rs -/

/-- The expression lists of a `for` statement (`src/parser/ast/loops.rs` 20–29, 33–42, 46–55). -/
def forPart (r : Rec) (stop : TT) : P (List Node) :=
  loopP .other r.fuel (fun (es : List Node) => do
    if ← nextOneOf [stop] then pure (.inr es)
    else do
      let e ← r.expression 0
      match ← consumeOrIgnore .comma with
      | some _ => pure (.inl (es ++ [e]))
      | none => pure (.inr (es ++ [e]))) []

/-- `loops::for_statement` (`src/parser/ast/loops.rs` 16–67). -/
def forStatement (r : Rec) : P Node := do
  let token ← consume .kwFor
  consumeOrFfAfter .openParenthesis [.semicolon]
  let init ← forPart r .semicolon
  consumeOrFfAfter .semicolon [.semicolon]
  let cond ← forPart r .semicolon
  consumeOrFfAfter .semicolon [.semicolon]
  let step ← forPart r .closeParenthesis
  consumeOrFfAfter .closeParenthesis [.semicolon]
  let body ← alternativeBlockOrStatement r .endFor
  pure (.forStatement token init cond step body)

/-- `loops::while_statement` (`src/parser/ast/loops.rs` 79–93). -/
def whileStatement (r : Rec) : P Node := do
  let token ← consume .kwWhile
  let op ← consume .openParenthesis
  let c ← r.expression 0
  let cp ← consume .closeParenthesis
  let body ← alternativeBlockOrStatement r .endWhile
  pure (.whileStatement token op c cp body)

/-- `loops::foreach_statement` (`src/parser/ast/loops.rs` 104–124). -/
def foreachStatement (r : Rec) : P Node := do
  let token ← consume .kwForeach
  let op ← consume .openParenthesis
  let c ← r.expression 0
  let asToken ← consume .kwAs
  let kv ← arrayPair r
  let cp ← consume .closeParenthesis
  let body ← alternativeBlockOrStatement r .endForeach
  pure (.forEachStatement token op c asToken kv cp body)

/-- `loops::do_while_statement` (`src/parser/ast/loops.rs` 136–153). -/
def doWhileStatement (r : Rec) : P Node := do
  let doToken ← consume .kwDo
  let body ← r.statement
  let whileToken ← consume .kwWhile
  let op ← consume .openParenthesis
  let c ← r.expression 0
  let cp ← consume .closeParenthesis
  consumeOrFfAfter .semicolon [.semicolon]
  pure (.doWhileStatement doToken op cp whileToken c body)

/-! ## conditionals.rs -/

/-- The loop `while !parser.next_token_one_of(stop) { statements.push(parser.statement()?) }`
(`src/parser/ast/conditionals.rs` 30–32, 60–63, 176–182): an error leaves the whole statement. -/
def plainStatements (r : Rec) (stop : List TT) : P (List Node) :=
  loopP .other r.fuel (fun (ss : List Node) => do
    if ← nextOneOf stop then pure (.inr ss)
    else do
      let s ← r.statement
      pure (.inl (ss ++ [s]))) []

/-- The tokens that end a branch of an alternative `if` (`src/parser/ast/conditionals.rs` 30, 35, 60, 65). -/
def ifStop : List TT := [.endIf, .kwElse, .elseIf]

/-- The `elseif` branches of an alternative `if` (`src/parser/ast/conditionals.rs` 50–78); the result has the last
terminator. -/
def altElseifs (r : Rec) (terminator : Token) : P (List Node × Token) :=
  loopP .other r.fuel (fun (st : List Node × Token) =>
    if st.2.t = .elseIf then do
      let op ← consume .openParenthesis
      let c ← r.expression 0
      let cp ← consume .closeParenthesis
      let colon ← consume .colon
      let ss ← plainStatements r ifStop
      let t ← consumeOneOf ifStop
      pure (.inl (st.1 ++ [.ifBranch st.2 op c cp (.alternativeBlock colon ss t)], t))
    else pure (.inr st)) ([], terminator)

/-- The alternative syntax of `if` (`src/parser/ast/conditionals.rs` 28–93). -/
def ifAlternative (r : Rec) (token op : Token) (cond : Node) (cp colon : Token) : P Node := do
  let ss ← plainStatements r ifStop
  let terminator ← consumeOneOf ifStop
  let ifBranch := Node.ifBranch token op cond cp (.alternativeBlock colon ss terminator)
  let (elseifs, terminator) ← altElseifs r terminator
  if terminator.t = .kwElse then do
    let b ← alternativeBlock r .endIf
    pure (.ifStatement ifBranch elseifs (some (.elseBranch terminator b)))
  else pure (.ifStatement ifBranch elseifs none)

/-- The `elseif` branches of a regular `if` (`src/parser/ast/conditionals.rs` 105–118). -/
def elseifs (r : Rec) : P (List Node) :=
  loopP .other r.fuel (fun (bs : List Node) => do
    match ← consumeOrIgnore .elseIf with
    | some token => do
      let op ← consume .openParenthesis
      let c ← r.expression 0
      let cp ← consume .closeParenthesis
      let b ← r.statement
      pure (.inl (bs ++ [.ifBranch token op c cp b]))
    | none => pure (.inr bs)) []

/-- `conditionals::if_statement` (`src/parser/ast/conditionals.rs` 19–134). -/
def ifStatement (r : Rec) : P Node := do
  let token ← consume .kwIf
  let op ← consume .openParenthesis
  let c ← r.expression 0
  let cp ← consume .closeParenthesis
  match ← consumeOrIgnore .colon with
  | some colon => ifAlternative r token op c cp colon
  | none => do
    let b ← r.statement
    let bs ← elseifs r
    match ← consumeOrIgnore .kwElse with
    | some e => do
      let eb ← r.statement
      pure (.ifStatement (.ifBranch token op c cp b) bs (some (.elseBranch e eb)))
    | none => pure (.ifStatement (.ifBranch token op c cp b) bs none)

/-- `conditionals::case_list` (`src/parser/ast/conditionals.rs` 199–225). -/
def caseList (r : Rec) : P (List (Option Node)) :=
  loopP .other r.fuel (fun (cs : List (Option Node)) => do
    match ← takeIf (fun k => k.t == .kwDefault || k.t == .kwCase) with
    | none => pure (.inr cs)
    | some k =>
      if k.t = .kwDefault then do
        let _ ← consumeOneOf [.colon, .semicolon]
        pure (.inl (cs ++ [none]))
      else do
        let e ← r.expression 0
        let _ ← consumeOneOf [.colon, .semicolon]
        pure (.inl (cs ++ [some e]))) []

/-- `conditionals::switch_body` (`src/parser/ast/conditionals.rs` 163–197). -/
def switchBody (r : Rec) : P Node := do
  let (start, terminator) ← (do
    if ← nextOneOf [.colon] then do
      let k ← consume .colon
      pure (k, TT.endSwitch)
    else do
      let k ← consume .openCurly
      pure (k, TT.closeCurly) : P (Token × TT))
  let branches ← loopP .other r.fuel (fun (bs : List Node) => do
    if ← nextOneOf [terminator] then pure (.inr bs)
    else do
      let cs ← caseList r
      let ss ← plainStatements r [terminator, .kwCase, .kwDefault]
      pure (.inl (bs ++ [.switchBranch cs ss]))) []
  let stop ← consume terminator
  pure (.switchBody start branches stop)

/-- `conditionals::switch_statement` (`src/parser/ast/conditionals.rs` 146–160). -/
def switchStatement (r : Rec) : P Node := do
  let token ← consume .kwSwitch
  let op ← consume .openParenthesis
  let e ← r.expression 0
  let cp ← consume .closeParenthesis
  let body ← switchBody r
  pure (.switchCase token op e cp body)

/-! ## namespaces.rs -/

/-- `namespaces::namespace_statement` (`src/parser/ast/namespaces.rs` 12–33). -/
def namespaceStatement (r : Rec) : P Node := do
  let token ← consume .kwNamespace
  let ty ← typeRef r
  if ← nextOneOf [.openCurly] then do
    let b ← block r
    pure (.namespaceBlock token ty b)
  else do
    match ty with
    | some ty => do
      consumeOrFfAfter .semicolon [.semicolon]
      pure (.namespaceStatement token ty)
    | none => do
      match ← next with
      | some k => P.fail (.wrongToken [.openBrackets, .identifier] k)
      | none => P.fail .eof

/-- The optional alias of an import: `as` and the name (`src/parser/ast/namespaces.rs` 48–62, 68–82, 87–101, 137–151,
174–188, 221–236). -/
def importAlias : P (Option Token × Option Token) := do
  match ← consumeOrIgnore .kwAs with
  | some aliased => do
    let a ← consume .identifier
    pure (some aliased, some a)
  | none => pure (none, none)

/-- `namespaces::symbol_import` (`src/parser/ast/namespaces.rs` 44–102). -/
def symbolImport (r : Rec) : P Node := do
  match ← consumeOrIgnore .kwFunction with
  | some _ => do
    let n ← nonEmptyTypeRef r
    let (aliased, a) ← importAlias
    pure (.useFunction none n aliased a)
  | none => do
    match ← consumeOrIgnore .kwConst with
    | some _ => do
      let n ← nonEmptyTypeRef r
      let (aliased, a) ← importAlias
      pure (.useConst none n aliased a)
    | none => do
      let n ← nonEmptyTypeRef r
      let (aliased, a) ← importAlias
      pure (.useDeclaration none n aliased a)

/-- `namespaces::symbol_imports` (`src/parser/ast/namespaces.rs` 110–126). -/
def symbolImports (r : Rec) : P (List Node) := do
  let i ← symbolImport r
  loopP .other r.fuel (fun (is : List Node) => do
    match ← consumeOrIgnore .comma with
    | some _ => do
      if ← nextOneOf [.identifier, .kwConst, .kwFunction] then do
        let i ← symbolImport r
        pure (.inl (is ++ [i]))
      else pure (.inr is)
    | none => pure (.inr is)) [i]

/-- `namespaces::use_function_statement` (`src/parser/ast/namespaces.rs` 131–163). -/
def useFunctionStatement (r : Rec) (token : Token) : P Node := do
  let imports ← loopP .other r.fuel (fun (is : List Node) => do
    let n ← nonEmptyTypeRef r
    let (aliased, a) ← importAlias
    match ← consumeOrIgnore .comma with
    | some _ => pure (.inl (is ++ [.useFunction (some token) n aliased a]))
    | none => pure (.inr (is ++ [.useFunction (some token) n aliased a]))) []
  consumeOrFfAfter .semicolon [.semicolon]
  pure (.useFunctionStatement token imports)

/-- `namespaces::use_const_statement` (`src/parser/ast/namespaces.rs` 168–200). -/
def useConstStatement (r : Rec) (token : Token) : P Node := do
  let imports ← loopP .other r.fuel (fun (is : List Node) => do
    let n ← nonEmptyTypeRef r
    let (aliased, a) ← importAlias
    match ← consumeOrIgnore .comma with
    | some _ => pure (.inl (is ++ [.useConst (some token) n aliased a]))
    | none => pure (.inr (is ++ [.useConst (some token) n aliased a]))) []
  consumeOrFfAfter .semicolon [.semicolon]
  pure (.useConstStatement token imports)

/-- One import of `namespaces::use_statement` (`src/parser/ast/namespaces.rs` 209–236). -/
def useImport (r : Rec) (token : Token) : P Node := do
  let (init, last) ← nonEmptyNamespaceRef r
  let ty := Node.typeRef ⟨init ++ [last], false⟩
  if last.t = .namespaceSeparator then do
    let oc ← consume .openCurly
    let uses ← symbolImports r
    let cc ← consume .closeCurly
    pure (.groupedUse token ty oc uses cc)
  else do
    let (aliased, a) ← importAlias
    pure (.useDeclaration (some token) ty aliased a)

/-- `namespaces::use_statement` (`src/parser/ast/namespaces.rs` 205–248). -/
def useStatement (r : Rec) (token : Token) : P Node := do
  let imports ← loopP .other r.fuel (fun (is : List Node) => do
    let i ← useImport r token
    match ← consumeOrIgnore .comma with
    | some _ => pure (.inl (is ++ [i]))
    | none => do
      consumeOrFfAfter .semicolon [.semicolon]
      pure (.inr (is ++ [i]))) []
  pure (.useStatement token imports)

/-! ## Statements (mod.rs) -/

/-- `Parser::inline_html` (`src/parser/mod.rs` 264–300). -/
def inlineHtml (r : Rec) : P Node := do
  let start ← consume .scriptEnd
  if ← nextOneOf [.scriptStartEcho] then do
    let e ← shortTagEchoStatement r
    match ← consumeOneOfOrIgnore [.scriptStartRegular, .scriptStartShort] with
    | some _ => do
      setCtx .script
      pure e
    | none => do
      setCtx .out
      pure e
  else do
    let stop ← consumeOneOfOrIgnore [.scriptStartRegular, .scriptStartShort]
    setCtx .script
    pure (.inlineHtml start stop)

/-- `expressions::expression_statement` (`src/parser/ast/expressions.rs` 6–12). -/
def expressionStatement (r : Rec) : P Node := do
  let e ← r.expression 0
  pure (.expressionStatement e)

/-- The end of the default case of `statement` (`src/parser/mod.rs` 456–465). -/
def exprThenEnd (r : Rec) : P Node := do
  let e ← expressionStatement r
  if ← nextOneOf [.scriptEnd] then do
    let _ ← consume .scriptEnd
    setCtx .out
    pure e
  else do
    consumeOrFfAfter .semicolon [.semicolon]
    pure e

/-- The default case of `statement` (`src/parser/mod.rs` 438–466).  If the token is `static` the label is not tried
(line 448 is an `else if`); it could not be one, as a `static` token that is put back is not an identifier token. -/
def defaultStatement (r : Rec) : P Node := do
  match ← lookahead (fun k => k.t == .kwStatic) (fun k => k.t == .variable) with
  | some token => staticVariables r token
  | none => do
    match ← lookahead (fun k => k.t == .identifier) (fun k => k.t == .colon) with
    | some label => do
      let colon ← consume .colon
      pure (.labelStatement label colon)
    | none => exprThenEnd r

/-- The `break` and `continue` case of `statement` (`src/parser/mod.rs` 418–432); `self.next().unwrap()` after the peek is
`consume` of the peeked type. -/
def breakStatement (r : Rec) (t : TT) : P Node := do
  let token ← consume t
  if ← nextOneOf [.semicolon] then do
    consumeOrFfAfter .semicolon [.semicolon]
    pure (.tokenStatement token none)
  else do
    let e ← r.expression 0
    consumeOrFfAfter .semicolon [.semicolon]
    pure (.tokenStatement token (some e))

/-- The `use` case of `statement` (`src/parser/mod.rs` 377–389). -/
def useCase (r : Rec) : P Node := do
  let token ← consume .kwUse
  match ← consumeOrIgnore .kwFunction with
  | some _ => useFunctionStatement r token
  | none => do
    match ← consumeOrIgnore .kwConst with
    | some _ => useConstStatement r token
    | none => useStatement r token

/-- The dispatch of `statement` on the type of the peeked token (`src/parser/mod.rs` 362–468). -/
def dispatch (r : Rec) (attributes : List Node) (t : TT) : P Node :=
  match t with
  | .scriptEnd => inlineHtml r
  | .kwFunction => do
    let doc ← popDoc r.doc
    namedFunction r doc attributes
  | .kwNamespace => namespaceStatement r
  | .kwUse => useCase r
  | .kwConst => constStatement r
  | .kwGlobal => globalVariables r
  | .kwEcho => echoStatement r
  | .kwPrint => printStatement r
  | .kwGoto => gotoStatement
  | .kwReturn => returnStatement r
  | .kwThrow => throwStatement r
  | .kwClass => classStatement r none none attributes
  | .kwTrait => traitStatement r
  | .kwAbstract => abstractClassStatement r attributes
  | .kwFinal => finalClassStatement r attributes
  | .kwInterface => interface' r
  | .kwWhile => whileStatement r
  | .kwDo => doWhileStatement r
  | .kwFor => forStatement r
  | .kwForeach => foreachStatement r
  | .kwIf => ifStatement r
  | .openCurly => block r
  | .kwSwitch => switchStatement r
  | .semicolon => do
    let k ← consume .semicolon
    pure (.tokenStatement k none)
  | .kwBreak => breakStatement r .kwBreak
  | .kwContinue => breakStatement r .kwContinue
  | .kwTry => tryCatchStatement r
  | .kwDeclare => declareStatement
  | .kwUnset => unsetStatement r
  | .kwDie => dieStatement r
  | .kwDefine => defineStatement r
  | _ => defaultStatement r

/-- `Parser::statement` after the check of the context (`src/parser/mod.rs` 360–470). -/
def scriptStatement (r : Rec) : P Node := do
  let attributes ← attributesBlock r
  match ← peek with
  | some k => dispatch r attributes k.t
  | none => P.fail .eof

/-- After `<?= .. ?>` outside of a script: a regular opening tag is consumed (`src/parser/mod.rs` 341–347). -/
def reopen : P Unit := do
  match ← consumeOneOfOrIgnore [.scriptStartRegular, .scriptStartShort] with
  | some _ => setCtx .script
  | none => pure ()

/-- `Parser::statement` (`src/parser/mod.rs` 321–471). -/
def statementF (r : Rec) : P Node := do
  match ← getCtx with
  | .script => scriptStatement r
  | .out => do
    match ← takeOr (fun k => k.t == .scriptStartRegular || k.t == .scriptStartShort) with
    | none => scriptStatement r
    | some (k, taken) =>
      if taken then do
        setCtx .script
        match ← peek with
        | none => pure .emptyScript
        | some _ => scriptStatement r
      else if k.t = .scriptStartEcho then
        P.catchErr (shortTagEchoStatement r)
          (fun n => do
            reopen
            pure n)
          (fun e => do
            reopen
            P.fail e)
      else P.fail (.unexpectedToken k)

/-- The recursion of the parser, cut off after `n` nested calls of the entry points. -/
def knot (doc : Token → Option Node) : Nat → Rec
  | 0 => ⟨doc, 0, fun _ => P.diverge .recursion, P.diverge .recursion, P.diverge .recursion⟩
  | n + 1 =>
    let r := knot doc n
    ⟨doc, n + 1, expressionF r, statementF r, callF r⟩

/-- The loop of `Parser::ast` (`src/parser/mod.rs` 110–136). -/
def astLoop (r : Rec) : P (List Node) :=
  loopP .ast r.fuel (fun stmts => do
    match ← peek with
    | none => pure (.inr stmts)
    | some k =>
      if k.t = .eof then pure (.inr stmts)
      else do
        let stmts ← statementInto r stmts
        pure (.inl stmts)) []

/-- `Parser::ast` (`src/parser/mod.rs` 102–139) with fuel `n`; the errors are those of the final state. -/
def ast (U : Unicode) (n : Nat) (tokens : List Token) : Res (List Node) :=
  if tokens.isEmpty then .ok [] (new []) else astLoop (knot (DocBlock.docNode U) n) (new tokens)

end PhpLs.Parser
