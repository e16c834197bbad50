import Verif.FormatterSpec

/-!
# Formatting: the formatted text shows the tokens that are to be kept

By induction on the tree, one case for each kind of node.
-/

namespace PhpLs.Formatter

/-- One step for each part of the text. -/
local macro "shows" : tactic => `(tactic| (
  refine Pr.pad ?_
  try simp only [List.append_assoc, List.nil_append]
  repeat' first
    | with_reducible exact Pr.catNil
    | with_reducible exact Pr.catNone
    | with_reducible apply Pr.cons₂ (by assumption)
    | with_reducible apply Pr.wordCons
    | with_reducible apply Pr.wordOCons
    | with_reducible apply Pr.tokCons
    | with_reducible apply Pr.paddedCons
    | with_reducible apply Pr.unpaddedCons
    | with_reducible apply Pr.iteCons
    | with_reducible apply Pr.litCons
    | with_reducible refine Pr.cons (by first
        | solve_by_elim
        | exact Pr.inlineAttributes (by solve_by_elim) (fun h => by subst h; simp only [keptL])
        | exact Pr.around (by solve_by_elim)
        | exact Prs.joined (by solve_by_elim)
        | exact Prs.joinedNonEmpty (by solve_by_elim)
        | exact fun _ _ => .nil _
        | exact Pr.none
        | exact fun out h => nomatch h) ?_))

variable {U : Unicode} {indent : Nat}

mutual

theorem stmt_shows : ∀ (n : Node) (line col : Nat), Pr U (kept true n) (stmt U indent n line col)
  | .namedFunctionDefinitionStatement token byRef name function attributes, line, col => by
    have h0 := node_shows function
    have h1 := list_shows attributes
    simp only [stmt, kept]
    shows
  | .interface token name extending body docComment, line, col => by
    have h0 := optList_shows extending
    have h1 := node_shows body
    simp only [stmt, kept]
    shows
  | .classStatement token name isAbstract isFinal implementing extending body docComment attributes, line, col => by
    have h0 := optList_shows implementing
    have h1 := opt_shows extending
    have h2 := node_shows body
    have h3 := list_shows attributes
    simp only [stmt, kept]
    shows
  | .classConstantDefinitionStatement token consts _ visibility attributes, line, col => by
    have h0 := list_shows attributes
    have h1 := nodes_shows consts
    simp only [stmt, kept]
    cases constOffset token visibility with
    | none => exact Pr.none
    | some offset => simp only; shows
  | .property name value, line, col => by
    have h0 := opt_shows value
    simp only [stmt, kept]
    shows
  | .propertyDefinitionStatement properties docComment visibility dataType isStatic isAbstract attributes, line, col => by
    have h0 := list_shows properties
    have h1 := list_shows attributes
    simp only [stmt, kept]
    shows
  | .methodDefinitionStatement token isFinal byRef name visibility isAbstract function isStatic docComment attributes, line, col => by
    have h0 := node_shows function
    have h1 := list_shows attributes
    simp only [stmt, kept]
    shows
  | .useTraitStatement token traitsUsages, line, col => by
    have h0 := list_shows traitsUsages
    simp only [stmt, kept]
    shows
  | .useTraitAs left paa member asToken visibility asName, line, col => by
    have h0 := opt_shows left
    have h1 := node_shows member
    simp only [stmt, kept]
    shows
  | .useTraitInsteadOf left paa member insteadof insteadofList, line, col => by
    have h0 := opt_shows left
    have h1 := node_shows member
    have h2 := list_shows insteadofList
    simp only [stmt, kept]
    shows
  | .useTraitAlterationBlock alterationGroupTypeRefs oc alterations cc, line, col => by
    have h0 := nodes_shows alterationGroupTypeRefs
    have h1 := list_shows alterations
    simp only [stmt, kept]
    shows
  | .useTrait typeRef, line, col => by
    have h0 := node_shows typeRef
    simp only [stmt, kept]
    shows
  | .typeRef typeRef, line, col => Pr.fqdn _
  | .expressionStatement expression, line, col => by
    have h0 := node_shows expression
    simp only [stmt, kept]
    shows
  | .inlineHtml start stop, line, col => by
    simp only [stmt, kept]
    shows
  | .returnStatement token expression, line, col => by
    have h0 := opt_shows expression
    simp only [stmt, kept]
    shows
  | .useFunctionStatement token imports, line, col => by
    have h0 := nodes_shows imports
    simp only [stmt, kept]
    shows
  | .useConstStatement token imports, line, col => by
    have h0 := nodes_shows imports
    simp only [stmt, kept]
    shows
  | .useStatement token imports, line, col => by
    have h0 := nodes_shows imports
    simp only [stmt, kept]
    shows
  | .attr ats expressions cb, line, col => by
    have h0 := nodes_shows expressions
    simp only [stmt, kept]
    shows
  | .useDeclaration _ declaration _ _, line, col => by
    simp only [stmt, kept]
    exact node_shows declaration _ _
  | .ifStatement ifBranch elseifBranches elseBranch, line, col => by
    have h0 := node_shows ifBranch
    have h1 := nodes_shows elseifBranches
    have h2 := opt_shows elseBranch
    simp only [stmt, kept]
    shows
  | .staticVariablesStatement token assignments, line, col => by
    have h0 := nodes_shows assignments
    simp only [stmt, kept]
    shows
  | .globalVariablesStatement token vars, line, col => by
    have h0 := nodes_shows vars
    simp only [stmt, kept]
    shows
  | .switchCase token op expr cp body, line, col => by
    have h0 := node_shows expr
    have h1 := node_shows body
    simp only [stmt, kept]
    shows
  | .tryCatch token tryBlock catchBlocks finallyBlock, line, col => by
    have h0 := node_shows tryBlock
    have h1 := nodes_shows catchBlocks
    have h2 := opt_shows finallyBlock
    simp only [stmt, kept]
    shows
  | .namespaceStatement token typeRef, line, col => by
    have h0 := node_shows typeRef
    simp only [stmt, kept]
    shows
  | .namespaceBlock token typeRef block, line, col => by
    have h0 := opt_shows typeRef
    have h1 := node_shows block
    simp only [stmt, kept]
    shows
  | .whileStatement token op condition cp body, line, col => by
    have h0 := node_shows condition
    have h1 := node_shows body
    simp only [stmt, kept]
    shows
  | .doWhileStatement doToken op cp whileToken condition body, line, col => by
    have h0 := node_shows condition
    have h1 := node_shows body
    simp only [stmt, kept]
    shows
  | .forStatement token init condition step body, line, col => by
    have h0 := nodes_shows init
    have h1 := nodes_shows condition
    have h2 := nodes_shows step
    have h3 := node_shows body
    simp only [stmt, kept]
    shows
  | .forEachStatement token op collection asToken kv cp body, line, col => by
    have h0 := node_shows collection
    have h1 := node_shows kv
    have h2 := node_shows body
    simp only [stmt, kept]
    shows
  | .tokenStatement token _, line, col => by simp only [stmt, kept]; shows
  | .staticExpr token expr, line, col => by
    have h0 := nodes_shows expr
    simp only [stmt, kept]
    shows
  | .echoStatement token expressions, line, col => by
    have h0 := nodes_shows expressions
    simp only [stmt, kept]
    shows
  | .constStatement token constants, line, col => by
    have h0 := nodes_shows constants
    simp only [stmt, kept]
    shows
  | .printStatement token expressions, line, col => by
    have h0 := nodes_shows expressions
    simp only [stmt, kept]
    shows
  | .docComment _ _ _ _ _ _ _, _, _ => by simp only [stmt]; exact Pr.none
  | .docCommentParam _ _ _, _, _ => by simp only [stmt]; exact Pr.none
  | .docCommentProperty _ _ _, _, _ => by simp only [stmt]; exact Pr.none
  | .docCommentVar _ _ _, _, _ => by simp only [stmt]; exact Pr.none
  | .docCommentReturn _ _, _, _ => by simp only [stmt]; exact Pr.none
  | .unary _ _, _, _ => by simp only [stmt]; exact Pr.none
  | .postUnary _ _, _, _ => by simp only [stmt]; exact Pr.none
  | .const _ _ _, _, _ => by simp only [stmt]; exact Pr.none
  | .binary _ _ _, _, _ => by simp only [stmt]; exact Pr.none
  | .ternary _ _ _ _ _, _, _ => by simp only [stmt]; exact Pr.none
  | .missing _, _, _ => by simp only [stmt]; exact Pr.none
  | .literal _, _, _ => by simp only [stmt]; exact Pr.none
  | .variable _, _, _ => by simp only [stmt]; exact Pr.none
  | .lexicalVariable _ _, _, _ => by simp only [stmt]; exact Pr.none
  | .aliasedVariable _ _, _, _ => by simp only [stmt]; exact Pr.none
  | .dynamicVariable _ _ _ _, _, _ => by simp only [stmt]; exact Pr.none
  | .staticVariable _ _ _, _, _ => by simp only [stmt]; exact Pr.none
  | .identifier _, _, _ => by simp only [stmt]; exact Pr.none
  | .grouping _, _, _ => by simp only [stmt]; exact Pr.none
  | .array _ _ _, _, _ => by simp only [stmt]; exact Pr.none
  | .oldArray _ _ _ _, _, _ => by simp only [stmt]; exact Pr.none
  | .arrayElement _ _ _, _, _ => by simp only [stmt]; exact Pr.none
  | .list _ _ _ _, _, _ => by simp only [stmt]; exact Pr.none
  | .call _ _ _ _, _, _ => by simp only [stmt]; exact Pr.none
  | .isset _ _ _ _, _, _ => by simp only [stmt]; exact Pr.none
  | .emptyExpr _ _ _ _, _, _ => by simp only [stmt]; exact Pr.none
  | .exitExpr _ _ _ _, _, _ => by simp only [stmt]; exact Pr.none
  | .haltCompiler _ _ _ _, _, _ => by simp only [stmt]; exact Pr.none
  | .dieExpr _ _ _ _, _, _ => by simp only [stmt]; exact Pr.none
  | .newExpr _ _, _, _ => by simp only [stmt]; exact Pr.none
  | .cloneExpr _ _, _, _ => by simp only [stmt]; exact Pr.none
  | .member _ _ _ _ _, _, _ => by simp only [stmt]; exact Pr.none
  | .staticMember _ _ _ _ _, _, _ => by simp only [stmt]; exact Pr.none
  | .field _ _ _ _, _, _ => by simp only [stmt]; exact Pr.none
  | .matchExpr _ _ _ _ _ _ _, _, _ => by simp only [stmt]; exact Pr.none
  | .matchArm _ _ _, _, _ => by simp only [stmt]; exact Pr.none
  | .closure _ _ _ _ _ _ _ _ _ _, _, _ => by simp only [stmt]; exact Pr.none
  | .arrowFunction _ _ _ _ _ _ _ _ _ _, _, _ => by simp only [stmt]; exact Pr.none
  | .namedParameter _ _ _, _, _ => by simp only [stmt]; exact Pr.none
  | .functionArgument _ _ _ _ _ _ _ _, _, _ => by simp only [stmt]; exact Pr.none
  | .dataType _ _, _, _ => by simp only [stmt]; exact Pr.none
  | .returnType _ _, _, _ => by simp only [stmt]; exact Pr.none
  | .anonClass _ _ _ _ _ _, _, _ => by simp only [stmt]; exact Pr.none
  | .yieldExpr _ _, _, _ => by simp only [stmt]; exact Pr.none
  | .yieldFrom _ _, _, _ => by simp only [stmt]; exact Pr.none
  | .fileInclude _ _, _, _ => by simp only [stmt]; exact Pr.none
  | .useConst _ _ _ _, _, _ => by simp only [stmt]; exact Pr.none
  | .useFunction _ _ _ _, _, _ => by simp only [stmt]; exact Pr.none
  | .groupedUse _ _ _ _ _, _, _ => by simp only [stmt]; exact Pr.none
  | .gotoStatement _ _, _, _ => by simp only [stmt]; exact Pr.none
  | .labelStatement _ _, _, _ => by simp only [stmt]; exact Pr.none
  | .throwStatement _ _, _, _ => by simp only [stmt]; exact Pr.none
  | .declareStatement _ _ _ _ _ _, _, _ => by simp only [stmt]; exact Pr.none
  | .defineStatement _ _ _ _ _ _, _, _ => by simp only [stmt]; exact Pr.none
  | .unsetStatement _ _ _ _, _, _ => by simp only [stmt]; exact Pr.none
  | .dieStatement _ _ _ _, _, _ => by simp only [stmt]; exact Pr.none
  | .traitStatement _ _ _ _, _, _ => by simp only [stmt]; exact Pr.none
  | .classConstant _ _ _, _, _ => by simp only [stmt]; exact Pr.none
  | .functionDefinitionStatement _ _ _ _ _ _, _, _ => by simp only [stmt]; exact Pr.none
  | .block _ _ _, _, _ => by simp only [stmt]; exact Pr.none
  | .alternativeBlock _ _ _, _, _ => by simp only [stmt]; exact Pr.none
  | .ifBranch _ _ _ _ _, _, _ => by simp only [stmt]; exact Pr.none
  | .elseBranch _ _, _, _ => by simp only [stmt]; exact Pr.none
  | .switchBranch _ _, _, _ => by simp only [stmt]; exact Pr.none
  | .switchBody _ _ _, _, _ => by simp only [stmt]; exact Pr.none
  | .catchBlock _ _ _ _ _ _, _, _ => by simp only [stmt]; exact Pr.none
  | .finallyBlock _ _, _, _ => by simp only [stmt]; exact Pr.none
  | .emptyScript, _, _ => by simp only [stmt]; exact Pr.none

theorem list_shows : ∀ (l : List Node) (prev line col : Nat), Pr U (keptL true l) (list U indent l prev line col)
  | [], _, _, _ => by simp only [list, keptL]; exact fun _ _ => .nil _
  | n :: r, prev, line, col => by
    simp only [list, keptL]
    exact Pr.list (q := fun e _ => list U indent r e line col) (g := gap prev) (stmt_shows n line col)
      (fun e => list_shows r e line col)

theorem node_shows : ∀ (n : Node) (line col : Nat), Pr U (kept false n) (node U indent n line col)
  | .grouping expr, line, col => by
    have h0 := node_shows expr
    simp only [node, kept]
    shows
  | .fileInclude token resource, line, col => by
    have h0 := node_shows resource
    simp only [node, kept]
    shows
  | .useDeclaration token declaration aliased aliasName, line, col => by
    have h0 := node_shows declaration
    cases aliasName with
    | none => simp only [node, kept]; exact h0 _ _
    | some a => simp only [node, kept]; shows
  | .groupedUse token parent oc uses cc, line, col => by
    have h0 := node_shows parent
    have h1 := nodes_shows uses
    simp only [node, kept]
    shows
  | .classConstant visibility name value, line, col => by
    have h0 := node_shows value
    simp only [node, kept]
    shows
  | .block oc statements cc, line, col => by
    have h0 := list_shows statements
    simp only [node, kept]
    shows
  | .functionDefinitionStatement op arguments cp returnType body _, line, col => by
    have h0 := optList_shows arguments
    have h1 := opt_shows returnType
    cases body with
    | none => simp only [node, kept, keptO]; shows
    | some b =>
      have h2 := node_shows b
      simp only [node, kept, keptO]
      shows
  | .arrowFunction isStatic byRef token op arguments cp arrow returnType body attributes, line, col => by
    have h0 := optList_shows arguments
    have h1 := opt_shows returnType
    have h2 := node_shows body
    have h3 := list_shows attributes
    simp only [node, kept]
    shows
  | .closure isStatic byRef token op arguments cp uses returnType body attributes, line, col => by
    have h0 := optList_shows arguments
    have h1 := optList_shows uses
    have h2 := opt_shows returnType
    have h3 := node_shows body
    have h4 := list_shows attributes
    simp only [node, kept]
    shows
  | .returnType token dataType, line, col => by
    have h0 := node_shows dataType
    simp only [node, kept]
    shows
  | .binary left token right, line, col => by
    have h0 := node_shows left
    have h1 := node_shows right
    simp only [node, kept]
    shows
  | .newExpr token cls, line, col => by
    have h0 := node_shows cls
    simp only [node, kept]
    shows
  | .cloneExpr token object, line, col => by
    have h0 := node_shows object
    simp only [node, kept]
    shows
  | .yieldFrom token expr, line, col => by
    have h0 := node_shows expr
    simp only [node, kept]
    shows
  | .throwStatement token expression, line, col => by
    have h0 := node_shows expression
    simp only [node, kept]
    shows
  | .anonClass token arguments extending implementing body attributes, line, col => by
    have h0 := optList_shows arguments
    have h1 := opt_shows extending
    have h2 := optList_shows implementing
    have h3 := node_shows body
    have h4 := list_shows attributes
    simp only [node, kept]
    shows
  | .field array ob index cb, line, col => by
    have h0 := node_shows array
    have h1 := opt_shows index
    simp only [node, kept]
    shows
  | .member object arrow oc member cc, line, col => by
    have h0 := node_shows object
    have h1 := node_shows member
    cases oc with
    | none => simp only [node, kept]; shows
    | some o =>
      cases cc with
      | none => simp only [node]; exact Pr.none
      | some c => simp only [node, kept, Option.toList]; shows
  | .staticMember object pn oc member cc, line, col => by
    have h0 := node_shows object
    have h1 := node_shows member
    cases oc with
    | none => simp only [node, kept]; shows
    | some o =>
      cases cc with
      | none => simp only [node]; exact Pr.none
      | some c => simp only [node, kept, Option.toList]; shows
  | .call callee op parameters cp, line, col => by
    have h0 := node_shows callee
    have h1 := nodes_shows parameters
    simp only [node, kept]
    shows
  | .dataType nullable typeRefs, line, col => by
    have h0 := nodes_shows typeRefs
    simp only [node, kept]
    shows
  | .functionArgument argumentType name hasDefault defaultValue spread reference _ attributes, line, col => by
    have h0 := opt_shows argumentType
    have h1 := list_shows attributes
    have h2 : Pr U ((if defaultValue.isSome then wordO c!"=" hasDefault else []) ++ keptO defaultValue)
        (opt U indent c!" = " c!" " defaultValue line col) := assigned_shows defaultValue hasDefault c!" " line col
    simp only [node, kept]
    shows
  | .identifier token, line, col => by simp only [node, kept]; exact Pr.tok _
  | .literal token, line, col => by simp only [node, kept]; exact Pr.tok _
  | .variable token, line, col => by simp only [node, kept]; exact Pr.tok _
  | .typeRef typeRef, line, col => Pr.fqdn _
  | .missing _, line, col => by simp only [node, kept]; exact Pr.lit _
  | .array ob elements cb, line, col => by
    have h0 := nodes_shows elements
    simp only [node, kept]
    shows
  | .arrayElement key arrow value, line, col => by
    have h0 := opt_shows key
    have h1 := node_shows value
    simp only [node, kept]
    shows
  | .namedParameter name colon expr, line, col => by
    have h0 := node_shows expr
    simp only [node, kept]
    shows
  | .unary expr token, line, col => by
    have h0 := node_shows expr
    simp only [node, kept]
    shows
  | .docComment comment _ _ _ _ _ _, line, col => by simp only [node, kept]; exact Pr.tok _
  | .postUnary expr token, line, col => by
    have h0 := node_shows expr
    simp only [node, kept]
    shows
  | .const name token value, line, col => by
    have h0 := node_shows value
    simp only [node, kept]
    shows
  | .ternary check qm trueArm colon falseArm, line, col => by
    have h0 := node_shows check
    have h1 := opt_shows trueArm
    have h2 := node_shows falseArm
    simp only [node, kept]
    shows
  | .lexicalVariable reference var, line, col => by
    simp only [node, kept]
    shows
  | .aliasedVariable var expr, line, col => by
    have h0 := node_shows expr
    simp only [node, kept]
    shows
  | .dynamicVariable var oc expr cc, line, col => by
    have h0 := node_shows expr
    simp only [node, kept]
    shows
  | .staticVariable var assignment value, line, col => by
    have h2 : Pr U ((if value.isSome then wordO c!"=" assignment else []) ++ keptO value)
        (opt U indent c!" = " [] value line col) := assigned_shows value assignment [] line col
    simp only [node, kept]
    shows
  | .oldArray token op elements cp, line, col => by
    have h0 := nodes_shows elements
    simp only [node, kept]
    shows
  | .list token op elements cp, line, col => by
    have h0 := nodes_shows elements
    simp only [node, kept]
    shows
  | .isset isset op parameters cp, line, col => by
    have h0 := nodes_shows parameters
    simp only [node, kept]
    shows
  | .dieStatement token op expr cp, line, col => by
    have h0 := opt_shows expr
    simp only [node, kept]
    shows
  | .unsetStatement token op vars cp, line, col => by
    have h0 := nodes_shows vars
    simp only [node, kept]
    shows
  | .emptyExpr empty op parameters cp, line, col => by
    have h0 := nodes_shows parameters
    simp only [node, kept]
    shows
  | .exitExpr token op parameters cp, line, col => by
    cases parameters with
    | none => simp only [node, kept, keptOL, Option.isSome, Bool.false_eq_true, if_false]; shows
    | some l =>
      have h2 := nodes_shows l
      simp only [node, kept, keptOL, Option.isSome, if_true]
      shows
  | .haltCompiler token op parameters cp, line, col => by
    cases parameters with
    | none => simp only [node, kept, keptOL, Option.isSome, Bool.false_eq_true, if_false]; shows
    | some l =>
      have h2 := nodes_shows l
      simp only [node, kept, keptOL, Option.isSome, if_true]
      shows
  | .dieExpr token op parameters cp, line, col => by
    cases parameters with
    | none => simp only [node, kept, keptOL, Option.isSome, Bool.false_eq_true, if_false]; shows
    | some l =>
      have h2 := nodes_shows l
      simp only [node, kept, keptOL, Option.isSome, if_true]
      shows
  | .yieldExpr token expr, line, col => by
    have h0 := opt_shows expr
    simp only [node, kept]
    shows
  | .useConst token constant aliased aliasName, line, col => by
    have h0 := node_shows constant
    cases aliased with
    | none => simp only [node, kept, Option.isSome, Option.toList_none, Bool.false_eq_true, if_false]; shows
    | some a =>
      cases aliasName with
      | none => simp only [node, kept, Option.isSome, Option.toList_none, Option.toList_some, if_true, Option.bind]; shows
      | some b => simp only [node, kept, Option.isSome, Option.toList_none, Option.toList_some, if_true, Option.bind]; shows
  | .useFunction token function aliased aliasName, line, col => by
    have h0 := node_shows function
    cases aliased with
    | none => simp only [node, kept, Option.isSome, Option.toList_none, Bool.false_eq_true, if_false]; shows
    | some a =>
      cases aliasName with
      | none => simp only [node, kept, Option.isSome, Option.toList_none, Option.toList_some, if_true, Option.bind]; shows
      | some b => simp only [node, kept, Option.isSome, Option.toList_none, Option.toList_some, if_true, Option.bind]; shows
  | .gotoStatement token label, line, col => by
    simp only [node, kept]
    shows
  | .labelStatement label colon, line, col => by
    simp only [node, kept]
    shows
  | .declareStatement directive value assignment op cp token, line, col => by
    simp only [node, kept]
    shows
  | .defineStatement name value op cp _ isCaseinsensitive, line, col => by
    have h0 := node_shows name
    have h1 := node_shows value
    cases isCaseinsensitive with
    | none => simp only [node, kept]; shows
    | some i => simp only [node, kept]; shows
  | .alternativeBlock colon statements terminator, line, col => by
    have h0 := nodes_shows statements
    simp only [node, kept]
    shows
  | .ifBranch token op condition cp body, line, col => by
    have h0 := node_shows condition
    have h1 := node_shows body
    simp only [node, kept]
    shows
  | .elseBranch token body, line, col => by
    have h0 := node_shows body
    simp only [node, kept]
    shows
  | .switchBranch cases body, line, col => by
    have h0 := cases_shows cases
    have h1 := list_shows body
    simp only [node, kept]
    shows
  | .switchBody start branches stop, line, col => by
    have h0 := nodes_shows branches
    simp only [node, kept]
    shows
  | .catchBlock token op types var cp body, line, col => by
    have h0 := nodes_shows types
    have h1 := node_shows body
    simp only [node, kept]
    shows
  | .finallyBlock token body, line, col => by
    have h0 := node_shows body
    simp only [node, kept]
    shows
  | .docCommentParam _ _ _, _, _ => by simp only [node]; exact Pr.none
  | .docCommentProperty _ _ _, _, _ => by simp only [node]; exact Pr.none
  | .docCommentVar _ _ _, _, _ => by simp only [node]; exact Pr.none
  | .docCommentReturn _ _, _, _ => by simp only [node]; exact Pr.none
  | .matchExpr _ _ _ _ _ _ _, _, _ => by simp only [node]; exact Pr.none
  | .matchArm _ _ _, _, _ => by simp only [node]; exact Pr.none
  | .staticExpr _ _, _, _ => by simp only [node]; exact Pr.none
  | .expressionStatement _, _, _ => by simp only [node]; exact Pr.none
  | .echoStatement _ _, _, _ => by simp only [node]; exact Pr.none
  | .constStatement _ _, _, _ => by simp only [node]; exact Pr.none
  | .printStatement _ _, _, _ => by simp only [node]; exact Pr.none
  | .returnStatement _ _, _, _ => by simp only [node]; exact Pr.none
  | .namespaceStatement _ _, _, _ => by simp only [node]; exact Pr.none
  | .namespaceBlock _ _ _, _, _ => by simp only [node]; exact Pr.none
  | .useStatement _ _, _, _ => by simp only [node]; exact Pr.none
  | .useFunctionStatement _ _, _, _ => by simp only [node]; exact Pr.none
  | .useConstStatement _ _, _, _ => by simp only [node]; exact Pr.none
  | .useTraitStatement _ _, _, _ => by simp only [node]; exact Pr.none
  | .useTrait _, _, _ => by simp only [node]; exact Pr.none
  | .useTraitAlterationBlock _ _ _ _, _, _ => by simp only [node]; exact Pr.none
  | .useTraitInsteadOf _ _ _ _ _, _, _ => by simp only [node]; exact Pr.none
  | .useTraitAs _ _ _ _ _ _, _, _ => by simp only [node]; exact Pr.none
  | .classStatement _ _ _ _ _ _ _ _ _, _, _ => by simp only [node]; exact Pr.none
  | .traitStatement _ _ _ _, _, _ => by simp only [node]; exact Pr.none
  | .interface _ _ _ _ _, _, _ => by simp only [node]; exact Pr.none
  | .classConstantDefinitionStatement _ _ _ _ _, _, _ => by simp only [node]; exact Pr.none
  | .property _ _, _, _ => by simp only [node]; exact Pr.none
  | .propertyDefinitionStatement _ _ _ _ _ _ _, _, _ => by simp only [node]; exact Pr.none
  | .methodDefinitionStatement _ _ _ _ _ _ _ _ _ _, _, _ => by simp only [node]; exact Pr.none
  | .namedFunctionDefinitionStatement _ _ _ _ _, _, _ => by simp only [node]; exact Pr.none
  | .whileStatement _ _ _ _ _, _, _ => by simp only [node]; exact Pr.none
  | .doWhileStatement _ _ _ _ _ _, _, _ => by simp only [node]; exact Pr.none
  | .forStatement _ _ _ _ _, _, _ => by simp only [node]; exact Pr.none
  | .forEachStatement _ _ _ _ _ _ _, _, _ => by simp only [node]; exact Pr.none
  | .ifStatement _ _ _, _, _ => by simp only [node]; exact Pr.none
  | .switchCase _ _ _ _ _, _, _ => by simp only [node]; exact Pr.none
  | .tokenStatement _ _, _, _ => by simp only [node]; exact Pr.none
  | .tryCatch _ _ _ _, _, _ => by simp only [node]; exact Pr.none
  | .staticVariablesStatement _ _, _, _ => by simp only [node]; exact Pr.none
  | .globalVariablesStatement _ _, _, _ => by simp only [node]; exact Pr.none
  | .inlineHtml _ _, _, _ => by simp only [node]; exact Pr.none
  | .attr _ _ _, _, _ => by simp only [node]; exact Pr.none
  | .emptyScript, _, _ => by simp only [node]; exact Pr.none

theorem nodes_shows : ∀ (l : List Node) (line a b : Nat), Prs U (keptL false l) (nodes U indent l line a b)
  | [], _, _, _ => by simp only [keptL, nodes]; exact Prs.nil
  | n :: r, line, a, b => by
    simp only [keptL, nodes]
    exact Prs.cons (node_shows n line a) (nodes_shows r line b b)

theorem cases_shows : ∀ (l : List (Option Node)) (line col : Nat), Prs U (keptLO l) (cases U indent l line col)
  | [], _, _ => by simp only [keptLO, cases]; exact Prs.nil
  | o :: r, line, col => by
    simp only [keptLO, cases]
    exact Prs.cons (oneCase_shows o line col) (cases_shows r line col)

theorem oneCase_shows : ∀ (o : Option Node) (line col : Nat), Pr U (keptO o) (oneCase U indent o line col)
  | none, line, col => by simp only [keptO, oneCase]; shows
  | some n, line, col => by
    have h0 := node_shows n
    simp only [keptO, oneCase]
    shows

theorem opt_shows : ∀ (o : Option Node) (pre post : Text) (line col : Nat), Pr U (keptO o) (opt U indent pre post o line col)
  | none, _, _, _, _ => by simp only [keptO, opt]; exact fun _ _ => .nil _
  | some n, pre, post, line, col => by simp only [keptO, opt]; exact Pr.around (node_shows n line col)

theorem assigned_shows : ∀ (o : Option Node) (sign : Option Token) (post : Text) (line col : Nat),
    Pr U ((if o.isSome then wordO c!"=" sign else []) ++ keptO o) (opt U indent c!" = " post o line col)
  | none, _, _, _, _ => by simp only [keptO, opt]; exact fun _ _ => .nil _
  | some n, sign, post, line, col => by
    simp only [keptO, opt, Option.isSome, if_true]
    exact Pr.assigned (node_shows n line col)

theorem optList_shows : ∀ (o : Option (List Node)) (pre post : Text) (line col : Nat),
    Pr U (keptOL o) (optList U indent pre post o line col)
  | none, _, _, _, _ => by simp only [keptOL, optList]; exact fun _ _ => .nil _
  | some l, pre, post, line, col => by
    simp only [keptOL, optList]
    exact Pr.around (nodes_shows l line col col).joined

end

end PhpLs.Formatter
