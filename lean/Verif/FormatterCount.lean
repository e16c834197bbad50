import Verif.FormatterSpec

/-!
# Formatting: every token of a tree is kept or lost

By induction on the tree, one case for each kind of node.
-/

namespace PhpLs.Formatter

set_option linter.unusedSimpArgs false

theorem count_word (w : Text) (x k : Token) : [x].count k = (word w x).count k + (unword w x).count k := by
  unfold word unword
  split <;> simp

theorem count_wordO (w : Text) (o : Option Token) (k : Token) :
    o.toList.count k = (wordO w o).count k + (unwordO w o).count k := by
  cases o with
  | none => simp [wordO, unwordO]
  | some x => exact count_word w x k

mutual

theorem count_node : ∀ (stm : Bool) (n : Node) (k : Token), n.toks.count k = (kept stm n).count k + (lost stm n).count k
  | stm, .namedFunctionDefinitionStatement token byRef name function attributes, k => by
    have h0 := count_node false function k
    have h1 := count_list true attributes k
    change List.count k ([token] ++ byRef.toList ++ [name] ++ function.toks ++ Node.toksL attributes) = _
    simp only [kept, lost, List.count_append, List.count_nil] <;> omega
  | stm, .interface token name extending body docComment, k => by
    have h0 := count_optList extending k
    have h1 := count_node false body k
    change List.count k ([token] ++ [name] ++ Node.toksOL extending ++ body.toks ++ Node.toksO docComment) = _
    simp only [kept, lost, List.count_append, List.count_nil] <;> omega
  | stm, .classStatement token name isAbstract isFinal implementing extending body docComment attributes, k => by
    have h0 := count_optList implementing k
    have h1 := count_opt extending k
    have h2 := count_node false body k
    have h3 := count_list true attributes k
    change List.count k (
      [token] ++ [name] ++ isAbstract.toList ++ isFinal.toList ++ Node.toksOL implementing ++ Node.toksO extending ++
      body.toks ++ Node.toksO docComment ++ Node.toksL attributes) = _
    simp only [kept, lost, List.count_append, List.count_nil] <;> omega
  | stm, .classConstantDefinitionStatement token consts docComment visibility attributes, k => by
    have h0 := count_list false consts k
    have h1 := count_list true attributes k
    change List.count k (
      [token] ++ Node.toksL consts ++ Node.toksO docComment ++ visibility.toList ++ Node.toksL attributes) = _
    simp only [kept, lost, List.count_append, List.count_nil] <;> omega
  | stm, .property name value, k => by
    have h0 := count_opt value k
    change List.count k ([name] ++ Node.toksO value) = _
    simp only [kept, lost, List.count_append, List.count_nil] <;> omega
  | stm, .propertyDefinitionStatement properties docComment visibility dataType isStatic isAbstract attributes, k => by
    have h0 := count_list true properties k
    have h1 := count_list true attributes k
    change List.count k (
      Node.toksL properties ++ Node.toksO docComment ++ visibility.toList ++ Node.toksO dataType ++ isStatic.toList ++
      isAbstract.toList ++ Node.toksL attributes) = _
    simp only [kept, lost, List.count_append, List.count_nil] <;> omega
  | stm, .methodDefinitionStatement token isFinal byRef name visibility isAbstract function isStatic docComment attributes, k => by
    have h0 := count_node false function k
    have h1 := count_list true attributes k
    change List.count k (
      [token] ++ isFinal.toList ++ byRef.toList ++ [name] ++ visibility.toList ++ isAbstract.toList ++ function.toks ++
      isStatic.toList ++ Node.toksO docComment ++ Node.toksL attributes) = _
    simp only [kept, lost, List.count_append, List.count_nil] <;> omega
  | stm, .useTraitStatement token traitsUsages, k => by
    have h0 := count_list true traitsUsages k
    change List.count k ([token] ++ Node.toksL traitsUsages) = _
    simp only [kept, lost, List.count_append, List.count_nil] <;> omega
  | stm, .useTraitAs left paa member asToken visibility asName, k => by
    have h0 := count_opt left k
    have h1 := count_node false member k
    change List.count k (
      Node.toksO left ++ paa.toList ++ member.toks ++ [asToken] ++ visibility.toList ++ asName.toList) = _
    simp only [kept, lost, List.count_append, List.count_nil] <;> omega
  | stm, .useTraitInsteadOf left paa member insteadof insteadofList, k => by
    have h0 := count_opt left k
    have h1 := count_node false member k
    have h2 := count_list true insteadofList k
    change List.count k (Node.toksO left ++ paa.toList ++ member.toks ++ [insteadof] ++ Node.toksL insteadofList) = _
    simp only [kept, lost, List.count_append, List.count_nil] <;> omega
  | stm, .useTraitAlterationBlock alterationGroupTypeRefs oc alterations cc, k => by
    have h0 := count_list false alterationGroupTypeRefs k
    have h1 := count_list true alterations k
    change List.count k (Node.toksL alterationGroupTypeRefs ++ [oc] ++ Node.toksL alterations ++ [cc]) = _
    simp only [kept, lost, List.count_append, List.count_nil] <;> omega
  | stm, .useTrait typeRef, k => by
    have h0 := count_node false typeRef k
    change List.count k (typeRef.toks) = _
    simp only [kept, lost, List.count_append, List.count_nil] <;> omega
  | stm, .typeRef typeRef, k => by
    change List.count k (typeRef.kind) = _
    simp only [kept, lost, List.count_append, List.count_nil] <;> omega
  | stm, .expressionStatement expression, k => by
    have h0 := count_node false expression k
    change List.count k (expression.toks) = _
    simp only [kept, lost, List.count_append, List.count_nil] <;> omega
  | stm, .inlineHtml start stop, k => by
    change List.count k ([start] ++ stop.toList) = _
    simp only [kept, lost, List.count_append, List.count_nil] <;> omega
  | stm, .returnStatement token expression, k => by
    have h0 := count_opt expression k
    change List.count k ([token] ++ Node.toksO expression) = _
    simp only [kept, lost, List.count_append, List.count_nil] <;> omega
  | stm, .useFunctionStatement token imports, k => by
    have h0 := count_word c!"use" token k
    have h1 := count_list false imports k
    change List.count k ([token] ++ Node.toksL imports) = _
    simp only [kept, lost, List.count_append, List.count_nil] <;> omega
  | stm, .useConstStatement token imports, k => by
    have h0 := count_word c!"use" token k
    have h1 := count_list false imports k
    change List.count k ([token] ++ Node.toksL imports) = _
    simp only [kept, lost, List.count_append, List.count_nil] <;> omega
  | stm, .useStatement token imports, k => by
    have h0 := count_list false imports k
    change List.count k ([token] ++ Node.toksL imports) = _
    simp only [kept, lost, List.count_append, List.count_nil] <;> omega
  | stm, .attr ats expressions cb, k => by
    have h0 := count_list false expressions k
    change List.count k ([ats] ++ Node.toksL expressions ++ [cb]) = _
    simp only [kept, lost, List.count_append, List.count_nil] <;> omega
  | stm, .ifStatement ifBranch elseifBranches elseBranch, k => by
    have h0 := count_node false ifBranch k
    have h1 := count_list false elseifBranches k
    have h2 := count_opt elseBranch k
    change List.count k (ifBranch.toks ++ Node.toksL elseifBranches ++ Node.toksO elseBranch) = _
    simp only [kept, lost, List.count_append, List.count_nil] <;> omega
  | stm, .staticVariablesStatement token assignments, k => by
    have h0 := count_list false assignments k
    change List.count k ([token] ++ Node.toksL assignments) = _
    simp only [kept, lost, List.count_append, List.count_nil] <;> omega
  | stm, .globalVariablesStatement token vars, k => by
    have h0 := count_list false vars k
    change List.count k ([token] ++ Node.toksL vars) = _
    simp only [kept, lost, List.count_append, List.count_nil] <;> omega
  | stm, .switchCase token op expr cp body, k => by
    have h0 := count_word c!"switch" token k
    have h1 := count_word c!"(" op k
    have h2 := count_node false expr k
    have h3 := count_word c!")" cp k
    have h4 := count_node false body k
    change List.count k ([token] ++ [op] ++ expr.toks ++ [cp] ++ body.toks) = _
    simp only [kept, lost, List.count_append, List.count_nil] <;> omega
  | stm, .tryCatch token tryBlock catchBlocks finallyBlock, k => by
    have h0 := count_word c!"try" token k
    have h1 := count_node false tryBlock k
    have h2 := count_list false catchBlocks k
    have h3 := count_opt finallyBlock k
    change List.count k ([token] ++ tryBlock.toks ++ Node.toksL catchBlocks ++ Node.toksO finallyBlock) = _
    simp only [kept, lost, List.count_append, List.count_nil] <;> omega
  | stm, .namespaceStatement token typeRef, k => by
    have h0 := count_node false typeRef k
    change List.count k ([token] ++ typeRef.toks) = _
    simp only [kept, lost, List.count_append, List.count_nil] <;> omega
  | stm, .namespaceBlock token typeRef block, k => by
    have h0 := count_opt typeRef k
    have h1 := count_node false block k
    change List.count k ([token] ++ Node.toksO typeRef ++ block.toks) = _
    simp only [kept, lost, List.count_append, List.count_nil] <;> omega
  | stm, .whileStatement token op condition cp body, k => by
    have h0 := count_word c!"while" token k
    have h1 := count_word c!"(" op k
    have h2 := count_node false condition k
    have h3 := count_word c!")" cp k
    have h4 := count_node false body k
    change List.count k ([token] ++ [op] ++ condition.toks ++ [cp] ++ body.toks) = _
    simp only [kept, lost, List.count_append, List.count_nil] <;> omega
  | stm, .doWhileStatement doToken op cp whileToken condition body, k => by
    have h0 := count_word c!"do" doToken k
    have h1 := count_word c!"(" op k
    have h2 := count_word c!")" cp k
    have h3 := count_word c!"while" whileToken k
    have h4 := count_node false condition k
    have h5 := count_node false body k
    change List.count k ([doToken] ++ [op] ++ [cp] ++ [whileToken] ++ condition.toks ++ body.toks) = _
    simp only [kept, lost, List.count_append, List.count_nil] <;> omega
  | stm, .forStatement token init condition step body, k => by
    have h0 := count_word c!"for" token k
    have h1 := count_list false init k
    have h2 := count_list false condition k
    have h3 := count_list false step k
    have h4 := count_node false body k
    change List.count k ([token] ++ Node.toksL init ++ Node.toksL condition ++ Node.toksL step ++ body.toks) = _
    simp only [kept, lost, List.count_append, List.count_nil] <;> omega
  | stm, .forEachStatement token op collection asToken kv cp body, k => by
    have h0 := count_word c!"foreach" token k
    have h1 := count_word c!"(" op k
    have h2 := count_node false collection k
    have h3 := count_word c!"as" asToken k
    have h4 := count_node false kv k
    have h5 := count_word c!")" cp k
    have h6 := count_node false body k
    change List.count k ([token] ++ [op] ++ collection.toks ++ [asToken] ++ kv.toks ++ [cp] ++ body.toks) = _
    simp only [kept, lost, List.count_append, List.count_nil] <;> omega
  | stm, .tokenStatement token expr, k => by
    change List.count k ([token] ++ Node.toksO expr) = _
    simp only [kept, lost, List.count_append, List.count_nil] <;> omega
  | stm, .staticExpr token expr, k => by
    have h0 := count_list false expr k
    change List.count k ([token] ++ Node.toksL expr) = _
    simp only [kept, lost, List.count_append, List.count_nil] <;> omega
  | stm, .echoStatement token expressions, k => by
    have h0 := count_list false expressions k
    change List.count k ([token] ++ Node.toksL expressions) = _
    simp only [kept, lost, List.count_append, List.count_nil] <;> omega
  | stm, .constStatement token constants, k => by
    have h0 := count_list false constants k
    change List.count k ([token] ++ Node.toksL constants) = _
    simp only [kept, lost, List.count_append, List.count_nil] <;> omega
  | stm, .printStatement token expressions, k => by
    have h0 := count_list false expressions k
    change List.count k ([token] ++ Node.toksL expressions) = _
    simp only [kept, lost, List.count_append, List.count_nil] <;> omega
  | stm, .grouping expr, k => by
    have h0 := count_node false expr k
    change List.count k (expr.toks) = _
    simp only [kept, lost, List.count_append, List.count_nil] <;> omega
  | stm, .fileInclude token resource, k => by
    have h0 := count_node false resource k
    change List.count k ([token] ++ resource.toks) = _
    simp only [kept, lost, List.count_append, List.count_nil] <;> omega
  | stm, .groupedUse token parent oc uses cc, k => by
    have h0 := count_node false parent k
    have h1 := count_list false uses k
    change List.count k ([token] ++ parent.toks ++ [oc] ++ Node.toksL uses ++ [cc]) = _
    simp only [kept, lost, List.count_append, List.count_nil] <;> omega
  | stm, .classConstant visibility name value, k => by
    have h0 := count_node false value k
    change List.count k (visibility.toList ++ [name] ++ value.toks) = _
    simp only [kept, lost, List.count_append, List.count_nil] <;> omega
  | stm, .block oc statements cc, k => by
    have h0 := count_word c!"{" oc k
    have h1 := count_list true statements k
    have h2 := count_word c!"}" cc k
    change List.count k ([oc] ++ Node.toksL statements ++ [cc]) = _
    simp only [kept, lost, List.count_append, List.count_nil] <;> omega
  | stm, .functionDefinitionStatement op arguments cp returnType body docComment, k => by
    have h0 := count_optList arguments k
    have h1 := count_opt returnType k
    have h2 := count_opt body k
    change List.count k (
      [op] ++ Node.toksOL arguments ++ [cp] ++ Node.toksO returnType ++ Node.toksO body ++ Node.toksO docComment) = _
    simp only [kept, lost, List.count_append, List.count_nil] <;> omega
  | stm, .arrowFunction isStatic byRef token op arguments cp arrow returnType body attributes, k => by
    have h0 := count_optList arguments k
    have h1 := count_opt returnType k
    have h2 := count_node false body k
    have h3 := count_list true attributes k
    change List.count k (
      isStatic.toList ++ byRef.toList ++ [token] ++ [op] ++ Node.toksOL arguments ++ [cp] ++ [arrow] ++
      Node.toksO returnType ++ body.toks ++ Node.toksL attributes) = _
    simp only [kept, lost, List.count_append, List.count_nil] <;> omega
  | stm, .closure isStatic byRef token op arguments cp uses returnType body attributes, k => by
    have h0 := count_optList arguments k
    have h1 := count_optList uses k
    have h2 := count_opt returnType k
    have h3 := count_node false body k
    have h4 := count_list true attributes k
    change List.count k (
      isStatic.toList ++ byRef.toList ++ [token] ++ [op] ++ Node.toksOL arguments ++ [cp] ++ Node.toksOL uses ++
      Node.toksO returnType ++ body.toks ++ Node.toksL attributes) = _
    simp only [kept, lost, List.count_append, List.count_nil] <;> omega
  | stm, .returnType token dataType, k => by
    have h0 := count_node false dataType k
    change List.count k ([token] ++ dataType.toks) = _
    simp only [kept, lost, List.count_append, List.count_nil] <;> omega
  | stm, .binary left token right, k => by
    have h0 := count_node false left k
    have h1 := count_node false right k
    change List.count k (left.toks ++ [token] ++ right.toks) = _
    simp only [kept, lost, List.count_append, List.count_nil] <;> omega
  | stm, .newExpr token cls, k => by
    have h0 := count_node false cls k
    change List.count k ([token] ++ cls.toks) = _
    simp only [kept, lost, List.count_append, List.count_nil] <;> omega
  | stm, .cloneExpr token object, k => by
    have h0 := count_node false object k
    change List.count k ([token] ++ object.toks) = _
    simp only [kept, lost, List.count_append, List.count_nil] <;> omega
  | stm, .yieldFrom token expr, k => by
    have h0 := count_node false expr k
    change List.count k ([token] ++ expr.toks) = _
    simp only [kept, lost, List.count_append, List.count_nil] <;> omega
  | stm, .throwStatement token expression, k => by
    have h0 := count_node false expression k
    change List.count k ([token] ++ expression.toks) = _
    simp only [kept, lost, List.count_append, List.count_nil] <;> omega
  | stm, .anonClass token arguments extending implementing body attributes, k => by
    have h0 := count_optList arguments k
    have h1 := count_opt extending k
    have h2 := count_optList implementing k
    have h3 := count_node false body k
    have h4 := count_list true attributes k
    change List.count k (
      [token] ++ Node.toksOL arguments ++ Node.toksO extending ++ Node.toksOL implementing ++ body.toks ++
      Node.toksL attributes) = _
    simp only [kept, lost, List.count_append, List.count_nil] <;> omega
  | stm, .field array ob index cb, k => by
    have h0 := count_node false array k
    have h1 := count_opt index k
    change List.count k (array.toks ++ [ob] ++ Node.toksO index ++ [cb]) = _
    simp only [kept, lost, List.count_append, List.count_nil] <;> omega
  | stm, .call callee op parameters cp, k => by
    have h0 := count_node false callee k
    have h1 := count_word c!"(" op k
    have h2 := count_list false parameters k
    have h3 := count_word c!")" cp k
    change List.count k (callee.toks ++ [op] ++ Node.toksL parameters ++ [cp]) = _
    simp only [kept, lost, List.count_append, List.count_nil] <;> omega
  | stm, .dataType nullable typeRefs, k => by
    have h0 := count_list false typeRefs k
    change List.count k (nullable.toList ++ Node.toksL typeRefs) = _
    simp only [kept, lost, List.count_append, List.count_nil] <;> omega
  | stm, .identifier token, k => by
    change List.count k ([token]) = _
    simp only [kept, lost, List.count_append, List.count_nil] <;> omega
  | stm, .literal token, k => by
    change List.count k ([token]) = _
    simp only [kept, lost, List.count_append, List.count_nil] <;> omega
  | stm, .variable token, k => by
    change List.count k ([token]) = _
    simp only [kept, lost, List.count_append, List.count_nil] <;> omega
  | stm, .missing token, k => by
    change List.count k ([token]) = _
    simp only [kept, lost, List.count_append, List.count_nil] <;> omega
  | stm, .array ob elements cb, k => by
    have h0 := count_list false elements k
    change List.count k ([ob] ++ Node.toksL elements ++ [cb]) = _
    simp only [kept, lost, List.count_append, List.count_nil] <;> omega
  | stm, .arrayElement key arrow value, k => by
    have h0 := count_opt key k
    have h1 := count_node false value k
    change List.count k (Node.toksO key ++ arrow.toList ++ value.toks) = _
    simp only [kept, lost, List.count_append, List.count_nil] <;> omega
  | stm, .namedParameter name colon expr, k => by
    have h0 := count_node false expr k
    change List.count k ([name] ++ [colon] ++ expr.toks) = _
    simp only [kept, lost, List.count_append, List.count_nil] <;> omega
  | stm, .unary expr token, k => by
    have h0 := count_node false expr k
    change List.count k (expr.toks ++ [token]) = _
    simp only [kept, lost, List.count_append, List.count_nil] <;> omega
  | stm, .docComment comment returnType description isDeprecated params varDocs properties, k => by
    change List.count k (
      [comment] ++ Node.toksL returnType ++ Node.toksL params ++ Node.toksL varDocs ++ Node.toksL properties) = _
    simp only [kept, lost, List.count_append, List.count_nil] <;> omega
  | stm, .postUnary expr token, k => by
    have h0 := count_node false expr k
    change List.count k (expr.toks ++ [token]) = _
    simp only [kept, lost, List.count_append, List.count_nil] <;> omega
  | stm, .const name token value, k => by
    have h0 := count_node false value k
    change List.count k ([name] ++ [token] ++ value.toks) = _
    simp only [kept, lost, List.count_append, List.count_nil] <;> omega
  | stm, .ternary check qm trueArm colon falseArm, k => by
    have h0 := count_node false check k
    have h1 := count_opt trueArm k
    have h2 := count_node false falseArm k
    change List.count k (check.toks ++ [qm] ++ Node.toksO trueArm ++ [colon] ++ falseArm.toks) = _
    simp only [kept, lost, List.count_append, List.count_nil] <;> omega
  | stm, .lexicalVariable reference var, k => by
    change List.count k (reference.toList ++ [var]) = _
    simp only [kept, lost, List.count_append, List.count_nil] <;> omega
  | stm, .aliasedVariable var expr, k => by
    have h0 := count_node false expr k
    change List.count k ([var] ++ expr.toks) = _
    simp only [kept, lost, List.count_append, List.count_nil] <;> omega
  | stm, .dynamicVariable var oc expr cc, k => by
    have h0 := count_node false expr k
    change List.count k ([var] ++ [oc] ++ expr.toks ++ [cc]) = _
    simp only [kept, lost, List.count_append, List.count_nil] <;> omega
  | stm, .oldArray token op elements cp, k => by
    have h0 := count_list false elements k
    change List.count k ([token] ++ [op] ++ Node.toksL elements ++ [cp]) = _
    simp only [kept, lost, List.count_append, List.count_nil] <;> omega
  | stm, .list token op elements cp, k => by
    have h0 := count_list false elements k
    change List.count k ([token] ++ [op] ++ Node.toksL elements ++ [cp]) = _
    simp only [kept, lost, List.count_append, List.count_nil] <;> omega
  | stm, .isset isset op parameters cp, k => by
    have h0 := count_list false parameters k
    change List.count k ([isset] ++ [op] ++ Node.toksL parameters ++ [cp]) = _
    simp only [kept, lost, List.count_append, List.count_nil] <;> omega
  | stm, .dieStatement token op expr cp, k => by
    have h0 := count_opt expr k
    change List.count k ([token] ++ [op] ++ Node.toksO expr ++ [cp]) = _
    simp only [kept, lost, List.count_append, List.count_nil] <;> omega
  | stm, .unsetStatement token op vars cp, k => by
    have h0 := count_list false vars k
    change List.count k ([token] ++ [op] ++ Node.toksL vars ++ [cp]) = _
    simp only [kept, lost, List.count_append, List.count_nil] <;> omega
  | stm, .emptyExpr empty op parameters cp, k => by
    have h0 := count_list false parameters k
    change List.count k ([empty] ++ [op] ++ Node.toksL parameters ++ [cp]) = _
    simp only [kept, lost, List.count_append, List.count_nil] <;> omega
  | stm, .yieldExpr token expr, k => by
    have h0 := count_opt expr k
    change List.count k ([token] ++ Node.toksO expr) = _
    simp only [kept, lost, List.count_append, List.count_nil] <;> omega
  | stm, .gotoStatement token label, k => by
    change List.count k ([token] ++ [label]) = _
    simp only [kept, lost, List.count_append, List.count_nil] <;> omega
  | stm, .labelStatement label colon, k => by
    change List.count k ([label] ++ [colon]) = _
    simp only [kept, lost, List.count_append, List.count_nil] <;> omega
  | stm, .declareStatement directive value assignment op cp token, k => by
    change List.count k ([directive] ++ [value] ++ [assignment] ++ [op] ++ [cp] ++ [token]) = _
    simp only [kept, lost, List.count_append, List.count_nil] <;> omega
  | stm, .alternativeBlock colon statements terminator, k => by
    have h0 := count_word c!":" colon k
    have h1 := count_list false statements k
    change List.count k ([colon] ++ Node.toksL statements ++ [terminator]) = _
    simp only [kept, lost, List.count_append, List.count_nil] <;> omega
  | stm, .ifBranch token op condition cp body, k => by
    have h0 := count_word c!"(" op k
    have h1 := count_node false condition k
    have h2 := count_word c!")" cp k
    have h3 := count_node false body k
    change List.count k ([token] ++ [op] ++ condition.toks ++ [cp] ++ body.toks) = _
    simp only [kept, lost, List.count_append, List.count_nil] <;> omega
  | stm, .elseBranch token body, k => by
    have h0 := count_word c!"else" token k
    have h1 := count_node false body k
    change List.count k ([token] ++ body.toks) = _
    simp only [kept, lost, List.count_append, List.count_nil] <;> omega
  | stm, .switchBranch cases body, k => by
    have h0 := count_cases cases k
    have h1 := count_list true body k
    change List.count k (Node.toksLO cases ++ Node.toksL body) = _
    simp only [kept, lost, List.count_append, List.count_nil] <;> omega
  | stm, .switchBody start branches stop, k => by
    have h0 := count_list false branches k
    change List.count k ([start] ++ Node.toksL branches ++ [stop]) = _
    simp only [kept, lost, List.count_append, List.count_nil] <;> omega
  | stm, .catchBlock token op types var cp body, k => by
    have h0 := count_word c!"catch" token k
    have h1 := count_word c!"(" op k
    have h2 := count_list false types k
    have h3 := count_word c!")" cp k
    have h4 := count_node false body k
    change List.count k ([token] ++ [op] ++ Node.toksL types ++ [var] ++ [cp] ++ body.toks) = _
    simp only [kept, lost, List.count_append, List.count_nil] <;> omega
  | stm, .finallyBlock token body, k => by
    have h0 := count_word c!"finally" token k
    have h1 := count_node false body k
    change List.count k ([token] ++ body.toks) = _
    simp only [kept, lost, List.count_append, List.count_nil] <;> omega
  | stm, .useDeclaration token declaration aliased aliasName, k => by
    have h0 := count_node false declaration k
    have h1 := count_wordO c!"as" aliased k
    change List.count k (token.toList ++ declaration.toks ++ aliased.toList ++ aliasName.toList) = _
    cases stm <;> cases aliasName <;>
      simp only [kept, lost, List.count_append, List.count_nil, Option.toList_none, Option.toList_some] <;> omega
  | stm, .member object arrow oc member cc, k => by
    have h0 := count_node false object k
    have h1 := count_node false member k
    change List.count k (object.toks ++ [arrow] ++ oc.toList ++ member.toks ++ cc.toList) = _
    cases oc <;>
      simp only [kept, lost, List.count_append, List.count_nil, Option.toList_none, Option.toList_some] <;> omega
  | stm, .staticMember object pn oc member cc, k => by
    have h0 := count_node false object k
    have h1 := count_node false member k
    change List.count k (object.toks ++ [pn] ++ oc.toList ++ member.toks ++ cc.toList) = _
    cases oc <;>
      simp only [kept, lost, List.count_append, List.count_nil, Option.toList_none, Option.toList_some] <;> omega
  | stm, .functionArgument argumentType name hasDefault defaultValue spread reference docComment attributes, k => by
    have h0 := count_opt argumentType k
    have h1 := count_wordO c!"=" hasDefault k
    have h2 := count_opt defaultValue k
    have h3 := count_list true attributes k
    change List.count k (
      Node.toksO argumentType ++ [name] ++ hasDefault.toList ++ Node.toksO defaultValue ++ spread.toList ++
      reference.toList ++ Node.toksO docComment ++ Node.toksL attributes) = _
    cases hd : defaultValue.isSome <;>
      simp only [kept, lost, hd, Bool.false_eq_true, if_true, if_false, List.count_append, List.count_nil] <;> omega
  | stm, .staticVariable var assignment value, k => by
    have h1 := count_wordO c!"=" assignment k
    have h2 := count_opt value k
    change List.count k ([var] ++ assignment.toList ++ Node.toksO value) = _
    cases hd : value.isSome <;>
      simp only [kept, lost, hd, Bool.false_eq_true, if_true, if_false, List.count_append, List.count_nil] <;> omega
  | stm, .exitExpr exit op parameters cp, k => by
    have h0 := count_wordO c!"(" op k
    have h1 := count_wordO c!")" cp k
    have h2 := count_optList parameters k
    change List.count k ([exit] ++ op.toList ++ Node.toksOL parameters ++ cp.toList) = _
    cases hd : parameters.isSome <;>
      simp only [kept, lost, hd, Bool.false_eq_true, if_true, if_false, List.count_append, List.count_nil] <;> omega
  | stm, .haltCompiler hc op parameters cp, k => by
    have h0 := count_wordO c!"(" op k
    have h1 := count_wordO c!")" cp k
    have h2 := count_optList parameters k
    change List.count k ([hc] ++ op.toList ++ Node.toksOL parameters ++ cp.toList) = _
    cases hd : parameters.isSome <;>
      simp only [kept, lost, hd, Bool.false_eq_true, if_true, if_false, List.count_append, List.count_nil] <;> omega
  | stm, .dieExpr die op parameters cp, k => by
    have h0 := count_wordO c!"(" op k
    have h1 := count_wordO c!")" cp k
    have h2 := count_optList parameters k
    change List.count k ([die] ++ op.toList ++ Node.toksOL parameters ++ cp.toList) = _
    cases hd : parameters.isSome <;>
      simp only [kept, lost, hd, Bool.false_eq_true, if_true, if_false, List.count_append, List.count_nil] <;> omega
  | stm, .useConst token constant aliased aliasName, k => by
    have h0 := count_node false constant k
    change List.count k (token.toList ++ constant.toks ++ aliased.toList ++ aliasName.toList) = _
    cases hd : aliased.isSome <;>
      simp only [kept, lost, hd, Bool.false_eq_true, if_true, if_false, List.count_append, List.count_nil] <;> omega
  | stm, .useFunction token function aliased aliasName, k => by
    have h0 := count_node false function k
    change List.count k (token.toList ++ function.toks ++ aliased.toList ++ aliasName.toList) = _
    cases hd : aliased.isSome <;>
      simp only [kept, lost, hd, Bool.false_eq_true, if_true, if_false, List.count_append, List.count_nil] <;> omega
  | stm, .defineStatement name value op cp token isCaseinsensitive, k => by
    have h0 := count_node false name k
    have h1 := count_node false value k
    change List.count k (name.toks ++ value.toks ++ [op] ++ [cp] ++ [token] ++ isCaseinsensitive.toList) = _
    cases isCaseinsensitive <;>
      simp only [kept, lost, List.count_append, List.count_nil, Option.toList_none, Option.toList_some] <;> omega
  | stm, .docCommentParam _ _ _, k => by simp only [kept, lost, List.count_nil, Nat.zero_add]; rfl
  | stm, .docCommentProperty _ _ _, k => by simp only [kept, lost, List.count_nil, Nat.zero_add]; rfl
  | stm, .docCommentVar _ _ _, k => by simp only [kept, lost, List.count_nil, Nat.zero_add]; rfl
  | stm, .docCommentReturn _ _, k => by simp only [kept, lost, List.count_nil, Nat.zero_add]; rfl
  | stm, .matchExpr _ _ _ _ _ _ _, k => by simp only [kept, lost, List.count_nil, Nat.zero_add]; rfl
  | stm, .matchArm _ _ _, k => by simp only [kept, lost, List.count_nil, Nat.zero_add]; rfl
  | stm, .traitStatement _ _ _ _, k => by simp only [kept, lost, List.count_nil, Nat.zero_add]; rfl
  | stm, .emptyScript, k => by simp only [kept, lost, List.count_nil, Nat.zero_add]; rfl

theorem count_list : ∀ (stm : Bool) (l : List Node) (k : Token),
    (Node.toksL l).count k = (keptL stm l).count k + (lostL stm l).count k
  | _, [], _ => by simp [Node.toksL, keptL, lostL]
  | stm, n :: r, k => by
    have h0 := count_node stm n k
    have h1 := count_list stm r k
    simp only [Node.toksL, keptL, lostL, List.count_append]
    omega

theorem count_opt : ∀ (o : Option Node) (k : Token), (Node.toksO o).count k = (keptO o).count k + (lostO o).count k
  | none, _ => by simp [Node.toksO, keptO, lostO]
  | some n, k => by simpa only [Node.toksO, keptO, lostO] using count_node false n k

theorem count_optList : ∀ (o : Option (List Node)) (k : Token),
    (Node.toksOL o).count k = (keptOL o).count k + (lostOL o).count k
  | none, _ => by simp [Node.toksOL, keptOL, lostOL]
  | some l, k => by simpa only [Node.toksOL, keptOL, lostOL] using count_list false l k

theorem count_cases : ∀ (l : List (Option Node)) (k : Token),
    (Node.toksLO l).count k = (keptLO l).count k + (lostLO l).count k
  | [], _ => by simp [Node.toksLO, keptLO, lostLO]
  | o :: r, k => by
    have h0 := count_opt o k
    have h1 := count_cases r k
    simp only [Node.toksLO, keptLO, lostLO, List.count_append]
    omega

end

end PhpLs.Formatter
