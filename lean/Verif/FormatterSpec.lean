import Verif.Formatter

/-!
# Formatting: the specification of what a formatted text shows

`Shows ks out` says that the texts of the tokens `ks` stand in `out` in this order and do not overlap.  `kept` and `lost` divide the
tokens of a tree: `kept` in the order in which the constructs are to be printed, `lost` those that the formatter drops.
-/

namespace PhpLs.Formatter

/-! ### The specification -/

/-- The texts of the tokens stand in the text, in this order and without overlapping.  White space at the ends of a token does not
count (only texts of here documents and the like have any). -/
inductive Shows (U : Unicode) : List Token → Text → Prop
  | nil (out : Text) : Shows U [] out
  | cons (before : Text) (k : Token) (d : Text) (ks : List Token) (after : Text) :
      k.display = some d → Shows U ks after → Shows U (k :: ks) (before ++ (trim U d ++ after))

/-- A fixed word stands for a token if it is the text of the token. -/
def word (w : Text) (k : Token) : List Token := if k.display = some w then [k] else []

/-- The token for which a fixed word does not stand. -/
def unword (w : Text) (k : Token) : List Token := if k.display = some w then [] else [k]

/-- `word` for optional tokens. -/
def wordO (w : Text) : Option Token → List Token
  | none => []
  | some k => word w k

/-- `unword` for optional tokens. -/
def unwordO (w : Text) : Option Token → List Token
  | none => []
  | some k => unword w k

mutual

/-- The tokens of a node that the formatted text shows, in the order in which it shows them.  `stm` says whether the node stands
in a list of statements.  Specification device. -/
def kept (stm : Bool) : Node → List Token
  | .namedFunctionDefinitionStatement token _ name function attributes =>
    keptL true attributes ++ [token] ++ [name] ++ kept false function
  | .interface token name extending body _ => [token] ++ [name] ++ keptOL extending ++ kept false body
  | .classStatement token name isAbstract isFinal implementing extending body _ attributes =>
    keptL true attributes ++ isFinal.toList ++ isAbstract.toList ++ [token] ++ [name] ++ keptO extending ++
      keptOL implementing ++ kept false body
  | .classConstantDefinitionStatement token consts _ visibility attributes =>
    keptL true attributes ++ visibility.toList ++ [token] ++ keptL false consts
  | .property name value => [name] ++ keptO value
  | .propertyDefinitionStatement properties _ visibility _ isStatic isAbstract attributes =>
    keptL true attributes ++ isAbstract.toList ++ visibility.toList ++ isStatic.toList ++ keptL true properties
  | .methodDefinitionStatement token isFinal _ name visibility isAbstract function isStatic _ attributes =>
    keptL true attributes ++ visibility.toList ++ isStatic.toList ++ isFinal.toList ++ isAbstract.toList ++ [token] ++
      [name] ++ kept false function
  | .useTraitStatement token traitsUsages => [token] ++ keptL true traitsUsages
  | .useTraitAs left paa member asToken visibility asName =>
    keptO left ++ paa.toList ++ kept false member ++ [asToken] ++ visibility.toList ++ asName.toList
  | .useTraitInsteadOf left paa member insteadof insteadofList =>
    keptO left ++ paa.toList ++ kept false member ++ [insteadof] ++ keptL true insteadofList
  | .useTraitAlterationBlock alterationGroupTypeRefs oc alterations cc =>
    keptL false alterationGroupTypeRefs ++ [oc] ++ keptL true alterations ++ [cc]
  | .useTrait typeRef => kept false typeRef
  | .typeRef typeRef => typeRef.kind
  | .expressionStatement expression => kept false expression
  | .inlineHtml start stop => [start] ++ stop.toList
  | .returnStatement token expression => [token] ++ keptO expression
  | .useFunctionStatement token imports => word c!"use" token ++ keptL false imports
  | .useConstStatement token imports => word c!"use" token ++ keptL false imports
  | .useStatement token imports => [token] ++ keptL false imports
  | .attr ats expressions cb => [ats] ++ keptL false expressions ++ [cb]
  | .ifStatement ifBranch elseifBranches elseBranch =>
    kept false ifBranch ++ keptL false elseifBranches ++ keptO elseBranch
  | .staticVariablesStatement token assignments => [token] ++ keptL false assignments
  | .globalVariablesStatement token vars => [token] ++ keptL false vars
  | .switchCase token op expr cp body =>
    word c!"switch" token ++ word c!"(" op ++ kept false expr ++ word c!")" cp ++ kept false body
  | .tryCatch token tryBlock catchBlocks finallyBlock =>
    word c!"try" token ++ kept false tryBlock ++ keptL false catchBlocks ++ keptO finallyBlock
  | .namespaceStatement token typeRef => [token] ++ kept false typeRef
  | .namespaceBlock token typeRef block => [token] ++ keptO typeRef ++ kept false block
  | .whileStatement token op condition cp body =>
    word c!"while" token ++ word c!"(" op ++ kept false condition ++ word c!")" cp ++ kept false body
  | .doWhileStatement doToken op cp whileToken condition body =>
    word c!"do" doToken ++ kept false body ++ word c!"while" whileToken ++ word c!"(" op ++ kept false condition ++
      word c!")" cp
  | .forStatement token init condition step body =>
    word c!"for" token ++ keptL false init ++ keptL false condition ++ keptL false step ++ kept false body
  | .forEachStatement token op collection asToken kv cp body =>
    word c!"foreach" token ++ word c!"(" op ++ kept false collection ++ word c!"as" asToken ++ kept false kv ++
      word c!")" cp ++ kept false body
  | .tokenStatement token _ => [token]
  | .staticExpr token expr => [token] ++ keptL false expr
  | .echoStatement token expressions => [token] ++ keptL false expressions
  | .constStatement token constants => [token] ++ keptL false constants
  | .printStatement token expressions => [token] ++ keptL false expressions
  | .grouping expr => kept false expr
  | .fileInclude token resource => [token] ++ kept false resource
  | .groupedUse _ parent oc uses cc => kept false parent ++ [oc] ++ keptL false uses ++ [cc]
  | .classConstant _ name value => [name] ++ kept false value
  | .block oc statements cc => word c!"{" oc ++ keptL true statements ++ word c!"}" cc
  | .functionDefinitionStatement op arguments cp returnType body _ =>
    [op] ++ keptOL arguments ++ [cp] ++ keptO returnType ++ keptO body
  | .arrowFunction isStatic _ token op arguments cp arrow returnType body attributes =>
    keptL true attributes ++ isStatic.toList ++ [token] ++ [op] ++ keptOL arguments ++ [cp] ++ keptO returnType ++
      [arrow] ++ kept false body
  | .closure isStatic _ token op arguments cp uses returnType body attributes =>
    keptL true attributes ++ isStatic.toList ++ [token] ++ [op] ++ keptOL arguments ++ [cp] ++ keptO returnType ++
      keptOL uses ++ kept false body
  | .returnType token dataType => [token] ++ kept false dataType
  | .binary left token right => kept false left ++ [token] ++ kept false right
  | .newExpr token cls => [token] ++ kept false cls
  | .cloneExpr token object => [token] ++ kept false object
  | .yieldFrom token expr => [token] ++ kept false expr
  | .throwStatement token expression => [token] ++ kept false expression
  | .anonClass token arguments extending implementing body attributes =>
    keptL true attributes ++ [token] ++ keptOL arguments ++ keptO extending ++ keptOL implementing ++ kept false body
  | .field array ob index cb => kept false array ++ [ob] ++ keptO index ++ [cb]
  | .call callee op parameters cp => kept false callee ++ word c!"(" op ++ keptL false parameters ++ word c!")" cp
  | .dataType nullable typeRefs => nullable.toList ++ keptL false typeRefs
  | .identifier token => [token]
  | .literal token => [token]
  | .variable token => [token]
  | .missing _ => []
  | .array ob elements cb => [ob] ++ keptL false elements ++ [cb]
  | .arrayElement key arrow value => keptO key ++ arrow.toList ++ kept false value
  | .namedParameter name colon expr => [name] ++ [colon] ++ kept false expr
  | .unary expr token => [token] ++ kept false expr
  | .docComment comment _ _ _ _ _ _ => [comment]
  | .postUnary expr token => kept false expr ++ [token]
  | .const name token value => [token] ++ [name] ++ kept false value
  | .ternary check qm trueArm colon falseArm =>
    kept false check ++ [qm] ++ keptO trueArm ++ [colon] ++ kept false falseArm
  | .lexicalVariable reference var => reference.toList ++ [var]
  | .aliasedVariable var expr => [var] ++ kept false expr
  | .dynamicVariable var oc expr cc => [var] ++ [oc] ++ kept false expr ++ [cc]
  | .oldArray token op elements cp => [token] ++ [op] ++ keptL false elements ++ [cp]
  | .list token op elements cp => [token] ++ [op] ++ keptL false elements ++ [cp]
  | .isset isset op parameters cp => [isset] ++ [op] ++ keptL false parameters ++ [cp]
  | .dieStatement token op expr cp => [token] ++ [op] ++ keptO expr ++ [cp]
  | .unsetStatement token op vars cp => [token] ++ [op] ++ keptL false vars ++ [cp]
  | .emptyExpr empty op parameters cp => [empty] ++ [op] ++ keptL false parameters ++ [cp]
  | .yieldExpr token expr => [token] ++ keptO expr
  | .gotoStatement token label => [token] ++ [label]
  | .labelStatement label colon => [label] ++ [colon]
  | .declareStatement directive _ assignment op cp token => [token] ++ [op] ++ [directive] ++ [assignment] ++ [cp]
  | .alternativeBlock colon statements terminator => word c!":" colon ++ keptL false statements ++ [terminator]
  | .ifBranch token op condition cp body =>
    [token] ++ word c!"(" op ++ kept false condition ++ word c!")" cp ++ kept false body
  | .elseBranch token body => word c!"else" token ++ kept false body
  | .switchBranch cases body => keptLO cases ++ keptL true body
  | .switchBody start branches stop => [start] ++ keptL false branches ++ [stop]
  | .catchBlock token op types var cp body =>
    word c!"catch" token ++ word c!"(" op ++ keptL false types ++ [var] ++ word c!")" cp ++ kept false body
  | .finallyBlock token body => word c!"finally" token ++ kept false body
  | .useDeclaration _ declaration aliased aliasName =>
    match stm, aliasName with
    | false, some a => kept false declaration ++ wordO c!"as" aliased ++ [a]
    | _, _ => kept false declaration
  | .member object arrow oc member cc =>
    match oc with
    | some o => kept false object ++ [arrow] ++ [o] ++ kept false member ++ cc.toList
    | none => kept false object ++ [arrow] ++ kept false member
  | .staticMember object pn oc member cc =>
    match oc with
    | some o => kept false object ++ [pn] ++ [o] ++ kept false member ++ cc.toList
    | none => kept false object ++ [pn] ++ kept false member
  | .functionArgument argumentType name hasDefault defaultValue spread reference _ attributes =>
    keptL true attributes ++ keptO argumentType ++ spread.toList ++ reference.toList ++ [name] ++
      (if defaultValue.isSome then wordO c!"=" hasDefault else []) ++ keptO defaultValue
  | .staticVariable var assignment value =>
    [var] ++ (if value.isSome then wordO c!"=" assignment else []) ++ keptO value
  | .exitExpr token op parameters cp =>
    [token] ++ (if parameters.isSome then wordO c!"(" op else []) ++ keptOL parameters ++
      (if parameters.isSome then wordO c!")" cp else [])
  | .haltCompiler token op parameters cp =>
    [token] ++ (if parameters.isSome then wordO c!"(" op else []) ++ keptOL parameters ++
      (if parameters.isSome then wordO c!")" cp else [])
  | .dieExpr token op parameters cp =>
    [token] ++ (if parameters.isSome then wordO c!"(" op else []) ++ keptOL parameters ++
      (if parameters.isSome then wordO c!")" cp else [])
  | .useConst token constant aliased aliasName =>
    token.toList ++ kept false constant ++ aliased.toList ++ (if aliased.isSome then aliasName.toList else [])
  | .useFunction token function aliased aliasName =>
    token.toList ++ kept false function ++ aliased.toList ++ (if aliased.isSome then aliasName.toList else [])
  | .defineStatement name value op cp _ isCaseinsensitive =>
    match isCaseinsensitive with
    | some i => [op] ++ kept false name ++ kept false value ++ [i] ++ [cp]
    | none => [op] ++ kept false value ++ kept false name ++ [cp]
  | .docCommentParam _ _ _ => []
  | .docCommentProperty _ _ _ => []
  | .docCommentVar _ _ _ => []
  | .docCommentReturn _ _ => []
  | .matchExpr _ _ _ _ _ _ _ => []
  | .matchArm _ _ _ => []
  | .traitStatement _ _ _ _ => []
  | .emptyScript => []

/-- `kept` for lists. -/
def keptL (stm : Bool) : List Node → List Token
  | [] => []
  | n :: r => kept stm n ++ keptL stm r

/-- `kept` for optional nodes. -/
def keptO : Option Node → List Token
  | none => []
  | some n => kept false n

/-- `kept` for optional lists. -/
def keptOL : Option (List Node) → List Token
  | none => []
  | some l => keptL false l

/-- `kept` for the cases of a branch. -/
def keptLO : List (Option Node) → List Token
  | [] => []
  | o :: r => keptO o ++ keptLO r

end

mutual

/-- The tokens of a node that the formatted text does not show.  Specification device. -/
def lost (stm : Bool) : Node → List Token
  | .namedFunctionDefinitionStatement _ byRef _ function attributes =>
    lostL true attributes ++ lost false function ++ byRef.toList
  | .interface _ _ extending body docComment => lostOL extending ++ lost false body ++ Node.toksO docComment
  | .classStatement _ _ _ _ implementing extending body docComment attributes =>
    lostL true attributes ++ lostO extending ++ lostOL implementing ++ lost false body ++ Node.toksO docComment
  | .classConstantDefinitionStatement _ consts docComment _ attributes =>
    lostL true attributes ++ lostL false consts ++ Node.toksO docComment
  | .property _ value => lostO value
  | .propertyDefinitionStatement properties docComment _ dataType _ _ attributes =>
    lostL true attributes ++ lostL true properties ++ Node.toksO docComment ++ Node.toksO dataType
  | .methodDefinitionStatement _ _ byRef _ _ _ function _ docComment attributes =>
    lostL true attributes ++ lost false function ++ byRef.toList ++ Node.toksO docComment
  | .useTraitStatement _ traitsUsages => lostL true traitsUsages
  | .useTraitAs left _ member _ _ _ => lostO left ++ lost false member
  | .useTraitInsteadOf left _ member _ insteadofList => lostO left ++ lost false member ++ lostL true insteadofList
  | .useTraitAlterationBlock alterationGroupTypeRefs _ alterations _ =>
    lostL false alterationGroupTypeRefs ++ lostL true alterations
  | .useTrait typeRef => lost false typeRef
  | .typeRef _ => []
  | .expressionStatement expression => lost false expression
  | .inlineHtml _ _ => []
  | .returnStatement _ expression => lostO expression
  | .useFunctionStatement token imports => unword c!"use" token ++ lostL false imports
  | .useConstStatement token imports => unword c!"use" token ++ lostL false imports
  | .useStatement _ imports => lostL false imports
  | .attr _ expressions _ => lostL false expressions
  | .ifStatement ifBranch elseifBranches elseBranch =>
    lost false ifBranch ++ lostL false elseifBranches ++ lostO elseBranch
  | .staticVariablesStatement _ assignments => lostL false assignments
  | .globalVariablesStatement _ vars => lostL false vars
  | .switchCase token op expr cp body =>
    unword c!"switch" token ++ unword c!"(" op ++ lost false expr ++ unword c!")" cp ++ lost false body
  | .tryCatch token tryBlock catchBlocks finallyBlock =>
    unword c!"try" token ++ lost false tryBlock ++ lostL false catchBlocks ++ lostO finallyBlock
  | .namespaceStatement _ typeRef => lost false typeRef
  | .namespaceBlock _ typeRef block => lostO typeRef ++ lost false block
  | .whileStatement token op condition cp body =>
    unword c!"while" token ++ unword c!"(" op ++ lost false condition ++ unword c!")" cp ++ lost false body
  | .doWhileStatement doToken op cp whileToken condition body =>
    unword c!"do" doToken ++ lost false body ++ unword c!"while" whileToken ++ unword c!"(" op ++ lost false condition ++
      unword c!")" cp
  | .forStatement token init condition step body =>
    unword c!"for" token ++ lostL false init ++ lostL false condition ++ lostL false step ++ lost false body
  | .forEachStatement token op collection asToken kv cp body =>
    unword c!"foreach" token ++ unword c!"(" op ++ lost false collection ++ unword c!"as" asToken ++ lost false kv ++
      unword c!")" cp ++ lost false body
  | .tokenStatement _ expr => Node.toksO expr
  | .staticExpr _ expr => lostL false expr
  | .echoStatement _ expressions => lostL false expressions
  | .constStatement _ constants => lostL false constants
  | .printStatement _ expressions => lostL false expressions
  | .grouping expr => lost false expr
  | .fileInclude _ resource => lost false resource
  | .groupedUse token parent _ uses _ => lost false parent ++ lostL false uses ++ [token]
  | .classConstant visibility _ value => lost false value ++ visibility.toList
  | .block oc statements cc => unword c!"{" oc ++ lostL true statements ++ unword c!"}" cc
  | .functionDefinitionStatement _ arguments _ returnType body docComment =>
    lostOL arguments ++ lostO returnType ++ lostO body ++ Node.toksO docComment
  | .arrowFunction _ byRef _ _ arguments _ _ returnType body attributes =>
    lostL true attributes ++ lostOL arguments ++ lostO returnType ++ lost false body ++ byRef.toList
  | .closure _ byRef _ _ arguments _ uses returnType body attributes =>
    lostL true attributes ++ lostOL arguments ++ lostO returnType ++ lostOL uses ++ lost false body ++ byRef.toList
  | .returnType _ dataType => lost false dataType
  | .binary left _ right => lost false left ++ lost false right
  | .newExpr _ cls => lost false cls
  | .cloneExpr _ object => lost false object
  | .yieldFrom _ expr => lost false expr
  | .throwStatement _ expression => lost false expression
  | .anonClass _ arguments extending implementing body attributes =>
    lostL true attributes ++ lostOL arguments ++ lostO extending ++ lostOL implementing ++ lost false body
  | .field array _ index _ => lost false array ++ lostO index
  | .call callee op parameters cp => lost false callee ++ unword c!"(" op ++ lostL false parameters ++ unword c!")" cp
  | .dataType _ typeRefs => lostL false typeRefs
  | .identifier _ => []
  | .literal _ => []
  | .variable _ => []
  | .missing token => [token]
  | .array _ elements _ => lostL false elements
  | .arrayElement key _ value => lostO key ++ lost false value
  | .namedParameter _ _ expr => lost false expr
  | .unary expr _ => lost false expr
  | .docComment _ returnType _ _ params varDocs properties =>
    Node.toksL returnType ++ Node.toksL params ++ Node.toksL varDocs ++ Node.toksL properties
  | .postUnary expr _ => lost false expr
  | .const _ _ value => lost false value
  | .ternary check _ trueArm _ falseArm => lost false check ++ lostO trueArm ++ lost false falseArm
  | .lexicalVariable _ _ => []
  | .aliasedVariable _ expr => lost false expr
  | .dynamicVariable _ _ expr _ => lost false expr
  | .oldArray _ _ elements _ => lostL false elements
  | .list _ _ elements _ => lostL false elements
  | .isset _ _ parameters _ => lostL false parameters
  | .dieStatement _ _ expr _ => lostO expr
  | .unsetStatement _ _ vars _ => lostL false vars
  | .emptyExpr _ _ parameters _ => lostL false parameters
  | .yieldExpr _ expr => lostO expr
  | .gotoStatement _ _ => []
  | .labelStatement _ _ => []
  | .declareStatement _ value _ _ _ _ => [value]
  | .alternativeBlock colon statements _ => unword c!":" colon ++ lostL false statements
  | .ifBranch _ op condition cp body => unword c!"(" op ++ lost false condition ++ unword c!")" cp ++ lost false body
  | .elseBranch token body => unword c!"else" token ++ lost false body
  | .switchBranch cases body => lostLO cases ++ lostL true body
  | .switchBody _ branches _ => lostL false branches
  | .catchBlock token op types _ cp body =>
    unword c!"catch" token ++ unword c!"(" op ++ lostL false types ++ unword c!")" cp ++ lost false body
  | .finallyBlock token body => unword c!"finally" token ++ lost false body
  | .useDeclaration token declaration aliased aliasName =>
    match stm, aliasName with
    | false, some _ => token.toList ++ lost false declaration ++ unwordO c!"as" aliased
    | _, _ => token.toList ++ lost false declaration ++ aliased.toList ++ aliasName.toList
  | .member object _ oc member cc =>
    match oc with
    | some _ => lost false object ++ lost false member
    | none => lost false object ++ lost false member ++ cc.toList
  | .staticMember object _ oc member cc =>
    match oc with
    | some _ => lost false object ++ lost false member
    | none => lost false object ++ lost false member ++ cc.toList
  | .functionArgument argumentType _ hasDefault defaultValue _ _ docComment attributes =>
    lostL true attributes ++ lostO argumentType ++ Node.toksO docComment ++
      (if defaultValue.isSome then unwordO c!"=" hasDefault else hasDefault.toList) ++ lostO defaultValue
  | .staticVariable _ assignment value =>
    (if value.isSome then unwordO c!"=" assignment else assignment.toList) ++ lostO value
  | .exitExpr _ op parameters cp =>
    (if parameters.isSome then unwordO c!"(" op ++ unwordO c!")" cp else op.toList ++ cp.toList) ++ lostOL parameters
  | .haltCompiler _ op parameters cp =>
    (if parameters.isSome then unwordO c!"(" op ++ unwordO c!")" cp else op.toList ++ cp.toList) ++ lostOL parameters
  | .dieExpr _ op parameters cp =>
    (if parameters.isSome then unwordO c!"(" op ++ unwordO c!")" cp else op.toList ++ cp.toList) ++ lostOL parameters
  | .useConst _ constant aliased aliasName =>
    lost false constant ++ (if aliased.isSome then [] else aliasName.toList)
  | .useFunction _ function aliased aliasName =>
    lost false function ++ (if aliased.isSome then [] else aliasName.toList)
  | .defineStatement name value _ _ token _ => lost false name ++ lost false value ++ [token]
  | .docCommentParam a b _ => [a] ++ TypeRef.toksOL b
  | .docCommentProperty a b _ => [a] ++ TypeRef.toksOL b
  | .docCommentVar a b _ => [a] ++ TypeRef.toksOL b
  | .docCommentReturn a _ => TypeRef.toksOL a
  | .matchExpr a b c d e f g => [a] ++ [b] ++ [c] ++ d.toks ++ [e] ++ Node.toksL f ++ [g]
  | .matchArm a b c => Node.toksOL a ++ [b] ++ c.toks
  | .traitStatement a b c d => [a] ++ [b] ++ c.toks ++ Node.toksO d
  | .emptyScript => []

/-- `lost` for lists. -/
def lostL (stm : Bool) : List Node → List Token
  | [] => []
  | n :: r => lost stm n ++ lostL stm r

/-- `lost` for optional nodes. -/
def lostO : Option Node → List Token
  | none => []
  | some n => lost false n

/-- `lost` for optional lists. -/
def lostOL : Option (List Node) → List Token
  | none => []
  | some l => lostL false l

/-- `lost` for the cases of a branch. -/
def lostLO : List (Option Node) → List Token
  | [] => []
  | o :: r => lostO o ++ lostLO r

end

/-! ### White space at the ends -/

section Trim

variable {U : Unicode}

theorem trimEnd_append (a b : Text) : trimEnd U (a ++ b) = if trimEnd U b = [] then trimEnd U a else a ++ trimEnd U b := by
  induction a with
  | nil => by_cases h : trimEnd U b = [] <;> simp [h, trimEnd]
  | cons c r ih =>
    simp only [List.cons_append, trimEnd, ih]
    by_cases h : trimEnd U b = []
    · simp [h]
    · simp only [h, if_false]
      cases hr : r ++ trimEnd U b with
      | nil => simp at hr; exact absurd hr.2 h
      | cons d r' => simp

theorem trimEnd_idem (a : Text) : trimEnd U (trimEnd U a) = trimEnd U a := by
  induction a with
  | nil => rfl
  | cons c r ih =>
    simp only [trimEnd]
    cases hr : trimEnd U r with
    | nil =>
      simp only
      by_cases hc : U.isSpace c
      · simp [hc, trimEnd]
      · simp [hc, trimEnd]
    | cons d r' =>
      rw [hr] at ih
      simp only [trimEnd] at ih ⊢
      rw [ih]

theorem trimStart_cases (a : Text) : trimStart U a = [] ∨ ∃ c r, trimStart U a = c :: r ∧ U.isSpace c = false := by
  induction a with
  | nil => exact .inl rfl
  | cons c r ih =>
    simp only [trimStart]
    by_cases hc : U.isSpace c
    · simpa [hc] using ih
    · exact .inr ⟨c, r, by simp [hc], by simpa using hc⟩

theorem trimEnd_cons_solid {c : Char} (h : U.isSpace c = false) (r : Text) : trimEnd U (c :: r) = c :: trimEnd U r := by
  simp only [trimEnd]
  cases trimEnd U r <;> simp [h]

/-- What is left after trimming is empty or starts and ends with something else than white space. -/
theorem trim_cases (d : Text) : trim U d = [] ∨
    (∃ c r, trim U d = c :: r ∧ U.isSpace c = false) ∧ trimEnd U (trim U d) = trim U d := by
  rcases trimStart_cases (U := U) d with h | ⟨c, r, h, hc⟩
  · left; simp [trim, h, trimEnd]
  · right
    refine ⟨⟨c, trimEnd U r, ?_, hc⟩, trimEnd_idem _⟩
    simp only [trim, h, trimEnd_cons_solid hc]

theorem trimStart_append (a b : Text) : ∃ a', trimStart U (a ++ b) = a' ++ b ∨ trimStart U (a ++ b) = trimStart U b := by
  induction a with
  | nil => exact ⟨[], .inr rfl⟩
  | cons c r ih =>
    simp only [List.cons_append, trimStart]
    by_cases hc : U.isSpace c
    · simpa [hc] using ih
    · exact ⟨c :: r, .inl (by simp [hc])⟩

end Trim

/-! ### Showing tokens -/

namespace Shows

variable {U : Unicode} {ks ks' : List Token} {out out' : Text}

theorem prepend (x : Text) (h : Shows U ks out) : Shows U ks (x ++ out) := by
  cases h with
  | nil => exact .nil _
  | cons b k d ks a hd h =>
    rw [← List.append_assoc]
    exact .cons _ k d ks a hd h

theorem append (h : Shows U ks out) (h' : Shows U ks' out') : Shows U (ks ++ ks') (out ++ out') := by
  induction h with
  | nil => exact h'.prepend _
  | cons b k d ks a hd _ ih =>
    rw [List.append_assoc, List.append_assoc]
    exact .cons b k d _ _ hd ih

theorem tok {k : Token} {d : Text} (h : k.display = some d) : Shows U [k] d := by
  have key : ∃ a b, d = a ++ (trim U d ++ b) := by
    have h1 : ∀ t : Text, ∃ a, t = a ++ trimStart U t := by
      intro t
      induction t with
      | nil => exact ⟨[], rfl⟩
      | cons c r ih =>
        simp only [trimStart]
        by_cases hc : U.isSpace c
        · obtain ⟨a, ha⟩ := ih
          exact ⟨c :: a, by simp only [hc, if_true, List.cons_append]; rw [← ha]⟩
        · exact ⟨[], by simp [hc]⟩
    have h2 : ∀ t : Text, ∃ b, t = trimEnd U t ++ b := by
      intro t
      induction t with
      | nil => exact ⟨[], rfl⟩
      | cons c r ih =>
        simp only [trimEnd]
        obtain ⟨b, hb⟩ := ih
        cases hr : trimEnd U r with
        | nil =>
          by_cases hc : U.isSpace c
          · exact ⟨c :: r, by simp [hc]⟩
          · exact ⟨r, by simp [hc]⟩
        | cons d r' =>
          rw [hr] at hb
          exact ⟨b, by simp only [List.cons_append] at hb ⊢; rw [← hb]⟩
    obtain ⟨a, ha⟩ := h1 d
    obtain ⟨b, hb⟩ := h2 (trimStart U d)
    exact ⟨a, b, by unfold trim; rw [← hb, ← ha]⟩
  obtain ⟨a, b, e⟩ := key
  have := Shows.cons (U := U) a k d [] b h (.nil _)
  rwa [← e] at this

theorem trimEnd (h : Shows U ks out) : Shows U ks (Formatter.trimEnd U out) := by
  induction h with
  | nil => exact .nil _
  | cons b k d ks a hd _ ih =>
    have : ∃ b', Formatter.trimEnd U (b ++ (trim U d ++ a)) = b' ++ (trim U d ++ Formatter.trimEnd U a) := by
      rcases trim_cases (U := U) d with e | ⟨⟨c, r, e, hc⟩, ht⟩
      · rw [e, List.nil_append, List.nil_append, trimEnd_append]
        by_cases ha : Formatter.trimEnd U a = []
        · exact ⟨Formatter.trimEnd U b, by simp [ha]⟩
        · exact ⟨b, by simp [ha]⟩
      · have h1 : Formatter.trimEnd U (trim U d ++ a) = trim U d ++ Formatter.trimEnd U a := by
          rw [trimEnd_append, ht]
          by_cases ha : Formatter.trimEnd U a = [] <;> simp [ha]
        refine ⟨b, ?_⟩
        rw [trimEnd_append, h1, if_neg]
        rw [e]
        simp
    obtain ⟨b', e⟩ := this
    rw [e]
    exact .cons _ k d ks _ hd ih

theorem trimStart (h : Shows U ks out) : Shows U ks (Formatter.trimStart U out) := by
  induction h with
  | nil => exact .nil _
  | cons b k d ks a hd h ih =>
    obtain ⟨b', e | e⟩ := trimStart_append (U := U) b (trim U d ++ a)
    · rw [e]
      exact .cons _ k d ks _ hd h
    · rw [e]
      rcases trim_cases (U := U) d with e | ⟨⟨c, r, e, hc⟩, ht⟩
      · have := Shows.cons (U := U) [] k d ks _ hd ih
        rw [e, List.nil_append, List.nil_append] at this
        rwa [e, List.nil_append]
      · have := Shows.cons (U := U) [] k d ks _ hd h
        rw [List.nil_append] at this
        have e2 : Formatter.trimStart U (trim U d ++ a) = trim U d ++ a := by
          rw [e]
          simp [Formatter.trimStart, hc]
        rwa [e2]

theorem trim (h : Shows U ks out) : Shows U ks (Formatter.trim U out) := h.trimStart.trimEnd

end Shows

/-- If it is a text at all, it shows the tokens. -/
def Pr (U : Unicode) (ks : List Token) (p : Option Text) : Prop := ∀ out, p = some out → Shows U ks out

namespace Pr

variable {U : Unicode} {a b : List Token} {p : Option Text} {ps : List (Option Text)}

theorem lit (w : Text) : Pr U [] (lit w) := fun _ _ => .nil _

theorem tok (k : Token) : Pr U [k] (tok k) := fun _ h => Shows.tok h

theorem none : Pr U a none := fun _ h => nomatch h

theorem catNil : Pr U [] (cat []) := fun _ _ => .nil _

theorem catNone : Pr U a (cat (.none :: ps)) := fun _ h => nomatch h

theorem cons (h : Pr U a p) (h' : Pr U b (cat ps)) : Pr U (a ++ b) (cat (p :: ps)) := by
  intro out e
  unfold cat at e
  cases hp : p with
  | none => rw [hp] at e; exact nomatch e
  | some x =>
    cases hc : cat ps with
    | none => rw [hp, hc] at e; exact nomatch e
    | some y =>
      rw [hp, hc] at e
      cases e
      exact (h _ hp).append (h' _ hc)

theorem cons₂ {c : List Token} (h : Pr U (a ++ c) p) (h' : Pr U b (cat ps)) : Pr U (a ++ (c ++ b)) (cat (p :: ps)) := by
  rw [← List.append_assoc]
  exact cons h h'

theorem litCons {w : Text} (h : Pr U b (cat ps)) : Pr U b (cat (Formatter.lit w :: ps)) := cons (lit w) h

theorem wordCons {w : Text} {k : Token} (h : Pr U b (cat ps)) : Pr U (word w k ++ b) (cat (Formatter.lit w :: ps)) := by
  refine cons ?_ h
  intro out e
  unfold word
  cases e
  split
  · next hk => exact Shows.tok hk
  · exact .nil _

theorem wordOCons {w : Text} {o : Option Token} (h : Pr U b (cat ps)) :
    Pr U (wordO w o ++ b) (cat (Formatter.lit w :: ps)) := by
  cases o with
  | none => exact litCons h
  | some k => exact wordCons h

theorem tokCons {k : Token} (h : Pr U b (cat ps)) : Pr U ([k] ++ b) (cat (Formatter.tok k :: ps)) := cons (tok k) h

theorem padded (o : Option Token) : Pr U o.toList (padded o) := by
  cases o with
  | none => exact fun _ _ => .nil _
  | some k => exact tokCons (litCons catNil)

theorem unpadded (o : Option Token) : Pr U o.toList (unpadded o) := by
  cases o with
  | none => exact fun _ _ => .nil _
  | some k => exact tok k

theorem paddedCons {o : Option Token} (h : Pr U b (cat ps)) : Pr U (o.toList ++ b) (cat (Formatter.padded o :: ps)) :=
  cons (padded o) h

theorem unpaddedCons {o : Option Token} (h : Pr U b (cat ps)) : Pr U (o.toList ++ b) (cat (Formatter.unpadded o :: ps)) :=
  cons (unpadded o) h

theorem iteCons {c : Bool} {o : Option Token} (h : Pr U b (cat ps)) :
    Pr U (o.toList ++ b) (cat ((if c then Formatter.padded o else Formatter.unpadded o) :: ps)) := by
  cases c
  · exact unpaddedCons h
  · exact paddedCons h

theorem pad (h : Pr U (a ++ []) p) : Pr U a p := by rwa [List.append_nil] at h

theorem around {pre post : Text} (h : Pr U a p) : Pr U a (around pre post p) :=
  litCons (pad (a := a) (by simpa using cons h (litCons catNil)))

theorem fqdn : ∀ ks : List Token, Pr U ks (fqdn ks)
  | [] => catNil
  | k :: ks => cons (tok k) (fqdn ks)

theorem inlineAttributes {l : List Node} (h : Pr U a p) (hl : l = [] → a = []) : Pr U a (inlineAttributes U l p) := by
  unfold Formatter.inlineAttributes
  cases l with
  | nil =>
    rw [hl rfl]
    exact fun _ _ => .nil _
  | cons n r =>
    refine pad (cons (fun out e => ?_) (litCons catNil))
    cases hp : p with
    | none => rw [hp] at e; exact nomatch e
    | some x =>
      rw [hp] at e
      cases e
      exact (h _ hp).trim

theorem list {n : Node} {q : Nat → Nat → Option Text} {g : Nat → Text} (h : Pr U a p) (h' : ∀ e, Pr U b (q e e)) :
    Pr U (a ++ b) (match n.range with
      | .none => .none
      | some r => cat [Formatter.lit (g r.startLine), p, q r.endLine r.endLine]) := by
  cases n.range with
  | none => exact none
  | some r => exact litCons (cons h (pad (cons (h' _) catNil)))

end Pr

/-- If it is a list of texts at all, the texts show the tokens, whatever is put between them. -/
def Prs (U : Unicode) (ks : List Token) (p : Option (List Text)) : Prop :=
  ∀ ts, p = some ts → ∀ sep, Shows U ks (joinText sep ts)

namespace Prs

variable {U : Unicode} {a b : List Token} {p : Option (List Text)} {q : Option Text}

theorem joined {sep : Text} (h : Prs U a p) : Pr U a (joined sep p) := by
  intro out e
  cases hp : p with
  | none => rw [hp] at e; exact nomatch e
  | some ts => rw [hp] at e; cases e; exact h _ hp _

theorem joinedNonEmpty {sep : Text} (h : Prs U a p) : Pr U a (joinedNonEmpty sep p) := by
  intro out e
  cases hp : p with
  | none => rw [hp] at e; exact nomatch e
  | some ts =>
    cases ts with
    | nil => rw [hp] at e; exact nomatch e
    | cons t r => rw [hp] at e; cases e; exact h _ hp _

theorem nil : Prs U [] (some []) := fun _ _ _ => .nil _

theorem cons (h : Pr U a q) (h' : Prs U b p) : Prs U (a ++ b) (do let t ← q; let l ← p; pure (t :: l)) := by
  intro ts e sep
  cases hq : q with
  | none => rw [hq] at e; exact nomatch e
  | some t =>
    cases hp : p with
    | none => rw [hq, hp] at e; exact nomatch e
    | some l =>
      rw [hq, hp] at e
      cases e
      cases l with
      | nil =>
        have := (h _ hq).append (h' _ hp sep)
        simpa [joinText] using this
      | cons x r =>
        simp only [joinText]
        rw [List.append_assoc]
        exact (h _ hq).append ((h' _ hp sep).prepend _)

end Prs

/-- The sign in front of a default value. -/
theorem Pr.assigned {U : Unicode} {a : List Token} {p : Option Text} {o : Option Token} {post : Text} (h : Pr U a p) :
    Pr U (wordO c!"=" o ++ a) (Formatter.around c!" = " post p) := by
  have key : Pr U (wordO c!"=" o ++ a) (cat [Formatter.lit c!" ", Formatter.lit c!"=", Formatter.lit c!" ", p, Formatter.lit post]) :=
    litCons (wordOCons (litCons (pad (cons h (litCons catNil)))))
  intro out e
  refine key out ?_
  unfold Formatter.around at e
  cases hp : p with
  | none => rw [hp] at e; exact nomatch e
  | some x => rw [hp] at e; cases e; rfl

end PhpLs.Formatter
