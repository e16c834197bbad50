import Verif.ParserRel

/-!
# The grammar respects every logical relation

For every grammar function `f`: `f r1` and `f r2` are related if the knots `r1` and `r2` are.  `rel_knot` ties the knot:
the whole parser with fuel `n` is related to the whole parser with fuel `m ≥ n`.
-/

namespace PhpLs.Parser

open PhpLs

namespace LR

attribute [local irreducible] LR.rel Good

variable {L : LR} {r1 r2 : Parser.Rec}

theorem good_paramCommentFor {T : Token → Prop} {doc : Option Node} {k : Token} (h : Good T doc) :
    Good T (DocBlock.paramCommentFor doc k) := by
  unfold DocBlock.paramCommentFor
  split
  · rename_i a b c d ps f g
    good_simp at h
    obtain ⟨-, -, h, -, -⟩ := h
    rw [good_list] at h
    cases hf : ps.find? _ with
    | none => good_simp
    | some n =>
      good_simp
      exact h n (List.mem_of_find?_eq_some hf)
  · good_simp

theorem good_useTraits {T : Token → Prop} {l : List Node} (h : Good T l) : Good T (l.map Node.useTrait) := by
  rw [good_list] at h ⊢
  intro a ha
  obtain ⟨b, hb, rfl⟩ := List.mem_map.1 ha
  good_simp
  exact h b hb

theorem good_fold {T : Token → Prop} {l : List Token} {n : Node} (h : Good T l) (hn : Good T n) :
    Good T (l.foldl (fun root link => .aliasedVariable link root) n) := by
  induction l generalizing n with
  | nil => exact hn
  | cons k l ih =>
    good_simp at h
    exact ih h.2 (by good_simp; exact ⟨h.1, hn⟩)

theorem rel_moreByComma (hr : L.Rec r1 r2) {item1 item2 : P Node} {acc : List Node} (hitem : L.rel item1 item2) (hacc : Good L.T acc) :
    L.rel (moreByComma r1 item1 acc) (moreByComma r2 item2 acc) := by
  unfold moreByComma
  rel_auto

macro_rules | `(tactic| rel_lem) => `(tactic| with_reducible refine rel_moreByComma ‹_› ?_ ?_)

theorem rel_attribute' (hr : L.Rec r1 r2)  :
    L.rel (attribute' r1) (attribute' r2) := by
  unfold attribute'
  rel_auto

macro_rules | `(tactic| rel_lem) => `(tactic| with_reducible exact rel_attribute' ‹_›)

theorem rel_attributesBlock (hr : L.Rec r1 r2)  :
    L.rel (attributesBlock r1) (attributesBlock r2) := by
  unfold attributesBlock
  rel_auto

macro_rules | `(tactic| rel_lem) => `(tactic| with_reducible exact rel_attributesBlock ‹_›)

theorem rel_nonEmptyTypeRef (hr : L.Rec r1 r2)  :
    L.rel (nonEmptyTypeRef r1) (nonEmptyTypeRef r2) := by
  unfold nonEmptyTypeRef
  rel_auto

macro_rules | `(tactic| rel_lem) => `(tactic| with_reducible exact rel_nonEmptyTypeRef ‹_›)

theorem rel_typeRefList (hr : L.Rec r1 r2)  :
    L.rel (typeRefList r1) (typeRefList r2) := by
  unfold typeRefList
  rel_auto

macro_rules | `(tactic| rel_lem) => `(tactic| with_reducible exact rel_typeRefList ‹_›)

theorem rel_typeRef (hr : L.Rec r1 r2)  :
    L.rel (typeRef r1) (typeRef r2) := by
  unfold typeRef
  rel_auto

macro_rules | `(tactic| rel_lem) => `(tactic| with_reducible exact rel_typeRef ‹_›)

theorem rel_nonEmptyNamespaceRef (hr : L.Rec r1 r2)  :
    L.rel (nonEmptyNamespaceRef r1) (nonEmptyNamespaceRef r2) := by
  unfold nonEmptyNamespaceRef
  rel_auto

macro_rules | `(tactic| rel_lem) => `(tactic| with_reducible exact rel_nonEmptyNamespaceRef ‹_›)

theorem rel_moreByOr (hr : L.Rec r1 r2) {acc : List Node} (hacc : Good L.T acc) :
    L.rel (moreByOr r1 acc) (moreByOr r2 acc) := by
  unfold moreByOr
  rel_auto

macro_rules | `(tactic| rel_lem) => `(tactic| with_reducible refine rel_moreByOr ‹_› ?_)

theorem rel_nonEmptyTypeRefUnion (hr : L.Rec r1 r2)  :
    L.rel (nonEmptyTypeRefUnion r1) (nonEmptyTypeRefUnion r2) := by
  unfold nonEmptyTypeRefUnion
  rel_auto

macro_rules | `(tactic| rel_lem) => `(tactic| with_reducible exact rel_nonEmptyTypeRefUnion ‹_›)

theorem rel_typeRefUnion (hr : L.Rec r1 r2)  :
    L.rel (typeRefUnion r1) (typeRefUnion r2) := by
  unfold typeRefUnion
  rel_auto

macro_rules | `(tactic| rel_lem) => `(tactic| with_reducible exact rel_typeRefUnion ‹_›)

theorem rel_dataType (hr : L.Rec r1 r2)  :
    L.rel (dataType r1) (dataType r2) := by
  unfold dataType
  rel_auto

macro_rules | `(tactic| rel_lem) => `(tactic| with_reducible exact rel_dataType ‹_›)

theorem rel_variable' (hr : L.Rec r1 r2)  :
    L.rel (variable' r1) (variable' r2) := by
  unfold variable'
  rel_auto
  · rename_i list hlist _ _ _ v hv _
    good_simp at hlist
    refine (good_inr _).2 (good_fold ?_ ?_)
    · good_simp; exact hlist
    · good_simp; exact (good_token _).1 hv
  · rename_i list hlist _ _ _ _ he
    good_simp at hlist
    exact rel_panic (L.endOk _ hlist.1 he)
  · rename_i list hlist _ _ _ _ _ he _ _
    good_simp at hlist
    good_simp; exact L.missingOk _ _ hlist.1 he

macro_rules | `(tactic| rel_lem) => `(tactic| with_reducible exact rel_variable' ‹_›)

theorem rel_globalVariables (hr : L.Rec r1 r2)  :
    L.rel (globalVariables r1) (globalVariables r2) := by
  unfold globalVariables
  rel_auto

macro_rules | `(tactic| rel_lem) => `(tactic| with_reducible exact rel_globalVariables ‹_›)

theorem rel_staticVariables (hr : L.Rec r1 r2) {token : Token} (htoken : Good L.T token) :
    L.rel (staticVariables r1 token) (staticVariables r2 token) := by
  unfold staticVariables
  rel_auto

macro_rules | `(tactic| rel_lem) => `(tactic| with_reducible refine rel_staticVariables ‹_› ?_)

theorem rel_constEntry (hr : L.Rec r1 r2)  :
    L.rel (constEntry r1) (constEntry r2) := by
  unfold constEntry
  rel_auto

macro_rules | `(tactic| rel_lem) => `(tactic| with_reducible exact rel_constEntry ‹_›)

theorem rel_constStatement (hr : L.Rec r1 r2)  :
    L.rel (constStatement r1) (constStatement r2) := by
  unfold constStatement
  rel_auto

macro_rules | `(tactic| rel_lem) => `(tactic| with_reducible exact rel_constStatement ‹_›)

theorem rel_lexicalVariable  :
    L.rel (lexicalVariable) (lexicalVariable) := by
  unfold lexicalVariable
  rel_auto

macro_rules | `(tactic| rel_lem) => `(tactic| with_reducible exact rel_lexicalVariable)

theorem rel_nonEmptyLexicalVariablesList (hr : L.Rec r1 r2)  :
    L.rel (nonEmptyLexicalVariablesList r1) (nonEmptyLexicalVariablesList r2) := by
  unfold nonEmptyLexicalVariablesList
  rel_auto

macro_rules | `(tactic| rel_lem) => `(tactic| with_reducible exact rel_nonEmptyLexicalVariablesList ‹_›)

theorem rel_arrayPair (hr : L.Rec r1 r2)  :
    L.rel (arrayPair r1) (arrayPair r2) := by
  unfold arrayPair
  rel_auto

macro_rules | `(tactic| rel_lem) => `(tactic| with_reducible exact rel_arrayPair ‹_›)

theorem rel_pairsUntil (hr : L.Rec r1 r2) (close : TT) :
    L.rel (pairsUntil r1 close) (pairsUntil r2 close) := by
  unfold pairsUntil
  rel_auto

macro_rules | `(tactic| rel_lem) => `(tactic| with_reducible exact rel_pairsUntil ‹_› _)

theorem rel_array (hr : L.Rec r1 r2)  :
    L.rel (array r1) (array r2) := by
  unfold array
  rel_auto

macro_rules | `(tactic| rel_lem) => `(tactic| with_reducible exact rel_array ‹_›)

theorem rel_oldArray (hr : L.Rec r1 r2)  :
    L.rel (oldArray r1) (oldArray r2) := by
  unfold oldArray
  rel_auto

macro_rules | `(tactic| rel_lem) => `(tactic| with_reducible exact rel_oldArray ‹_›)

theorem rel_list (hr : L.Rec r1 r2)  :
    L.rel (list r1) (list r2) := by
  unfold list
  rel_auto

macro_rules | `(tactic| rel_lem) => `(tactic| with_reducible exact rel_list ‹_›)

theorem rel_statementInto (hr : L.Rec r1 r2) {stmts : List Node} (hstmts : Good L.T stmts) :
    L.rel (statementInto r1 stmts) (statementInto r2 stmts) := by
  unfold statementInto
  rel_auto

macro_rules | `(tactic| rel_lem) => `(tactic| with_reducible refine rel_statementInto ‹_› ?_)

theorem rel_statementsUntil (hr : L.Rec r1 r2) (site : Site) (stop : List TT) :
    L.rel (statementsUntil r1 site stop) (statementsUntil r2 site stop) := by
  unfold statementsUntil
  rel_auto

macro_rules | `(tactic| rel_lem) => `(tactic| with_reducible exact rel_statementsUntil ‹_› _ _)

theorem rel_block (hr : L.Rec r1 r2)  :
    L.rel (block r1) (block r2) := by
  unfold block
  rel_auto

macro_rules | `(tactic| rel_lem) => `(tactic| with_reducible exact rel_block ‹_›)

theorem rel_alternativeBlock (hr : L.Rec r1 r2) (terminator : TT) :
    L.rel (alternativeBlock r1 terminator) (alternativeBlock r2 terminator) := by
  unfold alternativeBlock
  rel_auto

macro_rules | `(tactic| rel_lem) => `(tactic| with_reducible exact rel_alternativeBlock ‹_› _)

theorem rel_alternativeBlockOrStatement (hr : L.Rec r1 r2) (terminator : TT) :
    L.rel (alternativeBlockOrStatement r1 terminator) (alternativeBlockOrStatement r2 terminator) := by
  unfold alternativeBlockOrStatement
  rel_auto

macro_rules | `(tactic| rel_lem) => `(tactic| with_reducible exact rel_alternativeBlockOrStatement ‹_› _)

theorem rel_argumentType (hr : L.Rec r1 r2)  :
    L.rel (argumentType r1) (argumentType r2) := by
  unfold argumentType
  rel_auto

macro_rules | `(tactic| rel_lem) => `(tactic| with_reducible exact rel_argumentType ‹_›)

theorem rel_argument (hr : L.Rec r1 r2) {doc : Option Node} (hdoc : Good L.T doc) :
    L.rel (argument r1 doc) (argument r2 doc) := by
  have hc := fun k => good_paramCommentFor (k := k) hdoc
  unfold argument
  rel_auto

macro_rules | `(tactic| rel_lem) => `(tactic| with_reducible refine rel_argument ‹_› ?_)

theorem rel_argumentList (hr : L.Rec r1 r2) {doc : Option Node} (hdoc : Good L.T doc) :
    L.rel (argumentList r1 doc) (argumentList r2 doc) := by
  unfold argumentList
  rel_auto

macro_rules | `(tactic| rel_lem) => `(tactic| with_reducible refine rel_argumentList ‹_› ?_)

theorem rel_returnType (hr : L.Rec r1 r2)  :
    L.rel (returnType r1) (returnType r2) := by
  unfold returnType
  rel_auto

macro_rules | `(tactic| rel_lem) => `(tactic| with_reducible exact rel_returnType ‹_›)

theorem rel_anonymousFunctionStatement (hr : L.Rec r1 r2) {doc : Option Node} (hdoc : Good L.T doc) :
    L.rel (anonymousFunctionStatement r1 doc) (anonymousFunctionStatement r2 doc) := by
  unfold anonymousFunctionStatement
  rel_auto

macro_rules | `(tactic| rel_lem) => `(tactic| with_reducible refine rel_anonymousFunctionStatement ‹_› ?_)

theorem rel_namedFunction (hr : L.Rec r1 r2) {doc : Option Node} {attributes : List Node} (hdoc : Good L.T doc) (hattributes : Good L.T attributes) :
    L.rel (namedFunction r1 doc attributes) (namedFunction r2 doc attributes) := by
  unfold namedFunction
  rel_auto

macro_rules | `(tactic| rel_lem) => `(tactic| with_reducible refine rel_namedFunction ‹_› ?_ ?_)

theorem rel_arrowFunction (hr : L.Rec r1 r2) {isStatic : Option Token} {attributes : List Node} (hisStatic : Good L.T isStatic) (hattributes : Good L.T attributes) :
    L.rel (arrowFunction r1 isStatic attributes) (arrowFunction r2 isStatic attributes) := by
  unfold arrowFunction
  rel_auto

macro_rules | `(tactic| rel_lem) => `(tactic| with_reducible refine rel_arrowFunction ‹_› ?_ ?_)

theorem rel_anonymousFunction (hr : L.Rec r1 r2) {isStatic : Option Token} {attributes : List Node} (hisStatic : Good L.T isStatic) (hattributes : Good L.T attributes) :
    L.rel (anonymousFunction r1 isStatic attributes) (anonymousFunction r2 isStatic attributes) := by
  unfold anonymousFunction
  rel_auto

macro_rules | `(tactic| rel_lem) => `(tactic| with_reducible refine rel_anonymousFunction ‹_› ?_ ?_)

theorem rel_parametersUntil (hr : L.Rec r1 r2) {acc : List Node} (hacc : Good L.T acc) :
    L.rel (parametersUntil r1 acc) (parametersUntil r2 acc) := by
  unfold parametersUntil
  rel_auto

macro_rules | `(tactic| rel_lem) => `(tactic| with_reducible refine rel_parametersUntil ‹_› ?_)

theorem rel_nonEmptyParameterList (hr : L.Rec r1 r2)  :
    L.rel (nonEmptyParameterList r1) (nonEmptyParameterList r2) := by
  unfold nonEmptyParameterList
  rel_auto

macro_rules | `(tactic| rel_lem) => `(tactic| with_reducible exact rel_nonEmptyParameterList ‹_›)

theorem rel_parameterList (hr : L.Rec r1 r2)  :
    L.rel (parameterList r1) (parameterList r2) := by
  unfold parameterList
  rel_auto

macro_rules | `(tactic| rel_lem) => `(tactic| with_reducible exact rel_parameterList ‹_›)

theorem rel_returnStatement (hr : L.Rec r1 r2)  :
    L.rel (returnStatement r1) (returnStatement r2) := by
  unfold returnStatement
  rel_auto

macro_rules | `(tactic| rel_lem) => `(tactic| with_reducible exact rel_returnStatement ‹_›)

theorem rel_identifierList (hr : L.Rec r1 r2)  :
    L.rel (identifierList r1) (identifierList r2) := by
  unfold identifierList
  rel_auto

macro_rules | `(tactic| rel_lem) => `(tactic| with_reducible exact rel_identifierList ‹_›)

theorem rel_alteration (hr : L.Rec r1 r2)  :
    L.rel (alteration r1) (alteration r2) := by
  unfold alteration
  rel_auto

macro_rules | `(tactic| rel_lem) => `(tactic| with_reducible exact rel_alteration ‹_›)

theorem rel_traitUsageAlterationGroup (hr : L.Rec r1 r2) {typeRefs : List Node} (htypeRefs : Good L.T typeRefs) :
    L.rel (traitUsageAlterationGroup r1 typeRefs) (traitUsageAlterationGroup r2 typeRefs) := by
  unfold traitUsageAlterationGroup
  rel_auto

macro_rules | `(tactic| rel_lem) => `(tactic| with_reducible refine rel_traitUsageAlterationGroup ‹_› ?_)

theorem rel_traitUsages (hr : L.Rec r1 r2)  :
    L.rel (traitUsages r1) (traitUsages r2) := by
  have hu := fun l => @good_useTraits L.T l
  unfold traitUsages
  rel_auto

macro_rules | `(tactic| rel_lem) => `(tactic| with_reducible exact rel_traitUsages ‹_›)

theorem rel_useTraitStatement (hr : L.Rec r1 r2)  :
    L.rel (useTraitStatement r1) (useTraitStatement r2) := by
  unfold useTraitStatement
  rel_auto

macro_rules | `(tactic| rel_lem) => `(tactic| with_reducible exact rel_useTraitStatement ‹_›)

theorem rel_modifiers (hr : L.Rec r1 r2)  :
    L.rel (modifiers r1) (modifiers r2) := by
  unfold modifiers
  rel_auto

macro_rules | `(tactic| rel_lem) => `(tactic| with_reducible exact rel_modifiers ‹_›)

theorem rel_classConsts (hr : L.Rec r1 r2) {visibility : Option Token} (hvisibility : Good L.T visibility) :
    L.rel (classConsts r1 visibility) (classConsts r2 visibility) := by
  unfold classConsts
  rel_auto

macro_rules | `(tactic| rel_lem) => `(tactic| with_reducible refine rel_classConsts ‹_› ?_)

theorem rel_classProps (hr : L.Rec r1 r2)  :
    L.rel (classProps r1) (classProps r2) := by
  unfold classProps
  rel_auto

macro_rules | `(tactic| rel_lem) => `(tactic| with_reducible exact rel_classProps ‹_›)

theorem rel_classMember (hr : L.Rec r1 r2) {doc : Option Node} {attributes : List Node} (hdoc : Good L.T doc) (hattributes : Good L.T attributes) :
    L.rel (classMember r1 doc attributes) (classMember r2 doc attributes) := by
  unfold classMember
  rel_auto

macro_rules | `(tactic| rel_lem) => `(tactic| with_reducible refine rel_classMember ‹_› ?_ ?_)

theorem rel_classBlockStatement (hr : L.Rec r1 r2)  :
    L.rel (classBlockStatement r1) (classBlockStatement r2) := by
  unfold classBlockStatement
  rel_auto

macro_rules | `(tactic| rel_lem) => `(tactic| with_reducible exact rel_classBlockStatement ‹_›)

theorem rel_classBlock (hr : L.Rec r1 r2)  :
    L.rel (classBlock r1) (classBlock r2) := by
  unfold classBlock
  rel_auto

macro_rules | `(tactic| rel_lem) => `(tactic| with_reducible exact rel_classBlock ‹_›)

theorem rel_extendsOne (hr : L.Rec r1 r2)  :
    L.rel (extendsOne r1) (extendsOne r2) := by
  unfold extendsOne
  rel_auto

macro_rules | `(tactic| rel_lem) => `(tactic| with_reducible exact rel_extendsOne ‹_›)

theorem rel_clauseList (hr : L.Rec r1 r2) (t : TT) :
    L.rel (clauseList r1 t) (clauseList r2 t) := by
  unfold clauseList
  rel_auto

macro_rules | `(tactic| rel_lem) => `(tactic| with_reducible exact rel_clauseList ‹_› _)

theorem rel_classStatement (hr : L.Rec r1 r2) {isAbstract : Option Token} {isFinal : Option Token} {attributes : List Node} (hisAbstract : Good L.T isAbstract) (hisFinal : Good L.T isFinal) (hattributes : Good L.T attributes) :
    L.rel (classStatement r1 isAbstract isFinal attributes) (classStatement r2 isAbstract isFinal attributes) := by
  unfold classStatement
  rel_auto

macro_rules | `(tactic| rel_lem) => `(tactic| with_reducible refine rel_classStatement ‹_› ?_ ?_ ?_)

theorem rel_abstractClassStatement (hr : L.Rec r1 r2) {attributes : List Node} (hattributes : Good L.T attributes) :
    L.rel (abstractClassStatement r1 attributes) (abstractClassStatement r2 attributes) := by
  unfold abstractClassStatement
  rel_auto

macro_rules | `(tactic| rel_lem) => `(tactic| with_reducible refine rel_abstractClassStatement ‹_› ?_)

theorem rel_finalClassStatement (hr : L.Rec r1 r2) {attributes : List Node} (hattributes : Good L.T attributes) :
    L.rel (finalClassStatement r1 attributes) (finalClassStatement r2 attributes) := by
  unfold finalClassStatement
  rel_auto

macro_rules | `(tactic| rel_lem) => `(tactic| with_reducible refine rel_finalClassStatement ‹_› ?_)

theorem rel_anonymousClass (hr : L.Rec r1 r2) {attributes : List Node} (hattributes : Good L.T attributes) :
    L.rel (anonymousClass r1 attributes) (anonymousClass r2 attributes) := by
  unfold anonymousClass
  rel_auto

macro_rules | `(tactic| rel_lem) => `(tactic| with_reducible refine rel_anonymousClass ‹_› ?_)

theorem rel_interface' (hr : L.Rec r1 r2)  :
    L.rel (interface' r1) (interface' r2) := by
  unfold interface'
  rel_auto

macro_rules | `(tactic| rel_lem) => `(tactic| with_reducible exact rel_interface' ‹_›)

theorem rel_traitStatement (hr : L.Rec r1 r2)  :
    L.rel (traitStatement r1) (traitStatement r2) := by
  unfold traitStatement
  rel_auto

macro_rules | `(tactic| rel_lem) => `(tactic| with_reducible exact rel_traitStatement ‹_›)

theorem rel_callParameter (hr : L.Rec r1 r2)  :
    L.rel (callParameter r1) (callParameter r2) := by
  unfold callParameter
  rel_auto

macro_rules | `(tactic| rel_lem) => `(tactic| with_reducible exact rel_callParameter ‹_›)

theorem rel_finishCall (hr : L.Rec r1 r2) {expr : Node} (hexpr : Good L.T expr) :
    L.rel (finishCall r1 expr) (finishCall r2 expr) := by
  unfold finishCall
  rel_auto

macro_rules | `(tactic| rel_lem) => `(tactic| with_reducible refine rel_finishCall ‹_› ?_)

theorem rel_memberAccess (hr : L.Rec r1 r2) {expr : Node} {os : Token} (hexpr : Good L.T expr) (hos : Good L.T os) :
    L.rel (memberAccess r1 expr os) (memberAccess r2 expr os) := by
  unfold memberAccess
  rel_auto

macro_rules | `(tactic| rel_lem) => `(tactic| with_reducible refine rel_memberAccess ‹_› ?_ ?_)

theorem rel_staticAccess (hr : L.Rec r1 r2) {expr : Node} {pn : Token} (hexpr : Good L.T expr) (hpn : Good L.T pn) :
    L.rel (staticAccess r1 expr pn) (staticAccess r2 expr pn) := by
  unfold staticAccess
  rel_auto

macro_rules | `(tactic| rel_lem) => `(tactic| with_reducible refine rel_staticAccess ‹_› ?_ ?_)

theorem rel_fieldAccess (hr : L.Rec r1 r2) {expr : Node} {ob : Token} (hexpr : Good L.T expr) (hob : Good L.T ob) :
    L.rel (fieldAccess r1 expr ob) (fieldAccess r2 expr ob) := by
  unfold fieldAccess
  rel_auto

macro_rules | `(tactic| rel_lem) => `(tactic| with_reducible refine rel_fieldAccess ‹_› ?_ ?_)

theorem rel_initCall (hr : L.Rec r1 r2) {expr : Node} (hexpr : Good L.T expr) :
    L.rel (initCall r1 expr) (initCall r2 expr) := by
  unfold initCall
  rel_auto

macro_rules | `(tactic| rel_lem) => `(tactic| with_reducible refine rel_initCall ‹_› ?_)

theorem rel_matchArm (hr : L.Rec r1 r2)  :
    L.rel (matchArm r1) (matchArm r2) := by
  unfold matchArm
  rel_auto

macro_rules | `(tactic| rel_lem) => `(tactic| with_reducible exact rel_matchArm ‹_›)

theorem rel_matchOption (hr : L.Rec r1 r2)  :
    L.rel (matchOption r1) (matchOption r2) := by
  unfold matchOption
  rel_auto

macro_rules | `(tactic| rel_lem) => `(tactic| with_reducible exact rel_matchOption ‹_›)

theorem rel_matchBody (hr : L.Rec r1 r2)  :
    L.rel (matchBody r1) (matchBody r2) := by
  unfold matchBody
  rel_auto

macro_rules | `(tactic| rel_lem) => `(tactic| with_reducible exact rel_matchBody ‹_›)

theorem rel_primaryRest  :
    L.rel (primaryRest) (primaryRest) := by
  unfold primaryRest
  rel_auto

macro_rules | `(tactic| rel_lem) => `(tactic| with_reducible exact rel_primaryRest)

theorem rel_primaryNew (hr : L.Rec r1 r2)  :
    L.rel (primaryNew r1) (primaryNew r2) := by
  unfold primaryNew
  rel_auto

macro_rules | `(tactic| rel_lem) => `(tactic| with_reducible exact rel_primaryNew ‹_›)

theorem rel_primaryStatic (hr : L.Rec r1 r2) {token : Token} {attributes : List Node} (htoken : Good L.T token) (hattributes : Good L.T attributes) :
    L.rel (primaryStatic r1 token attributes) (primaryStatic r2 token attributes) := by
  unfold primaryStatic
  rel_auto

macro_rules | `(tactic| rel_lem) => `(tactic| with_reducible refine rel_primaryStatic ‹_› ?_ ?_)

theorem rel_primaryAttr (hr : L.Rec r1 r2)  :
    L.rel (primaryAttr r1) (primaryAttr r2) := by
  unfold primaryAttr
  rel_auto

macro_rules | `(tactic| rel_lem) => `(tactic| with_reducible exact rel_primaryAttr ‹_›)

theorem rel_primaryArray (hr : L.Rec r1 r2)  :
    L.rel (primaryArray r1) (primaryArray r2) := by
  unfold primaryArray
  rel_auto

macro_rules | `(tactic| rel_lem) => `(tactic| with_reducible exact rel_primaryArray ‹_›)

theorem rel_primaryIsset (hr : L.Rec r1 r2)  :
    L.rel (primaryIsset r1) (primaryIsset r2) := by
  unfold primaryIsset
  rel_auto

macro_rules | `(tactic| rel_lem) => `(tactic| with_reducible exact rel_primaryIsset ‹_›)

theorem rel_primary (hr : L.Rec r1 r2)  :
    L.rel (primary r1) (primary r2) := by
  unfold primary
  rel_auto

macro_rules | `(tactic| rel_lem) => `(tactic| with_reducible exact rel_primary ‹_›)

theorem rel_callF (hr : L.Rec r1 r2)  :
    L.rel (callF r1) (callF r2) := by
  unfold callF
  rel_auto

macro_rules | `(tactic| rel_lem) => `(tactic| with_reducible exact rel_callF ‹_›)

theorem rel_operand (hr : L.Rec r1 r2)  :
    L.rel (operand r1) (operand r2) := by
  unfold operand
  rel_auto

macro_rules | `(tactic| rel_lem) => `(tactic| with_reducible exact rel_operand ‹_›)

theorem rel_infixRhs (hr : L.Rec r1 r2) {lhs : Node} {op : Token} (rb : Nat) (hlhs : Good L.T lhs) (hop : Good L.T op) :
    L.rel (infixRhs r1 lhs op rb) (infixRhs r2 lhs op rb) := by
  unfold infixRhs
  rel_auto

macro_rules | `(tactic| rel_lem) => `(tactic| with_reducible refine rel_infixRhs ‹_› _ ?_ ?_)

theorem rel_operators (hr : L.Rec r1 r2) (minBp : Nat) {lhs : Node} (hlhs : Good L.T lhs) :
    L.rel (operators r1 minBp lhs) (operators r2 minBp lhs) := by
  unfold operators
  rel_auto

macro_rules | `(tactic| rel_lem) => `(tactic| with_reducible refine rel_operators ‹_› _ ?_)

theorem rel_expressionF (hr : L.Rec r1 r2) (minBp : Nat) :
    L.rel (expressionF r1 minBp) (expressionF r2 minBp) := by
  unfold expressionF
  rel_auto

macro_rules | `(tactic| rel_lem) => `(tactic| with_reducible exact rel_expressionF ‹_› _)

theorem rel_declareStatement  :
    L.rel (declareStatement) (declareStatement) := by
  unfold declareStatement
  rel_auto

macro_rules | `(tactic| rel_lem) => `(tactic| with_reducible exact rel_declareStatement)

theorem rel_unsetStatement (hr : L.Rec r1 r2)  :
    L.rel (unsetStatement r1) (unsetStatement r2) := by
  unfold unsetStatement
  rel_auto

macro_rules | `(tactic| rel_lem) => `(tactic| with_reducible exact rel_unsetStatement ‹_›)

theorem rel_dieStatement (hr : L.Rec r1 r2)  :
    L.rel (dieStatement r1) (dieStatement r2) := by
  unfold dieStatement
  rel_auto

macro_rules | `(tactic| rel_lem) => `(tactic| with_reducible exact rel_dieStatement ‹_›)

theorem rel_defineStatement (hr : L.Rec r1 r2)  :
    L.rel (defineStatement r1) (defineStatement r2) := by
  unfold defineStatement
  rel_auto

macro_rules | `(tactic| rel_lem) => `(tactic| with_reducible exact rel_defineStatement ‹_›)

theorem rel_echoStatement (hr : L.Rec r1 r2)  :
    L.rel (echoStatement r1) (echoStatement r2) := by
  unfold echoStatement
  rel_auto

macro_rules | `(tactic| rel_lem) => `(tactic| with_reducible exact rel_echoStatement ‹_›)

theorem rel_shortTagEchoStatement (hr : L.Rec r1 r2)  :
    L.rel (shortTagEchoStatement r1) (shortTagEchoStatement r2) := by
  unfold shortTagEchoStatement
  rel_auto

macro_rules | `(tactic| rel_lem) => `(tactic| with_reducible exact rel_shortTagEchoStatement ‹_›)

theorem rel_printStatement (hr : L.Rec r1 r2)  :
    L.rel (printStatement r1) (printStatement r2) := by
  unfold printStatement
  rel_auto

macro_rules | `(tactic| rel_lem) => `(tactic| with_reducible exact rel_printStatement ‹_›)

theorem rel_gotoStatement  :
    L.rel (gotoStatement) (gotoStatement) := by
  unfold gotoStatement
  rel_auto

macro_rules | `(tactic| rel_lem) => `(tactic| with_reducible exact rel_gotoStatement)

theorem rel_catchBlock (hr : L.Rec r1 r2)  :
    L.rel (catchBlock r1) (catchBlock r2) := by
  unfold catchBlock
  rel_auto

macro_rules | `(tactic| rel_lem) => `(tactic| with_reducible exact rel_catchBlock ‹_›)

theorem rel_tryCatchStatement (hr : L.Rec r1 r2)  :
    L.rel (tryCatchStatement r1) (tryCatchStatement r2) := by
  unfold tryCatchStatement
  rel_auto

macro_rules | `(tactic| rel_lem) => `(tactic| with_reducible exact rel_tryCatchStatement ‹_›)

theorem rel_throwStatement (hr : L.Rec r1 r2)  :
    L.rel (throwStatement r1) (throwStatement r2) := by
  unfold throwStatement
  rel_auto

macro_rules | `(tactic| rel_lem) => `(tactic| with_reducible exact rel_throwStatement ‹_›)

theorem rel_forPart (hr : L.Rec r1 r2) (stop : TT) :
    L.rel (forPart r1 stop) (forPart r2 stop) := by
  unfold forPart
  rel_auto

macro_rules | `(tactic| rel_lem) => `(tactic| with_reducible exact rel_forPart ‹_› _)

theorem rel_forStatement (hr : L.Rec r1 r2)  :
    L.rel (forStatement r1) (forStatement r2) := by
  unfold forStatement
  rel_auto

macro_rules | `(tactic| rel_lem) => `(tactic| with_reducible exact rel_forStatement ‹_›)

theorem rel_whileStatement (hr : L.Rec r1 r2)  :
    L.rel (whileStatement r1) (whileStatement r2) := by
  unfold whileStatement
  rel_auto

macro_rules | `(tactic| rel_lem) => `(tactic| with_reducible exact rel_whileStatement ‹_›)

theorem rel_foreachStatement (hr : L.Rec r1 r2)  :
    L.rel (foreachStatement r1) (foreachStatement r2) := by
  unfold foreachStatement
  rel_auto

macro_rules | `(tactic| rel_lem) => `(tactic| with_reducible exact rel_foreachStatement ‹_›)

theorem rel_doWhileStatement (hr : L.Rec r1 r2)  :
    L.rel (doWhileStatement r1) (doWhileStatement r2) := by
  unfold doWhileStatement
  rel_auto

macro_rules | `(tactic| rel_lem) => `(tactic| with_reducible exact rel_doWhileStatement ‹_›)

theorem rel_plainStatements (hr : L.Rec r1 r2) (stop : List TT) :
    L.rel (plainStatements r1 stop) (plainStatements r2 stop) := by
  unfold plainStatements
  rel_auto

macro_rules | `(tactic| rel_lem) => `(tactic| with_reducible exact rel_plainStatements ‹_› _)

theorem rel_altElseifs (hr : L.Rec r1 r2) {terminator : Token} (hterminator : Good L.T terminator) :
    L.rel (altElseifs r1 terminator) (altElseifs r2 terminator) := by
  unfold altElseifs
  rel_auto

macro_rules | `(tactic| rel_lem) => `(tactic| with_reducible refine rel_altElseifs ‹_› ?_)

theorem rel_ifAlternative (hr : L.Rec r1 r2) {token : Token} {op : Token} {cond : Node} {cp : Token} {colon : Token} (htoken : Good L.T token) (hop : Good L.T op) (hcond : Good L.T cond) (hcp : Good L.T cp) (hcolon : Good L.T colon) :
    L.rel (ifAlternative r1 token op cond cp colon) (ifAlternative r2 token op cond cp colon) := by
  unfold ifAlternative
  rel_auto

macro_rules | `(tactic| rel_lem) => `(tactic| with_reducible refine rel_ifAlternative ‹_› ?_ ?_ ?_ ?_ ?_)

theorem rel_elseifs (hr : L.Rec r1 r2)  :
    L.rel (elseifs r1) (elseifs r2) := by
  unfold elseifs
  rel_auto

macro_rules | `(tactic| rel_lem) => `(tactic| with_reducible exact rel_elseifs ‹_›)

theorem rel_ifStatement (hr : L.Rec r1 r2)  :
    L.rel (ifStatement r1) (ifStatement r2) := by
  unfold ifStatement
  rel_auto

macro_rules | `(tactic| rel_lem) => `(tactic| with_reducible exact rel_ifStatement ‹_›)

theorem rel_caseList (hr : L.Rec r1 r2)  :
    L.rel (caseList r1) (caseList r2) := by
  unfold caseList
  rel_auto

macro_rules | `(tactic| rel_lem) => `(tactic| with_reducible exact rel_caseList ‹_›)

theorem rel_switchBody (hr : L.Rec r1 r2)  :
    L.rel (switchBody r1) (switchBody r2) := by
  unfold switchBody
  rel_auto

macro_rules | `(tactic| rel_lem) => `(tactic| with_reducible exact rel_switchBody ‹_›)

theorem rel_switchStatement (hr : L.Rec r1 r2)  :
    L.rel (switchStatement r1) (switchStatement r2) := by
  unfold switchStatement
  rel_auto

macro_rules | `(tactic| rel_lem) => `(tactic| with_reducible exact rel_switchStatement ‹_›)

theorem rel_namespaceStatement (hr : L.Rec r1 r2)  :
    L.rel (namespaceStatement r1) (namespaceStatement r2) := by
  unfold namespaceStatement
  rel_auto

macro_rules | `(tactic| rel_lem) => `(tactic| with_reducible exact rel_namespaceStatement ‹_›)

theorem rel_importAlias  :
    L.rel (importAlias) (importAlias) := by
  unfold importAlias
  rel_auto

macro_rules | `(tactic| rel_lem) => `(tactic| with_reducible exact rel_importAlias)

theorem rel_symbolImport (hr : L.Rec r1 r2)  :
    L.rel (symbolImport r1) (symbolImport r2) := by
  unfold symbolImport
  rel_auto

macro_rules | `(tactic| rel_lem) => `(tactic| with_reducible exact rel_symbolImport ‹_›)

theorem rel_symbolImports (hr : L.Rec r1 r2)  :
    L.rel (symbolImports r1) (symbolImports r2) := by
  unfold symbolImports
  rel_auto

macro_rules | `(tactic| rel_lem) => `(tactic| with_reducible exact rel_symbolImports ‹_›)

theorem rel_useFunctionStatement (hr : L.Rec r1 r2) {token : Token} (htoken : Good L.T token) :
    L.rel (useFunctionStatement r1 token) (useFunctionStatement r2 token) := by
  unfold useFunctionStatement
  rel_auto

macro_rules | `(tactic| rel_lem) => `(tactic| with_reducible refine rel_useFunctionStatement ‹_› ?_)

theorem rel_useConstStatement (hr : L.Rec r1 r2) {token : Token} (htoken : Good L.T token) :
    L.rel (useConstStatement r1 token) (useConstStatement r2 token) := by
  unfold useConstStatement
  rel_auto

macro_rules | `(tactic| rel_lem) => `(tactic| with_reducible refine rel_useConstStatement ‹_› ?_)

theorem rel_useImport (hr : L.Rec r1 r2) {token : Token} (htoken : Good L.T token) :
    L.rel (useImport r1 token) (useImport r2 token) := by
  unfold useImport
  rel_auto

macro_rules | `(tactic| rel_lem) => `(tactic| with_reducible refine rel_useImport ‹_› ?_)

theorem rel_useStatement (hr : L.Rec r1 r2) {token : Token} (htoken : Good L.T token) :
    L.rel (useStatement r1 token) (useStatement r2 token) := by
  unfold useStatement
  rel_auto

macro_rules | `(tactic| rel_lem) => `(tactic| with_reducible refine rel_useStatement ‹_› ?_)

theorem rel_inlineHtml (hr : L.Rec r1 r2)  :
    L.rel (inlineHtml r1) (inlineHtml r2) := by
  unfold inlineHtml
  rel_auto

macro_rules | `(tactic| rel_lem) => `(tactic| with_reducible exact rel_inlineHtml ‹_›)

theorem rel_expressionStatement (hr : L.Rec r1 r2)  :
    L.rel (expressionStatement r1) (expressionStatement r2) := by
  unfold expressionStatement
  rel_auto

macro_rules | `(tactic| rel_lem) => `(tactic| with_reducible exact rel_expressionStatement ‹_›)

theorem rel_exprThenEnd (hr : L.Rec r1 r2)  :
    L.rel (exprThenEnd r1) (exprThenEnd r2) := by
  unfold exprThenEnd
  rel_auto

macro_rules | `(tactic| rel_lem) => `(tactic| with_reducible exact rel_exprThenEnd ‹_›)

theorem rel_defaultStatement (hr : L.Rec r1 r2)  :
    L.rel (defaultStatement r1) (defaultStatement r2) := by
  unfold defaultStatement
  rel_auto

macro_rules | `(tactic| rel_lem) => `(tactic| with_reducible exact rel_defaultStatement ‹_›)

theorem rel_breakStatement (hr : L.Rec r1 r2) (t : TT) :
    L.rel (breakStatement r1 t) (breakStatement r2 t) := by
  unfold breakStatement
  rel_auto

macro_rules | `(tactic| rel_lem) => `(tactic| with_reducible exact rel_breakStatement ‹_› _)

theorem rel_useCase (hr : L.Rec r1 r2)  :
    L.rel (useCase r1) (useCase r2) := by
  unfold useCase
  rel_auto

macro_rules | `(tactic| rel_lem) => `(tactic| with_reducible exact rel_useCase ‹_›)

theorem rel_dispatch (hr : L.Rec r1 r2) {attributes : List Node} (t : TT) (hattributes : Good L.T attributes) :
    L.rel (dispatch r1 attributes t) (dispatch r2 attributes t) := by
  unfold dispatch
  rel_auto

macro_rules | `(tactic| rel_lem) => `(tactic| with_reducible refine rel_dispatch ‹_› _ ?_)

theorem rel_scriptStatement (hr : L.Rec r1 r2)  :
    L.rel (scriptStatement r1) (scriptStatement r2) := by
  unfold scriptStatement
  rel_auto

macro_rules | `(tactic| rel_lem) => `(tactic| with_reducible exact rel_scriptStatement ‹_›)

theorem rel_reopen  :
    L.rel (reopen) (reopen) := by
  unfold reopen
  rel_auto

macro_rules | `(tactic| rel_lem) => `(tactic| with_reducible exact rel_reopen)

theorem rel_statementF (hr : L.Rec r1 r2)  :
    L.rel (statementF r1) (statementF r2) := by
  unfold statementF
  rel_auto

macro_rules | `(tactic| rel_lem) => `(tactic| with_reducible exact rel_statementF ‹_›)

theorem rel_astLoop (hr : L.Rec r1 r2)  :
    L.rel (astLoop r1) (astLoop r2) := by
  unfold astLoop
  rel_auto

macro_rules | `(tactic| rel_lem) => `(tactic| with_reducible exact rel_astLoop ‹_›)


/-- The parser with less fuel is related to the parser with more fuel. -/
theorem rel_knot {doc : Token → Option Node} (hp : L.rel (popDoc doc) (popDoc doc))
    (hd : L.rel (drainDocs doc) (drainDocs doc)) : ∀ {n m : Nat}, n ≤ m → L.Rec (knot doc n) (knot doc m)
  | 0, 0, _ => ⟨Nat.le_refl _, hp, hd, fun _ => rel_diverge _ _, rel_diverge _ _, rel_diverge _ _⟩
  | 0, m + 1, _ => ⟨Nat.zero_le _, hp, hd, fun _ => rel_diverge _ _, rel_diverge _ _, rel_diverge _ _⟩
  | n + 1, 0, h => absurd h (by omega)
  | n + 1, m + 1, h =>
    have hr := rel_knot hp hd (Nat.le_of_succ_le_succ h)
    ⟨h, hp, hd, fun b => rel_expressionF hr b, rel_statementF hr, rel_callF hr⟩

end LR

end PhpLs.Parser
