import Verif.KeepRun

/-!
# Which tokens the grammar keeps

Every function of the grammar stores the tokens it takes in the value it returns, apart from those of a lost kind and the
exceptions listed in `RKeep`, if the entry points of the recursion do.
-/

namespace PhpLs.Parser

open PhpLs
open scoped List

set_option linter.unusedVariables false

namespace Kp

variable {c : Kp}

/-- The declarations with a body of members. -/
inductive ClassLike (r : Rec) : P Node → Prop
  | «class» a b attributes : ClassLike r (classStatement r a b attributes)
  | interface : ClassLike r (interface' r)
  | trait : ClassLike r (traitStatement r)
  | anonymous attributes : ClassLike r (anonymousClass r attributes)

/-- The entry points of the recursion keep the token, and what excuses its loss: it belongs to a member of a class that fails, to
an alteration of a trait that is neither `as` nor `insteadof`, it is a variable without a value of a `static` statement, it
belongs to the attributes of a statement that is neither a function nor a class or of an expression that is neither a function
nor a class. -/
structure RKeep (c : Kp) (r : Rec) : Prop where
  expression : ∀ b A, c.Keeps A (r.expression b) fun n => A ∨ Has c.k n
  statement : ∀ A, c.Keeps A r.statement fun n => A ∨ Has c.k n
  call : ∀ A, c.Keeps A r.call fun n => A ∨ Has c.k n
  member : ∀ f s n s' s1 e s2, ClassLike r f → Rest s.toks c.all → f s = .ok n s' → s'.errors = [] → c.k ∉ s'.toks →
    Rest s1.toks s.toks → classBlockStatement r s1 = .err e s2 → s2.errors = [] → c.k ∈ s1.toks → c.k ∉ s2.toks → c.X
  alteration : ∀ f s n s' s0 n0 s0' sg tr ng sg' s1 s2, ClassLike r f → Rest s.toks c.all → f s = .ok n s' → s'.errors = [] → c.k ∉ s'.toks →
    Rest s0.toks s.toks → useTraitStatement r s0 = .ok n0 s0' → s0'.errors = [] → c.k ∉ s0'.toks →
    Rest sg.toks s0.toks → traitUsageAlterationGroup r tr sg = .ok ng sg' → sg'.errors = [] → c.k ∉ sg'.toks →
    Rest s1.toks sg.toks → alteration r s1 = .ok none s2 → s2.errors = [] → c.k ∈ s1.toks → c.k ∉ s2.toks → c.X
  statics : ∀ s t s0 n s' s1 s2 s3, Rest s.toks c.all → lookahead (fun k => k.t == .kwStatic) (fun k => k.t == .variable) s = .ok (some t) s0 →
    staticVariables r t s0 = .ok n s' → s'.errors = [] → c.k ∉ s'.toks → Rest s1.toks s0.toks → consume .variable s1 = .ok c.k s2 →
    consumeOrIgnore .assignment s2 = .ok none s3 → s3.errors = [] → c.X
  attrStatement : ∀ s l s1 n s', Rest s.toks c.all → attributesBlock r s = .ok l s1 → scriptStatement r s = .ok n s' → s'.errors = [] →
    c.k ∈ s.toks → Has c.k l → (∀ x, (peekOn s1.toks s1).1 = some x → x.t ∉ [.kwFunction, .kwClass, .kwAbstract, .kwFinal]) → c.X
  attrExpression : ∀ s l s1 n s', Rest s.toks c.all → attributesBlock r s = .ok l s1 → primaryAttr r s = .ok n s' → s'.errors = [] →
    c.k ∈ s.toks → Has c.k l → (∀ x, (peekOn s1.toks s1).1 = some x → x.t ∉ [.kwFunction, .kwClass, .kwFn]) → c.X

/-- Binding a value that holds what was taken for it. -/
theorem Keeps.bindH [Val α] {A : Prop} {f : P α} {g : α → P β} {R : β → Prop} (h : c.Keeps A f fun a => A ∨ Has c.k a)
    (hg : ∀ a, c.Keeps (A ∨ Has c.k a) (g a) R) : c.Keeps A (f >>= g) R := Keeps.bind h hg

/-! ## Tactics -/

/-- Closes the condition at the end of a run: the values that hold the token are parts of the result. -/
macro "keep_leaf" : tactic => `(tactic| (first
  | with_reducible exact fun h => h
  | with_reducible exact fun h => False.elim h
  | with_reducible exact fun _ => trivial
  | (intro h; simp only [has_iff, good, takenOf, ne_eq, not_true_eq_false, not_false_eq_true, or_false, false_or, not_and, Classical.not_imp, and_true, true_and] at h ⊢; done)
  | (intro h; simp only [has_iff, good, takenOf] at h ⊢; grind)
  | (intro h; simp only [has_iff, good, takenOf, good_prod] at h ⊢; grind)))

syntax "keep_lem" : tactic
macro_rules | `(tactic| keep_lem) => `(tactic| fail)
macro_rules | `(tactic| keep_lem) => `(tactic| with_reducible assumption)
macro_rules | `(tactic| keep_lem) => `(tactic| with_reducible first
  | exact RKeep.expression ‹_› _ _
  | exact RKeep.statement ‹_› _
  | exact RKeep.call ‹_› _
  | exact keeps_peek
  | exact keeps_nextOneOf
  | exact keeps_nextIsMember
  | exact keeps_consumeOrIgnore_lost (by decide)
  | exact keeps_consumeOrIgnore
  | exact keeps_consumeOneOfOrIgnore_lost (by decide)
  | exact keeps_consumeOneOfOrIgnore
  | exact keeps_consume_lost (by decide)
  | exact keeps_consume
  | exact keeps_consumeIdentifier
  | exact keeps_consumeOrFfAfter (by decide)
  | exact keeps_consumeOrFfBefore_lost (by decide)
  | exact keeps_consumeOrFfBefore
  | exact keeps_consumeEndOfStatement
  | exact keeps_consumeMember
  | exact keeps_consumeOneOf_lost (by decide)
  | exact keeps_consumeOneOf
  | exact keeps_takeIf
  | exact keeps_takeOr
  | exact keeps_lookahead
  | exact keeps_hereDocBody
  | exact keeps_popDoc
  | exact keeps_drainDocs
  | exact keeps_setCtx
  | exact keeps_getCtx
  | exact keeps_next
  | exact keeps_errorFastForward)

/-- One step of a run. -/
macro "keep_step" : tactic => `(tactic| first
  | with_reducible exact Keeps.fail
  | with_reducible exact Keeps.panic
  | with_reducible exact Keeps.diverge
  | (with_reducible refine Keeps.pure ?_; keep_leaf)
  | with_reducible exact keeps_pushErr
  | ((with_reducible refine keeps_after (B := True) (R := fun _ => True) fun _ => ?_))
  | ((with_reducible refine Keeps.bind (by keep_lem) fun _ => ?_))
  | ((with_reducible refine Keeps.ite (fun _ => ?_) fun _ => ?_))
  | ((with_reducible refine Keeps.loopTail (fun _ _ => ?_) (by intro _; keep_leaf)))
  | ((with_reducible refine Keeps.bind (Keeps.loop fun _ _ => ?_) fun _ => ?_))
  | ((with_reducible refine Keeps.catchErr (by keep_lem) (fun _ => ?_) fun _ => ?_))
  | split
  | ((with_reducible refine Keeps.mono (by keep_lem) fun _ => ?_); keep_leaf)
  | ((with_reducible refine Keeps.bindH ?_ fun _ => ?_)))

macro "keep_auto" : tactic => `(tactic| repeat' keep_step)

variable {r : Rec} {A : Prop}

theorem k_moreByComma {item : P Node} {acc : List Node} (hi : ∀ A, c.Keeps A item fun n => A ∨ Has c.k n) :
    c.Keeps A (moreByComma r item acc) fun l => A ∧ ¬ Has c.k acc ∨ Has c.k l := by
  unfold moreByComma
  refine Keeps.loop fun b A => ?_
  refine Keeps.bind (by keep_lem) fun o => ?_
  split
  · refine Keeps.bind (hi _) fun _ => ?_
    keep_auto
  · keep_auto

macro_rules | `(tactic| keep_lem) => `(tactic| with_reducible exact k_moreByComma fun _ => RKeep.expression ‹_› _ _)

theorem k_attribute' (h : RKeep c r) : c.Keeps A (attribute' r) fun n => A ∨ Has c.k n := by
  unfold attribute'
  refine Keeps.bind (by keep_lem) fun _ => Keeps.bind (by keep_lem) fun _ => Keeps.bind (k_moreByComma fun _ => h.expression _ _) fun _ => ?_
  keep_auto
macro_rules | `(tactic| keep_lem) => `(tactic| with_reducible exact k_attribute' ‹_›)

theorem k_attributesBlock (h : RKeep c r) : c.Keeps A (attributesBlock r) fun n => A ∨ Has c.k n := by
  unfold attributesBlock
  keep_auto
macro_rules | `(tactic| keep_lem) => `(tactic| with_reducible exact k_attributesBlock ‹_›)

theorem k_nonEmptyTypeRef (h : RKeep c r) : c.Keeps A (nonEmptyTypeRef r) fun n => A ∨ Has c.k n := by
  unfold nonEmptyTypeRef
  keep_auto
macro_rules | `(tactic| keep_lem) => `(tactic| with_reducible exact k_nonEmptyTypeRef ‹_›)

macro_rules | `(tactic| keep_lem) => `(tactic| with_reducible exact k_moreByComma fun _ => k_nonEmptyTypeRef ‹_›)

theorem k_typeRefList (h : RKeep c r) : c.Keeps A (typeRefList r) fun n => A ∨ Has c.k n := by
  unfold typeRefList
  keep_auto
macro_rules | `(tactic| keep_lem) => `(tactic| with_reducible exact k_typeRefList ‹_›)

theorem k_typeRef (h : RKeep c r) : c.Keeps A (typeRef r) fun n => A ∨ Has c.k n := by
  unfold typeRef
  keep_auto
  rename_i hx
  have hx := List.isEmpty_iff.1 hx
  subst hx
  keep_auto
macro_rules | `(tactic| keep_lem) => `(tactic| with_reducible exact k_typeRef ‹_›)

theorem k_nonEmptyNamespaceRef (h : RKeep c r) : c.Keeps A (nonEmptyNamespaceRef r) fun n => A ∨ Has c.k n := by
  unfold nonEmptyNamespaceRef
  keep_auto
macro_rules | `(tactic| keep_lem) => `(tactic| with_reducible exact k_nonEmptyNamespaceRef ‹_›)

theorem k_moreByOr {acc : List Node} (h : RKeep c r) : c.Keeps A (moreByOr r acc) fun n => A ∧ ¬ Has c.k acc ∨ Has c.k n := by
  unfold moreByOr
  keep_auto
macro_rules | `(tactic| keep_lem) => `(tactic| with_reducible exact k_moreByOr ‹_›)

theorem k_nonEmptyTypeRefUnion (h : RKeep c r) : c.Keeps A (nonEmptyTypeRefUnion r) fun n => A ∨ Has c.k n := by
  unfold nonEmptyTypeRefUnion
  keep_auto
macro_rules | `(tactic| keep_lem) => `(tactic| with_reducible exact k_nonEmptyTypeRefUnion ‹_›)

theorem k_typeRefUnion (h : RKeep c r) : c.Keeps A (typeRefUnion r) fun n => A ∨ Has c.k n := by
  unfold typeRefUnion
  keep_auto
macro_rules | `(tactic| keep_lem) => `(tactic| with_reducible exact k_typeRefUnion ‹_›)

theorem k_dataType (h : RKeep c r) : c.Keeps A (dataType r) fun n => A ∨ Has c.k n := by
  unfold dataType
  keep_auto
macro_rules | `(tactic| keep_lem) => `(tactic| with_reducible exact k_dataType ‹_›)

theorem good_foldl_aliased {T : Token → Prop} : ∀ (l : List Token) (n : Node),
    Good T (l.foldl (fun root link => Node.aliasedVariable link root) n) ↔ Good T l ∧ Good T n
  | [], n => by simp only [List.foldl_nil, good]
  | k :: l, n => by
    simp only [List.foldl_cons]
    rw [good_foldl_aliased l]
    simp only [good]
    grind

theorem k_variable' (h : RKeep c r) : c.Keeps A (variable' r) fun n => A ∨ Has c.k n := by
  unfold variable'
  keep_auto
  refine Keeps.pure fun h => ?_
  simp only [has_iff, good_inr, good_foldl_aliased] at h ⊢
  simp only [good] at h ⊢
  grind
macro_rules | `(tactic| keep_lem) => `(tactic| with_reducible exact k_variable' ‹_›)

theorem k_globalVariables (h : RKeep c r) : c.Keeps A (globalVariables r) fun n => A ∨ Has c.k n := by
  unfold globalVariables
  keep_auto
macro_rules | `(tactic| keep_lem) => `(tactic| with_reducible exact k_globalVariables ‹_›)

theorem k_constEntry (h : RKeep c r) : c.Keeps A (constEntry r) fun n => A ∨ Has c.k n := by
  unfold constEntry
  keep_auto
macro_rules | `(tactic| keep_lem) => `(tactic| with_reducible exact k_constEntry ‹_›)

theorem k_constStatement (h : RKeep c r) : c.Keeps A (constStatement r) fun n => A ∨ Has c.k n := by
  unfold constStatement
  keep_auto
macro_rules | `(tactic| keep_lem) => `(tactic| with_reducible exact k_constStatement ‹_›)

theorem k_lexicalVariable (h : RKeep c r) : c.Keeps A (lexicalVariable) fun n => A ∨ Has c.k n := by
  unfold lexicalVariable
  keep_auto
macro_rules | `(tactic| keep_lem) => `(tactic| with_reducible exact k_lexicalVariable ‹_›)

theorem k_nonEmptyLexicalVariablesList (h : RKeep c r) : c.Keeps A (nonEmptyLexicalVariablesList r) fun n => A ∨ Has c.k n := by
  unfold nonEmptyLexicalVariablesList
  keep_auto
macro_rules | `(tactic| keep_lem) => `(tactic| with_reducible exact k_nonEmptyLexicalVariablesList ‹_›)

theorem k_arrayPair (h : RKeep c r) : c.Keeps A (arrayPair r) fun n => A ∨ Has c.k n := by
  unfold arrayPair
  keep_auto
macro_rules | `(tactic| keep_lem) => `(tactic| with_reducible exact k_arrayPair ‹_›)

theorem k_pairsUntil {close : TT} (h : RKeep c r) : c.Keeps A (pairsUntil r close) fun n => A ∨ Has c.k n := by
  unfold pairsUntil
  keep_auto
macro_rules | `(tactic| keep_lem) => `(tactic| with_reducible exact k_pairsUntil ‹_›)

theorem k_array (h : RKeep c r) : c.Keeps A (array r) fun n => A ∨ Has c.k n := by
  unfold array
  keep_auto
macro_rules | `(tactic| keep_lem) => `(tactic| with_reducible exact k_array ‹_›)

theorem k_oldArray (h : RKeep c r) : c.Keeps A (oldArray r) fun n => A ∨ Has c.k n := by
  unfold oldArray
  keep_auto
macro_rules | `(tactic| keep_lem) => `(tactic| with_reducible exact k_oldArray ‹_›)

theorem k_list (h : RKeep c r) : c.Keeps A (list r) fun n => A ∨ Has c.k n := by
  unfold list
  keep_auto
macro_rules | `(tactic| keep_lem) => `(tactic| with_reducible exact k_list ‹_›)

theorem k_statementInto {stmts : List Node} (h : RKeep c r) : c.Keeps A (statementInto r stmts) fun n => A ∧ ¬ Has c.k stmts ∨ Has c.k n := by
  unfold statementInto
  keep_auto
macro_rules | `(tactic| keep_lem) => `(tactic| with_reducible exact k_statementInto ‹_›)

theorem k_statementsUntil {site : Site} {stop : List TT} (h : RKeep c r) : c.Keeps A (statementsUntil r site stop) fun n => A ∨ Has c.k n := by
  unfold statementsUntil
  keep_auto
macro_rules | `(tactic| keep_lem) => `(tactic| with_reducible exact k_statementsUntil ‹_›)

theorem k_block (h : RKeep c r) : c.Keeps A (block r) fun n => A ∨ Has c.k n := by
  unfold block
  keep_auto
macro_rules | `(tactic| keep_lem) => `(tactic| with_reducible exact k_block ‹_›)

theorem k_alternativeBlock {t : TT} (h : RKeep c r) : c.Keeps A (alternativeBlock r t) fun n => A ∨ Has c.k n := by
  unfold alternativeBlock
  keep_auto
macro_rules | `(tactic| keep_lem) => `(tactic| with_reducible exact k_alternativeBlock ‹_›)

theorem k_alternativeBlockOrStatement {t : TT} (h : RKeep c r) : c.Keeps A (alternativeBlockOrStatement r t) fun n => A ∨ Has c.k n := by
  unfold alternativeBlockOrStatement
  keep_auto
macro_rules | `(tactic| keep_lem) => `(tactic| with_reducible exact k_alternativeBlockOrStatement ‹_›)

theorem k_argumentType (h : RKeep c r) : c.Keeps A (argumentType r) fun n => A ∨ Has c.k n := by
  unfold argumentType
  keep_auto
macro_rules | `(tactic| keep_lem) => `(tactic| with_reducible exact k_argumentType ‹_›)

theorem k_argument {doc : Option Node} (h : RKeep c r) : c.Keeps A (argument r doc) fun n => A ∨ Has c.k n := by
  unfold argument
  keep_auto
macro_rules | `(tactic| keep_lem) => `(tactic| with_reducible exact k_argument ‹_›)

theorem k_argumentList {doc : Option Node} (h : RKeep c r) : c.Keeps A (argumentList r doc) fun n => A ∨ Has c.k n := by
  unfold argumentList
  keep_auto
macro_rules | `(tactic| keep_lem) => `(tactic| with_reducible exact k_argumentList ‹_›)

theorem k_returnType (h : RKeep c r) : c.Keeps A (returnType r) fun n => A ∨ Has c.k n := by
  unfold returnType
  keep_auto
macro_rules | `(tactic| keep_lem) => `(tactic| with_reducible exact k_returnType ‹_›)

theorem k_anonymousFunctionStatement {doc : Option Node} (h : RKeep c r) : c.Keeps A (anonymousFunctionStatement r doc) fun n => A ∨ Has c.k n := by
  unfold anonymousFunctionStatement
  keep_auto
macro_rules | `(tactic| keep_lem) => `(tactic| with_reducible exact k_anonymousFunctionStatement ‹_›)

theorem k_namedFunction {doc : Option Node} {attributes : List Node} (h : RKeep c r) : c.Keeps A (namedFunction r doc attributes) fun n => A ∧ ¬ Has c.k attributes ∨ Has c.k n := by
  unfold namedFunction
  keep_auto
macro_rules | `(tactic| keep_lem) => `(tactic| with_reducible exact k_namedFunction ‹_›)

theorem k_arrowFunction {st : Option Token} {attributes : List Node} (h : RKeep c r) : c.Keeps A (arrowFunction r st attributes) fun n => A ∧ ¬ Has c.k st ∧ ¬ Has c.k attributes ∨ Has c.k n := by
  unfold arrowFunction
  keep_auto
macro_rules | `(tactic| keep_lem) => `(tactic| with_reducible exact k_arrowFunction ‹_›)

theorem k_anonymousFunction {st : Option Token} {attributes : List Node} (h : RKeep c r) : c.Keeps A (anonymousFunction r st attributes) fun n => A ∧ ¬ Has c.k st ∧ ¬ Has c.k attributes ∨ Has c.k n := by
  unfold anonymousFunction
  keep_auto
macro_rules | `(tactic| keep_lem) => `(tactic| with_reducible exact k_anonymousFunction ‹_›)

theorem k_parametersUntil {acc : List Node} (h : RKeep c r) : c.Keeps A (parametersUntil r acc) fun n => A ∧ ¬ Has c.k acc ∨ Has c.k n := by
  unfold parametersUntil
  keep_auto
macro_rules | `(tactic| keep_lem) => `(tactic| with_reducible exact k_parametersUntil ‹_›)

theorem k_nonEmptyParameterList (h : RKeep c r) : c.Keeps A (nonEmptyParameterList r) fun n => A ∨ Has c.k n := by
  unfold nonEmptyParameterList
  keep_auto
macro_rules | `(tactic| keep_lem) => `(tactic| with_reducible exact k_nonEmptyParameterList ‹_›)

theorem k_parameterList (h : RKeep c r) : c.Keeps A (parameterList r) fun n => A ∨ Has c.k n := by
  unfold parameterList
  keep_auto
macro_rules | `(tactic| keep_lem) => `(tactic| with_reducible exact k_parameterList ‹_›)

theorem k_returnStatement (h : RKeep c r) : c.Keeps A (returnStatement r) fun n => A ∨ Has c.k n := by
  unfold returnStatement
  keep_auto
macro_rules | `(tactic| keep_lem) => `(tactic| with_reducible exact k_returnStatement ‹_›)

theorem k_identifierList (h : RKeep c r) : c.Keeps A (identifierList r) fun n => A ∨ Has c.k n := by
  unfold identifierList
  keep_auto
macro_rules | `(tactic| keep_lem) => `(tactic| with_reducible exact k_identifierList ‹_›)

theorem k_classConsts {visibility : Option Token} (h : RKeep c r) : c.Keeps A (classConsts r visibility) fun l => A ∨ Has c.k l := by
  unfold classConsts
  keep_auto
macro_rules | `(tactic| keep_lem) => `(tactic| with_reducible exact k_classConsts ‹_›)

theorem k_classProps (h : RKeep c r) : c.Keeps A (classProps r) fun n => A ∨ Has c.k n := by
  unfold classProps
  keep_auto
macro_rules | `(tactic| keep_lem) => `(tactic| with_reducible exact k_classProps ‹_›)

theorem k_callParameter (h : RKeep c r) : c.Keeps A (callParameter r) fun n => A ∨ Has c.k n := by
  unfold callParameter
  keep_auto
macro_rules | `(tactic| keep_lem) => `(tactic| with_reducible exact k_callParameter ‹_›)

theorem k_finishCall {expr : Node} (h : RKeep c r) : c.Keeps A (finishCall r expr) fun n => A ∧ ¬ Has c.k expr ∨ Has c.k n := by
  unfold finishCall
  keep_auto
macro_rules | `(tactic| keep_lem) => `(tactic| with_reducible exact k_finishCall ‹_›)

theorem k_memberAccess {expr : Node} {os : Token} (h : RKeep c r) : c.Keeps A (memberAccess r expr os) fun n => A ∧ ¬ Has c.k expr ∧ ¬ Has c.k os ∨ Has c.k n := by
  unfold memberAccess
  keep_auto
macro_rules | `(tactic| keep_lem) => `(tactic| with_reducible exact k_memberAccess ‹_›)

theorem k_staticAccess {expr : Node} {pn : Token} (h : RKeep c r) : c.Keeps A (staticAccess r expr pn) fun n => A ∧ ¬ Has c.k expr ∧ ¬ Has c.k pn ∨ Has c.k n := by
  unfold staticAccess
  keep_auto
macro_rules | `(tactic| keep_lem) => `(tactic| with_reducible exact k_staticAccess ‹_›)

theorem k_fieldAccess {expr : Node} {ob : Token} (h : RKeep c r) : c.Keeps A (fieldAccess r expr ob) fun n => A ∧ ¬ Has c.k expr ∧ ¬ Has c.k ob ∨ Has c.k n := by
  unfold fieldAccess
  keep_auto
macro_rules | `(tactic| keep_lem) => `(tactic| with_reducible exact k_fieldAccess ‹_›)

theorem k_initCall {expr : Node} (h : RKeep c r) : c.Keeps A (initCall r expr) fun n => A ∧ ¬ Has c.k expr ∨ Has c.k n := by
  unfold initCall
  keep_auto
macro_rules | `(tactic| keep_lem) => `(tactic| with_reducible exact k_initCall ‹_›)

theorem k_matchArm (h : RKeep c r) : c.Keeps A (matchArm r) fun n => A ∨ Has c.k n := by
  unfold matchArm
  keep_auto
macro_rules | `(tactic| keep_lem) => `(tactic| with_reducible exact k_matchArm ‹_›)

theorem k_matchOption (h : RKeep c r) : c.Keeps A (matchOption r) fun n => A ∨ Has c.k n := by
  unfold matchOption
  keep_auto
macro_rules | `(tactic| keep_lem) => `(tactic| with_reducible exact k_matchOption ‹_›)

theorem k_matchBody (h : RKeep c r) : c.Keeps A (matchBody r) fun n => A ∨ Has c.k n := by
  unfold matchBody
  keep_auto
macro_rules | `(tactic| keep_lem) => `(tactic| with_reducible exact k_matchBody ‹_›)

theorem k_primaryRest (h : RKeep c r) : c.Keeps A (primaryRest) fun n => A ∨ Has c.k n := by
  unfold primaryRest
  keep_auto
macro_rules | `(tactic| keep_lem) => `(tactic| with_reducible exact k_primaryRest ‹_›)

theorem k_primaryNew (h : RKeep c r) : c.Keeps A (primaryNew r) fun n => A ∨ Has c.k n := by
  unfold primaryNew
  keep_auto
macro_rules | `(tactic| keep_lem) => `(tactic| with_reducible exact k_primaryNew ‹_›)

theorem k_extendsOne (h : RKeep c r) : c.Keeps A (extendsOne r) fun n => A ∨ Has c.k n := by
  unfold extendsOne
  keep_auto
macro_rules | `(tactic| keep_lem) => `(tactic| with_reducible exact k_extendsOne ‹_›)

theorem k_clauseList {t : TT} (h : RKeep c r) (ht : t ∈ lostKinds) : c.Keeps A (clauseList r t) fun n => A ∨ Has c.k n := by
  unfold clauseList
  refine Keeps.bind (keeps_consumeOrIgnore_lost ht) fun _ => ?_
  keep_auto
macro_rules | `(tactic| keep_lem) => `(tactic| with_reducible exact k_clauseList ‹_› (by decide))

theorem k_declareStatement (h : RKeep c r) : c.Keeps A (declareStatement) fun n => A ∨ Has c.k n := by
  unfold declareStatement
  keep_auto
macro_rules | `(tactic| keep_lem) => `(tactic| with_reducible exact k_declareStatement ‹_›)

theorem k_unsetStatement (h : RKeep c r) : c.Keeps A (unsetStatement r) fun n => A ∨ Has c.k n := by
  unfold unsetStatement
  keep_auto
macro_rules | `(tactic| keep_lem) => `(tactic| with_reducible exact k_unsetStatement ‹_›)

theorem k_dieStatement (h : RKeep c r) : c.Keeps A (dieStatement r) fun n => A ∨ Has c.k n := by
  unfold dieStatement
  keep_auto
macro_rules | `(tactic| keep_lem) => `(tactic| with_reducible exact k_dieStatement ‹_›)

theorem k_defineStatement (h : RKeep c r) : c.Keeps A (defineStatement r) fun n => A ∨ Has c.k n := by
  unfold defineStatement
  keep_auto
macro_rules | `(tactic| keep_lem) => `(tactic| with_reducible exact k_defineStatement ‹_›)

theorem k_echoStatement (h : RKeep c r) : c.Keeps A (echoStatement r) fun n => A ∨ Has c.k n := by
  unfold echoStatement
  keep_auto
macro_rules | `(tactic| keep_lem) => `(tactic| with_reducible exact k_echoStatement ‹_›)

theorem k_shortTagEchoStatement (h : RKeep c r) : c.Keeps A (shortTagEchoStatement r) fun n => A ∨ Has c.k n := by
  unfold shortTagEchoStatement
  keep_auto
macro_rules | `(tactic| keep_lem) => `(tactic| with_reducible exact k_shortTagEchoStatement ‹_›)

theorem k_printStatement (h : RKeep c r) : c.Keeps A (printStatement r) fun n => A ∨ Has c.k n := by
  unfold printStatement
  keep_auto
macro_rules | `(tactic| keep_lem) => `(tactic| with_reducible exact k_printStatement ‹_›)

theorem k_gotoStatement (h : RKeep c r) : c.Keeps A (gotoStatement) fun n => A ∨ Has c.k n := by
  unfold gotoStatement
  keep_auto
macro_rules | `(tactic| keep_lem) => `(tactic| with_reducible exact k_gotoStatement ‹_›)

theorem k_catchBlock (h : RKeep c r) : c.Keeps A (catchBlock r) fun n => A ∨ Has c.k n := by
  unfold catchBlock
  keep_auto
macro_rules | `(tactic| keep_lem) => `(tactic| with_reducible exact k_catchBlock ‹_›)

theorem k_tryCatchStatement (h : RKeep c r) : c.Keeps A (tryCatchStatement r) fun n => A ∨ Has c.k n := by
  unfold tryCatchStatement
  keep_auto
macro_rules | `(tactic| keep_lem) => `(tactic| with_reducible exact k_tryCatchStatement ‹_›)

theorem k_throwStatement (h : RKeep c r) : c.Keeps A (throwStatement r) fun n => A ∨ Has c.k n := by
  unfold throwStatement
  keep_auto
macro_rules | `(tactic| keep_lem) => `(tactic| with_reducible exact k_throwStatement ‹_›)

theorem k_forPart {stop : TT} (h : RKeep c r) : c.Keeps A (forPart r stop) fun n => A ∨ Has c.k n := by
  unfold forPart
  keep_auto
macro_rules | `(tactic| keep_lem) => `(tactic| with_reducible exact k_forPart ‹_›)

theorem k_forStatement (h : RKeep c r) : c.Keeps A (forStatement r) fun n => A ∨ Has c.k n := by
  unfold forStatement
  keep_auto
macro_rules | `(tactic| keep_lem) => `(tactic| with_reducible exact k_forStatement ‹_›)

theorem k_whileStatement (h : RKeep c r) : c.Keeps A (whileStatement r) fun n => A ∨ Has c.k n := by
  unfold whileStatement
  keep_auto
macro_rules | `(tactic| keep_lem) => `(tactic| with_reducible exact k_whileStatement ‹_›)

theorem k_foreachStatement (h : RKeep c r) : c.Keeps A (foreachStatement r) fun n => A ∨ Has c.k n := by
  unfold foreachStatement
  keep_auto
macro_rules | `(tactic| keep_lem) => `(tactic| with_reducible exact k_foreachStatement ‹_›)

theorem k_doWhileStatement (h : RKeep c r) : c.Keeps A (doWhileStatement r) fun n => A ∨ Has c.k n := by
  unfold doWhileStatement
  keep_auto
macro_rules | `(tactic| keep_lem) => `(tactic| with_reducible exact k_doWhileStatement ‹_›)

theorem k_plainStatements {stop : List TT} (h : RKeep c r) : c.Keeps A (plainStatements r stop) fun n => A ∨ Has c.k n := by
  unfold plainStatements
  keep_auto
macro_rules | `(tactic| keep_lem) => `(tactic| with_reducible exact k_plainStatements ‹_›)

theorem k_altElseifs {terminator : Token} (h : RKeep c r) : c.Keeps A (altElseifs r terminator) fun p => A ∨ Has c.k p.1 := by
  unfold altElseifs
  refine (Keeps.loopI (I := fun p => A ∨ Has c.k p.1) (Q := fun p => A ∨ Has c.k p.1) (fun b => ?_) _ _).weaken .inl fun _ h => h
  refine Keeps.ite (fun _ => ?_) fun _ => Keeps.pure fun h => h
  refine Keeps.bind (by keep_lem) fun _ => Keeps.bind (by keep_lem) fun _ => Keeps.bind (by keep_lem) fun _ =>
    Keeps.bind (by keep_lem) fun _ => Keeps.bind (by keep_lem) fun _ => Keeps.bind (by keep_lem) fun _ => Keeps.pure ?_
  simp only [Sum.elim_inl]
  keep_leaf
macro_rules | `(tactic| keep_lem) => `(tactic| with_reducible exact k_altElseifs ‹_›)

theorem k_ifAlternative {token op : Token} {cond : Node} {cp colon : Token} (h : RKeep c r) : c.Keeps A (ifAlternative r token op cond cp colon) fun n => A ∧ ¬ Has c.k token ∧ ¬ Has c.k op ∧ ¬ Has c.k cond ∧ ¬ Has c.k cp ∧ ¬ Has c.k colon ∨ Has c.k n := by
  unfold ifAlternative
  keep_auto
macro_rules | `(tactic| keep_lem) => `(tactic| with_reducible exact k_ifAlternative ‹_›)

theorem k_elseifs (h : RKeep c r) : c.Keeps A (elseifs r) fun n => A ∨ Has c.k n := by
  unfold elseifs
  keep_auto
macro_rules | `(tactic| keep_lem) => `(tactic| with_reducible exact k_elseifs ‹_›)

theorem k_ifStatement (h : RKeep c r) : c.Keeps A (ifStatement r) fun n => A ∨ Has c.k n := by
  unfold ifStatement
  keep_auto
macro_rules | `(tactic| keep_lem) => `(tactic| with_reducible exact k_ifStatement ‹_›)

theorem k_caseList (h : RKeep c r) : c.Keeps A (caseList r) fun n => A ∨ Has c.k n := by
  unfold caseList
  refine Keeps.loopTail (fun _ _ => ?_) (by intro _; keep_leaf)
  refine Keeps.bind (keeps_takeIf_lost fun k hk => ?_) fun _ => ?_
  · rcases (Bool.or_eq_true _ _).mp hk with hk | hk <;> rw [eq_of_beq hk] <;> decide
  · keep_auto
macro_rules | `(tactic| keep_lem) => `(tactic| with_reducible exact k_caseList ‹_›)

theorem k_switchBody (h : RKeep c r) : c.Keeps A (switchBody r) fun n => A ∨ Has c.k n := by
  unfold switchBody
  keep_auto
macro_rules | `(tactic| keep_lem) => `(tactic| with_reducible exact k_switchBody ‹_›)

theorem k_switchStatement (h : RKeep c r) : c.Keeps A (switchStatement r) fun n => A ∨ Has c.k n := by
  unfold switchStatement
  keep_auto
macro_rules | `(tactic| keep_lem) => `(tactic| with_reducible exact k_switchStatement ‹_›)

theorem k_namespaceStatement (h : RKeep c r) : c.Keeps A (namespaceStatement r) fun n => A ∨ Has c.k n := by
  unfold namespaceStatement
  keep_auto
macro_rules | `(tactic| keep_lem) => `(tactic| with_reducible exact k_namespaceStatement ‹_›)

theorem k_importAlias (h : RKeep c r) : c.Keeps A (importAlias) fun n => A ∨ Has c.k n := by
  unfold importAlias
  keep_auto
macro_rules | `(tactic| keep_lem) => `(tactic| with_reducible exact k_importAlias ‹_›)

theorem k_symbolImport (h : RKeep c r) : c.Keeps A (symbolImport r) fun n => A ∨ Has c.k n := by
  unfold symbolImport
  keep_auto
macro_rules | `(tactic| keep_lem) => `(tactic| with_reducible exact k_symbolImport ‹_›)

theorem k_symbolImports (h : RKeep c r) : c.Keeps A (symbolImports r) fun n => A ∨ Has c.k n := by
  unfold symbolImports
  keep_auto
macro_rules | `(tactic| keep_lem) => `(tactic| with_reducible exact k_symbolImports ‹_›)

theorem k_useFunctionStatement {token : Token} (h : RKeep c r) : c.Keeps A (useFunctionStatement r token) fun n => A ∧ ¬ Has c.k token ∨ Has c.k n := by
  unfold useFunctionStatement
  keep_auto
macro_rules | `(tactic| keep_lem) => `(tactic| with_reducible exact k_useFunctionStatement ‹_›)

theorem k_useConstStatement {token : Token} (h : RKeep c r) : c.Keeps A (useConstStatement r token) fun n => A ∧ ¬ Has c.k token ∨ Has c.k n := by
  unfold useConstStatement
  keep_auto
macro_rules | `(tactic| keep_lem) => `(tactic| with_reducible exact k_useConstStatement ‹_›)

theorem k_useImport {token : Token} (h : RKeep c r) : c.Keeps A (useImport r token) fun n => A ∧ ¬ Has c.k token ∨ Has c.k n := by
  unfold useImport
  keep_auto
macro_rules | `(tactic| keep_lem) => `(tactic| with_reducible exact k_useImport ‹_›)

theorem k_useStatement {token : Token} (h : RKeep c r) : c.Keeps A (useStatement r token) fun n => A ∧ ¬ Has c.k token ∨ Has c.k n := by
  unfold useStatement
  keep_auto
macro_rules | `(tactic| keep_lem) => `(tactic| with_reducible exact k_useStatement ‹_›)

theorem k_inlineHtml (h : RKeep c r) : c.Keeps A (inlineHtml r) fun n => A ∨ Has c.k n := by
  unfold inlineHtml
  keep_auto
macro_rules | `(tactic| keep_lem) => `(tactic| with_reducible exact k_inlineHtml ‹_›)

theorem k_expressionStatement (h : RKeep c r) : c.Keeps A (expressionStatement r) fun n => A ∨ Has c.k n := by
  unfold expressionStatement
  keep_auto
macro_rules | `(tactic| keep_lem) => `(tactic| with_reducible exact k_expressionStatement ‹_›)

theorem k_exprThenEnd (h : RKeep c r) : c.Keeps A (exprThenEnd r) fun n => A ∨ Has c.k n := by
  unfold exprThenEnd
  keep_auto
macro_rules | `(tactic| keep_lem) => `(tactic| with_reducible exact k_exprThenEnd ‹_›)

theorem k_breakStatement {t : TT} (h : RKeep c r) : c.Keeps A (breakStatement r t) fun n => A ∨ Has c.k n := by
  unfold breakStatement
  keep_auto
macro_rules | `(tactic| keep_lem) => `(tactic| with_reducible exact k_breakStatement ‹_›)

theorem k_useCase (h : RKeep c r) : c.Keeps A (useCase r) fun n => A ∨ Has c.k n := by
  unfold useCase
  keep_auto
macro_rules | `(tactic| keep_lem) => `(tactic| with_reducible exact k_useCase ‹_›)

theorem k_infixRhs {lhs : Node} {op : Token} {rb : Nat} (h : RKeep c r) : c.Keeps A (infixRhs r lhs op rb) fun n => A ∧ ¬ Has c.k lhs ∧ ¬ Has c.k op ∨ Has c.k n := by
  unfold infixRhs
  keep_auto
macro_rules | `(tactic| keep_lem) => `(tactic| with_reducible exact k_infixRhs ‹_›)

theorem k_operand (h : RKeep c r) : c.Keeps A (operand r) fun n => A ∨ Has c.k n := by
  unfold operand
  refine Keeps.bindF (fun s a s' h => takeOr_true h) (by keep_lem) fun o ho => ?_
  split
  · keep_auto
  · rename_i k taken
    cases taken
    · keep_auto
    · keep_auto
macro_rules | `(tactic| keep_lem) => `(tactic| with_reducible exact k_operand ‹_›)

theorem k_operators {minBp : Nat} {lhs : Node} (h : RKeep c r) : c.Keeps A (operators r minBp lhs) fun n => A ∧ ¬ Has c.k lhs ∨ Has c.k n := by
  unfold operators
  refine Keeps.loopTail (fun _ _ => ?_) (by intro _; keep_leaf)
  refine Keeps.bindF (fun s a s' h => takeOr_true h) (by keep_lem) fun o ho => ?_
  split
  · keep_auto
  · rename_i k taken
    cases taken
    · keep_auto
    · keep_auto
      rename_i hp _ hx
      have := ho k rfl
      simp only [hp, Bool.false_or] at this
      unfold takesInfix at this
      rw [hx] at this
      simp at this
macro_rules | `(tactic| keep_lem) => `(tactic| with_reducible exact k_operators ‹_›)

theorem k_expressionF {minBp : Nat} (h : RKeep c r) : c.Keeps A (expressionF r minBp) fun n => A ∨ Has c.k n := by
  unfold expressionF
  keep_auto
macro_rules | `(tactic| keep_lem) => `(tactic| with_reducible exact k_expressionF ‹_›)



end Kp
end PhpLs.Parser
