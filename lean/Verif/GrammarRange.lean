import Verif.NodeRange

/-!
# Which nodes of a parsed tree have a range

Every function of the grammar returns fit trees (`Verif/NodeRange.lean`) if the entry points of the recursion do.
-/

namespace PhpLs.Parser
open PhpLs.Suggester

set_option linter.unusedVariables false


/-! ## The grammar -/

theorem fit_emptyScript : Fit .emptyScript :=
  fit_intro (fun _ _ _ => by simp only [Node.range]; exact unknown_ne) (fun c hc => by simp [Node.children] at hc)

theorem fit_dieStatement {k k2 k3 : Token} {o : Option Node} (h : FitO o) : Fit (.dieStatement k k2 o k3) := by
  refine fit_intro' (fun _ hg _ => ?_) ?_
  · good_simp at hg
    simp only [Node.range]
    exact rangeTT_ne.2 hg.2.2.2
  · intro hg c hc
    good_simp at hg
    simp only [Node.children] at hc
    cases o with
    | none => simp [Node.childrenO] at hc
    | some e =>
      simp only [Node.childrenO] at hc
      good_simp at hg
      exact fun _ m hm hcl => h e rfl hg.2.2.1 m (.down hc hm) hcl

/-- A list of fit nodes that is not empty. -/
def Fit1 (l : List Node) : Prop := FitL l ∧ l ≠ []
theorem Fit1.l {l : List Node} (h : Fit1 l) : FitL l := h.1
theorem Fit1.ne {l : List Node} (h : Fit1 l) : l ≠ [] := h.2
/-- A list of names that is not empty. -/
def Nm1 (l : List Node) : Prop := NmL l ∧ l ≠ []
theorem Nm1.l {l : List Node} (h : Nm1 l) : NmL l := h.1
theorem Nm1.ne {l : List Node} (h : Nm1 l) : l ≠ [] := h.2
theorem Nm1.fit {l : List Node} (h : Nm1 l) : FitL l := nmL_fit h.1

theorem fit1_mk {l : List Node} (h : FitL l) (h2 : l ≠ []) : Fit1 l := ⟨h, h2⟩
theorem NmO.fit {o : Option Node} (h : NmO o) : FitO o := by
  cases o with
  | none => exact fitO_none
  | some n => exact fitO_some (fit_nm (h n rfl))
theorem NmO.some' {n : Node} (h : NmO (some n)) : Fit n := fit_nm (h n rfl)
theorem none_ne_nil : (none : Option (List Node)) ≠ some [] := nofun
theorem some_snoc_ne {l : List Node} {n : Node} : some (l ++ [n]) ≠ some [] := by simp
theorem fit_path {l : List Token} {k : Token} {b : Bool} : Fit (.typeRef ⟨l ++ [k], b⟩) := fit_nm ⟨_, rfl, by simp⟩

theorem fit_ty {n : Node} (h : Ty n) : Fit n := by
  obtain ⟨q, ts, rfl, h1, h2⟩ := h
  exact fit_dataType (nmL_fit h1) h2

theorem Ret.ite {c : Prop} [Decidable c] {p q : P α} {Q : α → Prop} (h1 : c → Ret p Q) (h2 : ¬ c → Ret q Q) :
    Ret (if c then p else q) Q := by
  by_cases h : c
  · simp only [if_pos h]; exact h1 h
  · simp only [if_neg h]; exact h2 h

theorem Ret.catchErr {p : P α} {ok : α → P β} {er : Err → P β} {Q : α → Prop} {R : β → Prop} (h : Ret p Q)
    (h1 : ∀ a, Q a → Ret (ok a) R) (h2 : ∀ e, Ret (er e) R) : Ret (P.catchErr p ok er) R := by
  intro s b s' hb
  unfold P.catchErr at hb
  cases hp : p s with
  | ok a s1 => rw [hp] at hb; exact h1 a (h s a s1 hp) s1 b s' hb
  | err e s1 => rw [hp] at hb; exact h2 e s1 b s' hb
  | panic => rw [hp] at hb; cases hb
  | diverge x => rw [hp] at hb; cases hb

theorem Ret.fail {e : Err} {Q : α → Prop} : Ret (P.fail e : P α) Q := fun _ _ _ h => by cases h
theorem Ret.panic {Q : α → Prop} : Ret (P.panic : P α) Q := fun _ _ _ h => by cases h
theorem Ret.mono {p : P α} {Q R : α → Prop} (h : Ret p Q) (hq : ∀ a, Q a → R a) : Ret p R :=
  fun s a s' e => hq a (h s a s' e)

/-- The entry points of the recursion return fit trees. -/
structure RFit (r : Rec) : Prop where
  doc : ∀ k n, r.doc k = some n → Fit n ∧ FitL (varDocs n)
  expression : ∀ b, Ret (r.expression b) Fit
  statement : Ret r.statement Fit
  call : Ret r.call Fit

theorem RFit.popDoc {r : Rec} (h : RFit r) : Ret (popDoc r.doc) FitO := by
  intro s a s' e
  unfold Parser.popDoc at e
  split at e
  · cases e; exact fitO_none
  · split at e
    · cases e
    · cases e; exact fitO_some (h.doc _ _ ‹_›).1

theorem drainDocsOn_fit {r : Rec} (h : RFit r) : ∀ (l : List Token) (s : PSt) (a : List Node) (s' : PSt),
    drainDocsOn r.doc l s = .ok a s' → FitL a
  | [], s, a, s', e => by cases e; exact fitL_nil
  | k :: l, s, a, s', e => by
    unfold drainDocsOn at e
    split at e
    · cases e
    · rename_i n hn
      split at e
      · rename_i l' s1 hl
        cases e
        exact fitL_append (h.doc _ _ hn).2 (drainDocsOn_fit h l s _ _ hl)
      · rename_i hx
        exact (hx _ _ e).elim

theorem RFit.drainDocs {r : Rec} (h : RFit r) : Ret (drainDocs r.doc) FitL :=
  fun s a s' e => drainDocsOn_fit h _ s a s' e

/-- Closes a goal about the nodes of a result. -/
syntax "fit_leaf" : tactic
macro_rules | `(tactic| fit_leaf) => `(tactic| with_reducible first
  | assumption
  | exact fitL_nil
  | exact fitO_none
  | exact fitOL_none
  | exact nmO_none
  | exact nmL_nil
  | exact snoc_ne
  | exact List.cons_ne_nil _ _
  | exact Fit1.l ‹_›
  | exact Fit1.ne ‹_›
  | exact Nm1.l ‹_›
  | exact Nm1.ne ‹_›
  | exact Nm1.fit ‹_›
  | exact fit_ty ‹_›
  | exact fit_nm ‹_›
  | exact fit_emptyScript
  | exact fit_path
  | exact none_ne_nil
  | exact some_snoc_ne
  | exact NmO.fit ‹_›
  | exact NmO.some' ‹_›
  | exact fit_docCommentVar
  | exact fit_missing
  | exact fit_literal
  | exact fit_variable
  | exact fit_lexicalVariable
  | exact fit_groupedUse
  | exact fit_gotoStatement
  | exact fit_labelStatement
  | exact fit_declareStatement
  | exact fit_defineStatement
  | exact fit_useTraitAlterationBlock
  | exact fit_inlineHtml
  | ((first
  | refine fit1_mk ?_ ?_
  | refine fitL_snoc ?_ ?_
  | refine fitL_one ?_
  | refine fitL_append ?_ ?_
  | refine fitO_some ?_
  | refine fitOL_some ?_
  | refine nmO_some ?_
  | refine nmL_snoc ?_ ?_
  | refine fit_dieStatement ?_
  | refine fit_unary ?_
  | refine fit_postUnary ?_
  | refine fit_const ?_
  | refine fit_binary ?_ ?_
  | refine fit_ternary ?_ ?_ ?_
  | refine fit_aliasedVariable ?_
  | refine fit_dynamicVariable ?_
  | refine fit_staticVariable ?_
  | refine fit_grouping ?_
  | refine fit_array ?_
  | refine fit_oldArray ?_
  | refine fit_arrayElement ?_ ?_
  | refine fit_list ?_
  | refine fit_call ?_ ?_
  | refine fit_isset ?_
  | refine fit_emptyExpr ?_
  | refine fit_exitExpr ?_
  | refine fit_newExpr ?_
  | refine fit_member ?_ ?_
  | refine fit_staticMember ?_ ?_
  | refine fit_field ?_ ?_
  | refine fit_matchExpr ?_ ?_
  | refine fit_matchArm ?_ ?_ ?_
  | refine fit_closure ?_ ?_ ?_ ?_
  | refine fit_arrowFunction ?_ ?_
  | refine fit_namedParameter ?_
  | refine fit_functionArgument ?_ ?_
  | refine fit_dataType ?_ ?_
  | refine fit_returnType ?_
  | refine fit_anonClass ?_ ?_ ?_ ?_
  | refine fit_yieldExpr ?_
  | refine fit_yieldFrom ?_
  | refine fit_fileInclude ?_
  | refine fit_useDeclaration ?_
  | refine fit_useConst ?_
  | refine fit_useFunction ?_
  | refine fit_expressionStatement ?_
  | refine fit_echoStatement ?_ ?_
  | refine fit_constStatement ?_ ?_
  | refine fit_printStatement ?_ ?_
  | refine fit_throwStatement ?_
  | refine fit_unsetStatement ?_
  | refine fit_returnStatement ?_
  | refine fit_namespaceStatement ?_
  | refine fit_namespaceBlock ?_ ?_
  | refine fit_useStatement ?_ ?_
  | refine fit_useFunctionStatement ?_ ?_
  | refine fit_useConstStatement ?_ ?_
  | refine fit_useTraitStatement ?_
  | refine fit_useTrait ?_
  | refine fit_useTraitInsteadOf ?_ ?_ ?_ ?_
  | refine fit_useTraitAs ?_ ?_
  | refine fit_classStatement ?_ ?_ ?_ ?_
  | refine fit_traitStatement ?_
  | refine fit_interface ?_ ?_
  | refine fit_classConstantDefinitionStatement ?_ ?_ ?_
  | refine fit_classConstant ?_
  | refine fit_property ?_
  | refine fit_propertyDefinitionStatement ?_ ?_ ?_ ?_
  | refine fit_methodDefinitionStatement ?_ ?_
  | refine fit_functionDefinitionStatement ?_ ?_ ?_
  | refine fit_namedFunctionDefinitionStatement ?_ ?_
  | refine fit_whileStatement ?_ ?_
  | refine fit_doWhileStatement ?_ ?_
  | refine fit_forStatement ?_ ?_ ?_ ?_
  | refine fit_forEachStatement ?_ ?_ ?_
  | refine fit_block ?_
  | refine fit_alternativeBlock ?_
  | refine fit_ifBranch ?_ ?_
  | refine fit_elseBranch ?_
  | refine fit_ifStatement ?_ ?_ ?_
  | refine fit_switchBranch ?_ ?_
  | refine fit_switchCase ?_ ?_
  | refine fit_switchBody ?_
  | refine fit_tokenStatement ?_
  | refine fit_catchBlock ?_
  | refine fit_finallyBlock ?_
  | refine fit_tryCatch ?_ ?_ ?_
  | refine fit_staticVariablesStatement ?_
  | refine fit_globalVariablesStatement ?_ ?_
  | refine fit_attr ?_) <;> fit_leaf)
  | (refine And.intro ?_ ?_ <;> fit_leaf))

syntax "fit_lem" : tactic
macro_rules | `(tactic| fit_lem) => `(tactic| fail)
macro_rules | `(tactic| fit_lem) => `(tactic| assumption)
macro_rules | `(tactic| fit_lem) => `(tactic| with_reducible first
  | exact RFit.expression ‹_› _
  | exact RFit.statement ‹_›
  | exact RFit.call ‹_›
  | exact RFit.popDoc ‹_›
  | exact RFit.drainDocs ‹_›)

syntax "fit_auto" : tactic

/-- A loop: the invariant is one of a few. -/
macro "fit_loop" : tactic => `(tactic| with_reducible first
  | (refine Ret.loop (I := Fit1) (Q := Fit1) ?_ _ _ ?_ <;> (fit_auto; done))
  | (refine Ret.loop (I := FitL) (Q := Fit1) ?_ _ _ ?_ <;> (fit_auto; done))
  | (refine Ret.loop (I := FitL) (Q := FitL) ?_ _ _ ?_ <;> (fit_auto; done))
  | (refine Ret.loop (I := Fit) (Q := Fit) ?_ _ _ ?_ <;> (fit_auto; done))
  | (refine Ret.loop (I := FitL) (Q := FitOL) ?_ _ _ ?_ <;> (fit_auto; done))
  | (refine Ret.loop (I := FitL) (Q := Fit) ?_ _ _ ?_ <;> (fit_auto; done)))

macro "fit_step" : tactic => `(tactic| first
  | fit_leaf
  | with_reducible intro _
  | (with_reducible refine Ret.pure ?_; (try simp only [Sum.elim_inl, Sum.elim_inr, Fit1]); fit_leaf)
  | with_reducible exact Ret.fail
  | with_reducible exact Ret.panic
  | with_reducible exact Ret.any
  | fit_lem
  | (with_reducible refine Ret.mono ?_ (fun _ => Fit1.l); fit_lem)
  | (with_reducible refine Ret.mono ?_ (fun _ => fit_nm); fit_lem)
  | fit_loop
  | with_reducible refine Ret.ite ?_ ?_
  | (with_reducible apply Ret.bind; (focus first | fit_lem | fit_loop))
  | ((first
      | with_reducible refine Ret.bind (Q := FitO) ?_ ?_
      | with_reducible refine Ret.bind (Q := FitOL) ?_ ?_
      | with_reducible refine Ret.bind (Q := FitL) ?_ ?_); (focus (fit_auto; done)))
  | with_reducible refine Ret.bind' ?_
  | (with_reducible apply Ret.catchErr; (focus first | fit_lem | fit_loop | exact Ret.any))
  | split)
macro_rules | `(tactic| fit_auto) => `(tactic| repeat' fit_step)

theorem fit_p_moreByComma {r : Rec} {item : P Node} {acc : List Node} (hitem : Ret item Fit) (hacc : Fit1 acc) :
    Ret (moreByComma r item acc) Fit1 := by
  unfold moreByComma
  fit_auto

macro_rules | `(tactic| fit_lem) => `(tactic| with_reducible (refine fit_p_moreByComma ?_ ?_ <;> first | fit_lem | (simp only [Fit1]; fit_leaf)))

theorem fit_p_attribute' {r : Rec} (hr : RFit r) : Ret (attribute' r) Fit := by
  unfold attribute'
  fit_auto

macro_rules | `(tactic| fit_lem) => `(tactic| with_reducible exact fit_p_attribute' ‹_›)

theorem fit_p_attributesBlock {r : Rec} (hr : RFit r) : Ret (attributesBlock r) FitL := by
  unfold attributesBlock
  fit_auto

macro_rules | `(tactic| fit_lem) => `(tactic| with_reducible exact fit_p_attributesBlock ‹_›)

theorem fit_p_nonEmptyTypeRef {r : Rec} (hr : RFit r) : Ret (nonEmptyTypeRef r) Nm := by
  unfold nonEmptyTypeRef
  refine Ret.bind' fun ns => Ret.bind' fun i => ?_
  refine Ret.bind (Q := fun p => p ≠ []) (Ret.loop (I := fun p => p ≠ []) (fun p hp => ?_) _ _ snoc_ne) fun p hp => ?_
  · refine Ret.bind' fun o => ?_
    split
    · exact Ret.bind' fun _ => Ret.pure (by simp)
    · exact Ret.pure (by simpa using hp)
  · exact Ret.pure ⟨_, rfl, hp⟩

macro_rules | `(tactic| fit_lem) => `(tactic| with_reducible exact fit_p_nonEmptyTypeRef ‹_›)

theorem fit_p_typeRefList {r : Rec} (hr : RFit r) : Ret (typeRefList r) Nm1 := by
  unfold typeRefList moreByComma
  refine Ret.bind (fit_p_nonEmptyTypeRef hr) fun t ht => ?_
  refine Ret.loop (I := Nm1) (fun l hl => ?_) _ _ ⟨nmL_snoc nmL_nil ht, by simp⟩
  refine Ret.bind' fun o => ?_
  split
  · exact Ret.bind (fit_p_nonEmptyTypeRef hr) fun t ht => Ret.pure ⟨nmL_snoc hl.1 ht, snoc_ne⟩
  · exact Ret.pure hl

macro_rules | `(tactic| fit_lem) => `(tactic| with_reducible exact fit_p_typeRefList ‹_›)

theorem fit_p_typeRef {r : Rec} (hr : RFit r) : Ret (typeRef r) NmO := by
  unfold typeRef
  refine Ret.bind' fun ns => Ret.bind' fun p => Ret.pure ?_
  split
  · exact nmO_none
  · rename_i h
    exact nmO_some ⟨_, rfl, by simpa using h⟩

macro_rules | `(tactic| fit_lem) => `(tactic| with_reducible exact fit_p_typeRef ‹_›)

theorem fit_p_moreByOr {r : Rec} {acc : List Node} (hr : RFit r) (hacc : Nm1 acc) : Ret (moreByOr r acc) Nm1 := by
  unfold moreByOr
  refine Ret.loop (I := Nm1) (fun l hl => ?_) _ _ hacc
  refine Ret.bind' fun o => ?_
  split
  · exact Ret.bind (fit_p_nonEmptyTypeRef hr) fun t ht => Ret.pure ⟨nmL_snoc hl.1 ht, snoc_ne⟩
  · exact Ret.pure hl

macro_rules | `(tactic| fit_lem) => `(tactic| with_reducible (refine fit_p_moreByOr ‹_› ?_ <;> fit_leaf))

theorem fit_p_nonEmptyTypeRefUnion {r : Rec} (hr : RFit r) : Ret (nonEmptyTypeRefUnion r) Nm1 := by
  unfold nonEmptyTypeRefUnion
  exact Ret.bind (fit_p_nonEmptyTypeRef hr) fun t ht => fit_p_moreByOr hr ⟨nmL_snoc nmL_nil ht, by simp⟩

macro_rules | `(tactic| fit_lem) => `(tactic| with_reducible exact fit_p_nonEmptyTypeRefUnion ‹_›)

theorem fit_p_typeRefUnion {r : Rec} (hr : RFit r) : Ret (typeRefUnion r) fun o => ∀ l, o = some l → Nm1 l := by
  unfold typeRefUnion
  refine Ret.bind (fit_p_typeRef hr) fun o ho => ?_
  split
  · refine Ret.bind (fit_p_moreByOr hr ⟨nmL_snoc nmL_nil (ho _ rfl), by simp⟩) fun l hl => Ret.pure ?_
    intro m e; cases e; exact hl
  · exact Ret.pure fun _ h => by cases h

macro_rules | `(tactic| fit_lem) => `(tactic| with_reducible exact fit_p_typeRefUnion ‹_›)

theorem fit_p_dataType {r : Rec} (hr : RFit r) : Ret (dataType r) Ty := by
  unfold dataType
  exact Ret.bind' fun q => Ret.bind (fit_p_nonEmptyTypeRefUnion hr) fun l hl => Ret.pure ⟨q, l, rfl, hl⟩

macro_rules | `(tactic| fit_lem) => `(tactic| with_reducible exact fit_p_dataType ‹_›)

theorem fit_aliases : ∀ (l : List Token) {n : Node}, Fit n → Fit (l.foldl (fun root link => Node.aliasedVariable link root) n)
  | [], _, h => h
  | _ :: l, _, h => fit_aliases l (fit_aliasedVariable h)

theorem fit_p_variable' {r : Rec} (hr : RFit r) : Ret (variable' r) Fit := by
  unfold variable'
  fit_auto
  refine Ret.loop (I := fun _ => True) (fun l _ => ?_) _ _ trivial
  refine Ret.bind' fun b => Ret.ite (fun _ => ?_) (fun _ => ?_)
  · refine Ret.bind' fun v => Ret.ite (fun _ => ?_) (fun _ => ?_)
    · exact Ret.pure (fit_aliases _ fit_variable)
    · exact Ret.pure trivial
  · split
    · exact Ret.panic
    · exact Ret.bind' fun _ => Ret.pure fit_variable

macro_rules | `(tactic| fit_lem) => `(tactic| with_reducible exact fit_p_variable' ‹_›)

theorem fit_p_globalVariables {r : Rec} (hr : RFit r) : Ret (globalVariables r) Fit := by
  unfold globalVariables
  fit_auto

macro_rules | `(tactic| fit_lem) => `(tactic| with_reducible exact fit_p_globalVariables ‹_›)

theorem fit_p_staticVariables {r : Rec} {token : Token} (hr : RFit r) : Ret (staticVariables r token) Fit := by
  unfold staticVariables
  fit_auto

macro_rules | `(tactic| fit_lem) => `(tactic| with_reducible exact fit_p_staticVariables ‹_›)

theorem fit_p_constEntry {r : Rec} (hr : RFit r) : Ret (constEntry r) Fit := by
  unfold constEntry
  fit_auto

macro_rules | `(tactic| fit_lem) => `(tactic| with_reducible exact fit_p_constEntry ‹_›)

theorem fit_p_constStatement {r : Rec} (hr : RFit r) : Ret (constStatement r) Fit := by
  unfold constStatement
  fit_auto

macro_rules | `(tactic| fit_lem) => `(tactic| with_reducible exact fit_p_constStatement ‹_›)

theorem fit_p_lexicalVariable   : Ret (lexicalVariable) Fit := by
  unfold lexicalVariable
  fit_auto

macro_rules | `(tactic| fit_lem) => `(tactic| with_reducible exact fit_p_lexicalVariable)

theorem fit_p_nonEmptyLexicalVariablesList {r : Rec} (hr : RFit r) : Ret (nonEmptyLexicalVariablesList r) Fit1 := by
  unfold nonEmptyLexicalVariablesList
  fit_auto

macro_rules | `(tactic| fit_lem) => `(tactic| with_reducible exact fit_p_nonEmptyLexicalVariablesList ‹_›)

theorem fit_p_arrayPair {r : Rec} (hr : RFit r) : Ret (arrayPair r) Fit := by
  unfold arrayPair
  fit_auto

macro_rules | `(tactic| fit_lem) => `(tactic| with_reducible exact fit_p_arrayPair ‹_›)

theorem fit_p_pairsUntil {r : Rec} (close : TT) (hr : RFit r) : Ret (pairsUntil r close) FitL := by
  unfold pairsUntil
  fit_auto

macro_rules | `(tactic| fit_lem) => `(tactic| with_reducible exact fit_p_pairsUntil _ ‹_›)

theorem fit_p_array {r : Rec} (hr : RFit r) : Ret (array r) Fit := by
  unfold array
  fit_auto

macro_rules | `(tactic| fit_lem) => `(tactic| with_reducible exact fit_p_array ‹_›)

theorem fit_p_oldArray {r : Rec} (hr : RFit r) : Ret (oldArray r) Fit := by
  unfold oldArray
  fit_auto

macro_rules | `(tactic| fit_lem) => `(tactic| with_reducible exact fit_p_oldArray ‹_›)

theorem fit_p_list {r : Rec} (hr : RFit r) : Ret (list r) Fit := by
  unfold list
  fit_auto

macro_rules | `(tactic| fit_lem) => `(tactic| with_reducible exact fit_p_list ‹_›)

theorem fit_p_statementInto {r : Rec} {stmts : List Node} (hr : RFit r) (hstmts : FitL stmts) : Ret (statementInto r stmts) FitL := by
  unfold statementInto
  fit_auto

macro_rules | `(tactic| fit_lem) => `(tactic| with_reducible (refine fit_p_statementInto ‹_› ?_ <;> fit_leaf))

theorem fit_p_statementsUntil {r : Rec} (site : Site) (stop : List TT) (hr : RFit r) : Ret (statementsUntil r site stop) FitL := by
  unfold statementsUntil
  fit_auto

macro_rules | `(tactic| fit_lem) => `(tactic| with_reducible exact fit_p_statementsUntil _ _ ‹_›)

theorem fit_p_block {r : Rec} (hr : RFit r) : Ret (block r) Fit := by
  unfold block
  fit_auto

macro_rules | `(tactic| fit_lem) => `(tactic| with_reducible exact fit_p_block ‹_›)

theorem fit_p_alternativeBlock {r : Rec} (terminator : TT) (hr : RFit r) : Ret (alternativeBlock r terminator) Fit := by
  unfold alternativeBlock
  fit_auto

macro_rules | `(tactic| fit_lem) => `(tactic| with_reducible exact fit_p_alternativeBlock _ ‹_›)

theorem fit_p_alternativeBlockOrStatement {r : Rec} (terminator : TT) (hr : RFit r) : Ret (alternativeBlockOrStatement r terminator) Fit := by
  unfold alternativeBlockOrStatement
  fit_auto

macro_rules | `(tactic| fit_lem) => `(tactic| with_reducible exact fit_p_alternativeBlockOrStatement _ ‹_›)

theorem fit_p_argumentType {r : Rec} (hr : RFit r) : Ret (argumentType r) FitO := by
  unfold argumentType
  refine Ret.bind' fun q => ?_
  split
  · exact Ret.bind (fit_p_nonEmptyTypeRefUnion hr) fun l hl => Ret.pure (fitO_some (fit_dataType hl.fit hl.2))
  · refine Ret.bind (fit_p_typeRefUnion hr) fun o ho => ?_
    split
    · rename_i ts
      exact Ret.pure (fitO_some (fit_dataType (ho ts rfl).fit (ho ts rfl).2))
    · exact Ret.pure fitO_none

macro_rules | `(tactic| fit_lem) => `(tactic| with_reducible exact fit_p_argumentType ‹_›)

theorem fit_p_argument {r : Rec} {doc : Option Node} (hr : RFit r) (hdoc : FitO doc) : Ret (argument r doc) Fit := by
  unfold argument
  fit_auto

macro_rules | `(tactic| fit_lem) => `(tactic| with_reducible (refine fit_p_argument ‹_› ?_ <;> fit_leaf))

theorem fit_p_argumentList {r : Rec} {doc : Option Node} (hr : RFit r) (hdoc : FitO doc) : Ret (argumentList r doc) FitOL := by
  unfold argumentList
  fit_auto

macro_rules | `(tactic| fit_lem) => `(tactic| with_reducible (refine fit_p_argumentList ‹_› ?_ <;> fit_leaf))

theorem fit_p_returnType {r : Rec} (hr : RFit r) : Ret (returnType r) FitO := by
  unfold returnType
  fit_auto

macro_rules | `(tactic| fit_lem) => `(tactic| with_reducible exact fit_p_returnType ‹_›)

theorem fit_p_anonymousFunctionStatement {r : Rec} {doc : Option Node} (hr : RFit r) (hdoc : FitO doc) : Ret (anonymousFunctionStatement r doc) Fit := by
  unfold anonymousFunctionStatement
  fit_auto

macro_rules | `(tactic| fit_lem) => `(tactic| with_reducible (refine fit_p_anonymousFunctionStatement ‹_› ?_ <;> fit_leaf))

theorem fit_p_namedFunction {r : Rec} {doc : Option Node} {attributes : List Node} (hr : RFit r) (hdoc : FitO doc) (hattributes : FitL attributes) : Ret (namedFunction r doc attributes) Fit := by
  unfold namedFunction
  fit_auto

macro_rules | `(tactic| fit_lem) => `(tactic| with_reducible (refine fit_p_namedFunction ‹_› ?_ ?_ <;> fit_leaf))

theorem fit_p_arrowFunction {r : Rec} {isStatic : Option Token} {attributes : List Node} (hr : RFit r) (hattributes : FitL attributes) : Ret (arrowFunction r isStatic attributes) Fit := by
  unfold arrowFunction
  fit_auto

macro_rules | `(tactic| fit_lem) => `(tactic| with_reducible (refine fit_p_arrowFunction ‹_› ?_ <;> fit_leaf))

theorem fit_p_anonymousFunction {r : Rec} {isStatic : Option Token} {attributes : List Node} (hr : RFit r) (hattributes : FitL attributes) : Ret (anonymousFunction r isStatic attributes) Fit := by
  unfold anonymousFunction
  fit_auto

macro_rules | `(tactic| fit_lem) => `(tactic| with_reducible (refine fit_p_anonymousFunction ‹_› ?_ <;> fit_leaf))

theorem fit_p_parametersUntil {r : Rec} {acc : List Node} (hr : RFit r) (hacc : FitL acc) : Ret (parametersUntil r acc) FitL := by
  unfold parametersUntil
  fit_auto

macro_rules | `(tactic| fit_lem) => `(tactic| with_reducible (refine fit_p_parametersUntil ‹_› ?_ <;> fit_leaf))

theorem fit_p_nonEmptyParameterList {r : Rec} (hr : RFit r) : Ret (nonEmptyParameterList r) FitL := by
  unfold nonEmptyParameterList
  fit_auto

macro_rules | `(tactic| fit_lem) => `(tactic| with_reducible exact fit_p_nonEmptyParameterList ‹_›)

theorem fit_p_parameterList {r : Rec} (hr : RFit r) : Ret (parameterList r) FitL := by
  unfold parameterList
  fit_auto

macro_rules | `(tactic| fit_lem) => `(tactic| with_reducible exact fit_p_parameterList ‹_›)

theorem fit_p_returnStatement {r : Rec} (hr : RFit r) : Ret (returnStatement r) Fit := by
  unfold returnStatement
  fit_auto

macro_rules | `(tactic| fit_lem) => `(tactic| with_reducible exact fit_p_returnStatement ‹_›)

theorem fit_p_identifierList {r : Rec} (hr : RFit r) : Ret (identifierList r) Fit1 := by
  unfold identifierList
  fit_auto

macro_rules | `(tactic| fit_lem) => `(tactic| with_reducible exact fit_p_identifierList ‹_›)

theorem fit_p_alteration {r : Rec} (hr : RFit r) : Ret (alteration r) FitO := by
  unfold alteration
  refine Ret.bind (fit_p_nonEmptyTypeRef hr) fun c hc => ?_
  refine Ret.bind (Q := fun x => NmO x.1 ∧ Nm x.2.2) ?_ fun x hx => ?_
  · refine Ret.bind' fun o => ?_
    split
    · exact Ret.bind (fit_p_nonEmptyTypeRef hr) fun m hm => Ret.pure ⟨nmO_some hc, hm⟩
    · exact Ret.pure ⟨nmO_none, hc⟩
  · obtain ⟨x1, x2, x3⟩ := x
    refine Ret.bind' fun o => ?_
    split
    · refine Ret.bind' fun v => Ret.bind' fun b => Ret.ite (fun _ => ?_) (fun _ => ?_)
      · exact Ret.pure (fitO_some (fit_useTraitAs hx.1 hx.2))
      · exact Ret.bind' fun _ => Ret.pure (fitO_some (fit_useTraitAs hx.1 hx.2))
    · refine Ret.bind' fun o => ?_
      split
      · exact Ret.bind (fit_p_typeRefList hr) fun l hl => Ret.pure (fitO_some (fit_useTraitInsteadOf hx.1 hx.2 hl.1 hl.2))
      · exact Ret.pure fitO_none

macro_rules | `(tactic| fit_lem) => `(tactic| with_reducible exact fit_p_alteration ‹_›)

theorem fit_p_traitUsageAlterationGroup {r : Rec} {typeRefs : List Node} (hr : RFit r) (htypeRefs : FitL typeRefs) : Ret (traitUsageAlterationGroup r typeRefs) Fit := by
  unfold traitUsageAlterationGroup
  fit_auto

macro_rules | `(tactic| fit_lem) => `(tactic| with_reducible (refine fit_p_traitUsageAlterationGroup ‹_› ?_ <;> fit_leaf))

theorem fit_p_traitUsages {r : Rec} (hr : RFit r) : Ret (traitUsages r) FitL := by
  unfold traitUsages
  refine Ret.bind (Q := Sum.elim NmL FitL) (Ret.loop (I := NmL) (fun ts hts => ?_) _ _ nmL_nil) fun res hres => ?_
  · refine Ret.bind' fun b => Ret.ite (fun _ => Ret.pure hts) (fun _ => ?_)
    refine Ret.bind (fit_p_nonEmptyTypeRef hr) fun t ht => ?_
    refine Ret.bind' fun b => Ret.ite (fun _ => ?_) (fun _ => ?_)
    · exact Ret.bind (fit_p_traitUsageAlterationGroup hr (fitL_snoc (nmL_fit hts) (fit_nm ht))) fun g hg => Ret.pure (fitL_one hg)
    · refine Ret.bind' fun o => ?_
      split
      · exact Ret.pure (nmL_snoc hts ht)
      · exact Ret.pure (nmL_snoc hts ht)
  · split
    · exact Ret.pure hres
    · refine Ret.bind' fun _ => Ret.pure ?_
      intro n hn
      obtain ⟨t, ht, rfl⟩ := List.mem_map.1 hn
      exact fit_useTrait (hres t ht)

macro_rules | `(tactic| fit_lem) => `(tactic| with_reducible exact fit_p_traitUsages ‹_›)

theorem fit_p_useTraitStatement {r : Rec} (hr : RFit r) : Ret (useTraitStatement r) Fit := by
  unfold useTraitStatement
  fit_auto

macro_rules | `(tactic| fit_lem) => `(tactic| with_reducible exact fit_p_useTraitStatement ‹_›)

theorem fit_p_classConsts {r : Rec} {visibility : Option Token} (hr : RFit r) : Ret (classConsts r visibility) Fit1 := by
  unfold classConsts
  fit_auto

macro_rules | `(tactic| fit_lem) => `(tactic| with_reducible exact fit_p_classConsts ‹_›)

theorem fit_p_classProps {r : Rec} (hr : RFit r) : Ret (classProps r) Fit1 := by
  unfold classProps
  fit_auto

macro_rules | `(tactic| fit_lem) => `(tactic| with_reducible exact fit_p_classProps ‹_›)

theorem fit_p_classMember {r : Rec} {doc : Option Node} {attributes : List Node} (hr : RFit r) (hdoc : FitO doc) (hattributes : FitL attributes) : Ret (classMember r doc attributes) Fit := by
  unfold classMember
  fit_auto

macro_rules | `(tactic| fit_lem) => `(tactic| with_reducible (refine fit_p_classMember ‹_› ?_ ?_ <;> fit_leaf))

theorem fit_p_classBlockStatement {r : Rec} (hr : RFit r) : Ret (classBlockStatement r) Fit := by
  unfold classBlockStatement
  fit_auto

macro_rules | `(tactic| fit_lem) => `(tactic| with_reducible exact fit_p_classBlockStatement ‹_›)

theorem fit_p_classBlock {r : Rec} (hr : RFit r) : Ret (classBlock r) Fit := by
  unfold classBlock
  fit_auto

macro_rules | `(tactic| fit_lem) => `(tactic| with_reducible exact fit_p_classBlock ‹_›)

theorem fit_p_extendsOne {r : Rec} (hr : RFit r) : Ret (extendsOne r) NmO := by
  unfold extendsOne
  fit_auto

macro_rules | `(tactic| fit_lem) => `(tactic| with_reducible exact fit_p_extendsOne ‹_›)

theorem fit_p_clauseList {r : Rec} (t : TT) (hr : RFit r) : Ret (clauseList r t) FitOL := by
  unfold clauseList
  fit_auto

macro_rules | `(tactic| fit_lem) => `(tactic| with_reducible exact fit_p_clauseList _ ‹_›)

theorem fit_p_classStatement {r : Rec} {isAbstract : Option Token} {isFinal : Option Token} {attributes : List Node} (hr : RFit r) (hattributes : FitL attributes) : Ret (classStatement r isAbstract isFinal attributes) Fit := by
  unfold classStatement
  fit_auto

macro_rules | `(tactic| fit_lem) => `(tactic| with_reducible (refine fit_p_classStatement ‹_› ?_ <;> fit_leaf))

theorem fit_p_abstractClassStatement {r : Rec} {attributes : List Node} (hr : RFit r) (hattributes : FitL attributes) : Ret (abstractClassStatement r attributes) Fit := by
  unfold abstractClassStatement
  fit_auto

macro_rules | `(tactic| fit_lem) => `(tactic| with_reducible (refine fit_p_abstractClassStatement ‹_› ?_ <;> fit_leaf))

theorem fit_p_finalClassStatement {r : Rec} {attributes : List Node} (hr : RFit r) (hattributes : FitL attributes) : Ret (finalClassStatement r attributes) Fit := by
  unfold finalClassStatement
  fit_auto

macro_rules | `(tactic| fit_lem) => `(tactic| with_reducible (refine fit_p_finalClassStatement ‹_› ?_ <;> fit_leaf))

theorem fit_p_anonymousClass {r : Rec} {attributes : List Node} (hr : RFit r) (hattributes : FitL attributes) : Ret (anonymousClass r attributes) Fit := by
  unfold anonymousClass
  fit_auto

macro_rules | `(tactic| fit_lem) => `(tactic| with_reducible (refine fit_p_anonymousClass ‹_› ?_ <;> fit_leaf))

theorem fit_p_interface' {r : Rec} (hr : RFit r) : Ret (interface' r) Fit := by
  unfold interface'
  fit_auto

macro_rules | `(tactic| fit_lem) => `(tactic| with_reducible exact fit_p_interface' ‹_›)

theorem fit_p_traitStatement {r : Rec} (hr : RFit r) : Ret (traitStatement r) Fit := by
  unfold traitStatement
  fit_auto

macro_rules | `(tactic| fit_lem) => `(tactic| with_reducible exact fit_p_traitStatement ‹_›)

theorem fit_p_callParameter {r : Rec} (hr : RFit r) : Ret (callParameter r) Fit := by
  unfold callParameter
  fit_auto

macro_rules | `(tactic| fit_lem) => `(tactic| with_reducible exact fit_p_callParameter ‹_›)

theorem fit_p_finishCall {r : Rec} {expr : Node} (hr : RFit r) (hexpr : Fit expr) : Ret (finishCall r expr) Fit := by
  unfold finishCall
  fit_auto

macro_rules | `(tactic| fit_lem) => `(tactic| with_reducible (refine fit_p_finishCall ‹_› ?_ <;> fit_leaf))

theorem fit_p_memberAccess {r : Rec} {expr : Node} {os : Token} (hr : RFit r) (hexpr : Fit expr) : Ret (memberAccess r expr os) Fit := by
  unfold memberAccess
  fit_auto

macro_rules | `(tactic| fit_lem) => `(tactic| with_reducible (refine fit_p_memberAccess ‹_› ?_ <;> fit_leaf))

theorem fit_p_staticAccess {r : Rec} {expr : Node} {pn : Token} (hr : RFit r) (hexpr : Fit expr) : Ret (staticAccess r expr pn) Fit := by
  unfold staticAccess
  fit_auto

macro_rules | `(tactic| fit_lem) => `(tactic| with_reducible (refine fit_p_staticAccess ‹_› ?_ <;> fit_leaf))

theorem fit_p_fieldAccess {r : Rec} {expr : Node} {ob : Token} (hr : RFit r) (hexpr : Fit expr) : Ret (fieldAccess r expr ob) Fit := by
  unfold fieldAccess
  fit_auto

macro_rules | `(tactic| fit_lem) => `(tactic| with_reducible (refine fit_p_fieldAccess ‹_› ?_ <;> fit_leaf))

theorem fit_p_initCall {r : Rec} {expr : Node} (hr : RFit r) (hexpr : Fit expr) : Ret (initCall r expr) Fit := by
  unfold initCall
  fit_auto

macro_rules | `(tactic| fit_lem) => `(tactic| with_reducible (refine fit_p_initCall ‹_› ?_ <;> fit_leaf))

theorem fit_p_matchArm {r : Rec} (hr : RFit r) : Ret (matchArm r) Fit := by
  unfold matchArm
  fit_auto

macro_rules | `(tactic| fit_lem) => `(tactic| with_reducible exact fit_p_matchArm ‹_›)

theorem fit_p_matchOption {r : Rec} (hr : RFit r) : Ret (matchOption r) Fit := by
  unfold matchOption
  fit_auto

macro_rules | `(tactic| fit_lem) => `(tactic| with_reducible exact fit_p_matchOption ‹_›)

theorem fit_p_matchBody {r : Rec} (hr : RFit r) : Ret (matchBody r) FitL := by
  unfold matchBody
  fit_auto

macro_rules | `(tactic| fit_lem) => `(tactic| with_reducible exact fit_p_matchBody ‹_›)

theorem fit_p_primaryRest : Ret primaryRest Fit := by
  unfold primaryRest
  fit_auto

macro_rules | `(tactic| fit_lem) => `(tactic| with_reducible exact fit_p_primaryRest)

theorem fit_p_primaryNew {r : Rec} (hr : RFit r) : Ret (primaryNew r) Fit := by
  unfold primaryNew
  fit_auto

macro_rules | `(tactic| fit_lem) => `(tactic| with_reducible exact fit_p_primaryNew ‹_›)

theorem fit_p_primaryStatic {r : Rec} {token : Token} {attributes : List Node} (hr : RFit r) (hattributes : FitL attributes) : Ret (primaryStatic r token attributes) Fit := by
  unfold primaryStatic
  fit_auto

macro_rules | `(tactic| fit_lem) => `(tactic| with_reducible (refine fit_p_primaryStatic ‹_› ?_ <;> fit_leaf))

theorem fit_p_primaryAttr {r : Rec} (hr : RFit r) : Ret (primaryAttr r) Fit := by
  unfold primaryAttr
  fit_auto

macro_rules | `(tactic| fit_lem) => `(tactic| with_reducible exact fit_p_primaryAttr ‹_›)

theorem fit_p_primaryArray {r : Rec} (hr : RFit r) : Ret (primaryArray r) Fit := by
  unfold primaryArray
  fit_auto

macro_rules | `(tactic| fit_lem) => `(tactic| with_reducible exact fit_p_primaryArray ‹_›)

theorem fit_p_primaryIsset {r : Rec} (hr : RFit r) : Ret (primaryIsset r) Fit := by
  unfold primaryIsset
  fit_auto

macro_rules | `(tactic| fit_lem) => `(tactic| with_reducible exact fit_p_primaryIsset ‹_›)

theorem fit_p_primary {r : Rec} (hr : RFit r) : Ret (primary r) Fit := by
  unfold primary
  fit_auto

macro_rules | `(tactic| fit_lem) => `(tactic| with_reducible exact fit_p_primary ‹_›)

theorem fit_p_callF {r : Rec} (hr : RFit r) : Ret (callF r) Fit := by
  unfold callF
  fit_auto

macro_rules | `(tactic| fit_lem) => `(tactic| with_reducible exact fit_p_callF ‹_›)

theorem fit_p_operand {r : Rec} (hr : RFit r) : Ret (operand r) Fit := by
  unfold operand
  fit_auto

macro_rules | `(tactic| fit_lem) => `(tactic| with_reducible exact fit_p_operand ‹_›)

theorem fit_p_infixRhs {r : Rec} {lhs : Node} {op : Token} (rb : Nat) (hr : RFit r) (hlhs : Fit lhs) : Ret (infixRhs r lhs op rb) Fit := by
  unfold infixRhs
  fit_auto

macro_rules | `(tactic| fit_lem) => `(tactic| with_reducible (refine fit_p_infixRhs _ ‹_› ?_ <;> fit_leaf))

theorem fit_p_operators {r : Rec} {lhs : Node} (minBp : Nat) (hr : RFit r) (hlhs : Fit lhs) : Ret (operators r minBp lhs) Fit := by
  unfold operators
  fit_auto

macro_rules | `(tactic| fit_lem) => `(tactic| with_reducible (refine fit_p_operators _ ‹_› ?_ <;> fit_leaf))

theorem fit_p_expressionF {r : Rec} (minBp : Nat) (hr : RFit r) : Ret (expressionF r minBp) Fit := by
  unfold expressionF
  fit_auto

macro_rules | `(tactic| fit_lem) => `(tactic| with_reducible exact fit_p_expressionF _ ‹_›)

theorem fit_p_declareStatement   : Ret (declareStatement) Fit := by
  unfold declareStatement
  fit_auto

macro_rules | `(tactic| fit_lem) => `(tactic| with_reducible exact fit_p_declareStatement)

theorem fit_p_unsetStatement {r : Rec} (hr : RFit r) : Ret (unsetStatement r) Fit := by
  unfold unsetStatement
  fit_auto

macro_rules | `(tactic| fit_lem) => `(tactic| with_reducible exact fit_p_unsetStatement ‹_›)

theorem fit_p_dieStatement {r : Rec} (hr : RFit r) : Ret (dieStatement r) Fit := by
  unfold dieStatement
  fit_auto

macro_rules | `(tactic| fit_lem) => `(tactic| with_reducible exact fit_p_dieStatement ‹_›)

theorem fit_p_defineStatement {r : Rec} (hr : RFit r) : Ret (defineStatement r) Fit := by
  unfold defineStatement
  fit_auto

macro_rules | `(tactic| fit_lem) => `(tactic| with_reducible exact fit_p_defineStatement ‹_›)

theorem fit_p_echoStatement {r : Rec} (hr : RFit r) : Ret (echoStatement r) Fit := by
  unfold echoStatement
  fit_auto

macro_rules | `(tactic| fit_lem) => `(tactic| with_reducible exact fit_p_echoStatement ‹_›)

theorem fit_p_shortTagEchoStatement {r : Rec} (hr : RFit r) : Ret (shortTagEchoStatement r) Fit := by
  unfold shortTagEchoStatement
  fit_auto

macro_rules | `(tactic| fit_lem) => `(tactic| with_reducible exact fit_p_shortTagEchoStatement ‹_›)

theorem fit_p_printStatement {r : Rec} (hr : RFit r) : Ret (printStatement r) Fit := by
  unfold printStatement
  fit_auto

macro_rules | `(tactic| fit_lem) => `(tactic| with_reducible exact fit_p_printStatement ‹_›)

theorem fit_p_gotoStatement   : Ret (gotoStatement) Fit := by
  unfold gotoStatement
  fit_auto

macro_rules | `(tactic| fit_lem) => `(tactic| with_reducible exact fit_p_gotoStatement)

theorem fit_p_catchBlock {r : Rec} (hr : RFit r) : Ret (catchBlock r) Fit := by
  unfold catchBlock
  fit_auto

macro_rules | `(tactic| fit_lem) => `(tactic| with_reducible exact fit_p_catchBlock ‹_›)

theorem fit_p_tryCatchStatement {r : Rec} (hr : RFit r) : Ret (tryCatchStatement r) Fit := by
  unfold tryCatchStatement
  fit_auto

macro_rules | `(tactic| fit_lem) => `(tactic| with_reducible exact fit_p_tryCatchStatement ‹_›)

theorem fit_p_throwStatement {r : Rec} (hr : RFit r) : Ret (throwStatement r) Fit := by
  unfold throwStatement
  fit_auto

macro_rules | `(tactic| fit_lem) => `(tactic| with_reducible exact fit_p_throwStatement ‹_›)

theorem fit_p_forPart {r : Rec} (stop : TT) (hr : RFit r) : Ret (forPart r stop) FitL := by
  unfold forPart
  fit_auto

macro_rules | `(tactic| fit_lem) => `(tactic| with_reducible exact fit_p_forPart _ ‹_›)

theorem fit_p_forStatement {r : Rec} (hr : RFit r) : Ret (forStatement r) Fit := by
  unfold forStatement
  fit_auto

macro_rules | `(tactic| fit_lem) => `(tactic| with_reducible exact fit_p_forStatement ‹_›)

theorem fit_p_whileStatement {r : Rec} (hr : RFit r) : Ret (whileStatement r) Fit := by
  unfold whileStatement
  fit_auto

macro_rules | `(tactic| fit_lem) => `(tactic| with_reducible exact fit_p_whileStatement ‹_›)

theorem fit_p_foreachStatement {r : Rec} (hr : RFit r) : Ret (foreachStatement r) Fit := by
  unfold foreachStatement
  fit_auto

macro_rules | `(tactic| fit_lem) => `(tactic| with_reducible exact fit_p_foreachStatement ‹_›)

theorem fit_p_doWhileStatement {r : Rec} (hr : RFit r) : Ret (doWhileStatement r) Fit := by
  unfold doWhileStatement
  fit_auto

macro_rules | `(tactic| fit_lem) => `(tactic| with_reducible exact fit_p_doWhileStatement ‹_›)

theorem fit_p_plainStatements {r : Rec} (stop : List TT) (hr : RFit r) : Ret (plainStatements r stop) FitL := by
  unfold plainStatements
  fit_auto

macro_rules | `(tactic| fit_lem) => `(tactic| with_reducible exact fit_p_plainStatements _ ‹_›)

theorem fit_p_altElseifs {r : Rec} {terminator : Token} (hr : RFit r) : Ret (altElseifs r terminator) (fun x => FitL x.1) := by
  unfold altElseifs
  refine Ret.loop (I := fun x => FitL x.1) (fun st hst => ?_) _ _ fitL_nil
  refine Ret.ite (fun _ => ?_) (fun _ => Ret.pure hst)
  refine Ret.bind' fun op => Ret.bind (hr.expression 0) fun c hc => Ret.bind' fun cp => Ret.bind' fun colon => ?_
  refine Ret.bind (fit_p_plainStatements _ hr) fun ss hss => Ret.bind' fun t => Ret.pure ?_
  exact fitL_snoc hst (fit_ifBranch hc (fit_alternativeBlock hss))

macro_rules | `(tactic| fit_lem) => `(tactic| with_reducible exact fit_p_altElseifs ‹_›)

theorem fit_p_ifAlternative {r : Rec} {token : Token} {op : Token} {cond : Node} {cp : Token} {colon : Token} (hr : RFit r) (hcond : Fit cond) : Ret (ifAlternative r token op cond cp colon) Fit := by
  unfold ifAlternative
  fit_auto

macro_rules | `(tactic| fit_lem) => `(tactic| with_reducible (refine fit_p_ifAlternative ‹_› ?_ <;> fit_leaf))

theorem fit_p_elseifs {r : Rec} (hr : RFit r) : Ret (elseifs r) FitL := by
  unfold elseifs
  fit_auto

macro_rules | `(tactic| fit_lem) => `(tactic| with_reducible exact fit_p_elseifs ‹_›)

theorem fit_p_ifStatement {r : Rec} (hr : RFit r) : Ret (ifStatement r) Fit := by
  unfold ifStatement
  fit_auto

macro_rules | `(tactic| fit_lem) => `(tactic| with_reducible exact fit_p_ifStatement ‹_›)

theorem fit_p_caseList {r : Rec} (hr : RFit r) : Ret (caseList r) FitCs := by
  unfold caseList
  refine Ret.loop (I := FitCs) (fun cs hcs => ?_) _ _ (fun _ h => by cases h)
  refine Ret.bind' fun o => ?_
  split
  · exact Ret.pure hcs
  · refine Ret.ite (fun _ => ?_) (fun _ => ?_)
    · refine Ret.bind' fun _ => Ret.pure ?_
      intro o ho
      rcases List.mem_append.1 ho with h | h
      · exact hcs o h
      · cases List.mem_singleton.1 h
    · refine Ret.bind (hr.expression 0) fun e he => Ret.bind' fun _ => Ret.pure ?_
      intro o ho
      rcases List.mem_append.1 ho with h | h
      · exact hcs o h
      · cases List.mem_singleton.1 h; exact he

macro_rules | `(tactic| fit_lem) => `(tactic| with_reducible exact fit_p_caseList ‹_›)

theorem fit_p_switchBody {r : Rec} (hr : RFit r) : Ret (switchBody r) Fit := by
  unfold switchBody
  fit_auto

macro_rules | `(tactic| fit_lem) => `(tactic| with_reducible exact fit_p_switchBody ‹_›)

theorem fit_p_switchStatement {r : Rec} (hr : RFit r) : Ret (switchStatement r) Fit := by
  unfold switchStatement
  fit_auto

macro_rules | `(tactic| fit_lem) => `(tactic| with_reducible exact fit_p_switchStatement ‹_›)

theorem fit_p_namespaceStatement {r : Rec} (hr : RFit r) : Ret (namespaceStatement r) Fit := by
  unfold namespaceStatement
  fit_auto

macro_rules | `(tactic| fit_lem) => `(tactic| with_reducible exact fit_p_namespaceStatement ‹_›)

theorem fit_p_symbolImport {r : Rec} (hr : RFit r) : Ret (symbolImport r) Fit := by
  unfold symbolImport
  fit_auto

macro_rules | `(tactic| fit_lem) => `(tactic| with_reducible exact fit_p_symbolImport ‹_›)

theorem fit_p_symbolImports {r : Rec} (hr : RFit r) : Ret (symbolImports r) Fit1 := by
  unfold symbolImports
  fit_auto

macro_rules | `(tactic| fit_lem) => `(tactic| with_reducible exact fit_p_symbolImports ‹_›)

theorem fit_p_useFunctionStatement {r : Rec} {token : Token} (hr : RFit r) : Ret (useFunctionStatement r token) Fit := by
  unfold useFunctionStatement
  fit_auto

macro_rules | `(tactic| fit_lem) => `(tactic| with_reducible exact fit_p_useFunctionStatement ‹_›)

theorem fit_p_useConstStatement {r : Rec} {token : Token} (hr : RFit r) : Ret (useConstStatement r token) Fit := by
  unfold useConstStatement
  fit_auto

macro_rules | `(tactic| fit_lem) => `(tactic| with_reducible exact fit_p_useConstStatement ‹_›)

theorem fit_p_useImport {r : Rec} {token : Token} (hr : RFit r) : Ret (useImport r token) Fit := by
  unfold useImport
  fit_auto

macro_rules | `(tactic| fit_lem) => `(tactic| with_reducible exact fit_p_useImport ‹_›)

theorem fit_p_useStatement {r : Rec} {token : Token} (hr : RFit r) : Ret (useStatement r token) Fit := by
  unfold useStatement
  fit_auto

macro_rules | `(tactic| fit_lem) => `(tactic| with_reducible exact fit_p_useStatement ‹_›)

theorem fit_p_inlineHtml {r : Rec} (hr : RFit r) : Ret (inlineHtml r) Fit := by
  unfold inlineHtml
  fit_auto

macro_rules | `(tactic| fit_lem) => `(tactic| with_reducible exact fit_p_inlineHtml ‹_›)

theorem fit_p_expressionStatement {r : Rec} (hr : RFit r) : Ret (expressionStatement r) Fit := by
  unfold expressionStatement
  fit_auto

macro_rules | `(tactic| fit_lem) => `(tactic| with_reducible exact fit_p_expressionStatement ‹_›)

theorem fit_p_exprThenEnd {r : Rec} (hr : RFit r) : Ret (exprThenEnd r) Fit := by
  unfold exprThenEnd
  fit_auto

macro_rules | `(tactic| fit_lem) => `(tactic| with_reducible exact fit_p_exprThenEnd ‹_›)

theorem fit_p_defaultStatement {r : Rec} (hr : RFit r) : Ret (defaultStatement r) Fit := by
  unfold defaultStatement
  fit_auto

macro_rules | `(tactic| fit_lem) => `(tactic| with_reducible exact fit_p_defaultStatement ‹_›)

theorem fit_p_breakStatement {r : Rec} (t : TT) (hr : RFit r) : Ret (breakStatement r t) Fit := by
  unfold breakStatement
  fit_auto

macro_rules | `(tactic| fit_lem) => `(tactic| with_reducible exact fit_p_breakStatement _ ‹_›)

theorem fit_p_useCase {r : Rec} (hr : RFit r) : Ret (useCase r) Fit := by
  unfold useCase
  fit_auto

macro_rules | `(tactic| fit_lem) => `(tactic| with_reducible exact fit_p_useCase ‹_›)

theorem fit_p_dispatch {r : Rec} {attributes : List Node} (t : TT) (hr : RFit r) (hattributes : FitL attributes) : Ret (dispatch r attributes t) Fit := by
  unfold dispatch
  fit_auto

macro_rules | `(tactic| fit_lem) => `(tactic| with_reducible (refine fit_p_dispatch _ ‹_› ?_ <;> fit_leaf))

theorem fit_p_scriptStatement {r : Rec} (hr : RFit r) : Ret (scriptStatement r) Fit := by
  unfold scriptStatement
  fit_auto

macro_rules | `(tactic| fit_lem) => `(tactic| with_reducible exact fit_p_scriptStatement ‹_›)
end PhpLs.Parser
