import Verif.Props.ParserInv
import Verif.Props.DocBlock

/-!
# C14 and C15: the parser never fails and reads from left to right
-/

namespace PhpLs.Parser

open PhpLs

/-! ## C15 -/

/-- A parser function reads from left to right: whatever it returns, the remaining tokens are an end segment of the given
ones (comments and line breaks aside), in the original order, and diagnostics were only appended. -/
def LeftToRight {α : Type} (p : P α) : Prop :=
  ∀ s, match p s with
    | .ok _ s' => Adv s s'
    | .err _ s' => Adv s s'
    | .panic => True
    | .diverge _ => True

/-- A function of the grammar: built from the recursive entry points and the token helpers only. -/
def GrammarFn {α : Type} [Val α] (p : Rec → P α) : Prop :=
  ∀ (L : LR) (r1 r2 : Rec), L.Rec r1 r2 → L.rel (p r1) (p r2)

theorem inv_of_rel {α : Type} [Val α] {doc : Token → Option Node} {s : PSt} {p : P α} (h : (invLR doc s).rel p p) :
    match p s with
    | .ok a s' => Inv doc s s' ∧ Good (OkTok doc s) a
    | .err e s' => Inv doc s s' ∧ Good (OkTok doc s) e
    | .panic => ¬ Safe doc s
    | .diverge _ => True := by
  have := h s s ⟨rfl, Inv.refl doc s⟩
  change RelR _ _ _ (p s) (p s) at this
  cases hp : p s with
  | ok a s' =>
    rw [hp] at this
    obtain ⟨h1, s2, h2, h3⟩ := this
    cases h2
    exact ⟨h3.2, h1⟩
  | err e s' =>
    rw [hp] at this
    obtain ⟨h1, s2, h2, h3⟩ := this
    cases h2
    exact ⟨h3.2, h1⟩
  | panic => rw [hp] at this; exact this.1
  | diverge x => trivial

/-- **C15.** Every function of the grammar, with every amount of fuel, reads from left to right. -/
theorem C15_left_to_right {α : Type} [Val α] (p : Rec → P α) (hp : GrammarFn p) (doc : Token → Option Node) (n : Nat) :
    LeftToRight (p (knot doc n)) := by
  intro s
  have := inv_of_rel (hp (invLR doc s) _ _ (knot_inv n))
  cases h : p (knot doc n) s with
  | ok a s' => rw [h] at this; exact this.1.adv
  | err e s' => rw [h] at this; exact this.1.adv
  | panic => trivial
  | diverge x => trivial

/-- **C15.** Tokens are never invented: every token in a syntax tree is a token of the stream, a token of a doc comment, or
a `Missing` token placed behind one of these (or at the end of the file). -/
theorem C15_tokens_from_source {α : Type} [Val α] (p : Rec → P α) (hp : GrammarFn p) (doc : Token → Option Node) (n : Nat)
    (s s' : PSt) (a : α) (h : p (knot doc n) s = .ok a s') : Good (From doc s) a := by
  have := inv_of_rel (hp (invLR doc s) _ _ (knot_inv n))
  rw [h] at this
  exact good_mono (fun _ h => h.1) this.2

/-- **C15.** The same for the tokens in the diagnostics. -/
theorem C15_diagnostics_from_source {α : Type} [Val α] (p : Rec → P α) (hp : GrammarFn p) (doc : Token → Option Node)
    (n : Nat) (s s' : PSt) (a : α) (h : p (knot doc n) s = .ok a s') :
    ∀ e ∈ s'.errors, e ∈ s.errors ∨ Good (From doc s) e := by
  have := inv_of_rel (hp (invLR doc s) _ _ (knot_inv n))
  rw [h] at this
  exact this.1.errs

/-- The entry points of the recursion and some of the functions between them are functions of the grammar. -/
theorem grammarFn_statement : GrammarFn (fun r => r.statement) := fun _ _ _ h => h.statement
theorem grammarFn_expression (b : Nat) : GrammarFn (fun r => r.expression b) := fun _ _ _ h => h.expression b
theorem grammarFn_call : GrammarFn (fun r => r.call) := fun _ _ _ h => h.call
theorem grammarFn_ast : GrammarFn astLoop := fun _ _ _ h => LR.rel_astLoop h
theorem grammarFn_block : GrammarFn block := fun _ _ _ h => LR.rel_block h

/-- **C15.** All functions of the grammar that take no further argument, by name. -/
theorem C15_all_functions (doc : Token → Option Node) (n : Nat) :
    LeftToRight (attribute' (knot doc n)) ∧
    LeftToRight (attributesBlock (knot doc n)) ∧
    LeftToRight (nonEmptyTypeRef (knot doc n)) ∧
    LeftToRight (typeRefList (knot doc n)) ∧
    LeftToRight (typeRef (knot doc n)) ∧
    LeftToRight (nonEmptyNamespaceRef (knot doc n)) ∧
    LeftToRight (nonEmptyTypeRefUnion (knot doc n)) ∧
    LeftToRight (typeRefUnion (knot doc n)) ∧
    LeftToRight (dataType (knot doc n)) ∧
    LeftToRight (variable' (knot doc n)) ∧
    LeftToRight (globalVariables (knot doc n)) ∧
    LeftToRight (constEntry (knot doc n)) ∧
    LeftToRight (constStatement (knot doc n)) ∧
    LeftToRight (nonEmptyLexicalVariablesList (knot doc n)) ∧
    LeftToRight (arrayPair (knot doc n)) ∧
    LeftToRight (array (knot doc n)) ∧
    LeftToRight (oldArray (knot doc n)) ∧
    LeftToRight (list (knot doc n)) ∧
    LeftToRight (block (knot doc n)) ∧
    LeftToRight (argumentType (knot doc n)) ∧
    LeftToRight (returnType (knot doc n)) ∧
    LeftToRight (nonEmptyParameterList (knot doc n)) ∧
    LeftToRight (parameterList (knot doc n)) ∧
    LeftToRight (returnStatement (knot doc n)) ∧
    LeftToRight (identifierList (knot doc n)) ∧
    LeftToRight (alteration (knot doc n)) ∧
    LeftToRight (traitUsages (knot doc n)) ∧
    LeftToRight (useTraitStatement (knot doc n)) ∧
    LeftToRight (modifiers (knot doc n)) ∧
    LeftToRight (classProps (knot doc n)) ∧
    LeftToRight (classBlockStatement (knot doc n)) ∧
    LeftToRight (classBlock (knot doc n)) ∧
    LeftToRight (extendsOne (knot doc n)) ∧
    LeftToRight (interface' (knot doc n)) ∧
    LeftToRight (traitStatement (knot doc n)) ∧
    LeftToRight (callParameter (knot doc n)) ∧
    LeftToRight (matchArm (knot doc n)) ∧
    LeftToRight (matchOption (knot doc n)) ∧
    LeftToRight (matchBody (knot doc n)) ∧
    LeftToRight (primaryNew (knot doc n)) ∧
    LeftToRight (primaryAttr (knot doc n)) ∧
    LeftToRight (primaryArray (knot doc n)) ∧
    LeftToRight (primaryIsset (knot doc n)) ∧
    LeftToRight (primary (knot doc n)) ∧
    LeftToRight (callF (knot doc n)) ∧
    LeftToRight (operand (knot doc n)) ∧
    LeftToRight (unsetStatement (knot doc n)) ∧
    LeftToRight (dieStatement (knot doc n)) ∧
    LeftToRight (defineStatement (knot doc n)) ∧
    LeftToRight (echoStatement (knot doc n)) ∧
    LeftToRight (shortTagEchoStatement (knot doc n)) ∧
    LeftToRight (printStatement (knot doc n)) ∧
    LeftToRight (catchBlock (knot doc n)) ∧
    LeftToRight (tryCatchStatement (knot doc n)) ∧
    LeftToRight (throwStatement (knot doc n)) ∧
    LeftToRight (forStatement (knot doc n)) ∧
    LeftToRight (whileStatement (knot doc n)) ∧
    LeftToRight (foreachStatement (knot doc n)) ∧
    LeftToRight (doWhileStatement (knot doc n)) ∧
    LeftToRight (elseifs (knot doc n)) ∧
    LeftToRight (ifStatement (knot doc n)) ∧
    LeftToRight (caseList (knot doc n)) ∧
    LeftToRight (switchBody (knot doc n)) ∧
    LeftToRight (switchStatement (knot doc n)) ∧
    LeftToRight (namespaceStatement (knot doc n)) ∧
    LeftToRight (symbolImport (knot doc n)) ∧
    LeftToRight (symbolImports (knot doc n)) ∧
    LeftToRight (inlineHtml (knot doc n)) ∧
    LeftToRight (expressionStatement (knot doc n)) ∧
    LeftToRight (exprThenEnd (knot doc n)) ∧
    LeftToRight (defaultStatement (knot doc n)) ∧
    LeftToRight (useCase (knot doc n)) ∧
    LeftToRight (scriptStatement (knot doc n)) ∧
    LeftToRight (statementF (knot doc n)) ∧
    LeftToRight (astLoop (knot doc n)) :=
  ⟨C15_left_to_right _ (fun _ _ _ h => LR.rel_attribute' h) doc n,
    C15_left_to_right _ (fun _ _ _ h => LR.rel_attributesBlock h) doc n,
    C15_left_to_right _ (fun _ _ _ h => LR.rel_nonEmptyTypeRef h) doc n,
    C15_left_to_right _ (fun _ _ _ h => LR.rel_typeRefList h) doc n,
    C15_left_to_right _ (fun _ _ _ h => LR.rel_typeRef h) doc n,
    C15_left_to_right _ (fun _ _ _ h => LR.rel_nonEmptyNamespaceRef h) doc n,
    C15_left_to_right _ (fun _ _ _ h => LR.rel_nonEmptyTypeRefUnion h) doc n,
    C15_left_to_right _ (fun _ _ _ h => LR.rel_typeRefUnion h) doc n,
    C15_left_to_right _ (fun _ _ _ h => LR.rel_dataType h) doc n,
    C15_left_to_right _ (fun _ _ _ h => LR.rel_variable' h) doc n,
    C15_left_to_right _ (fun _ _ _ h => LR.rel_globalVariables h) doc n,
    C15_left_to_right _ (fun _ _ _ h => LR.rel_constEntry h) doc n,
    C15_left_to_right _ (fun _ _ _ h => LR.rel_constStatement h) doc n,
    C15_left_to_right _ (fun _ _ _ h => LR.rel_nonEmptyLexicalVariablesList h) doc n,
    C15_left_to_right _ (fun _ _ _ h => LR.rel_arrayPair h) doc n,
    C15_left_to_right _ (fun _ _ _ h => LR.rel_array h) doc n,
    C15_left_to_right _ (fun _ _ _ h => LR.rel_oldArray h) doc n,
    C15_left_to_right _ (fun _ _ _ h => LR.rel_list h) doc n,
    C15_left_to_right _ (fun _ _ _ h => LR.rel_block h) doc n,
    C15_left_to_right _ (fun _ _ _ h => LR.rel_argumentType h) doc n,
    C15_left_to_right _ (fun _ _ _ h => LR.rel_returnType h) doc n,
    C15_left_to_right _ (fun _ _ _ h => LR.rel_nonEmptyParameterList h) doc n,
    C15_left_to_right _ (fun _ _ _ h => LR.rel_parameterList h) doc n,
    C15_left_to_right _ (fun _ _ _ h => LR.rel_returnStatement h) doc n,
    C15_left_to_right _ (fun _ _ _ h => LR.rel_identifierList h) doc n,
    C15_left_to_right _ (fun _ _ _ h => LR.rel_alteration h) doc n,
    C15_left_to_right _ (fun _ _ _ h => LR.rel_traitUsages h) doc n,
    C15_left_to_right _ (fun _ _ _ h => LR.rel_useTraitStatement h) doc n,
    C15_left_to_right _ (fun _ _ _ h => LR.rel_modifiers h) doc n,
    C15_left_to_right _ (fun _ _ _ h => LR.rel_classProps h) doc n,
    C15_left_to_right _ (fun _ _ _ h => LR.rel_classBlockStatement h) doc n,
    C15_left_to_right _ (fun _ _ _ h => LR.rel_classBlock h) doc n,
    C15_left_to_right _ (fun _ _ _ h => LR.rel_extendsOne h) doc n,
    C15_left_to_right _ (fun _ _ _ h => LR.rel_interface' h) doc n,
    C15_left_to_right _ (fun _ _ _ h => LR.rel_traitStatement h) doc n,
    C15_left_to_right _ (fun _ _ _ h => LR.rel_callParameter h) doc n,
    C15_left_to_right _ (fun _ _ _ h => LR.rel_matchArm h) doc n,
    C15_left_to_right _ (fun _ _ _ h => LR.rel_matchOption h) doc n,
    C15_left_to_right _ (fun _ _ _ h => LR.rel_matchBody h) doc n,
    C15_left_to_right _ (fun _ _ _ h => LR.rel_primaryNew h) doc n,
    C15_left_to_right _ (fun _ _ _ h => LR.rel_primaryAttr h) doc n,
    C15_left_to_right _ (fun _ _ _ h => LR.rel_primaryArray h) doc n,
    C15_left_to_right _ (fun _ _ _ h => LR.rel_primaryIsset h) doc n,
    C15_left_to_right _ (fun _ _ _ h => LR.rel_primary h) doc n,
    C15_left_to_right _ (fun _ _ _ h => LR.rel_callF h) doc n,
    C15_left_to_right _ (fun _ _ _ h => LR.rel_operand h) doc n,
    C15_left_to_right _ (fun _ _ _ h => LR.rel_unsetStatement h) doc n,
    C15_left_to_right _ (fun _ _ _ h => LR.rel_dieStatement h) doc n,
    C15_left_to_right _ (fun _ _ _ h => LR.rel_defineStatement h) doc n,
    C15_left_to_right _ (fun _ _ _ h => LR.rel_echoStatement h) doc n,
    C15_left_to_right _ (fun _ _ _ h => LR.rel_shortTagEchoStatement h) doc n,
    C15_left_to_right _ (fun _ _ _ h => LR.rel_printStatement h) doc n,
    C15_left_to_right _ (fun _ _ _ h => LR.rel_catchBlock h) doc n,
    C15_left_to_right _ (fun _ _ _ h => LR.rel_tryCatchStatement h) doc n,
    C15_left_to_right _ (fun _ _ _ h => LR.rel_throwStatement h) doc n,
    C15_left_to_right _ (fun _ _ _ h => LR.rel_forStatement h) doc n,
    C15_left_to_right _ (fun _ _ _ h => LR.rel_whileStatement h) doc n,
    C15_left_to_right _ (fun _ _ _ h => LR.rel_foreachStatement h) doc n,
    C15_left_to_right _ (fun _ _ _ h => LR.rel_doWhileStatement h) doc n,
    C15_left_to_right _ (fun _ _ _ h => LR.rel_elseifs h) doc n,
    C15_left_to_right _ (fun _ _ _ h => LR.rel_ifStatement h) doc n,
    C15_left_to_right _ (fun _ _ _ h => LR.rel_caseList h) doc n,
    C15_left_to_right _ (fun _ _ _ h => LR.rel_switchBody h) doc n,
    C15_left_to_right _ (fun _ _ _ h => LR.rel_switchStatement h) doc n,
    C15_left_to_right _ (fun _ _ _ h => LR.rel_namespaceStatement h) doc n,
    C15_left_to_right _ (fun _ _ _ h => LR.rel_symbolImport h) doc n,
    C15_left_to_right _ (fun _ _ _ h => LR.rel_symbolImports h) doc n,
    C15_left_to_right _ (fun _ _ _ h => LR.rel_inlineHtml h) doc n,
    C15_left_to_right _ (fun _ _ _ h => LR.rel_expressionStatement h) doc n,
    C15_left_to_right _ (fun _ _ _ h => LR.rel_exprThenEnd h) doc n,
    C15_left_to_right _ (fun _ _ _ h => LR.rel_defaultStatement h) doc n,
    C15_left_to_right _ (fun _ _ _ h => LR.rel_useCase h) doc n,
    C15_left_to_right _ (fun _ _ _ h => LR.rel_scriptStatement h) doc n,
    C15_left_to_right _ (fun _ _ _ h => LR.rel_statementF h) doc n,
    C15_left_to_right _ (fun _ _ _ h => LR.rel_astLoop h) doc n⟩

/-! ## C14 -/

/-- A parser function that never returns an error. -/
def NoErr {α : Type} (p : P α) : Prop := ∀ s e s', p s ≠ .err e s'

theorem NoErr.pure {α : Type} (a : α) : NoErr (Pure.pure a : P α) := fun _ _ _ h => by cases h

theorem NoErr.bind {α β : Type} {p : P α} {k : α → P β} (h : NoErr p) (hk : ∀ a, NoErr (k a)) : NoErr (p >>= k) := by
  intro s e s' he
  rw [bind_run] at he
  cases hp : p s with
  | ok a s1 => rw [hp] at he; exact hk a s1 e s' he
  | err e1 s1 => exact h s e1 s1 hp
  | panic => rw [hp] at he; cases he
  | diverge x => rw [hp] at he; cases he

theorem NoErr.catchErr {α β : Type} {p : P α} {ok : α → P β} {er : Err → P β} (h1 : ∀ a, NoErr (ok a))
    (h2 : ∀ e, NoErr (er e)) : NoErr (P.catchErr p ok er) := by
  intro s e s' he
  unfold P.catchErr at he
  cases hp : p s with
  | ok a s1 => rw [hp] at he; exact h1 a s1 e s' he
  | err e1 s1 => rw [hp] at he; exact h2 e1 s1 e s' he
  | panic => rw [hp] at he; cases he
  | diverge x => rw [hp] at he; cases he

theorem NoErr.loopP {α β : Type} {site : Site} {body : β → P (β ⊕ α)} (h : ∀ b, NoErr (body b)) :
    ∀ (n : Nat) (b : β), NoErr (Parser.loopP site n body b)
  | 0, _ => fun _ _ _ h => by cases h
  | n + 1, b => by
    unfold Parser.loopP
    refine NoErr.bind (h b) fun x => ?_
    cases x with
    | inl b' => exact NoErr.loopP h n b'
    | inr a => exact NoErr.pure a

theorem NoErr.peek : NoErr peek := fun _ _ _ h => by cases h

theorem NoErr.pushErr (e : Err) : NoErr (pushErr e) := fun _ _ _ h => by cases h

theorem noErr_ffBeforeOn (stop : List TT) : ∀ (l : List Token) (s : PSt) (e : Err) (s' : PSt),
    ffBeforeOn stop l s ≠ .err e s'
  | [], s, e, s', h => by cases h
  | k :: r, s, e, s', h => by
    unfold ffBeforeOn at h
    split at h
    · cases h
    · split at h
      · exact noErr_ffBeforeOn stop r _ e s' h
      · split at h
        · exact noErr_ffBeforeOn stop r _ e s' h
        · split at h
          · cases h
          · split at h
            · cases h
            · exact noErr_ffBeforeOn stop r _ e s' h

theorem NoErr.ffBefore (stop : List TT) : NoErr (ffBefore stop) := fun _ e s' h => noErr_ffBeforeOn stop _ _ e s' h

theorem noErr_drainDocsOn (doc : Token → Option Node) : ∀ (l : List Token) (s : PSt) (e : Err) (s' : PSt),
    drainDocsOn doc l s ≠ .err e s'
  | [], _, e, s', h => by cases h
  | k :: r, s, e, s', h => by
    unfold drainDocsOn at h
    split at h
    · cases h
    · split at h
      · cases h
      · exact noErr_drainDocsOn doc r s e s' h

theorem NoErr.drainDocs (doc : Token → Option Node) : NoErr (drainDocs doc) :=
  fun _ e s' h => noErr_drainDocsOn doc _ _ e s' h

theorem noErr_statementInto (r : Rec) (stmts : List Node) : NoErr (statementInto r stmts) :=
  NoErr.catchErr (fun _ => NoErr.bind (NoErr.drainDocs _) fun _ => NoErr.pure _)
    (fun e => NoErr.bind (NoErr.pushErr e) fun _ => NoErr.bind (NoErr.ffBefore _) fun _ => NoErr.pure _)

theorem noErr_astLoop (r : Rec) : NoErr (astLoop r) := by
  unfold astLoop
  refine NoErr.loopP (fun b => NoErr.bind NoErr.peek fun k => ?_) _ _
  cases k with
  | none => exact NoErr.pure _
  | some k =>
    dsimp only
    split
    · exact NoErr.pure _
    · exact NoErr.bind (noErr_statementInto r b) fun _ => NoErr.pure _

/-- **C14.** Parsing never aborts with an error, whatever the tokens are. -/
theorem C14_never_error (U : Unicode) (n : Nat) (tokens : List Token) (e : Err) (s : PSt) :
    ast U n tokens ≠ .err e s := by
  unfold ast
  split
  · exact fun h => by cases h
  · exact noErr_astLoop _ _ e s

/-- **C14.** On a stream of tokens that have an end, whose comments have a text and in which a heredoc marker is not the
last significant token, parsing never panics. -/
theorem C14_never_panics (U : Unicode) (n : Nat) (tokens : List Token) (h : Safe (DocBlock.docNode U) (new tokens)) :
    ast U n tokens ≠ .panic := by
  unfold ast
  split
  · exact fun h => by cases h
  · intro hp
    have := inv_of_rel (grammarFn_ast (invLR (DocBlock.docNode U) (new tokens)) _ _ (knot_inv n))
    rw [hp] at this
    exact this h

/-- The tokens of a successful scan satisfy the conditions of `C14_never_panics`, unless a heredoc has an empty marker. -/
theorem safe_of_scan (U : Unicode) (t : Text) (s : Scanner.St) (h : Scanner.scan U t = .ok s)
    (hh : ∀ k ∈ s.tokens, ¬ (k.t = .hereDocEnd ∧ k.label = some [])) :
    Safe (DocBlock.docNode U) (new s.tokens) where
  ends k hk he := hh k hk (((Scanner.C11_end_panics_only_for_empty_heredoc_marker U t s h k hk).2).1 he)
  docs k hk := by
    rcases hk with hk | ⟨hk, ht⟩
    · cases hk
    · intro hn
      have hl := (DocBlock.C22_ends U k).1 hn
      have hsh := Scanner.scan_shape U t s h k hk
      unfold Scanner.ShapeOk at hsh
      rw [hl, ht] at hsh
      cases hsh
  docEnds c n k hc hd hk := by
    rcases hc with hc | ⟨hc, ht⟩
    · cases hc
    · rcases DocBlock.docNode_toks_end U c n hd k hk with rfl | h'
      · intro he
        exact hh k hc (((Scanner.C11_end_panics_only_for_empty_heredoc_marker U t s h k hc).2).1 he)
      · exact h'
  heredoc k := by
    by_cases ht : k.t = .hereDocStart
    · refine .inl fun hs => ?_
      obtain ⟨a, ha⟩ := hs
      have ha : a ++ [k] = sig s.tokens := ha
      unfold sig at ha
      obtain ⟨l1, l2, h1, h2, h3⟩ := List.filter_eq_append_iff.1 ha.symm
      obtain ⟨m1, m2, h4, h5, h6, h7⟩ := List.filter_eq_cons_iff.1 h3
      have hc := Scanner.scan_closed U t s h m2.reverse k (l1 ++ m1).reverse (by
        have : s.tokens.reverse = (l1 ++ (m1 ++ k :: m2)).reverse := by rw [h1, h4]
        simpa [Scanner.St.tokens] using this) ht
      obtain ⟨e, he, het⟩ := hc
      have hm : e ∈ m2.filter isSig := List.mem_filter.2 ⟨by simpa using he, by simp [isSig, het]⟩
      rw [h7] at hm
      cases hm
    · exact .inr ht

/-- **C14.** Parsing the tokens of any successfully scanned text neither aborts nor panics, unless a heredoc has an empty
marker (in which case `C11_violation_end_panics` shows that it can). -/
theorem C14_scanned (U : Unicode) (t : Text) (s : Scanner.St) (h : Scanner.scan U t = .ok s)
    (hh : ∀ k ∈ s.tokens, ¬ (k.t = .hereDocEnd ∧ k.label = some [])) (n : Nat) :
    (∃ nodes s', ast U n s.tokens = .ok nodes s') ∨ ∃ site, ast U n s.tokens = .diverge site := by
  have h1 := C14_never_error U n s.tokens
  have h2 := C14_never_panics U n s.tokens (safe_of_scan U t s h hh)
  cases hr : ast U n s.tokens with
  | ok a s' => exact .inl ⟨a, s', rfl⟩
  | err e s' => exact absurd hr (h1 e s')
  | panic => exact absurd hr h2
  | diverge x => exact .inr ⟨x, rfl⟩

/-- A check of a completed run, for concrete examples. -/
def Res.okWith {α : Type} (f : α → PSt → Bool) : Res α → Bool
  | .ok a s => f a s
  | _ => false

/-- A check for a panic, for concrete examples. -/
def Res.isPanic {α : Type} : Res α → Bool
  | .panic => true
  | _ => false

theorem Res.isPanic_iff {α : Type} {r : Res α} : r.isPanic = true ↔ r = .panic := by
  cases r <;> simp [Res.isPanic]

/-- A text with a doc comment, a heredoc and a syntax error meets the hypotheses of `C14_scanned`; the outcome is a tree and
a list of diagnostics. -/
example : ∃ s, Scanner.scan Unicode.ascii c!"<?php /** @var int $a */ $a = <<<X\nb\nX\n. 1; if ) { } $b" = .ok s ∧
    (∀ k ∈ s.tokens, ¬ (k.t = .hereDocEnd ∧ k.label = some [])) ∧
    (ast Unicode.ascii 60 s.tokens).okWith (fun nodes s => nodes.length == 2 && s.errors.length == 2) = true :=
  ⟨_, rfl, by decide, by decide +kernel⟩

/-- **C14, violated.** A heredoc with an empty marker makes the parser panic. -/
theorem C14_violation_empty_heredoc_marker :
    ∃ s, Scanner.scan Unicode.ascii c!"<?php <<<\n x" = .ok s ∧ ast Unicode.ascii 60 s.tokens = .panic :=
  ⟨_, rfl, Res.isPanic_iff.1 (by decide +kernel)⟩

end PhpLs.Parser
