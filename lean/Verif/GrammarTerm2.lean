import Verif.GrammarTerm

/-!
# Termination of every function of the grammar, continued

Calls, expressions, keywords, loops, conditionals, namespaces and statements.
-/

namespace PhpLs.Parser

open PhpLs

variable {V : Env} {N : Nat} {r : Rec} {s : PSt}


theorem wp_globalVariables (hr : RT V N r) (h : s.toks.length < N + fr [.kwGlobal] s) (hx : V.exc .globals) :
    wp V (globalVariables r) (fun _ => s.toks.length + 1 - fr [.kwGlobal] s) (s.toks.length - fr [.kwGlobal] s) s := by
  unfold globalVariables
  wp_auto

macro_rules | `(tactic| wp_spec) => `(tactic| (with_reducible refine wp_globalVariables (by assumption) ?_ (by assumption); omega))

theorem wp_callParameter (hr : RT V N r) (h : s.toks.length < N) :
    wp V (callParameter r) (fun _ => s.toks.length) (s.toks.length) s := by
  unfold callParameter
  wp_auto

macro_rules | `(tactic| wp_spec) => `(tactic| (with_reducible refine wp_callParameter (by assumption) ?_; omega))

theorem wp_finishCall {e : Node} (hr : RT V N r) (h : s.toks.length < N + fr [.openParenthesis] s) :
    wp V (finishCall r e) (fun _ => s.toks.length + 1 - fr [.openParenthesis] s) (s.toks.length - fr [.openParenthesis] s) s := by
  unfold finishCall
  wp_auto

macro_rules | `(tactic| wp_spec) => `(tactic| (with_reducible refine wp_finishCall (by assumption) ?_; omega))

theorem wp_memberAccess {e : Node} {k : Token} (hr : RT V N r) (h : s.toks.length < N) :
    wp V (memberAccess r e k) (fun _ => s.toks.length + 1) (s.toks.length) s := by
  unfold memberAccess
  wp_auto

macro_rules | `(tactic| wp_spec) => `(tactic| (with_reducible refine wp_memberAccess (by assumption) ?_; omega))

theorem wp_staticAccess {e : Node} {k : Token} (hr : RT V N r) (h : s.toks.length < N) :
    wp V (staticAccess r e k) (fun _ => s.toks.length + 1) (s.toks.length) s := by
  unfold staticAccess
  wp_auto

macro_rules | `(tactic| wp_spec) => `(tactic| (with_reducible refine wp_staticAccess (by assumption) ?_; omega))

theorem wp_fieldAccess {e : Node} {k : Token} (hr : RT V N r) (h : s.toks.length < N) :
    wp V (fieldAccess r e k) (fun _ => s.toks.length + 1) (s.toks.length) s := by
  unfold fieldAccess
  wp_auto

macro_rules | `(tactic| wp_spec) => `(tactic| (with_reducible refine wp_fieldAccess (by assumption) ?_; omega))

theorem wp_initCall {e : Node} (hr : RT V N r) (h : s.toks.length < N) :
    wp V (initCall r e) (fun _ => s.toks.length + 1) (s.toks.length) s := by
  unfold initCall
  wp_auto

macro_rules | `(tactic| wp_spec) => `(tactic| (with_reducible refine wp_initCall (by assumption) ?_; omega))

theorem wp_matchArm (hr : RT V N r) (h : s.toks.length < N) :
    wp V (matchArm r) (fun _ => s.toks.length) (s.toks.length) s := by
  unfold matchArm
  wp_auto

macro_rules | `(tactic| wp_spec) => `(tactic| (with_reducible refine wp_matchArm (by assumption) ?_; omega))

theorem wp_matchOption (hr : RT V N r) (h : s.toks.length < N) :
    wp V (matchOption r) (fun _ => s.toks.length) (s.toks.length) s := by
  unfold matchOption
  wp_auto

macro_rules | `(tactic| wp_spec) => `(tactic| (with_reducible refine wp_matchOption (by assumption) ?_; omega))

theorem wp_matchBody (hr : RT V N r) (h : s.toks.length < N) :
    wp V (matchBody r) (fun _ => s.toks.length + 1) (s.toks.length) s := by
  unfold matchBody
  wp_auto

macro_rules | `(tactic| wp_spec) => `(tactic| (with_reducible refine wp_matchBody (by assumption) ?_; omega))

theorem wp_primaryRest :
    wp V (primaryRest) (fun _ => s.toks.length) (s.toks.length - 1) s := by
  unfold primaryRest
  wp_auto

macro_rules | `(tactic| wp_spec) => `(tactic| with_reducible refine wp_primaryRest )

theorem wp_primaryNew (hr : RT V N r) (h : s.toks.length < N + 1) :
    wp V (primaryNew r) (fun _ => s.toks.length) (s.toks.length - 1) s := by
  unfold primaryNew
  wp_auto

macro_rules | `(tactic| wp_spec) => `(tactic| (with_reducible refine wp_primaryNew (by assumption) ?_; omega))

theorem wp_primaryStatic {k : Token} {attributes : List Node} (hr : RT V N r) (h : s.toks.length < N) :
    wp V (primaryStatic r k attributes) (fun _ => s.toks.length + 1) (s.toks.length) s := by
  unfold primaryStatic
  wp_auto

macro_rules | `(tactic| wp_spec) => `(tactic| (with_reducible refine wp_primaryStatic (by assumption) ?_; omega))

theorem wp_primaryAttr (hr : RT V N r) (h : s.toks.length < N + 1) :
    wp V (primaryAttr r) (fun _ => s.toks.length) (s.toks.length - 1) s := by
  unfold primaryAttr
  wp_auto

macro_rules | `(tactic| wp_spec) => `(tactic| (with_reducible refine wp_primaryAttr (by assumption) ?_; omega))

theorem wp_primaryArray (hr : RT V N r) (h : s.toks.length < N + 1) :
    wp V (primaryArray r) (fun _ => s.toks.length) (s.toks.length - 1) s := by
  unfold primaryArray
  wp_auto

macro_rules | `(tactic| wp_spec) => `(tactic| (with_reducible refine wp_primaryArray (by assumption) ?_; omega))

theorem wp_primaryIsset (hr : RT V N r) (h : s.toks.length < N + 1) :
    wp V (primaryIsset r) (fun _ => s.toks.length) (s.toks.length - 1) s := by
  unfold primaryIsset
  wp_auto

macro_rules | `(tactic| wp_spec) => `(tactic| (with_reducible refine wp_primaryIsset (by assumption) ?_; omega))

theorem wp_primary (hr : RT V N r) (h : s.toks.length < N + 1) :
    wp V (primary r) (fun _ => s.toks.length) (s.toks.length - 1) s := by
  unfold primary
  wp_auto

macro_rules | `(tactic| wp_spec) => `(tactic| (with_reducible refine wp_primary (by assumption) ?_; omega))

theorem wp_callF (hr : RT V N r) (h : s.toks.length < N + 1) :
    wp V (callF r) (fun _ => s.toks.length) (s.toks.length - 1) s := by
  unfold callF
  wp_auto

macro_rules | `(tactic| wp_spec) => `(tactic| (with_reducible refine wp_callF (by assumption) ?_; omega))

theorem wp_operand (hr : RT V N r) (h : s.toks.length < N + 1) (hC : ∀ s : PSt, s.toks.length < N + 1 → wp V r.call (fun _ => s.toks.length) (s.toks.length - 1) s) :
    wp V (operand r) (fun _ => s.toks.length) (s.toks.length - 1) s := by
  unfold operand
  refine wp_takeOr ?_ ?_ ?_
  · wp_auto
  · intro a s1 _ _ hl _
    simp only [if_true]
    split
    · wp_auto
    · refine wp_monoC (hC s1 (by omega)) (by omega) (by omega)
  · intro a s1 _ _ hl _ _ _ _
    refine wp_ite (fun h => by cases h) fun _ => wp_monoC (hC s1 (by omega)) (by omega) (by omega)

theorem wp_infixRhs {e : Node} {k : Token} {b : Nat} (hr : RT V N r) (h : s.toks.length < N) :
    wp V (infixRhs r e k b) (fun _ => s.toks.length + 1) (s.toks.length) s := by
  unfold infixRhs
  wp_auto

macro_rules | `(tactic| wp_spec) => `(tactic| (with_reducible refine wp_infixRhs (by assumption) ?_; omega))

theorem wp_operators {b : Nat} {e : Node} (hr : RT V N r) (h : s.toks.length < N) :
    wp V (operators r b e) (fun _ => s.toks.length + 1) (s.toks.length) s := by
  unfold operators
  refine wp_loopP (Nat.lt_of_le_of_lt (by omega) hr.fuel) ?_ _
  intro b s' hs hsub
  refine wp_takeOr ?_ ?_ ?_
  · wp_auto
  · wp_auto
  · intro a s1 _ _ _ _ _ _ _
    refine wp_ite (fun h => by cases h) fun _ => ?_
    wp_auto

macro_rules | `(tactic| wp_spec) => `(tactic| (with_reducible refine wp_operators (by assumption) ?_; omega))

theorem wp_expressionF {b : Nat} (hr : RT V N r) (h : s.toks.length < N + 1) (hC : ∀ s : PSt, s.toks.length < N + 1 → wp V r.call (fun _ => s.toks.length) (s.toks.length - 1) s) :
    wp V (expressionF r b) (fun _ => s.toks.length) (s.toks.length - 1) s := by
  unfold expressionF
  refine wp_bindC (wp_operand hr h hC) (by omega) ?_
  wp_auto

theorem wp_declareStatement (h : s.toks.length < N + fr [.kwDeclare] s) :
    wp V (declareStatement) (fun _ => s.toks.length + 1 - fr [.kwDeclare] s) (s.toks.length - fr [.kwDeclare] s) s := by
  unfold declareStatement
  wp_auto

macro_rules | `(tactic| wp_spec) => `(tactic| (with_reducible refine wp_declareStatement ?_; omega))

theorem wp_unsetStatement (hr : RT V N r) (h : s.toks.length < N + fr [.kwUnset] s) :
    wp V (unsetStatement r) (fun _ => s.toks.length + 1 - fr [.kwUnset] s) (s.toks.length - fr [.kwUnset] s) s := by
  unfold unsetStatement
  wp_auto

macro_rules | `(tactic| wp_spec) => `(tactic| (with_reducible refine wp_unsetStatement (by assumption) ?_; omega))

theorem wp_dieStatement (hr : RT V N r) (h : s.toks.length < N + fr [.kwDie] s) :
    wp V (dieStatement r) (fun _ => s.toks.length + 1 - fr [.kwDie] s) (s.toks.length - fr [.kwDie] s) s := by
  unfold dieStatement
  wp_auto

macro_rules | `(tactic| wp_spec) => `(tactic| (with_reducible refine wp_dieStatement (by assumption) ?_; omega))

theorem wp_defineStatement (hr : RT V N r) (h : s.toks.length < N + fr [.kwDefine] s) :
    wp V (defineStatement r) (fun _ => s.toks.length + 1 - fr [.kwDefine] s) (s.toks.length - fr [.kwDefine] s) s := by
  unfold defineStatement
  wp_auto

macro_rules | `(tactic| wp_spec) => `(tactic| (with_reducible refine wp_defineStatement (by assumption) ?_; omega))

theorem wp_echoStatement (hr : RT V N r) (h : s.toks.length < N + fr [.kwEcho] s) :
    wp V (echoStatement r) (fun _ => s.toks.length + 1 - fr [.kwEcho] s) (s.toks.length - fr [.kwEcho] s) s := by
  unfold echoStatement
  wp_auto

macro_rules | `(tactic| wp_spec) => `(tactic| (with_reducible refine wp_echoStatement (by assumption) ?_; omega))

theorem wp_shortTagEchoStatement (hr : RT V N r) (h : s.toks.length < N + fr [.scriptStartEcho] s) :
    wp V (shortTagEchoStatement r) (fun _ => s.toks.length + 1 - fr [.scriptStartEcho] s) (s.toks.length - fr [.scriptStartEcho] s) s := by
  unfold shortTagEchoStatement
  wp_auto

macro_rules | `(tactic| wp_spec) => `(tactic| (with_reducible refine wp_shortTagEchoStatement (by assumption) ?_; omega))

theorem wp_printStatement (hr : RT V N r) (h : s.toks.length < N + fr [.kwPrint] s) :
    wp V (printStatement r) (fun _ => s.toks.length + 1 - fr [.kwPrint] s) (s.toks.length - fr [.kwPrint] s) s := by
  unfold printStatement
  wp_auto

macro_rules | `(tactic| wp_spec) => `(tactic| (with_reducible refine wp_printStatement (by assumption) ?_; omega))

theorem wp_gotoStatement (h : s.toks.length < N + fr [.kwGoto] s) :
    wp V (gotoStatement) (fun _ => s.toks.length + 1 - fr [.kwGoto] s) (s.toks.length - fr [.kwGoto] s) s := by
  unfold gotoStatement
  wp_auto

macro_rules | `(tactic| wp_spec) => `(tactic| (with_reducible refine wp_gotoStatement ?_; omega))

theorem wp_catchBlock (hr : RT V N r) (h : s.toks.length < N + fr [.kwCatch] s) :
    wp V (catchBlock r) (fun _ => s.toks.length + 1 - fr [.kwCatch] s) (s.toks.length - fr [.kwCatch] s) s := by
  unfold catchBlock
  wp_auto

macro_rules | `(tactic| wp_spec) => `(tactic| (with_reducible refine wp_catchBlock (by assumption) ?_; omega))

theorem wp_tryCatchStatement (hr : RT V N r) (h : s.toks.length < N + fr [.kwTry] s) :
    wp V (tryCatchStatement r) (fun _ => s.toks.length + 1 - fr [.kwTry] s) (s.toks.length - fr [.kwTry] s) s := by
  unfold tryCatchStatement
  wp_auto

macro_rules | `(tactic| wp_spec) => `(tactic| (with_reducible refine wp_tryCatchStatement (by assumption) ?_; omega))

theorem wp_throwStatement (hr : RT V N r) (h : s.toks.length < N + fr [.kwThrow] s) :
    wp V (throwStatement r) (fun _ => s.toks.length + 1 - fr [.kwThrow] s) (s.toks.length - fr [.kwThrow] s) s := by
  unfold throwStatement
  wp_auto

macro_rules | `(tactic| wp_spec) => `(tactic| (with_reducible refine wp_throwStatement (by assumption) ?_; omega))

theorem wp_forPart {t : TT} (hr : RT V N r) (h : s.toks.length < N) :
    wp V (forPart r t) (fun _ => s.toks.length + 1) (s.toks.length) s := by
  unfold forPart
  wp_auto

macro_rules | `(tactic| wp_spec) => `(tactic| (with_reducible refine wp_forPart (by assumption) ?_; omega))

theorem wp_forStatement (hr : RT V N r) (h : s.toks.length < N + fr [.kwFor] s) :
    wp V (forStatement r) (fun _ => s.toks.length + 1 - fr [.kwFor] s) (s.toks.length - fr [.kwFor] s) s := by
  unfold forStatement
  wp_auto

macro_rules | `(tactic| wp_spec) => `(tactic| (with_reducible refine wp_forStatement (by assumption) ?_; omega))

theorem wp_whileStatement (hr : RT V N r) (h : s.toks.length < N + fr [.kwWhile] s) :
    wp V (whileStatement r) (fun _ => s.toks.length + 1 - fr [.kwWhile] s) (s.toks.length - fr [.kwWhile] s) s := by
  unfold whileStatement
  wp_auto

macro_rules | `(tactic| wp_spec) => `(tactic| (with_reducible refine wp_whileStatement (by assumption) ?_; omega))

theorem wp_foreachStatement (hr : RT V N r) (h : s.toks.length < N + fr [.kwForeach] s) :
    wp V (foreachStatement r) (fun _ => s.toks.length + 1 - fr [.kwForeach] s) (s.toks.length - fr [.kwForeach] s) s := by
  unfold foreachStatement
  wp_auto

macro_rules | `(tactic| wp_spec) => `(tactic| (with_reducible refine wp_foreachStatement (by assumption) ?_; omega))

theorem wp_doWhileStatement (hr : RT V N r) (h : s.toks.length < N + fr [.kwDo] s) :
    wp V (doWhileStatement r) (fun _ => s.toks.length + 1 - fr [.kwDo] s) (s.toks.length - fr [.kwDo] s) s := by
  unfold doWhileStatement
  wp_auto

macro_rules | `(tactic| wp_spec) => `(tactic| (with_reducible refine wp_doWhileStatement (by assumption) ?_; omega))

theorem wp_plainStatements {ts : List TT} (hr : RT V N r) (h : s.toks.length < N) :
    wp V (plainStatements r ts) (fun _ => s.toks.length + fr ts s) (s.toks.length) s := by
  unfold plainStatements
  refine wp_loopFirst (Nat.lt_of_le_of_lt (by omega) hr.fuel) (by omega) ?_ ?_
  · refine wp_nextOneOfFr ?_ ?_
    · wp_auto
    · wp_auto
  · wp_auto

macro_rules | `(tactic| wp_spec) => `(tactic| (with_reducible refine wp_mono (wp_plainStatements (by assumption) ?_) (fun _ => Nat.add_le_add_left (fr_le _ _) _) (Nat.le_refl _); omega))

theorem wp_altElseifs {k : Token} (hr : RT V N r) (h : s.toks.length < N) :
    wp V (altElseifs r k) (fun _ => s.toks.length + 1) (s.toks.length) s := by
  unfold altElseifs
  wp_auto

macro_rules | `(tactic| wp_spec) => `(tactic| (with_reducible refine wp_altElseifs (by assumption) ?_; omega))

theorem wp_ifAlternative {k op : Token} {c : Node} {cp colon : Token} (hr : RT V N r) (h : s.toks.length < N) :
    wp V (ifAlternative r k op c cp colon) (fun _ => s.toks.length + 1) (s.toks.length) s := by
  unfold ifAlternative
  wp_auto

macro_rules | `(tactic| wp_spec) => `(tactic| (with_reducible refine wp_ifAlternative (by assumption) ?_; omega))

theorem wp_elseifs (hr : RT V N r) (h : s.toks.length < N) :
    wp V (elseifs r) (fun _ => s.toks.length + 1) (s.toks.length) s := by
  unfold elseifs
  wp_auto

macro_rules | `(tactic| wp_spec) => `(tactic| (with_reducible refine wp_elseifs (by assumption) ?_; omega))

theorem wp_ifStatement (hr : RT V N r) (h : s.toks.length < N + fr [.kwIf] s) :
    wp V (ifStatement r) (fun _ => s.toks.length + 1 - fr [.kwIf] s) (s.toks.length - fr [.kwIf] s) s := by
  unfold ifStatement
  wp_auto

macro_rules | `(tactic| wp_spec) => `(tactic| (with_reducible refine wp_ifStatement (by assumption) ?_; omega))

theorem wp_caseList (hr : RT V N r) (h : s.toks.length < N) :
    wp V (caseList r) (fun _ => s.toks.length + 1 - fr [.kwDefault, .kwCase] s) (s.toks.length) s := by
  have hle := fr_le [.kwDefault, .kwCase] s
  unfold caseList
  refine wp_loopFirst (Nat.lt_of_le_of_lt (by omega) hr.fuel) (by omega) ?_ ?_
  · by_cases hf : fr [.kwDefault, .kwCase] s = 1
    · obtain ⟨t, h1, h2⟩ := fr_one hf
      refine wp_takeIf_take h1 (fun a ha => by rw [ha]; simpa using h2) ?_
      wp_auto
    · wp_auto
  · wp_auto

macro_rules | `(tactic| wp_spec) => `(tactic| (with_reducible refine wp_caseList (by assumption) ?_; omega))

theorem wp_switchBody (hr : RT V N r) (h : s.toks.length < N) :
    wp V (switchBody r) (fun _ => s.toks.length + 1) (s.toks.length) s := by
  unfold switchBody
  refine wp_bindW ?_ ?_
  · wp_auto
  rintro ⟨start, t⟩ s1 _ _ hl1
  refine wp_bindW ?_ ?_
  · refine wp_loopP (Nat.lt_of_le_of_lt (by omega) hr.fuel) ?_ _
    intro b s2 hl2 _
    refine wp_nextOneOfFr ?_ ?_
    · wp_auto
    · intro s3 _ _ hl3 _ hf3
      refine wp_bindC (wp_caseList hr (by omega)) (by omega) ?_
      intro cs s4 _ hs4 hl4
      refine wp_bind (wp_plainStatements hr (by omega)) (by omega) ?_
      intro ss s5 _ _ hl5
      refine wp_pureInl ?_
      have hle := fr_le [t, .kwCase, .kwDefault] s4
      have hpos := fr_pos_len (ts := [t, .kwCase, .kwDefault]) (s := s4)
      have hle3 := fr_le [.kwDefault, .kwCase] s3
      by_cases hlt : s4.toks.length < s2.toks.length
      · omega
      · have hf3 : fr [t] s3 = 0 ∨ s3.toks.length = 0 := by omega
        have e : s4.toks = s3.toks := hs4.eq_of_length (by omega)
        have hz : fr [t, .kwCase, .kwDefault] s4 = 0 := by
          have h0 : fr [.kwDefault, .kwCase] s3 = 0 := by omega
          unfold fr at hf3 h0 ⊢
          rw [e]
          cases hfr : front s3.toks with
          | none => rfl
          | some x =>
            rw [hfr] at hf3 h0
            have hne : s3.toks.length ≠ 0 := by
              intro h; rw [List.length_eq_zero_iff.1 h] at hfr; cases hfr
            simp at hf3 h0 ⊢
            grind
        omega
  · wp_auto

macro_rules | `(tactic| wp_spec) => `(tactic| (with_reducible refine wp_switchBody (by assumption) ?_; omega))

theorem wp_switchStatement (hr : RT V N r) (h : s.toks.length < N + fr [.kwSwitch] s) :
    wp V (switchStatement r) (fun _ => s.toks.length + 1 - fr [.kwSwitch] s) (s.toks.length - fr [.kwSwitch] s) s := by
  unfold switchStatement
  wp_auto

macro_rules | `(tactic| wp_spec) => `(tactic| (with_reducible refine wp_switchStatement (by assumption) ?_; omega))

theorem wp_namespaceStatement (hr : RT V N r) (h : s.toks.length < N + fr [.kwNamespace] s) :
    wp V (namespaceStatement r) (fun _ => s.toks.length + 1 - fr [.kwNamespace] s) (s.toks.length - fr [.kwNamespace] s) s := by
  unfold namespaceStatement
  wp_auto

macro_rules | `(tactic| wp_spec) => `(tactic| (with_reducible refine wp_namespaceStatement (by assumption) ?_; omega))

theorem wp_importAlias :
    wp V (importAlias) (fun _ => s.toks.length + 1) (0) s := by
  unfold importAlias
  wp_auto

macro_rules | `(tactic| wp_spec) => `(tactic| with_reducible refine wp_importAlias )

theorem wp_symbolImport (hr : RT V N r) (h : s.toks.length < N) :
    wp V (symbolImport r) (fun _ => s.toks.length + 1) (0) s := by
  unfold symbolImport
  wp_auto

macro_rules | `(tactic| wp_spec) => `(tactic| (with_reducible refine wp_symbolImport (by assumption) ?_; omega))

theorem wp_symbolImports (hr : RT V N r) (h : s.toks.length < N) :
    wp V (symbolImports r) (fun _ => s.toks.length + 1) (0) s := by
  unfold symbolImports
  wp_auto

macro_rules | `(tactic| wp_spec) => `(tactic| (with_reducible refine wp_symbolImports (by assumption) ?_; omega))

theorem wp_useFunctionStatement {k : Token} (hr : RT V N r) (h : s.toks.length < N) :
    wp V (useFunctionStatement r k) (fun _ => s.toks.length + 1) (s.toks.length) s := by
  unfold useFunctionStatement
  wp_auto

macro_rules | `(tactic| wp_spec) => `(tactic| (with_reducible refine wp_useFunctionStatement (by assumption) ?_; omega))

theorem wp_useConstStatement {k : Token} (hr : RT V N r) (h : s.toks.length < N) :
    wp V (useConstStatement r k) (fun _ => s.toks.length + 1) (s.toks.length) s := by
  unfold useConstStatement
  wp_auto

macro_rules | `(tactic| wp_spec) => `(tactic| (with_reducible refine wp_useConstStatement (by assumption) ?_; omega))

theorem wp_useImport {k : Token} (hr : RT V N r) (h : s.toks.length < N) :
    wp V (useImport r k) (fun _ => s.toks.length + 1) (s.toks.length) s := by
  unfold useImport
  wp_auto

macro_rules | `(tactic| wp_spec) => `(tactic| (with_reducible refine wp_useImport (by assumption) ?_; omega))

theorem wp_useStatement {k : Token} (hr : RT V N r) (h : s.toks.length < N) :
    wp V (useStatement r k) (fun _ => s.toks.length + 1) (s.toks.length) s := by
  unfold useStatement
  wp_auto

macro_rules | `(tactic| wp_spec) => `(tactic| (with_reducible refine wp_useStatement (by assumption) ?_; omega))

theorem wp_inlineHtml (hr : RT V N r) (h : s.toks.length < N + fr [.scriptEnd] s) (hc : V.c = 0) :
    wp V (inlineHtml r) (fun _ => s.toks.length + 1 - fr [.scriptEnd] s) (s.toks.length - fr [.scriptEnd] s) s := by
  unfold inlineHtml
  wp_auto

macro_rules | `(tactic| wp_spec) => `(tactic| (with_reducible refine wp_inlineHtml (by assumption) ?_ (by assumption); omega))

theorem wp_exprThenEnd (hr : RT V N r) (h : s.toks.length < N + 1) (hE : ∀ (b : Nat) (s : PSt), s.toks.length < N + 1 → wp V (r.expression b) (fun _ => s.toks.length) (s.toks.length - 1) s) :
    wp V (exprThenEnd r) (fun _ => s.toks.length) (s.toks.length - 1) s := by
  unfold exprThenEnd expressionStatement
  refine wp_bindC (n1 := s.toks.length) (m1 := s.toks.length - 1) ?_ (by omega) ?_
  · refine wp_bindC (hE 0 s h) (by omega) ?_
    wp_auto
  · intro _ s1 _ _ hl1
    refine wp_ifNext ?_ ?_
    · intro s2 hr2 _ _ _ hf
      have hc := c_zero hr2 hf (.inl rfl)
      wp_auto
    · wp_auto

macro_rules | `(tactic| wp_spec) => `(tactic| (with_reducible refine wp_exprThenEnd (by assumption) ?_ (by assumption); omega))

theorem wp_defaultStatement (hr : RT V N r) (h : s.toks.length < N + 1) (hE : ∀ (b : Nat) (s : PSt), s.toks.length < N + 1 → wp V (r.expression b) (fun _ => s.toks.length) (s.toks.length - 1) s) :
    wp V (defaultStatement r) (fun _ => s.toks.length) (s.toks.length - 1) s := by
  unfold defaultStatement
  wp_auto

macro_rules | `(tactic| wp_spec) => `(tactic| (with_reducible refine wp_defaultStatement (by assumption) ?_; omega))

theorem wp_breakStatement {t : TT} (hr : RT V N r) (h : s.toks.length < N + fr [t] s) :
    wp V (breakStatement r t) (fun _ => s.toks.length + 1 - fr [t] s) (s.toks.length - fr [t] s) s := by
  unfold breakStatement
  wp_auto

macro_rules | `(tactic| wp_spec) => `(tactic| (with_reducible refine wp_breakStatement (by assumption) ?_; omega))

theorem wp_useCase (hr : RT V N r) (h : s.toks.length < N + fr [.kwUse] s) :
    wp V (useCase r) (fun _ => s.toks.length + 1 - fr [.kwUse] s) (s.toks.length - fr [.kwUse] s) s := by
  unfold useCase
  wp_auto

macro_rules | `(tactic| wp_spec) => `(tactic| (with_reducible refine wp_useCase (by assumption) ?_; omega))

end PhpLs.Parser
