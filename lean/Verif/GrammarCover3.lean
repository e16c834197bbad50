import Verif.GrammarCover2

/-!
# Places of the nodes the grammar returns, statements

The statements, and the recursion of the parser.
-/

namespace PhpLs.Parser

open PhpLs PhpLs.Suggester

set_option linter.unusedVariables false

namespace Sc

variable {c : Sc}

theorem cov_declareStatement {p : Nat} : c.Runs p declareStatement fun q n => c.Ok p q (.node n) := by
  unfold declareStatement
  cov_auto

macro_rules | `(tactic| cov_lem) => `(tactic| with_reducible exact cov_declareStatement)

theorem cov_unsetStatement {p : Nat} {r : Rec} (hr : RCov c r) : c.Runs p (unsetStatement r) fun q n => c.Ok p q (.node n) := by
  unfold Parser.unsetStatement
  cov_auto

macro_rules | `(tactic| cov_lem) => `(tactic| with_reducible exact cov_unsetStatement ‹_›)

theorem cov_dieStatement {p : Nat} {r : Rec} (hr : RCov c r) : c.Runs p (dieStatement r) fun q n => c.Ok p q (.node n) := by
  unfold Parser.dieStatement
  cov_auto

macro_rules | `(tactic| cov_lem) => `(tactic| with_reducible exact cov_dieStatement ‹_›)

theorem cov_defineStatement {p : Nat} {r : Rec} (hr : RCov c r) : c.Runs p (defineStatement r) fun q n => c.Ok p q (.node n) := by
  unfold Parser.defineStatement
  cov_auto

macro_rules | `(tactic| cov_lem) => `(tactic| with_reducible exact cov_defineStatement ‹_›)

theorem cov_echoStatement {p : Nat} {r : Rec} (hr : RCov c r) : c.Runs p (echoStatement r) fun q n => c.Ok p q (.node n) := by
  unfold Parser.echoStatement
  cov_auto

macro_rules | `(tactic| cov_lem) => `(tactic| with_reducible exact cov_echoStatement ‹_›)

theorem cov_shortTagEchoStatement {p : Nat} {r : Rec} (hr : RCov c r) : c.Runs p (shortTagEchoStatement r) fun q n => c.Ok p q (.node n) := by
  unfold Parser.shortTagEchoStatement
  cov_auto

macro_rules | `(tactic| cov_lem) => `(tactic| with_reducible exact cov_shortTagEchoStatement ‹_›)

theorem cov_printStatement {p : Nat} {r : Rec} (hr : RCov c r) : c.Runs p (printStatement r) fun q n => c.Ok p q (.node n) := by
  unfold Parser.printStatement
  cov_auto

macro_rules | `(tactic| cov_lem) => `(tactic| with_reducible exact cov_printStatement ‹_›)

theorem cov_gotoStatement {p : Nat} : c.Runs p (gotoStatement) fun q n => c.Ok p q (.node n) := by
  unfold Parser.gotoStatement
  cov_auto

macro_rules | `(tactic| cov_lem) => `(tactic| with_reducible exact cov_gotoStatement)

theorem cov_catchBlock {p : Nat} {r : Rec} (hr : RCov c r) : c.Runs p (catchBlock r) fun q n => c.Ok p q (.node n) := by
  unfold Parser.catchBlock
  cov_auto

macro_rules | `(tactic| cov_lem) => `(tactic| with_reducible exact cov_catchBlock ‹_›)

theorem cov_tryCatchStatement {p : Nat} {r : Rec} (hr : RCov c r) : c.Runs p (tryCatchStatement r) fun q n => c.Ok p q (.node n) := by
  unfold Parser.tryCatchStatement
  cov_auto

macro_rules | `(tactic| cov_lem) => `(tactic| with_reducible exact cov_tryCatchStatement ‹_›)

theorem cov_throwStatement {p : Nat} {r : Rec} (hr : RCov c r) : c.Runs p (throwStatement r) fun q n => c.Ok p q (.node n) := by
  unfold Parser.throwStatement
  cov_auto

macro_rules | `(tactic| cov_lem) => `(tactic| with_reducible exact cov_throwStatement ‹_›)

theorem cov_forPart {p : Nat} {r : Rec} {stop : TT} (hr : RCov c r) :
    c.Runs p (forPart r stop) fun q n => c.Ok p q (.list n) := by
  unfold Parser.forPart
  cov_auto

macro_rules | `(tactic| cov_lem) => `(tactic| with_reducible exact cov_forPart ‹_›)

theorem cov_forStatement {p : Nat} {r : Rec} (hr : RCov c r) : c.Runs p (forStatement r) fun q n => c.Ok p q (.node n) := by
  unfold Parser.forStatement
  cov_auto

macro_rules | `(tactic| cov_lem) => `(tactic| with_reducible exact cov_forStatement ‹_›)

theorem cov_whileStatement {p : Nat} {r : Rec} (hr : RCov c r) : c.Runs p (whileStatement r) fun q n => c.Ok p q (.node n) := by
  unfold Parser.whileStatement
  cov_auto

macro_rules | `(tactic| cov_lem) => `(tactic| with_reducible exact cov_whileStatement ‹_›)

theorem cov_foreachStatement {p : Nat} {r : Rec} (hr : RCov c r) : c.Runs p (foreachStatement r) fun q n => c.Ok p q (.node n) := by
  unfold Parser.foreachStatement
  cov_auto

macro_rules | `(tactic| cov_lem) => `(tactic| with_reducible exact cov_foreachStatement ‹_›)

theorem cov_doWhileStatement {p : Nat} {r : Rec} (hr : RCov c r) : c.Runs p (doWhileStatement r) fun q n => c.Ok p q (.node n) := by
  unfold Parser.doWhileStatement
  cov_auto

macro_rules | `(tactic| cov_lem) => `(tactic| with_reducible exact cov_doWhileStatement ‹_›)

theorem cov_plainStatements {p : Nat} {r : Rec} {stop : List TT} (hr : RCov c r) :
    c.Runs p (plainStatements r stop) fun q n => c.Ok p q (.list n) := by
  unfold Parser.plainStatements
  cov_auto

macro_rules | `(tactic| cov_lem) => `(tactic| with_reducible exact cov_plainStatements ‹_›)

theorem cov_elseifs {p : Nat} {r : Rec} (hr : RCov c r) : c.Runs p (elseifs r) fun q n => c.Ok p q (.list n) := by
  unfold Parser.elseifs
  cov_auto

macro_rules | `(tactic| cov_lem) => `(tactic| with_reducible exact cov_elseifs ‹_›)

theorem cov_caseList {p : Nat} {r : Rec} (hr : RCov c r) : c.Runs p (caseList r) fun q n => c.Ok p q (.vals n) := by
  unfold Parser.caseList
  cov_auto

macro_rules | `(tactic| cov_lem) => `(tactic| with_reducible exact cov_caseList ‹_›)

theorem cov_switchBody {p : Nat} {r : Rec} (hr : RCov c r) : c.Runs p (switchBody r) fun q n => c.Ok p q (.node n) := by
  unfold switchBody
  refine Runs.bind (Q := fun q x => c.Ok p q (.tok x.1)) ?_ fun q x hq hx => ?_
  · cov_auto
  · obtain ⟨k, t⟩ := x
    simp only at hx ⊢
    cov_auto

macro_rules | `(tactic| cov_lem) => `(tactic| with_reducible exact cov_switchBody ‹_›)

theorem cov_switchStatement {p : Nat} {r : Rec} (hr : RCov c r) : c.Runs p (switchStatement r) fun q n => c.Ok p q (.node n) := by
  unfold Parser.switchStatement
  cov_auto

macro_rules | `(tactic| cov_lem) => `(tactic| with_reducible exact cov_switchStatement ‹_›)

theorem cov_namespaceStatement {p : Nat} {r : Rec} (hr : RCov c r) : c.Runs p (namespaceStatement r) fun q n => c.Ok p q (.node n) := by
  unfold namespaceStatement
  cov_auto

macro_rules | `(tactic| cov_lem) => `(tactic| with_reducible exact cov_namespaceStatement ‹_›)

theorem cov_importAlias {p : Nat} : c.Runs p importAlias fun q x => c.Seq p q [.otok x.1, .otok x.2] := by
  unfold importAlias
  cov_auto

theorem cov_expressionStatement {p : Nat} {r : Rec} (hr : RCov c r) : c.Runs p (expressionStatement r) fun q n => c.Ok p q (.node n) := by
  unfold Parser.expressionStatement
  cov_auto

macro_rules | `(tactic| cov_lem) => `(tactic| with_reducible exact cov_expressionStatement ‹_›)

theorem cov_exprThenEnd {p : Nat} {r : Rec} (hr : RCov c r) : c.Runs p (exprThenEnd r) fun q n => c.Ok p q (.node n) := by
  unfold Parser.exprThenEnd
  cov_auto

macro_rules | `(tactic| cov_lem) => `(tactic| with_reducible exact cov_exprThenEnd ‹_›)

theorem cov_defaultStatement {p : Nat} {r : Rec} (hr : RCov c r) : c.Runs p (defaultStatement r) fun q n => c.Ok p q (.node n) := by
  unfold Parser.defaultStatement
  cov_auto

macro_rules | `(tactic| cov_lem) => `(tactic| with_reducible exact cov_defaultStatement ‹_›)

theorem cov_breakStatement {p : Nat} {r : Rec} {t : TT} (hr : RCov c r) :
    c.Runs p (breakStatement r t) fun q n => c.Ok p q (.node n) := by
  unfold Parser.breakStatement
  cov_auto

macro_rules | `(tactic| cov_lem) => `(tactic| with_reducible exact cov_breakStatement ‹_›)

theorem cov_inlineHtml {p : Nat} {r : Rec} (hr : RCov c r) : c.Runs p (inlineHtml r) fun q n => c.Ok p q (.node n) := by
  unfold Parser.inlineHtml
  cov_auto

macro_rules | `(tactic| cov_lem) => `(tactic| with_reducible exact cov_inlineHtml ‹_›)

end Sc
end PhpLs.Parser
