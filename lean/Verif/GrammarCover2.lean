import Verif.GrammarCover

/-!
# Places of the nodes the grammar returns, continued

Classes, calls and expressions.
-/

namespace PhpLs.Parser

open PhpLs PhpLs.Suggester

set_option linter.unusedVariables false

namespace Sc

variable {c : Sc}

theorem cov_classBlockStatement {p : Nat} {r : Rec} (hr : RCov c r) :
    c.Runs p (classBlockStatement r) fun q n => c.Ok p q (.node n) := by
  unfold classBlockStatement
  cov_auto

macro_rules | `(tactic| cov_lem) => `(tactic| with_reducible exact cov_classBlockStatement ‹_›)

theorem cov_classBlock {p : Nat} {r : Rec} (hr : RCov c r) : c.Runs p (classBlock r) fun q n => c.Ok p q (.node n) := by
  unfold classBlock
  refine Runs.bind run_consume fun q1 oc h1 hoc => ?_
  refine Runs.bind (loop_LL fun q l hq hl => ?_) fun q2 l h2 hl => ?_
  · refine Runs.bind run_nextOneOf fun q3 b h3 _ => Runs.ite (fun _ => Runs.pure (by simp only [Sum.elim_inr]; cov_leaf)) fun _ => ?_
    refine Runs.bind (Q := fun q' l => c.Ok q1 q' (.list l)) ?_ fun q4 l h4 hl => ?_
    · refine Runs.catchErr (cov_classBlockStatement hr) (fun q n _ hn => Runs.pure ?_) (fun q _ _ => Runs.pure ?_) <;> cov_leaf
    · cov_auto
  · cov_auto

macro_rules | `(tactic| cov_lem) => `(tactic| with_reducible exact cov_classBlock ‹_›)

theorem cov_extendsOne {p : Nat} {r : Rec} : c.Runs p (extendsOne r) fun q n => c.Ok p q (.onode n) := by
  unfold extendsOne
  cov_auto

macro_rules | `(tactic| cov_lem) => `(tactic| with_reducible exact cov_extendsOne)

theorem cov_clauseList {p : Nat} {r : Rec} {t : TT} : c.Runs p (clauseList r t) fun q n => c.Ok p q (.olist n) := by
  unfold clauseList
  cov_auto

macro_rules | `(tactic| cov_lem) => `(tactic| with_reducible exact cov_clauseList)

theorem cov_classStatement {p0 p : Nat} {r : Rec} {isAbstract isFinal : Option Token} {attributes : List Node} (hr : RCov c r)
    {a : Nat} (ha : c.Ok p0 a (.otok isAbstract)) (hf : c.Ok a p (.otok isFinal)) :
    c.Runs p (classStatement r isAbstract isFinal attributes) fun q n => c.Ok p0 q (.node n) := by
  unfold classStatement
  cov_auto

theorem cov_abstractClassStatement {p : Nat} {r : Rec} {attributes : List Node} (hr : RCov c r) :
    c.Runs p (abstractClassStatement r attributes) fun q n => c.Ok p q (.node n) := by
  unfold abstractClassStatement
  exact Runs.bind run_consume fun q a hq ha => cov_classStatement hr (a := q) (by cov_leaf) (by cov_leaf)

macro_rules | `(tactic| cov_lem) => `(tactic| with_reducible exact cov_abstractClassStatement ‹_›)

theorem cov_finalClassStatement {p : Nat} {r : Rec} {attributes : List Node} (hr : RCov c r) :
    c.Runs p (finalClassStatement r attributes) fun q n => c.Ok p q (.node n) := by
  unfold finalClassStatement
  exact Runs.bind run_consume fun q a hq ha => cov_classStatement hr (a := p) (by cov_leaf) (by cov_leaf)

macro_rules | `(tactic| cov_lem) => `(tactic| with_reducible exact cov_finalClassStatement ‹_›)

theorem cov_anonymousClass {p : Nat} {r : Rec} {attributes : List Node} (hr : RCov c r) :
    c.Runs p (anonymousClass r attributes) fun q n => c.Ok p q (.node n) := by
  unfold anonymousClass
  cov_auto

macro_rules | `(tactic| cov_lem) => `(tactic| with_reducible exact cov_anonymousClass ‹_›)

theorem cov_interface' {p : Nat} {r : Rec} (hr : RCov c r) : c.Runs p (interface' r) fun q n => c.Ok p q (.node n) := by
  unfold Parser.interface'
  cov_auto

macro_rules | `(tactic| cov_lem) => `(tactic| with_reducible exact cov_interface' ‹_›)

theorem cov_traitStatement {p : Nat} {r : Rec} (hr : RCov c r) : c.Runs p (traitStatement r) fun q n => c.Ok p q (.node n) := by
  unfold Parser.traitStatement
  cov_auto

macro_rules | `(tactic| cov_lem) => `(tactic| with_reducible exact cov_traitStatement ‹_›)

theorem cov_callParameter {p : Nat} {r : Rec} (hr : RCov c r) : c.Runs p (callParameter r) fun q n => c.Ok p q (.node n) := by
  unfold Parser.callParameter
  cov_auto

macro_rules | `(tactic| cov_lem) => `(tactic| with_reducible exact cov_callParameter ‹_›)

theorem cov_finishCall {p0 p : Nat} {r : Rec} {expr : Node} (hr : RCov c r) (he : c.Ok p0 p (.node expr)) :
    c.Runs p (finishCall r expr) fun q n => c.Ok p0 q (.node n) := by
  unfold finishCall
  cov_auto

macro_rules | `(tactic| cov_lem) => `(tactic| with_reducible exact cov_finishCall ‹_› (by cov_arg))

theorem cov_memberAccess {p0 a p : Nat} {r : Rec} {expr : Node} {k : Token} (hr : RCov c r) (hk : c.Ok a p (.tok k))
    (he : c.Ok p0 a (.node expr)) : c.Runs p (memberAccess r expr k) fun q n => c.Ok p0 q (.node n) := by
  unfold memberAccess
  cov_auto

macro_rules | `(tactic| cov_lem) => `(tactic| with_reducible exact cov_memberAccess ‹_› (ok_some_tok (by assumption)) (ok_to (by assumption) (by omega)))

theorem cov_staticAccess {p0 a p : Nat} {r : Rec} {expr : Node} {k : Token} (hr : RCov c r) (hk : c.Ok a p (.tok k))
    (he : c.Ok p0 a (.node expr)) : c.Runs p (staticAccess r expr k) fun q n => c.Ok p0 q (.node n) := by
  unfold staticAccess
  cov_auto

macro_rules | `(tactic| cov_lem) => `(tactic| with_reducible exact cov_staticAccess ‹_› (ok_some_tok (by assumption)) (ok_to (by assumption) (by omega)))

theorem cov_fieldAccess {p0 a p : Nat} {r : Rec} {expr : Node} {k : Token} (hr : RCov c r) (hk : c.Ok a p (.tok k))
    (he : c.Ok p0 a (.node expr)) : c.Runs p (fieldAccess r expr k) fun q n => c.Ok p0 q (.node n) := by
  unfold fieldAccess
  cov_auto

macro_rules | `(tactic| cov_lem) => `(tactic| with_reducible exact cov_fieldAccess ‹_› (ok_some_tok (by assumption)) (ok_to (by assumption) (by omega)))

theorem cov_initCall {p0 p : Nat} {r : Rec} {expr : Node} (hr : RCov c r) (he : c.Ok p0 p (.node expr)) :
    c.Runs p (initCall r expr) fun q n => c.Ok p0 q (.node n) := by
  unfold initCall
  cov_auto

macro_rules | `(tactic| cov_lem) => `(tactic| with_reducible exact cov_initCall ‹_› (by cov_arg))

theorem cov_matchArm {p : Nat} {r : Rec} (hr : RCov c r) : c.Runs p (matchArm r) fun q n => c.Ok p q (.node n) := by
  unfold Parser.matchArm
  cov_auto

macro_rules | `(tactic| cov_lem) => `(tactic| with_reducible exact cov_matchArm ‹_›)

theorem cov_matchOption {p : Nat} {r : Rec} (hr : RCov c r) : c.Runs p (matchOption r) fun q n => c.Ok p q (.node n) := by
  unfold Parser.matchOption
  cov_auto

macro_rules | `(tactic| cov_lem) => `(tactic| with_reducible exact cov_matchOption ‹_›)

theorem cov_matchBody {p : Nat} {r : Rec} (hr : RCov c r) : c.Runs p (matchBody r) fun q n => c.Ok p q (.list n) := by
  unfold Parser.matchBody
  cov_auto

macro_rules | `(tactic| cov_lem) => `(tactic| with_reducible exact cov_matchBody ‹_›)

theorem cov_primaryRest {p : Nat} : c.Runs p primaryRest fun q n => c.Ok p q (.node n) := by
  unfold primaryRest
  cov_auto

macro_rules | `(tactic| cov_lem) => `(tactic| with_reducible exact cov_primaryRest)

theorem cov_primaryNew {p : Nat} {r : Rec} (hr : RCov c r) : c.Runs p (primaryNew r) fun q n => c.Ok p q (.node n) := by
  unfold Parser.primaryNew
  cov_auto

macro_rules | `(tactic| cov_lem) => `(tactic| with_reducible exact cov_primaryNew ‹_›)

theorem cov_primaryStatic {p0 p : Nat} {r : Rec} {token : Token} {attributes : List Node} (hr : RCov c r)
    (hk : c.Ok p0 p (.otok (some token))) : c.Runs p (primaryStatic r token attributes) fun q n => c.Ok p0 q (.node n) := by
  unfold primaryStatic
  cov_auto

macro_rules | `(tactic| cov_lem) => `(tactic| with_reducible exact cov_primaryStatic ‹_› (by cov_arg))

theorem cov_primaryAttr {p : Nat} {r : Rec} (hr : RCov c r) : c.Runs p (primaryAttr r) fun q n => c.Ok p q (.node n) := by
  unfold Parser.primaryAttr
  cov_auto

macro_rules | `(tactic| cov_lem) => `(tactic| with_reducible exact cov_primaryAttr ‹_›)

theorem cov_primaryArray {p : Nat} {r : Rec} (hr : RCov c r) : c.Runs p (primaryArray r) fun q n => c.Ok p q (.node n) := by
  unfold Parser.primaryArray
  cov_auto

macro_rules | `(tactic| cov_lem) => `(tactic| with_reducible exact cov_primaryArray ‹_›)

theorem cov_primaryIsset {p : Nat} {r : Rec} (hr : RCov c r) : c.Runs p (primaryIsset r) fun q n => c.Ok p q (.node n) := by
  unfold Parser.primaryIsset
  cov_auto

macro_rules | `(tactic| cov_lem) => `(tactic| with_reducible exact cov_primaryIsset ‹_›)

theorem cov_primary {p : Nat} {r : Rec} (hr : RCov c r) : c.Runs p (primary r) fun q n => c.Ok p q (.node n) := by
  unfold Parser.primary
  cov_auto

macro_rules | `(tactic| cov_lem) => `(tactic| with_reducible exact cov_primary ‹_›)

theorem cov_callF {p : Nat} {r : Rec} (hr : RCov c r) : c.Runs p (callF r) fun q n => c.Ok p q (.node n) := by
  unfold Parser.callF
  cov_auto

macro_rules | `(tactic| cov_lem) => `(tactic| with_reducible exact cov_callF ‹_›)

theorem cov_operand {p : Nat} {r : Rec} (hr : RCov c r) : c.Runs p (operand r) fun q n => c.Ok p q (.node n) := by
  unfold operand
  refine Runs.bind run_takeOr fun q o hq ho => ?_
  split
  · exact Runs.fail
  · rename_i k taken
    refine Runs.ite (fun ht => ?_) fun _ => ?_
    · have hk := ho k (by rw [ht])
      split
      · cov_auto
      · exact (hr.call _).mono fun q1 n h1 hn => ok_widen hn hq (Nat.le_refl _)
    · exact (hr.call _).mono fun q1 n h1 hn => ok_widen hn hq (Nat.le_refl _)

macro_rules | `(tactic| cov_lem) => `(tactic| with_reducible exact cov_operand ‹_›)

theorem cov_infixRhs {p0 a p : Nat} {r : Rec} {lhs : Node} {op : Token} {rb : Nat} (hr : RCov c r) (hk : c.Ok a p (.tok op))
    (he : c.Ok p0 a (.node lhs)) : c.Runs p (infixRhs r lhs op rb) fun q n => c.Ok p0 q (.node n) := by
  unfold infixRhs
  cov_auto

theorem cov_operators {p0 p : Nat} {r : Rec} {minBp : Nat} {lhs : Node} (hr : RCov c r) (he : c.Ok p0 p (.node lhs)) :
    c.Runs p (operators r minBp lhs) fun q n => c.Ok p0 q (.node n) := by
  unfold operators
  refine loop_NN he fun q e hq he => ?_
  refine Runs.bind run_takeOr fun q1 o h1 ho => ?_
  split
  · exact Runs.pure (ok_to he h1)
  · rename_i k taken
    refine Runs.ite (fun ht => ?_) fun _ => Runs.pure (ok_to he h1)
    have hk := ho k (by rw [ht])
    refine Runs.ite (fun _ => Runs.pure (by simp only [Sum.elim_inl]; cov_leaf)) fun _ => ?_
    split
    · exact Runs.bind (cov_infixRhs hr hk he) fun q2 n h2 hn => Runs.pure hn
    · exact Runs.pure (ok_to he h1)

theorem cov_expressionF {p : Nat} {r : Rec} {minBp : Nat} (hr : RCov c r) :
    c.Runs p (expressionF r minBp) fun q n => c.Ok p q (.node n) := by
  unfold expressionF
  exact Runs.bind (cov_operand hr) fun q e hq he => cov_operators hr he

end Sc
end PhpLs.Parser
