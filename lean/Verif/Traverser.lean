import Verif.NodeInfo
import Verif.Arena
import Verif.Out

/-!
# Walking over a syntax tree

Model of `src/environment/traverser.rs` and of the trait `Visitor` (`src/environment/visitor/mod.rs` 41–53).
-/

namespace PhpLs

/-- `NextAction` (`src/environment/visitor/mod.rs` 41–47). -/
inductive NextAction where
  | abort
  | processChildren (parent : NodeId)
deriving DecidableEq, Repr

/-- `trait Visitor` (`src/environment/visitor/mod.rs` 49–53).  The state `σ` is the visitor together with the arena; the type
of the nodes is a parameter (it is `Node` in the code). -/
structure Visitor (T σ : Type) where
  before : T → NodeId → σ → Out σ
  visit : T → NodeId → σ → Out (NextAction × σ)
  after : T → NodeId → σ → Out σ

/-- `traverse` (`src/environment/traverser.rs` 7–28), with a bound on the depth of the recursion.  `kids` is `Node::children`. -/
def traverse {T σ : Type} (kids : T → List T) (v : Visitor T σ) : Nat → T → NodeId → σ → Out σ
  | 0, _, _, _ => .deep
  | fuel + 1, node, parent, s => do
    let s ← v.before node parent s
    let r ← v.visit node parent s
    let s ← (match r.1 with
      | .abort => pure r.2
      | .processChildren next => (kids node).foldlM (fun s c => traverse kids v fuel c next s) r.2)
    v.after node parent s

end PhpLs
