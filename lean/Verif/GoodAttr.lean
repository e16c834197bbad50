import Lean.Meta.Tactic.Simp.RegisterCommand

/-!
# Simp sets

Only the declaration of simp sets, which Lean wants in a module of its own.
-/

/-- Lemmas that reduce `Good` of a constructor application to `Good` of its fields (`Verif/NodeGood.lean`). -/
register_simp_attr good
