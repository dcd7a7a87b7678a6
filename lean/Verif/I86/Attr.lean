import Lean.Meta.Tactic.Simp.RegisterCommand
/-! The simp set used to execute single instructions symbolically. -/
/-- Lemmas that evaluate one instruction of the specified processor. -/
register_simp_attr i86x
