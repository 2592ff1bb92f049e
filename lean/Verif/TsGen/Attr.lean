import Lean.Meta.Tactic.Simp.RegisterCommand

/-! # Helper: the set of rules for executing generated TypeScript code -/

/-- Rules of `Verif.TsGen.Run`. -/
register_simp_attr ts_run
