import Verif.Model.Ising
import Verif.Spec.Graph
import Mathlib.Analysis.SpecialFunctions.Exp
import Mathlib.Analysis.Complex.Trigonometric
import Mathlib.Algebra.BigOperators.Ring.Finset

/-! # The partition function of the Ising model on a graph -/

namespace CTL

/-- The real functions. -/
noncomputable def realFns : MathFns ℝ where
  sqrt := Real.sqrt
  cosh := Real.cosh
  sinh := Real.sinh
  exp := Real.exp
  half := 1 / 2

/-- The partition function: a configuration is the set `U` of the up spins among the `n` spins; an edge `(i, j, w)`
contributes `exp w` when its spins are parallel and `exp (-w)` when they are not. -/
noncomputable def partitionFunction (n : Nat) (edges : List (Nat × Nat × ℝ)) : ℝ :=
  ∑ U ∈ (Finset.range n).powerset,
    (edges.map fun e => Real.exp (if e.1 ∈ U ↔ e.2.1 ∈ U then e.2.2 else -e.2.2)).prod

end CTL
