import Verif.Spec.Plaquette
import Mathlib.Algebra.BigOperators.Fin

/-! The Ising model on the bonds of a square lattice of plaquettes with open boundary (C55). -/

namespace CTL

/-- The spins of `L × L` plaquettes: `h y i` is spin `i` of row `y`, from left to right; `v x j` is spin `j` of column `x`, from below. -/
structure OpenSpins (L : Nat) where
  v : Fin L → Fin (L + 1) → Fin 2
  h : Fin L → Fin (L + 1) → Fin 2

namespace OpenSpins
variable {L : Nat}

/-- Every spin is coupled to its neighbours: the one between two plaquettes on top of each other to the four spins to the left and right of
these, and so on. -/
noncomputable def energy (s : OpenSpins L) : ℝ :=
  -∑ y : Fin L, ∑ x : Fin L, (spinValue (s.h y x.castSucc) + spinValue (s.h y x.succ)) * (spinValue (s.v x y.castSucc) + spinValue (s.v x y.succ))

/-- The sum of all spins, where the spins at the boundary count one half. -/
noncomputable def magnetization (s : OpenSpins L) : ℝ :=
  ∑ y : Fin L, ((∑ i : Fin (L + 1), spinValue (s.h y i)) - (spinValue (s.h y 0) + spinValue (s.h y (Fin.last L))) / 2) +
    ∑ x : Fin L, ((∑ j : Fin (L + 1), spinValue (s.v x j)) - (spinValue (s.v x 0) + spinValue (s.v x (Fin.last L))) / 2)

end OpenSpins

/-- The partition function. -/
noncomputable def isingOpen (L : Nat) (beta field : ℝ) : ℝ :=
  ∑ v : Fin L → Fin (L + 1) → Fin 2, ∑ h : Fin L → Fin (L + 1) → Fin 2,
    Real.exp (-(beta * (OpenSpins.mk v h).energy) + field * (OpenSpins.mk v h).magnetization)

end CTL
