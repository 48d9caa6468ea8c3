import Mathlib.Algebra.BigOperators.Group.Finset.Basic
import Mathlib.Algebra.Order.Field.Basic
import Mathlib.Data.Finset.Range
import Mathlib.Algebra.Order.Group.Abs

/-! The truncation error that `doTNR` lowers by its choice of `sM`, as in the paper's cost function. -/

namespace CTL
open Finset (range)
variable {K : Type} [Field K]

/-- Overlap of the ring with the truncated ring, for a matrix `s` with `n` rows and `m` columns. -/
def sOverlap (S : Nat → Nat → Nat → Nat → K) (n m : Nat) (s : Nat → Nat → K) : K :=
  ∑ a ∈ range n, ∑ b ∈ range m, ∑ c ∈ range n, ∑ d ∈ range m, S a b c d * s a b * s c d

/-- The ring with `s` attached to its upper corners. -/
def sTruncated (C : Nat → Nat → Nat → Nat → K) (n : Nat) (s : Nat → Nat → K) (x y i j : Nat) : K :=
  ∑ a ∈ range n, ∑ b ∈ range n, C a b i j * s a x * s b y

/-- The sum of the squares of the truncated ring. -/
def sNorm (C : Nat → Nat → Nat → Nat → K) (n m : Nat) (s : Nat → Nat → K) : K :=
  ∑ x ∈ range m, ∑ y ∈ range m, ∑ i ∈ range n, ∑ j ∈ range n, sTruncated C n s x y i j ^ 2

/-- The truncation error. -/
def sError [LinearOrder K] (S C : Nat → Nat → Nat → Nat → K) (n m : Nat) (sp2 : K) (s : Nat → Nat → K) : K :=
  |1 - sOverlap S n m s ^ 2 / (sNorm C n m s * sp2)|

/-- The sum of the squares of a matrix. -/
def sSquares (n m : Nat) (s : Nat → Nat → K) : K := ∑ i ∈ range n, ∑ j ∈ range m, s i j ^ 2

end CTL
