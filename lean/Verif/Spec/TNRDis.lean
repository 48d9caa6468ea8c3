import Verif.Model.NDArray
import Mathlib.Algebra.BigOperators.Group.Finset.Basic
import Mathlib.Algebra.Ring.Defs

/-! What is said about the disentangler of TNR. -/

namespace CTL

open Finset (range)

/-- The overlap of the ring `C` of four corners with the ring in which the two upper corners are taken through the isometries
`q`, the disentangler `u`, the isometries `yl` and `yr` and the matrices `s`.  The dimensions are `M` of the corners, `H` and `V` of the
legs of `q`, `U` of the inner legs of `u`, and `S` of the legs of `yl` and `yr` that meet `s`. -/
def ringOverlap {K : Type} [CommSemiring K] (M H V U S : Nat) (C : Nat → Nat → Nat → Nat → K) (q yl yr : Nat → Nat → Nat → K)
    (s : Nat → Nat → K) (u : Nat → Nat → Nat → Nat → K) : K :=
  ∑ a ∈ range V, ∑ b ∈ range V, ∑ c ∈ range U, ∑ d ∈ range U,
  ∑ i ∈ range M, ∑ j ∈ range M, ∑ k ∈ range M, ∑ l ∈ range M, ∑ h ∈ range H, ∑ i' ∈ range M, ∑ g ∈ range S,
  ∑ h' ∈ range H, ∑ j' ∈ range M, ∑ g' ∈ range S,
    C i j k l * (s i g * yl h c g * q h a i') * (s j g' * yr h' d g' * q h' b j') * u a b c d * C i' j' k l

/-- Exchanging left and right leaves `u` as it is. -/
def LeftRight {K : Type} (V U : Nat) (u : Nat → Nat → Nat → Nat → K) : Prop :=
  ∀ a < V, ∀ b < V, ∀ c < U, ∀ d < U, u a b c d = u b a d c

end CTL
