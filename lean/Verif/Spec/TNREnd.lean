import Mathlib.Algebra.BigOperators.Group.Finset.Basic
import Mathlib.Algebra.Ring.Defs

/-! The halves of the environments of `vM` and `wM`. -/

namespace CTL

open Finset (range)

section
variable {K : Type} [CommSemiring K] (H U S M V W : Nat) (y : Nat → Nat → Nat → K) (s : Nat → Nat → K) (q : Nat → Nat → Nat → K)

/-- One half of the environment of `vM`: two pairs of isometries `y`, each pair joined by a leg `h` or `h'`, with two corners
`q` between them inside (sharing the leg `v`), and two corners outside (sharing the leg `v'`) that carry the open legs `a` and `b`. -/
def vHalf (x1 x2 x3 x4 x5 x6 a b : Nat) : K :=
  ∑ h ∈ range H, ∑ g1 ∈ range S, ∑ g2 ∈ range S, ∑ m1 ∈ range M, ∑ v ∈ range V, ∑ m2 ∈ range M, ∑ g3 ∈ range S, ∑ h' ∈ range H,
  ∑ g4 ∈ range S, ∑ m3 ∈ range M, ∑ v' ∈ range V, ∑ m4 ∈ range M,
    (y h x1 g1 * y h x2 g2) * (s m1 g1 * q v x3 m1 * q v x4 m2 * s m2 g3) * (y h' x5 g3 * y h' x6 g4) *
    (s m3 g2 * q v' a m3 * q v' b m4 * s m4 g4)

/-- One half of the environment of `wM`: a pair of isometries `y` with the open legs `a` and `b`, a pair inside, and two pairs of
corners between them. -/
def wHalf (x1 x2 x3 x4 x5 x6 a b : Nat) : K :=
  ∑ h ∈ range H, ∑ g1 ∈ range S, ∑ g2 ∈ range S, ∑ m1 ∈ range M, ∑ v ∈ range V, ∑ m2 ∈ range M, ∑ g3 ∈ range S, ∑ h' ∈ range H,
  ∑ g4 ∈ range S, ∑ m3 ∈ range M, ∑ v' ∈ range V, ∑ m4 ∈ range M,
    (y h a g1 * y h b g2) * (s m1 g1 * q v x1 m1 * q v x2 m2 * s m2 g3) * (y h' x3 g3 * y h' x4 g4) *
    (s m3 g2 * q v' x5 m3 * q v' x6 m4 * s m4 g4)

end

end CTL
