import Mathlib.Algebra.BigOperators.Group.Finset.Basic
import Mathlib.Algebra.Ring.Defs

/-! The new site of `doTNR` as a ring of four tensors with three legs. -/

namespace CTL

open Finset (range)

section
variable {K : Type} [CommSemiring K]

/-- The isometry `v` with two corners `q` (sharing the leg `c`) and two matrices `s`. -/
def cornerPair (V W M : Nat) (v : Nat → Nat → Nat → K) (s : Nat → Nat → K) (q : Nat → Nat → Nat → K) (a g g' : Nat) : K :=
  ∑ x ∈ range W, ∑ x' ∈ range W, ∑ c ∈ range V, ∑ m' ∈ range M, ∑ m ∈ range M,
    v x x' a * (q c x m * s m g) * (q c x' m' * s m' g')

/-- The isometry `w` with two isometries `y` (sharing the leg `h`). -/
def yPair (H U : Nat) (w y : Nat → Nat → Nat → K) (b g g' : Nat) : K :=
  ∑ x ∈ range U, ∑ x' ∈ range U, ∑ h ∈ range H, w x x' b * y h x g * y h x' g'

/-- A ring of four tensors with the outer legs `a`, `b`, `c`, `d`. -/
def ringOf (S : Nat) (P Q : Nat → Nat → Nat → K) (a b c d : Nat) : K :=
  ∑ g1 ∈ range S, ∑ g2 ∈ range S, ∑ g3 ∈ range S, ∑ g4 ∈ range S, P a g1 g2 * Q b g2 g3 * P c g3 g4 * Q d g4 g1

/-- The sum of the squares of the entries. -/
def sumSq (i j k l : Nat) (f : Nat → Nat → Nat → Nat → K) : K :=
  ∑ a ∈ range i, ∑ b ∈ range j, ∑ c ∈ range k, ∑ d ∈ range l, f a b c d ^ 2

/-- The ring `C` with the matrix `s` on its four legs. -/
def onLegs (M : Nat) (C : Nat → Nat → Nat → Nat → K) (s : Nat → Nat → K) (a b c d : Nat) : K :=
  ∑ i ∈ range M, ∑ j ∈ range M, ∑ k ∈ range M, ∑ l ∈ range M, C i j k l * s i a * s j b * s k c * s l d

end

end CTL
