import Mathlib.Algebra.BigOperators.Ring.Finset
import Mathlib.Data.Fintype.BigOperators
import Mathlib.Data.Fin.Tuple.Basic

/-! The partition function of a square lattice with open boundary, with no reference to the code (C55). -/

namespace CTL
namespace Open
variable {K α β : Type}

/-- The weight of site `(x, y)`, counted from the left and from below, of a lattice of `L × L` sites built from four
quadrants: beyond the middle `w` is read from right to left, above the middle it is read upside down.  The arguments of `w` are
the bonds at the left, the right, above and below. -/
def weight (L : Nat) (w : α → α → β → β → K) (x y : Nat) (l r : α) (u d : β) : K :=
  w (if x < (L + 1) / 2 then l else r) (if x < (L + 1) / 2 then r else l)
    (if y < (L + 1) / 2 then u else d) (if y < (L + 1) / 2 then d else u)

/-- The sum over all bonds, those at the boundary included, of the product of the weights of `L × L` sites.  `h y i` is bond
`i` of row `y`, from left to right; `v x j` is bond `j` of column `x`, from below. -/
def partition [CommSemiring K] [Fintype α] [Fintype β] (L : Nat) (w : α → α → β → β → K) : K :=
  ∑ v : Fin L → Fin (L + 1) → β, ∑ h : Fin L → Fin (L + 1) → α, ∏ y : Fin L, ∏ x : Fin L,
    weight L w x y (h y x.castSucc) (h y x.succ) (v x y.succ) (v x y.castSucc)

/-- The same with `w` itself at every site. -/
def uniform [CommSemiring K] [Fintype α] [Fintype β] (L : Nat) (w : α → α → β → β → K) : K :=
  ∑ v : Fin L → Fin (L + 1) → β, ∑ h : Fin L → Fin (L + 1) → α, ∏ y : Fin L, ∏ x : Fin L,
    w (h y x.castSucc) (h y x.succ) (v x y.succ) (v x y.castSucc)

/-! ### Blocks of sites -/

section
variable [CommSemiring K] [Fintype α] [Fintype β] (w : α → α → β → β → K)

/-- A row of `n` sites from the left boundary, with the bonds above and below and the bond at the right. -/
def rowOf : (n : Nat) → (Fin n → β) → (Fin n → β) → α → K
  | 0, _, _, _ => 1
  | n + 1, b, a, r => ∑ j, rowOf n (Fin.init b) (Fin.init a) j * w j r (b (Fin.last n)) (a (Fin.last n))

/-- A column of `n` sites from the lower boundary, with the bonds at the left and at the right and the bond above. -/
def columnOf : (n : Nat) → (Fin n → α) → (Fin n → α) → β → K
  | 0, _, _, _ => 1
  | n + 1, y0, y, i => ∑ k, columnOf n (Fin.init y0) (Fin.init y) k * w (y0 (Fin.last n)) (y (Fin.last n)) i k

/-- `m` columns and `k` rows of sites from the lower left corner, with the bonds above and at the right. -/
def block (m : Nat) : (k : Nat) → (Fin m → β) → (Fin k → α) → K
  | 0, _, _ => 1
  | k + 1, x, y => ∑ x0, block m k x0 (Fin.init y) * rowOf w m x x0 (y (Fin.last k))

/-- Some bonds at the border give a weight other than 0 to a square block, to a row and to a column of `n` sites. -/
structure Alive (n : Nat) : Prop where
  quad : ∃ x y, block w n n x y ≠ 0
  row : ∃ x x' j, rowOf w n x x' j ≠ 0
  column : ∃ y y' i, columnOf w n y y' i ≠ 0

end

/-- A weight given for natural numbers, on `H` values for horizontal and `V` values for vertical bonds. -/
def onFin (V H : Nat) (w : Nat → Nat → Nat → Nat → K) : Fin H → Fin H → Fin V → Fin V → K := fun l r u d => w l r u d

end Open
end CTL
