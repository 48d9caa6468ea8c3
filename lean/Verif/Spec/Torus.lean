import Mathlib.Algebra.BigOperators.Pi
import Mathlib.Data.Fintype.BigOperators

/-! The partition function of a periodic square lattice with one tensor at every site. -/

namespace CTL
variable {R : Type}

/-- The next position on a ring. -/
def around {n : Nat} (i : Fin n) : Fin n := ⟨(i.val + 1) % n, Nat.mod_lt _ (Nat.lt_of_le_of_lt (Nat.zero_le _) i.isLt)⟩

/-- The sum over all indices of the bonds of a `rows × cols` lattice on a torus of the product over its sites.  `T u l d r` is
the entry of the tensor; `v i j` is the index of the bond above the site in row `i` and column `j`, `h i j` of the bond to
its left. -/
def torus [CommSemiring R] (rows cols V H : Nat) (T : Nat → Nat → Nat → Nat → R) : R :=
  ∑ v : Fin rows → Fin cols → Fin V, ∑ h : Fin rows → Fin cols → Fin H,
    ∏ i, ∏ j, T (v i j) (h i j) (v (around i) j) (h i (around j))

/-- A tensor above another one, joined by one bond: `x1`, `y1` are the left and right index of the upper one, `x2`, `y2` of the
lower one. -/
def stackedN [CommSemiring R] (V : Nat) (A : Nat → Nat → Nat → Nat → R) (u x1 x2 d y1 y2 : Nat) : R :=
  ∑ m ∈ Finset.range V, A u x1 m y1 * A m x2 d y2

end CTL
