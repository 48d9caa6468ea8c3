import Verif.Spec.Torus

/-! The partition function of a periodic square lattice whose periods run along the diagonals. -/

namespace CTL
variable {R : Type}

/-- The site below, on `n` rows of `2 * n` sites each: below the last row comes the first one, moved by `n` columns.  Around this torus
there are the periods `n` rows down and `n` columns to the right, and `n` rows down and `n` columns to the left. -/
def tiltedBelow {n : Nat} (i : Fin n) (j : Fin (2 * n)) : Fin n × Fin (2 * n) :=
  if h : i.val + 1 < n then (⟨i.val + 1, h⟩, j) else (around i, ⟨(j.val + n) % (2 * n), Nat.mod_lt _ (by have := j.isLt; omega)⟩)

/-- The sum over all indices of the bonds of the lattice with `2 * n * n` sites and diagonal periods of the product over its sites. -/
def tiltedTorus [CommSemiring R] (n V H : Nat) (T : Nat → Nat → Nat → Nat → R) : R :=
  ∑ v : Fin n → Fin (2 * n) → Fin V, ∑ h : Fin n → Fin (2 * n) → Fin H,
    ∏ i, ∏ j, T (v i j) (h i j) (v (tiltedBelow i j).1 (tiltedBelow i j).2) (h i (around j))

end CTL
