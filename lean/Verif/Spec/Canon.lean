import Verif.Spec.MPS

/-! The canonical form of a matrix product state. -/

namespace CTL
variable {R : Type}

/-- Every site to the left of `idx` is an isometry from its leg to the right to the others, and every site to the right of
`idx` one from its leg to the left to the others. -/
structure CanonicalAt [Semiring R] [StarRing R] (st : Store) (ts : List (Tensor R)) (phys : List LegId) (lft rgt : Nat → LegId)
    (idx : Nat) : Prop where
  left : ∀ j < idx, ∀ t, ts[j]? = some t → IsometryAt st t (phys.getD j 0 :: if 0 < j then [lft j] else []) (rgt j)
  right : ∀ j, idx < j → ∀ t, ts[j]? = some t →
    IsometryAt st t (phys.getD j 0 :: if j + 1 < ts.length then [rgt j] else []) (lft j)

/-- `a` is the `n × n` identity. -/
def IsIdentity [Semiring R] (a : NDArray R) (n : Nat) : Prop :=
  a.shape = [n, n] ∧ ∀ i < n, ∀ j < n, a.get [i, j] = if i = j then 1 else 0

end CTL
