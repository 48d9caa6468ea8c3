import Verif.Model.MPS

/-! Model of `createMPSFromTensor` in `src/CTL/examples/MPS.py`. -/

namespace CTL
variable {R : Type}

/-- `MPS.py` 514-540 from the second leg on: `a` is what is left to decompose, `last` and `lastRight` are `lastDim` and
`lastRightLeg`.  Every leg but the last gets the left factor of a decomposition, the last one gets what is left. -/
def createLoop [NonUnitalNonAssocSemiring R] (la : LinAlg R) (chi : Option Nat) :
    Store → NDArray R → Nat → LegId → List LegId → Except PyErr (Store × List (Tensor R))
  | st, _, _, _, [] => .ok (st, [])
  | st, a, last, lastRight, [l] => do
    let (st1, x) := st.newLeg none last "l"
    let (st2, t) ← newTensor st1 [last, st1.dim l] (some a) [x, l]
    let st3 ← linkOr (makeLinkLegs st2 [x] [lastRight])
    pure (st3, [t])
  | st, a, last, lastRight, l :: ls => do
    let (u, v) ← matrixSchmidt la a (st.dim l) chi
    let k := u.shape.getLastD 0
    let (st1, x) := st.newLeg none last "l"
    let (st2, y) := st1.newLeg none k "r"
    let (st3, t) ← newTensor st2 [last, st2.dim l, k] (some u) [x, l, y]
    let st4 ← linkOr (makeLinkLegs st3 [x] [lastRight])
    let (st5, ts) ← createLoop la chi st4 v k y ls
    pure (st5, t :: ts)

/-- `MPS.py` 487-544 `createMPSFromTensor`, for a non-negative `chi` or `None`.  `xp.ravel` keeps the C order.  The first
round of the loop has no left leg.  Simplification: the warning for one leg is not modelled; what the legs point to after
an exception is not modelled. -/
def createMPS [NonUnitalNonAssocSemiring R] (la : LinAlg R) (castF : R → R) (st : Store) (t : Tensor R) (chi : Option Nat) :
    Except PyErr (Store × MPS R) := do
  match t.legs with
  | [] => throw .assertionError
  | [_] => MPS.new st [t] (chi.map Int.ofNat)
  | l :: ls =>
    let arr ← (t.toTensor castF st none).2
    let (u, v) ← matrixSchmidt la ⟨[arr.shape.prod], arr.data⟩ (st.dim l) chi
    let k := u.shape.getD 1 0
    let (st1, r) := st.newLeg none k "r"
    let (st2, t0) ← newTensor st1 [st1.dim l, k] (some u) [l, r]
    let (st3, ts) ← createLoop la chi st2 v k r ls
    MPS.new st3 (t0 :: ts) (chi.map Int.ofNat)

end CTL
