import Verif.Model.TNR

/-!
Model of the disentangler `uM` and the isometry `yM` in `doTNR` (`src/CTL/examples/TNR.py`): the start value of `uM`, and the
updates of both from round 51 on.
`ncon` is a library outside the repository; it is taken to return the sum over the indices with positive numbers, and to raise
a ValueError when dimensions do not fit.
-/

namespace CTL
variable {K : Type}

/-- `numpy.eye(n, m)`. -/
def npEye [Zero K] [One K] (n m : Nat) : NDArray K := .build [n, m] fun idx => if idx.getD 0 0 = idx.getD 1 0 then 1 else 0

/-- `numpy.kron` of two matrices. -/
def npKron [Zero K] [Mul K] (a b : NDArray K) : NDArray K :=
  let p := b.shape.getD 0 0
  let q := b.shape.getD 1 0
  .build [a.shape.getD 0 0 * p, a.shape.getD 1 0 * q] fun idx =>
    a.get [idx.getD 0 0 / p, idx.getD 1 0 / q] * b.get [idx.getD 0 0 % p, idx.getD 1 0 % q]

/-- `TNR.py` 127 `uM`. -/
def startU [Zero K] [One K] [Mul K] (chiVI chiU : Nat) : Except PyErr (NDArray K) :=
  (npKron (npEye chiVI chiU) (npEye chiVI chiU)).reshape [chiVI, chiVI, chiU, chiU]

/-- The sum over an index of dimension `n`. -/
def sumIdx [AddCommMonoid K] (n : Nat) (f : Nat → K) : K := ((List.range n).map f).sum

/-- `TNR.py` 186-187 `uenv`: `ncon([C, q, q, y, y, s, s, C], [[6, 9, 3, 4], [5, -1, 6], [8, -2, 9], [5, -3, 7], [8, -4, 10], [1, 7],
[2, 10], [1, 2, 3, 4]])`. -/
def nconU [CommSemiring K] (C q y s : NDArray K) : Except PyErr (NDArray K) :=
  match C.shape, q.shape, y.shape, s.shape with
  | [m1, m2, m3, m4], [h, v, m], [h', u, k], [m', k'] =>
    if m1 = m ∧ m2 = m ∧ h = h' ∧ k = k' ∧ m1 = m' ∧ m2 = m' then
      .ok (.build [v, v, u, u] fun idx =>
        sumIdx m fun x1 => sumIdx m fun x2 => sumIdx m3 fun x3 => sumIdx m4 fun x4 => sumIdx h fun x5 => sumIdx m fun x6 =>
        sumIdx k fun x7 => sumIdx h fun x8 => sumIdx m fun x9 => sumIdx k fun x10 =>
          C.get [x6, x9, x3, x4] * q.get [x5, idx.getD 0 0, x6] * q.get [x8, idx.getD 1 0, x9] * y.get [x5, idx.getD 2 0, x7] *
          y.get [x8, idx.getD 3 0, x10] * s.get [x1, x7] * s.get [x2, x10] * C.get [x1, x2, x3, x4])
    else .error .valueError
  | _, _, _, _ => .error .valueError

/-- `a + b` for arrays of the same shape. -/
def NDArray.plus [Zero K] [Add K] (a b : NDArray K) : NDArray K := .build a.shape fun idx => a.get idx + b.get idx

/-- `TNR.py` 186-189: the new `uM`. -/
def uUpdate [CommSemiring K] (la : LinAlg K) (C q y s : NDArray K) : Except PyErr (NDArray K) := do
  let e ← nconU C q y s
  tensorUpdateSVD la (e.plus (e.transpose [1, 0, 3, 2])) 2

/-- `TNR.py` 181-182 `yenv`: `ncon([C, q, q, u, y, s, s, C], [[10, 6, 3, 4], [-1, 11, 10], [5, 8, 6], [11, 8, -2, 9], [5, 9, 7], [1, -3],
[2, 7], [1, 2, 3, 4]])`. -/
def nconY [CommSemiring K] (C q u y s : NDArray K) : Except PyErr (NDArray K) :=
  match C.shape, q.shape, u.shape, y.shape, s.shape with
  | [m1, m2, m3, m4], [h, v, m], [v1, v2, u1, u2], [h', u', k], [m', k'] =>
    if m1 = m ∧ m2 = m ∧ h = h' ∧ k = k' ∧ m1 = m' ∧ m2 = m' ∧ v = v1 ∧ v = v2 ∧ u2 = u' then
      .ok (.build [h, u1, k] fun idx =>
        sumIdx v fun x11 => sumIdx v fun x8 => sumIdx u2 fun x9 => sumIdx m fun x1 => sumIdx m fun x2 => sumIdx m3 fun x3 =>
        sumIdx m4 fun x4 => sumIdx m fun x10 => sumIdx h fun x5 => sumIdx m fun x6 => sumIdx k fun x7 =>
          C.get [x10, x6, x3, x4] * q.get [idx.getD 0 0, x11, x10] * q.get [x5, x8, x6] * u.get [x11, x8, idx.getD 1 0, x9] *
          y.get [x5, x9, x7] * s.get [x1, idx.getD 2 0] * s.get [x2, x7] * C.get [x1, x2, x3, x4])
    else .error .valueError
  | _, _, _, _, _ => .error .valueError

/-- `TNR.py` 181-183: the new `yM`. -/
def yUpdate [CommSemiring K] (la : LinAlg K) (C q u y s : NDArray K) : Except PyErr (NDArray K) := do
  let e ← nconY C q u y s
  tensorUpdateSVD la e 2

end CTL
