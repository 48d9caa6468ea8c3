import Verif.Model.TNRDis

/-!
Model of the end of `doTNR` (`src/CTL/examples/TNR.py`): the isometries `vM` and `wM` and their errors.  `ncon` is a library outside
the repository; it is taken to return the sum over the indices with positive numbers, and to raise a ValueError when dimensions do
not fit.
-/

namespace CTL
variable {K : Type}

/-- The numbered indices `t` with number `n` set to `i`. -/
def setIdx (t : Nat → Nat) (n i m : Nat) : Nat := if m = n then i else t m

/-- The sum over the indices with the given numbers and dimensions. -/
def sumOver [AddCommMonoid K] : List (Nat × Nat) → ((Nat → Nat) → K) → (Nat → Nat) → K
  | [], f, t => f t
  | p :: ps, f, t => sumIdx p.2 fun i => sumOver ps f (setIdx t p.1 i)

/-- `TNR.py` 197-200 `venv` before it is symmetrised, with the numbers of the indices as in the call of `ncon`. -/
def nconV [CommSemiring K] (y s qA : NDArray K) : Except PyErr (NDArray K) :=
  match y.shape, s.shape, qA.shape with
  | [h, u, k], [m, k'], [v, w, m'] =>
    if k = k' ∧ m = m' then
      .ok (.build [w, w, w, w] fun idx =>
        sumOver [(3, u), (4, u), (11, w), (12, w), (15, u), (16, u)] (fun t =>
        sumOver [(1, h), (17, k), (24, k), (5, m), (7, v), (6, m), (19, k), (13, h), (25, k), (21, m), (23, v), (22, m)] (fun t =>
        sumOver [(2, h), (18, k), (29, k), (8, m), (10, v), (9, m), (20, k), (14, h), (30, k), (26, m), (28, v), (27, m)] (fun t =>
          y.get [t 1, t 3, t 17] * y.get [t 1, t 4, t 24] * y.get [t 2, t 3, t 18] * y.get [t 2, t 4, t 29] * s.get [t 5, t 17] *
          qA.get [t 7, t 11, t 5] * qA.get [t 7, t 12, t 6] * s.get [t 6, t 19] * s.get [t 8, t 18] * qA.get [t 10, t 11, t 8] *
          qA.get [t 10, t 12, t 9] * s.get [t 9, t 20] * y.get [t 13, t 15, t 19] * y.get [t 13, t 16, t 25] *
          y.get [t 14, t 15, t 20] * y.get [t 14, t 16, t 30] * s.get [t 21, t 24] * qA.get [t 23, idx.getD 0 0, t 21] *
          qA.get [t 23, idx.getD 1 0, t 22] * s.get [t 22, t 25] * s.get [t 26, t 29] * qA.get [t 28, idx.getD 2 0, t 26] *
          qA.get [t 28, idx.getD 3 0, t 27] * s.get [t 27, t 30]) t) t) fun _ => 0)
    else .error .valueError
  | _, _, _ => .error .valueError

/-- `TNR.py` 209-212 `wenv` before it is symmetrised, with the numbers of the indices as in the call of `ncon`. -/
def nconW [CommSemiring K] (y s qA : NDArray K) : Except PyErr (NDArray K) :=
  match y.shape, s.shape, qA.shape with
  | [h, u, k], [m, k'], [v, w, m'] =>
    if k = k' ∧ m = m' then
      .ok (.build [u, u, u, u] fun idx =>
        sumOver [(7, w), (8, w), (11, u), (12, u), (21, w), (22, w)] (fun t =>
        sumOver [(25, h), (26, k), (27, k), (1, m), (3, v), (2, m), (13, k), (9, h), (23, k), (15, m), (17, v), (16, m)] (fun t =>
        sumOver [(28, h), (29, k), (30, k), (4, m), (6, v), (5, m), (14, k), (10, h), (24, k), (18, m), (20, v), (19, m)] (fun t =>
          y.get [t 25, idx.getD 0 0, t 26] * y.get [t 25, idx.getD 1 0, t 27] * y.get [t 28, idx.getD 2 0, t 29] *
          y.get [t 28, idx.getD 3 0, t 30] * s.get [t 1, t 26] * qA.get [t 3, t 7, t 1] * qA.get [t 3, t 8, t 2] * s.get [t 2, t 13] *
          s.get [t 4, t 29] * qA.get [t 6, t 7, t 4] * qA.get [t 6, t 8, t 5] * s.get [t 5, t 14] * y.get [t 9, t 11, t 13] *
          y.get [t 9, t 12, t 23] * y.get [t 10, t 11, t 14] * y.get [t 10, t 12, t 24] * s.get [t 15, t 27] *
          qA.get [t 17, t 21, t 15] * qA.get [t 17, t 22, t 16] * s.get [t 16, t 23] * s.get [t 18, t 30] *
          qA.get [t 20, t 21, t 18] * qA.get [t 20, t 22, t 19] * s.get [t 19, t 24]) t) t) fun _ => 0)
    else .error .valueError
  | _, _, _ => .error .valueError

section
variable [Field K] [LinearOrder K]

/-- `TNR.py` 201 and 213: `0.5 * (e + e.transpose(1, 0, 3, 2)).reshape(n ** 2, n ** 2)`. -/
def endEnv (e : NDArray K) (n : Nat) : Except PyErr (NDArray K) := do
  let m ← (e.plus (e.transpose [1, 0, 3, 2])).reshape [n * n, n * n]
  .ok (.build m.shape fun idx => 1 / 2 * m.get idx)

/-- `TNR.py` 201-206 and 213-218: the isometry from the environment `e`, and its error. -/
def endIso (p : RGParams K) (e : NDArray K) (n chi : Nat) : Except PyErr (NDArray K × K) := do
  let m ← endEnv e n
  let q := (solveEnv p m chi).1
  let iso ← q.reshape [n, n, q.shape.getD 1 0]
  let err ← spErr m q
  .ok (iso, err)

end

end CTL
