import Verif.Model.TNR
import Verif.Model.TensorOps

/-!
Model of the matrix `sM` in `doTNR` (`src/CTL/examples/TNR.py`): its update in every round of the iteration and its rescaling
after the iteration.  `ncon` is a library outside the repository; it is taken to return the sum over the indices with positive
numbers, and to raise a ValueError when dimensions do not fit.
-/

namespace CTL
variable {K : Type}

/-- `ncon([t, m], [[-1, -2, 1, 2], [1, 2]])`, as called in `TNR.py` 150-151. -/
def nconPair [NonUnitalNonAssocSemiring K] (t m : NDArray K) : Except PyErr (NDArray K) :=
  match t.shape, m.shape with
  | [a, b, c, d], [c', d'] =>
    if c = c' ∧ d = d' then
      .ok (.build [a, b] fun idx => ((List.range c).map fun i => ((List.range d).map fun j =>
        t.get [idx.getD 0 0, idx.getD 1 0, i, j] * m.get [i, j]).sum).sum)
    else .error .valueError
  | _, _ => .error .valueError

/-- `ncon([t, x, y], [[1, 2, 3, 4], [1, 2], [3, 4]])`, as called in `TNR.py` 174-175. -/
def nconFull [NonUnitalNonAssocSemiring K] (t x y : NDArray K) : Except PyErr K :=
  match t.shape, x.shape, y.shape with
  | [a, b, c, d], [a', b'], [c', d'] =>
    if a = a' ∧ b = b' ∧ c = c' ∧ d = d' then
      .ok ((List.range a).map fun i => ((List.range b).map fun j => ((List.range c).map fun k => ((List.range d).map fun l =>
        t.get [i, j, k, l] * x.get [i, j] * y.get [k, l]).sum).sum).sum).sum
    else .error .valueError
  | _, _, _ => .error .valueError

/-- `ncon([C, s, s, s, s], [[1, 2, 3, 4], [1, -1], [2, -2], [3, -3], [4, -4]])`, as called in `TNR.py` 192. -/
def nconFour [NonUnitalNonAssocSemiring K] (t s : NDArray K) : Except PyErr (NDArray K) :=
  match t.shape, s.shape with
  | [a, b, c, d], [n, m] =>
    if a = n ∧ b = n ∧ c = n ∧ d = n then
      .ok (.build [m, m, m, m] fun idx => ((List.range n).map fun i => ((List.range n).map fun j => ((List.range n).map fun k =>
        ((List.range n).map fun l => t.get [i, j, k, l] * s.get [i, idx.getD 0 0] * s.get [j, idx.getD 1 0] *
          s.get [k, idx.getD 2 0] * s.get [l, idx.getD 3 0]).sum).sum).sum).sum)
    else .error .valueError
  | _, _ => .error .valueError

/-- The sum of the squares of the entries: `ncon([t, t], [[1, 2, 3, 4], [1, 2, 3, 4]])`, as called in `TNR.py` 193, and the
square of `LA.norm`. -/
def NDArray.squares [NonUnitalNonAssocSemiring K] (a : NDArray K) : K :=
  ((indices a.shape).map fun idx => a.get idx * a.get idx).sum

/-- `x * a + y * b` for arrays of the same shape. -/
def NDArray.combine [NonUnitalNonAssocSemiring K] (x y : K) (a b : NDArray K) : NDArray K :=
  .build a.shape fun idx => x * a.get idx + y * b.get idx

/-- `a / x` for a number `x` other than 0. -/
def NDArray.over [Zero K] [Div K] (a : NDArray K) (x : K) : NDArray K := .build a.shape fun idx => a.get idx / x

/-- A float that is not negative, without rounding: a number, `inf` or `nan`. -/
inductive NPFloat (K : Type) where
  | fin (x : K)
  | inf
  | nan

/-- `TNR.py` 137-138 `sCenvD`: the double of the ring with the two inner axes exchanged. -/
def sCenvDOf [Zero K] (castF : K → K) (st : Store) (cdub : Tensor K) : Except PyErr (NDArray K) := do
  let arr ← (cdub.toTensor castF st (some ["ul", "ur", "dl", "dr"])).2
  .ok (arr.transpose [0, 2, 1, 3])

section
variable [Field K] [LinearOrder K]

/-- `abs(1 - x / y)` of two floats. -/
def npErr (x y : K) : NPFloat K := if y = 0 then (if x = 0 then .nan else .inf) else .fin |1 - x / y|

/-- `a <= b`: false if one of them is `nan`. -/
def NPFloat.le : NPFloat K → NPFloat K → Bool
  | .fin x, .fin y => decide (x ≤ y)
  | .fin _, .inf => true
  | .inf, .inf => true
  | _, _ => false

/-- `TNR.py` 171 `Serrold`, also 154 `SP2errnew`. -/
def sErrOld (senvS senvD sM : NDArray K) (sp2 : K) : Except PyErr (NPFloat K) := do
  let a ← senvS.matmul (sM.transpose [1, 0])
  let b ← (sM.transpose [1, 0]).matmul senvD
  let b ← b.matmul sM
  .ok (npErr (a.mtrace ^ 2) (b.mtrace * sp2))

/-- `TNR.py` 174-175 `Serrnew`. -/
def sErrNew (sCenvS sCenvD snew : NDArray K) (sp2 : K) : Except PyErr (NPFloat K) := do
  let n ← nconFull sCenvS snew snew
  let w ← snew.matmul (snew.transpose [1, 0])
  let d ← nconFull sCenvD w w
  .ok (npErr (n ^ 2) (d * sp2))

/-- `TNR.py` 172-178, the loop over the given values of `p`. -/
def sSearch (sqrt : K → K) (sCenvS sCenvD : NDArray K) (sp2 : K) (old : NPFloat K) (sM stemp : NDArray K) :
    List Nat → Except PyErr (NDArray K)
  | [] => .ok sM
  | p :: ps => do
    let snew := NDArray.combine (1 - 1 / 10 * (p : K)) (1 / 10 * (p : K)) stemp sM
    let e ← sErrNew sCenvS sCenvD snew sp2
    if e.le old then .ok (snew.over (sqrt snew.squares)) else sSearch sqrt sCenvS sCenvD sp2 old sM stemp ps

/-- `TNR.py` 150-151 and 168-178: one update of `sM`.  `pinv` is `LA.pinv(_, rcond = dtol)`.  A trace of 0 gives an array of
`nan` or `inf` to `pinv`, which is taken to raise a LinAlgError (a ValueError).  If the norm of `stemp` is 0, every candidate is
an array of `nan`, no comparison holds, and `sM` is kept. -/
def sStep (pinv : NDArray K → NDArray K) (sqrt : K → K) (sCenvS sCenvD : NDArray K) (sp2 : K) (sM : NDArray K) :
    Except PyErr (NDArray K) := do
  let senvS ← nconPair sCenvS sM
  let w ← sM.matmul (sM.transpose [1, 0])
  let senvD ← nconPair sCenvD w
  if senvD.mtrace = 0 then .error .valueError
  else do
    let stemp ← (pinv (senvD.over senvD.mtrace)).matmul senvS
    let old ← sErrOld senvS senvD sM sp2
    if sqrt stemp.squares = 0 then .ok sM
    else sSearch sqrt sCenvS sCenvD sp2 old sM (stemp.over (sqrt stemp.squares)) (List.range 11)

/-- The first rounds of the iteration in `TNR.py` 145-178: up to round 50 only `sM` changes, as long as the iteration is not
stopped. -/
def sRounds (pinv : NDArray K → NDArray K) (sqrt : K → K) (sCenvS sCenvD : NDArray K) (sp2 : K) :
    Nat → NDArray K → Except PyErr (NDArray K)
  | 0, sM => .ok sM
  | n + 1, sM => do
    let s ← sStep pinv sqrt sCenvS sCenvD sp2 sM
    sRounds pinv sqrt sCenvS sCenvD sp2 n s

/-- `TNR.py` 192-194: `sM` after the iteration.  `root8 x` is `x ** (1 / 8)`. -/
def sRescale (root8 : K → K) (C sM : NDArray K) : Except PyErr (NDArray K) := do
  let m ← nconFour C sM
  .ok (sM.over (root8 (m.squares / C.squares)))

end

end CTL
