import Verif.Model.Decompose
import Mathlib.Analysis.RCLike.Basic
import Mathlib.Analysis.SpecialFunctions.Pow.Real

/-! The measures of error of matrices, `src/CTL/funcs/funcs.py`.  Floating point numbers are taken to be real or complex numbers, so the
definitions cannot be evaluated.  Where NumPy divides by zero (and answers `nan` with a warning), the result here has no meaning; the
theorems say nothing about these cases. -/

namespace CTL
open Classical
variable {R : Type}

namespace NDArray

/-- The dimension of a broadcast axis, `none` if the dimensions do not fit. -/
def castDim (n m : Nat) : Option Nat :=
  if n = m then some n else if n = 1 then some m else if m = 1 then some n else none

/-- The index along a broadcast axis of dimension `n`. -/
def castIdx (n i : Nat) : Nat := if n = 1 then 0 else i

/-- `a - b` in NumPy, for arrays of the same shape and for matrices; other broadcasts are not modelled and are errors here. -/
def sub [Zero R] [Sub R] (a b : NDArray R) : Except PyErr (NDArray R) :=
  if a.shape = b.shape then .ok (build a.shape fun idx => a.get idx - b.get idx)
  else match a.shape, b.shape with
    | [n, m], [n', m'] =>
      match castDim n n', castDim m m' with
      | some r, some c => .ok (build [r, c] fun idx =>
          a.get [castIdx n (idx.getD 0 0), castIdx m (idx.getD 1 0)] - b.get [castIdx n' (idx.getD 0 0), castIdx m' (idx.getD 1 0)])
      | _, _ => .error .valueError
    | _, _ => .error .valueError

/-- `numpy.eye(n, m)`. -/
def eye [Zero R] [One R] (n m : Nat) : NDArray R := build [n, m] fun idx => if idx.getD 0 0 = idx.getD 1 0 then 1 else 0

/-- `numpy.diagonal(a)` of a matrix. -/
def diagonal [Zero R] (a : NDArray R) : List R :=
  (List.range (min (a.shape.getD 0 0) (a.shape.getD 1 0))).map fun i => a.get [i, i]

/-- `numpy.transpose(a)` of a matrix. -/
def transpose2 [Zero R] (a : NDArray R) : NDArray R := a.transpose [1, 0]

/-- `numpy.linalg.norm(a)`: the root of the sum of the squared absolute values (for arrays of all ranks). -/
noncomputable def norm {𝕜 : Type} [RCLike 𝕜] (a : NDArray 𝕜) : ℝ := Real.sqrt ((a.data.map fun x => ‖x‖ ^ 2).sum)

end NDArray

variable {𝕜 : Type} [RCLike 𝕜]

/-- `funcs.py` 328-341 `identityError`; `a.shape[1]` raises for arrays with less than two axes.  Arrays with more axes are not modelled. -/
noncomputable def identityError (a : NDArray 𝕜) : Except PyErr ℝ :=
  match a.shape with
  | n :: m :: _ => do
    let d ← a.sub (NDArray.eye n m)
    pure d.norm
  | _ => .error .indexError

/-- `funcs.py` 358-374 `checkIdentity`. -/
noncomputable def checkIdentity (eps : ℝ) (a : NDArray 𝕜) : Except PyErr Bool := do
  let e ← identityError a
  pure (decide (e < eps))

/-- `funcs.py` 343-356 `diagError`, of a matrix. -/
noncomputable def diagError (a : NDArray 𝕜) : Except PyErr ℝ := do
  let d ← a.sub (NDArray.diagMatrix a.diagonal)
  pure (d.norm / a.norm)

/-- `funcs.py` 376-389 `symmetricError`, of a matrix. -/
noncomputable def symmetricError (a : NDArray 𝕜) : Except PyErr ℝ := do
  let d ← a.sub a.transpose2
  pure (d.norm / a.norm)

/-- `funcs.py` 406-419 `aDaggerAProduct` (`transposeConjugate`, 391-404, is `NDArray.conjTranspose`). -/
def aDaggerAProduct [NonUnitalNonAssocSemiring R] [Star R] (a : NDArray R) : Except PyErr (NDArray R) := a.conjTranspose.matmul a

/-- `funcs.py` 421-434 `aADaggerProduct`. -/
def aADaggerProduct [NonUnitalNonAssocSemiring R] [Star R] (a : NDArray R) : Except PyErr (NDArray R) := a.matmul a.conjTranspose

/-- `funcs.py` 436-449 `projectorError`. -/
noncomputable def projectorError (a : NDArray 𝕜) : Except PyErr ℝ := do
  let p ← aDaggerAProduct a
  identityError p

/-- `funcs.py` 451-466 `getDiffError`, for arrays of the same shape (ValueError otherwise; broadcasts are not modelled). -/
noncomputable def getDiffError (a b : NDArray 𝕜) : Except PyErr ℝ :=
  if a.shape = b.shape then
    .ok ((NDArray.build a.shape fun idx => a.get idx ^ 2).norm + (NDArray.build b.shape fun idx => b.get idx ^ 2).norm
      - (NDArray.build a.shape fun idx => a.get idx * b.get idx).norm * 2)
  else .error .valueError

/-- `funcs.py` 468-482 `matDiffError`. -/
noncomputable def matDiffError (a b : NDArray 𝕜) : Except PyErr ℝ := do
  let d ← a.sub b
  pure (d.norm / a.norm)

/-- `numpy.max(numpy.abs(a))`; ValueError for an array without entries. -/
noncomputable def maxAbs (a : NDArray 𝕜) : Except PyErr ℝ :=
  match a.data with
  | [] => .error .valueError
  | x :: xs => .ok (xs.foldl (fun m y => max m ‖y‖) ‖x‖)

/-- `funcs.py` 713-727 `normalizeInfinity`. -/
noncomputable def normalizeInfinity (a : NDArray 𝕜) : Except PyErr (NDArray 𝕜) := do
  let m ← maxAbs a
  pure ⟨a.shape, a.data.map fun x => x / (m : 𝕜)⟩

/-- `checkIdentity` as `isIsometry` uses it (`tensorFunc.py` 39), on the square matrix it has computed. -/
noncomputable def identityTest (eps : ℝ) (a : NDArray 𝕜) : Bool :=
  match checkIdentity eps a with
  | .ok b => b
  | .error _ => false

end CTL
