import Verif.Model.Tensor
import Verif.Model.StringSet

/-! More helpers of `src/CTL/funcs/funcs.py`. -/

namespace CTL
variable {R : Type}

/-- `funcs.py` 1119 `labelList`. -/
def lowerLetters : List Char := "abcdefghijklmnopqrstuvwxyz".toList

/-- `funcs.py` 1103-1125 `indexTupleToStr`, of a tuple of integers that are not negative.  (Everything but a tuple is refused.) -/
def indexTupleToStr (idx : List Nat) : Except PyErr (List Char) :=
  if idx.any (fun x => decide (26 ≤ x)) then .error .valueError
  else .ok (idx.map fun x => lowerLetters.getD x 'a')

/-- The sum over the values of the given letters. -/
def sumLetters [AddMonoid R] (dim : Char → Nat) : List Char → ((Char → Nat) → R) → (Char → Nat) → R
  | [], f, σ => f σ
  | c :: cs, f, σ => ((List.range (dim c)).map fun i => sumLetters dim cs f (Function.update σ c i)).sum

/-- The dimension that the letters `sub` give to the axes of shape `s`. -/
def letterDim (sub : List Char) (s : List Nat) (c : Char) : Nat := s.getD (sub.idxOf c) 0

/-- `numpy.einsum(sa + ',' + sb + '->' + out, a, b)` for operands without repeated letters: the sum over all letters that are not in the
output.  ValueError when the letters do not fit the operands or a letter of the output is unknown; axes of length 1 are not broadcast
(NumPy would). -/
def einsum2 [NonUnitalNonAssocSemiring R] (sa sb out : List Char) (a b : NDArray R) : Except PyErr (NDArray R) :=
  let dim (c : Char) : Nat := if c ∈ sa then letterDim sa a.shape c else letterDim sb b.shape c
  if sa.length = a.shape.length ∧ sb.length = b.shape.length ∧ sa.Nodup ∧ sb.Nodup ∧ out.Nodup ∧
      (∀ c ∈ sb, letterDim sb b.shape c = dim c) ∧ (∀ c ∈ out, c ∈ sa ∨ c ∈ sb) then
    .ok (NDArray.build (out.map dim) fun idx =>
      sumLetters dim ((sa ++ sb.filter (· ∉ sa)).filter (· ∉ out)) (fun σ => a.get (sa.map σ) * b.get (sb.map σ))
        fun c => idx.getD (out.idxOf c) 0)
  else .error .valueError

/-- `funcs.py` 1346-1382 `sumOnAxis`, for an axis that is not negative. -/
def sumOnAxis [NonUnitalNonAssocSemiring R] (a : NDArray R) (axis : Nat) (weights : Option (NDArray R)) : Except PyErr (NDArray R) :=
  match weights with
  | none => a.sumAxis axis
  | some w => do
    pyAssert (a.shape.length ≤ 25)
    if axis < a.shape.length then
      let indexList := (List.range a.shape.length).set axis 25
      let sa ← indexTupleToStr indexList
      let out ← indexTupleToStr (indexList.filter (· ≠ 25))
      einsum2 sa ['z'] out a w
    else throw .indexError

/-- `funcs.py` 1127-1148 `ndEye`; `res[0] = 1.0` fails without entries. -/
def ndEye [Zero R] [One R] (n l : Nat) : Except PyErr (NDArray R) :=
  if n = 1 then
    if l = 0 then .error .indexError
    else .ok (NDArray.build [l] fun idx => if idx = [0] then 1 else 0)
  else .ok (NDArray.build (List.replicate n l) fun idx => if ∀ j ∈ idx, j = idx.headD 0 then 1 else 0)

/-- `funcs.py` 977-995 `floatArrayEqual`, over the rational numbers. -/
def floatArrayEqual (a b : NDArray Rat) (eps : Rat) : Bool :=
  if a.shape ≠ b.shape then false
  else (a.data.zip b.data).all fun p => floatEqual p.1 p.2 eps

/-- `funcs.py` 865-878 `getInRangeFunc(low, high)(x)`. -/
def inRangeFunc (low high x : Rat) : Bool := decide (x > low) && decide (x < high)

/-- `funcs.py` 270-292 `triangleWeight`; `exp` is the exponential function. -/
def triangleWeight {K : Type} [Zero K] [One K] (exp : K → K) (sm : Int) (J : K) : K :=
  if sm = 0 then 1 else if sm = 2 then exp J else 0

/-- `funcs.py` 599-619 `getNewString`: the same loop as in `StringSet.newString`; `none` when more than `fuel` draws are needed. -/
def getNewString (known : List String) (n : Int) (rng : Nat → Char) : Nat → Nat → Option (String × Nat)
  | 0, _ => none
  | fuel + 1, pos =>
    let r := randomString rng pos n
    if r.1 ∈ known then getNewString known n rng fuel r.2 else some r

end CTL
