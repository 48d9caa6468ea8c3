import Verif.Model.Ising

/-!
Model of the plaquette part of `src/CTL/models/Ising.py` (11-161): measurements on a square of four spins, the tensor of a
plaquette, and the exact magnetization.
-/

namespace CTL
variable {R : Type}

/-- `a[idx] = x` for a full index tuple. -/
def NDArray.setAt (a : NDArray R) (idx : List Nat) (x : R) : NDArray R := ⟨a.shape, a.data.set (ravel a.shape idx) x⟩

/-- `Ising.py` 33-38: the loop for `'M'`. -/
def squareM [Ring R] (F : MathFns R) (idx : List Int) : R :=
  idx.foldl (fun res x => if x = 0 then res - F.half else res + F.half) 0

/-- `Ising.py` 43-48 for `'E'`, 79-84 with `w = 1`, and 128-133: the loop over the four sides of the square. -/
def squareE [Ring R] (w : Nat → R) (idx : List Int) : R :=
  (List.range 4).foldl (fun res i => if idx.getD i 0 = idx.getD ((i + 1) % 4) 0 then res - w i else res + w i) 0

/-- `Ising.py` 11-50 `squareTensorMeasure`.  The last line is not reached. -/
def squareTensorMeasure [Ring R] (F : MathFns R) (idx : List Int) : Option String → Except PyErr R
  | none => .ok 1
  | some obs =>
    if obs ∉ ["M", "E"] then .error .assertionError
    else if obs = "M" then .ok (squareM F idx)
    else if obs = "E" then .ok (squareE (fun _ => 1) idx)
    else .ok 1

/-- The index of bit mask number `s` as natural numbers. -/
def bitIdx (s : Nat) : List Nat := (intToBitList s 4).map Int.toNat

/-- `Ising.py` 70-92: the body of the loop, one entry. -/
def squareEntry [Ring R] (F : MathFns R) (beta : R) (obs : Option String) (symmetryBroken : R) (data : NDArray R) (s : Nat) :
    Except PyErr (NDArray R) := do
  let idx := intToBitList s 4
  let localE := squareE (fun _ => 1) idx
  let m ← squareTensorMeasure F idx obs
  let mM ← squareTensorMeasure F idx (some "M")
  let data := data.setAt (bitIdx s) (m * F.exp (-beta * localE))
  pure (data.setAt (bitIdx s) (data.get (bitIdx s) * F.exp (symmetryBroken * mM)))

/-- `Ising.py` 52-97 `squareIsingTensor`: the store, the tensor and its `degreeOfFreedom`. -/
def squareIsingTensor [Ring R] (F : MathFns R) (st : Store) (beta : R) (obs : Option String) (symmetryBroken : R) :
    Except PyErr (Store × Tensor R × Nat) := do
  let data ← (List.range 16).foldlM (squareEntry F beta obs symmetryBroken) (NDArray.build [2, 2, 2, 2] fun _ => 0)
  let (st, t) ← construct (fun _ _ => 0) st { data := some data, labels := some ["u", "l", "d", "r"] }
  pure (st, t, 2)

/-- The argument `weight` of `plaquetteIsingTensor`: a float or a list of numbers.  Simplification: an integer, which has no
length (TypeError), is left out. -/
inductive PlaquetteWeight (R : Type) where
  | num (x : R)
  | list (xs : List R)

/-- `Ising.py` 117-121: the two weights. -/
def PlaquetteWeight.toList : PlaquetteWeight R → Except PyErr (List R)
  | .num x => .ok [x, x]
  | .list xs => if xs.length = 2 then .ok xs else .error .assertionError

/-- `Ising.py` 99-141 `plaquetteIsingTensor`: the store, the tensor and its `degreeOfFreedom`. -/
def plaquetteIsingTensor [Ring R] (F : MathFns R) (st : Store) (weight : PlaquetteWeight R) (diamondForm : Bool) :
    Except PyErr (Store × Tensor R × Nat) := do
  let w ← weight.toList
  let data := (List.range 16).foldl
    (fun data s => data.setAt (bitIdx s) (F.exp (-(squareE (fun i => w.getD (i % 2) 0) (intToBitList s 4)))))
    (NDArray.build [2, 2, 2, 2] fun _ => 0)
  let labels := if diamondForm then ["r", "d", "l", "u"] else ["ru", "rd", "ld", "lu"]
  let (st, t) ← construct (fun _ _ => 0) st { data := some data, labels := some labels }
  pure (st, t, 2)

/-- The functions that `infiniteIsingExactM` calls besides; `pow` is `x ** y`. -/
structure CurveFns (R : Type) where
  log : R → R
  sqrt : R → R
  sinh : R → R
  pow : R → R → R

/-- `Ising.py` 143-161 `infiniteIsingExactM`.  `T` and `V` are floats, so a division by 0 raises. -/
def infiniteIsingExactM [Field R] [LinearOrder R] (F : CurveFns R) (T V : R) : Except PyErr R :=
  let criticalT := 2 / F.log (1 + F.sqrt 2)
  if V = 0 then .error .zeroDivisionError
  else if criticalT < T / V then .ok 0
  else if T = 0 then .error .zeroDivisionError
  else .ok (F.pow (1 - F.pow (F.sinh (2 * V / T)) (-4)) (1 / 8))

end CTL
