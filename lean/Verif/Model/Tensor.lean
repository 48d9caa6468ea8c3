import Verif.Model.Store
import Verif.Model.NDArray
import Verif.Model.Funcs

/-!
Model of `src/CTL/tensor/tensor.py` and `src/CTL/tensor/diagonalTensor.py` (the operations on legs and
data; the constructors with their full argument deduction are in `Construct.lean`).
-/

namespace CTL

/-- A `Tensor` or `DiagonalTensor` object.  `a = none` is a TensorLike; for a diagonal tensor `a` is the
1-d array of diagonal entries and `length` is `_length` (`diagonalTensor.py` 398-417).
Simplification: `name`, `degreeOfFreedom` and `dtype` are not carried. -/
structure Tensor (R : Type) where
  id : TensorId
  legs : List LegId
  a : Option (NDArray R)
  diag : Bool
  like : Bool
  length : Nat
deriving DecidableEq

namespace Tensor
variable {R : Type}

/-- `tensor.py` 386-392 and `diagonalTensor.py` 423-425, property `shape`. -/
def shape (st : Store) (t : Tensor R) : List Nat :=
  if t.diag then List.replicate t.legs.length t.length
  else match t.a with
    | none => t.legs.map st.dim
    | some arr => arr.shape

/-- `tensor.py` 370-372, property `labels`. -/
def labels (st : Store) (t : Tensor R) : List String := t.legs.map st.name

/-- `tensor.py` 465-490 `indexOfLabel`: `none` stands for the returned `-1`. -/
def indexOfLabel (st : Store) (t : Tensor R) (lab : String) (backward : Bool := false) : Option Nat :=
  let ls := t.labels st
  if lab ∈ ls then
    if backward then some (ls.length - ls.reverse.idxOf lab - 1) else some (ls.idxOf lab)
  else none

/-- `tensor.py` 522-541 `getLeg`. -/
def getLeg (st : Store) (t : Tensor R) (lab : String) (backward : Bool := false) : Option LegId :=
  match t.indexOfLabel st lab backward with
  | none => none
  | some i => t.legs[i]?

/-- `tensor.py` 492-521 `indexOfLeg` / `getLegIndices`. -/
def getLegIndices (t : Tensor R) (legs : List LegId) : Except PyErr (List Nat) :=
  legs.mapM (pyIndex t.legs)

/-- `tensor.py` 643-656 `complementLegs`. -/
def complementLegs (t : Tensor R) (legs : List LegId) : Except PyErr (List LegId) :=
  listDifference t.legs legs

/-- The loop `for leg in movedLegs: self.legs.remove(leg)` (`tensor.py` 573-574,
`diagonalTensor.py` 504-505): the list left behind, and the exception if one was raised. -/
def removeLoop : List LegId → List LegId → List LegId × Option PyErr
  | ls, [] => (ls, none)
  | ls, x :: xs =>
    match pyRemove ls x with
    | .ok ls' => removeLoop ls' xs
    | .error e => (ls, some e)

/-- `tensor.py` 551-581 and `diagonalTensor.py` 480-510 `moveLegsToFront`, for an argument list that is
not the very object `self.legs`.  The first component is the tensor after the call, also when the call
raises.  A diagonal tensor only reorders its legs. -/
def moveLegsToFront [Zero R] (t : Tensor R) (legs : List LegId) : Tensor R × Except PyErr Unit :=
  let moveFrom := (legs.filter (fun l => l ∈ t.legs)).map (fun l => t.legs.idxOf l)
  match removeLoop t.legs legs with
  | (ls, some e) => ({ t with legs := ls }, .error e)
  | (ls, none) =>
    let t1 := { t with legs := legs ++ ls }
    if t.diag || t.like then (t1, .ok ())
    else match t.a with
      | none => (t1, .error .attributeError)
      | some arr =>
        match arr.moveaxisFront moveFrom with
        | .ok arr' => ({ t1 with a := some arr' }, .ok ())
        | .error e => (t1, .error e)

/-- The removal loop of `moveLegsToFront` when the argument is the list object `self.legs` itself:
Python iterates by position over the list it is shrinking. -/
def removeLoopAliased (fuel : Nat) (i : Nat) (ls : List LegId) : List LegId :=
  match fuel with
  | 0 => ls
  | fuel + 1 =>
    match ls[i]? with
    | none => ls
    | some x => removeLoopAliased fuel (i + 1) (ls.erase x)

/-- `tensor.py` 551-581 called as `t.moveLegsToFront(t.legs)`: `movedLegs` is `self.legs`, so both
operands of `movedLegs + self.legs` are the shrunk list. The data is transposed by the identity. -/
def moveLegsToFrontAliased (t : Tensor R) : Tensor R :=
  let ls := removeLoopAliased t.legs.length 0 t.legs
  { t with legs := ls ++ ls }

/-- The argument checks and the index computation shared by `Tensor.toMatrix` (`tensor.py` 616-637)
and `DiagonalTensor.toMatrix` (`diagonalTensor.py` 553-575), for lists of legs.  An empty list given
explicitly fails at `rows[0]`. Labels are turned into legs by `getLeg` before. -/
def matrixLegs (t : Tensor R) (rows cols : Option (List LegId)) :
    Except PyErr (List LegId × List LegId × List Nat × List Nat) := do
  if t.like then throw .assertionError
  if rows = none ∧ cols = none then throw .assertionError
  if rows = some [] ∨ cols = some [] then throw .indexError
  let c ← match cols with
    | some c => pure c
    | none => listDifference t.legs (rows.getD [])
  let r ← match rows with
    | some r => pure r
    | none => listDifference t.legs c
  pyAssert (compareLists (r ++ c) t.legs)
  let ci ← t.getLegIndices c
  let ri ← t.getLegIndices r
  pure (r, c, ri, ci)

/-- `tensor.py` 597-641 `toMatrix`. -/
def toMatrix [Zero R] (t : Tensor R) (rows cols : Option (List LegId)) :
    Except PyErr (NDArray R) := do
  let (_, _, ri, ci) ← t.matrixLegs rows cols
  match t.a with
  | none => throw .attributeError
  | some arr =>
    let colTotal := tupleProduct (ci.map fun x => arr.shape.getD x 0)
    let rowTotal := tupleProduct (ri.map fun x => arr.shape.getD x 0)
    let d ← arr.moveaxisFront (ri ++ ci)
    d.reshape [rowTotal, colTotal]

/-- `tensor.py` 1079-1100 `sumOutLeg` with `funcs.py` 1346-1382 `sumOnAxis`, for a dense tensor.
`weights = none` sums, otherwise entry `i` of the summed axis is weighted by `weights[i]`.
A leg that is not in the tensor gives a warning and no change.  Simplification: `einsum` would broadcast
a weight array of length 1 (or a summed axis of length 1); the model reports an error there.
A TensorLike holds `None`: NumPy treats it as a 0-d object array, so `sum(None, axis = 0)` is `None` (axis 0 is let
through for 0-d arrays) and any other axis is an AxisError (a subclass of ValueError); `None.shape` with weights is
an AttributeError. -/
def sumOutLeg [NonUnitalNonAssocSemiring R] (t : Tensor R) (leg : LegId)
    (weights : Option (NDArray R)) : Except PyErr (Tensor R) :=
  if leg ∉ t.legs then .ok t
  else
    let idx := t.legs.idxOf leg
    match t.a with
    | none =>
      if weights ≠ none then .error .attributeError
      else if idx = 0 then .ok { t with legs := t.legs.eraseIdx idx }
      else .error .valueError
    | some arr =>
      let r := match weights with
        | none => arr.sumAxis idx
        | some w =>
          if arr.shape.length ≤ 25 then
            if w.shape = [arr.shape.getD idx 0] then
              (NDArray.build arr.shape fun i => arr.get i * w.get [i.getD idx 0]).sumAxis idx
            else .error .valueError
          else .error .assertionError
      match r with
      | .error e => .error e
      | .ok arr' => .ok { t with a := some arr', legs := t.legs.eraseIdx idx }

end Tensor
end CTL
