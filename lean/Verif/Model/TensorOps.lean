import Verif.Model.Tensor

/-!
Model of more methods of `src/CTL/tensor/tensor.py` and `src/CTL/tensor/diagonalTensor.py`: access by
label, reordering, fusing, tracing, summing out, renaming.

A method that may raise after it has changed the object returns the changed object together with the
exception.
-/

namespace CTL
namespace Tensor
variable {R : Type}

/-- `tensor.py` 856-861 `getLegsByLabel`. -/
def getLegsByLabel (st : Store) (t : Tensor R) (labelList : List String) : Except PyErr (List LegId) :=
  let idx := generateIndices (t.labels st) labelList
  if none ∈ idx then .error .valueError
  else .ok (idx.map fun i => t.legs.getD (i.getD 0) 0)

/-- `tensor.py` 863-875 and `diagonalTensor.py` 606-617 `moveLabelsToFront`. -/
def moveLabelsToFront [Zero R] (st : Store) (t : Tensor R) (labelList : List String) :
    Tensor R × Except PyErr Unit :=
  match t.getLegsByLabel st labelList with
  | .error e => (t, .error e)
  | .ok legs => t.moveLegsToFront legs

/-- `tensor.py` 953-963 `reArrange` (inherited by `DiagonalTensor`). -/
def reArrange [Zero R] (st : Store) (t : Tensor R) (labels : List String) : Tensor R × Except PyErr Unit :=
  if compareLists (t.labels st) labels then t.moveLabelsToFront st labels
  else (t, .error .assertionError)

/-- `funcs.py` 1079-1101 `diagonalNDTensor`: `a.shape[0]` fails on a 0-d array.  `castF` is the
conversion to the float dtype of `zeros(...)`.  `diag_indices(l, 0)` is the empty tuple, so for `dim = 0`
the assignment broadcasts `a` into a 0-d array and fails unless the length is 1. -/
def diagonalNDTensor [Zero R] (castF : R → R) (a : NDArray R) (dim : Nat) : Except PyErr (NDArray R) :=
  match a.shape with
  | [] => .error .indexError
  | l :: _ =>
    if dim = 0 then
      if l = 1 then .ok (NDArray.scalar (castF (a.get [0]))) else .error .valueError
    else .ok (NDArray.build (List.replicate dim l) fun idx =>
      if ∀ j ∈ idx, j = idx.headD 0 then castF (a.get [idx.headD 0]) else 0)

/-- The optional reordering at the start of `toTensor` (`tensor.py` 1029-1030). -/
def reArrangeOpt [Zero R] (st : Store) (t : Tensor R) (labels : Option (List String)) :
    Tensor R × Except PyErr Unit :=
  match labels with
  | none => (t, .ok ())
  | some ls => t.reArrange st ls

/-- `tensor.py` 1014-1031 and `diagonalTensor.py` 698-715 `toTensor`. -/
def toTensor [Zero R] (castF : R → R) (st : Store) (t : Tensor R) (labels : Option (List String)) :
    Tensor R × Except PyErr (NDArray R) :=
  if t.like then (t, .error .assertionError)
  else
    match t.reArrangeOpt st labels with
    | (t', .error e) => (t', .error e)
    | (t', .ok ()) =>
      match t'.a with
      | none => (t', .error .attributeError)
      | some arr =>
        if t'.diag then (t', diagonalNDTensor castF arr t'.legs.length) else (t', .ok arr)

/-- `tensor.py` 597-641 and `diagonalTensor.py` 533-579 `toMatrix`, either class. -/
def toMatrixAny [Zero R] (castF : R → R) (t : Tensor R) (rows cols : Option (List LegId)) :
    Except PyErr (NDArray R) := do
  if t.diag then
    let (_, _, ri, ci) ← t.matrixLegs rows cols
    match t.a with
    | none => throw .attributeError
    | some arr =>
      let d ← diagonalNDTensor castF arr t.legs.length
      d.reshape [tupleProduct (ri.map fun _ => t.length), tupleProduct (ci.map fun _ => t.length)]
  else t.toMatrix rows cols

/-- The label arguments of `toMatrix` and `trace` (`tensor.py` 618-621): labels are turned into legs with
`getLeg`; an unknown label gives `None`, represented by the unused identity `st.nextLeg`. -/
def legsOfLabels (st : Store) (t : Tensor R) (labels : List String) : List LegId :=
  labels.map fun lab => (t.getLeg st lab).getD st.nextLeg

/-- `tensor.py` 977-996 and `diagonalTensor.py` 662-677 `trace`. -/
def trace [NonUnitalNonAssocSemiring R] (t : Tensor R) (rows cols : Option (List LegId)) : Except PyErr R := do
  if t.like then throw .assertionError
  if t.diag then
    match t.a with
    | none => throw .attributeError
    | some arr => pure arr.sumAll
  else
    let m ← t.toMatrix rows cols
    pyAssert (m.shape.getD 0 0 = m.shape.getD 1 0)
    pure m.trace2

/-- `tensor.py` 998-1012 and `diagonalTensor.py` 679-696 `single`. -/
def single [Zero R] (st : Store) (t : Tensor R) : Except PyErr R := do
  if t.like then throw .assertionError
  if t.diag then pyAssert (t.length = 1)
  pyAssert (t.shape st = [])
  match t.a with
  | none => throw .attributeError
  | some arr => pure (arr.get [])

/-- `tensor.py` 583-595 and `diagonalTensor.py` 513-531 `toVector`. -/
def toVector (t : Tensor R) : Except PyErr (List R) :=
  if t.like then .error .assertionError
  else match t.a with
    | none => .error .attributeError
    | some arr => .ok arr.data

/-- `tensor.py` 915-951 and `diagonalTensor.py` 640-648 `outProduct` for a list of legs.  The new leg gets
the next identity of the store. -/
def outProduct [Zero R] (st : Store) (t : Tensor R) (legList : List LegId) (newLabel : String) :
    Store × Tensor R × Except PyErr LegId :=
  if t.diag then (st, t, .error .typeError)
  else if legList = [] then (st, t, .error .assertionError)
  else
    match t.moveLegsToFront legList with
    | (t1, .error e) => (st, t1, .error e)
    | (t1, .ok ()) =>
      let n := legList.length
      let rest := (t1.shape st).drop n
      if t1.like then
        let newDim := ((t1.legs.take n).map st.dim).prod
        let (st', l) := st.newLeg (some t1.id) newDim newLabel
        (st', { t1 with legs := l :: t1.legs.drop n }, .ok l)
      else match t1.a with
        | none => (st, t1, .error .attributeError)
        | some arr =>
          match arr.reshapeInfer rest with
          | .error e => (st, t1, .error e)
          | .ok arr' =>
            let (st', l) := st.newLeg (some t1.id) (arr'.shape.headD 0) newLabel
            (st', { t1 with a := some arr', legs := l :: t1.legs.drop n }, .ok l)

/-- `tensor.py` 931-932 `outProduct` for a list of labels.  An unknown label becomes `None`, which is in no
leg list; it is represented by the unused identity `st.nextLeg`. -/
def outProductLabels [Zero R] (st : Store) (t : Tensor R) (labels : List String) (newLabel : String) :
    Store × Tensor R × Except PyErr LegId :=
  t.outProduct st (t.legsOfLabels st labels) newLabel

/-- `diagonalTensor.py` 717-748 `sumOutLeg`.  A TensorLike holds `None`: `None * weights` is a TypeError, and for
the last leg `array(sum(None))` is a 0-d object array around `None`.  Simplification: the model keeps no data
there. -/
def sumOutLegDiag [NonUnitalNonAssocSemiring R] (t : Tensor R) (leg : LegId)
    (weights : Option (NDArray R)) : Tensor R × Except PyErr Unit :=
  if leg ∉ t.legs then (t, .ok ())
  else
    let t1 := { t with legs := t.legs.eraseIdx (t.legs.idxOf leg) }
    match t.a with
    | none =>
      if weights ≠ none then (t1, .error .typeError)
      else if t1.legs = [] then ({ t1 with length := 1 }, .ok ())
      else (t1, .ok ())
    | some arr =>
      let w : Except PyErr (NDArray R) := match weights with
        | none => .ok arr
        | some w => arr.mulBroadcast w
      match w with
      | .error e => (t1, .error e)
      | .ok d =>
        if t1.legs = [] then ({ t1 with a := some (NDArray.scalar d.sumAll), length := 1 }, .ok ())
        else ({ t1 with a := some d }, .ok ())

/-- `sumOutLeg` of either class. -/
def sumOutLegAny [NonUnitalNonAssocSemiring R] (t : Tensor R) (leg : LegId)
    (weights : Option (NDArray R)) : Tensor R × Except PyErr Unit :=
  if t.diag then t.sumOutLegDiag leg weights
  else match t.sumOutLeg leg weights with
    | .ok t' => (t', .ok ())
    | .error e => (t, .error e)

/-- `tensor.py` 1102-1123 `sumOutLegByLabel` for one label: an unknown label warns and changes nothing
(`sumOutLeg(None)` warns again and returns). -/
def sumOutLegByLabel1 [NonUnitalNonAssocSemiring R] (st : Store) (t : Tensor R) (label : String)
    (backward : Bool) (weights : Option (NDArray R)) : Tensor R × Except PyErr Unit :=
  match t.getLeg st label backward with
  | none => (t, .ok ())
  | some l => t.sumOutLegAny l weights

/-- `tensor.py` 1116-1119 `sumOutLegByLabel` for a list of labels: the recursive call does not pass
`weights` on. -/
def sumOutLegByLabelList [NonUnitalNonAssocSemiring R] (st : Store) (t : Tensor R) (labels : List String)
    (backward : Bool) (_weights : Option (NDArray R)) : Tensor R × Except PyErr Unit :=
  labels.foldl (fun acc lab =>
    match acc with
    | (t, .ok ()) => t.sumOutLegByLabel1 st lab backward none
    | (t, .error e) => (t, .error e)) (t, .ok ())

/-- `tensor.py` 697-722 `getLabelIndices`; `none` stands for `-1`. -/
def getLabelIndices (st : Store) (t : Tensor R) (labs : List String) (backward : Bool := false) :
    List (Option Nat) :=
  (List.range labs.length).map fun i =>
    let lab := labs.getD i ""
    if (labs.take i).count lab > 0 then t.indexOfLabel st lab (!backward) else t.indexOfLabel st lab backward

/-- `tensor.py` 724-738 `renameLabel`: an unknown label warns and changes nothing. -/
def renameLabel (st : Store) (t : Tensor R) (changeFrom changeTo : String) : Store :=
  match t.indexOfLabel st changeFrom with
  | none => st
  | some i => st.rename (t.legs.getD i 0) changeTo

/-- `tensor.py` 743-754 `renameLabels`: one after the other. -/
def renameLabels (st : Store) (t : Tensor R) (changeFrom changeTo : List String) : Except PyErr Store :=
  if changeFrom.length = changeTo.length then
    .ok ((changeFrom.zip changeTo).foldl (fun s p => t.renameLabel s p.1 p.2) st)
  else .error .assertionError

/-- `tensor.py` 756-774 `shapeOfLabel`; `none` stands for `-1`. -/
def shapeOfLabel (st : Store) (t : Tensor R) (label : String) (backward : Bool := false) : Option Nat :=
  (t.getLeg st label backward).map st.dim

end Tensor
end CTL
