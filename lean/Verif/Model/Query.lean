import Verif.Model.TensorOps
import Verif.Model.Funcs

/-! What tensors answer about their legs, `src/CTL/tensor/tensor.py` and `diagonalTensor.py`, and dictionaries of tensors,
`src/CTL/tensornetwork/tensordict.py`. -/

namespace CTL
variable {R : Type}

/-- `xs[i]` of a tuple; `none` stands for `-1`, for which Python takes the last element. -/
def pyIndexLast {α : Type} (xs : List α) : Option Nat → Except PyErr α
  | none => match xs.getLast? with
    | some x => .ok x
    | none => .error .indexError
  | some i => match xs[i]? with
    | some x => .ok x
    | none => .error .indexError

namespace Tensor

/-- `tensor.py` 811-824 `shapeOfIndices` (with `shapeOfIndex`, 797-809). -/
def shapeOfIndices (st : Store) (t : Tensor R) (indices : List (Option Nat)) : Except PyErr (List Nat) :=
  indices.mapM fun i => pyIndexLast (t.shape st) i

/-- `tensor.py` 780-795 `shapeOfLabels`. -/
def shapeOfLabels (st : Store) (t : Tensor R) (labs : List String) (backward : Bool := false) : Except PyErr (List Nat) :=
  t.shapeOfIndices st (t.getLabelIndices st labs backward)

/-- The loop of `labelsInTensor`, `tensor.py` 1073-1077. -/
def labelsLoop (labels : List String) : List String → Bool
  | [] => true
  | lab :: labs => if lab ∈ labels then labelsLoop labels labs else false

/-- `tensor.py` 1060-1077 `labelsInTensor`. -/
def labelsInTensor (st : Store) (t : Tensor R) (labs : List String) : Bool := labelsLoop (t.labels st) labs

/-- `tensor.py` 432-444 and `diagonalTensor.py` 469-478 `bondDimension`: the dimension, and whether there is a warning. -/
def bondDimension (st : Store) (t : Tensor R) : Except PyErr (Nat × Bool) :=
  if t.diag then .ok (t.length, false)
  else do
    let d ← pyIndexLast (t.shape st) (some 0)
    pure (d, !checkAllEqual (t.shape st))

/-- `tensor.py` 394-396 `totalSize` with `funcs.py` 101-118. -/
def totalSize (st : Store) (t : Tensor R) : Nat := tupleProduct (t.shape st)

end Tensor

/-- `tensordict.py` 15-16 `setTensor`. -/
def TensorDict.setTensor (d : List (String × Tensor R)) (name : String) (t : Tensor R) : List (String × Tensor R) := dictSet d name t

/-- `tensordict.py` 17-18 `getTensor`. -/
def TensorDict.getTensor (d : List (String × Tensor R)) (name : String) : Except PyErr (Tensor R) :=
  match dictGet d name with
  | some t => .ok t
  | none => .error .keyError

/-- `del d[name]`. -/
def dictDel {κ ν : Type _} [DecidableEq κ] : List (κ × ν) → κ → List (κ × ν)
  | [], _ => []
  | (k', v) :: d, k => if k' = k then d else (k', v) :: dictDel d k

/-- `tensordict.py` 19-21 `deleteTensor`: the dictionary afterwards, and the exception. -/
def TensorDict.deleteTensor (d : List (String × Tensor R)) (name : String) : List (String × Tensor R) × Except PyErr Unit :=
  if (dictGet d name).isSome then (dictDel d name, .ok ()) else (d, .error .assertionError)

/-- `tensordict.py` 11-13 `tensorCount`. -/
def TensorDict.tensorCount (d : List (String × Tensor R)) : Nat := d.length

end CTL
