import Verif.Model.Tensor

/-!
Model of the operations on names: `addTensorTag`, `removeTensorTag` (`src/CTL/tensor/tensor.py`) and `decodeSubText`
(`src/CTL/tensor/contract/tensorGraph.py`).
-/

namespace CTL

variable {R : Type}

/-- `s.find('-')`: the first position, `none` for `-1`. -/
def findDash (s : String) : Option Nat :=
  if '-' ∈ s.toList then some (s.toList.idxOf '-') else none

/-- The loop of `addTensorTag`, `tensor.py` 840-842: the store at the end, and the exception if one was raised (the
legs treated before keep their new names). -/
def addTagLoop (tag : String) : Store → List LegId → Store × Option PyErr
  | st, [] => (st, none)
  | st, l :: ls =>
    if findDash (st.name l) = none then
      addTagLoop tag (st.rename l (String.ofList (tag.toList ++ ['-'] ++ (st.name l).toList))) ls
    else (st, some .assertionError)

/-- `tensor.py` 826-842 `addTensorTag`. -/
def Tensor.addTensorTag (t : Tensor R) (st : Store) (tag : String) : Store × Option PyErr := addTagLoop tag st t.legs

/-- The loop of `removeTensorTag`, `tensor.py` 848-854; a leg without a tag only warns. -/
def removeTagLoop : Store → List LegId → Store
  | st, [] => st
  | st, l :: ls =>
    match findDash (st.name l) with
    | none => removeTagLoop st ls
    | some i => removeTagLoop (st.rename l (String.ofList ((st.name l).toList.drop (i + 1)))) ls

/-- `tensor.py` 844-854 `removeTensorTag`. -/
def Tensor.removeTensorTag (t : Tensor R) (st : Store) : Store := removeTagLoop st t.legs

/-- The local variables of `decodeSubText`, `tensorGraph.py` 422-428. -/
structure DecodeState where
  currName : Option (List Char)
  currSize : Option Nat
  nameWait : Bool
  sizeWait : Bool
  labels : List (List Char)
  shape : List (Option Nat)
deriving DecidableEq, Repr

/-- `labels.append(currName); shape.append(currSize)` and the reset of both (436-446, 455-459, 470-474). -/
def DecodeState.push (s : DecodeState) (name : List Char) : DecodeState :=
  { s with labels := s.labels ++ [name], shape := s.shape ++ [s.currSize], currName := none, currSize := none }

/-- One character of `decodeSubText`, `tensorGraph.py` 431-474.  Simplification: `isdigit` is true of the ten ASCII
digits only (Python also accepts other Unicode digits).  The branch `none` of the inner match is not reached: a size is
only waited for when there is a name. -/
def decodeChar (s : DecodeState) (c : Char) : Except PyErr DecodeState :=
  if c = '{' then
    if s.currName = none then .ok { s with nameWait := true } else .ok { s with sizeWait := true }
  else if c = '}' then
    if s.nameWait || s.sizeWait then
      if s.nameWait then .ok { s with nameWait := false }
      else match s.currName with
        | some n => .ok { s.push n with sizeWait := false }
        | none => .ok { s.push [] with sizeWait := false }
    else .error .assertionError
  else
    match s.currName with
    | none => .ok { s with currName := some [c] }
    | some n =>
      if s.nameWait then .ok { s with currName := some (n ++ [c]) }
      else if ¬ c.isDigit then
        let s' := { s.push n with currName := some [c] }
        if s.sizeWait then .ok { s' with nameWait := true, sizeWait := false } else .ok s'
      else
        let s' := { s with currSize := some (s.currSize.getD 0 * 10 + (c.toNat - '0'.toNat)) }
        if s.sizeWait then .ok s' else .ok (s'.push n)

/-- `tensorGraph.py` 421-481 `decodeSubText`. -/
def decodeSubText (t : List Char) : Except PyErr (List (List Char) × List (Option Nat)) := do
  let s ← t.foldlM decodeChar ⟨none, none, false, false, [], []⟩
  match s.currName with
  | some n => pure (s.labels ++ [n], s.shape ++ [s.currSize])
  | none => pure (s.labels, s.shape)

end CTL
