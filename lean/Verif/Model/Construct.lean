import Verif.Model.Contract

/-!
Model of the constructors `Tensor(...)` and `DiagonalTensor(...)` with all of their optional arguments:
`src/CTL/tensor/tensor.py` 93-116, 150-368, 446-463 and `src/CTL/tensor/diagonalTensor.py` 85-115, 145-417.
-/

namespace CTL
variable {R : Type}

/-- The argument `shape`: an integer or a tuple of integers.  Simplification: sizes are not negative, and a list is
treated like the tuple of its elements. -/
inductive ShapeArg where
  | int (n : Nat)
  | tuple (s : List Nat)
deriving DecidableEq, Repr

/-- The arguments of `Tensor.__init__` (`tensor.py` 93) that `deduction` reads.  Simplification: `labels` is a list of
strings. -/
structure CArgs (R : Type) where
  shape : Option ShapeArg := none
  labels : Option (List String) := none
  data : Option (NDArray R) := none
  legs : Option (List LegId) := none
  like : Bool := false

/-- `tensor.py` 150-179 `checkLegsLabelsCompatible`. -/
def checkLegsLabels (st : Store) (legs : List LegId) : Option (List String) → Bool
  | none => true
  | some ls => ls.length == legs.length && (ls.zip legs).all fun p => p.1 == st.name p.2

/-- `tensor.py` 181-208 `checkLegsShapeCompatible`: an integer is not accepted. -/
def checkLegsShape (st : Store) (legs : List LegId) : Option ShapeArg → Bool
  | none => true
  | some (.int _) => false
  | some (.tuple s) => s.length == legs.length && (s.zip legs).all fun p => p.1 == st.dim p.2

/-- `tensor.py` 210-229 `checkShapeDataCompatible`. -/
def checkShapeData (shape : List Nat) : Option (NDArray R) → Bool
  | none => true
  | some d => tupleProduct d.shape == tupleProduct shape

/-- `tensor.py` 231-249 `checkShapeLabelsCompatible`. -/
def checkShapeLabels (shape : List Nat) : Option (List String) → Bool
  | none => true
  | some ls => ls.length == shape.length

/-- `tensor.py` 446-463 `generateLabels`. -/
def generateLabels (n : Nat) : Except PyErr (List String) := do
  pyAssert (n ≤ 26)
  pure (("abcdefghijklmnopqrstuvwxyz".toList.take n).map String.singleton)

/-- `tensor.py` 339-340, 349-350, `diagonalTensor.py` 292-293, 311-312: the given labels, or the first letters. -/
def chosenLabels (labels : Option (List String)) (n : Nat) : Except PyErr (List String) :=
  match labels with
  | some ls => .ok ls
  | none => generateLabels n

/-- `tensor.py` 251-283 `generateData`.  `rand shape idx` is the random entry at `idx`. -/
def generateData (rand : List Nat → List Nat → R) (shape : List Nat) (data : Option (NDArray R)) (like : Bool) :
    Except PyErr (Option (NDArray R)) :=
  if like then .ok none
  else match data with
    | none => .ok (some (NDArray.build shape (rand shape)))
    | some d => if d.shape ≠ shape then (d.reshape shape).map some else .ok (some d)

/-- `tensor.py` 327-328 and `diagonalTensor.py` 272-273: the shape of the legs when no tuple is given. -/
def givenShape (dims : List Nat) : Option ShapeArg → List Nat
  | some (.tuple s) => s
  | _ => dims

/-- What `deduction` finds out: the dimensions (`None` only for a TensorLike from labels alone) and labels. -/
structure Deduced where
  dims : List (Option Nat)
  labels : List String

/-- `tensor.py` 318-355: the dimensions and labels. -/
def deduceShape (st : Store) (c : CArgs R) : Except PyErr Deduced :=
  match c.legs with
  | some legs =>
    if checkLegsLabels st legs c.labels = false then .error .valueError
    else if checkLegsShape st legs c.shape = false then .error .valueError
    else
      let shape := givenShape (legs.map st.dim) c.shape
      if checkShapeData shape c.data = false then .error .valueError
      else .ok ⟨shape.map some, c.labels.getD (legs.map st.name)⟩
  | none =>
    match c.shape with
    | some (.int _) => .error .typeError
    | some (.tuple s) =>
      if checkShapeLabels s c.labels = false then .error .valueError
      else
        match chosenLabels c.labels s.length with
        | .error e => .error e
        | .ok ls => if checkShapeData s c.data = false then .error .valueError else .ok ⟨s.map some, ls⟩
    | none =>
      match c.data with
      | some d =>
        if checkShapeLabels d.shape c.labels = false then .error .valueError
        else
          match chosenLabels c.labels d.shape.length with
          | .error e => .error e
          | .ok ls => .ok ⟨d.shape.map some, ls⟩
      | none =>
        match c.like, c.labels with
        | true, some ls => .ok ⟨List.replicate ls.length none, ls⟩
        | _, _ => .error .valueError

/-- `tensor.py` 359-362: new legs for the pairs of label and dimension.  Simplification: the unknown dimension of a
TensorLike is stored as 0. -/
def makeLegs (st : Store) (t : TensorId) : List (String × Option Nat) → Store × List LegId
  | [] => (st, [])
  | (n, d) :: ps =>
    let (st1, l) := st.newLeg (some t) (d.getD 0) n
    let (st2, ls) := makeLegs st1 t ps
    (st2, l :: ls)

/-- `tensor.py` 285-368 `deduction` and 93-116 `__init__` with `diagonalFlag = False`. -/
def construct (rand : List Nat → List Nat → R) (st : Store) (c : CArgs R) : Except PyErr (Store × Tensor R) := do
  let s ← deduceShape st c
  let data ← generateData rand (s.dims.map fun d => d.getD 0) c.data c.like
  let id := st.nextTensor
  match c.legs with
  | none =>
    let (st1, legs) := makeLegs { st with nextTensor := id + 1 } id (s.labels.zip s.dims)
    pure (st1, ⟨id, legs, data, false, c.like, 0⟩)
  | some legs => pure ({ st.setOwner legs id with nextTensor := id + 1 }, ⟨id, legs, data, false, c.like, 0⟩)

/-- `diagonalTensor.py` 85-115 `deduceDimension`. -/
def deduceDimension (data : Option (NDArray R)) (labels : Option (List String)) : Except PyErr Nat :=
  match labels, data with
  | some ls, some d =>
    if d.shape.length ≠ 1 ∧ (ls.length ≠ d.shape.length ∨ (ls.length = 0 ∧ d.shape.length = 1)) then .error .valueError
    else .ok ls.length
  | some ls, none => .ok ls.length
  | none, some d => .ok d.shape.length
  | none, none => .error .valueError

/-- `diagonalTensor.py` 145-165 and 166-186: all dimensions are equal to the first one. -/
def allEqualDims : List Nat → Bool
  | [] => true
  | l :: ds => (l :: ds).all fun d => d == l

/-- `diagonalTensor.py` 188-205 `checkLegsShapeCompatible`: an integer is repeated. -/
def checkLegsShapeDiag (st : Store) (legs : List LegId) : Option ShapeArg → Bool
  | some (.int n) => checkLegsShape st legs (some (.tuple (List.replicate legs.length n)))
  | s => checkLegsShape st legs s

/-- `diagonalTensor.py` 207-216 `checkShapeDataCompatible` (the shape is a tuple wherever it is called). -/
def checkShapeDataDiag (shape : List Nat) : Option (NDArray R) → Bool
  | none => true
  | some d => (d.shape.length == 1 && decide (0 < shape.length) && d.shape.headD 0 == shape.headD 0) ||
      tupleProduct d.shape == tupleProduct shape

/-- `data[xplib.xp.diag_indices(dim, l)]`: NumPy indexing with `l` copies of `arange(dim)`.  Axes beyond `l` stay;
IndexError when there are fewer axes or when one is too short. -/
def diagRead [Zero R] (d : NDArray R) (dim l : Nat) : Except PyErr (NDArray R) :=
  if d.shape.length < l ∨ (d.shape.take l).any (fun n => decide (n < dim)) then .error .indexError
  else .ok (NDArray.build (dim :: d.shape.drop l) fun idx => d.get (List.replicate l (idx.headD 0) ++ idx.tail))

/-- `diagonalTensor.py` 218-240 `generateData`. -/
def generateDataDiag [Zero R] [One R] (shape : List Nat) (data : Option (NDArray R)) (like : Bool) :
    Except PyErr (Option (NDArray R)) :=
  if like then .ok none
  else match data with
    | none => match shape with
      | [] => .error .indexError
      | n :: _ => .ok (some (NDArray.build [n] fun _ => 1))
    | some d =>
      if d.shape.length = 1 then .ok (some d)
      else match shape with
        | [] => .error .indexError
        | n :: s => (diagRead d n (s.length + 1)).map some

/-- `diagonalTensor.py` 282-284: an integer is repeated as often as labels or data say. -/
def tupleShape (c : CArgs R) : ShapeArg → Except PyErr (List Nat)
  | .int n => (deduceDimension c.data c.labels).map fun dim => List.replicate dim n
  | .tuple s => .ok s

/-- `diagonalTensor.py` 299-307: the shape from the data; a vector gives the dimension of all legs. -/
def dataShape (d : NDArray R) (dim : Nat) : List Nat :=
  if d.shape.length = 1 ∧ 1 < dim then List.replicate dim (d.shape.headD 0) else d.shape

/-- `diagonalTensor.py` 262-315: the shape and labels, outside of the scalar case. -/
def deduceShapeDiag (st : Store) (c : CArgs R) : Except PyErr (List Nat × List String) :=
  match c.legs with
  | some legs =>
    if allEqualDims (legs.map st.dim) = false then .error .valueError
    else if checkLegsLabels st legs c.labels = false then .error .valueError
    else if checkLegsShapeDiag st legs c.shape = false then .error .valueError
    else
      let shape := givenShape (legs.map st.dim) c.shape
      if checkShapeDataDiag shape c.data = false then .error .valueError
      else .ok (shape, c.labels.getD (legs.map st.name))
  | none =>
    match c.shape with
    | some sh =>
      match tupleShape c sh with
      | .error e => .error e
      | .ok s =>
        if allEqualDims s = false then .error .valueError
        else if checkShapeLabels s c.labels = false then .error .valueError
        else
          match chosenLabels c.labels s.length with
          | .error e => .error e
          | .ok ls => if checkShapeDataDiag s c.data = false then .error .valueError else .ok (s, ls)
    | none =>
      match c.data with
      | some d =>
        if allEqualDims d.shape = false then .error .valueError
        else
          match deduceDimension c.data c.labels with
          | .error e => .error e
          | .ok dim =>
            if checkShapeLabels (dataShape d dim) c.labels = false then .error .valueError
            else
              match chosenLabels c.labels (dataShape d dim).length with
              | .error e => .error e
              | .ok ls => .ok (dataShape d dim, ls)
      | none => .error .valueError

/-- `diagonalTensor.py` 255-256: the condition of the scalar case. -/
def isScalarCall (c : CArgs R) : Bool :=
  c.legs.isNone && c.labels.isNone && (c.shape == some (.tuple []) || (match c.data with | some d => d.shape == [] | none => false))

/-- `diagonalTensor.py` 414-417: `_length` is the first dimension, 1 without legs. -/
def diagLength : List Nat → Nat
  | [] => 1
  | n :: _ => n

/-- `diagonalTensor.py` 242-393 `deduction` and 398-417 `__init__`. -/
def constructDiag [Zero R] [One R] (st : Store) (c : CArgs R) : Except PyErr (Store × Tensor R) :=
  let id := st.nextTensor
  if isScalarCall c then
    let data := match c.data with
      | some d => some d
      | none => if c.like then none else some (NDArray.scalar 1)
    .ok ({ st with nextTensor := id + 1 }, ⟨id, [], data, true, c.like, 1⟩)
  else do
    let (shape, labels) ← deduceShapeDiag st c
    let data ← generateDataDiag shape c.data c.like
    let len := diagLength shape
    match c.legs with
    | none =>
      let (st1, legs) := makeLegs { st with nextTensor := id + 1 } id (labels.zip (shape.map some))
      pure (st1, ⟨id, legs, data, true, c.like, len⟩)
    | some legs => pure ({ st.setOwner legs id with nextTensor := id + 1 }, ⟨id, legs, data, true, c.like, len⟩)

end CTL
