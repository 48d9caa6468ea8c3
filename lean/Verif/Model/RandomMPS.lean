import Verif.Model.MPS
import Verif.Model.Copy

/-! Model of `copyOfTensors` and `makeRandomMPS` in `src/CTL/examples/MPS.py`. -/

namespace CTL
variable {R : Type}

/-- `makeLink(x, y, ts[i], ts[j])` for `q = (i, x, j, y)`. -/
def linkAt (ts : List (Tensor R)) (st : Store) (q : Nat × String × Nat × String) : Except PyErr Store :=
  match ts[q.1]?, ts[q.2.2.1]? with
  | some a, some b => linkOr (makeLink st [.label q.2.1] [.label q.2.2.2] (some a) (some b))
  | _, _ => .error .indexError

/-- `MPS.py` 255-259 `copyOfTensors`. -/
def MPS.copyOfTensors [Zero R] [One R] (rand : List Nat → List Nat → R) (st : Store) (m : MPS R) :
    Except PyErr (Store × List (Tensor R)) := do
  let (st1, cs) ← copyEach rand false st m.tensors
  let st2 ← ((List.range (m.tensors.length - 1)).map fun i => (i, "r", i + 1, "l")).foldlM (linkAt cs) st1
  pure (st2, cs)

/-- The arguments `virtualDim` and `physicalDim`: an integer or a list. -/
inductive DimArg where
  | int (d : Nat)
  | list (l : List Nat)
deriving DecidableEq, Repr

/-- `MPS.py` 286-294: an integer is repeated, a list must have the right length. -/
def DimArg.toList (k : Nat) : DimArg → Except PyErr (List Nat)
  | .int d => .ok (List.replicate k d)
  | .list l => if l.length = k then .ok l else .error .assertionError

/-- `MPS.py` 300-313: shapes and labels of the tensors. -/
def randomShapes (n : Nat) (P V : List Nat) : List (List Nat × List String) :=
  [([P.getD 0 0, V.getD 0 0], ["p", "v"])] ++
  ((List.range (n - 2)).map fun i => ([P.getD (i + 1) 0, V.getD i 0, V.getD (i + 1) 0], ["p", "vl", "vr"])) ++
  [([P.getLastD 0, V.getLastD 0], ["p", "v"])]

/-- `tensor.a /= tensor.norm()`, `MPS.py` 313-314. -/
def Tensor.normalized [Div R] (norm : NDArray R → R) (t : Tensor R) : Tensor R :=
  { t with a := t.a.map fun a => ⟨a.shape, a.data.map (· / norm a)⟩ }

/-- `Tensor(shape = ..., labels = ...)` for every entry; `rands i` are the random numbers for the `i`-th tensor. -/
def randomTensors (rands : Nat → List Nat → List Nat → R) : Store → Nat → List (List Nat × List String) →
    Except PyErr (Store × List (Tensor R))
  | st, _, [] => .ok (st, [])
  | st, i, s :: ss => do
    let (st1, t) ← construct (rands i) st { shape := some (.tuple s.1), labels := some s.2 }
    let (st2, ts) ← randomTensors rands st1 (i + 1) ss
    pure (st2, t :: ts)

/-- `MPS.py` 316-322: what is joined. -/
def randomLinks (n : Nat) : List (Nat × String × Nat × String) :=
  if n = 2 then [(0, "v", n - 1, "v")]
  else (0, "v", 1, "vl") :: (n - 1, "v", n - 2, "vr") :: (List.range' 1 (n - 3)).map fun i => (i, "vr", i + 1, "vl")

/-- `MPS.py` 261-323 `makeRandomMPS`; `norm` stands for `numpy.linalg.norm`.  Simplification: dimensions are not negative. -/
def makeRandomMPS [Div R] (rands : Nat → List Nat → List Nat → R) (norm : NDArray R → R) (st : Store) (n : Int) (virtualDim physicalDim : DimArg)
    (chi : Option Int := some (-1)) : Except PyErr (Store × MPS R) := do
  pyAssert (n > 1)
  let k := n.toNat
  let V ← virtualDim.toList (k - 1)
  let P ← physicalDim.toList k
  let chi' := if chi = some (-1) then some (V.getD 0 0 : Int) else chi
  let (st1, ts) ← randomTensors rands st 0 (randomShapes k P V)
  let ts' := ts.map (Tensor.normalized norm)
  let st2 ← (randomLinks k).foldlM (linkAt ts') st1
  MPS.new st2 ts' chi'

end CTL
