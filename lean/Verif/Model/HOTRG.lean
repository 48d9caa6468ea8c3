import Verif.Model.ContractExp
import Verif.Model.Construct
import Verif.Model.Copy
import Verif.Model.Decompose
import Verif.Model.RG
import Mathlib.Algebra.Order.Ring.Defs

/-!
Model of `src/CTL/examples/HOTRG.py` on tensors: networks, projectors and all, of `solveEnv` in
`src/CTL/funcs/linalg.py`, and of the factories in `src/CTL/tensor/tensorFactory.py`.

Simplifications: numbers are those of an ordered field, so division by a norm or by a sum of eigenvalues that is 0 gives 0
where NumPy gives `nan`; `numpy.linalg.norm`, `numpy.linalg.eigh` and `numpy.log` are parameters.
-/

namespace CTL
variable {K : Type}

/-- The routines of NumPy that `HOTRG` calls, and the threshold of `solveEnv` (`1e-10` by default).  `rand` and `cast` are
those of the other models. -/
structure RGParams (K : Type) where
  rand : List Nat → List Nat → K
  cast : K → K
  norm : NDArray K → K
  eigh : NDArray K → List K × NDArray K
  threshold : K

/-! ### `solveEnv` -/

/-- `l[-n:]`: for `n = 0` that is the whole list. -/
def lastN {α : Type} (l : List α) (n : Nat) : List α := if n = 0 then l else l.drop (l.length - n)

namespace NDArray

/-- `a[:, -n:]` of a matrix: for `n = 0` all columns. -/
def lastCols [Zero K] (a : NDArray K) (n : Nat) : NDArray K :=
  let c := a.shape.getD 1 0
  let k := if n = 0 then c else min n c
  build [a.shape.getD 0 0, k] fun idx => a.get [idx.getD 0 0, c - k + idx.getD 1 0]

/-- `flip(a, axis = 1)` of a matrix. -/
def flipCols [Zero K] (a : NDArray K) : NDArray K :=
  build a.shape fun idx => a.get [idx.getD 0 0, a.shape.getD 1 0 - 1 - idx.getD 1 0]

/-- `a / x` for a number `x`. -/
def divBy [Div K] (a : NDArray K) (x : K) : NDArray K := ⟨a.shape, a.data.map (· / x)⟩

end NDArray

/-- `linalg.py` 4-32 `solveEnv`: the projector and the error. -/
def solveEnv [Field K] [LinearOrder K] (p : RGParams K) (aMat : NDArray K) (chi : Nat) : NDArray K × K :=
  let r := p.eigh aMat
  let eigenExist := r.1.countP fun x => decide (p.threshold < x)
  let error := if eigenExist < chi then 0 else 1 - (lastN r.1 chi).sum / r.1.sum
  ((r.2.lastCols (min chi eigenExist)).flipCols, error)

/-! ### Factories -/

/-- `tensorFactory.py` 3-19 `makeTriangleTensor`. -/
def makeTriangleTensor (rand : List Nat → List Nat → K) (st : Store) (data : NDArray K)
    (labels : List String := ["1", "2", "3"]) : Except PyErr (Store × Tensor K) := do
  pyAssert (data.shape.length == 3)
  construct rand st { data := some data, labels := some labels }

/-- `tensorFactory.py` 21-37 `makeSquareTensor`. -/
def makeSquareTensor (rand : List Nat → List Nat → K) (st : Store) (data : NDArray K)
    (labels : List String := ["u", "l", "d", "r"]) : Except PyErr (Store × Tensor K) := do
  pyAssert (data.shape.length == 4)
  construct rand st { data := some data, labels := some labels }

/-- `tensorFactory.py` 39-67 `makeSquareOutTensor`. -/
def makeSquareOutTensor (rand : List Nat → List Nat → K) (st : Store) (data : NDArray K) (loc : String) :
    Except PyErr (Store × Tensor K) := do
  pyAssert (loc ∈ ["ul", "ur", "dl", "dr"])
  let labels :=
    if loc = "ul" then ["d", "r", "o"] else if loc = "ur" then ["d", "l", "o"]
    else if loc = "dl" then ["u", "r", "o"] else ["u", "l", "o"]
  construct rand st { data := some data, labels := some labels }

/-! ### The object -/

namespace RGDir

/-- The label of a direction. -/
def label : RGDir → String
  | u => "u" | d => "d" | l => "l" | r => "r"

/-- `oppositeDirection` on the four directions. -/
def opposite : RGDir → RGDir
  | u => d | d => u | l => r | r => l

/-- `(d == 'l') or (d == 'r')`. -/
def horizontal : RGDir → Bool
  | l => true | r => true | _ => false

end RGDir

/-- A finite tensor network and the contents of its list of names. -/
abbrev Net := FTN × List String

/-- The attributes of a `HOTRG` object, the store its tensors live in included.  `project` is `horizontalProjectFTN` and
`verticalProjectFTN` together; an archived tensor carries its `degreeOfFreedom`. -/
structure HOTRGState (K : Type) where
  st : Store
  a : Tensor K
  dof : Nat
  chiH : Nat
  chiV : Nat
  horizontalIterate : Net
  verticalIterate : Net
  project : RGDir → Net
  aNorms : List K
  aArchive : List (Tensor K × Nat)
  errors : List K
  directChoices : List RGDir
  projectors : List (NDArray K)

section
variable [Field K] [LinearOrder K] [Star K] (p : RGParams K) (fuel : Nat)

/-- `contract` on one of the networks.  The search for a sequence that is not finished after `fuel` rounds is reported as a
`RuntimeError`. -/
def contractNet (net : Net) (st : Store) (dict : List (String × Tensor K)) : Except PyErr (Net × Store × Tensor K) :=
  match net.1.contract p.rand p.cast net.2 st dict true fuel with
  | (_, none) => .error .runtimeError
  | (_, some (.error e)) => .error e
  | (f, some (.ok (st', t))) => .ok ((f, net.2), st', t)

namespace HOTRGState

/-- `HOTRG.py` 53-56 `normalizeTensors`, with `norm` of `tensor.py` 965-975.  The division is in place; no other tensor
has this array, since constructor and contraction make new ones. -/
def normalize (s : HOTRGState K) : Except PyErr (HOTRGState K) := do
  if s.a.like then throw .assertionError
  match s.a.a with
  | none => throw .attributeError
  | some arr =>
    let aNorm := p.norm arr
    pure { s with a := { s.a with a := some (arr.divBy aNorm) }, aNorms := s.aNorms ++ [aNorm] }

/-- `HOTRG.py` 49-51 `appendToArchive`. -/
def append (s : HOTRGState K) : Except PyErr (HOTRGState K) := do
  let s ← s.normalize p
  let (st, c) ← s.a.copy p.rand s.st
  pure { s with st := st, aArchive := s.aArchive ++ [(c, s.dof)] }

/-- `HOTRG.py` 58-86 `directedIterateTrial`: the object, the error and the projector. -/
def trial (s : HOTRGState K) (d : RGDir) : Except PyErr (HOTRGState K × K × NDArray K) := do
  let (net, st, t) ← contractNet p fuel (s.project d) s.st (makeSquareTensorDict s.a none)
  let m ← t.toMatrix (some (t.legsOfLabels st [d.label])) (some (t.legsOfLabels st [d.opposite.label]))
  let r := solveEnv p m (if d.horizontal then s.chiH else s.chiV)
  pure ({ s with st := st, project := fun x => if x = d then net else s.project x }, r.2, r.1)

/-- The two tensors made from a projector, `HOTRG.py` 98-99 with `x = 'u'`, `y = 'd'` and 106-107 with `x = 'l'`,
`y = 'r'`. -/
def projectorTensors (st : Store) (prj : NDArray K) (chi : Nat) (x y : String) : Except PyErr (Store × Tensor K × Tensor K) := do
  let k := prj.shape.getD 1 0
  let (st, t1) ← construct p.rand st { data := some prj, shape := some (.tuple [chi, chi, k]), labels := some [x, y, "o"] }
  let (st, t2) ← construct p.rand st
    { data := some prj.conjTranspose, shape := some (.tuple [k, chi, chi]), labels := some ["o", x, y] }
  pure (st, t1, t2)

/-- `HOTRG.py` 88-110 `directedIterate`.  Simplification: a tensor without a leg `l` or `u`, whose `shapeOfLabel` is -1, is
reported as a `ValueError`. -/
def directed (s : HOTRGState K) (d : RGDir) (prj : NDArray K) (input1 input2 : Option (Tensor K)) :
    Except PyErr (HOTRGState K × Tensor K) := do
  let input1 := input1.getD s.a
  let input2 := input2.getD s.a
  match input1.shapeOfLabel s.st "l", input1.shapeOfLabel s.st "u" with
  | some chiH, some chiV =>
    if d.horizontal then
      let (st, t1, t2) ← projectorTensors p s.st prj chiH "u" "d"
      let (lTensor, rTensor) := if d = .r then (t2, t1) else (t1, t2)
      let (net, st, t) ← contractNet p fuel s.horizontalIterate st [("u", input1), ("d", input2), ("l", lTensor), ("r", rTensor)]
      pure ({ s with st := st, horizontalIterate := net }, t)
    else
      let (st, t1, t2) ← projectorTensors p s.st prj chiV "l" "r"
      let (uTensor, dTensor) := if d = .d then (t2, t1) else (t1, t2)
      let (net, st, t) ← contractNet p fuel s.verticalIterate st [("u", uTensor), ("d", dTensor), ("l", input1), ("r", input2)]
      pure ({ s with st := st, verticalIterate := net }, t)
  | _, _ => throw .valueError

/-- `HOTRG.py` 119-131, the body of the loop over the directions: the object, `minimumError`, and `bestDirection` with
`projectTensor`. -/
def tryDirection (x : HOTRGState K × K × Option (RGDir × NDArray K)) (d : RGDir) :
    Except PyErr (HOTRGState K × K × Option (RGDir × NDArray K)) := do
  let (s, error, prj) ← x.1.trial p fuel d
  pure (if x.2.1 < 0 ∨ error < x.2.1 then (s, error, some (d, prj)) else (s, x.2))

/-- `HOTRG.py` 114-139 `iterate`. -/
def iterate (s : HOTRGState K) : Except PyErr (HOTRGState K) := do
  let (s, minimumError, best) ← [RGDir.u, .d, .l, .r].foldlM (tryDirection p fuel) (s, -1, none)
  match best with
  | none => throw .assertionError
  | some (d, prj) =>
    let (s, a) ← s.directed p fuel d prj none none
    let s ← append p { s with a := a, dof := s.dof * 2 }
    pure { s with
      errors := s.errors ++ [minimumError], directChoices := s.directChoices ++ [d], projectors := s.projectors ++ [prj] }

/-- `HOTRG.py` 27-30: the first argument. -/
def initial (st : Store) : Tensor K ⊕ NDArray K → Except PyErr (Store × Tensor K)
  | .inl t => t.copy p.rand st
  | .inr data => makeSquareTensor p.rand st data

/-- `HOTRG.py` 17-47 `__init__`.  The first argument is a tensor or an array; `dof` is the `degreeOfFreedom` of the
tensor.  The lists of the networks are numbered from 1. -/
def new (st : Store) (a : Tensor K ⊕ NDArray K) (dof : Option Nat) (chiH : Nat := 16) (chiV : Option Nat := none) :
    Except PyErr (HOTRGState K) := do
  let h ← HOTRGHorizontalContractFTN 1
  let v ← HOTRGVerticalContractFTN 2
  let l ← squareHorizontalContractFTN 3 "l"
  let r ← squareHorizontalContractFTN 4 "r"
  let u ← squareVerticalContractFTN 5 "u"
  let d ← squareVerticalContractFTN 6 "d"
  let (st, a) ← initial p st a
  append p
    { st := st, a := a, dof := dof.getD 1, chiH := chiH, chiV := chiV.getD chiH, horizontalIterate := h, verticalIterate := v
      project := fun x => match x with
        | .u => u | .d => d | .l => l | .r => r
      aNorms := [], aArchive := [], errors := [], directChoices := [], projectors := [] }

/-- A number of calls of `iterate`. -/
def iterateN : Nat → HOTRGState K → Except PyErr (HOTRGState K)
  | 0, s => .ok s
  | n + 1, s => do
    let s ← iterateN n s
    s.iterate p fuel

/-- `HOTRG.py` 145-150 `impurityIterate`. -/
def impurityIterate (s : HOTRGState K) (tensors : List (Tensor K)) (loopIdx : Nat) : Except PyErr (HOTRGState K × Tensor K) :=
  match tensors with
  | [x, y] =>
    if loopIdx < s.directChoices.length then do
      let d ← pyGet s.directChoices loopIdx
      let prj ← pyGet s.projectors loopIdx
      s.directed p fuel d prj (some x) (some y)
    else .error .assertionError
  | _ => .error .assertionError

/-- `HOTRG.py` 167-168 `pureTensorTrace`. -/
def pureTensorTrace (s : HOTRGState K) (idx : Nat) : Except PyErr K := do
  let x ← pyGet s.aArchive idx
  squareTrace s.st x.1

/-- `HOTRG.py` 177-184: the loop of `logZDensity` over `aNorms[i]` and `aArchive[i]`. -/
def logLoop (log : K → K) (st : Store) (accumulate : K) : List (K × (Tensor K × Nat)) → Except PyErr (List K)
  | [] => .ok []
  | (n, (t, dof)) :: rest => do
    let acc := accumulate + log n / (dof : K)
    let trace ← squareTrace st t
    let res ← logLoop log st acc rest
    pure ((acc + log trace / (dof : K)) :: res)

/-- `HOTRG.py` 170-186 `logZDensity`. -/
def logZDensity (log : K → K) (s : HOTRGState K) : Except PyErr (List K) := logLoop log s.st 0 (s.aNorms.zip s.aArchive)

end HOTRGState
end

end CTL
