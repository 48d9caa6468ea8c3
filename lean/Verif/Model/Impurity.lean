import Verif.Model.HOTRG

/-!
Model of `src/CTL/examples/impurity.py` on tensors, with a `HOTRG` object as the `RG`.

Simplifications: the `RG` is passed to every method, so that `initialize` without `setRG` (lines 27-30 and 40) is left out; numbers
are those of an ordered field, so division by 0 gives 0.
-/

namespace CTL
variable {K : Type}

namespace NDArray

/-- `a * x` for a number `x`. -/
def mulBy [Mul K] (a : NDArray K) (x : K) : NDArray K := ⟨a.shape, a.data.map (· * x)⟩

/-- `a += b`.  Simplification: arrays of different shapes that NumPy can broadcast are reported as a `ValueError` too. -/
def addTo [Add K] (a b : NDArray K) : Except PyErr (NDArray K) :=
  if a.shape = b.shape then .ok ⟨a.shape, List.zipWith (· + ·) a.data b.data⟩ else .error .valueError

end NDArray

/-- A tensor and its `degreeOfFreedom`. -/
abbrev DofTensor (K : Type) := Tensor K × Option Nat

/-- The attributes of an `ImpurityTensorNetwork` object. -/
structure ImpurityNet (K : Type) where
  impurities : List (Option (DofTensor K))
  highestOrder : Nat
  archive : List (List (DofTensor K))
  norms : List K
  iterateIdx : Nat
  initialized : Bool

section
variable [Field K] [LinearOrder K] [Star K] (p : RGParams K) (fuel : Nat)

/-- `[tensor.copy() for tensor in tensors]`: the copies have the same `degreeOfFreedom`. -/
def copyTensors : Store → List (DofTensor K) → Except PyErr (Store × List (DofTensor K))
  | st, [] => .ok (st, [])
  | st, t :: ts => do
    let (st, c) ← t.1.copy p.rand st
    let (st, cs) ← copyTensors st ts
    pure (st, (c, t.2) :: cs)

/-- `a.a /= norm` for each of the impurities, which may be `None`. -/
def divideEach (norm : K) : List (Option (DofTensor K)) → Except PyErr (List (DofTensor K))
  | [] => .ok []
  | none :: _ => .error .attributeError
  | some t :: ts =>
    match t.1.a with
    | none => .error .typeError
    | some arr => do
      let rest ← divideEach norm ts
      pure (({ t.1 with a := some (arr.divBy norm) }, t.2) :: rest)

/-- `HOTRG.py` 141-143 `getNorm`. -/
def HOTRGState.getNorm (s : HOTRGState K) (idx : Nat) : Except PyErr K :=
  if idx < s.aNorms.length then pyGet s.aNorms idx else .error .assertionError

/-- `HOTRG.py` 164-166 `tensorTrace`. -/
def HOTRGState.tensorTrace (s : HOTRGState K) (t : Tensor K) : Except PyErr K := squareTrace s.st t

namespace ImpurityNet

/-- `impurity.py` 10-25 `__init__`. -/
def new (st : Store) (impurities : List (DofTensor K)) (highestOrder : Option Nat) : Except PyErr (Store × ImpurityNet K) := do
  let (st, cs) ← copyTensors p st impurities
  let n := highestOrder.getD impurities.length
  let imps := cs.map some
  pure (st, { impurities := if n < imps.length then imps.take n else imps ++ List.replicate (n - imps.length) none
              highestOrder := n, archive := [], norms := [], iterateIdx := 0, initialized := false })

/-- `impurity.py` 32-37 `appendToArchive`. -/
def append (net : ImpurityNet K) (rg : HOTRGState K) (norm : K) : Except PyErr (HOTRGState K × ImpurityNet K) := do
  let ts ← divideEach norm net.impurities
  let (st, cs) ← copyTensors p rg.st ts
  pure ({ rg with st := st },
    { net with impurities := ts.map some, norms := net.norms ++ [norm], archive := net.archive ++ [cs] })

/-- `impurity.py` 39-44 `initialize`. -/
def init (net : ImpurityNet K) (rg : HOTRGState K) : Except PyErr (HOTRGState K × ImpurityNet K) := do
  let norm ← rg.getNorm 0
  let (rg, net) ← net.append p rg norm
  pure (rg, { net with initialized := true })

/-- `impurity.py` 74-79: `resLabels` and `resA` after one more part. -/
def addPart (st : Store) (acc : Option (List String × NDArray K)) (res : Tensor K) (partWeight : K) :
    Except PyErr (List String × NDArray K) :=
  match acc with
  | none =>
    match res.a with
    | none => .error .typeError
    | some arr => .ok (res.labels st, arr.mulBy partWeight)
  | some (labels, sum) =>
    match res.reArrange st labels with
    | (_, .error e) => .error e
    | (res, .ok ()) =>
      match res.a with
      | none => .error .typeError
      | some arr => (sum.addTo (arr.mulBy partWeight)).map fun sum => (labels, sum)

/-- `impurity.py` 59-79, the body of the loop over the parts: the `RG`, `totalWeight`, and `resLabels` with `resA`. -/
def part (imps : List (Option (DofTensor K))) (idx : Nat) (weight : K) (x : HOTRGState K × K × Option (List String × NDArray K))
    (parts : List Nat) : Except PyErr (HOTRGState K × K × Option (List String × NDArray K)) :=
  match parts.mapM fun j => (imps[j]?).join with
  | none => .ok x
  | some tensors => do
    let partWeight := (calculateDivisionTimes parts : K) * weight
    let (rg, res) ← x.1.impurityIterate p fuel (tensors.map Prod.fst) idx
    let acc ← addPart rg.st x.2.2 res partWeight
    pure (rg, x.2.1 + partWeight, some acc)

/-- `impurity.py` 55-83: the new impurity of order `i`. -/
def orderOf (imps : List (Option (DofTensor K))) (idx newDOF : Nat) (rg : HOTRGState K) (i : Nat) :
    Except PyErr (HOTRGState K × DofTensor K) := do
  let (rg, totalWeight, acc) ← ((divideIntoKParts i 2).getD []).foldlM (part p fuel imps idx ((1 / 2) ^ i)) (rg, 0, none)
  match acc with
  | none => throw .typeError
  | some (labels, sum) =>
    let (st, t) ← construct p.rand rg.st { data := some (sum.divBy totalWeight), labels := some labels }
    pure ({ rg with st := st }, (t, some newDOF))

/-- `impurity.py` 54-83, the loop over the orders. -/
def orders (imps : List (Option (DofTensor K))) (idx newDOF : Nat) :
    HOTRGState K → List Nat → Except PyErr (HOTRGState K × List (DofTensor K))
  | rg, [] => .ok (rg, [])
  | rg, i :: is => do
    let (rg, t) ← orderOf p fuel imps idx newDOF rg i
    let (rg, ts) ← orders imps idx newDOF rg is
    pure (rg, t :: ts)

/-- `impurity.py` 47-48. -/
def ensure (net : ImpurityNet K) (rg : HOTRGState K) : Except PyErr (HOTRGState K × ImpurityNet K) :=
  if net.initialized then .ok (rg, net) else net.init p rg

/-- `impurity.py` 53: a tensor without `degreeOfFreedom` has `None`, which cannot be multiplied. -/
def newDOF (net : ImpurityNet K) : Except PyErr Nat := do
  let first ← pyGet net.impurities 0
  match first with
  | none => throw .attributeError
  | some (_, none) => throw .typeError
  | some (_, some dof) => pure (2 * dof)

/-- `impurity.py` 46-87 `iterate`. -/
def iterate (net : ImpurityNet K) (rg : HOTRGState K) : Except PyErr (HOTRGState K × ImpurityNet K) := do
  let (rg, net) ← net.ensure p rg
  let norm ← rg.getNorm (net.iterateIdx + 1)
  let dof ← net.newDOF
  let (rg, ts) ← orders p fuel net.impurities net.iterateIdx dof rg (List.range net.highestOrder)
  { net with iterateIdx := net.iterateIdx + 1, impurities := ts.map some }.append p rg norm

/-- `impurity.py` 93-94: the observables of one step. -/
def measure (rg : HOTRGState K) (i : Nat) : List (DofTensor K) → Except PyErr (List K)
  | [] => .ok []
  | t :: ts => do
    let x ← rg.tensorTrace t.1
    let z ← rg.pureTensorTrace i
    let xs ← measure rg i ts
    pure (x / z :: xs)

/-- `impurity.py` 89-96 `measureObservables`, from step `i` on. -/
def measureFrom (rg : HOTRGState K) : Nat → List (List (DofTensor K)) → Except PyErr (List (List K))
  | _, [] => .ok []
  | i, ts :: rest => do
    let xs ← measure rg i ts
    let xss ← measureFrom rg (i + 1) rest
    pure (xs :: xss)

/-- `impurity.py` 89-96 `measureObservables`. -/
def measureObservables (net : ImpurityNet K) (rg : HOTRGState K) : Except PyErr (List (List K)) := measureFrom rg 0 net.archive

end ImpurityNet
end

end CTL
