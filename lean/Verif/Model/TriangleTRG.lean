import Verif.Model.TRG

/-!
Model of `TriangleTRG` in `src/CTL/examples/TRG.py` on tensors.

Simplifications: numbers are those of an ordered field, so division by a norm that is 0 gives 0 where NumPy gives `nan`;
`numpy.linalg.norm`, `numpy.linalg.svd`, `numpy.sqrt` and `numpy.log` are parameters.
-/

namespace CTL
variable {K : Type}

/-- The attributes of a `TriangleTRG` object, the store its tensors live in included.  `dof` is the `degreeOfFreedom` of `a` and
of `b`, which are always set together (`TRG.py` 32-33 and 86-87); an archived tensor carries its own. -/
structure TriangleTRGState (K : Type) where
  st : Store
  a : Tensor K
  b : Tensor K
  dof : Nat
  chi : Nat
  iterateFTN : Option Net
  aNorms : List K
  bNorms : List K
  aArchive : List (Tensor K × Nat)
  bArchive : List (Tensor K × Nat)
  errors : List K

section
variable [Field K] [LinearOrder K] [Star K] (p : RGParams K) (la : LinAlg K) (fuel : Nat)

namespace TriangleTRGState

/-- `norm` of `tensor.py` 965-975 and the division in place of `TRG.py` 50-53.  No other tensor has the array: constructor and
contraction make new ones. -/
def normalized (t : Tensor K) : Except PyErr (Tensor K × K) := do
  if t.like then throw .assertionError
  match t.a with
  | none => throw .attributeError
  | some arr => pure ({ t with a := some (arr.divBy (p.norm arr)) }, p.norm arr)

/-- `TRG.py` 49-55 `normalizeTensors`. -/
def normalize (s : TriangleTRGState K) : Except PyErr (TriangleTRGState K) := do
  let (a, aNorm) ← normalized p s.a
  let (b, bNorm) ← normalized p s.b
  pure { s with a := a, b := b, aNorms := s.aNorms ++ [aNorm], bNorms := s.bNorms ++ [bNorm] }

/-- `TRG.py` 44-47 `appendToArchive`. -/
def append (s : TriangleTRGState K) : Except PyErr (TriangleTRGState K) := do
  let s ← s.normalize p
  let (st, c) ← s.a.copy p.rand s.st
  let (st, d) ← s.b.copy p.rand st
  pure { s with st := st, aArchive := s.aArchive ++ [(c, s.dof)], bArchive := s.bArchive ++ [(d, s.dof)] }

/-- `TRG.py` 26-28: the array of a site of the lattice. -/
def siteArray (alpha : K) : NDArray K := ⟨[2, 2, 2], [1, alpha, alpha, 0, alpha, 0, 0, 0]⟩

/-- `TRG.py` 18-42 `__init__`, `prepareInitialTensor`. -/
def new (st : Store) (alpha : K) (chi : Nat := 16) : Except PyErr (TriangleTRGState K) := do
  let (st, a) ← makeTriangleTensor p.rand st (siteArray alpha)
  let (st, b) ← makeTriangleTensor p.rand st (siteArray alpha)
  append p ⟨st, a, b, 1, chi, none, [], [], [], [], []⟩

/-- `TRG.py` 59-60: the network is made when it is first needed. -/
def network : Option Net → Except PyErr Net
  | some n => .ok n
  | none => triangleContractFTN 1

/-- `TRG.py` 66: the legs `a-1` and `b-1` are joined.  Simplification: a leg that is missing is reported as a `ValueError`. -/
def join (st : Store) (a b : Tensor K) : Except PyErr Store :=
  match a.getLeg st "a-1", b.getLeg st "b-1" with
  | some x, some y => linkOr (makeLinkLegs st [x] [y])
  | _, _ => .error .valueError

/-- `TRG.py` 62-67: the tensor of the two sites.  The labels of `a` and `b` change in place. -/
def pair (st : Store) (a b : Tensor K) : Except PyErr (Store × Tensor K) := do
  let st ← raiseIf (a.addTensorTag st "a")
  let st ← raiseIf (b.addTensorTag st "b")
  let st ← join st a b
  let o ← contractTwoTensors p.cast st a b none
  pure (o.store, o.result)

/-- `TRG.py` 69-81: the tensors of the two factors of the decomposition, and the error.  Simplification: a tensor without one of
the four legs is reported as a `ValueError`. -/
def factor (chi : Nat) (st : Store) (t : Tensor K) : Except PyErr (Store × Tensor K × Tensor K × K) := do
  match t.shapeOfLabel st "a-2", t.shapeOfLabel st "b-2", t.shapeOfLabel st "a-3", t.shapeOfLabel st "b-3" with
  | some a2, some b2, some a3, some b3 =>
    let m ← t.toMatrix (some (t.legsOfLabels st ["a-2", "b-2"])) (some (t.legsOfLabels st ["a-3", "b-3"]))
    let (u, v, error) ← svdDecomposition la m chi 2
    let u ← u.reshape [a2, b2, u.shape.getD 1 0]
    let v ← v.reshape [a3, b3, v.shape.getD 1 0]
    let (st, uT) ← makeTriangleTensor p.rand st u ["2", "3", "1"]
    let (st, vT) ← makeTriangleTensor p.rand st v ["2", "3", "1"]
    pure (st, uT, vT, error)
  | _, _, _, _ => throw .valueError

/-- `TRG.py` 57-90 `iterate`. -/
def iterate (s : TriangleTRGState K) : Except PyErr (TriangleTRGState K) := do
  let net ← network s.iterateFTN
  let (st, t) ← pair p s.st s.a s.b
  let (st, uT, vT, error) ← factor p la s.chi st t
  let (net, st, a) ← contractNet p fuel net st (makeTriangleTensorDict uT)
  let (net, st, b) ← contractNet p fuel net st (makeTriangleTensorDict vT)
  append p { s with st := st, a := a, b := b, dof := s.dof * 3, iterateFTN := some net, errors := s.errors ++ [error] }

/-- A number of calls of `iterate`. -/
def iterateN : Nat → TriangleTRGState K → Except PyErr (TriangleTRGState K)
  | 0, s => .ok s
  | n + 1, s => do
    let s ← iterateN n s
    s.iterate p la fuel

/-- One step of `logZDensity`: the norms and the archived tensors with their degrees of freedom. -/
structure Step (K : Type) where
  aNorm : K
  bNorm : K
  a : Tensor K × Nat
  b : Tensor K × Nat

/-- `TRG.py` 99-105: the loop of `logZDensity`.  The store changes, since the trace is taken of copies. -/
def logLoop (log : K → K) : Store → K → List (Step K) → Except PyErr (List K)
  | _, _, [] => .ok []
  | st, accumulate, x :: rest => do
    let dof := x.a.2 * x.b.2
    let acc := accumulate + log (x.aNorm * x.bNorm) / (dof : K)
    let (st, t) ← triangleTensorTrace p.rand p.cast st x.a.1 x.b.1
    let trace ← t.single st
    let res ← logLoop log st acc rest
    pure ((acc + log trace / (dof : K)) :: res)

/-- The entries of the four lists for each step; they have the same length, since `append` adds to all of them. -/
def steps (s : TriangleTRGState K) : List (Step K) :=
  ((s.aNorms.zip s.bNorms).zip (s.aArchive.zip s.bArchive)).map fun x => ⟨x.1.1, x.1.2, x.2.1, x.2.2⟩

/-- `TRG.py` 92-107 `logZDensity`. -/
def logZDensity (log : K → K) (s : TriangleTRGState K) : Except PyErr (List K) := logLoop p log s.st 0 s.steps

end TriangleTRGState
end

end CTL
