import Verif.Model.HOTRG

/-!
Model of `SquareTRG` in `src/CTL/examples/TRG.py` on tensors.

Simplifications: numbers are those of an ordered field, so division by a norm that is 0 gives 0 where NumPy gives `nan`;
`numpy.linalg.norm`, `numpy.linalg.svd`, `numpy.sqrt` and `numpy.log` are parameters.
-/

namespace CTL
variable {K : Type}

/-- The attributes of a `SquareTRG` object, the store its tensors live in included.  After the constructor `b` is the object
`a` (`TRG.py` 131 and 184), so there is no field for it; an archived tensor carries its `degreeOfFreedom`. -/
structure SquareTRGState (K : Type) where
  st : Store
  a : Tensor K
  dof : Nat
  chi : Nat
  iterateFTN : Option Net
  aNorms : List K
  aArchive : List (Tensor K × Nat)
  errors : List (K × K)

/-- The tensors made of the two factors of one decomposition. -/
structure Pieces (K : Type) where
  dr : Tensor K
  ul : Tensor K
  dl : Tensor K
  ur : Tensor K

section
variable [Field K] [LinearOrder K] [Star K] (p : RGParams K) (la : LinAlg K) (fuel : Nat)

namespace SquareTRGState

/-- `TRG.py` 143-146 `normalizeTensors`, with `norm` of `tensor.py` 965-975.  The division is in place; `b` is the same
object, and no other tensor has this array, since constructor and contraction make new ones. -/
def normalize (s : SquareTRGState K) : Except PyErr (SquareTRGState K) := do
  if s.a.like then throw .assertionError
  match s.a.a with
  | none => throw .attributeError
  | some arr =>
    let aNorm := p.norm arr
    pure { s with a := { s.a with a := some (arr.divBy aNorm) }, aNorms := s.aNorms ++ [aNorm] }

/-- `TRG.py` 139-141 `appendToArchive`. -/
def append (s : SquareTRGState K) : Except PyErr (SquareTRGState K) := do
  let s ← s.normalize p
  let (st, c) ← s.a.copy p.rand s.st
  pure { s with st := st, aArchive := s.aArchive ++ [(c, s.dof)] }

/-- `TRG.py` 175-178. -/
def pieces (st : Store) (vDim hDim : Nat) (uA vA uB vB : NDArray K) : Except PyErr (Store × Pieces K) := do
  let (st, dr) ← construct p.rand st
    { shape := some (.tuple [vDim, hDim, uA.shape.getD 1 0]), labels := some ["u", "l", "o"], data := some uA }
  let (st, ul) ← construct p.rand st
    { shape := some (.tuple [vDim, hDim, vA.shape.getD 1 0]), labels := some ["d", "r", "o"], data := some vA }
  let (st, dl) ← construct p.rand st
    { shape := some (.tuple [vDim, hDim, uB.shape.getD 1 0]), labels := some ["u", "r", "o"], data := some uB }
  let (st, ur) ← construct p.rand st
    { shape := some (.tuple [vDim, hDim, vB.shape.getD 1 0]), labels := some ["d", "l", "o"], data := some vB }
  pure (st, ⟨dr, ul, dl, ur⟩)

/-- `TRG.py` 156-157: the network is made when it is first needed. -/
def network : Option Net → Except PyErr Net
  | some n => .ok n
  | none => squareContractOutFTN 1

/-- `TRG.py` 152-182 of `iterate`: the network, the new tensor and the two errors.  Simplification: a tensor without a leg `u`
or `l` is reported as a `ValueError`. -/
def split (net : Option Net) (chi : Nat) (st : Store) (a b : Tensor K) : Except PyErr (Net × Store × Tensor K × K × K) := do
  let net ← network net
  match a.shapeOfLabel st "u", a.shapeOfLabel st "l" with
  | some vDim, some hDim =>
    let aMat ← a.toMatrix (some (a.legsOfLabels st ["u", "l"])) (some (a.legsOfLabels st ["d", "r"]))
    let bMat ← b.toMatrix (some (b.legsOfLabels st ["u", "r"])) (some (b.legsOfLabels st ["d", "l"]))
    let (uA, vA, errorA) ← svdDecomposition la aMat chi 2
    let (uB, vB, errorB) ← svdDecomposition la bMat chi 2
    let (st, x) ← pieces p st vDim hDim uA vA uB vB
    let (net, st, t) ← contractNet p fuel net st [("ul", x.ul), ("ur", x.ur), ("dl", x.dl), ("dr", x.dr)]
    pure (net, st, t, errorA, errorB)
  | _, _ => throw .valueError

/-- `TRG.py` 152-186 `iterate`. -/
def iterate (s : SquareTRGState K) : Except PyErr (SquareTRGState K) := do
  let (net, st, t, errorA, errorB) ← split p la fuel s.iterateFTN s.chi s.st s.a s.a
  let s ← append p { s with st := st, a := t, dof := s.dof * 2, iterateFTN := some net }
  pure { s with errors := s.errors ++ [(errorA, errorB)] }

/-- `TRG.py` 111-137 `__init__`.  The arguments are tensors or arrays; `dof` is the `degreeOfFreedom` of the first one.  With
a second argument `iterate` is called before there is a list of norms. -/
def new (st : Store) (a : Tensor K ⊕ NDArray K) (b : Option (Tensor K ⊕ NDArray K)) (dof : Option Nat) (chi : Nat := 16) :
    Except PyErr (SquareTRGState K) := do
  let (st, a) ← HOTRGState.initial p st a
  match b with
  | none => append p ⟨st, a, dof.getD 1, chi, none, [], [], []⟩
  | some b =>
    let (st, b) ← HOTRGState.initial p st b
    let (_, _, t, _, _) ← split p la fuel none chi st a b
    if t.like then throw .assertionError
    throw .attributeError

/-- A number of calls of `iterate`. -/
def iterateN : Nat → SquareTRGState K → Except PyErr (SquareTRGState K)
  | 0, s => .ok s
  | n + 1, s => do
    let s ← iterateN n s
    s.iterate p la fuel

/-- `TRG.py` 193-202: the loop of `logZDensity` over `aNorms[i]` and `aArchive[i]`. -/
def logLoop (log : K → K) (st : Store) (accumulate : K) : List (K × (Tensor K × Nat)) → Except PyErr (List K)
  | [] => .ok []
  | (n, (t, dof)) :: rest => do
    let acc := accumulate + log n / (dof : K)
    let trace ← t.trace (some (t.legsOfLabels st ["u", "l"])) (some (t.legsOfLabels st ["d", "r"]))
    let res ← logLoop log st acc rest
    pure ((acc + log trace / (dof : K)) :: res)

/-- `TRG.py` 188-205 `logZDensity`. -/
def logZDensity (log : K → K) (s : SquareTRGState K) : Except PyErr (List K) := logLoop log s.st 0 (s.aNorms.zip s.aArchive)

end SquareTRGState
end

end CTL
