import Verif.Model.TRG
import Verif.Model.CTMRG

/-!
Model of `tensorSVDDecomposition` in `src/CTL/tensor/tensorFunc.py` and of `src/CTL/examples/CTMRG.py` on tensors.

Simplifications: numbers are those of an ordered field, so division by a norm that is 0 gives 0 where NumPy gives `nan`;
`numpy.linalg.norm`, `numpy.linalg.svd`, `numpy.log` and `numpy.exp` are parameters.
-/

namespace CTL
variable {K : Type}

/-- The dictionary returned by `tensorSVDDecomposition`. -/
structure SVDTensors (K : Type) where
  u : Tensor K
  s : Tensor K
  v : Tensor K
  error : K

/-- The networks of a `CTMRG` object. -/
structure CTMRGNets where
  hEdgeExtend : Net
  vEdgeExtend : Net
  cornerExtend : Net
  vBuild : Net
  hBuild : Net
  evenZ : Net
  oddZ : Net

/-- The attributes of a `CTMRG` object, the store its tensors live in included. -/
structure CTMRGState (K : Type) where
  st : Store
  a : Tensor K
  chi : Nat
  tensors : Trio (Tensor K)
  logScale : Trio K
  records : Trio (List (Tensor K × K))
  errors : List K
  nets : CTMRGNets

section
variable [Field K] [LinearOrder K] [Star K] (p : RGParams K) (la : LinAlg K) (fuel : Nat)

/-- `tensorFunc.py` 48-113 `tensorSVDDecomposition`.  `preserveLegs` is set to `False` by the function itself; `rows` and `cols`
are lists, since `'|'.join(None)` fails; the type of `innerLabels` makes the assertion hold. -/
def tensorSVDDecomposition (st : Store) (a : Tensor K) (rows cols : List String) (innerLabels : Option (String × String))
    (chi errorOrder : Nat) : Except PyErr (Store × SVDTensors K) := do
  let aMat ← a.toMatrix (some (a.legsOfLabels st rows)) (some (a.legsOfLabels st cols))
  let rowName := "|".intercalate rows
  let colName := "|".intercalate cols
  let inner := innerLabels.getD ("inner:" ++ rowName, "inner:" ++ colName)
  let o := svdTruncated la aMat chi errorOrder
  let (st, u) ← construct p.rand st { data := some o.u, labels := some [rowName, inner.1] }
  let (st, s) ← constructDiag st { data := some (NDArray.vector o.s), labels := some [rowName, colName] }
  let (st, v) ← construct p.rand st { data := some o.vh, labels := some [inner.2, colName] }
  pure (st, ⟨u, s, v, o.error⟩)

/-- `copyN(2)` with the list taken apart. -/
def copyTwo (st : Store) (t : Tensor K) : Except PyErr (Store × Tensor K × Tensor K) := do
  let (st, x) ← t.copy p.rand st
  let (st, y) ← t.copy p.rand st
  pure (st, x, y)

/-- A method that changes a tensor in place. -/
def changed (r : Tensor K × Except PyErr Unit) : Except PyErr (Tensor K) :=
  match r with
  | (t, .ok ()) => .ok t
  | (_, .error e) => .error e

/-- `norm` of `tensor.py` 965-975 or `diagonalTensor.py` 650-660, and the division in place.  No other tensor has the array: the
corner comes from `tensorSVDDecomposition`, the edges from a contraction, and both make new ones. -/
def divideByNorm (t : Tensor K) : Except PyErr (Tensor K × K) := do
  if t.like then throw .assertionError
  match t.a with
  | none => throw .attributeError
  | some arr => pure ({ t with a := some (arr.divBy (p.norm arr)) }, p.norm arr)

namespace CTMRGState

/-- `CTMRG.py` 39-47 `setFTNs`. -/
def networks : Except PyErr CTMRGNets := do
  let hEdgeExtend ← CTMRGHEdgeExtendFTN 1
  let vEdgeExtend ← CTMRGVEdgeExtendFTN 2
  let cornerExtend ← CTMRGCornerExtendFTN 3
  let vBuild ← CTMRGVEdgeBuildFTN 4
  let hBuild ← CTMRGHEdgeBuildFTN 5
  let evenZ ← CTMRGEvenZFTN 6
  let oddZ ← CTMRGOddFTN 7
  pure ⟨hEdgeExtend, vEdgeExtend, cornerExtend, vBuild, hBuild, evenZ, oddZ⟩

/-- `CTMRG.py` 59-88 `reduceDimension`: the networks, the store, the new tensors and the error.  Line 85, which rearranges the
legs of the copy `h` that is not used again, is left out. -/
def reduceDimension (nets : CTMRGNets) (chi : Nat) (st : Store) (t : Trio (Tensor K)) :
    Except PyErr (CTMRGNets × Store × Trio (Tensor K) × K) := do
  let (st, d) ← tensorSVDDecomposition p la st t.corner ["u"] ["r"] (some ("d", "l")) chi 4
  let (st, vTensorUp, vTensorDown) ← copyTwo p st d.u
  let (st, hTensorLeft, hTensorRight) ← copyTwo p st d.v
  let (vBuild, st, newVEdge) ← contractNet p fuel nets.vBuild st [("au", vTensorUp), ("ad", vTensorDown), ("p", t.vEdge)]
  let (hBuild, st, newHEdge) ← contractNet p fuel nets.hBuild st [("al", hTensorLeft), ("ar", hTensorRight), ("p", t.hEdge)]
  let (st, _) ← newHEdge.copy p.rand st
  pure ({ nets with vBuild := vBuild, hBuild := hBuild }, st, ⟨d.s, newHEdge, newVEdge⟩, d.error)

/-- `CTMRG.py` 16-19: three copies of the site, summed over the legs at the boundary. -/
def summedOut (st : Store) (a : Tensor K) : Except PyErr (Store × Trio (Tensor K)) := do
  let (st, c) ← a.copy p.rand st
  let (st, h) ← a.copy p.rand st
  let (st, v) ← a.copy p.rand st
  let corner ← changed (c.sumOutLegByLabelList st ["d", "l"] false none)
  let hEdge ← changed (h.sumOutLegByLabel1 st "d" false none)
  let vEdge ← changed (v.sumOutLegByLabel1 st "l" false none)
  pure (st, ⟨corner, hEdge, vEdge⟩)

/-- `CTMRG.py` 14-33 and 49-57 `__init__`, `setRecords`, `setInitialTensors`. -/
def new (st : Store) (a : Tensor K) (chi : Nat := 16) : Except PyErr (CTMRGState K) := do
  let labels := a.labels st
  let (st, a) ← a.copy p.rand st
  pyAssert (compareLists labels ["l", "r", "u", "d"])
  let nets ← networks
  let (st, t) ← summedOut p st a
  let (nets, st, t, error) ← reduceDimension p la fuel nets chi st t
  pure { st := st, a := a, chi := chi, tensors := t, logScale := ⟨0, 0, 0⟩, records := ⟨[], [], []⟩, errors := [error], nets := nets }

/-- `copy` of the three tensors, in the order of the dictionary. -/
def copyAll (st : Store) (t : Trio (Tensor K)) : Except PyErr (Store × Trio (Tensor K)) := do
  let (st, corner) ← t.corner.copy p.rand st
  let (st, hEdge) ← t.hEdge.copy p.rand st
  let (st, vEdge) ← t.vEdge.copy p.rand st
  pure (st, ⟨corner, hEdge, vEdge⟩)

/-- `CTMRG.py` 35-37 `pushTensors`. -/
def push (s : CTMRGState K) : Except PyErr (CTMRGState K) := do
  let (st, c) ← copyAll p s.st s.tensors
  pure { s with st := st, records :=
    ⟨s.records.corner ++ [(c.corner, s.logScale.corner)], s.records.hEdge ++ [(c.hEdge, s.logScale.hEdge)],
      s.records.vEdge ++ [(c.vEdge, s.logScale.vEdge)]⟩ }

/-- `CTMRG.py` 93-99: the extended tensors. -/
def extend (nets : CTMRGNets) (st : Store) (a : Tensor K) (t : Trio (Tensor K)) :
    Except PyErr (CTMRGNets × Store × Trio (Tensor K)) := do
  let (st, c) ← copyAll p st t
  let (hEdgeExtend, st, newHEdge) ← contractNet p fuel nets.hEdgeExtend st [("p", c.hEdge), ("w", a)]
  let (vEdgeExtend, st, newVEdge) ← contractNet p fuel nets.vEdgeExtend st [("p", c.vEdge), ("w", a)]
  let (cornerExtend, st, newCorner) ← contractNet p fuel nets.cornerExtend st
    [("ph", c.hEdge), ("pv", c.vEdge), ("w", a), ("c", c.corner)]
  pure ({ nets with hEdgeExtend := hEdgeExtend, vEdgeExtend := vEdgeExtend, cornerExtend := cornerExtend }, st,
    ⟨newCorner, newHEdge, newVEdge⟩)

/-- `CTMRG.py` 90-121 `iterate`. -/
def iterate (log : K → K) (s : CTMRGState K) : Except PyErr (CTMRGState K) := do
  let s ← s.push p
  let (nets, st, t) ← extend p fuel s.nets s.st s.a s.tensors
  let (nets, st, t, error) ← reduceDimension p la fuel nets s.chi st t
  let (corner, cornerNorm) ← divideByNorm p t.corner
  let (hEdge, hEdgeNorm) ← divideByNorm p t.hEdge
  let (vEdge, vEdgeNorm) ← divideByNorm p t.vEdge
  pure { s with
    st := st, nets := nets, tensors := ⟨corner, hEdge, vEdge⟩
    logScale := ⟨log cornerNorm + s.logScale.corner + s.logScale.hEdge + s.logScale.vEdge, log hEdgeNorm + s.logScale.hEdge,
      log vEdgeNorm + s.logScale.vEdge⟩
    errors := s.errors ++ [error] }

/-- `CTMRG.py` 156-157: the `while` loop.  A loop that has not ended after `rounds` rounds is reported as a `RuntimeError`. -/
def grow (log : K → K) (n : Int) : Nat → CTMRGState K → Except PyErr (CTMRGState K)
  | 0, s => if (s.records.corner.length : Int) < n then .error .runtimeError else .ok s
  | rounds + 1, s =>
    if (s.records.corner.length : Int) < n then do
      let s ← s.iterate p la fuel log
      grow log n rounds s
    else .ok s

/-- `CTMRG.py` 142-145 `getTensorAndScale`, without the copy. -/
def recordAt (x : List (Tensor K × K)) (now : Tensor K × K) (current : Bool) (idx : Int) : Except PyErr (Tensor K × K) :=
  if current then .ok now else pyGet x idx

/-- `CTMRG.py` 158-171: copies of the tensors of step `idx`, the edges only when `L` is odd. -/
def fetch (s : CTMRGState K) (idx : Int) (odd : Bool) : Except PyErr (Store × (Tensor K × K) × Option ((Tensor K × K) × (Tensor K × K))) := do
  let current := (s.records.corner.length : Int) = idx
  let c ← recordAt s.records.corner (s.tensors.corner, s.logScale.corner) current idx
  let (st, corner) ← c.1.copy p.rand s.st
  if odd then
    let h ← recordAt s.records.hEdge (s.tensors.hEdge, s.logScale.hEdge) current idx
    let (st, hEdge) ← h.1.copy p.rand st
    let v ← recordAt s.records.vEdge (s.tensors.vEdge, s.logScale.vEdge) current idx
    let (st, vEdge) ← v.1.copy p.rand st
    pure (st, (corner, c.2), some ((hEdge, h.2), (vEdge, v.2)))
  else pure (st, (corner, c.2), none)

/-- `CTMRG.py` 173-186: the object afterwards and the value. -/
def value (exp : K → K) (s : CTMRGState K) (st : Store) (c : Tensor K × K) :
    Option ((Tensor K × K) × (Tensor K × K)) → Except PyErr (CTMRGState K × K)
  | none => do
    let (net, st, res) ← contractNet p fuel s.nets.evenZ st [("alu", c.1), ("ald", c.1), ("aru", c.1), ("ard", c.1)]
    let x ← res.single st
    pure ({ s with st := st, nets := { s.nets with evenZ := net } }, x * exp (4 * c.2))
  | some (h, v) => do
    let (net, st, res) ← contractNet p fuel s.nets.oddZ st
      [("alu", c.1), ("ald", c.1), ("aru", c.1), ("ard", c.1), ("pl", v.1), ("pr", v.1), ("pd", h.1), ("pu", h.1), ("w", s.a)]
    let x ← res.single st
    pure ({ s with st := st, nets := { s.nets with oddZ := net } }, x * exp (4 * c.2 + 2 * h.2 + 2 * v.2))

/-- `CTMRG.py` 150-153: the value for one site. -/
def single (s : CTMRGState K) : Except PyErr (CTMRGState K × K) := do
  let (st, a) ← s.a.copy p.rand s.st
  let a ← changed (a.sumOutLegByLabelList st ["l", "r", "u", "d"] false none)
  let x ← a.single st
  pure ({ s with st := st }, x)

/-- `CTMRG.py` 147-186 `getZ`: the object afterwards and the value. -/
def getZ (log exp : K → K) (s : CTMRGState K) (L : Int) : Except PyErr (CTMRGState K × K) :=
  if L = 1 then s.single p
  else do
    let minimumOrder := L / 2
    let s ← s.grow p la fuel log (minimumOrder - 1) fuel
    let (st, c, edges) ← s.fetch p (minimumOrder - 1) (L % 2 = 1)
    value p fuel exp s st c edges

/-- A number of calls of `getZ`, one after the other. -/
def queries (log exp : K → K) : List Int → CTMRGState K → Except PyErr (CTMRGState K)
  | [], s => .ok s
  | L :: Ls, s => do
    let (s, _) ← s.getZ p la fuel log exp L
    queries log exp Ls s

end CTMRGState
end

end CTL
