import Verif.Model.Construct
import Verif.Model.Link
import Verif.Model.Graph
import Verif.Model.Funcs

/-!
Model of the graph part of `src/CTL/models/Ising.py` (163-310): the edge matrix, the site tensor, the tensor network of
the Ising model on a graph, and the enumeration of all spin configurations.
-/

namespace CTL

/-- The functions of `xplib.xp` that `Ising.py` calls, and the literal `0.5`; numbers are of any type `R`. -/
structure MathFns (R : Type) where
  sqrt : R → R
  cosh : R → R
  sinh : R → R
  exp : R → R
  half : R

variable {R : Type}

/-- `numpy.tensordot(a, b, (0, 0))`: contract the first axes; the other axes of `a` come first.  IndexError for a 0-d
array, ValueError when the sizes differ.  Part of the trusted NumPy semantics, like `Model/NDArray.lean`. -/
def NDArray.tensordot00 [NonUnitalNonAssocSemiring R] (a b : NDArray R) : Except PyErr (NDArray R) :=
  match a.shape, b.shape with
  | d :: sa, d' :: sb =>
    if d = d' then
      .ok (NDArray.build (sa ++ sb) fun idx =>
        ((List.range d).map fun k => a.get (k :: idx.take sa.length) * b.get (k :: idx.drop sa.length)).sum)
    else .error .valueError
  | _, _ => .error .indexError

/-- `Ising.py` 163-179 `IsingEdgeMatrix`.  Simplification: NumPy gives NaN for the square root of a negative number,
whatever `F.sqrt` gives is used here. -/
def isingEdgeMatrix [Ring R] (F : MathFns R) (betaJ : R) : NDArray R :=
  let diag := F.sqrt (F.cosh betaJ * F.half) + F.sqrt (F.sinh betaJ * F.half)
  let offDiag := F.sqrt (F.cosh betaJ * F.half) - F.sqrt (F.sinh betaJ * F.half)
  ⟨[2, 2], [diag, offDiag, offDiag, diag]⟩

/-- `Ising.py` 206-210, the loop of `IsingSiteTensor`: absorb one edge matrix after the other. -/
def absorbEdges [Ring R] (F : MathFns R) : NDArray R → List R → Except PyErr (NDArray R)
  | a, [] => .ok a
  | a, w :: ws => (a.tensordot00 (isingEdgeMatrix F w)).bind fun a' => absorbEdges F a' ws

/-- The argument `betaJ` of `IsingSiteTensor`: a number or a list of numbers. -/
inductive BetaJ (R : Type) where
  | num (x : R)
  | list (xs : List R)

/-- `Ising.py` 199 and 204-205: the list of couplings, one for each leg. -/
def BetaJ.toList : BetaJ R → Nat → Except PyErr (List R)
  | .num x, dim => .ok (List.replicate dim x)
  | .list xs, dim => if xs.length = dim then .ok xs else .error .assertionError

/-- `Ising.py` 181-211 `IsingSiteTensor`. -/
def isingSiteTensor [Ring R] (F : MathFns R) (st : Store) (betaJ : BetaJ R) (dim : Nat) (labels : Option (List String)) :
    Except PyErr (Store × Tensor R) := do
  let ws ← betaJ.toList dim
  pyAssert (labels.all fun ls => ls.length == dim)
  let a0 ← Tensor.diagonalNDTensor id ⟨[2], [1, 1]⟩ dim
  let a ← absorbEdges F a0 ws
  construct (fun _ _ => 0) st { data := some a, labels := labels }

/-- `graph.py` 30-46 `GraphEdge.anotherSide`, followed by the attribute `index` (`Ising.py` 235); the other side of a
free edge is `None`, which has no index. -/
def GEdge.anotherIndex {W : Type} (o : GEdge W) (v : Nat) : Except PyErr Nat :=
  if v = o.src then
    match o.dst with
    | some j => .ok j
    | none => .error .attributeError
  else if some v = o.dst then .ok o.src
  else .error .valueError

/-- `Ising.py` 230-232, 235: `edgeIndex[edge]`, the position in `getEdges()` (which has no duplicates). -/
def edgePos (es : List Nat) (e : Nat) : Except PyErr Nat :=
  if e ∈ es then .ok (es.idxOf e) else .error .keyError

/-- `Ising.py` 234-235 `getLegName`. -/
def isingLegName (toV pos : Nat) : String := toString toV ++ "-" ++ toString pos

/-- Look up an edge object. -/
def Graph.edgeObj {W : Type} (g : Graph W) (e : Nat) : Except PyErr (GEdge W) :=
  match g.objs[e]? with
  | some o => .ok o
  | none => .error .keyError

/-- `Ising.py` 236-237 `getLabels`. -/
def isingLabels {W : Type} (g : Graph W) (es : List Nat) (v : Nat) : Except PyErr (List String) :=
  (g.v.getD v []).mapM fun e => do
    let o ← g.edgeObj e
    let toV ← o.anotherIndex v
    let p ← edgePos es e
    pure (isingLegName toV p)

/-- `Ising.py` 238-239 `getWeights`. -/
def isingWeights {W : Type} (g : Graph W) (v : Nat) : Except PyErr (List W) :=
  (g.v.getD v []).mapM fun e => (g.edgeObj e).map (·.weight)

/-- `Ising.py` 241: one site tensor for every vertex. -/
def isingSites [Ring R] (F : MathFns R) (g : Graph R) (es : List Nat) :
    Store → List Nat → Except PyErr (Store × List (Tensor R))
  | st, [] => .ok (st, [])
  | st, v :: vs => do
    let ws ← isingWeights g v
    let labels ← isingLabels g es v
    let (st1, t) ← isingSiteTensor F st (.list ws) (g.v.getD v []).length (some labels)
    let (st2, ts) ← isingSites F g es st1 vs
    pure (st2, t :: ts)

/-- `Ising.py` 243-248: the links, one for every edge. -/
def isingLinks (g : Graph R) (es : List Nat) (ts : List (Tensor R)) : Store → List Nat → Except PyErr Store
  | st, [] => .ok st
  | st, e :: rest => do
    let o ← g.edgeObj e
    match o.dst with
    | none => .error .attributeError
    | some j =>
      let p ← edgePos es e
      match makeLink st [.label (isingLegName j p)] [.label (isingLegName o.src p)] ts[o.src]? ts[j]? with
      | (st1, .ok _) => isingLinks g es ts st1 rest
      | (_, .error err) => .error err

/-- `Ising.py` 213-250 `IsingTNFromUndirectedGraph`: the graph (with its cache of edges), the store and the tensors. -/
def isingNetwork [Ring R] (F : MathFns R) (st : Store) (g : Graph R) :
    Except PyErr (Graph R × Store × List (Tensor R)) := do
  let (g1, es) := g.getEdges
  let (st1, ts) ← isingSites F g1 es st (List.range g1.v.length)
  let (g2, es') := g1.getEdges
  let st2 ← isingLinks g2 es ts st1 es'
  pure (g2, st2, ts)

/-- `Ising.py` 273-281, the loop over the edges. -/
def isingEnergy [Ring R] (g : Graph R) (spin : List Int) : R → List Nat → Except PyErr R
  | E, [] => .ok E
  | E, e :: es => do
    let o ← g.edgeObj e
    match o.dst with
    | none => .error .attributeError
    | some j => isingEnergy g spin (if spin.getD o.src 0 = spin.getD j 0 then E - o.weight else E + o.weight) es

/-- `Ising.py` 252-282 `getIsingWeight`. -/
def isingWeight [Ring R] (F : MathFns R) (g : Graph R) (S : Nat) : Except PyErr R := do
  let E ← isingEnergy g (intToBitList S g.v.length) 0 g.getEdges.2
  pure (F.exp (-E))

/-- `Ising.py` 284-310 `exactZFromGraphIsing`.  The cache of edges that the calls of `getEdges` fill is not part of the
result; it does not change what later calls return. -/
def exactZ [Ring R] (F : MathFns R) (g : Graph R) : Except PyErr R :=
  ((List.range (1 <<< g.v.length)).mapM (isingWeight F g)).map List.sum

end CTL
