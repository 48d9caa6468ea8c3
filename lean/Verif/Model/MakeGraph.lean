import Verif.Model.Search
import Verif.Model.Sequence

/-!
Model of `makeTensorGraph`, `generateOptimalSequence`, `generateGreedySequence` and the automatic mode of
`contractAndCostWithSequence`, `src/CTL/tensor/contract/optimalContract.py`.
-/

namespace CTL
variable {R : Type}

/-- `optimalContract.py` 115-117: the dictionary from tensor objects to positions; a later position of the same
object wins. -/
def idxDict (ts : List (Tensor R)) (t : TensorId) : Option Nat :=
  dictGet (ts.zipIdx.map fun p => (p.1.id, p.2)).reverse t

/-- The body of the loop over the legs of tensor `i`, `optimalContract.py` 119-127: the graph and `bondSet`. -/
def graphLeg (st : Store) (ts : List (Tensor R)) (i : Nat) (s : Graph × List BondId) (l : LegId) :
    Except PyErr (Graph × List BondId) :=
  match (st.leg l).bond with
  | none => do
    let g ← s.1.addFreeEdge i (st.dim l)
    pure (g, s.2)
  | some b =>
    if b ∈ s.2 then .ok s
    else do
      let m ← st.bondAnotherSide b l
      match (st.leg m).tensor.bind (idxDict ts) with
      | none => throw .keyError
      | some j =>
        let g ← s.1.addEdge i j (st.dim l)
        pure (g, b :: s.2)

/-- `optimalContract.py` 94-130 `makeTensorGraph`.  Simplification: the names of the vertices are left out. -/
def makeTensorGraph (st : Store) (ts : List (Tensor R)) : Except PyErr Graph := do
  let s ← (ts.zipIdx.flatMap fun p => p.1.legs.map fun l => (p.2, l)).foldlM
    (fun s p => graphLeg st ts p.1 s p.2) (Graph.new ts.length (some (ts.map fun t => t.diag)), [])
  pure s.1.addEdgeIndex

/-- What `optimalContractSequence` reads off the graph, `tensorGraph.py` 149-154. -/
def Graph.input (g : Graph) : Except PyErr Input := do
  let r ← g.addEdgeIndex.edgeTable
  pure ⟨r.1, r.2.1, r.2.2⟩

/-- The search used, `tensorGraph.py` 414-419. -/
inductive Mode
  | greedy
  | bruteForce
  | capping
deriving DecidableEq, Repr

/-- `tensorGraph.py` 112-419 `optimalContractSequence`: the sequence and the cost the search ends up with
(`greedyCost`, or `optimalCost` of the full set); `none` if the capped search is still running after `fuel`
rounds. -/
def optimalContractSequence (g : Graph) (mode : Mode) (typ : Option Nat) (fuel : Nat) :
    Option (Except PyErr (Nat × List (Nat × Nat))) :=
  match g.input with
  | .error e => some (.error e)
  | .ok inp =>
    match mode with
    | .greedy => some (greedySearch inp)
    | .bruteForce => some do
        let r ← bruteForce inp typ
        let c ← r.1.getCost (1 <<< inp.edges.length - 1)
        pure (c, r.2)
    | .capping => (capping inp typ fuel).map fun r => do
        let r ← r
        let c ← r.1.getCost (1 <<< inp.edges.length - 1)
        pure (c, r.2)

/-- `optimalContract.py` 132-180 `generateOptimalSequence`, `generateGreedySequence`. -/
def generateSequence (st : Store) (ts : List (Tensor R)) (mode : Mode) (typ : Option Nat) (fuel : Nat) :
    Option (Except PyErr (Nat × List (Nat × Nat))) :=
  match makeTensorGraph st ts with
  | .error e => some (.error e)
  | .ok g => optimalContractSequence g mode typ fuel

/-- `optimalContract.py` 182-237 `contractAndCostWithSequence` with `seq = None` and `inplace = True`. -/
def contractAuto [NonUnitalNonAssocSemiring R] (cast : R → R) (st : Store) (ts : List (Tensor R)) (mode : Mode)
    (typ : Option Nat) (fuel : Nat) : Option (Except PyErr (Store × Tensor R × Nat)) :=
  (generateSequence st ts mode typ fuel).map fun r => do
    let r ← r
    contractInPlace cast st ts r.2

end CTL
