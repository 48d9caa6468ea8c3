import Verif.Model.Py

/-!
Model of `src/CTL/funcs/graph.py` and of the graph part of `src/CTL/tensor/contract/tensorGraph.py`.
Edge objects are numbered in the order of their creation; a vertex holds the list of its edge objects.
-/

namespace CTL

/-- `graph.py` 8-50 `GraphEdge`: `vertices` and `weight`; `dst = none` is the free edge of
`TensorGraph.addFreeEdge`.  The weights are of any type `W`; dimensions (`Nat`) in the tensor graphs. -/
structure GEdge (W : Type := Nat) where
  src : Nat
  dst : Option Nat
  weight : W
deriving DecidableEq, Repr

/-- `graph.py` 112-211 (`Graph`, `UndirectedGraph`) together with the fields added by `TensorGraph`
(`tensorGraph.py` 42-48).  `edges`/`updated` are the cache of `getEdges`; `index` is the attribute set by
`addEdgeIndex`. -/
structure Graph (W : Type := Nat) where
  v : List (List Nat)
  objs : List (GEdge W)
  edges : Option (List Nat)
  updated : Bool
  index : List (Option Nat)
  indexed : Bool
  diagonalFlags : List Bool
deriving DecidableEq, Repr

/-- `graph.py` 127-131, 190-193; `tensorGraph.py` 42-48. -/
def Graph.new {W : Type} (n : Nat) (diagonalFlags : Option (List Bool)) : Graph W :=
  ⟨List.replicate n [], [], none, false, [], false, diagonalFlags.getD (List.replicate n false)⟩

/-- `graph.py` 195-220 `UndirectedGraph.addEdge`: one edge object, appended to the lists of both ends (twice to
the same list for a self loop).  Simplification: indices are natural numbers. -/
def Graph.addEdge {W : Type} (g : Graph W) (i j : Nat) (w : W) : Except PyErr (Graph W) :=
  if i < g.v.length ∧ j < g.v.length then
    let e := g.objs.length
    let v1 := g.v.modify i (· ++ [e])
    .ok { g with v := v1.modify j (· ++ [e]), objs := g.objs ++ [⟨i, some j, w⟩], index := g.index ++ [none],
                 updated := true }
  else .error .assertionError

/-- `tensorGraph.py` 50-61 `addFreeEdge` with `graph.py` 78-96; the flag `updated` is not set. -/
def Graph.addFreeEdge {W : Type} (g : Graph W) (i : Nat) (w : W) : Except PyErr (Graph W) :=
  if i < g.v.length then
    .ok { g with v := g.v.modify i (· ++ [g.objs.length]), objs := g.objs ++ [⟨i, none, w⟩],
                 index := g.index ++ [none] }
  else .error .indexError

/-- The loop of `getEdges`, `graph.py` 239-243: append every edge object not met before. -/
def collectEdges : List Nat → List Nat → List Nat
  | [], res => res
  | e :: es, res => collectEdges es (if e ∈ res then res else res ++ [e])

/-- `graph.py` 226-247 `getEdges`. -/
def Graph.getEdges {W : Type} (g : Graph W) : Graph W × List Nat :=
  match g.edges, g.updated with
  | some es, false => (g, es)
  | _, _ =>
    let res := collectEdges g.v.flatten []
    ({ g with edges := some res, updated := false }, res)

/-- `graph.py` 99-108 `GraphVertex.degree`. -/
def Graph.degree {W : Type} (g : Graph W) (i : Nat) : Nat := (g.v.getD i []).length

/-- The loop of `addEdgeIndex`, `tensorGraph.py` 70-71: `edges[i].index = i`. -/
def assignIndex : List Nat → Nat → List (Option Nat) → List (Option Nat)
  | [], _, idx => idx
  | e :: es, i, idx => assignIndex es (i + 1) (idx.set e (some i))

/-- `tensorGraph.py` 63-72 `addEdgeIndex`: only the first call has an effect. -/
def Graph.addEdgeIndex {W : Type} (g : Graph W) : Graph W :=
  if g.indexed then g
  else
    let r := g.getEdges
    { r.1 with index := assignIndex r.2 0 r.1.index, indexed := true }

/-- The edges, weights and flags that the search reads, `tensorGraph.py` 151-154: for every vertex the indices of
its edges, `AttributeError` for an edge object that never got an index. -/
def Graph.edgeTable (g : Graph) : Except PyErr (List (List Nat) × List (List Nat) × List Bool) := do
  let es ← g.v.mapM fun l => l.mapM fun e =>
    match g.index.getD e none with
    | some i => pure i
    | none => throw PyErr.attributeError
  pure (es, g.v.map (fun l => l.map fun e => ((g.objs[e]?).map (·.weight)).getD 0), g.diagonalFlags)

end CTL
