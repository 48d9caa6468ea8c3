import Verif.Model.MakeGraph

/-!
Model of `TensorGraph.optimalCostResult` and `TensorGraph.tensorNetworkGraph`, `src/CTL/tensor/contract/tensorGraph.py`.
-/

namespace CTL

/-- A `TensorGraph` with the attribute `optimalCost`, which `__init__` (`tensorGraph.py` 42-48) does not set: `none` as long as the object does
not have it. -/
structure GraphObj where
  g : Graph
  optimalCost : Option (Nat → Option Nat)

/-- A `TensorGraph` on which nothing has been called. -/
def GraphObj.new (g : Graph) : GraphObj := ⟨g, none⟩

/-- `tensorGraph.py` 112-419 `optimalContractSequence` as a method: the object afterwards and the sequence or the exception; `none` if the capped
search is still running after `fuel` rounds.  Simplification: after an exception the table has the values of lines 157-164; the search has stored
more for smaller sets, but the entry of the full set, which alone is read later, is stored last. -/
def GraphObj.search (o : GraphObj) (mode : Mode) (typ : Option Nat) (fuel : Nat) :
    Option (GraphObj × Except PyErr (List (Nat × Nat))) :=
  let g := o.g.addEdgeIndex
  match o.g.input with
  | .error e => some (⟨g, o.optimalCost⟩, .error e)
  | .ok inp =>
    let finish : Except PyErr (Tables × List (Nat × Nat)) → GraphObj × Except PyErr (List (Nat × Nat)) := fun r =>
      match r with
      | .error e => (⟨g, some (initTables inp).cost⟩, .error e)
      | .ok r => (⟨g, some r.1.cost⟩, .ok r.2)
    match mode with
    | .greedy => some (⟨g, o.optimalCost⟩, (greedySearch inp).map Prod.snd)
    | .bruteForce => some (finish (bruteForce inp typ))
    | .capping => (capping inp typ fuel).map finish

/-- `tensorGraph.py` 99-110 `optimalCostResult`: the value returned, Python's `None` being `none`.  Line 109 is not reached: reading an attribute
that is not there raises, and once it is there it is a list. -/
def GraphObj.optimalCostResult (o : GraphObj) : Except PyErr (Option Nat) :=
  match o.optimalCost with
  | none => .error .attributeError
  | some t => .ok (t (1 <<< o.g.v.length - 1))

/-- An undirected graph of networkx without parallel edges: the nodes and the weight of the edge between two nodes. -/
structure NxGraph where
  nodes : List Nat
  weight : Nat → Nat → Option Nat

/-- `add_edge` of networkx: the weight of an edge that is there already is overwritten. -/
def NxGraph.addEdge (G : NxGraph) (i j w : Nat) : NxGraph :=
  { G with weight := fun a b => if (a = i ∧ b = j) ∨ (a = j ∧ b = i) then some w else G.weight a b }

/-- The loop over the edges, `tensorGraph.py` 86-95. -/
def nxLoop (objs : List GEdge) : List Nat → NxGraph → NxGraph
  | [], G => G
  | e :: es, G =>
    match objs[e]? with
    | none => nxLoop objs es G
    | some o =>
      match o.dst with
      | none => nxLoop objs es G
      | some j => nxLoop objs es (G.addEdge o.src j o.weight)

/-- `tensorGraph.py` 74-97 `tensorNetworkGraph`: the graph (whose edges have been collected) and the networkx graph.  Simplification: the names of
the nodes are left out; networkx is installed. -/
def Graph.tensorNetworkGraph (g : Graph) : Graph × NxGraph :=
  (g.getEdges.1, nxLoop g.objs g.getEdges.2 ⟨List.range g.v.length, fun _ _ => none⟩)

end CTL
