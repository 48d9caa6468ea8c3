import Verif.Model.Graph

/-! # Histories of graph operations -/

namespace CTL

/-- The ends of an edge: two (equal for a self loop), or one for a free edge. -/
def GEdge.ends {W : Type} (o : GEdge W) : List Nat := o.src :: o.dst.toList

/-- Operations on an undirected graph. -/
inductive GraphOp (W : Type := Nat) where
  | addEdge (i j : Nat) (w : W)
  | getEdges
deriving DecidableEq, Repr

/-- Perform the operations one after the other. -/
def runGraph {W : Type} : Graph W → List (GraphOp W) → Except PyErr (Graph W)
  | g, [] => .ok g
  | g, .addEdge i j w :: ops => (g.addEdge i j w).bind fun g => runGraph g ops
  | g, .getEdges :: ops => runGraph g.getEdges.1 ops

/-- The edges a history adds, in order. -/
def addedEdges {W : Type} (ops : List (GraphOp W)) : List (Nat × Nat × W) :=
  ops.filterMap fun o => match o with
    | .addEdge i j w => some (i, j, w)
    | .getEdges => none

end CTL
