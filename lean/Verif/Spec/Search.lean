import Verif.Model.Search
import Mathlib.Data.Finset.SymmDiff
import Mathlib.Data.Finset.Max
import Mathlib.Algebra.BigOperators.Group.Finset.Basic
import Mathlib.Logic.Relation

/-! # Contraction trees and their costs, stated on the graph itself -/

namespace CTL

/-- A binary contraction tree over the tensors `0 .. n-1`. -/
inductive CTree where
  | leaf (i : Nat)
  | node (l r : CTree)
deriving DecidableEq, Repr

/-- The tensors at the leaves, left to right. -/
def CTree.leaves : CTree → List Nat
  | .leaf i => [i]
  | .node l r => l.leaves ++ r.leaves

/-- The set of tensors at the leaves. -/
def CTree.verts (t : CTree) : Finset Nat := t.leaves.toFinset

/-- Every tensor at most once, all below `n`. -/
def CTree.Proper (n : Nat) (t : CTree) : Prop := t.leaves.Nodup ∧ ∀ i ∈ t.leaves, i < n

/-- A tree that contracts each of the `n` tensors exactly once. -/
def CTree.Complete (n : Nat) (t : CTree) : Prop := t.leaves.Perm (List.range n)

/-- A tensor graph as data: the edges at each vertex, the dimension of each edge, which tensors are diagonal. -/
structure TGraph where
  n : Nat
  edges : Nat → Finset Nat
  dim : Nat → Nat
  diag : Nat → Bool

/-- No edge has more than two ends. -/
def TGraph.TwoEnds (G : TGraph) : Prop :=
  ∀ e i j k, i < G.n → j < G.n → k < G.n → e ∈ G.edges i → e ∈ G.edges j → e ∈ G.edges k →
    i = j ∨ i = k ∨ j = k

/-- The open edges of a set of tensors: those with exactly one end in the set. -/
def TGraph.openEdges (G : TGraph) (S : Finset Nat) : Finset Nat :=
  (S.biUnion G.edges).filter fun e => ∀ i ∈ S, ∀ j ∈ S, e ∈ G.edges i → e ∈ G.edges j → i = j

/-- A set of tensors contracts to a diagonal tensor iff all its members are diagonal. -/
def TGraph.AllDiag (G : TGraph) (S : Finset Nat) : Prop := ∀ i ∈ S, G.diag i = true

instance (G : TGraph) (S : Finset Nat) : Decidable (G.AllDiag S) :=
  inferInstanceAs (Decidable (∀ i ∈ S, G.diag i = true))

/-- Dimension of an edge in the cost: the real one, or the given typical one. -/
def TGraph.d (G : TGraph) (typ : Option Nat) (e : Nat) : Nat := typ.getD (G.dim e)

/-- Cost of contracting what the sets `S` and `T` contract to.  Dense: the product of the dimensions of all open
edges of either, a common one counted once.  One diagonal: the size of the result.  Both diagonal: their
dimension. -/
def TGraph.stepCost (G : TGraph) (typ : Option Nat) (S T : Finset Nat) : Nat :=
  if G.AllDiag S ∧ G.AllDiag T then typ.getD ((G.openEdges S).sup G.dim)
  else if G.AllDiag S ∨ G.AllDiag T then ∏ e ∈ symmDiff (G.openEdges S) (G.openEdges T), G.d typ e
  else ∏ e ∈ G.openEdges S ∪ G.openEdges T, G.d typ e

/-- Total cost of a contraction tree. -/
def TGraph.treeCost (G : TGraph) (typ : Option Nat) : CTree → Nat
  | .leaf _ => 0
  | .node l r => G.treeCost typ l + G.treeCost typ r + G.stepCost typ l.verts r.verts

/-- The smallest tensor of a tree: the slot that holds its result. -/
def CTree.slot : CTree → Nat
  | .leaf i => i
  | .node l r => min l.slot r.slot

/-- The steps of a tree, subtrees first, a subtree being held in the slot of its smallest tensor. -/
def CTree.steps : CTree → List (Nat × Nat)
  | .leaf _ => []
  | .node l r => l.steps ++ r.steps ++ [(l.slot, r.slot)]

/-- The tree never contracts two diagonal tensors without a common edge. -/
def TGraph.NoDiagOuter (G : TGraph) : CTree → Prop
  | .leaf _ => True
  | .node l r => G.NoDiagOuter l ∧ G.NoDiagOuter r ∧
    ¬ (G.AllDiag l.verts ∧ G.AllDiag r.verts ∧ Disjoint (G.openEdges l.verts) (G.openEdges r.verts))

/-- With real dimensions, the dimension of a diagonal result is well defined: if two disjoint sets of tensors
both contract to diagonal tensors, these have legs and all of the same dimension. -/
def TGraph.DiagDims (G : TGraph) (typ : Option Nat) : Prop :=
  typ.isSome ∨ ∀ S T : Finset Nat, S.Nonempty → T.Nonempty → (∀ i ∈ S, i < G.n) → (∀ i ∈ T, i < G.n) →
    Disjoint S T → G.AllDiag S → G.AllDiag T →
    ∃ d, (G.openEdges S).Nonempty ∧ (G.openEdges T).Nonempty ∧
      (∀ e ∈ G.openEdges S, G.dim e = d) ∧ ∀ e ∈ G.openEdges T, G.dim e = d

/-- The legs of a diagonal tensor have the same dimension. -/
def TGraph.DiagUniform (G : TGraph) : Prop :=
  ∀ i, i < G.n → G.diag i = true → ∀ e ∈ G.edges i, ∀ e' ∈ G.edges i, G.dim e = G.dim e'

/-- The input of the search describes the graph. -/
structure Describes (g : Input) (G : TGraph) : Prop where
  n : g.edges.length = G.n
  shapes : g.shapes.length = G.n
  diags : g.diag.length = G.n
  edges : ∀ i, i < G.n → (g.edges.getD i []).Nodup ∧ (g.edges.getD i []).toFinset = G.edges i
  shape : ∀ i, i < G.n → g.shapes.getD i [] = (g.edges.getD i []).map G.dim
  diag : ∀ i, i < G.n → g.diag.getD i false = G.diag i
  ends : G.TwoEnds

/-- Two tensors have a common edge. -/
def TGraph.Adj (G : TGraph) (i j : Nat) : Prop := i < G.n ∧ j < G.n ∧ ∃ e, e ∈ G.edges i ∧ e ∈ G.edges j

/-- Every tensor can be reached from every other one through common edges. -/
def TGraph.Connected (G : TGraph) : Prop :=
  ∀ i j, i < G.n → j < G.n → Relation.ReflTransGen G.Adj i j

/-- Total cost of a sequence of steps; `grp` gives the tensors that have been contracted into each slot, the result
of a step going to the smaller slot. -/
def TGraph.seqCost (G : TGraph) (typ : Option Nat) : (Nat → Finset Nat) → List (Nat × Nat) → Nat
  | _, [] => 0
  | grp, (s, t) :: seq =>
    G.stepCost typ (grp s) (grp t) + G.seqCost typ (fun i => if i = min s t then grp s ∪ grp t else grp i) seq

/-- Number of entries of what a set of tensors contracts to. -/
def TGraph.size (G : TGraph) (S : Finset Nat) : Nat := ∏ e ∈ G.openEdges S, G.dim e

/-- Every step is between two live slots `a < b` with a common edge, and no such pair has a smaller result. -/
def TGraph.greedyFrom (G : TGraph) : List Nat → (Nat → Finset Nat) → List (Nat × Nat) → Prop
  | live, _, [] => live.length ≤ 1
  | live, grp, (a, b) :: seq =>
    a ∈ live ∧ b ∈ live ∧ a < b ∧ ¬ Disjoint (G.openEdges (grp a)) (G.openEdges (grp b)) ∧
    (∀ a' ∈ live, ∀ b' ∈ live, a' ≠ b' → ¬ Disjoint (G.openEdges (grp a')) (G.openEdges (grp b')) →
      G.size (grp a ∪ grp b) ≤ G.size (grp a' ∪ grp b')) ∧
    G.greedyFrom (live.erase b) (fun i => if i = a then grp a ∪ grp b else grp i) seq

end CTL
