import Verif.Model.Lattice

/-! # What a lattice graph looks like from outside -/

namespace CTL

variable {W : Type}

/-- The edges reported by `getEdges`, as (end, end, weight). -/
def Graph.reported (g : Graph W) : List (GEdge W) := g.getEdges.2.filterMap fun e => g.objs[e]?

/-- The weights of the reported edges between the vertices `i` and `j`; in particular its length is the number of
edges between them. -/
def Graph.weightsBetween (g : Graph W) (i j : Nat) : List W :=
  (g.reported.filter fun o => (o.src = i ∧ o.dst = some j) ∨ (o.src = j ∧ o.dst = some i)).map fun o => o.weight

/-- What the documentation says about `weight`: one number is the weight of all edges, a pair gives the two kinds of
edges their weights `a` and `b` in this order. -/
inductive Weight.Means : Weight W → W → W → Prop
  | scalar (w : W) : Weight.Means (.scalar w) w w
  | pair (a b : W) : Weight.Means (.pair a b) a b

/-- The number of the site in row `x` and column `y` of a lattice with `m` columns. -/
def siteIndex (m x y : Nat) : Nat := x * m + y

/-- Sites of the double lattice: the middle of the upper side of plaquette `(x, y)` (for `x = n`: the lower side of
the last row) ... -/
def upperSite (m x y : Nat) : Nat := x * m + y

/-- ... and the middle of the left side of plaquette `(x, y)` (for `y = m`: the right side of the last one). -/
def leftSite (n m x y : Nat) : Nat := (n + 1) * m + x * (m + 1) + y

end CTL
