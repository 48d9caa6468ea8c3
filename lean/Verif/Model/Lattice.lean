import Verif.Model.Funcs
import Verif.Model.Graph

/-! Model of `src/CTL/funcs/graphFuncs.py`.  Simplification: the sizes are natural numbers. -/

namespace CTL

variable {W : Type}

/-- The argument `weight`: a number or a pair of numbers. -/
inductive Weight (W : Type) where
  | scalar (w : W)
  | pair (v h : W)
deriving DecidableEq, Repr

/-- `graphFuncs.py` 25-28 (also 69-72, 116-119). -/
def Weight.unpack : Weight W → W × W
  | .scalar w => (w, w)
  | .pair v h => (v, h)

/-- `getIndex` of `graphFuncs.py` 35-38. -/
def getIndexPBC (n m : Nat) (x y : Int) : Except PyErr Int := do
  let x ← safeMod x n
  let y ← safeMod y m
  pure (x * m + y)

/-- `getIndex` of `graphFuncs.py` 79-81. -/
def getIndexFBC (n m : Nat) (x y : Int) : Except PyErr Int :=
  if 0 ≤ x ∧ x < n ∧ 0 ≤ y ∧ y < m then .ok (x * m + y) else .error .assertionError

/-- `g.addEdge` with integer indices; `graph.py` 150 `assertIndex` rejects the negative ones. -/
def Graph.addEdgeInt (g : Graph W) (i j : Int) (w : W) : Except PyErr (Graph W) :=
  if 0 ≤ i ∧ 0 ≤ j then g.addEdge i.toNat j.toNat w else .error .assertionError

/-- A double loop `for x in range(n): for y in range(m): body`. -/
def latticeLoop (n m : Nat) (body : Graph W → Nat → Nat → Except PyErr (Graph W)) (g : Graph W) :
    Except PyErr (Graph W) :=
  (List.range n).foldlM (fun g x => (List.range m).foldlM (fun g y => body g x y) g) g

/-- `graphFuncs.py` 4-46 `squareLatticePBC`. -/
def squareLatticePBC (n : Nat) (m : Option Nat) (weight : Weight W) : Except PyErr (Graph W) :=
  let (weightV, weightH) := weight.unpack
  let m := m.getD n
  latticeLoop n m (fun g x y => do
    let g ← g.addEdgeInt (← getIndexPBC n m x y) (← getIndexPBC n m x (y + 1)) weightH
    g.addEdgeInt (← getIndexPBC n m x y) (← getIndexPBC n m (x + 1) y) weightV) (Graph.new (n * m) none)

/-- `graphFuncs.py` 48-91 `squareLatticeFBC`. -/
def squareLatticeFBC (n : Nat) (m : Option Nat) (weight : Weight W) : Except PyErr (Graph W) :=
  let (weightV, weightH) := weight.unpack
  let m := m.getD n
  latticeLoop n m (fun g x y => do
    let g ← if (y : Int) < m - 1 then
        g.addEdgeInt (← getIndexFBC n m x y) (← getIndexFBC n m x (y + 1)) weightH else pure g
    if (x : Int) < n - 1 then
        g.addEdgeInt (← getIndexFBC n m x y) (← getIndexFBC n m (x + 1) y) weightV else pure g)
    (Graph.new (n * m) none)

/-- `getIndex` of `graphFuncs.py` 126-136. -/
def getIndexDouble (n m : Nat) (d : Nat) (x y : Int) : Except PyErr Int :=
  if ¬ (d ≠ 0 ∨ (0 ≤ x ∧ x ≤ n ∧ 0 ≤ y ∧ y < m)) then .error .assertionError
  else if ¬ (d ≠ 1 ∨ (0 ≤ x ∧ x < n ∧ 0 ≤ y ∧ y ≤ m)) then .error .assertionError
  else if d = 0 then .ok (x * m + y)
  else .ok ((n + 1) * m + x * (m + 1) + y)

/-- `graphFuncs.py` 93-151 `doubleSquareLatticeFBC`. -/
def doubleSquareLatticeFBC (n : Nat) (m : Option Nat) (weight : Weight W) : Except PyErr (Graph W) :=
  let (weightTTB, weightBTT) := weight.unpack
  let m := m.getD n
  latticeLoop n m (fun g x y => do
    let g ← g.addEdgeInt (← getIndexDouble n m 1 x y) (← getIndexDouble n m 0 x y) weightBTT
    let g ← g.addEdgeInt (← getIndexDouble n m 1 x y) (← getIndexDouble n m 0 (x + 1) y) weightTTB
    let g ← g.addEdgeInt (← getIndexDouble n m 1 x (y + 1)) (← getIndexDouble n m 0 x y) weightTTB
    g.addEdgeInt (← getIndexDouble n m 1 x (y + 1)) (← getIndexDouble n m 0 (x + 1) y) weightBTT)
    (Graph.new (n * (m + 1) + m * (n + 1)) none)

/-- `graphFuncs.py` 153-176 `completeGraph`. -/
def completeGraph (n : Nat) (weight : W) : Except PyErr (Graph W) :=
  (List.range n).foldlM (fun g x =>
    (List.range' (x + 1) (n - (x + 1))).foldlM (fun g (y : Nat) => g.addEdgeInt x y weight) g) (Graph.new n none)

end CTL
