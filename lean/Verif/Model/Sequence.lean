import Verif.Model.Contract

/-!
Model of `src/CTL/tensor/contract/optimalContract.py`: the cost of one contraction and the execution of a
contraction sequence.
-/

namespace CTL
variable {R : Type}

/-- `optimalContract.py` 62-92 `contractCost`.  `shareBonds` may reorient bonds, so the store is returned.
Simplification: the level is a natural number (Python would give a negative one only if more bonds than legs
were shared). -/
def contractCost (st : Store) (ta tb : Tensor R) : Except PyErr (Store × Nat × Nat) :=
  if ta.diag && tb.diag then .ok (st, ta.length, 1)
  else do
    let (st1, bs) ← shareBonds st ta tb
    let inter := bs.map fun b => st1.dim (st1.bond b).1
    let size := tupleProduct (ta.shape st1) * tupleProduct (tb.shape st1)
    let n := (ta.shape st1).length + (tb.shape st1).length
    if tupleProduct inter = 0 then throw .zeroDivisionError
    if ta.diag || tb.diag then pure (st1, size / tupleProduct inter ^ 2, n - 2 * inter.length)
    else pure (st1, size / tupleProduct inter, n - inter.length)

/-- The body of the loop, `optimalContract.py` 230-235.  The operands are objects that the contraction may
change (the legs of a dense operand are reordered); slot `min(s, t)` is overwritten with the result. -/
def seqStep [NonUnitalNonAssocSemiring R] (cast : R → R) (st : Store) (ts : List (Tensor R)) (p : Nat × Nat) :
    Except PyErr (Store × List (Tensor R) × Nat) :=
  match ts[p.1]?, ts[p.2]? with
  | some ta, some tb => do
    let (st1, cost, _) ← contractCost st ta tb
    let o ← contractTwoTensors cast st1 ta tb none
    pure (o.store, ((ts.set p.1 o.ta).set p.2 o.tb).set (min p.1 p.2) o.result, cost)
  | _, _ => .error .indexError

/-- The loop, `optimalContract.py` 230-235; `totalLevel` is computed there but never used. -/
def seqLoop [NonUnitalNonAssocSemiring R] (cast : R → R) :
    Store → List (Tensor R) → Nat → List (Nat × Nat) → Except PyErr (Store × List (Tensor R) × Nat)
  | st, ts, total, [] => .ok (st, ts, total)
  | st, ts, total, p :: seq => do
    let (st1, ts1, cost) ← seqStep cast st ts p
    seqLoop cast st1 ts1 (total + cost) seq

/-- `optimalContract.py` 182-237 `contractAndCostWithSequence` with a given sequence and `inplace = True`:
the tensor in slot 0 and the total cost.  Simplification: Python's total is a float (`0.0 + ...`). -/
def contractInPlace [NonUnitalNonAssocSemiring R] (cast : R → R) (st : Store) (ts : List (Tensor R))
    (seq : List (Nat × Nat)) : Except PyErr (Store × Tensor R × Nat) := do
  let (st1, ts1, total) ← seqLoop cast st ts 0 seq
  match ts1 with
  | [] => throw .indexError
  | t :: _ => pure (st1, t, total)

end CTL
