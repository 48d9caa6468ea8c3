import Mathlib.Data.Int.Bitwise
import Mathlib.Data.Nat.Bitwise
import Mathlib.Data.Nat.Size

/-!
Bit tricks used by the contraction-order search, `src/CTL/tensor/contract/tensorGraph.py` 136-147.
Sets of tensors are bit masks; masks are natural numbers, the operators `&`, `~`, unary `-` act on
unbounded two's complement integers as in Python (`Int.land`, `Int.lnot`).
-/

namespace CTL

/-- `tensorGraph.py` 138-139: `x & (-x)`. -/
def lowbit (x : Nat) : Nat := (Int.land (x : Int) (-(x : Int))).toNat

/-- `tensorGraph.py` 136-137: `(x & (-x)).bit_length() - 1` (a non-negative number for `x > 0`;
`bit_length` is `Nat.size`). For `x = 0` Python gives `-1`, the model `0`; the search only calls it
on non-empty sets. -/
def lowbitI (x : Nat) : Nat := (lowbit x).size - 1

/-- One step of `subsetIterator`, `tensorGraph.py` 145-146:
`nlb = lowbit(x - lb); lb = (lb & (~(nlb - 1))) + nlb`. -/
def nextSub (x lb : Nat) : Nat :=
  let nlb := lowbit (x - lb)
  (Int.land (lb : Int) (Int.lnot ((nlb : Int) - 1))).toNat + nlb

/-- The `while` loop of `subsetIterator`, `tensorGraph.py` 143-147, with fuel. -/
def subsetLoop (x : Nat) : Nat → Nat → List Nat
  | 0, _ => []
  | fuel + 1, lb => if lb * 2 < x then lb :: subsetLoop x fuel (nextSub x lb) else []

/-- `tensorGraph.py` 141-147 `subsetIterator`, collected. The values strictly increase, so `x`
iterations are enough (`subsetLoop_fuel` in the lemmas shows that more fuel changes nothing). -/
def subsetIterator (x : Nat) : List Nat := subsetLoop x x (lowbit x)

end CTL
