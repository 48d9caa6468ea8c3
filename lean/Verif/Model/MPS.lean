import Verif.Model.Decompose

/-! Model of `src/CTL/examples/MPS.py`: `FreeBoundaryMPS`. -/

namespace CTL
variable {R : Type}

/-- The attributes of a `FreeBoundaryMPS` (`MPS.py` 78-93).  Simplification: `internalBonds` is not carried (it is only
used while renaming). -/
structure MPS (R : Type) where
  tensors : List (Tensor R)
  chi : Int
  activeIdx : Option Nat

namespace MPS

/-- Number of shared bonds of two tensors, and the store (bonds may be reoriented). -/
def shareCount (st : Store) (ta tb : Tensor R) : Except PyErr (Store × Nat) := do
  let (st1, bs) ← shareBonds st ta tb
  pure (st1, bs.length)

/-- `MPS.py` 33-35: every two neighbours share exactly one bond. -/
def neighboursOK : Store → List (Tensor R) → Except PyErr (Store × Bool)
  | st, ta :: tb :: ts => do
    let (st1, n) ← shareCount st ta tb
    if n ≠ 1 then pure (st1, false) else neighboursOK st1 (tb :: ts)
  | st, _ => .ok (st, true)

/-- `MPS.py` 24-44 `checkMPSProperty`. -/
def checkProperty (st : Store) (ts : List (Tensor R)) : Except PyErr (Store × Bool) := do
  let n := ts.length
  if n = 0 then pure (st, false)
  else
    let (st1, ok) ← neighboursOK st ts
    if ok = false then pure (st1, false)
    else if n > 1 ∧ ((ts.map fun t => t.legs.length).head? ≠ some 2 ∨ (ts.map fun t => t.legs.length).getLast? ≠ some 2) then
      pure (st1, false)
    else pure (st1, ((ts.drop 1).dropLast.all fun t => t.legs.length == 3))

/-- `MPS.py` 50-53: the running minimum over the bonds between neighbours, `shareBonds(...)[0].legs[0].dim`. -/
def bondChiLoop : Store → List (Tensor R) → Int → Except PyErr (Store × Int)
  | st, ta :: tb :: ts, acc => do
    let (st1, bs) ← shareBonds st ta tb
    match bs with
    | [] => throw .indexError
    | b :: _ => bondChiLoop st1 (tb :: ts) (min acc (st1.dim (st1.bond b).1))
  | st, _, acc => .ok (st, acc)

/-- `MPS.py` 46-61 `getChi`. -/
def getChi (st : Store) (ts : List (Tensor R)) (chi : Option Int) : Except PyErr (Store × Int) := do
  let (st1, bondChi) ← bondChiLoop st ts (-1)
  match chi with
  | none => pure (st1, bondChi)
  | some c => if bondChi > c then pure (st1, bondChi) else pure (st1, c)

/-- `MPS.py` 67-71: the legs of the bonds between neighbours are named `r` and `l`; the bonds are collected. -/
def renameInner : Store → List (Tensor R) → Except PyErr (Store × List BondId)
  | st, ta :: tb :: ts => do
    let (st1, bs) ← shareBonds st ta tb
    match bs with
    | [] => throw .indexError
    | b :: _ =>
      let l ← sideLeg st1 ta b
      let st2 := st1.rename l "r"
      let m ← sideLeg st2 tb b
      let (st3, cs) ← renameInner (st2.rename m "l") (tb :: ts)
      pure (st3, b :: cs)
  | st, _ => .ok (st, [])

/-- `MPS.py` 73-76: all other legs are named `o`. -/
def renameOuter (inner : List BondId) (legs : List LegId) (st : Store) : Store :=
  legs.foldl (fun s l => if (match (s.leg l).bond with | none => true | some b => decide (b ∉ inner)) then s.rename l "o"
    else s) st

/-- `MPS.py` 63-76 `renameBonds`. -/
def renameBonds (st : Store) (ts : List (Tensor R)) : Except PyErr Store := do
  let (st1, inner) ← renameInner st ts
  pure (renameOuter inner (ts.flatMap fun t => t.legs) st1)

/-- `MPS.py` 78-93 `__init__` with `inplace = True`. -/
def new (st : Store) (ts : List (Tensor R)) (chi : Option Int) : Except PyErr (Store × MPS R) := do
  let (st1, ok) ← checkProperty st ts
  if ok = false then throw .valueError
  let (st2, c) ← getChi st1 ts chi
  let st3 ← renameBonds st2 ts
  pure (st3, ⟨ts, c, none⟩)

/-- `MPS.py` 208-209 `isIndex`. -/
def isIndex (m : MPS R) (i : Int) : Bool := decide (0 ≤ i ∧ i < m.tensors.length)

/-- `MPS.py` 157-163 `swap`. -/
def swap [NonUnitalNonAssocSemiring R] (la : LinAlg R) (cast castF : R → R) (st : Store) (m : MPS R) (a b : Int) :
    Except PyErr (Store × MPS R) := do
  if 0 ≤ a ∧ a < m.tensors.length ∧ b < m.tensors.length ∧ 0 ≤ b ∧ (a - b = 1 ∨ b - a = 1) then
    match m.tensors[a.toNat]?, m.tensors[b.toNat]? with
    | some ta, some tb =>
      let (st1, u, _, v) ← schmidt la cast castF st ta tb m.chi true ["o"] ["o"]
      pure (st1, { m with tensors := (m.tensors.set a.toNat u).set b.toNat v, activeIdx := none })
    | _, _ => throw .indexError
  else throw .assertionError

/-- The loop of swaps of `moveTensor` and `makeAdjacent`: the visited positions and the direction. -/
def swapLoop [NonUnitalNonAssocSemiring R] (la : LinAlg R) (cast castF : R → R) (step : Int) :
    Store → MPS R → List Int → Except PyErr (Store × MPS R)
  | st, m, [] => .ok (st, m)
  | st, m, i :: is => do
    let (st1, m1) ← swap la cast castF st m i (i + step)
    swapLoop la cast castF step st1 m1 is

/-- `MPS.py` 211-228 `moveTensor`. -/
def moveTensor [NonUnitalNonAssocSemiring R] (la : LinAlg R) (cast castF : R → R) (st : Store) (m : MPS R)
    (beg fin : Int) : Except PyErr (Store × MPS R) := do
  pyAssert (m.isIndex beg && m.isIndex fin)
  if beg = fin then pure (st, m)
  else if beg < fin then
    swapLoop la cast castF 1 st m ((List.range (fin - beg).toNat).map fun (k : Nat) => beg + k)
  else
    swapLoop la cast castF (-1) st m ((List.range (beg - fin).toNat).map fun (k : Nat) => beg - k)

/-- `MPS.py` 230-238 `makeAdjacent`. -/
def makeAdjacent [NonUnitalNonAssocSemiring R] (la : LinAlg R) (cast castF : R → R) (st : Store) (m : MPS R)
    (idx1 idx2 : Int) : Except PyErr (Store × MPS R × Int × Int) := do
  pyAssert (m.isIndex idx1 && m.isIndex idx2)
  pyAssert (idx1 ≠ idx2)
  let i := min idx1 idx2
  let j := max idx1 idx2
  let (st1, m1) ← swapLoop la cast castF 1 st m ((List.range (j - 1 - i).toNat).map fun (k : Nat) => i + k)
  pure (st1, m1, j - 1, j)

/-- `MPS.py` 240-244 `mergeTensor`. -/
def mergeTensor (m : MPS R) (idx : Int) (t : Tensor R) : Except PyErr (MPS R) := do
  pyAssert (m.isIndex idx && m.isIndex (idx + 1))
  pure { m with tensors := m.tensors.take idx.toNat ++ [t] ++ m.tensors.drop (idx.toNat + 2) }

/-- `MPS.py` 150-153 `setTensor`. -/
def setTensor (m : MPS R) (idx : Int) (t : Tensor R) : Except PyErr (MPS R) := do
  pyAssert (decide (0 ≤ idx ∧ idx < m.tensors.length))
  pure { m with tensors := m.tensors.set idx.toNat t, activeIdx := none }

/-- One step of `canonicalize` (`MPS.py` 136-139, 142-146): tensor `i` becomes the isometry, its neighbour `j` takes
the rest. -/
def canonStep [NonUnitalNonAssocSemiring R] (la : LinAlg R) (cast castF : R → R) (st : Store) (m : MPS R)
    (i j : Nat) : Except PyErr (Store × MPS R) := do
  match m.tensors[i]?, m.tensors[j]? with
  | some ta, some tb =>
    let (st1, u, s, v) ← schmidt la cast castF st ta tb m.chi false [] []
    match s with
    | none => throw .attributeError
    | some s =>
      let o ← contractTwoTensors cast st1 s v none
      pure (o.store, { m with tensors := (m.tensors.set i u).set j o.result })
  | _, _ => throw .indexError

/-- `MPS.py` 126-148 `canonicalize`. -/
def canonicalize [NonUnitalNonAssocSemiring R] (la : LinAlg R) (cast castF : R → R) (st : Store) (m : MPS R)
    (idx : Int) : Except PyErr (Store × MPS R) := do
  pyAssert (m.isIndex idx)
  let (st1, m1) ← (List.range idx.toNat).foldlM (fun p i => canonStep la cast castF p.1 p.2 i (i + 1)) (st, m)
  let n := m.tensors.length
  let (st2, m2) ← ((List.range (n - 1 - idx.toNat)).map fun k => n - 1 - k).foldlM
    (fun p i => canonStep la cast castF p.1 p.2 i (i - 1)) (st1, m1)
  pure (st2, { m2 with activeIdx := some idx.toNat })

end MPS
end CTL
