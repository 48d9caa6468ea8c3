import Verif.Model.Contract
import Verif.Model.Link
import Verif.Model.Text
import Mathlib.Algebra.Star.Basic

/-!
Model of the truncated decompositions: `src/CTL/funcs/decompose.py`, `merge` of
`src/CTL/tensor/contract/contract.py`, `src/CTL/examples/Schimdt.py`.

`numpy.linalg.svd`, `numpy.sqrt` and the comparison `abs(s) > eps` are parameters.
-/

namespace CTL
variable {R : Type}

/-- The numerical routines that are not modelled: `numpy.linalg.svd` (`u`, the singular values, `vh`; with the
default `full_matrices = True`), `numpy.sqrt`, and `abs(x) > eps`. -/
structure LinAlg (R : Type) where
  svd : NDArray R → NDArray R × List R × NDArray R
  sqrt : R → R
  isNonZero : R → Bool

/-- `funcs.py` 1150-1171 `nonZeroElementN`. -/
def nonZeroElementN (la : LinAlg R) (s : List R) : Nat := s.countP la.isNonZero

namespace NDArray

/-- `a[:, :k]` of a matrix. -/
def takeCols [Zero R] (a : NDArray R) (k : Nat) : NDArray R :=
  build [a.shape.getD 0 0, min k (a.shape.getD 1 0)] a.get

/-- `a[:k]` of a matrix. -/
def takeRows [Zero R] (a : NDArray R) (k : Nat) : NDArray R :=
  build [min k (a.shape.getD 0 0), a.shape.getD 1 0] a.get

/-- `funcs.py` 1173-1188 `rightDiagonalProduct(a, diag) = a * diag`, for as many values as columns. -/
def rightDiag [NonUnitalNonAssocSemiring R] (a : NDArray R) (d : List R) : NDArray R :=
  build a.shape fun idx => a.get idx * d.getD (idx.getD 1 0) 0

/-- `funcs.py` 1189-1205 `leftDiagonalProduct(a, diag) = (a.T * diag).T`, for as many values as rows. -/
def leftDiag [NonUnitalNonAssocSemiring R] (a : NDArray R) (d : List R) : NDArray R :=
  build a.shape fun idx => a.get idx * d.getD (idx.getD 0 0) 0

/-- `funcs.py` 391-404 `transposeConjugate` of a matrix. -/
def conjTranspose [Zero R] [Star R] (a : NDArray R) : NDArray R :=
  build [a.shape.getD 1 0, a.shape.getD 0 0] fun idx => star (a.get [idx.getD 1 0, idx.getD 0 0])

/-- `numpy.diag(v)` of a vector. -/
def diagMatrix [Zero R] (d : List R) : NDArray R :=
  build [d.length, d.length] fun idx => if idx.getD 0 0 = idx.getD 1 0 then d.getD (idx.getD 0 0) 0 else 0

/-- A vector as a 1-d array. -/
def vector (d : List R) : NDArray R := ⟨[d.length], d⟩

end NDArray

/-- The result of `SVDDecomposition` with `returnSV = True`. -/
structure SVDOut (R : Type) where
  u : NDArray R
  s : List R
  vh : NDArray R
  error : R

/-- `decompose.py` 34-51 `SVDDecomposition(a, chi, returnSV = True, errorOrder)`.  Simplification: `chi` is not
negative; NumPy's `0 / 0` (a warning and `nan`) is whatever `/` gives. -/
def svdTruncated [Semiring R] [Div R] (la : LinAlg R) (a : NDArray R) (chi errorOrder : Nat) : SVDOut R :=
  let (u, s, vh) := la.svd a
  let k := if chi ≥ s.length then s.length else chi
  let error := if chi ≥ s.length then 0
    else ((s.drop chi).map (· ^ errorOrder)).sum / (s.map (· ^ errorOrder)).sum
  ⟨u.takeCols k, s.take k, vh.takeRows k, error⟩

/-- `decompose.py` 53-57 `SVDDecomposition(a, chi, returnSV = False, errorOrder)`: the square roots of the singular
values go to both sides; the second matrix is transposed and conjugated. -/
def svdDecomposition [Semiring R] [Div R] [Star R] (la : LinAlg R) (a : NDArray R) (chi errorOrder : Nat) :
    Except PyErr (NDArray R × NDArray R × R) := do
  let o := svdTruncated la a chi errorOrder
  let m := NDArray.diagMatrix (o.s.map la.sqrt)
  let uRes ← o.u.matmul m
  let v ← m.matmul o.vh
  pure (uRes, v.conjTranspose, o.error)

/-- `bond.py` 67-91 `Bond.sideLeg`. -/
def sideLeg (st : Store) (t : Tensor R) (b : BondId) : Except PyErr LegId :=
  if (st.bond b).1 ∈ t.legs then .ok (st.bond b).1
  else if (st.bond b).2 ∈ t.legs then .ok (st.bond b).2
  else .error .valueError

/-- Python's `min([chi, n1, n2, ...])` for an integer bound: the number of values kept.  A negative `chi` becomes a
negative dimension, which the constructor refuses because it does not match the data (ValueError); exact when no
dimension is 0. -/
def keptValues (chi : Int) (bounds : List Nat) : Except PyErr Nat :=
  if chi < 0 then .error .valueError else .ok (bounds.foldl min chi.toNat)

/-- `contract.py` 231-265, the truncation of a single shared bond, for `chi` given.  Simplification: what the legs
point to after an exception is not modelled. -/
def truncateBond [NonUnitalNonAssocSemiring R] (la : LinAlg R) (castF : R → R) (st : Store) (ta tb : Tensor R)
    (chi : Int) (b : BondId) : Except PyErr (Store × Tensor R × Tensor R) := do
  let legA ← sideLeg st ta b
  let legB ← sideLeg st tb b
  let remA ← ta.complementLegs [legA]
  let remB ← tb.complementLegs [legB]
  if ta.like then
    if st.dim legA = 0 ∨ st.dim legB = 0 then throw .zeroDivisionError
    let k ← keptValues chi [st.dim legA, tupleProduct (ta.shape st) / st.dim legA,
      tupleProduct (tb.shape st) / st.dim legB]
    let (st1, x) := st.newLeg none k (st.name legA)
    let (st2, y) := st1.newLeg none k (st.name legB)
    let (st3, u) ← newTensor (R := R) st2 ((remA ++ [x]).map st2.dim) none (remA ++ [x])
    let (st4, v) ← newTensor (R := R) st3 ((y :: remB).map st3.dim) none (y :: remB)
    match makeLinkLegs st4 [x] [y] with
    | (_, .error e) => throw e
    | (st5, .ok _) => pure (st5, u, v)
  else
    let matA ← ta.toMatrixAny castF none (some [legA])
    let matB ← tb.toMatrixAny castF (some [legB]) none
    let mat ← matA.matmul matB
    let (u, s, vh) := la.svd mat
    let k ← keptValues chi [nonZeroElementN la s, matA.shape.getD 0 0, matB.shape.getD 1 0]
    let sq := (s.take k).map la.sqrt
    let uS := (u.takeCols k).rightDiag sq
    let vS := (vh.takeRows k).leftDiag sq
    let (st1, x) := st.newLeg none k (st.name legA)
    let (st2, y) := st1.newLeg none k (st.name legB)
    let (st3, u) ← newTensor st2 ((remA ++ [x]).map st2.dim) (some uS) (remA ++ [x])
    let (st4, v) ← newTensor st3 ((y :: remB).map st3.dim) (some vS) (y :: remB)
    match makeLinkLegs st4 [x] [y] with
    | (_, .error e) => throw e
    | (st5, .ok _) => pure (st5, u, v)

/-- `contract.py` 181-280 `merge`. -/
def merge [NonUnitalNonAssocSemiring R] (la : LinAlg R) (castF : R → R) (st : Store) (ta tb : Tensor R)
    (chi : Option Int) (bondName : BondName) : Except PyErr (Store × Tensor R × Tensor R) := do
  if ta.like ≠ tb.like then throw .assertionError
  match mergeLink st ta tb bondName with
  | (_, _, _, .error e) => throw e
  | (st1, ta1, tb1, .ok ()) =>
    match chi with
    | none => pure (st1, ta1, tb1)
    | some chi =>
      let (st2, sb) ← shareBonds st1 ta1 tb1
      match sb with
      | [] => pure (st2, ta1, tb1)
      | [b] => truncateBond la castF st2 ta1 tb1 chi b
      | _ => throw .assertionError

/-- `name.startswith(c + '-')` for a one-character tag. -/
def hasTag (c : Char) (s : String) : Bool := [c, '-'].isPrefixOf s.toList

/-- `Schimdt.py` 53-56: the loops `ta.renameLabel(f + label, g + label)`. -/
def retagLoop (t : Tensor R) (f g : Char) (labels : List String) (st : Store) : Store :=
  labels.foldl (fun s lab => t.renameLabel s (String.ofList (f :: '-' :: lab.toList))
    (String.ofList (g :: '-' :: lab.toList))) st

/-- `Schimdt.py` 120-126 and 155-161: the loops that remove the first two characters of the names that have the tag. -/
def untagLoop (c : Char) (legs : List LegId) (st : Store) : Store :=
  legs.foldl (fun s l => if hasTag c (s.name l) then s.rename l (String.ofList ((s.name l).toList.drop 2)) else s) st

/-- Raise the exception of a store-changing loop, if there was one. -/
def raiseIf : Store × Option PyErr → Except PyErr Store
  | (st, none) => .ok st
  | (_, some e) => .error e

/-- Raise the exception of a link, if there was one. -/
def linkOr : Store × Except PyErr (List BondId) → Except PyErr Store
  | (st, .ok _) => .ok st
  | (_, .error e) => .error e

/-- What `Schimdt.py` 30-64 prepares: the product tensor, the legs that go to either side, the names of the first shared
bond and the size of all shared bonds. -/
structure SchmidtPrep (R : Type) where
  store : Store
  tot : Tensor R
  legA : List LegId
  legB : List LegId
  labelA : String
  labelB : String
  sbDim : Nat

/-- `Schimdt.py` 30-64: the checks, the tags, the contraction, and the distribution of the legs of the product. -/
def schmidtPrep [NonUnitalNonAssocSemiring R] (cast : R → R) (st : Store) (ta tb : Tensor R)
    (swapA swapB : List String) : Except PyErr (SchmidtPrep R) := do
  let (st1, sb) ← shareBonds st ta tb
  match sb with
  | [] => throw .assertionError
  | b :: _ =>
    pyAssert (ta.like = tb.like)
    let sbDim := tupleProduct (sb.map fun b => st1.dim (st1.bond b).1)
    let la ← sideLeg st1 ta b
    let lb ← sideLeg st1 tb b
    pyAssert (swapA.length = swapB.length)
    pyAssert (∀ x ∈ swapA, x ∈ ta.labels st1)
    pyAssert (∀ x ∈ swapB, x ∈ tb.labels st1)
    let st2 ← raiseIf (ta.addTensorTag st1 "a")
    let st3 ← raiseIf (tb.addTensorTag st2 "b")
    let st4 := retagLoop ta 'a' 'b' swapA st3
    let st5 := retagLoop tb 'b' 'a' swapB st4
    let o ← contractTwoTensors cast st5 ta tb none
    let st6 := o.store
    pure ⟨st6, o.result, o.result.legs.filter fun l => hasTag 'a' (st6.name l),
      o.result.legs.filter fun l => hasTag 'b' (st6.name l), st1.name la, st1.name lb, sbDim⟩

/-- The data `Schimdt.py` 67-88 computes: the number of values kept, and `u`, `s`, `vh` cut to it. -/
structure SchmidtData (R : Type) where
  k : Nat
  u : Option (NDArray R)
  s : Option (List R)
  vh : Option (NDArray R)

/-- `Schimdt.py` 67-88: `toMatrix(rows = labelA, cols = labelB)` looks the legs up by name. -/
def schmidtData [NonUnitalNonAssocSemiring R] (la : LinAlg R) (castF : R → R) (p : SchmidtPrep R) (like : Bool)
    (chi : Int) : Except PyErr (SchmidtData R) := do
  let totA := tupleProduct (p.legA.map p.store.dim)
  let totB := tupleProduct (p.legB.map p.store.dim)
  if like then
    let k ← keptValues chi [totA, totB, p.sbDim]
    pure ⟨k, none, none, none⟩
  else
    let rows := p.tot.legsOfLabels p.store (p.legA.map p.store.name)
    let cols := p.tot.legsOfLabels p.store (p.legB.map p.store.name)
    let mat ← p.tot.toMatrixAny castF (some rows) (some cols)
    let (u, s, vh) := la.svd mat
    let k ← keptValues chi [totA, totB, nonZeroElementN la s]
    pure ⟨k, some (u.takeCols k), some (s.take k), some (vh.takeRows k)⟩

/-- `Schimdt.py` 12-166 `SchimdtDecomposition`.  Simplification: the names left behind by a call that raises are not
modelled. -/
def schmidt [NonUnitalNonAssocSemiring R] (la : LinAlg R) (cast castF : R → R) (st : Store) (ta tb : Tensor R)
    (chi : Int) (squareRootSeparation : Bool) (swapA swapB : List String) :
    Except PyErr (Store × Tensor R × Option (Tensor R) × Tensor R) := do
  let p ← schmidtPrep cast st ta tb swapA swapB
  let d ← schmidtData la castF p ta.like chi
  if squareRootSeparation then
    let sq := d.s.map fun s => s.map la.sqrt
    let uS := match d.u, sq with | some u, some q => some (u.rightDiag q) | _, _ => none
    let vS := match d.vh, sq with | some v, some q => some (v.leftDiag q) | _, _ => none
    let (s1, x) := p.store.newLeg none d.k p.labelA
    let (s2, y) := s1.newLeg none d.k p.labelB
    let (s3, u) ← newTensor s2 (p.legA.map s2.dim ++ [d.k]) uS (p.legA ++ [x])
    let (s4, v) ← newTensor s3 (d.k :: p.legB.map s3.dim) vS (y :: p.legB)
    let s5 := untagLoop 'b' p.legB (untagLoop 'a' p.legA s4)
    let s6 ← linkOr (makeLinkLegs s5 [x] [y])
    pure (s6, u, none, v)
  else
    let (s1, x) := p.store.newLeg none d.k p.labelA
    let (s2, x') := s1.newLeg none d.k p.labelB
    let (s3, y') := s2.newLeg none d.k p.labelA
    let (s4, y) := s3.newLeg none d.k p.labelB
    let (s5, u) ← newTensor s4 (p.legA.map s4.dim ++ [d.k]) d.u (p.legA ++ [x])
    let (s6, s) ← newDiagonal s5 [d.k, d.k] (d.s.map NDArray.vector) [x', y']
    let (s7, v) ← newTensor s6 (d.k :: p.legB.map s6.dim) d.vh (y :: p.legB)
    let s8 := untagLoop 'b' p.legB (untagLoop 'a' p.legA s7)
    let s9 ← linkOr (makeLinkLegs s8 [x] [x'])
    let s10 ← linkOr (makeLinkLegs s9 [y] [y'])
    pure (s10, u, some s, v)

/-- `Schimdt.py` 168-219 `matrixSchimdtDecomposition`: the matrix is regrouped, decomposed and cut; the singular
values go to the right factor.  `a.reshape(dim, -1)` and `a.reshape(s0 * dim, -1)` infer the second size. -/
def matrixSchmidt [NonUnitalNonAssocSemiring R] (la : LinAlg R) (a : NDArray R) (dim : Nat) (chi : Option Nat) :
    Except PyErr (NDArray R × NDArray R) := do
  let cut (m : NDArray R) : NDArray R × List R × NDArray R :=
    let (u, s, vh) := la.svd m
    let b := min (u.shape.getD 0 0) (min (vh.shape.getD 1 0) (nonZeroElementN la s))
    let k := match chi with | none => b | some c => min c b
    (u.takeCols k, s.take k, vh.takeRows k)
  match a.shape with
  | [l] =>
    pyAssert (dim ≠ 0 ∧ l % dim = 0)
    let m ← a.reshape [dim, l / dim]
    let (u, s, vh) := cut m
    pure (u, vh.leftDiag s)
  | [s0, s1] =>
    pyAssert (dim ≠ 0 ∧ s1 % dim = 0)
    if s0 = 0 then throw .valueError
    let m ← a.reshape [s0 * dim, s1 / dim]
    let (u, s, vh) := cut m
    let u' ← u.reshape [s0, dim, u.shape.getD 1 0]
    pure (u', vh.leftDiag s)
  | _ => throw .assertionError

end CTL
