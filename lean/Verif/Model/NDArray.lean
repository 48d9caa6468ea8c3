import Verif.Model.Py
import Mathlib.Algebra.BigOperators.Group.List.Basic
import Mathlib.Algebra.Ring.Defs

/-!
# The part of NumPy that CTL calls

CTL stores tensor data in NumPy arrays.  NumPy itself is not in /repo, so the definitions of this
file are part of the trusted base: they say what the called routines return, in terms of a flat
list of entries in C order (the order used by `numpy.reshape`).
Only the routines used by the modelled code are given, at the ranks at which they are used.
-/

namespace CTL

/-- An n-dimensional array: its shape and its entries in C order. -/
structure NDArray (R : Type) where
  shape : List Nat
  data : List R
deriving Repr, DecidableEq

/-- All index tuples of an array of the given shape, in C order. -/
def indices : List Nat → List (List Nat)
  | [] => [[]]
  | d :: ds => (List.range d).flatMap fun i => (indices ds).map (i :: ·)

/-- Position of an index tuple in the C-order list of entries. -/
def ravel : List Nat → List Nat → Nat
  | _ :: ds, i :: is => i * ds.prod + ravel ds is
  | _, _ => 0

namespace NDArray

variable {R : Type}

/-- The array of the given shape with entry `f idx` at `idx`. -/
def build (shape : List Nat) (f : List Nat → R) : NDArray R :=
  ⟨shape, (indices shape).map f⟩

/-- `a[idx]`. -/
def get [Zero R] (a : NDArray R) (idx : List Nat) : R := a.data.getD (ravel a.shape idx) 0

/-- `numpy.reshape(a, shape)` with an explicit shape: the same C-order entries; ValueError when the
number of entries differs. -/
def reshape (a : NDArray R) (shape : List Nat) : Except PyErr (NDArray R) :=
  if a.shape.prod = shape.prod then .ok ⟨shape, a.data⟩ else .error .valueError

/-- `numpy.reshape(a, (-1,) + rest)`: the first dimension is inferred; ValueError when it cannot be
(the known dimensions multiply to 0, or do not divide the size). -/
def reshapeInfer (a : NDArray R) (rest : List Nat) : Except PyErr (NDArray R) :=
  if rest.prod = 0 then .error .valueError
  else if a.shape.prod % rest.prod = 0 then .ok ⟨a.shape.prod / rest.prod :: rest, a.data⟩
  else .error .valueError

/-- `numpy.transpose(a, order)`: axis `k` of the result is axis `order[k]` of `a`. -/
def transpose [Zero R] (a : NDArray R) (order : List Nat) : NDArray R :=
  build (order.map fun ax => a.shape.getD ax 0)
    fun idx => a.get ((List.range a.shape.length).map fun ax => idx.getD (order.idxOf ax) 0)

/-- `numpy.moveaxis(a, source, range(len(source)))`: the only way CTL calls `moveaxis`.  NumPy builds
`order = [n not in source]`, inserts the sources at the front in turn, and transposes.
Repeated or out-of-range axes are ValueErrors. -/
def moveaxisFront [Zero R] (a : NDArray R) (source : List Nat) : Except PyErr (NDArray R) :=
  if source.Nodup ∧ ∀ s ∈ source, s < a.shape.length then
    .ok (a.transpose (source ++ (List.range a.shape.length).filter (fun n => !source.contains n)))
  else .error .valueError

/-- `numpy.matmul(a, b)` on two matrices; ValueError when the inner sizes differ. -/
def matmul [NonUnitalNonAssocSemiring R] (a b : NDArray R) : Except PyErr (NDArray R) :=
  match a.shape, b.shape with
  | [r, k], [k', c] =>
    if k = k' then
      .ok (build [r, c] fun idx =>
        ((List.range k).map fun t => a.get [idx.getD 0 0, t] * b.get [t, idx.getD 1 0]).sum)
    else .error .valueError
  | _, _ => .error .valueError

/-- `numpy.multiply.outer(a, b)`. -/
def outer [NonUnitalNonAssocSemiring R] (a b : NDArray R) : NDArray R :=
  build (a.shape ++ b.shape) fun idx =>
    a.get (idx.take a.shape.length) * b.get (idx.drop a.shape.length)

/-- Elementwise product `a * b` for two arrays of the same shape, two 1-d arrays of which one has
length 1 (broadcast), or a 0-d array with anything; ValueError otherwise (other broadcasts are not
needed). -/
def mulBroadcast [NonUnitalNonAssocSemiring R] (a b : NDArray R) : Except PyErr (NDArray R) :=
  if a.shape = b.shape then .ok (build a.shape fun idx => a.get idx * b.get idx)
  else if a.shape = [] then .ok (build b.shape fun idx => a.get [] * b.get idx)
  else if b.shape = [] then .ok (build a.shape fun idx => a.get idx * b.get [])
  else match a.shape, b.shape with
    | [1], [n] => .ok (build [n] fun idx => a.get [0] * b.get idx)
    | [n], [1] => .ok (build [n] fun idx => a.get idx * b.get [0])
    | _, _ => .error .valueError

/-- `a * v` where `v` is 1-d and is broadcast along the last axis of `a`; ValueError when the last
dimension is not the length of `v` (a length 1 on either side would broadcast; CTL never relies on
that and it is treated as an error). -/
def mulLast [NonUnitalNonAssocSemiring R] (a v : NDArray R) : Except PyErr (NDArray R) :=
  if v.shape = [a.shape.getLastD 0] ∧ a.shape ≠ [] then
    .ok (build a.shape fun idx => a.get idx * v.get [idx.getLastD 0])
  else .error .valueError

/-- `numpy.einsum('...jj…j->...j', a)` with `m` letters `j` : take the joint diagonal of the last `m`
axes.  ValueError when there are fewer axes, when `m = 0` (no `j` in the input), or when the last
axes have different lengths. -/
def diagLast [Zero R] (a : NDArray R) (m : Nat) : Except PyErr (NDArray R) :=
  let n := a.shape.length - m
  let l := (a.shape.drop n).headD 0
  if m = 0 ∨ a.shape.length < m ∨ ¬ (∀ d ∈ a.shape.drop n, d = l) then .error .valueError
  else .ok (build (a.shape.take n ++ [l]) fun idx =>
    a.get (idx.take n ++ List.replicate m (idx.getD n 0)))

/-- Assignment through the writable diagonal view: an all-zero array with `m` trailing axes of the
length of the last axis of `a`, then `einsum('...jj…j->...j', z)[...] = a`. -/
def embedDiagLast [Zero R] (a : NDArray R) (m : Nat) : NDArray R :=
  let n := a.shape.length - 1
  let l := a.shape.getLastD 0
  build (a.shape.take n ++ List.replicate m l) fun idx =>
    let tail := idx.drop n
    if ∀ j ∈ tail, j = tail.headD 0 then a.get (idx.take n ++ [tail.headD 0]) else 0

/-- Assignment through the writable view on the leading axes: zeros of shape `(l,)*m + rest`, then
`einsum('jj…j...->j...', z)[...] = a` for `a` of shape `(l,) + rest`.  ValueError when `m = 0`. -/
def embedDiagFirst [Zero R] (a : NDArray R) (m : Nat) : Except PyErr (NDArray R) :=
  if m = 0 ∨ a.shape = [] then .error .valueError
  else
    let l := a.shape.headD 0
    .ok (build (List.replicate m l ++ a.shape.tail) fun idx =>
      let hd := idx.take m
      if ∀ j ∈ hd, j = hd.headD 0 then a.get (hd.headD 0 :: idx.drop m) else 0)

/-- `numpy.sum(a, axis)`; out-of-range axes are errors. -/
def sumAxis [NonUnitalNonAssocSemiring R] (a : NDArray R) (axis : Nat) : Except PyErr (NDArray R) :=
  if axis < a.shape.length then
    .ok (build (a.shape.eraseIdx axis) fun idx =>
      ((List.range (a.shape.getD axis 0)).map fun t => a.get (idx.insertIdx axis t)).sum)
  else .error .indexError

/-- `numpy.sum(a)` over all entries. -/
def sumAll [NonUnitalNonAssocSemiring R] (a : NDArray R) : R := a.data.sum

/-- `numpy.trace(a)` of a matrix. -/
def trace2 [NonUnitalNonAssocSemiring R] (a : NDArray R) : R :=
  ((List.range (min (a.shape.getD 0 0) (a.shape.getD 1 0))).map fun t => a.get [t, t]).sum

/-- A 0-d array. -/
def scalar (x : R) : NDArray R := ⟨[], [x]⟩

/-- The number of entries matches the shape.  Every NumPy array satisfies it. -/
def WF (a : NDArray R) : Prop := a.data.length = a.shape.prod

end NDArray

/-- `idx` is a valid index tuple of an array of shape `shape`. -/
def ValidIdx (shape idx : List Nat) : Prop := List.Forall₂ (· < ·) idx shape

end CTL
