import Verif.Model.MPS

/-! Model of the test whether a matrix product state is canonical: `isIsometry` of `src/CTL/tensor/tensorFunc.py` and
`checkCanonical` of `src/CTL/examples/MPS.py`. -/

namespace CTL
variable {R : Type}

/-- `tensorFunc.py` 10-39 `isIsometry`.  `isId` stands for `checkIdentity` (`funcs.py` 358-374), which compares a norm
with a threshold; `identityTest` of `Model/MatrixError.lean` is put in for it in C64.  The warnings are left out. -/
def isIsometry [NonUnitalNonAssocSemiring R] [Star R] (castF : R → R) (isId : NDArray R → Bool) (st : Store) (t : Tensor R)
    (labels : List String) : Except PyErr Bool := do
  pyAssert (labels.all fun l => decide (l ∈ t.labels st))
  if t.like then pure true
  else
    let mat ← t.toMatrixAny castF none (some (t.legsOfLabels st labels))
    let iden ← mat.matmul mat.conjTranspose
    pure (isId iden)

namespace MPS

/-- The labels of `checkCanonical` (`MPS.py` 183-188) for the tensor `i` of `n` tensors. -/
def canonLabels (n excep i : Nat) : List String :=
  if i = 0 ∨ i = n - 1 then ["o"]
  else if i < excep then ["l", "o"]
  else ["r", "o"]

/-- The loop of `checkCanonical` (`MPS.py` 180-191), which stops at the first tensor that fails. -/
def checkLoop [NonUnitalNonAssocSemiring R] [Star R] (castF : R → R) (isId : NDArray R → Bool) (st : Store) (m : MPS R)
    (excep : Nat) : List Nat → Except PyErr Bool
  | [] => .ok true
  | i :: is =>
    if i = excep then checkLoop castF isId st m excep is
    else
      match m.tensors[i]? with
      | none => .error .indexError
      | some t => do
        let b ← isIsometry castF isId st t (canonLabels m.tensors.length excep i)
        if b then checkLoop castF isId st m excep is else pure false

/-- `MPS.py` 165-193 `checkCanonical`.  The answer for a state without tensors (lines 176-178) is never reached: the
assertion of line 175 refuses every index. -/
def checkCanonical [NonUnitalNonAssocSemiring R] [Star R] (castF : R → R) (isId : NDArray R → Bool) (st : Store) (m : MPS R)
    (excepIdx : Option Int) : Except PyErr Bool := do
  let idx : Int ← match excepIdx with
    | some i => pure i
    | none => match m.activeIdx with
      | none => throw .assertionError
      | some i => pure (i : Int)
  pyAssert (m.isIndex idx)
  checkLoop castF isId st m idx.toNat (List.range m.tensors.length)

end MPS
end CTL
