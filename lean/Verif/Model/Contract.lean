import Verif.Model.Tensor

/-!
Model of `src/CTL/tensor/contract/contract.py` (`shareBonds`, `contractTwoTensors`) and of the
constructor calls it makes.
-/

namespace CTL

variable {R : Type}

/-- `contract.py` 8-28 `shareBonds`: one pass over the legs of `ta`; a bond whose other leg belongs to
`tb` is collected, and its pair of legs is swapped when the leg of `ta` is the second one
(`funcs.tupleSwap`). -/
def shareBondsLoop (tbLegs : List LegId) : List LegId → Store → Except PyErr (Store × List BondId)
  | [], st => .ok (st, [])
  | l :: ls, st => do
    match (st.leg l).bond with
    | none => shareBondsLoop tbLegs ls st
    | some b =>
      let other ← st.bondAnotherSide b l
      if other ∈ tbLegs then
        let st1 := if l = (st.bond b).2 then st.setBond b ((st.bond b).2, (st.bond b).1) else st
        let (st2, bs) ← shareBondsLoop tbLegs ls st1
        pure (st2, b :: bs)
      else shareBondsLoop tbLegs ls st

def shareBonds (st : Store) (ta tb : Tensor R) : Except PyErr (Store × List BondId) :=
  shareBondsLoop tb.legs ta.legs st

/-- `Tensor(shape = shape, data = data, legs = legs)` with all three given (`tensor.py` 320-333, 357,
364-366, 251-283): the shape is checked against the legs, the data size against the shape, the data is
reshaped, and the legs are handed to the new tensor.  `data = none` is the call with
`tensorLikeFlag = True`. -/
def newTensor (st : Store) (shape : List Nat) (data : Option (NDArray R)) (legs : List LegId) :
    Except PyErr (Store × Tensor R) :=
  if shape ≠ legs.map st.dim then .error .valueError
  else
    let mk (d : Option (NDArray R)) : Store × Tensor R :=
      ({ st.setOwner legs st.nextTensor with nextTensor := st.nextTensor + 1 },
        ⟨st.nextTensor, legs, d, false, d.isNone, 0⟩)
    match data with
    | none => .ok (mk none)
    | some d =>
      match d.reshape shape with
      | .ok d' => .ok (mk (some d'))
      | .error e => .error e

/-- `DiagonalTensor(shape = shape, data = data, legs = legs)` (`diagonalTensor.py` 262-278, 367, 389-391,
218-240, 414-417): the legs must have one common dimension; 1-d data is copied, other data is read on
its diagonal (`shape[0]` is an IndexError for the empty shape). `data = none` is the call with
`tensorLikeFlag = True`. -/
def newDiagonal [Zero R] (st : Store) (shape : List Nat) (data : Option (NDArray R))
    (legs : List LegId) : Except PyErr (Store × Tensor R) :=
  if ¬ (∀ l ∈ legs, st.dim l = (legs.map st.dim).headD 0) then .error .valueError
  else if shape ≠ legs.map st.dim then .error .valueError
  else
    let len := if shape = [] then 1 else shape.headD 0
    let mk (d : Option (NDArray R)) : Store × Tensor R :=
      ({ st.setOwner legs st.nextTensor with nextTensor := st.nextTensor + 1 },
        ⟨st.nextTensor, legs, d, true, d.isNone, len⟩)
    match data with
    | none => .ok (mk none)
    | some d =>
      if (d.shape.length = 1 ∧ shape ≠ [] ∧ d.shape.headD 0 = shape.headD 0)
          ∨ tupleProduct d.shape = tupleProduct shape then
        if d.shape.length = 1 then .ok (mk (some d))
        else if shape = [] then .error .indexError
        else .ok (mk (some (NDArray.build [shape.headD 0] fun idx =>
          d.get (List.replicate shape.length (idx.headD 0)))))
      else .error .valueError

/-- `DiagonalTensor(data = x)` for a 0-d `x` (`diagonalTensor.py` 256-259): a scalar without legs. -/
def newScalarDiagonal (st : Store) (x : R) : Store × Tensor R :=
  ({ st with nextTensor := st.nextTensor + 1 },
    ⟨st.nextTensor, [], some (NDArray.scalar x), true, false, 1⟩)

/-- `contract.py` 68-98: no shared bonds, outer product.  `cast` is the conversion to the dtype of `ta.a`
that the assignment into `zeros(shape, dtype = ta.a.dtype)` performs. -/
def outerContract [NonUnitalNonAssocSemiring R] (cast : R → R) (st : Store) (ta tb : Tensor R) :
    Except PyErr (Store × Tensor R) := do
  let shape := ta.shape st ++ tb.shape st
  let legs := ta.legs ++ tb.legs
  if ta.diag && tb.diag then
    if ta.like then newDiagonal st shape none legs
    else match ta.a, tb.a with
      | some x, some y =>
        let d ← x.mulBroadcast y
        newDiagonal st shape (some d) legs
      | _, _ => throw .attributeError
  else if ta.diag then
    if ta.like then newTensor st shape none legs
    else match ta.a, tb.a with
      | some x, some y =>
        let o := x.outer y
        let d ← (NDArray.build o.shape fun i => cast (o.get i)).embedDiagFirst ta.legs.length
        newTensor st shape (some d) legs
      | _, _ => throw .attributeError
  else
    if ta.like then newTensor st shape none legs
    else match ta.a, tb.a with
      | some x, some y => newTensor st shape (some (x.outer y)) legs
      | _, _ => throw .attributeError

/-- `contract.py` 107-179: contraction over a non-empty list of bonds.  `tb` is returned because
`tb.moveLegsToFront` (136) mutates it. -/
def bondContract [NonUnitalNonAssocSemiring R] (st : Store) (ta tb : Tensor R) (bonds : List BondId) :
    Except PyErr (Store × Tensor R × Tensor R) := do
  let aLegs := bonds.map fun b => (st.bond b).1
  let bLegs := bonds.map fun b => (st.bond b).2
  let ra ← ta.complementLegs aLegs
  let rb ← tb.complementLegs bLegs
  let newLegs := ra ++ rb
  let newShape := newLegs.map st.dim
  if ta.diag && tb.diag then
    if ta.like then
      let (s, t) ← newDiagonal st newShape none newLegs
      pure (s, t, tb)
    else match ta.a, tb.a with
      | some x, some y =>
        let d ← x.mulBroadcast y
        if newLegs ≠ [] then
          let (s, t) ← newDiagonal st newShape (some d) newLegs
          pure (s, t, tb)
        else
          let (s, t) := newScalarDiagonal st d.sumAll
          pure (s, t, tb)
      | _, _ => throw .attributeError
  else if ta.diag then
    if ta.like then
      let (s, t) ← newTensor st newShape none newLegs
      pure (s, t, tb)
    else
      let (tb', r) := tb.moveLegsToFront rb
      r
      match ta.a, tb'.a with
      | some x, some y =>
        let d0 ← y.diagLast bLegs.length
        let d ← d0.mulLast x
        let newData ← (if ra.length = 0 then d.sumAxis (d.shape.length - 1)
          else pure (d.embedDiagLast ra.length))
        let newLegs' := rb ++ ra
        let (s, t) ← newTensor st (newLegs'.map st.dim) (some newData) newLegs'
        pure (s, t, tb')
      | _, _ => throw .attributeError
  else if ta.like then
    let (s, t) ← newTensor st newShape none newLegs
    pure (s, t, tb)
  else
    let dataA ← ta.toMatrix none (some aLegs)
    let dataB ← tb.toMatrix (some bLegs) none
    let prod ← dataA.matmul dataB
    let newData ← prod.reshape newShape
    let (s, t) ← newTensor st newShape (some newData) newLegs
    pure (s, t, tb)

/-- The result of a contraction: the store, the new tensor, and the two operands as they are left. -/
structure ContractOut (R : Type) where
  store : Store
  result : Tensor R
  ta : Tensor R
  tb : Tensor R

/-- `contract.py` 60-179 for operands in the order in which they are processed. -/
def contractOrdered [NonUnitalNonAssocSemiring R] (cast : R → R) (st : Store) (ta tb : Tensor R)
    (bonds : Option (List BondId)) : Except PyErr (ContractOut R) := do
  let (st1, bs) ← match bonds with
    | some bs => pure (st, bs)
    | none => shareBonds st ta tb
  if ta.like ≠ tb.like then throw .typeError
  if bs = [] then
    let (s, t) ← outerContract cast st1 ta tb
    pure ⟨s, t, ta, tb⟩
  else
    let (s, t, tb') ← bondContract st1 ta tb bs
    pure ⟨s, t, ta, tb'⟩

/-- `contract.py` 36-179 `contractTwoTensors`; lines 58-59 swap the operands (with the same `bonds`) when
only the second one is diagonal. -/
def contractTwoTensors [NonUnitalNonAssocSemiring R] (cast : R → R) (st : Store) (ta tb : Tensor R)
    (bonds : Option (List BondId)) : Except PyErr (ContractOut R) :=
  if !ta.diag && tb.diag then
    (contractOrdered cast st tb ta bonds).map fun o => ⟨o.store, o.result, o.tb, o.ta⟩
  else contractOrdered cast st ta tb bonds

end CTL
