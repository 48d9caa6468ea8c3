import Verif.Model.FTN

/-!
Model of `copyTensorList` (`src/CTL/tensor/contract/optimalContract.py`), of `Tensor.toTensorLike`, and of the
contraction that does not work in place.
-/

namespace CTL
variable {R : Type}

/-- `tensor.py` 672-684 and `diagonalTensor.py` 592-604 `toTensorLike`. -/
def Tensor.toTensorLike [Zero R] [One R] (rand : List Nat → List Nat → R) (st : Store) (t : Tensor R) :
    Except PyErr (Store × Tensor R) :=
  if t.like then t.copy rand st
  else
    let c : CArgs R := { shape := some (.tuple (t.shape st)), labels := some (t.labels st), data := none, like := true }
    if t.diag then constructDiag st c else construct rand st c

/-- `optimalContract.py` 28-35: the copies. -/
def copyEach [Zero R] [One R] (rand : List Nat → List Nat → R) (likeFlag : Bool) :
    Store → List (Tensor R) → Except PyErr (Store × List (Tensor R))
  | st, [] => .ok (st, [])
  | st, t :: ts => do
    let (st1, t1) ← if likeFlag then t.toTensorLike rand st else t.copy rand st
    let (st2, ts2) ← copyEach rand likeFlag st1 ts
    pure (st2, t1 :: ts2)

/-- `tensorMap[tensor]`, with the tensor itself: the last entry counts. -/
def copiedAs (ps : List (Tensor R × Tensor R)) (id : TensorId) : Option (Tensor R × Tensor R) :=
  ps.reverse.find? fun p => p.1.id == id

/-- `optimalContract.py` 42-57, the body of the loops for `leg`, `newLeg1`, on the pair of the objects and `addedBonds`.
`list.index` raises ValueError. -/
def copyBond (ps : List (Tensor R × Tensor R)) (s : Store × List BondId) (p : LegId × LegId) :
    Except PyErr (Store × List BondId) :=
  match (s.1.leg p.1).bond with
  | none => .ok s
  | some b =>
    if b ∈ s.2 then .ok s
    else do
      let m ← s.1.bondAnotherSide b p.1
      match (s.1.leg m).tensor.bind (copiedAs ps) with
      | none => pure (s.1, b :: s.2)
      | some q =>
        match q.1.legs.idxOf? m with
        | none => throw .valueError
        | some i =>
          match q.2.legs[i]? with
          | none => throw .indexError
          | some n =>
            let st ← linkOr (makeLinkLegs s.1 [p.2] [n])
            pure (st, b :: s.2)

/-- `optimalContract.py` 40-41: the pairs of `leg` and `newLeg1` in the order of the loops. -/
def copyPairs (ps : List (Tensor R × Tensor R)) (ts : List (Tensor R)) : List (LegId × LegId) :=
  ts.flatMap fun t => match copiedAs ps t.id with
    | some q => t.legs.zip q.2.legs
    | none => []

/-- `optimalContract.py` 8-60 `copyTensorList` with `linkOutgoingBonds = False`. -/
def copyTensorList [Zero R] [One R] (rand : List Nat → List Nat → R) (st : Store) (ts : List (Tensor R))
    (likeFlag : Bool := false) : Except PyErr (Store × List (Tensor R)) := do
  let (st1, cs) ← copyEach rand likeFlag st ts
  let ps := ts.zip cs
  let s ← (copyPairs ps ts).foldlM (copyBond ps) (st1, [])
  pure (s.1, cs)

/-- `optimalContract.py` 182-237 `contractAndCostWithSequence` with a given sequence and `inplace = False`. -/
def contractCopied [CommSemiring R] (rand : List Nat → List Nat → R) (cast : R → R) (st : Store) (ts : List (Tensor R))
    (seq : List (Nat × Nat)) : Except PyErr (Store × Tensor R × Nat) := do
  let (st1, cs) ← copyTensorList rand st ts
  contractInPlace cast st1 cs seq

end CTL
