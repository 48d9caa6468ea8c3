import Verif.Model.Copy
import Verif.Model.MPS

/-!
Model of `copyTensorList` (`src/CTL/tensor/contract/optimalContract.py`) with `linkOutgoingBonds = True`, and of the constructor of
`FreeBoundaryMPS` (`src/CTL/examples/MPS.py`) with `inplace = False`.

`del leg.bond` takes the attribute away: whoever reads `leg.bond` afterwards gets an AttributeError.  In the model the leg gets `bond := none`, and
the legs without the attribute are a list that goes through the function.
-/

namespace CTL
variable {R : Type}

/-- `del leg.bond`, as far as the store is concerned. -/
def Store.delBond (st : Store) (l : LegId) : Store := st.setLeg l { st.leg l with bond := none }

/-- Objects, legs without the attribute `bond`, and `addedBonds`. -/
structure OutState where
  store : Store
  gone : List LegId
  added : List BondId

/-- `optimalContract.py` 42-57, the body of the loops for `leg`, `newLeg1`.  `leg2.bond` is only written. -/
def copyBondOut (ps : List (Tensor R × Tensor R)) (s : OutState) (p : LegId × LegId) : Except PyErr OutState :=
  if p.1 ∈ s.gone then .error .attributeError
  else
    match (s.store.leg p.1).bond with
    | none => .ok s
    | some b =>
      if b ∈ s.added then .ok s
      else do
        let m ← s.store.bondAnotherSide b p.1
        match (s.store.leg m).tensor.bind (copiedAs ps) with
        | none =>
          let st ← linkOr (makeLinkLegs (s.store.delBond p.1) [p.2] [m])
          pure ⟨st, p.1 :: s.gone, b :: s.added⟩
        | some q =>
          match q.1.legs.idxOf? m with
          | none => throw .valueError
          | some i =>
            match q.2.legs[i]? with
            | none => throw .indexError
            | some n =>
              let st ← linkOr (makeLinkLegs s.store [p.2] [n])
              pure ⟨st, s.gone, b :: s.added⟩

/-- `optimalContract.py` 8-60 `copyTensorList` with `linkOutgoingBonds = True`; `gone` are the legs that have lost the attribute before. -/
def copyTensorListOut [Zero R] [One R] (rand : List Nat → List Nat → R) (st : Store) (gone : List LegId) (ts : List (Tensor R))
    (likeFlag : Bool := false) : Except PyErr (Store × List LegId × List (Tensor R)) := do
  let (st1, cs) ← copyEach rand likeFlag st ts
  let ps := ts.zip cs
  let s ← (copyPairs ps ts).foldlM (copyBondOut ps) ⟨st1, gone, []⟩
  pure (s.store, s.gone, cs)

/-- `MPS.py` 78-93 `__init__` with `inplace = False`, for tensors whose legs have the attribute `bond`. -/
def MPS.newCopied [Zero R] [One R] (rand : List Nat → List Nat → R) (st : Store) (ts : List (Tensor R)) (chi : Option Int) :
    Except PyErr (Store × List LegId × MPS R) := do
  let (st1, ok) ← checkProperty st ts
  if ok = false then throw .valueError
  let (st2, gone, cs) ← copyTensorListOut rand st1 [] ts
  let (st3, c) ← getChi st2 cs chi
  let st4 ← renameBonds st3 cs
  pure (st4, gone, ⟨cs, c, none⟩)

end CTL
