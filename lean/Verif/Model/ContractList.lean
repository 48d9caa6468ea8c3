import Verif.Model.Copy
import Verif.Model.MakeGraph

/-! The functions by which lists of tensors are contracted, with all their options, `src/CTL/tensor/contract/optimalContract.py`. -/

namespace CTL
variable {R : Type}

/-- `optimalContract.py` 182-237 `contractAndCostWithSequence`: the sequence is found for the given tensors (218-224), the copies are
contracted (229-230), or the tensors themselves.  `mode` stands for `greedy` and `bf`; `none` if the search does not return within `fuel`
rounds. -/
def contractAndCostWithSequence [CommSemiring R] (rand : List Nat → List Nat → R) (cast : R → R) (st : Store) (ts : List (Tensor R))
    (seq : Option (List (Nat × Nat))) (mode : Mode) (typ : Option Nat) (inplace : Bool) (fuel : Nat) :
    Option (Except PyErr (Store × Tensor R × Nat)) :=
  let run (q : List (Nat × Nat)) := if inplace then contractInPlace cast st ts q else contractCopied rand cast st ts q
  match seq with
  | some q => some (run q)
  | none => (generateSequence st ts mode typ fuel).map fun r => do
      let r ← r
      run r.2

/-- `optimalContract.py` 239-249 `contractWithSequence`: never greedy; the cost is dropped. -/
def contractWithSequence [CommSemiring R] (rand : List Nat → List Nat → R) (cast : R → R) (st : Store) (ts : List (Tensor R))
    (seq : Option (List (Nat × Nat))) (bf : Bool) (typ : Option Nat) (inplace : Bool) (fuel : Nat) :
    Option (Except PyErr (Store × Tensor R)) :=
  (contractAndCostWithSequence rand cast st ts seq (if bf then .bruteForce else .capping) typ inplace fuel).map fun r => do
    let r ← r
    pure (r.1, r.2.1)

/-- `optimalContract.py` 251-266 `contractTensorList`: all options left at their defaults. -/
def contractTensorList [CommSemiring R] (rand : List Nat → List Nat → R) (cast : R → R) (st : Store) (ts : List (Tensor R)) (fuel : Nat) :
    Option (Except PyErr (Store × Tensor R)) :=
  contractWithSequence rand cast st ts none false (some 10) false fuel

end CTL
