import Verif.Spec.Copy

/-! Copies that take over the bonds to other tensors. -/

namespace CTL
variable {R : Type}

/-- `l` is a leg of one of the tensors. -/
def LegIn (ts : List (Tensor R)) (l : LegId) : Prop := ∃ t ∈ ts, l ∈ t.legs

/-- The tensors `cs` are copies of `ts`, the copy of the leg `l` being `κ l`, and have taken over all bonds to other tensors: a bond between two
legs of `ts` is there twice, the other bonds now lead to the copy.  `gone` are the legs of `ts` that have lost their bond. -/
structure TakenOver (st st' : Store) (shapeOnly : Bool) (ts cs : List (Tensor R)) (κ : LegId → LegId) (gone : List LegId) : Prop where
  copies : List.Forall₂ (CopyOf st st' shapeOnly) ts cs
  legs : List.Forall₂ (fun t c => c.legs = t.legs.map κ) ts cs
  ids : (cs.map fun c => c.id).Nodup
  nodup : (cs.flatMap fun c => c.legs).Nodup
  wf : WFStore st'
  le : st.nextLeg ≤ st'.nextLeg
  attr : ∀ l < st.nextLeg, st'.dim l = st.dim l ∧ st'.name l = st.name l ∧ (st'.leg l).tensor = (st.leg l).tensor
  free : ∀ l, LegIn ts l → st.partner l = none → st'.partner (κ l) = none ∧ st'.partner l = none
  inner : ∀ l m, LegIn ts l → LegIn ts m → st.partner l = some m → st'.partner (κ l) = some (κ m) ∧ st'.partner l = some m
  outer : ∀ l m, LegIn ts l → ¬ LegIn ts m → st.partner l = some m →
    st'.partner (κ l) = some m ∧ st'.partner m = some (κ l) ∧ st'.partner l = none
  gone : ∀ l, l ∈ gone ↔ LegIn ts l ∧ ∃ m, ¬ LegIn ts m ∧ st.partner l = some m
  others : ∀ l < st.nextLeg, ¬ LegIn ts l → (∀ m, st.partner l = some m → ¬ LegIn ts m) → st'.leg l = st.leg l ∧ st'.partner l = st.partner l

end CTL
