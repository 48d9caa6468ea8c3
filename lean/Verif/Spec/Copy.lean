import Verif.Spec.Links

/-! What a copy of a list of tensors is. -/

namespace CTL
variable {R : Type}

/-- A tensor object, with or without data, that is consistent with its legs.  A diagonal tensor with data has at least
one leg. -/
structure Copyable (st : Store) (t : Tensor R) : Prop where
  nodup : t.legs.Nodup
  nodata : t.like = true → t.a = none
  data : t.like = false → ∃ arr, t.a = some arr ∧ (t.diag = false → arr.shape = t.legs.map st.dim) ∧
    (t.diag = true → t.legs ≠ [] ∧ arr.shape = [t.length])
  length : t.diag = true → (∀ l ∈ t.legs, st.dim l = t.length) ∧ (t.legs = [] → t.length = 1)

/-- Legs and bonds that existed before are what they were. -/
structure Untouched (st st' : Store) : Prop where
  leg : ∀ l < st.nextLeg, st'.leg l = st.leg l
  bond : ∀ b < st.nextBond, st'.bond b = st.bond b

/-- The tensor `c` is a copy of `t`: the same labels, dimensions and data in the same positions.  With `shapeOnly`, the
copy has no data. -/
structure CopyOf (st st' : Store) (shapeOnly : Bool) (t c : Tensor R) : Prop where
  labels : c.legs.map st'.name = t.legs.map st.name
  dims : c.legs.map st'.dim = t.legs.map st.dim
  data : c.a = if shapeOnly then none else t.a
  like : c.like = (shapeOnly || t.like)
  diag : c.diag = t.diag
  length : t.diag = true → c.length = t.length
  newId : st.nextTensor ≤ c.id ∧ c.id < st'.nextTensor
  newLegs : ∀ l ∈ c.legs, st.nextLeg ≤ l ∧ l < st'.nextLeg ∧ (st'.leg l).tensor = some c.id

/-- A list of different tensors: they share no leg, know their legs, and a leg that is joined to one of their legs and
says it belongs to one of them does. -/
structure TensorList (st : Store) (ts : List (Tensor R)) : Prop where
  wf : WFStore st
  good : ∀ t ∈ ts, Copyable st t
  ids : (ts.map (·.id)).Nodup
  known : ∀ t ∈ ts, ∀ l ∈ t.legs, l < st.nextLeg ∧ (st.leg l).tensor = some t.id
  inside : ∀ t ∈ ts, ∀ l ∈ t.legs, ∀ m, st.partner l = some m → ∀ u ∈ ts, (st.leg m).tensor = some u.id → m ∈ u.legs

/-- Leg `p` of the `i`-th tensor. -/
def legOf (ts : List (Tensor R)) (i p : Nat) : Option LegId := ts[i]?.bind fun t => t.legs[p]?

end CTL
