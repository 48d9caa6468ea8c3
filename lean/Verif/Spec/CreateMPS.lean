import Verif.Spec.MPS
import Verif.Spec.Canon
import Verif.Spec.Value
import Verif.Spec.Decompose

/-! What it means that a matrix product state has been made from a tensor (C47). -/

namespace CTL
variable {R : Type}

/-- The chain `ts` in the store `st'` was made from the tensor `t` in the store `st`, with bonds of at most `chi`. -/
structure MadeFrom [CommRing R] [StarRing R] (la : LinAlg R) (chi : Option Nat) (st : Store) (t : Tensor R) (st' : Store)
    (ts : List (Tensor R)) (lft rgt : Nat → LegId) : Prop where
  chain : Chain st' ts t.legs lft rgt
  width : ∀ c, chi = some c → ∀ i, i + 1 < ts.length → st'.dim (rgt i) ≤ c
  rank : ∀ i, i + 1 < ts.length →
    st'.dim (rgt i) ≤ min ((t.legs.take (i + 1)).map st.dim).prod ((t.legs.drop (i + 1)).map st.dim).prod
  grow : st.nextLeg ≤ st'.nextLeg ∧ st.nextTensor ≤ st'.nextTensor
  isNew : ∀ i, i + 1 < ts.length → st.nextLeg ≤ rgt i ∧ st.nextLeg ≤ lft (i + 1)
  kept : ∀ l < st.nextLeg, st'.dim l = st.dim l ∧ (st'.leg l).bond = (st.leg l).bond ∧ st'.partner l = st.partner l
  other : ∀ l < st.nextLeg, l ∉ t.legs → st'.leg l = st.leg l
  owner : ∀ u ∈ ts, ∀ l ∈ u.legs, (st'.leg l).tensor = some u.id
  ids : (ts.map fun u => u.id).Nodup ∧ ∀ u ∈ ts, st.nextTensor ≤ u.id ∧ u.id < st'.nextTensor
  canonical : UnitaryLinAlg la → CanonicalAt st' ts t.legs lft rgt (ts.length - 1)
  value : RankRevealing la → (∀ c, chi = some c → ∀ i, 0 < i → i < t.legs.length →
    min ((t.legs.take i).map st.dim).prod ((t.legs.drop i).map st.dim).prod ≤ c) → SameValue st [t] st' ts

end CTL
