import Verif.Model.Contract
import Verif.Spec.Network

/-! # What it means to contract two tensors over a list of joined leg pairs -/

namespace CTL
variable {R : Type}

/-- Two stores with the same legs (dimension, name, bond) and the same bonds up to orientation: only the
owner of a leg may differ. -/
structure SameNet (st st' : Store) : Prop where
  dim : st'.dim = st.dim
  name : st'.name = st.name
  bondOf : ∀ l, (st'.leg l).bond = (st.leg l).bond
  partner : BondInv st → ∀ l, st'.partner l = st.partner l
  inv : BondInv st → BondInv st'
  nextLeg : st'.nextLeg = st.nextLeg
  nextBond : st'.nextBond = st.nextBond

/-- `ps` is a list of joined pairs between the distinct legs `la` and `lb`: every leg occurs at most once,
and the two legs of a pair have the same dimension. -/
structure PairsOK (st : Store) (la lb : List LegId) (ps : List (LegId × LegId)) : Prop where
  nodup : (ps.map Prod.fst ++ ps.map Prod.snd).Nodup
  subA : ps.map Prod.fst ⊆ la
  subB : ps.map Prod.snd ⊆ lb
  dims : ∀ p ∈ ps, st.dim p.2 = st.dim p.1
  na : la.Nodup
  nb : lb.Nodup
  disj : ∀ x ∈ la, x ∉ lb

/-- Legs of the result: what remains on either side. -/
def restA (la : List LegId) (ps : List (LegId × LegId)) : List LegId :=
  la.filter fun l => decide (l ∉ ps.map Prod.fst)
def restB (lb : List LegId) (ps : List (LegId × LegId)) : List LegId :=
  lb.filter fun l => decide (l ∉ ps.map Prod.snd)

/-- The specification of one contraction over the joined pairs `ps`, in terms of legs and entries only. -/
structure Contracted [NonUnitalNonAssocSemiring R] (st : Store) (ta tb : Tensor R)
    (ps : List (LegId × LegId)) (o : ContractOut R) : Prop where
  legs : o.result.legs.Perm
    (restA ta.legs ps ++ restB tb.legs ps)
  good : GoodTensor o.store o.result
  same : SameNet st o.store
  entry : ∀ σ, InRange st.dim o.result.legs σ →
    entry o.result σ
      = sumBonds st.dim ps (fun τ => CTL.entry ta τ * CTL.entry tb τ) σ
  keepA : o.ta.legs.Perm ta.legs ∧ GoodTensor o.store o.ta ∧
    ∀ σ, InRange st.dim ta.legs σ → CTL.entry o.ta σ = CTL.entry ta σ
  keepB : o.tb.legs.Perm tb.legs ∧ GoodTensor o.store o.tb ∧
    ∀ σ, InRange st.dim tb.legs σ → CTL.entry o.tb σ = CTL.entry tb σ

end CTL
