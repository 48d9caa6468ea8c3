import Verif.Spec.Sequence

/-! Two networks with the same value. -/

namespace CTL
variable {R : Type}

/-- The networks `ts` and `ts'` have the same free legs and, for all values of these, the same value. -/
structure SameValue [CommSemiring R] (st : Store) (ts : List (Tensor R)) (st' : Store) (ts' : List (Tensor R)) : Prop where
  good : GoodNet st ts
  good' : GoodNet st' ts'
  free : ∀ l, FreeLeg st' ts' l ↔ FreeLeg st ts l
  dims : ∀ l, FreeLeg st ts l → st'.dim l = st.dim l
  value : ∀ ps ps', IsBondList st ts ps → IsBondList st' ts' ps' → ∀ σ, (∀ l, FreeLeg st ts l → σ l < st.dim l) →
    netSum st' ts' ps' σ = netSum st ts ps σ

end CTL
