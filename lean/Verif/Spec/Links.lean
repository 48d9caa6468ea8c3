import Verif.Model.Link
import Verif.Model.Contract
import Verif.Spec.Network

/-! # Well-formed object graphs and the histories that build them -/

namespace CTL
variable {R : Type}

/-- Legs and bonds agree, and only allocated legs and bonds are in use. -/
structure WFStore (st : Store) : Prop where
  inv : BondInv st
  freshLeg : ∀ l b, (st.leg l).bond = some b → l < st.nextLeg
  freshBond : ∀ l b, (st.leg l).bond = some b → b < st.nextBond

/-- `l` is one of the two legs of the pair `p`. -/
def InPair (p : Option LegId × Option LegId) (l : LegId) : Prop := p.1 = some l ∨ p.2 = some l

/-- The legs of the pairs exist, are free, and no leg occurs in two pairs. -/
structure FreePairs (st : Store) (ps : List (Option LegId × Option LegId)) : Prop where
  free : ∀ p ∈ ps, ∀ l, InPair p l → (st.leg l).bond = none ∧ l < st.nextLeg
  disj : ps.Pairwise fun p q => ∀ l, InPair p l → ¬ InPair q l

/-- Stores that arise from the empty one by creating legs, linking legs that are free at the time of the call
(whether or not the call raises), renaming, changing owners and asking for shared bonds. -/
inductive Reachable : Store → Prop
  | empty : Reachable Store.empty
  | newLeg {st} (h : Reachable st) (t : Option TensorId) (d : Nat) (n : String) : Reachable (st.newLeg t d n).1
  | link {st} (h : Reachable st) {R : Type} (ta tb : Option (Tensor R)) (legA legB : List LegRef)
      (la lb : List (Option LegId)) (ha : legA.mapM (resolveRef st ta) = .ok la)
      (hb : legB.mapM (resolveRef st tb) = .ok lb) (free : FreePairs st (la.zip lb)) :
      Reachable (makeLink st legA legB ta tb).1
  | rename {st} (h : Reachable st) (l : LegId) (n : String) : Reachable (st.rename l n)
  | owner {st} (h : Reachable st) (ls : List LegId) (t : TensorId) : Reachable (st.setOwner ls t)
  | share {st st'} (h : Reachable st) {R : Type} (ta tb : Tensor R) (bs : List BondId) (na : ta.legs.Nodup)
      (disj : ∀ x ∈ ta.legs, x ∉ tb.legs) (hs : shareBonds st ta tb = .ok (st', bs)) : Reachable st'

end CTL
