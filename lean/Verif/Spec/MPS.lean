import Verif.Model.MPS
import Verif.Spec.Decompose

/-! What a matrix product state is expected to be: a chain of tensors. -/

namespace CTL
variable {R : Type}

/-- The legs of site `i` of a chain of `n` sites: the physical leg, the leg to the right and the leg to the left. -/
def siteLegs (n : Nat) (phys : List LegId) (lft rgt : Nat → LegId) (i : Nat) : List LegId :=
  phys.getD i 0 :: ((if i + 1 < n then [rgt i] else []) ++ (if 0 < i then [lft i] else []))

/-- `ts` is a chain with the physical legs `phys`, where site `i` has the leg `lft i` to the left and `rgt i` to the
right; the names of the legs are not looked at. -/
structure ChainLinks [Zero R] (st : Store) (ts : List (Tensor R)) (phys : List LegId) (lft rgt : Nat → LegId) : Prop where
  wf : WFStore st
  len : phys.length = ts.length
  good : ∀ t ∈ ts, GoodTensor st t ∧ t.diag = false
  legs : ∀ (i : Nat) (t : Tensor R), ts[i]? = some t → t.legs.Perm (siteLegs ts.length phys lft rgt i)
  old : ∀ t ∈ ts, ∀ l ∈ t.legs, l < st.nextLeg
  disj : ∀ i < ts.length, ∀ j < ts.length, i ≠ j → ∀ x ∈ siteLegs ts.length phys lft rgt i,
    x ∉ siteLegs ts.length phys lft rgt j
  joined : ∀ i, i + 1 < ts.length → st.partner (rgt i) = some (lft (i + 1))
  apart : ∀ p ∈ phys, ∀ q ∈ phys, st.partner p ≠ some q

/-- Such a chain with the names `l`, `r` and `o`. -/
structure Chain [Zero R] (st : Store) (ts : List (Tensor R)) (phys : List LegId) (lft rgt : Nat → LegId) : Prop
    extends ChainLinks st ts phys lft rgt where
  nameP : ∀ p ∈ phys, st.name p = "o"
  nameR : ∀ i, i + 1 < ts.length → st.name (rgt i) = "r"
  nameL : ∀ i, i + 1 < ts.length → st.name (lft (i + 1)) = "l"

/-- `ts` is a chain with the physical legs `phys`, from the first site to the last. -/
def IsChain [Zero R] (st : Store) (ts : List (Tensor R)) (phys : List LegId) : Prop :=
  ∃ lft rgt, Chain st ts phys lft rgt

/-- The shape the constructor asks for: there is a tensor, every two neighbours are joined by exactly one bond, and in a
list of two or more the tensor at position `i` has one leg more than it has neighbours. -/
structure MPSShape (st : Store) (ts : List (Tensor R)) : Prop where
  nonempty : ts ≠ []
  one : ∀ (i : Nat) (ta tb : Tensor R), ts[i]? = some ta → ts[i + 1]? = some tb →
    ∃! p : LegId × LegId, p.1 ∈ ta.legs ∧ p.2 ∈ tb.legs ∧ st.partner p.1 = some p.2
  legs : 1 < ts.length → ∀ (i : Nat) (t : Tensor R), ts[i]? = some t →
    t.legs.length = 1 + (if i + 1 < ts.length then 1 else 0) + (if 0 < i then 1 else 0)

/-- Only names of legs and orientations of bonds differ. -/
structure Relabelled (st st' : Store) : Prop where
  leg : ∀ l, (st'.leg l).dim = (st.leg l).dim ∧ (st'.leg l).bond = (st.leg l).bond ∧ (st'.leg l).tensor = (st.leg l).tensor
  bond : ∀ b, st'.bond b = st.bond b ∨ st'.bond b = ((st.bond b).2, (st.bond b).1)
  nextLeg : st'.nextLeg = st.nextLeg
  nextBond : st'.nextBond = st.nextBond
  nextTensor : st'.nextTensor = st.nextTensor

/-- The list with the elements at `i` and `i + 1` exchanged. -/
def swapAt (l : List LegId) (i : Nat) : List LegId := (l.set i (l.getD (i + 1) 0)).set (i + 1) (l.getD i 0)

/-- The list with the element at `b` taken out and put back at `e`. -/
def moveTo (l : List LegId) (b e : Nat) : List LegId := (l.eraseIdx b).insertIdx e (l.getD b 0)

/-- The legs that existed before have kept their dimension and their bond. -/
def LegsKept (st st' : Store) : Prop :=
  ∀ l < st.nextLeg, st'.dim l = st.dim l ∧ (st'.leg l).bond = (st.leg l).bond ∧ st'.partner l = st.partner l

end CTL
