import Verif.Spec.MPS
import Verif.Spec.Value
import Verif.Spec.Decompose

/-! What the contraction of a network by matrix product states needs and does (C48). -/

namespace CTL
variable {R : Type}

/-- The tensors are different objects that exist, and their legs exist and know their tensor. -/
structure Owned (st : Store) (L : List (Tensor R)) : Prop where
  ids : (L.map fun t => t.id).Nodup
  old : ∀ t ∈ L, t.id < st.nextTensor
  legs : ∀ t ∈ L, ∀ l ∈ t.legs, l < st.nextLeg ∧ (st.leg l).tensor = some t.id

/-- A network whose tensors own their legs, and whose bonds all lead to other tensors of the network. -/
structure OwnedNet (st : Store) (L : List (Tensor R)) : Prop where
  wf : WFStore st
  good : ∀ t ∈ L, GoodTensor st t
  owned : Owned st L
  inside : ∀ t ∈ L, ∀ l ∈ t.legs, ∀ m, st.partner l = some m → m ∉ t.legs ∧ ∃ u ∈ L, m ∈ u.legs

/-- The value of the network is not zero for some values of the free legs. -/
def Live [CommSemiring R] (st : Store) (L : List (Tensor R)) : Prop :=
  ∃ ps σ, IsBondList st L ps ∧ (∀ l, FreeLeg st L l → σ l < st.dim l) ∧ netSum st L ps σ ≠ 0

/-- No leg of the tensors has a dimension above `W`. -/
def Within (st : Store) (ts : List (Tensor R)) (W : Nat) : Prop := ∀ t ∈ ts, ∀ l ∈ t.legs, st.dim l ≤ W

/-- The leg is joined to one of `Q`. -/
def meets (st : Store) (Q : List LegId) (p : LegId) : Bool :=
  match st.partner p with
  | none => false
  | some m => decide (m ∈ Q)

/-- The number of bonds between two lists of legs. -/
def cnt (st : Store) (P Q : List LegId) : Nat := P.countP (meets st Q)

/-- What is asked of the linear algebra routines. -/
structure GoodAlg [Field R] [StarRing R] (la : LinAlg R) : Prop where
  exact : ExactLinAlg la
  unitary : UnitaryLinAlg la
  rank : RankRevealing la
  nonzero : ∀ z, la.isNonZero z = true → z ≠ 0

/-- Element `k` stands for the group `g k` of tensors.  Every step contracts two groups with a bond `J` between them; the
result stands at the smaller place. -/
def stepsJoined (J : Nat → Nat → Prop) : (Nat → List Nat) → List (Nat × Nat) → Prop
  | _, [] => True
  | g, (s, t) :: seq => (∃ i ∈ g s, ∃ j ∈ g t, J i j) ∧ stepsJoined J (fun k => if k = min s t then g s ++ g t else g k) seq

/-- No step of the sequence contracts two groups of tensors of the network without a bond between them. -/
def LinkedSeq (st : Store) (ts : List (Tensor R)) (seq : List (Nat × Nat)) : Prop :=
  stepsJoined (Joined st ts) (fun i => [i]) seq

end CTL
