import Verif.Spec.Network
import Mathlib.Logic.Relation

/-! # The value of a tensor network, and valid contraction sequences -/

namespace CTL
variable {R : Type}

/-- Legs `l` and `m` belong to two different tensors of the list. -/
def Cross (ts : List (Tensor R)) (l m : LegId) : Prop :=
  (∃ t ∈ ts, l ∈ t.legs ∧ m ∉ t.legs) ∧ ∃ t ∈ ts, m ∈ t.legs

/-- `ps` lists the bonds between different tensors of `ts`: each exactly once, in one of its two
orientations. -/
structure IsBondList (st : Store) (ts : List (Tensor R)) (ps : List (LegId × LegId)) : Prop where
  once : (ps.flatMap fun p => [p.1, p.2]).Nodup
  exact : ∀ l m, ((l, m) ∈ ps ∨ (m, l) ∈ ps) ↔ st.partner l = some m ∧ Cross ts l m

/-- The network sum: over all bonds `ps`, the product of the entries of all tensors. -/
def netSum [CommSemiring R] (st : Store) (ts : List (Tensor R)) (ps : List (LegId × LegId)) (σ : Assign) : R :=
  sumBonds st.dim ps (fun τ => (ts.map fun t => entry t τ).prod) σ

/-- A leg of the network that is not joined to another tensor of the network. -/
def FreeLeg (st : Store) (ts : List (Tensor R)) (l : LegId) : Prop :=
  (∃ t ∈ ts, l ∈ t.legs) ∧ ∀ m, st.partner l = some m → ¬ Cross ts l m

/-- A network: consistent bonds, consistent tensors, and no leg occurs twice. -/
structure GoodNet (st : Store) (ts : List (Tensor R)) : Prop where
  inv : BondInv st
  good : ∀ t ∈ ts, GoodTensor st t
  nodup : (ts.flatMap fun t => t.legs).Nodup

/-- A network without loose ends as far as the graph of it is concerned: consistent bonds, no leg occurs twice, the
tensors are different objects, the legs know their tensors, and every bond leads to another tensor of the list. -/
structure ClosedNet (st : Store) (ts : List (Tensor R)) : Prop where
  inv : BondInv st
  nodup : (ts.flatMap fun t => t.legs).Nodup
  ids : (ts.map fun t => t.id).Nodup
  owner : ∀ t ∈ ts, ∀ l ∈ t.legs, (st.leg l).tensor = some t.id
  inside : ∀ t ∈ ts, ∀ l ∈ t.legs, ∀ m, st.partner l = some m → m ∉ t.legs ∧ ∃ u ∈ ts, m ∈ u.legs

/-- A sequence is valid for a set of live slots: every step names two different live slots, the larger of which
dies, and at the end one slot is left. -/
def validFrom : List Nat → List (Nat × Nat) → Prop
  | live, [] => live.length = 1
  | live, (s, t) :: seq => s ∈ live ∧ t ∈ live ∧ s ≠ t ∧ validFrom (live.erase (max s t)) seq

/-- A valid and complete sequence for `n` tensors. -/
def ValidSeq (n : Nat) (seq : List (Nat × Nat)) : Prop := validFrom (List.range n) seq

instance decValidFrom : ∀ live seq, Decidable (validFrom live seq)
  | _, [] => inferInstanceAs (Decidable (_ = _))
  | live, (s, t) :: seq =>
    have := decValidFrom (live.erase (max s t)) seq
    inferInstanceAs (Decidable (_ ∧ _ ∧ _ ∧ _))

instance (n : Nat) (seq : List (Nat × Nat)) : Decidable (ValidSeq n seq) := decValidFrom _ _

end CTL

namespace CTL

/-- Legs after contracting tensors with legs `la` and `lb`: those not joined to the other side. -/
def mergeLegLists (st : Store) (la lb : List LegId) : List LegId :=
  (la.filter fun l => decide (∀ m ∈ lb, st.partner l ≠ some m)) ++
    (lb.filter fun m => decide (∀ l ∈ la, st.partner m ≠ some l))

/-- Cost of contracting two dense tensors with legs `la` and `lb`: one multiplication per value of every leg of
either, a bond between them counted once. -/
def pairCost (st : Store) (la lb : List LegId) : Nat :=
  (la.map st.dim).prod *
    ((lb.filter fun m => decide (∀ l ∈ la, st.partner m ≠ some l)).map st.dim).prod

/-- Total cost of a contraction sequence on dense tensors with these legs. -/
def seqCost (st : Store) : List (List LegId) → List (Nat × Nat) → Nat
  | _, [] => 0
  | ls, (s, t) :: seq =>
    pairCost st (ls.getD s []) (ls.getD t []) +
      seqCost st (ls.set (min s t) (mergeLegLists st (ls.getD s []) (ls.getD t []))) seq

end CTL

namespace CTL

/-- Tensors `i` and `j` of the list are joined by a bond. -/
def Joined {R : Type} (st : Store) (ts : List (Tensor R)) (i j : Nat) : Prop :=
  ∃ t u, ts[i]? = some t ∧ ts[j]? = some u ∧ ∃ l ∈ t.legs, ∃ m ∈ u.legs, st.partner l = some m

/-- Every tensor can be reached from every other one through bonds. -/
def NetConnected {R : Type} (st : Store) (ts : List (Tensor R)) : Prop :=
  ∀ i j, i < ts.length → j < ts.length → Relation.ReflTransGen (Joined st ts) i j

end CTL
