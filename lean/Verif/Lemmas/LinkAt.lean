import Verif.Model.RandomMPS
import Verif.Lemmas.TextNet
import Verif.Lemmas.Traces

/-! Joining legs given by label, one pair after another. -/

namespace CTL
variable {R : Type}

theorem completeDims_same {st : Store} {l m : LegId} (h : st.dim l = st.dim m) : completeDims st l m = st := by
  have key : ∀ x d, st.dim x = d → st.setDim x d = st := by
    rintro x _ rfl
    unfold Store.setDim Store.setLeg Store.dim
    have : (fun k => if k = x then { st.leg x with dim := (st.leg x).dim } else st.leg k) = st.leg := by
      funext k
      split
      · next h => rw [h]
      · rfl
    cases st
    simp_all
  unfold completeDims
  split
  · exact key l _ h
  · split
    · exact key m _ h.symm
    · rfl

theorem makeLink_label {st : Store} {a b : Tensor R} {x y : String} {l m : LegId} (hl : a.getLeg st x = some l) (hm : b.getLeg st y = some m) :
    makeLink st [.label x] [.label y] (some a) (some b) = makeLinkLegs st [l] [m] := by
  unfold makeLinkLegs makeLink
  simp [resolveRef, hl, hm, bind, Except.bind, pure, Except.pure]

/-- The pair that `linkAt` joins. -/
def LinkAt (ts : List (Tensor R)) (st : Store) (q : Nat × String × Nat × String) (p : LegId × LegId) : Prop :=
  ∃ a b, ts[q.1]? = some a ∧ ts[q.2.2.1]? = some b ∧ a.getLeg st q.2.1 = some p.1 ∧ b.getLeg st q.2.2.2 = some p.2

theorem linkAt_eq {ts : List (Tensor R)} {st : Store} {q : Nat × String × Nat × String} {p : LegId × LegId} (h : LinkAt ts st q p)
    (hd : st.dim p.1 = st.dim p.2) : linkAt ts st q = .ok (bonded st p.1 p.2) := by
  obtain ⟨a, b, h1, h2, h3, h4⟩ := h
  unfold linkAt
  simp only [h1, h2, makeLink_label h3 h4, makeLinkLegs_one, hd, if_true]
  rfl

theorem linkAt_names : ∀ {qs : List (Nat × String × Nat × String)} {ps : List (LegId × LegId)} {ts : List (Tensor R)} {st : Store},
    List.Forall₂ (LinkAt ts st) qs ps → (∀ p ∈ ps, st.dim p.1 = st.dim p.2) →
    qs.foldlM (linkAt ts) st = linkNames st (ps.map fun p => ("", [p.1, p.2]))
  | [], [], ts, st, .nil, _ => rfl
  | q :: qs, p :: ps, ts, st, .cons h hs, hd => by
    have hp := hd p (by simp)
    rw [List.foldlM_cons, linkAt_eq h hp]
    show qs.foldlM (linkAt ts) (bonded st p.1 p.2) = _
    have nm : ∀ l, (bonded st p.1 p.2).name l = st.name l := by
      intro l
      unfold bonded Store.name
      simp only
      split <;> rfl
    have dm : ∀ l, (bonded st p.1 p.2).dim l = st.dim l := by
      intro l
      unfold bonded Store.dim
      simp only
      split <;> rfl
    rw [linkAt_names (ts := ts) (st := bonded st p.1 p.2) (ps := ps)]
    · simp only [List.map_cons, linkNames, List.length_cons, List.length_nil, completeDims_same hp, makeLinkLegs_one, hp]
      simp
    · refine hs.imp ?_
      rintro q' p' ⟨a, b, h1, h2, h3, h4⟩
      exact ⟨a, b, h1, h2, by rw [getLeg_names a nm]; exact h3, by rw [getLeg_names b nm]; exact h4⟩
    · intro p' hp'
      rw [dm, dm]
      exact hd p' (by simp [hp'])

/-- What joining pairs of free legs does. -/
structure PairsJoined (st st' : Store) (ps : List (LegId × LegId)) : Prop where
  wf : WFStore st'
  nextLeg : st'.nextLeg = st.nextLeg
  nextTensor : st'.nextTensor = st.nextTensor
  nextBond : st.nextBond ≤ st'.nextBond
  bond : ∀ b < st.nextBond, st'.bond b = st.bond b
  name : ∀ k, st'.name k = st.name k
  dim : ∀ k, st'.dim k = st.dim k
  owner : ∀ k, (st'.leg k).tensor = (st.leg k).tensor
  other : ∀ k, (∀ p ∈ ps, k ≠ p.1 ∧ k ≠ p.2) → st'.leg k = st.leg k
  joined : ∀ p ∈ ps, st'.partner p.1 = some p.2 ∧ st'.partner p.2 = some p.1

theorem linkAt_all {qs : List (Nat × String × Nat × String)} {ps : List (LegId × LegId)} {ts : List (Tensor R)} {st : Store} (w : WFStore st)
    (h : List.Forall₂ (LinkAt ts st) qs ps) (hd : ∀ p ∈ ps, st.dim p.1 = st.dim p.2) (nd : (ps.flatMap fun p => [p.1, p.2]).Nodup)
    (free : ∀ p ∈ ps, ((st.leg p.1).bond = none ∧ p.1 < st.nextLeg) ∧ (st.leg p.2).bond = none ∧ p.2 < st.nextLeg) :
    ∃ st', qs.foldlM (linkAt ts) st = .ok st' ∧ PairsJoined st st' ps := by
  rw [linkAt_names h hd]
  obtain ⟨st', e, N⟩ := linkNames_ok (ps.map fun p => ("", [p.1, p.2])) st w ⟨by rw [List.flatMap_map]; exact nd, by
      intro e he l hl
      obtain ⟨p, hp, rfl⟩ := List.mem_map.mp he
      simp only [List.mem_cons, List.not_mem_nil, or_false] at hl
      rcases hl with rfl | rfl
      · exact (free p hp).1
      · exact (free p hp).2⟩ (by
    intro e he
    obtain ⟨p, hp, rfl⟩ := List.mem_map.mp he
    refine ⟨by simp, ?_⟩
    have := hd p hp
    simp [this])
  have joined : ∀ p ∈ ps, st'.partner p.1 = some p.2 ∧ st'.partner p.2 = some p.1 ∧ st'.dim p.1 = st.dim p.1 ∧ st'.dim p.2 = st.dim p.2 := by
    intro p hp
    obtain ⟨h1, h2, h3, h4⟩ := N.joined ("", [p.1, p.2]) (List.mem_map_of_mem (f := fun p => ("", [p.1, p.2])) hp)
    have h5 := hd p hp
    have : st'.dim p.1 = st.dim p.1 := by
      rw [h3]
      split
      · exact h5.symm
      · rfl
    exact ⟨h1, h2, this, by rw [h4, this, h5]⟩
  have other : ∀ k, (∀ p ∈ ps, k ≠ p.1 ∧ k ≠ p.2) → st'.leg k = st.leg k := by
    intro k hk
    refine N.other k fun e he hm => ?_
    obtain ⟨p, hp, rfl⟩ := List.mem_map.mp he
    have := hk p hp
    simp [this] at hm
  refine ⟨st', e, N.wf, N.nextLeg, N.nextTensor, N.nextBond, N.bond, N.name, fun k => ?_, N.owner, other, fun p hp => ⟨(joined p hp).1, (joined p hp).2.1⟩⟩
  by_cases hk : ∃ p ∈ ps, k = p.1 ∨ k = p.2
  · obtain ⟨p, hp, rfl | rfl⟩ := hk
    · exact (joined p hp).2.2.1
    · exact (joined p hp).2.2.2
  · unfold Store.dim
    rw [other k fun p hp => ⟨fun h => hk ⟨p, hp, Or.inl h⟩, fun h => hk ⟨p, hp, Or.inr h⟩⟩]

end CTL
