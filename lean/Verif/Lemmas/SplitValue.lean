import Verif.Lemmas.Replace
import Verif.Lemmas.MPS

/-! An exact decomposition does not change the value of a network. -/

namespace CTL
variable {R : Type}

theorem Split.rest {st st' : Store} {gone LA LB : List LegId} {k : Nat} {na nb : String} {u v : Tensor R} {x y : LegId}
    (s : Split st st' gone LA LB k na nb u v x y) (old : ∀ l ∈ LA ++ LB, l < st.nextLeg) :
    restA u.legs [(x, y)] = LA ∧ restB v.legs [(x, y)] = LB := by
  have hx : ∀ l ∈ LA ++ LB, l ≠ x := fun l hl e => absurd (old l hl) (Nat.not_lt.mpr (e ▸ s.newX.1))
  have hy : ∀ l ∈ LA ++ LB, l ≠ y := fun l hl e => absurd (old l hl) (Nat.not_lt.mpr (e ▸ s.newY.1))
  unfold restA restB
  rw [s.legsU, s.legsV]
  constructor
  · rw [List.filter_append, List.filter_eq_self.mpr]
    · simp
    · intro l hl
      simp [hx l (List.mem_append_left _ hl)]
  · rw [List.filter_cons_of_neg (by simp), List.filter_eq_self.mpr]
    intro l hl
    simp [hy l (List.mem_append_right _ hl)]

theorem Split.goodNet [CommSemiring R] {st st' : Store} {ta tb : Tensor R} {L : List (Tensor R)} {gone LA LB : List LegId}
    {k : Nat} {na nb : String} {u v : Tensor R} {x y : LegId} (g : GoodNet st (ta :: tb :: L))
    (s : Split st st' gone LA LB k na nb u v x y)
    (perm : (LA ++ LB).Perm (restA ta.legs (sharedPairs st ta.legs tb.legs) ++ restB tb.legs (sharedPairs st ta.legs tb.legs)))
    (old : ∀ t ∈ ta :: tb :: L, ∀ l ∈ t.legs, l < st.nextLeg) : GoodNet st' (u :: v :: L) := by
  obtain ⟨dab, daL, dbL, nL⟩ := g.split
  have sub : ∀ l ∈ LA ++ LB, l ∈ ta.legs ∨ l ∈ tb.legs := by
    intro l hl
    rcases List.mem_append.mp (perm.mem_iff.mp hl) with h | h
    · left; unfold restA at h; exact (List.mem_filter.mp h).1
    · right; unfold restB at h; exact (List.mem_filter.mp h).1
  have oldR : ∀ l ∈ LA ++ LB, l < st.nextLeg := by
    intro l hl
    rcases sub l hl with h | h
    · exact old ta (by simp) l h
    · exact old tb (by simp) l h
  have nd : (LA ++ LB).Nodup := by
    rw [perm.nodup_iff, List.nodup_append]
    refine ⟨(g.good ta (by simp)).nodup.filter _, (g.good tb (by simp)).nodup.filter _, ?_⟩
    intro p hp q hq e
    unfold restA at hp
    unfold restB at hq
    exact dab p (List.mem_filter.mp hp).1 (e ▸ (List.mem_filter.mp hq).1)
  refine ⟨s.wf.inv, ?_, ?_⟩
  · intro t ht
    rcases List.mem_cons.mp ht with rfl | ht
    · exact s.goodU
    · rcases List.mem_cons.mp ht with rfl | ht
      · exact s.goodV
      · exact (g.good t (by simp [ht])).congr_dim fun l hl => s.oldDim l (old t (by simp [ht]) l hl)
  · have p : ((u :: v :: L).flatMap fun t => t.legs).Perm (x :: y :: ((LA ++ LB) ++ L.flatMap fun t => t.legs)) := by
      rw [List.flatMap_cons, List.flatMap_cons, s.legsU, s.legsV]
      simp only [List.append_assoc, List.singleton_append, List.cons_append]
      refine List.perm_middle.trans (List.Perm.cons _ ?_)
      exact List.perm_middle
    rw [p.nodup_iff, List.nodup_cons, List.nodup_cons, List.nodup_append]
    have newL : ∀ z, st.nextLeg ≤ z → z ∉ (LA ++ LB) ++ L.flatMap fun t => t.legs := by
      intro z hz hm
      rcases List.mem_append.mp hm with h | h
      · exact absurd (oldR z h) (Nat.not_lt.mpr hz)
      · rw [List.mem_flatMap] at h
        obtain ⟨t, ht, h⟩ := h
        exact absurd (old t (by simp [ht]) z h) (Nat.not_lt.mpr hz)
    refine ⟨?_, newL y s.newY.1, nd, nL, ?_⟩
    · rw [List.mem_cons, not_or]
      exact ⟨s.ne, newL x s.newX.1⟩
    · intro p hp q hq e
      rw [List.mem_flatMap] at hq
      obtain ⟨t, ht, hq⟩ := hq
      rcases sub p hp with h | h
      · exact daL p h t ht (e ▸ hq)
      · exact dbL p h t ht (e ▸ hq)

/-- Two tensors replaced by two others with the same product. -/
theorem Split.sameValue [CommSemiring R] {st st' : Store} {ta tb : Tensor R} {L : List (Tensor R)} {gone LA LB : List LegId}
    {k : Nat} {na nb : String} {u v : Tensor R} {x y : LegId} (g : GoodNet st (ta :: tb :: L)) (da : ta.diag = false)
    (db : tb.diag = false) (s : Split st st' gone LA LB k na nb u v x y)
    (perm : (LA ++ LB).Perm (restA ta.legs (sharedPairs st ta.legs tb.legs) ++ restB tb.legs (sharedPairs st ta.legs tb.legs)))
    (shared : sharedPairs st' u.legs v.legs = [(x, y)])
    (old : ∀ t ∈ ta :: tb :: L, ∀ l ∈ t.legs, l < st.nextLeg)
    (value : ∀ σ, InRange st.dim (LA ++ LB) σ → sumBonds st'.dim [(x, y)] (fun τ => entry u τ * entry v τ) σ =
      sumBonds st.dim (sharedPairs st ta.legs tb.legs) (fun τ => entry ta τ * entry tb τ) σ) :
    SameValue st (ta :: tb :: L) st' (u :: v :: L) := by
  have g' := s.goodNet g perm old
  obtain ⟨dab, daL, dbL, nL⟩ := g.split
  obtain ⟨dab', _, _, _⟩ := g'.split
  obtain ⟨o, _, _, _, h4⟩ := contract_dense (R := R) id g.inv (g.good ta (by simp)) (g.good tb (by simp)) da db dab
  obtain ⟨o', _, _, _, h4'⟩ := contract_dense (R := R) id g'.inv s.goodU s.goodV s.denseU s.denseV dab'
  have sub : ∀ l ∈ LA ++ LB, l ∈ ta.legs ∨ l ∈ tb.legs := by
    intro l hl
    rcases List.mem_append.mp (perm.mem_iff.mp hl) with h | h
    · left; unfold restA at h; exact (List.mem_filter.mp h).1
    · right; unfold restB at h; exact (List.mem_filter.mp h).1
  have oldR : ∀ l ∈ LA ++ LB, l < st.nextLeg := by
    intro l hl
    rcases sub l hl with h | h
    · exact old ta (by simp) l h
    · exact old tb (by simp) l h
  have r := s.rest oldR
  have p1 : o.result.legs.Perm (LA ++ LB) := h4.legs.trans perm.symm
  have p2 : o'.result.legs.Perm (LA ++ LB) := by
    have := h4'.legs
    rw [shared, r.1, r.2] at this
    exact this
  have oldO : ∀ t ∈ o.result :: L, ∀ l ∈ t.legs, l < st.nextLeg := by
    intro t ht l hl
    rcases List.mem_cons.mp ht with rfl | ht
    · exact oldR l (p1.mem_iff.mp hl)
    · exact old t (by simp [ht]) l hl
  refine (SameValue.step g h4).trans (SameValue.trans ?_ (SameValue.step g' h4').symm)
  refine SameValue.congr (step_goodNet g h4) (h4'.same.inv g'.inv) h4'.good (p2.trans p1.symm) ?_ ?_ ?_
  · intro t ht l hl
    rw [h4.same.dim, h4'.same.dim]
    exact s.oldDim l (oldO t ht l hl)
  · intro t ht l hl
    rw [h4.same.partner g.inv, h4'.same.partner g'.inv]
    exact s.oldPartner l (oldO t ht l hl)
  · intro σ hσ
    rw [h4.same.dim] at hσ
    have hin : InRange st.dim (LA ++ LB) σ := fun l hl => hσ l (p1.mem_iff.mpr hl)
    rw [h4.entry σ hσ, h4'.entry σ, shared, value σ hin]
    intro l hl
    have := p2.mem_iff.mp hl
    rw [s.oldDim l (oldR l this)]
    exact hin l this

end CTL
