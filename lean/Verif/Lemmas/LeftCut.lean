import Verif.Lemmas.Schmidt3
import Verif.Lemmas.Swap

/-! `SchimdtDecomposition` followed by `contractTwoTensors(s, v)`. -/

namespace CTL
variable {R : Type}
open Finset

theorem newTensor_diag {st : Store} {shape : List Nat} {d : Option (NDArray R)} {legs : List LegId} {s : Store} {t : Tensor R}
    (h : newTensor st shape d legs = .ok (s, t)) : t.diag = false := by
  unfold newTensor at h
  split at h
  · cases h
  · split at h
    · have := (Prod.mk.inj (Except.ok.inj h)).2
      rw [← this]
    · split at h
      · have := (Prod.mk.inj (Except.ok.inj h)).2
        rw [← this]
      · cases h

/-- A diagonal tensor times a dense one over a bond is dense. -/
theorem bondContract_isDense [NonUnitalNonAssocSemiring R] {st : Store} {ta tb : Tensor R} {bs : List BondId}
    {s : Store} {t tb' : Tensor R} (h : bondContract st ta tb bs = .ok (s, t, tb')) (db : tb.diag = false) : t.diag = false := by
  unfold bondContract at h
  simp only [db, Bool.and_false, Bool.false_eq_true, if_false, bind, Except.bind, pure, Except.pure] at h
  repeat' split at h
  all_goals first
    | (cases h; done)
    | (rename_i h' ; have e := Prod.mk.inj (Except.ok.inj h); have e2 := Prod.mk.inj e.2; rw [← e2.1]; exact newTensor_diag h')

/-- The factors `s` and `v` of a three-factor form contracted. -/
theorem Cut3.absorb [CommSemiring R] {la : LinAlg R} (hla : ExactLinAlg la) (cast : R → R) {st st1 : Store} {gone LA LB : List LegId}
    {f : Assign → R} {chi : Nat} {na nb : String} {mat : NDArray R} {u s v : Tensor R} {x x' y' y : LegId} (w : WFStore st)
    (oldA : ∀ l ∈ LA, l < st.nextLeg) (oldB : ∀ l ∈ LB, l < st.nextLeg)
    (c : Cut3 la st st1 gone LA LB f chi na nb mat u s v x x' y' y) :
    ∃ o, contractTwoTensors cast st1 s v none = .ok o ∧
      LeftCut la st o.store gone LA LB f chi na nb mat u o.result x x' := by
  have p := c.split
  have inv := p.wf.inv
  have nd := p.nodup
  simp only [List.nodup_cons, List.mem_cons, List.not_mem_nil, or_false, not_or, List.nodup_nil, not_false_eq_true, and_true] at nd
  obtain ⟨⟨hxx', hxy', hxy⟩, ⟨hx'y', hx'y⟩, hy'y⟩ := nd
  have newB : ∀ z ∈ [x, x', y', y], z ∉ LB := fun z hz h => absurd (oldB z h) (Nat.not_lt.mpr (p.isNew z hz).1)
  have newA : ∀ z ∈ [x, x', y', y], z ∉ LA := fun z hz h => absurd (oldA z h) (Nat.not_lt.mpr (p.isNew z hz).1)
  have disj : ∀ z ∈ s.legs, z ∉ v.legs := by
    rw [p.legsS, p.legsV]
    intro z hz
    rcases List.mem_cons.mp hz with rfl | hz
    · rw [List.mem_cons, not_or]; exact ⟨hx'y, newB _ (by simp)⟩
    · rw [List.mem_singleton] at hz; subst hz
      rw [List.mem_cons, not_or]; exact ⟨hy'y, newB _ (by simp)⟩
  have sh : sharedPairs st1 s.legs v.legs = [(y', y)] := by
    unfold sharedPairs
    rw [p.legsS, p.legsV, List.filterMap_cons, List.filterMap_cons, List.filterMap_nil, p.joinedX.2, p.joinedY.2]
    have : x ∉ y :: LB := by
      rw [List.mem_cons, not_or]; exact ⟨hxy, newB _ (by simp)⟩
    simp [this]
  obtain ⟨o, h1, h2⟩ := contract_diag_dense cast inv p.goodS p.goodV p.diagS p.denseV disj (by rw [sh]; simp)
  have od : o.result.diag = false := by
    obtain ⟨st1', bs, -, -, hpairs, hco⟩ := contractOrdered_shared cast inv p.goodS p.goodV disj
    rw [sh] at hpairs
    have hbs : bs ≠ [] := by intro h; rw [h] at hpairs; cases hpairs
    rw [h1, if_neg hbs] at hco
    cases hb : bondContract st1' s v bs with
    | error e => rw [hb] at hco; cases hco
    | ok q =>
      rw [hb] at hco
      have := Except.ok.inj hco
      rw [this]
      exact bondContract_isDense hb p.denseV
  rw [sh] at h2
  have lo : o.result.legs.Perm (x' :: LB) := by
    refine h2.legs.trans ?_
    unfold restA restB
    rw [p.legsS, p.legsV, List.filter_cons_of_pos (by simp [hx'y']), List.filter_cons_of_neg (by simp), List.filter_nil,
      List.filter_cons_of_neg (by simp), List.filter_eq_self.mpr]
    · exact List.Perm.refl _
    · intro l hl
      have : l ≠ y := fun e => newB y (by simp) (e ▸ hl)
      simp [this]
  have sm := h2.same
  refine ⟨o, ?_, c.isMat, ?_, ?_, ?_⟩
  · unfold contractTwoTensors
    rw [p.diagS]
    exact h1
  · have nx := p.isNew x (by simp)
    have nx' := p.isNew x' (by simp)
    refine ⟨?_, lo, by rw [sm.nextLeg]; exact nx, by rw [sm.nextLeg]; exact nx', hxx', by rw [sm.nextLeg]; exact p.grow,
      by rw [sm.dim]; exact p.dims x (by simp), by rw [sm.dim]; exact p.dims x' (by simp), by rw [sm.name]; exact p.names.1,
      by rw [sm.name]; exact p.names.2.1, by rw [sm.partner inv, sm.partner inv]; exact p.joinedX,
      by rw [sm.dim]; exact p.oldDim, by rw [sm.name]; exact p.oldName, fun l hl => by rw [sm.bondOf]; exact p.oldBond l hl,
      fun l hl => by rw [sm.partner inv]; exact p.oldPartner l hl, sm.ext.wf p.wf, p.goodU.congr sm, h2.good, p.denseU, od⟩
    rw [p.legsU]
    exact List.perm_append_comm (l₁ := LA) (l₂ := [x])
  · exact c.entU
  · intro σ hσ hy
    have kd : ∀ z ∈ [x, x', y', y], st1.dim z = min chi ((la.svd mat).2.1.countP la.isNonZero) := p.dims
    generalize hk : min chi ((la.svd mat).2.1.countP la.isNonZero) = k at *
    rw [h2.entry]
    · simp only [sumBonds]
      rw [kd y' (by simp), sum_range_list, Finset.sum_eq_single_of_mem (σ x') (Finset.mem_range.mpr hy)]
      · rw [c.entS, c.entV]
        · rw [setRavel _ _ _ (newB y (by simp)), setRavel _ _ _ (newB y' (by simp))]
          simp [Assign.set, hx'y', hx'y, hy'y]
        · intro l hl
          have h1 : l ≠ y := fun e => newB y (by simp) (e ▸ hl)
          have h2 : l ≠ y' := fun e => newB y' (by simp) (e ▸ hl)
          simp only [Assign.set, h1, h2, if_false]
          exact hσ l hl
        · simpa [Assign.set, hk] using hy
        · simpa [Assign.set, hx'y', hx'y, hk] using hy
      · intro t ht hne
        rw [c.entS]
        · simp [Assign.set, hx'y', hx'y, hy'y, hne]
        · simpa [Assign.set, hx'y', hx'y, hk] using hy
    · intro l hl
      rcases List.mem_cons.mp (lo.mem_iff.mp hl) with rfl | hl
      · rw [kd _ (by simp)]; exact hy
      · rw [p.oldDim l (oldB l hl)]; exact hσ l hl

/-- What the two factors multiply to. -/
theorem LeftCut.value [CommSemiring R] {la : LinAlg R} {st st' : Store} {gone LA LB : List LegId}
    {f : Assign → R} {chi : Nat} {na nb : String} {mat : NDArray R} {u v : Tensor R} {x y : LegId}
    (oldA : ∀ l ∈ LA, l < st.nextLeg) (oldB : ∀ l ∈ LB, l < st.nextLeg)
    (c : LeftCut la st st' gone LA LB f chi na nb mat u v x y) (σ : Assign) (hσ : InRange st.dim (LA ++ LB) σ) :
    sumBonds st'.dim [(x, y)] (fun τ => entry u τ * entry v τ) σ =
    partialSVD (la.svd mat).1 (la.svd mat).2.1 (la.svd mat).2.2 (range (min chi ((la.svd mat).2.1.countP la.isNonZero)))
      (ravel (LA.map st.dim) (LA.map σ)) (ravel (LB.map st.dim) (LB.map σ)) := by
  have p := c.split
  have iA : InRange st.dim LA σ := fun l hl => hσ l (List.mem_append_left _ hl)
  have iB : InRange st.dim LB σ := fun l hl => hσ l (List.mem_append_right _ hl)
  have xA : x ∉ LA := fun h => absurd (oldA x h) (Nat.not_lt.mpr p.newX.1)
  have yA : y ∉ LA := fun h => absurd (oldA y h) (Nat.not_lt.mpr p.newY.1)
  have xB : x ∉ LB := fun h => absurd (oldB x h) (Nat.not_lt.mpr p.newX.1)
  have yB : y ∉ LB := fun h => absurd (oldB y h) (Nat.not_lt.mpr p.newY.1)
  simp only [sumBonds]
  rw [p.dimX, sum_range_list]
  unfold partialSVD
  refine Finset.sum_congr rfl fun t ht => ?_
  rw [Finset.mem_range] at ht
  rw [c.entU, c.entV]
  · rw [setRavel _ _ _ yA, setRavel _ _ _ xA, setRavel _ _ _ yB, setRavel _ _ _ xB]
    simp [Assign.set, p.ne, mul_assoc]
  · intro l hl
    have h1 : l ≠ y := fun e => yB (e ▸ hl)
    have h2 : l ≠ x := fun e => xB (e ▸ hl)
    simp only [Assign.set, h1, h2, if_false]
    exact iB l hl
  · simpa [Assign.set] using ht
  · intro l hl
    have h1 : l ≠ y := fun e => yA (e ▸ hl)
    have h2 : l ≠ x := fun e => xA (e ▸ hl)
    simp only [Assign.set, h1, h2, if_false]
    exact iA l hl
  · simpa [Assign.set, p.ne] using ht

/-- Nothing is lost when no non-zero value is cut. -/
theorem LeftCut.exact [CommSemiring R] {la : LinAlg R} (hla : ExactLinAlg la) {st st' : Store} {gone LA LB : List LegId}
    {f : Assign → R} {chi : Nat} {na nb : String} {mat : NDArray R} {u v : Tensor R} {x y : LegId}
    (oldA : ∀ l ∈ LA, l < st.nextLeg) (oldB : ∀ l ∈ LB, l < st.nextLeg)
    (c : LeftCut la st st' gone LA LB f chi na nb mat u v x y)
    (h0 : ∀ z ∈ (la.svd mat).2.1.drop (min chi ((la.svd mat).2.1.countP la.isNonZero)), z = 0)
    (σ : Assign) (hσ : InRange st.dim (LA ++ LB) σ) :
    sumBonds st'.dim [(x, y)] (fun τ => entry u τ * entry v τ) σ = f σ := by
  have iA : InRange st.dim LA σ := fun l hl => hσ l (List.mem_append_left _ hl)
  have iB : InRange st.dim LB σ := fun l hl => hσ l (List.mem_append_right _ hl)
  have S := hla.svd mat _ _ c.isMat.1 c.isMat.2.1
  rw [c.value oldA oldB σ hσ, cut_exact S _ h0 (ravel_lt' iA) (ravel_lt' iB), c.isMat.2.2 σ hσ]
  rw [← S.sLen]
  exact (min_le_right _ _).trans List.countP_le_length

/-- The first factor of a unitary decomposition is an isometry from the new leg to the others. -/
theorem LeftCut.isometry [CommRing R] [StarRing R] {la : LinAlg R} {st st' : Store} {gone LA LB : List LegId}
    {f : Assign → R} {chi : Nat} {na nb : String} {mat : NDArray R} {u v : Tensor R} {x y : LegId}
    (oldA : ∀ l ∈ LA, l < st.nextLeg) (nd : LA.Nodup)
    (c : LeftCut la st st' gone LA LB f chi na nb mat u v x y)
    (hu : IsUnitarySVD mat (LA.map st.dim).prod (LB.map st.dim).prod (la.svd mat)) : IsometryAt st' u LA x := by
  intro σ a b ha hb
  have p := c.split
  rw [p.dimX] at ha hb
  have ed : LA.map st'.dim = LA.map st.dim := List.map_congr_left fun l hl => p.oldDim l (oldA l hl)
  have xA : x ∉ LA := fun h => absurd (oldA x h) (Nat.not_lt.mpr p.newX.1)
  have hk : min chi ((la.svd mat).2.1.countP la.isNonZero) ≤ (LA.map st.dim).prod := by
    have := List.countP_le_length (p := la.isNonZero) (l := (la.svd mat).2.1)
    rw [hu.sLen] at this
    exact (min_le_right _ _).trans (this.trans (min_le_left _ _))
  rw [← hu.uOrtho a (ha.trans_le hk) b (hb.trans_le hk), ← ed,
    ← sumLegs_ravel st'.dim LA nd (fun i => star ((la.svd mat).1.get [i, a]) * (la.svd mat).1.get [i, b]) σ]
  apply sumLegs_congr _ _ _ _ _ _ nd
  intro τ _ hτ
  have hin : ∀ k, InRange st.dim LA (τ.set x k) := by
    intro k l hl
    have h2 : l ≠ x := fun e => xA (e ▸ hl)
    simp only [Assign.set, h2, if_false]
    rw [← p.oldDim l (oldA l hl)]
    exact hτ l hl
  rw [c.entU _ (hin a) (by simpa [Assign.set] using ha), c.entU _ (hin b) (by simpa [Assign.set] using hb),
    setRavel _ _ _ xA, setRavel _ _ _ xA, ed]
  simp [Assign.set]

theorem SplitP.rest {st st' : Store} {gone LA LB : List LegId} {k : Nat} {na nb : String} {u v : Tensor R} {x y : LegId}
    (s : SplitP st st' gone LA LB k na nb u v x y) (old : ∀ l ∈ LA ++ LB, l < st.nextLeg) :
    (restA u.legs [(x, y)]).Perm LA ∧ (restB v.legs [(x, y)]).Perm LB := by
  have hx : ∀ l ∈ LA ++ LB, l ≠ x := fun l hl e => absurd (old l hl) (Nat.not_lt.mpr (e ▸ s.newX.1))
  have hy : ∀ l ∈ LA ++ LB, l ≠ y := fun l hl e => absurd (old l hl) (Nat.not_lt.mpr (e ▸ s.newY.1))
  unfold restA restB
  constructor
  · refine (s.legsU.filter _).trans ?_
    rw [List.filter_cons_of_neg (by simp), List.filter_eq_self.mpr]
    intro l hl
    simp [hx l (List.mem_append_left _ hl)]
  · refine (s.legsV.filter _).trans ?_
    rw [List.filter_cons_of_neg (by simp), List.filter_eq_self.mpr]
    intro l hl
    simp [hy l (List.mem_append_right _ hl)]

theorem SplitP.goodNet [CommSemiring R] {st st' : Store} {ta tb : Tensor R} {L : List (Tensor R)} {gone LA LB : List LegId}
    {k : Nat} {na nb : String} {u v : Tensor R} {x y : LegId} (g : GoodNet st (ta :: tb :: L))
    (s : SplitP st st' gone LA LB k na nb u v x y)
    (perm : (LA ++ LB).Perm (restA ta.legs (sharedPairs st ta.legs tb.legs) ++ restB tb.legs (sharedPairs st ta.legs tb.legs)))
    (old : ∀ t ∈ ta :: tb :: L, ∀ l ∈ t.legs, l < st.nextLeg) : GoodNet st' (u :: v :: L) := by
  obtain ⟨dab, daL, dbL, nL⟩ := g.split
  have sub : ∀ l ∈ LA ++ LB, l ∈ ta.legs ∨ l ∈ tb.legs := by
    intro l hl
    rcases List.mem_append.mp (perm.mem_iff.mp hl) with h | h
    · left; unfold restA at h; exact (List.mem_filter.mp h).1
    · right; unfold restB at h; exact (List.mem_filter.mp h).1
  have oldR : ∀ l ∈ LA ++ LB, l < st.nextLeg := by
    intro l hl
    rcases sub l hl with h | h
    · exact old ta (by simp) l h
    · exact old tb (by simp) l h
  have nd : (LA ++ LB).Nodup := by
    rw [perm.nodup_iff, List.nodup_append]
    refine ⟨(g.good ta (by simp)).nodup.filter _, (g.good tb (by simp)).nodup.filter _, ?_⟩
    intro p hp q hq e
    unfold restA at hp
    unfold restB at hq
    exact dab p (List.mem_filter.mp hp).1 (e ▸ (List.mem_filter.mp hq).1)
  refine ⟨s.wf.inv, ?_, ?_⟩
  · intro t ht
    rcases List.mem_cons.mp ht with rfl | ht
    · exact s.goodU
    · rcases List.mem_cons.mp ht with rfl | ht
      · exact s.goodV
      · exact (g.good t (by simp [ht])).congr_dim fun l hl => s.oldDim l (old t (by simp [ht]) l hl)
  · have p : ((u :: v :: L).flatMap fun t => t.legs).Perm (x :: y :: ((LA ++ LB) ++ L.flatMap fun t => t.legs)) := by
      rw [List.flatMap_cons, List.flatMap_cons]
      refine (s.legsU.append (s.legsV.append_right _)).trans ?_
      simp only [List.append_assoc, List.cons_append]
      exact List.Perm.cons _ List.perm_middle
    rw [p.nodup_iff, List.nodup_cons, List.nodup_cons, List.nodup_append]
    have newL : ∀ z, st.nextLeg ≤ z → z ∉ (LA ++ LB) ++ L.flatMap fun t => t.legs := by
      intro z hz hm
      rcases List.mem_append.mp hm with h | h
      · exact absurd (oldR z h) (Nat.not_lt.mpr hz)
      · rw [List.mem_flatMap] at h
        obtain ⟨t, ht, h⟩ := h
        exact absurd (old t (by simp [ht]) z h) (Nat.not_lt.mpr hz)
    refine ⟨?_, newL y s.newY.1, nd, nL, ?_⟩
    · rw [List.mem_cons, not_or]
      exact ⟨s.ne, newL x s.newX.1⟩
    · intro p hp q hq e
      rw [List.mem_flatMap] at hq
      obtain ⟨t, ht, hq⟩ := hq
      rcases sub p hp with h | h
      · exact daL p h t ht (e ▸ hq)
      · exact dbL p h t ht (e ▸ hq)

/-- Two tensors replaced by two others with the same product. -/
theorem SplitP.sameValue [CommSemiring R] {st st' : Store} {ta tb : Tensor R} {L : List (Tensor R)} {gone LA LB : List LegId}
    {k : Nat} {na nb : String} {u v : Tensor R} {x y : LegId} (g : GoodNet st (ta :: tb :: L)) (da : ta.diag = false)
    (db : tb.diag = false) (s : SplitP st st' gone LA LB k na nb u v x y)
    (perm : (LA ++ LB).Perm (restA ta.legs (sharedPairs st ta.legs tb.legs) ++ restB tb.legs (sharedPairs st ta.legs tb.legs)))
    (shared : sharedPairs st' u.legs v.legs = [(x, y)])
    (old : ∀ t ∈ ta :: tb :: L, ∀ l ∈ t.legs, l < st.nextLeg)
    (value : ∀ σ, InRange st.dim (LA ++ LB) σ → sumBonds st'.dim [(x, y)] (fun τ => entry u τ * entry v τ) σ =
      sumBonds st.dim (sharedPairs st ta.legs tb.legs) (fun τ => entry ta τ * entry tb τ) σ) :
    SameValue st (ta :: tb :: L) st' (u :: v :: L) := by
  have g' := s.goodNet g perm old
  obtain ⟨dab, daL, dbL, nL⟩ := g.split
  obtain ⟨dab', _, _, _⟩ := g'.split
  obtain ⟨o, _, _, _, h4⟩ := contract_dense (R := R) id g.inv (g.good ta (by simp)) (g.good tb (by simp)) da db dab
  obtain ⟨o', _, _, _, h4'⟩ := contract_dense (R := R) id g'.inv s.goodU s.goodV s.denseU s.denseV dab'
  have sub : ∀ l ∈ LA ++ LB, l ∈ ta.legs ∨ l ∈ tb.legs := by
    intro l hl
    rcases List.mem_append.mp (perm.mem_iff.mp hl) with h | h
    · left; unfold restA at h; exact (List.mem_filter.mp h).1
    · right; unfold restB at h; exact (List.mem_filter.mp h).1
  have oldR : ∀ l ∈ LA ++ LB, l < st.nextLeg := by
    intro l hl
    rcases sub l hl with h | h
    · exact old ta (by simp) l h
    · exact old tb (by simp) l h
  have r := s.rest oldR
  have p1 : o.result.legs.Perm (LA ++ LB) := h4.legs.trans perm.symm
  have p2 : o'.result.legs.Perm (LA ++ LB) := by
    have := h4'.legs
    rw [shared] at this
    exact this.trans (r.1.append r.2)
  have oldO : ∀ t ∈ o.result :: L, ∀ l ∈ t.legs, l < st.nextLeg := by
    intro t ht l hl
    rcases List.mem_cons.mp ht with rfl | ht
    · exact oldR l (p1.mem_iff.mp hl)
    · exact old t (by simp [ht]) l hl
  refine (SameValue.step g h4).trans (SameValue.trans ?_ (SameValue.step g' h4').symm)
  refine SameValue.congr (step_goodNet g h4) (h4'.same.inv g'.inv) h4'.good (p2.trans p1.symm) ?_ ?_ ?_
  · intro t ht l hl
    rw [h4.same.dim, h4'.same.dim]
    exact s.oldDim l (oldO t ht l hl)
  · intro t ht l hl
    rw [h4.same.partner g.inv, h4'.same.partner g'.inv]
    exact s.oldPartner l (oldO t ht l hl)
  · intro σ hσ
    rw [h4.same.dim] at hσ
    have hin : InRange st.dim (LA ++ LB) σ := fun l hl => hσ l (p1.mem_iff.mpr hl)
    rw [h4.entry σ hσ, h4'.entry σ, shared, value σ hin]
    intro l hl
    have := p2.mem_iff.mp hl
    rw [s.oldDim l (oldR l this)]
    exact hin l this

end CTL
