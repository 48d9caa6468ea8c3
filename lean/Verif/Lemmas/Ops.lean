import Verif.Lemmas.Legs

/-! Helper lemmas: label positions, summing out a leg, traces. -/

namespace CTL
variable {R : Type}

theorem idxOf_spec (ls : List String) (x : String) (i : Nat) :
    (ls.idxOf x = i ∧ x ∈ ls) ↔ ls[i]? = some x ∧ ∀ j < i, ls[j]? ≠ some x := by
  induction ls generalizing i with
  | nil => simp
  | cons y ys ih =>
    by_cases hy : y = x
    · subst hy
      cases i with
      | zero => simp
      | succ i =>
        simp only [List.idxOf_cons_self, List.mem_cons, true_or, and_true, List.getElem?_cons_succ]
        constructor
        · intro h; omega
        · rintro ⟨_, h⟩
          exact absurd (by simp) (h 0 (by omega))
    · have hyx : ¬ x = y := fun h => hy h.symm
      cases i with
      | zero =>
        simp [List.idxOf_cons_ne, hy]
      | succ i =>
        rw [List.idxOf_cons_ne _ hy]
        simp only [Nat.succ_eq_add_one, Nat.add_right_cancel_iff, List.mem_cons, hyx, false_or,
          List.getElem?_cons_succ, ih i]
        constructor
        · rintro ⟨h1, h2⟩
          refine ⟨h1, ?_⟩
          intro j hj
          cases j with
          | zero => simp [hy]
          | succ j => simpa using h2 j (by omega)
        · rintro ⟨h1, h2⟩
          refine ⟨h1, ?_⟩
          intro j hj
          simpa using h2 (j+1) (by omega)

theorem eraseIdx_idxOf (legs : List LegId) (leg : LegId) :
    legs.eraseIdx (legs.idxOf leg) = legs.erase leg := by
  exact List.eraseIdx_idxOf_eq_erase leg legs

theorem insertIdx_erase (legs : List LegId) (leg : LegId) (h : leg ∈ legs) (nd : legs.Nodup) (σ : Assign)
    (k : Nat) :
    ((legs.erase leg).map σ).insertIdx (legs.idxOf leg) k = legs.map (σ.set leg k) := by
  induction legs with
  | nil => cases h
  | cons x xs ih =>
    rw [List.nodup_cons] at nd
    by_cases hx : x = leg
    · subst hx
      simp only [List.erase_cons_head, List.idxOf_cons_self, List.insertIdx_zero, List.map_cons]
      have e1 : Assign.set σ x k x = k := by simp [Assign.set]
      rw [e1]
      congr 1
      apply List.map_congr_left
      intro y hy
      unfold Assign.set
      rw [if_neg (fun e : y = x => nd.1 (e ▸ hy))]
    · have hm : leg ∈ xs := by
        rcases List.mem_cons.mp h with h | h
        · exact absurd h.symm hx
        · exact h
      rw [List.erase_cons_tail (by simpa using hx), List.idxOf_cons_ne _ hx]
      simp only [List.map_cons, Nat.succ_eq_add_one, List.insertIdx_succ_cons, ih hm nd.2]
      congr 1
      simp [Assign.set, hx]

theorem map_eraseIdx_dim (legs : List LegId) (leg : LegId) (dim : LegId → Nat) :
    (legs.map dim).eraseIdx (legs.idxOf leg) = (legs.erase leg).map dim := by
  rw [← eraseIdx_idxOf]
  exact (List.eraseIdx_map ..)

/-- `sumAxis` on the axis of a leg. -/
theorem sumAxis_leg [NonUnitalNonAssocSemiring R] (arr : NDArray R) (legs : List LegId) (leg : LegId)
    (dim : LegId → Nat) (nd : legs.Nodup) (h : leg ∈ legs) (hs : arr.shape = legs.map dim) :
    ∃ arr', arr.sumAxis (legs.idxOf leg) = .ok arr' ∧ arr'.WF ∧ arr'.shape = (legs.erase leg).map dim ∧
      ∀ σ : Assign, InRange dim (legs.erase leg) σ →
        arr'.get ((legs.erase leg).map σ)
          = ((List.range (dim leg)).map fun k => arr.get (legs.map (σ.set leg k))).sum := by
  have hi : legs.idxOf leg < arr.shape.length := by
    rw [hs, List.length_map]; exact List.idxOf_lt_length_iff.mpr h
  have hd : arr.shape.getD (legs.idxOf leg) 0 = dim leg := by
    rw [hs]; exact getD_map_idxOf legs dim 0 leg h
  unfold NDArray.sumAxis
  rw [if_pos hi]
  refine ⟨_, rfl, NDArray.build_wf _ _, ?_, ?_⟩
  · change arr.shape.eraseIdx _ = _
    rw [hs, map_eraseIdx_dim]
  · intro σ hσ
    have hv : ValidIdx (arr.shape.eraseIdx (legs.idxOf leg)) ((legs.erase leg).map σ) := by
      rw [hs, map_eraseIdx_dim]
      exact validIdx_map _ _ _ hσ
    rw [NDArray.get_build _ hv, hd]
    simp only [insertIdx_erase legs leg h nd]

theorem scalar_get [Zero R] (x : R) : (NDArray.scalar x).get [] = x := by
  simp [NDArray.get, NDArray.scalar, ravel]

theorem sumAll_vec [NonUnitalNonAssocSemiring R] (arr : NDArray R) (n : Nat) (w : arr.WF) (hs : arr.shape = [n]) :
    arr.sumAll = ((List.range n).map fun k => arr.get [k]).sum := by
  unfold NDArray.sumAll
  have hl : arr.data.length = n := by rw [w, hs]; simp
  congr 1
  apply List.ext_getElem
  · simp [hl]
  · intro i h1 h2
    simp only [List.getElem_map, List.getElem_range]
    unfold NDArray.get
    simp [hs, ravel, h1]

/-- The sum over a list of legs that is paired off with itself. -/
theorem trace_sum [NonUnitalNonAssocSemiring R] (arr m : NDArray R) (legs rows cols : List LegId)
    (dim : LegId → Nat) (nd : legs.Nodup) (hp : (rows ++ cols).Perm legs) (hrc : rows.map dim = cols.map dim)
    (hm : m.shape = [(rows.map dim).prod, (cols.map dim).prod])
    (hg : ∀ σ : Assign, InRange dim legs σ →
        m.get [ravel (rows.map dim) (rows.map σ), ravel (cols.map dim) (cols.map σ)] = arr.get (legs.map σ))
    (σ : Assign) :
    m.trace2 = sumBonds dim (rows.zip cols) (fun τ => arr.get (legs.map τ)) σ := by
  have hlen : rows.length = cols.length := by
    have := congrArg List.length hrc
    simpa using this
  have h1 : (rows.zip cols).map Prod.fst = rows := List.map_fst_zip (le_of_eq hlen)
  have h2 : (rows.zip cols).map Prod.snd = cols := List.map_snd_zip (le_of_eq hlen.symm)
  have ndp : ((rows.zip cols).map Prod.fst ++ (rows.zip cols).map Prod.snd).Nodup := by
    rw [h1, h2]; exact hp.nodup_iff.mpr nd
  have hdims : ∀ p ∈ rows.zip cols, dim p.2 = dim p.1 := by
    intro p hpz
    obtain ⟨i, hi, rfl⟩ := List.mem_iff_getElem.mp hpz
    rw [List.length_zip] at hi
    rw [List.getElem_zip]
    have := congrArg (fun l => l[i]?) hrc
    simp only [List.getElem?_map] at this
    rw [List.getElem?_eq_getElem (by omega), List.getElem?_eq_getElem (by omega)] at this
    simpa using this.symm
  have hshape : (rows.zip cols).map (fun p => dim p.1) = rows.map dim := by
    rw [← h1, List.map_map, h1]; rfl
  rw [sumBonds_eq, hshape]
  unfold NDArray.trace2
  rw [hm]
  have e1 : min ([(rows.map dim).prod, (cols.map dim).prod].getD 0 0) ([(rows.map dim).prod, (cols.map dim).prod].getD 1 0)
      = (rows.map dim).prod := by
    rw [← hrc]; simp
  rw [e1, sum_range_prod]
  congr 1
  apply List.map_congr_left
  intro idx hidx
  have hv := mem_indices.mp hidx
  have hilen : idx.length = (rows.zip cols).length := by
    rw [hv.length, List.length_zip, List.length_map]; omega
  obtain ⟨a1, a2⟩ := assign_pairs σ (rows.zip cols) idx hilen ndp
  rw [h1] at a1
  rw [h2] at a2
  have hin : InRange dim legs (assign σ (rows.zip cols) idx) := by
    apply assign_inRange dim legs σ _ idx (by rw [hshape]; exact hv) hdims
    intro l hl n1 n2
    rw [h1] at n1
    rw [h2] at n2
    have := hp.mem_iff.mpr hl
    simp [n1, n2] at this
  rw [← hg _ hin, a1, a2, hrc]

end CTL
