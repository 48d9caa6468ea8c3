import Verif.Lemmas.Ops
import Verif.Props.Legs

/-!
# C21, C22, C40 – labels, summing out, traces (and part of C38)
-/

namespace CTL
variable {R : Type}

/-! ## C21 -/

/-- `indexOfLabel(lab)` is the first position of the label. -/
theorem C21_indexOfLabel_forward (st : Store) (t : Tensor R) (lab : String) (i : Nat) :
    t.indexOfLabel st lab = some i ↔
      (t.labels st)[i]? = some lab ∧ ∀ j < i, (t.labels st)[j]? ≠ some lab := by
  rw [← idxOf_spec]
  unfold Tensor.indexOfLabel
  by_cases h : lab ∈ t.labels st <;> simp [h]

/-- `indexOfLabel(lab, backward = True)` is the last position of the label. -/
theorem C21_indexOfLabel_backward (st : Store) (t : Tensor R) (lab : String) (i : Nat) :
    t.indexOfLabel st lab true = some i ↔
      (t.labels st)[i]? = some lab ∧ ∀ j > i, (t.labels st)[j]? ≠ some lab := by
  unfold Tensor.indexOfLabel
  set ls := t.labels st
  have hrev : ∀ j, j < ls.length → ls[j]? = ls.reverse[ls.length - 1 - j]? := by
    intro j hj
    rw [List.getElem?_reverse (by omega)]
    congr 1; omega
  by_cases h : lab ∈ ls
  · have hp : 0 < ls.length := List.length_pos_of_mem h
    have hr : ls.reverse.idxOf lab < ls.length := by
      have := List.idxOf_lt_length_iff.mpr (List.mem_reverse.mpr h)
      simpa using this
    have spec := (idxOf_spec ls.reverse lab (ls.reverse.idxOf lab)).mp ⟨rfl, List.mem_reverse.mpr h⟩
    simp only [h, if_true, Option.some.injEq]
    constructor
    · intro hi
      refine ⟨?_, ?_⟩
      · rw [hrev i (by omega)]
        rw [show ls.length - 1 - i = ls.reverse.idxOf lab by omega]
        exact spec.1
      · intro j hj
        by_cases hjl : j < ls.length
        · rw [hrev j hjl]
          exact spec.2 _ (by omega)
        · rw [List.getElem?_eq_none (by omega)]; simp
    · rintro ⟨h1, h2⟩
      have hil : i < ls.length := by
        by_contra hc
        rw [List.getElem?_eq_none (by omega)] at h1; cases h1
      have := (idxOf_spec ls.reverse lab (ls.length - 1 - i)).mpr ⟨by rw [← hrev i hil]; exact h1, by
        intro j hj
        have := h2 (ls.length - 1 - j) (by omega)
        rw [hrev _ (by omega)] at this
        rw [show ls.length - 1 - (ls.length - 1 - j) = j by omega] at this
        exact this⟩
      omega
  · simp only [h, if_false]
    constructor
    · intro hh; cases hh
    · rintro ⟨h1, _⟩
      exact absurd (List.mem_of_getElem? h1) h

/-- `-1` is returned exactly for a label the tensor does not have. -/
theorem C21_indexOfLabel_none (st : Store) (t : Tensor R) (lab : String) (backward : Bool) :
    t.indexOfLabel st lab backward = none ↔ lab ∉ t.labels st := by
  unfold Tensor.indexOfLabel
  by_cases h : lab ∈ t.labels st <;> cases backward <;> simp [h]

/-- `getLeg` and `shapeOfLabel` agree with `indexOfLabel`. -/
theorem C21_getLeg (st : Store) (t : Tensor R) (lab : String) (backward : Bool) :
    (lab ∉ t.labels st → t.getLeg st lab backward = none ∧ t.shapeOfLabel st lab backward = none) ∧
    (lab ∈ t.labels st → ∃ l ∈ t.legs, st.name l = lab ∧ t.getLeg st lab backward = some l ∧
      t.shapeOfLabel st lab backward = some (st.dim l)) := by
  constructor
  · intro h
    have := (C21_indexOfLabel_none st t lab backward).mpr h
    simp [Tensor.getLeg, Tensor.shapeOfLabel, this]
  · intro h
    cases hi : t.indexOfLabel st lab backward with
    | none => exact absurd h ((C21_indexOfLabel_none st t lab backward).mp hi)
    | some i =>
      have hlab : (t.labels st)[i]? = some lab := by
        cases backward
        · exact ((C21_indexOfLabel_forward st t lab i).mp hi).1
        · exact ((C21_indexOfLabel_backward st t lab i).mp hi).1
      unfold Tensor.labels at hlab
      rw [List.getElem?_map] at hlab
      cases hl : t.legs[i]? with
      | none => rw [hl] at hlab; cases hlab
      | some l =>
        rw [hl] at hlab
        refine ⟨l, List.mem_of_getElem? hl, by simpa using hlab, ?_, ?_⟩
        · simp [Tensor.getLeg, hi, hl]
        · simp [Tensor.shapeOfLabel, Tensor.getLeg, hi, hl]

/-- `outProduct` by labels: distinct known labels name distinct legs, to which `C17_outProduct` applies. -/
theorem C17_outProduct_labels [Zero R] (st : Store) (t : Tensor R) (labs : List String)
    (newLabel : String) (ndl : labs.Nodup) (h : labs ⊆ t.labels st) :
    ∃ front, t.outProductLabels st labs newLabel = t.outProduct st front newLabel ∧ front.Nodup ∧
      front ⊆ t.legs ∧ front.map st.name = labs := by
  have hn : ∀ lab ∈ labs, st.name ((t.getLeg st lab).getD st.nextLeg) = lab ∧
      (t.getLeg st lab).getD st.nextLeg ∈ t.legs := by
    intro lab hl
    obtain ⟨l, h1, h2, h3, _⟩ := (C21_getLeg st t lab false).2 (h hl)
    rw [h3]
    exact ⟨h2, h1⟩
  refine ⟨_, rfl, ?_, ?_, ?_⟩
  · apply ndl.map_on
    intro x hx y hy hxy
    rw [← (hn x hx).1, ← (hn y hy).1, hxy]
  · intro l hl
    obtain ⟨lab, hlab, rfl⟩ := List.mem_map.mp hl
    exact (hn lab hlab).2
  · unfold Tensor.legsOfLabels
    rw [List.map_map]
    conv => rhs; rw [← List.map_id labs]
    apply List.map_congr_left
    intro lab hl
    exact (hn lab hl).1

/-- `getLabelIndices`: a label asked for twice that the tensor has twice gives its two positions. -/
theorem C21_getLabelIndices_pair (st : Store) (t : Tensor R) (lab : String)
    (h : 2 ≤ (t.labels st).count lab) :
    ∃ i j, i < j ∧ t.getLabelIndices st [lab, lab] = [some i, some j] ∧
      (t.labels st)[i]? = some lab ∧ (t.labels st)[j]? = some lab := by
  have hm : lab ∈ t.labels st := List.count_pos_iff.mp (by omega)
  cases hi : t.indexOfLabel st lab with
  | none => exact absurd hm ((C21_indexOfLabel_none st t lab false).mp hi)
  | some i =>
    cases hj : t.indexOfLabel st lab true with
    | none => exact absurd hm ((C21_indexOfLabel_none st t lab true).mp hj)
    | some j =>
      have hi' := (C21_indexOfLabel_forward st t lab i).mp hi
      have hj' := (C21_indexOfLabel_backward st t lab j).mp hj
      refine ⟨i, j, ?_, ?_, hi'.1, hj'.1⟩
      · by_contra hc
        have hij : i = j := by
          by_contra hne
          exact hi'.2 j (by omega) hj'.1
        subst hij
        -- the label occurs only at position i
        have hil : i < (t.labels st).length := by
          by_contra hcc
          rw [List.getElem?_eq_none (by omega)] at hi'; cases hi'.1
        have hsplit : t.labels st = (t.labels st).take i ++ ((t.labels st)[i] :: (t.labels st).drop (i+1)) := by
          rw [List.getElem_cons_drop, List.take_append_drop]
        rw [hsplit, List.count_append, List.count_cons] at h
        have c1 : ((t.labels st).take i).count lab = 0 := by
          rw [List.count_eq_zero]
          intro hmem
          obtain ⟨k, hk⟩ := List.mem_iff_getElem?.mp hmem
          have hki : k < i := by
            by_contra hcc
            rw [List.getElem?_eq_none (by rw [List.length_take]; omega)] at hk; cases hk
          rw [List.getElem?_take_of_lt hki] at hk
          exact hi'.2 k hki hk
        have c2 : ((t.labels st).drop (i+1)).count lab = 0 := by
          rw [List.count_eq_zero]
          intro hmem
          obtain ⟨k, hk⟩ := List.mem_iff_getElem?.mp hmem
          rw [List.getElem?_drop] at hk
          exact hj'.2 (i+1+k) (by omega) hk
        rw [c1, c2] at h
        split at h <;> omega
      · simp [Tensor.getLabelIndices, List.range_succ, hi, hj]

/-- `renameLabel` renames the first leg with that label and nothing else. -/
theorem C21_renameLabel (st : Store) (t : Tensor R) (nd : t.legs.Nodup) (a b : String) :
    (a ∉ t.labels st → t.renameLabel st a b = st) ∧
    (∀ i, (t.labels st)[i]? = some a → (∀ j < i, (t.labels st)[j]? ≠ some a) →
      t.labels (t.renameLabel st a b) = (t.labels st).set i b ∧
      (∀ l ∉ t.legs, (t.renameLabel st a b).leg l = st.leg l) ∧
      (t.renameLabel st a b).dim = st.dim ∧ (∀ l, ((t.renameLabel st a b).leg l).bond = (st.leg l).bond) ∧
      (t.renameLabel st a b).bond = st.bond) := by
  constructor
  · intro h
    unfold Tensor.renameLabel
    rw [(C21_indexOfLabel_none st t a false).mpr h]
  · intro i h1 h2
    have hi := (C21_indexOfLabel_forward st t a i).mpr ⟨h1, h2⟩
    have hil : i < t.legs.length := by
      by_contra hc
      rw [List.getElem?_eq_none (by simp [Tensor.labels]; omega)] at h1; cases h1
    have hr : t.renameLabel st a b = st.rename t.legs[i] b := by
      unfold Tensor.renameLabel
      rw [hi]
      simp only [getD_lt _ _ hil]
    rw [hr]
    refine ⟨?_, ?_, ?_, ?_, rfl⟩
    · apply List.ext_getElem
      · simp [Tensor.labels]
      · intro k hk1 hk2
        simp only [Tensor.labels, List.getElem_map, List.getElem_set]
        have hkl : k < t.legs.length := by simpa [Tensor.labels] using hk1
        by_cases hik : i = k
        · subst hik
          simp [Store.rename, Store.setLeg, Store.name]
        · rw [if_neg hik]
          have : t.legs[k] ≠ t.legs[i] := by
            intro he
            exact hik ((nd.getElem_inj_iff).mp he).symm
          simp [Store.rename, Store.setLeg, Store.name, this]
    · intro l hl
      have : l ≠ t.legs[i] := fun h => hl (h ▸ List.getElem_mem hil)
      simp [Store.rename, Store.setLeg, this]
    · funext l
      by_cases h : l = t.legs[i] <;> simp [Store.rename, Store.setLeg, Store.dim, h]
    · intro l
      by_cases h : l = t.legs[i] <;> simp [Store.rename, Store.setLeg, h]

/-- `renameLabels` renames all at once when the tensor's labels are distinct, the changed labels are
distinct labels of the tensor, and no new label is one of the changed ones (partial: without the last
condition the renames interfere, see `C21_renameLabels_swap_lost`). -/
theorem C21_renameLabels_partial (t : Tensor R) (nd : t.legs.Nodup) :
    ∀ (cf ct : List String) (st : Store), cf.length = ct.length → (t.labels st).Nodup → cf.Nodup →
      cf ⊆ t.labels st → (∀ x ∈ ct, x ∉ cf) → (∀ x ∈ ct, x ∉ t.labels st) → ct.Nodup →
      ∃ st', t.renameLabels st cf ct = .ok st' ∧
        t.labels st' = (t.labels st).map fun x => if x ∈ cf then ct.getD (cf.idxOf x) "" else x := by
  intro cf
  induction cf with
  | nil =>
    intro ct st hl _ _ _ _ _ _
    have : ct = [] := List.length_eq_zero_iff.mp hl.symm
    subst this
    exact ⟨st, by simp [Tensor.renameLabels], by simp⟩
  | cons a cf ih =>
    intro ct st hl ndl ndc hsub hdis hnew ndt
    match ct, hl with
    | b :: ct, hl =>
      rw [List.nodup_cons] at ndc ndt
      have ha : a ∈ t.labels st := hsub (by simp)
      obtain ⟨i, hi⟩ := List.mem_iff_getElem?.mp ha
      have hfirst : ∀ j < i, (t.labels st)[j]? ≠ some a := by
        intro j hj h
        have hil : i < (t.labels st).length := (List.getElem?_eq_some_iff.mp hi).1
        rw [List.getElem?_eq_getElem (by omega)] at h
        rw [List.getElem?_eq_getElem hil] at hi
        have := (ndl.getElem_inj_iff).mp (Option.some.inj (h.trans hi.symm))
        omega
      obtain ⟨hlab, _⟩ := (C21_renameLabel st t nd a b).2 i hi hfirst
      set st1 := t.renameLabel st a b
      have hmap : t.labels st1 = (t.labels st).map fun x => if x = a then b else x := by
        rw [hlab]
        apply List.ext_getElem
        · simp
        · intro k h1 h2
          have hkl : k < (t.labels st).length := by simpa using h1
          simp only [List.getElem_set, List.getElem_map]
          have hil : i < (t.labels st).length := (List.getElem?_eq_some_iff.mp hi).1
          have hia : (t.labels st)[i] = a := by
            rw [List.getElem?_eq_getElem hil] at hi; exact Option.some.inj hi
          by_cases hik : i = k
          · subst hik; simp [hia]
          · rw [if_neg hik, if_neg]
            intro h
            exact hik ((ndl.getElem_inj_iff).mp (hia.trans h.symm))
      have hbl : b ∉ t.labels st := hnew b (by simp)
      have hmem : ∀ x, x ∈ t.labels st1 ↔ (x = b ∨ (x ∈ t.labels st ∧ x ≠ a)) := by
        intro x
        rw [hmap, List.mem_map]
        constructor
        · rintro ⟨y, hy, rfl⟩
          by_cases hya : y = a
          · left; simp [hya]
          · right; simp [hya, hy]
        · rintro (rfl | ⟨h1, h2⟩)
          · exact ⟨a, ha, by simp⟩
          · exact ⟨x, h1, by simp [h2]⟩
      obtain ⟨st', h1, h2⟩ := ih ct st1 (by simpa using hl) (by
          rw [hmap]
          apply ndl.map_on
          intro x hx y hy hxy
          by_cases hxa : x = a <;> by_cases hya : y = a
          · rw [hxa, hya]
          · simp only [hxa, hya, if_true, if_false] at hxy
            exact absurd (hxy ▸ hy) hbl
          · simp only [hxa, hya, if_true, if_false] at hxy
            exact absurd (hxy ▸ hx) hbl
          · simpa [hxa, hya] using hxy) ndc.2 (by
          intro x hx
          rw [hmem]
          exact Or.inr ⟨hsub (by simp [hx]), fun h => ndc.1 (h ▸ hx)⟩) (by
          intro x hx hc
          exact hdis x (by simp [hx]) (by simp [hc])) (by
          intro x hx hc
          rw [hmem] at hc
          rcases hc with hc | hc
          · exact ndt.1 (hc ▸ hx)
          · exact hnew x (by simp [hx]) hc.1) ndt.2
      refine ⟨st', ?_, ?_⟩
      · unfold Tensor.renameLabels at h1 ⊢
        rw [if_pos (by simpa using hl)] at h1
        rw [if_pos hl]
        simp only [List.zip_cons_cons, List.foldl_cons]
        exact h1
      · rw [h2, hmap, List.map_map]
        apply List.map_congr_left
        intro x hx
        simp only [Function.comp]
        by_cases hxa : x = a
        · subst hxa
          have : b ∉ cf := fun hc => hdis b (by simp) (by simp [hc])
          simp [this]
        · simp only [hxa, if_false, List.mem_cons, false_or]
          by_cases hxc : x ∈ cf
          · simp only [hxc, if_true]
            rw [List.idxOf_cons_ne _ (fun h => hxa h.symm)]
            simp
          · simp [hxc]

/-- Different numbers of old and new labels are refused. -/
theorem C21_renameLabels_length (st : Store) (t : Tensor R) (cf ct : List String) (h : cf.length ≠ ct.length) :
    t.renameLabels st cf ct = .error .assertionError := by
  unfold Tensor.renameLabels
  rw [if_neg h]

/-- Swapping two labels does not work: `renameLabels(['a', 'b'], ['b', 'a'])` leaves `['a', 'b']`. -/
theorem C21_renameLabels_swap_lost :
    exA.labels exStore = ["a", "b"] ∧
    (exA.renameLabels exStore ["a", "b"] ["b", "a"]).toOption.map exA.labels = some ["a", "b"] := by
  decide

example : exA.labels exStore = ["a", "b"] ∧ exA.indexOfLabel exStore "b" = some 1 ∧
    (exA.renameLabels exStore ["a", "b"] ["x", "y"]).toOption.map exA.labels = some ["x", "y"] := by decide
/-- The hypotheses of the renaming theorem. -/
example : exA.legs.Nodup ∧ (exA.labels exStore).Nodup ∧ ["a", "b"].Nodup ∧ ["a", "b"] ⊆ exA.labels exStore ∧
    (∀ x ∈ ["x", "y"], x ∉ ["a", "b"]) ∧ (∀ x ∈ ["x", "y"], x ∉ exA.labels exStore) ∧ ["x", "y"].Nodup := by
  decide
/-- A tensor with a repeated label. -/
example : 2 ≤ ((⟨0, [1, 0, 2], none, false, true, 0⟩ : Tensor Int).labels exStore).count "b" := by decide

/-! ## C22 -/

/-- `sumOutLeg` on a dense tensor without weights. -/
theorem C22_sumOutLeg_dense [NonUnitalNonAssocSemiring R] {st : Store} {t : Tensor R} (g : GoodTensor st t)
    (dg : t.diag = false) (leg : LegId) (h : leg ∈ t.legs) :
    ∃ t', t.sumOutLegAny leg none = (t', .ok ()) ∧ t'.legs = t.legs.erase leg ∧ GoodTensor st t' ∧
      t'.diag = false ∧
      ∀ σ, InRange st.dim t'.legs σ →
        entry t' σ = ((List.range (st.dim leg)).map fun k => entry t (σ.set leg k)).sum := by
  obtain ⟨arr, ha, w, s, _⟩ := g.data
  obtain ⟨arr', h1, h2, h3, h4⟩ := sumAxis_leg arr t.legs leg st.dim g.nodup h (s dg)
  refine ⟨{ t with a := some arr', legs := t.legs.eraseIdx (t.legs.idxOf leg) }, ?_, ?_, ?_, dg, ?_⟩
  · simp [Tensor.sumOutLegAny, dg, Tensor.sumOutLeg, h, ha, h1]
  · exact eraseIdx_idxOf _ _
  · refine ⟨?_, g.notLike, arr', rfl, h2, fun _ => ?_, fun hd => ?_⟩
    · simp only [eraseIdx_idxOf]; exact g.nodup.erase _
    · simp only [eraseIdx_idxOf]; exact h3
    · simp [dg] at hd
  · intro σ hσ
    simp only [eraseIdx_idxOf] at hσ ⊢
    simp only [entry, dg, ha, Bool.false_eq_true, if_false]
    exact h4 σ hσ

/-- `sumOutLeg` on a dense tensor with one weight per index of the leg (NumPy has letters for rank ≤ 25). -/
theorem C22_sumOutLeg_dense_weights [NonUnitalNonAssocSemiring R] {st : Store} {t : Tensor R}
    (g : GoodTensor st t) (dg : t.diag = false) (leg : LegId) (h : leg ∈ t.legs) (hr : t.legs.length ≤ 25)
    (wt : NDArray R) (hw : wt.shape = [st.dim leg]) :
    ∃ t', t.sumOutLegAny leg (some wt) = (t', .ok ()) ∧ t'.legs = t.legs.erase leg ∧ GoodTensor st t' ∧
      t'.diag = false ∧
      ∀ σ, InRange st.dim t'.legs σ →
        entry t' σ = ((List.range (st.dim leg)).map fun k => entry t (σ.set leg k) * wt.get [k]).sum := by
  obtain ⟨arr, ha, w, s, _⟩ := g.data
  have s := s dg
  set arrW := NDArray.build arr.shape fun i => arr.get i * wt.get [i.getD (t.legs.idxOf leg) 0] with harrW
  obtain ⟨arr', h1, h2, h3, h4⟩ := sumAxis_leg arrW t.legs leg st.dim g.nodup h (by rw [harrW]; exact s)
  have hd : arr.shape.getD (t.legs.idxOf leg) 0 = st.dim leg := by
    rw [s]; exact getD_map_idxOf _ _ _ _ h
  refine ⟨{ t with a := some arr', legs := t.legs.eraseIdx (t.legs.idxOf leg) }, ?_, ?_, ?_, dg, ?_⟩
  · simp only [Tensor.sumOutLegAny, dg, Bool.false_eq_true, if_false, Tensor.sumOutLeg, h, not_true_eq_false, ha]
    rw [if_pos (by rw [s, List.length_map]; exact hr), if_pos (by rw [hd]; exact hw), h1]
  · exact eraseIdx_idxOf _ _
  · refine ⟨?_, g.notLike, arr', rfl, h2, fun _ => ?_, fun hd => ?_⟩
    · simp only [eraseIdx_idxOf]; exact g.nodup.erase _
    · simp only [eraseIdx_idxOf]; exact h3
    · simp [dg] at hd
  · intro σ hσ
    simp only [eraseIdx_idxOf] at hσ ⊢
    simp only [entry, dg, ha, Bool.false_eq_true, if_false]
    rw [h4 σ hσ]
    congr 1
    apply List.map_congr_left
    intro k hk
    have hk := List.mem_range.mp hk
    rw [harrW, NDArray.get_build]
    · congr 2
      rw [getD_map_idxOf t.legs (σ.set leg k) 0 leg h]
      simp [Assign.set]
    · rw [s]
      apply validIdx_map
      intro l hl
      unfold Assign.set
      by_cases hll : l = leg
      · rw [if_pos hll, hll]; exact hk
      · rw [if_neg hll]
        exact hσ l ((List.mem_erase_of_ne hll).mpr hl)

/-- `sumOutLeg` on a diagonal tensor, with or without weights. -/
theorem C22_sumOutLeg_diagonal [NonUnitalNonAssocSemiring R] {st : Store} {t : Tensor R} (g : GoodTensor st t)
    (dg : t.diag = true) (leg : LegId) (h : leg ∈ t.legs) (wt : Option (NDArray R))
    (hw : ∀ w, wt = some w → w.shape = [st.dim leg]) :
    ∃ t', t.sumOutLegAny leg wt = (t', .ok ()) ∧ t'.legs = t.legs.erase leg ∧ GoodTensor st t' ∧
      t'.diag = true ∧
      ∀ σ, InRange st.dim t'.legs σ →
        entry t' σ = ((List.range (st.dim leg)).map fun k =>
          wt.elim (entry t (σ.set leg k)) fun w => entry t (σ.set leg k) * w.get [k]).sum := by
  obtain ⟨arr, ha, w, _, s⟩ := g.data
  have hne : t.legs ≠ [] := List.ne_nil_of_mem h
  rcases s dg with ⟨e, _⟩ | ⟨_, hs, hdim⟩
  · exact absurd e hne
  -- the weighted diagonal
  obtain ⟨d, hd1, hd2, hd3, hd4⟩ : ∃ d, wt.elim (Except.ok arr : Except PyErr (NDArray R)) arr.mulBroadcast = .ok d ∧ d.WF ∧ d.shape = [t.length] ∧
      ∀ k < t.length, d.get [k] = wt.elim (arr.get [k]) fun w => arr.get [k] * w.get [k] := by
    cases wt with
    | none => exact ⟨arr, rfl, w, hs, fun _ _ => rfl⟩
    | some w =>
      have hws : arr.shape = w.shape := by rw [hs, hw w rfl, hdim leg h]
      refine ⟨NDArray.build arr.shape fun idx => arr.get idx * w.get idx, ?_, NDArray.build_wf _ _, ?_, ?_⟩
      · simp only [Option.elim, NDArray.mulBroadcast]; rw [if_pos hws]
      · exact hs
      · intro k hk
        rw [NDArray.get_build]
        · rfl
        rw [hs]
        exact List.Forall₂.cons hk List.Forall₂.nil
  have hrun : t.sumOutLegAny leg wt = (if t.legs.erase leg = [] then
      ({ t with legs := t.legs.erase leg, a := some (NDArray.scalar d.sumAll), length := 1 }, .ok ())
      else ({ t with legs := t.legs.erase leg, a := some d }, .ok ())) := by
    unfold Tensor.sumOutLegAny
    rw [if_pos dg]
    unfold Tensor.sumOutLegDiag
    simp only [h, not_true_eq_false, if_false, ha, eraseIdx_idxOf]
    cases wt with
    | none =>
      simp only [Option.elim, Except.ok.injEq] at hd1
      rw [hd1]
    | some w =>
      simp only [Option.elim] at hd1
      simp only [hd1]
  rw [hrun]
  have hentry : ∀ (σ : Assign) (k : Nat), entry t (σ.set leg k)
      = if ∀ l ∈ t.legs.erase leg, σ l = k then arr.get [k] else 0 := by
    intro σ k
    rw [entry_diag ha dg h]
    have e1 : (σ.set leg k) leg = k := by simp [Assign.set]
    rw [e1]
    have : (∀ l ∈ t.legs, (σ.set leg k) l = k) ↔ (∀ l ∈ t.legs.erase leg, σ l = k) := by
      constructor
      · intro hh l hl
        rw [g.nodup.mem_erase_iff] at hl
        have := hh l hl.2
        simpa [Assign.set, hl.1] using this
      · intro hh l hl
        by_cases hll : l = leg
        · rw [hll, e1]
        · have := hh l ((List.mem_erase_of_ne hll).mpr hl)
          simpa [Assign.set, hll] using this
    simp only [this]
  by_cases hemp : t.legs.erase leg = []
  · rw [if_pos hemp]
    refine ⟨_, rfl, rfl, ⟨?_, g.notLike, _, rfl, by simp [NDArray.WF, NDArray.scalar], fun hh => ?_, fun _ => ?_⟩, dg, ?_⟩
    · simp only [hemp]; exact List.nodup_nil
    · simp [dg] at hh
    · left; exact ⟨hemp, rfl, rfl⟩
    · intro σ _
      rw [show entry { t with legs := t.legs.erase leg, a := some (NDArray.scalar d.sumAll), length := 1 } σ
        = (NDArray.scalar d.sumAll).get [] by simp [entry, dg, hemp]]
      rw [scalar_get, sumAll_vec d _ hd2 hd3, hdim leg h]
      congr 1
      apply List.map_congr_left
      intro k hk
      have hk := List.mem_range.mp hk
      rw [hd4 k hk]
      have := hentry σ k
      simp only [hemp, List.not_mem_nil, false_imp_iff, implies_true, if_true] at this
      cases wt with
      | none => simp only [Option.elim]; rw [← this]
      | some w => simp only [Option.elim]; rw [← this]
  · rw [if_neg hemp]
    refine ⟨_, rfl, rfl, ⟨?_, g.notLike, _, rfl, hd2, fun hh => ?_, fun _ => ?_⟩, dg, ?_⟩
    · exact g.nodup.erase _
    · simp [dg] at hh
    · right
      exact ⟨hemp, hd3, fun l hl => hdim l (List.mem_of_mem_erase hl)⟩
    · intro σ hσ
      obtain ⟨l0, ls, hls⟩ := List.exists_cons_of_ne_nil hemp
      have h0 : l0 ∈ t.legs.erase leg := by rw [hls]; simp
      have hl0 := hσ l0 h0
      rw [hdim l0 (List.mem_of_mem_erase h0)] at hl0
      rw [entry_diag (t := { t with legs := t.legs.erase leg, a := some d }) rfl dg h0]
      simp only [hentry]
      rw [hdim leg h]
      rw [list_sum_single (List.range t.length) _ (σ l0) List.nodup_range (List.mem_range.mpr hl0)]
      · rw [hd4 _ hl0]
        by_cases hh : ∀ l ∈ t.legs.erase leg, σ l = σ l0
        · simp only [if_pos hh]
        · simp only [if_neg hh]
          cases wt <;> simp
      · intro k _ hk
        have : ¬ ∀ l ∈ t.legs.erase leg, σ l = k := fun hh => hk (hh l0 h0).symm
        simp only [if_neg this]
        cases wt <;> simp

/-- A leg that the tensor does not have is ignored. -/
theorem C22_sumOutLeg_foreign [NonUnitalNonAssocSemiring R] (t : Tensor R) (leg : LegId) (h : leg ∉ t.legs)
    (w : Option (NDArray R)) : t.sumOutLegAny leg w = (t, .ok ()) := by
  unfold Tensor.sumOutLegAny Tensor.sumOutLegDiag Tensor.sumOutLeg
  simp [h]

/-- By label: the first (or last) leg with that label is summed out; an unknown label is ignored. -/
theorem C22_sumOutLegByLabel [NonUnitalNonAssocSemiring R] (st : Store) (t : Tensor R) (lab : String)
    (backward : Bool) (w : Option (NDArray R)) :
    (lab ∉ t.labels st → t.sumOutLegByLabel1 st lab backward w = (t, .ok ())) ∧
    (lab ∈ t.labels st → ∃ l ∈ t.legs, st.name l = lab ∧
      t.sumOutLegByLabel1 st lab backward w = t.sumOutLegAny l w) := by
  obtain ⟨h1, h2⟩ := C21_getLeg st t lab backward
  constructor
  · intro h
    simp [Tensor.sumOutLegByLabel1, (h1 h).1]
  · intro h
    obtain ⟨l, hl, hn, hg, _⟩ := h2 h
    exact ⟨l, hl, hn, by simp [Tensor.sumOutLegByLabel1, hg]⟩

/-- A list of labels sums the legs one after the other, without weights. -/
theorem C22_sumOutLegByLabel_list [NonUnitalNonAssocSemiring R] (st : Store) (t : Tensor R)
    (backward : Bool) (w : Option (NDArray R)) (lab : String) (labs : List String)
    (t' : Tensor R) (h : t.sumOutLegByLabel1 st lab backward none = (t', .ok ())) :
    t.sumOutLegByLabelList st (lab :: labs) backward w = t'.sumOutLegByLabelList st labs backward w ∧
    t.sumOutLegByLabelList st [] backward w = (t, .ok ()) := by
  unfold Tensor.sumOutLegByLabelList
  simp [h]

/-- The second half of C22 is false: for a list of labels the weights are dropped.  Summing the vector
`(1, 2, 3)` with weights `(1, 0, 0)` gives 6 instead of 1. -/
theorem C22_list_drops_weights :
    let t : Tensor Int := ⟨0, [1], some ⟨[3], [1, 2, 3]⟩, false, false, 0⟩
    let w : NDArray Int := ⟨[3], [1, 0, 0]⟩
    (t.sumOutLegByLabel1 exStore "b" false (some w)).1.a = some ⟨[], [1]⟩ ∧
    (t.sumOutLegByLabelList exStore ["b"] false (some w)).1.a = some ⟨[], [6]⟩ := by
  decide

example : GoodTensor exStore exA ∧ exA.diag = false ∧ 1 ∈ exA.legs ∧ exA.legs.length ≤ 25 ∧
    (⟨[3], [1, 1, 2]⟩ : NDArray Int).shape = [exStore.dim 1] := ⟨exA_good, rfl, by decide, by decide, rfl⟩
example : GoodTensor exStore exD ∧ exD.diag = true ∧ 4 ∈ exD.legs := ⟨exD_good, rfl, by decide⟩
example : (exA.sumOutLegAny 1 none).1.a = some ⟨[2], [6, 15]⟩ := by decide
example : exA.sumOutLegByLabel1 exStore "b" false none =
    (⟨0, [0], some ⟨[2], [6, 15]⟩, false, false, 0⟩, .ok ()) := by rfl

/-! ## C40 -/

/-- `Tensor.trace(rows, cols)`: sum of the entries whose row indices equal the column indices. -/
theorem C40_trace_dense [NonUnitalNonAssocSemiring R] {st : Store} {t : Tensor R} (g : GoodTensor st t)
    (dg : t.diag = false) (rows cols : List LegId) (hr : rows ≠ []) (hp : (rows ++ cols).Perm t.legs)
    (hd : rows.map st.dim = cols.map st.dim) (σ : Assign) :
    t.trace (some rows) (some cols) = .ok (sumBonds st.dim (rows.zip cols) (entry t) σ) := by
  have hc : cols ≠ [] := by
    rintro rfl
    simp only [List.map_nil, List.map_eq_nil_iff] at hd
    exact hr hd
  obtain ⟨m, h1, h2, h3, h4⟩ := C16_toMatrix_both g dg rows cols hr hc hp
  obtain ⟨arr, ha, _⟩ := g.data
  have he : entry t = fun τ => arr.get (t.legs.map τ) := by
    funext τ; simp [entry, ha, dg]
  unfold Tensor.trace
  simp only [g.notLike, dg, Bool.false_eq_true, if_false, h1, bind, Except.bind, pure, Except.pure, h3]
  have : pyAssert ([(rows.map st.dim).prod, (cols.map st.dim).prod].getD 0 0
      = [(rows.map st.dim).prod, (cols.map st.dim).prod].getD 1 0) = .ok () := by
    unfold pyAssert; rw [hd]; simp
  rw [this]
  simp only
  rw [trace_sum arr m t.legs rows cols st.dim g.nodup hp hd h3 (by
    intro τ hτ; rw [h4 τ hτ, he]) σ, he]

/-- `DiagonalTensor.trace` is the sum of the diagonal. -/
theorem C40_trace_diagonal [NonUnitalNonAssocSemiring R] {st : Store} {t : Tensor R} (g : GoodTensor st t)
    (dg : t.diag = true) (hne : t.legs ≠ []) (rows cols : Option (List LegId)) :
    t.trace rows cols = .ok ((List.range t.length).map fun k => entry t fun _ => k).sum := by
  obtain ⟨arr, ha, w, _, s⟩ := g.data
  rcases s dg with ⟨e, _⟩ | ⟨_, hs, hdim⟩
  · exact absurd e hne
  unfold Tensor.trace
  simp only [g.notLike, dg, Bool.false_eq_true, if_false, if_true, ha, bind, Except.bind, pure, Except.pure]
  rw [sumAll_vec arr _ w hs]
  congr 2
  apply List.map_congr_left
  intro k _
  obtain ⟨l0, ls, hls⟩ := List.exists_cons_of_ne_nil hne
  rw [entry_diag ha dg (l0 := l0) (by simp [hls])]
  simp

/-- `DiagonalTensor.trace` equals the trace of the dense expansion, for any split of the legs into two
halves. -/
theorem C40_trace_diagonal_expand [NonUnitalNonAssocSemiring R] {st : Store} {t : Tensor R} (g : GoodTensor st t)
    (dg : t.diag = true) (rows cols : List LegId) (hr : rows ≠ []) (hp : (rows ++ cols).Perm t.legs)
    (hl : rows.length = cols.length) :
    t.trace (some rows) (some cols) = (t.expand st).trace (some rows) (some cols) := by
  have hne : t.legs ≠ [] := by
    intro h; rw [h] at hp; have := hp.eq_nil; simp [hr] at this
  obtain ⟨arr, ha, w, _, s⟩ := g.data
  rcases s dg with ⟨e, _⟩ | ⟨_, hs, hdim⟩
  · exact absurd e hne
  have hrs : rows ⊆ t.legs := fun x hx => hp.mem_iff.mp (by simp [hx])
  have hcs : cols ⊆ t.legs := fun x hx => hp.mem_iff.mp (by simp [hx])
  have hdr : ∀ xs : List LegId, xs ⊆ t.legs → xs.map st.dim = List.replicate xs.length t.length := by
    intro xs hx
    rw [List.eq_replicate_iff]
    refine ⟨by simp, ?_⟩
    intro b hb
    rw [List.mem_map] at hb
    obtain ⟨l, hl, rfl⟩ := hb
    exact hdim l (hx hl)
  have hd : rows.map st.dim = cols.map st.dim := by rw [hdr _ hrs, hdr _ hcs, hl]
  rw [C40_trace_diagonal g dg hne,
    C40_trace_dense (expand_good g) rfl rows cols hr (by exact hp) hd (fun _ => 0)]
  congr 1
  have h1 : (rows.zip cols).map Prod.fst = rows := List.map_fst_zip (le_of_eq hl)
  have h2 : (rows.zip cols).map Prod.snd = cols := List.map_snd_zip (le_of_eq hl.symm)
  have ndp : ((rows.zip cols).map Prod.fst ++ (rows.zip cols).map Prod.snd).Nodup := by
    rw [h1, h2]; exact hp.nodup_iff.mpr g.nodup
  have hshape : (rows.zip cols).map (fun p => st.dim p.1) = rows.map st.dim := by
    rw [← h1, List.map_map, h1]; rfl
  have hdims : ∀ p ∈ rows.zip cols, st.dim p.2 = st.dim p.1 := by
    intro p hpz
    have := List.of_mem_zip hpz
    rw [hdim _ (hrs this.1), hdim _ (hcs this.2)]
  have hin : ∀ idx, ValidIdx (rows.map st.dim) idx → InRange st.dim t.legs (assign (fun _ => 0) (rows.zip cols) idx) := by
    intro idx hv
    apply assign_inRange st.dim t.legs _ _ idx (by rw [hshape]; exact hv) hdims
    intro l hl n1 n2
    rw [h1] at n1
    rw [h2] at n2
    have := hp.mem_iff.mpr hl
    simp [n1, n2] at this
  rw [sumBonds_eq, hshape]
  have hexp : ((indices (rows.map st.dim)).map fun idx => entry (t.expand st) (assign (fun _ => 0) (rows.zip cols) idx))
      = (indices (rows.map st.dim)).map fun idx => entry t (assign (fun _ => 0) (rows.zip cols) idx) := by
    apply List.map_congr_left
    intro idx hidx
    exact expand_entry g (hin idx (mem_indices.mp hidx))
  rw [hexp, hdr _ hrs]
  obtain ⟨r0, rs, hrr⟩ := List.exists_cons_of_ne_nil hr
  have hrl : rows.length = rs.length + 1 := by rw [hrr]; rfl
  have hap : ∀ idx, idx.length = rows.length →
      rows.map (assign (fun _ => 0) (rows.zip cols) idx) = idx ∧
      cols.map (assign (fun _ => 0) (rows.zip cols) idx) = idx := by
    intro idx hi
    have := assign_pairs (fun _ => 0) (rows.zip cols) idx (by rw [List.length_zip]; omega) ndp
    rwa [h1, h2] at this
  have h0 : r0 ∈ t.legs := hrs (by simp [hrr])
  rw [hrl, sum_indices_diag]
  · congr 1
    apply List.map_congr_left
    intro k _
    obtain ⟨a1, a2⟩ := hap (List.replicate (rs.length + 1) k) (by simp [hrl])
    have hall : ∀ l ∈ t.legs, assign (fun _ => 0) (rows.zip cols) (List.replicate (rs.length+1) k) l = k := by
      intro l hl
      rcases List.mem_append.mp (hp.mem_iff.mpr hl) with h | h
      · exact map_eq_replicate_mem a1 h
      · exact map_eq_replicate_mem a2 h
    rw [entry_diag ha dg h0, entry_diag ha dg h0, hall r0 h0]
    rw [if_pos hall]
    simp
  · intro k idx hidx hne'
    have hv := mem_indices.mp hidx
    obtain ⟨a1, a2⟩ := hap (k :: idx) (by rw [hv.length]; simp [hrl])
    rw [entry_diag ha dg h0, if_neg]
    intro hh
    apply hne'
    have hk : assign (fun _ => 0) (rows.zip cols) (k :: idx) r0 = k := by
      rw [hrr] at a1 ⊢
      simp only [List.map_cons, List.cons.injEq] at a1
      exact a1.1
    have hlen : idx.length = rs.length := by have := hv.length; simpa using this
    rw [List.eq_replicate_iff]
    refine ⟨hlen, ?_⟩
    intro b hb
    have hb' : b ∈ rows.map (assign (fun _ => 0) (rows.zip cols) (k :: idx)) := by rw [a1]; simp [hb]
    rw [List.mem_map] at hb'
    obtain ⟨l, hl, rfl⟩ := hb'
    rw [hh l (hrs hl), hk]

/-- Row and column sizes that differ are refused. -/
theorem C40_trace_not_square [NonUnitalNonAssocSemiring R] {st : Store} {t : Tensor R} (g : GoodTensor st t)
    (dg : t.diag = false) (rows cols : List LegId) (hr : rows ≠ []) (hc : cols ≠ [])
    (hp : (rows ++ cols).Perm t.legs) (hd : (rows.map st.dim).prod ≠ (cols.map st.dim).prod) :
    t.trace (some rows) (some cols) = .error .assertionError := by
  obtain ⟨m, h1, h2, h3, h4⟩ := C16_toMatrix_both g dg rows cols hr hc hp
  unfold Tensor.trace
  simp only [g.notLike, dg, Bool.false_eq_true, if_false, h1, bind, Except.bind, pure, Except.pure, h3]
  simp [pyAssert, hd]

/-- A square matrix and its trace. -/
def exSq : Tensor Int := ⟨0, [4, 5], some ⟨[3, 3], [1, 2, 3, 4, 5, 6, 7, 8, 9]⟩, false, false, 0⟩
theorem exSq_good : GoodTensor exStore exSq :=
  ⟨by decide, rfl, ⟨_, rfl, rfl, fun _ => rfl, fun h => by simp [exSq] at h⟩⟩
example : GoodTensor exStore exSq ∧ exSq.diag = false ∧ ([5] ++ [4]).Perm exSq.legs ∧
    [5].map exStore.dim = [4].map exStore.dim ∧ exSq.trace (some [5]) (some [4]) = .ok 15 :=
  ⟨exSq_good, rfl, by decide, rfl, rfl⟩
/-- A diagonal tensor with two legs, for `C40_trace_diagonal_expand`. -/
example : let t : Tensor Int := ⟨2, [4, 5], some ⟨[3], [1, 2, 3]⟩, true, false, 3⟩
    GoodTensor exStore t ∧ ([4] ++ [5]).Perm t.legs ∧ t.trace none none = .ok 6 :=
  ⟨⟨by decide, rfl, ⟨_, rfl, rfl, fun h => by simp at h, fun _ => Or.inr ⟨by decide, rfl, by decide⟩⟩⟩,
    by decide, rfl⟩
example : GoodTensor exStore exA ∧ ([0].map exStore.dim).prod ≠ ([1].map exStore.dim).prod :=
  ⟨exA_good, by decide⟩

/-! ## C38, first part: `moveLegsToFront` -/

theorem removeLoop_fail (ls : List LegId) (nd : ls.Nodup) (pre : List LegId) (ndp : pre.Nodup)
    (hsub : pre ⊆ ls) (x : LegId) (post : List LegId) (hx : x ∉ ls ∨ x ∈ pre) :
    Tensor.removeLoop ls (pre ++ x :: post) = (ls.filter (fun l => decide (l ∉ pre)), some .valueError) := by
  induction pre generalizing ls with
  | nil =>
    have : x ∉ ls := by simpa using hx
    simp [Tensor.removeLoop, pyRemove, this]
  | cons y ys ih =>
    rw [List.nodup_cons] at ndp
    have hy : y ∈ ls := hsub (by simp)
    simp only [List.cons_append, Tensor.removeLoop, pyRemove, hy, if_true]
    rw [ih (ls.erase y) (nd.erase y) ndp.2]
    · congr 1
      rw [nd.erase_eq_filter, List.filter_filter]
      apply List.filter_congr
      intro z _
      by_cases hzy : z = y <;> simp [hzy]
    · intro z hz
      rw [nd.mem_erase_iff]
      exact ⟨fun e => ndp.1 (e ▸ hz), hsub (by simp [hz])⟩
    · rcases hx with hx | hx
      · left; intro h; exact hx (List.mem_of_mem_erase h)
      · rcases List.mem_cons.mp hx with h | h
        · left; rw [h, nd.mem_erase_iff]; simp
        · right; exact h

/-- What a failing `moveLegsToFront` leaves behind: the legs before the first bad one are gone from the
tensor, the data is not touched.  So the tensor is unchanged exactly when the very first leg is bad. -/
theorem C38_moveLegsToFront_failure [Zero R] (t : Tensor R) (nd : t.legs.Nodup) (pre : List LegId)
    (ndp : pre.Nodup) (hsub : pre ⊆ t.legs) (x : LegId) (post : List LegId) (hx : x ∉ t.legs ∨ x ∈ pre) :
    t.moveLegsToFront (pre ++ x :: post)
      = ({ t with legs := t.legs.filter (fun l => decide (l ∉ pre)) }, .error .valueError) := by
  unfold Tensor.moveLegsToFront
  rw [removeLoop_fail t.legs nd pre ndp hsub x post hx]

/-- Partial form of C38: a failing call leaves the tensor unchanged if the first leg is already bad.
Missing: the other cases, which are false. -/
theorem C38_moveLegsToFront_partial [Zero R] (t : Tensor R) (x : LegId) (post : List LegId) (hx : x ∉ t.legs) :
    t.moveLegsToFront (x :: post) = (t, .error .valueError) := by
  unfold Tensor.moveLegsToFront
  simp [Tensor.removeLoop, pyRemove, hx]

/-- C38 is false of `moveLegsToFront`: a tensor with two legs loses one and keeps its two-dimensional
array. -/
theorem C38_moveLegsToFront_wrong :
    exA.moveLegsToFront [0, 9] = ({ exA with legs := [1] }, .error .valueError) ∧
    exA.moveLegsToFront [0, 0] = ({ exA with legs := [1] }, .error .valueError) := by
  decide

/-- C38 is false of `outProduct` as well: with an unknown label, and with a leg of dimension 0 left over. -/
theorem C38_outProduct_wrong :
    (exA.outProductLabels exStore ["a", "q"] "f").2 = ({ exA with legs := [1] }, .error .valueError) ∧
    (let t : Tensor Int := ⟨0, [9, 0], some ⟨[0, 2], []⟩, false, false, 0⟩
     (t.outProduct exStore [0] "f").2.1.legs = [0, 9] ∧
     (t.outProduct exStore [0] "f").2.2 = .error .valueError) := by
  refine ⟨by decide, by decide, by rfl⟩

example : exA.legs.Nodup ∧ [0].Nodup ∧ [0] ⊆ exA.legs ∧ 9 ∉ exA.legs := by decide

end CTL
