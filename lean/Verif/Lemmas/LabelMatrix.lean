import Verif.Lemmas.NetSteps

/-! The matrix of a tensor, with rows and columns given by labels. -/

namespace CTL
variable {K : Type}

theorem HasLabels.matrix [Zero K] {st : Store} {t : Tensor K} {labels : List String} (h : HasLabels st t labels) (rs cs : List String)
    (nd : (rs ++ cs).Nodup) (hp : labels.Perm (rs ++ cs)) (hr : rs ≠ []) (hc : cs ≠ []) :
    ∃ m, t.toMatrix (some (t.legsOfLabels st rs)) (some (t.legsOfLabels st cs)) = .ok m ∧ m.WF ∧
      m.shape = [(rs.map (t.dimOf st)).prod, (cs.map (t.dimOf st)).prod] ∧
      ∀ xs, (∀ x ∈ rs ++ cs, indexAt xs x < t.dimOf st x) →
        m.get [ravel (rs.map (t.dimOf st)) (rs.map (indexAt xs)), ravel (cs.map (t.dimOf st)) (cs.map (indexAt xs))] = t.at st xs := by
  have h' : HasLabels st t (rs ++ cs) := ⟨h.good, h.dense, h.known, h.pos, h.labels.trans hp⟩
  obtain ⟨ls, hn, hpm, hg⟩ := legs_of_labels nd h.good.nodup h'.labels
  obtain ⟨lr, lc, rfl, nr, nc⟩ := List.map_eq_append_iff.mp hn
  have hd : ∀ l ∈ lr ++ lc, st.dim l = t.dimOf st (st.name l) := fun l hl => (dimOf_leg h' nd (hpm.subset hl)).symm
  have er : t.legsOfLabels st rs = lr := by
    unfold Tensor.legsOfLabels
    rw [← nr, List.map_map]
    conv_rhs => rw [← List.map_id lr]
    refine List.map_congr_left fun l hl => ?_
    simp [hg l (List.mem_append_left _ hl)]
  have ec : t.legsOfLabels st cs = lc := by
    unfold Tensor.legsOfLabels
    rw [← nc, List.map_map]
    conv_rhs => rw [← List.map_id lc]
    refine List.map_congr_left fun l hl => ?_
    simp [hg l (List.mem_append_right _ hl)]
  obtain ⟨m, e, w, s, v⟩ := C16_toMatrix_both h.good h.dense lr lc (by rintro rfl; exact hr nr.symm) (by rintro rfl; exact hc nc.symm) hpm
  have dr : lr.map st.dim = rs.map (t.dimOf st) := by
    rw [← nr, List.map_map]
    exact List.map_congr_left fun l hl => hd l (List.mem_append_left _ hl)
  have dc : lc.map st.dim = cs.map (t.dimOf st) := by
    rw [← nc, List.map_map]
    exact List.map_congr_left fun l hl => hd l (List.mem_append_right _ hl)
  refine ⟨m, by rw [er, ec]; exact e, w, by rw [s, dr, dc], fun xs hx => ?_⟩
  have := v (fun l => indexAt xs (st.name l)) fun l hl => by
    have hl' := hpm.symm.subset hl
    rw [hd l hl']
    exact hx _ (hn ▸ List.mem_map_of_mem hl')
  rw [dr, dc] at this
  simp only [← nr, ← nc, List.map_map] at this ⊢
  exact this

end CTL
