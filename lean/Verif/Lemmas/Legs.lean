import Verif.Model.TensorOps
import Verif.Lemmas.Outer
import Verif.Props.Lists

/-! Helper lemmas: access by label and reordering. -/

namespace CTL
variable {R : Type}

theorem getD_lt {α} (l : List α) (d : α) {i : Nat} (h : i < l.length) : l.getD i d = l[i] := by
  simp [h]

theorem getLegsByLabel_ok (st : Store) (t : Tensor R) (nd : t.legs.Nodup) (labs : List String)
    (h : ∀ x, labs.count x ≤ (t.labels st).count x) :
    ∃ legs, t.getLegsByLabel st labs = .ok legs ∧ legs.Nodup ∧ legs ⊆ t.legs ∧ legs.map st.name = labs := by
  obtain ⟨hlen, hspec⟩ := C37_generateIndices (t.labels st) labs
  have hsome : ∀ k (hk : k < labs.length), ∃ i, (generateIndices (t.labels st) labs)[k]? = some (some i) ∧
      i < t.legs.length ∧ (t.labels st)[i]? = some labs[k] := by
    intro k hk
    cases hv : (generateIndices (t.labels st) labs)[k]? with
    | none => rw [List.getElem?_eq_none_iff] at hv; omega
    | some o =>
      cases o with
      | none =>
        have := ((hspec k hk).2).mp hv
        have h2 := h labs[k]
        have h3 : (labs.take (k+1)).count labs[k] ≤ labs.count labs[k] := (List.take_sublist _ _).count_le _
        rw [List.take_succ_eq_append_getElem hk, List.count_append] at h3
        simp at h3
        omega
      | some i =>
        have := ((hspec k hk).1 i).mp hv
        refine ⟨i, rfl, ?_, this.1⟩
        have := List.getElem?_eq_some_iff.mp this.1
        obtain ⟨hi, _⟩ := this
        simpa [Tensor.labels] using hi
  have hnone : none ∉ generateIndices (t.labels st) labs := by
    intro hm
    obtain ⟨k, hk⟩ := List.mem_iff_getElem?.mp hm
    have hk' : k < labs.length := by
      have := List.getElem?_eq_some_iff.mp hk
      rw [← hlen]; exact this.1
    obtain ⟨i, hi, _⟩ := hsome k hk'
    rw [hk] at hi; simp at hi
  refine ⟨(generateIndices (t.labels st) labs).map fun i => t.legs.getD (i.getD 0) 0,
    by unfold Tensor.getLegsByLabel; simp only [hnone, if_false], ?_, ?_, ?_⟩
  · rw [List.nodup_iff_getElem?_ne_getElem?]
    intro k l hkl hl
    rw [List.length_map, hlen] at hl
    obtain ⟨i, hi, hil, _⟩ := hsome k (by omega)
    obtain ⟨j, hj, hjl, _⟩ := hsome l hl
    rw [List.getElem?_map, List.getElem?_map, hi, hj]
    simp only [Option.map_some, Option.getD_some, ne_eq, Option.some.injEq]
    intro he
    rw [getD_lt _ _ hil, getD_lt _ _ hjl] at he
    have hij := (nd.getElem_inj_iff).mp he
    subst hij
    have := C37_generateIndices_injective (t.labels st) labs k l (by omega) hl i hi hj
    omega
  · intro x hx
    rw [List.mem_map] at hx
    obtain ⟨o, ho, rfl⟩ := hx
    obtain ⟨k, hk⟩ := List.mem_iff_getElem?.mp ho
    have hk' : k < labs.length := by
      have := List.getElem?_eq_some_iff.mp hk
      rw [← hlen]; exact this.1
    obtain ⟨i, hi, hil, _⟩ := hsome k hk'
    rw [hk] at hi
    cases hi
    rw [Option.getD_some, getD_lt _ _ hil]
    exact List.getElem_mem hil
  · apply List.ext_getElem?
    intro k
    by_cases hk : k < labs.length
    · obtain ⟨i, hi, hil, hlab⟩ := hsome k hk
      rw [List.getElem?_map, List.getElem?_map, hi, List.getElem?_eq_getElem hk]
      simp only [Option.map_some, Option.getD_some, Option.some.injEq]
      rw [getD_lt _ _ hil]
      simpa [Tensor.labels, List.getElem?_map, List.getElem?_eq_getElem hil] using hlab
    · rw [List.getElem?_eq_none (by simp [hlen]; omega), List.getElem?_eq_none (by omega)]

theorem getLegsByLabel_error (st : Store) (t : Tensor R) (labs : List String)
    (h : ∃ x, (t.labels st).count x < labs.count x) :
    t.getLegsByLabel st labs = .error .valueError := by
  obtain ⟨x, hx⟩ := h
  obtain ⟨hlen, hspec⟩ := C37_generateIndices (t.labels st) labs
  have hm : none ∈ generateIndices (t.labels st) labs := by
    by_contra hnone
    -- map every position holding x to a position of the labels
    suffices H : ∀ n ≤ labs.length, (labs.take n).count x ≤ (t.labels st).count x by
      have := H labs.length le_rfl
      rw [List.take_length] at this
      omega
    intro n
    induction n with
    | zero => intro _; simp
    | succ n ih =>
      intro hn
      have hk : n < labs.length := by omega
      rw [List.take_succ_eq_append_getElem hk, List.count_append]
      by_cases hxe : labs[n] = x
      · have h2 := (hspec n hk).2
        rw [hxe] at h2
        have : ¬ (t.labels st).count x ≤ (labs.take n).count x := by
          intro hle
          have := h2.mpr hle
          exact hnone (List.mem_iff_getElem?.mpr ⟨n, this⟩)
        rw [hxe]; simp; omega
      · have := ih (by omega)
        have h0 : List.count x [labs[n]] = 0 := by
          rw [List.count_eq_zero]; simp; exact fun h => hxe h.symm
        omega
  unfold Tensor.getLegsByLabel
  simp only [hm, if_true]

theorem moveLegsToFront_ok [Zero R] {st : Store} {t : Tensor R} (g : GoodTensor st t)
    (front : List LegId) (ndf : front.Nodup) (hsub : front ⊆ t.legs) :
    ∃ t', t.moveLegsToFront front = (t', .ok ()) ∧
      t'.legs = front ++ t.legs.filter (fun l => decide (l ∉ front)) ∧
      t'.id = t.id ∧ t'.diag = t.diag ∧ t'.length = t.length ∧
      GoodTensor st t' ∧ t'.legs.Perm t.legs ∧
      ∀ σ, InRange st.dim t.legs σ → entry t' σ = entry t σ := by
  cases dg : t.diag
  · obtain ⟨t', arr, h1, h2, h3, h4, h5⟩ := moveLegsToFront_dense g dg front ndf hsub
    exact ⟨t', h1, by rw [h2], by rw [h2], by rw [h2]; exact dg, by rw [h2], h3, h4, h5⟩
  · obtain ⟨t', h1, h2, h3, h4, h5⟩ := moveLegsToFront_diag g dg front ndf hsub
    exact ⟨t', h1, by rw [h2], by rw [h2], by rw [h2]; exact dg, by rw [h2], h3, h4, fun σ _ => h5 σ⟩

end CTL
