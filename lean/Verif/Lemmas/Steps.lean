import Verif.Lemmas.Search
import Verif.Spec.Sequence

/-! The steps of a contraction tree form a valid sequence. -/

namespace CTL

theorem steps_valid (n : Nat) (T : CTree) : T.Proper n → ∀ (live : List Nat) (rest : List (Nat × Nat)), live.Nodup →
    (∀ i ∈ T.verts, i ∈ live) →
    (validFrom live (T.steps ++ rest) ↔
      validFrom (live.filter fun i => decide (i ∉ T.verts ∨ i = T.slot)) rest) := by
  induction T with
  | leaf k =>
    intro _ live rest _ _
    have : (live.filter fun i => decide (i ∉ (CTree.leaf k).verts ∨ i = (CTree.leaf k).slot)) = live := by
      rw [List.filter_eq_self]
      intro i _
      rw [verts_leaf]
      simp only [CTree.slot, Finset.mem_singleton, decide_eq_true_eq]
      exact (em (i = k)).symm
    rw [this]
    rfl
  | node l r ihl ihr =>
    intro hp live rest nd hin
    obtain ⟨pl, pr, dis⟩ := Proper.node.mp hp
    rw [Finset.disjoint_left] at dis
    obtain ⟨sl1, sl2⟩ := slot_spec l
    obtain ⟨sr1, sr2⟩ := slot_spec r
    have inl : ∀ i ∈ l.verts, i ∈ live := fun i hi => hin i (by rw [verts_node]; exact Finset.mem_union_left _ hi)
    have inr : ∀ i ∈ r.verts, i ∈ live := fun i hi => hin i (by rw [verts_node]; exact Finset.mem_union_right _ hi)
    have e : (CTree.node l r).steps ++ rest = l.steps ++ (r.steps ++ ((l.slot, r.slot) :: rest)) := by
      simp [CTree.steps]
    have nd1 := nd.filter (fun i => decide (i ∉ l.verts ∨ i = l.slot))
    have nd2 := nd1.filter (fun i => decide (i ∉ r.verts ∨ i = r.slot))
    have hne : l.slot ≠ r.slot := fun h => dis sl1 (h ▸ sr1)
    rw [e, ihl pl live _ nd inl, ihr pr _ _ nd1]
    · generalize hlive2 : List.filter (fun i => decide (i ∉ r.verts ∨ i = r.slot))
        (List.filter (fun i => decide (i ∉ l.verts ∨ i = l.slot)) live) = live2 at *
      have m1 : l.slot ∈ live2 := by
        rw [← hlive2]
        simp only [List.mem_filter, decide_eq_true_eq]
        exact ⟨⟨inl _ sl1, Or.inr trivial⟩, Or.inl (dis sl1)⟩
      have m2 : r.slot ∈ live2 := by
        rw [← hlive2]
        simp only [List.mem_filter, decide_eq_true_eq]
        exact ⟨⟨inr _ sr1, Or.inl (fun h => dis h sr1)⟩, Or.inr trivial⟩
      have key : live2.erase (max l.slot r.slot)
          = live.filter fun i => decide (i ∉ (CTree.node l r).verts ∨ i = (CTree.node l r).slot) := by
        rw [nd2.erase_eq_filter, ← hlive2, List.filter_filter, List.filter_filter]
        apply List.filter_congr
        intro i _
        rw [Bool.eq_iff_iff]
        simp only [verts_node, CTree.slot, Finset.mem_union, Bool.and_eq_true, decide_eq_true_eq, bne_iff_ne]
        have d := @dis i
        constructor
        · rintro ⟨⟨h1, h2⟩, h3⟩
          rcases h2 with h2 | h2 <;> rcases h3 with h3 | h3
          · left; rintro (h | h) <;> contradiction
          · right; subst h3
            omega
          · right; subst h2
            omega
          · exact absurd (h3.symm.trans h2) hne
        · rintro (h | h)
          · refine ⟨⟨?_, Or.inl fun hh => h (Or.inr hh)⟩, Or.inl fun hh => h (Or.inl hh)⟩
            rintro rfl
            apply h
            rcases Nat.le_total l.slot r.slot with h' | h'
            · rw [max_eq_right h']; exact Or.inr sr1
            · rw [max_eq_left h']; exact Or.inl sl1
          · rw [and_assoc]
            refine ⟨by omega, ?_⟩
            rcases Nat.le_total l.slot r.slot with h' | h'
            · rw [min_eq_left h'] at h
              subst h
              exact ⟨Or.inl (dis sl1), Or.inr rfl⟩
            · rw [min_eq_right h'] at h
              subst h
              exact ⟨Or.inr rfl, Or.inl fun hh => dis hh sr1⟩
      constructor
      · rintro ⟨_, _, _, hv⟩
        rw [key] at hv
        exact hv
      · intro hv
        rw [← key] at hv
        exact ⟨m1, m2, hne, hv⟩
    · intro i hi
      simp only [List.mem_filter, decide_eq_true_eq]
      exact ⟨inr i hi, Or.inl fun h => dis h hi⟩

/-- A complete tree gives a valid, complete sequence. -/
theorem complete_valid {n : Nat} {T : CTree} (h : T.Complete n) : ValidSeq n T.steps := by
  obtain ⟨hp, hv⟩ := complete_iff.mp h
  have := (steps_valid n T hp (List.range n) [] List.nodup_range (fun i hi => by
    rw [hv] at hi; simpa using hi)).mpr
  rw [List.append_nil] at this
  apply this
  change List.length _ = 1
  obtain ⟨s1, s2⟩ := slot_spec T
  have e : (List.range n).filter (fun i => decide (i ∉ T.verts ∨ i = T.slot))
      = (List.range n).filter (fun i => i == T.slot) := by
    apply List.filter_congr
    intro i hi
    rw [Bool.eq_iff_iff]
    simp only [decide_eq_true_eq, beq_iff_eq, hv, Finset.mem_range]
    have : i < n := by simpa using hi
    tauto
  rw [e]
  have : (List.range n).filter (fun i => i == T.slot) = [T.slot] := by
    rw [List.filter_beq, List.nodup_range.count]
    rw [hv] at s1
    rw [if_pos (by simpa using s1)]
    rfl
  rw [this]
  rfl

theorem steps_length (T : CTree) : T.steps.length + 1 = T.leaves.length := by
  induction T with
  | leaf i => rfl
  | node l r ihl ihr => simp [CTree.steps, CTree.leaves]; omega

end CTL
