import Verif.Lemmas.CanonTest

/-! `checkCanonical` for a test of isometries that tells whether a given predicate holds. -/

namespace CTL
variable {R : Type}

/-- `isIsometry` tells whether `P` holds, for the tensors of the store. -/
def Tells [NonUnitalNonAssocSemiring R] [Star R] (castF : R → R) (isId : NDArray R → Bool) (st : Store)
    (P : Tensor R → List LegId → LegId → Prop) : Prop :=
  ∀ (t : Tensor R) (x : LegId) (cols L : List LegId), GoodTensor st t → t.diag = false → (t.legs.map st.name).Nodup → cols ≠ [] →
    t.legs.Perm (x :: cols) → L.Perm cols → ∃ b, isIsometry castF isId st t (cols.map st.name) = .ok b ∧ (b = true ↔ P t L x)

/-- What `checkCanonical` finds at one site. -/
theorem Chain.tellSite [CommRing R] [StarRing R] {castF : R → R} {isId : NDArray R → Bool} {st : Store} {ts : List (Tensor R)}
    {P : Tensor R → List LegId → LegId → Prop} (hP : Tells castF isId st P)
    {phys : List LegId} {lft rgt : Nat → LegId} (C : Chain st ts phys lft rgt) {idx j : Nat} (hi : idx < ts.length)
    (ne : j ≠ idx) {t : Tensor R} (h : ts[j]? = some t) :
    ∃ b, isIsometry castF isId st t (MPS.canonLabels ts.length idx j) = .ok b ∧ (b = true ↔
        (j < idx → P t (phys.getD j 0 :: if 0 < j then [lft j] else []) (rgt j)) ∧
        (idx < j → P t (phys.getD j 0 :: if j + 1 < ts.length then [rgt j] else []) (lft j))) := by
  have hj : j < ts.length := (List.getElem?_eq_some_iff.mp h).1
  have hm := List.mem_of_getElem? h
  have n1 : st.name (phys.getD j 0) = "o" := C.nameP _ (by
    rw [List.getD_eq_getElem?_getD, List.getElem?_eq_getElem (by rw [C.len]; exact hj)]
    exact List.getElem_mem _)
  have n2 : j + 1 < ts.length → st.name (rgt j) = "r" := C.nameR j
  have n3 : 0 < j → st.name (lft j) = "l" := by
    intro h0
    obtain ⟨k, rfl⟩ : ∃ k, j = k + 1 := ⟨j - 1, by omega⟩
    exact C.nameL k hj
  have lg := C.legs j t h
  unfold siteLegs at lg
  by_cases c : j < idx
  · have hr : j + 1 < ts.length := by omega
    have e : MPS.canonLabels ts.length idx j = ((if 0 < j then [lft j] else []) ++ [phys.getD j 0]).map st.name := by
      unfold MPS.canonLabels
      by_cases c0 : 0 < j
      · rw [if_neg (by omega), if_pos c, if_pos c0]
        simp only [List.cons_append, List.nil_append, List.map_cons, List.map_nil, n1, n3 c0]
      · rw [if_pos (by omega), if_neg c0]
        simp only [List.nil_append, List.map_cons, List.map_nil, n1]
    rw [e]
    have p : (phys.getD j 0 :: if 0 < j then [lft j] else []).Perm ((if 0 < j then [lft j] else []) ++ [phys.getD j 0]) :=
      List.perm_append_comm (l₁ := [phys.getD j 0])
    obtain ⟨b, b1, b2⟩ := hP t (rgt j) _ _ (C.good t hm).1 (C.good t hm).2 (C.siteNames h)
      (by simp) (lg.trans (by
        rw [if_pos hr]
        exact (List.Perm.swap _ _ _).trans (p.cons _))) p
    exact ⟨b, b1, b2.trans ⟨fun h => ⟨fun _ => h, fun h => absurd h (by omega)⟩, fun h => h.1 c⟩⟩
  · have h0 : 0 < j := by omega
    have e : MPS.canonLabels ts.length idx j =
        ((if j + 1 < ts.length then [rgt j] else []) ++ [phys.getD j 0]).map st.name := by
      unfold MPS.canonLabels
      by_cases c0 : j + 1 < ts.length
      · rw [if_neg (by omega), if_neg c, if_pos c0]
        simp only [List.cons_append, List.nil_append, List.map_cons, List.map_nil, n1, n2 c0]
      · rw [if_pos (by omega), if_neg c0]
        simp only [List.nil_append, List.map_cons, List.map_nil, n1]
    rw [e]
    have p : (phys.getD j 0 :: if j + 1 < ts.length then [rgt j] else []).Perm
        ((if j + 1 < ts.length then [rgt j] else []) ++ [phys.getD j 0]) :=
      List.perm_append_comm (l₁ := [phys.getD j 0])
    obtain ⟨b, b1, b2⟩ := hP t (lft j) _ _ (C.good t hm).1 (C.good t hm).2 (C.siteNames h)
      (by simp) (lg.trans (by
        rw [if_pos h0, ← List.cons_append]
        exact (List.perm_append_comm (l₂ := [lft j])).trans (p.cons _))) p
    exact ⟨b, b1, b2.trans ⟨fun h => ⟨fun h => absurd h c, fun _ => h⟩, fun h => h.2 (by omega)⟩⟩

theorem checkLoop_tells [CommRing R] [StarRing R] {castF : R → R} {isId : NDArray R → Bool} {st : Store} {m : MPS R}
    {P : Tensor R → List LegId → LegId → Prop} (hP : Tells castF isId st P)
    {phys : List LegId} {lft rgt : Nat → LegId} (C : Chain st m.tensors phys lft rgt) {idx : Nat} (hi : idx < m.tensors.length)
    (is : List Nat) (his : ∀ i ∈ is, i < m.tensors.length) :
    ∃ b, m.checkLoop castF isId st idx is = .ok b ∧ (b = true ↔ ∀ j ∈ is, ∀ t, m.tensors[j]? = some t →
        (j < idx → P t (phys.getD j 0 :: if 0 < j then [lft j] else []) (rgt j)) ∧
        (idx < j → P t (phys.getD j 0 :: if j + 1 < m.tensors.length then [rgt j] else []) (lft j))) := by
  induction is with
  | nil => exact ⟨true, rfl, by simp⟩
  | cons i is ih =>
    obtain ⟨b, b1, b2⟩ := ih fun j hj => his j (by simp [hj])
    unfold MPS.checkLoop
    by_cases c : i = idx
    · rw [if_pos c]
      refine ⟨b, b1, b2.trans ⟨fun h j hj t ht => ?_, fun h j hj => h j (by simp [hj])⟩⟩
      rcases List.mem_cons.mp hj with rfl | hj
      · exact ⟨fun h => absurd h (by omega), fun h => absurd h (by omega)⟩
      · exact h j hj t ht
    · rw [if_neg c]
      have hlt := his i (by simp)
      have hit : m.tensors[i]? = some m.tensors[i] := List.getElem?_eq_getElem hlt
      obtain ⟨b', d1, d2⟩ := C.tellSite hP hi c hit
      rw [hit]
      simp only [d1, bind, Except.bind]
      cases b' with
      | false =>
        exact ⟨false, rfl, ⟨fun h => by simp at h, fun h => d2.mpr (h i (by simp) _ hit)⟩⟩
      | true =>
        refine ⟨b, by simpa using b1, b2.trans ⟨fun h j hj t ht => ?_, fun h j hj => h j (by simp [hj])⟩⟩
        rcases List.mem_cons.mp hj with rfl | hj
        · rw [hit] at ht
          rw [← Option.some.inj ht]
          exact d2.mp rfl
        · exact h j hj t ht

end CTL
