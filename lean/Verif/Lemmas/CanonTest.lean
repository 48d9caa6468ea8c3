import Verif.Model.Canon
import Verif.Lemmas.Canon
import Verif.Spec.Canon

/-! `isIsometry` and `checkCanonical`. -/

namespace CTL
variable {R : Type}
open Finset

/-- The matrix that `isIsometry` tests. -/
theorem isIsometry_value [CommRing R] [StarRing R] (castF : R → R) (isId : NDArray R → Bool) {st : Store} {t : Tensor R}
    (g : GoodTensor st t) (dg : t.diag = false) (names : (t.legs.map st.name).Nodup) {x : LegId} {cols : List LegId}
    (hc : cols ≠ []) (hp : t.legs.Perm (x :: cols)) :
    ∃ mat, isIsometry castF isId st t (cols.map st.name) = .ok (isId mat) ∧ mat.shape = [st.dim x, st.dim x] ∧
      ∀ a < st.dim x, ∀ b < st.dim x, ∀ σ, mat.get [a, b] =
        sumLegs st.dim cols (fun τ => star (entry t (τ.set x b)) * entry t (τ.set x a)) σ := by
  have sub : cols ⊆ t.legs := fun l hl => hp.mem_iff.mpr (by simp [hl])
  have nd := hp.nodup_iff.mp g.nodup
  rw [List.nodup_cons] at nd
  obtain ⟨arr, ha, w, s, _⟩ := g.data
  obtain ⟨m, h1, h2, h3, h4⟩ := toMatrix_cols (st := st) g.nodup g.notLike ha (s dg) cols hc nd.2 sub
  have hrow : (t.legs.filter fun l => decide (l ∉ cols)) = [x] := by
    have : (t.legs.filter fun l => decide (l ∉ cols)).Perm [x] := by
      refine (hp.filter _).trans ?_
      rw [List.filter_cons_of_pos (by simpa using nd.1), List.filter_eq_nil_iff.mpr]
      intro l hl
      simp [hl]
    exact List.perm_singleton.mp this
  rw [hrow] at h3 h4
  have h3' : m.shape = [st.dim x, (cols.map st.dim).prod] := by simpa using h3
  obtain ⟨c1, c2, c3⟩ := conjTranspose_spec h3'
  obtain ⟨p, p1, p2, p3, p4⟩ := matmul_get h3' c1
  refine ⟨p, ?_, p2, ?_⟩
  · unfold isIsometry
    have : ((cols.map st.name).all fun l => decide (l ∈ t.labels st)) = true := by
      rw [List.all_eq_true]
      intro l hl
      obtain ⟨l', hl', rfl⟩ := List.mem_map.mp hl
      exact decide_eq_true (List.mem_map.mpr ⟨l', sub hl', rfl⟩)
    rw [this, legsOfLabels_names names sub]
    simp only [pyAssert, if_true, bind, Except.bind, g.notLike, Bool.false_eq_true, if_false, Tensor.toMatrixAny, dg, h1, p1,
      pure, Except.pure]
  · intro a ha' b hb σ
    rw [p4 a ha' b hb, ← sumLegs_ravel st.dim cols nd.2 (fun i => m.get [a, i] * m.conjTranspose.get [i, b]) σ]
    apply sumLegs_congr _ _ _ _ _ _ nd.2
    intro τ _ hτ
    have hin : ∀ k, k < st.dim x → InRange st.dim t.legs (τ.set x k) := by
      intro k hk l hl
      rcases List.mem_cons.mp (hp.mem_iff.mp hl) with rfl | hl
      · simpa [Assign.set] using hk
      · have h2 : l ≠ x := fun e => nd.1 (e ▸ hl)
        simp only [Assign.set, h2, if_false]
        exact hτ l hl
    have get : ∀ k, k < st.dim x → m.get [k, ravel (cols.map st.dim) (cols.map τ)] = entry t (τ.set x k) := by
      intro k hk
      have := h4 _ (hin k hk)
      rw [setRavel _ _ _ nd.1] at this
      simp [ravel, Assign.set] at this
      rw [this]
      simp [entry, ha, dg, Assign.set]
    have lt : ravel (cols.map st.dim) (cols.map τ) < (cols.map st.dim).prod := ravel_lt' hτ
    rw [c3 _ lt b hb, get a ha', get b hb, mul_comm]

/-- The outcome of `isIsometry`, for a test that accepts identities and one that accepts nothing else. -/
theorem isIsometry_iff [CommRing R] [StarRing R] (castF : R → R) (isId : NDArray R → Bool) {st : Store} {t : Tensor R}
    (g : GoodTensor st t) (dg : t.diag = false) (names : (t.legs.map st.name).Nodup) {x : LegId} {cols L : List LegId}
    (hc : cols ≠ []) (hp : t.legs.Perm (x :: cols)) (hL : L.Perm cols) :
    ∃ b, isIsometry castF isId st t (cols.map st.name) = .ok b ∧
      ((∀ a n, IsIdentity a n → isId a = true) → IsometryAt st t L x → b = true) ∧
      ((∀ a n, a.shape = [n, n] → isId a = true → IsIdentity a n) → b = true → IsometryAt st t L x) := by
  obtain ⟨m, h1, h2, h3⟩ := isIsometry_value castF isId g dg names hc hp
  have nd := hp.nodup_iff.mp g.nodup
  rw [List.nodup_cons] at nd
  refine ⟨isId m, h1, ?_, ?_⟩
  · intro acc h
    have h := h.perm hL (hL.nodup_iff.mpr nd.2)
    refine acc m _ ⟨h2, fun i hi j hj => ?_⟩
    rw [h3 i hi j hj (fun _ => 0), h _ j i hj hi]
    simp [eq_comm]
  · intro rej hb
    refine IsometryAt.perm ?_ hL.symm nd.2
    intro σ a b ha hb'
    rw [← h3 b hb' a ha σ, (rej m _ h2 hb).2 b hb' a ha]
    simp [eq_comm]

theorem Chain.siteNames [Zero R] {st : Store} {ts : List (Tensor R)} {phys : List LegId} {lft rgt : Nat → LegId}
    (C : Chain st ts phys lft rgt) {j : Nat} {t : Tensor R} (h : ts[j]? = some t) : (t.legs.map st.name).Nodup := by
  have hj : j < ts.length := (List.getElem?_eq_some_iff.mp h).1
  rw [((C.legs j t h).map st.name).nodup_iff]
  unfold siteLegs
  have n1 : st.name (phys.getD j 0) = "o" := C.nameP _ (by
    rw [List.getD_eq_getElem?_getD, List.getElem?_eq_getElem (by rw [C.len]; exact hj)]
    exact List.getElem_mem _)
  have n2 : j + 1 < ts.length → st.name (rgt j) = "r" := C.nameR j
  have n3 : 0 < j → st.name (lft j) = "l" := by
    intro h0
    obtain ⟨k, rfl⟩ : ∃ k, j = k + 1 := ⟨j - 1, by omega⟩
    exact C.nameL k hj
  by_cases c1 : j + 1 < ts.length <;> by_cases c2 : 0 < j
  · simp only [c1, c2, if_true, List.map_cons, List.map_append, List.map_nil, n1, n2 c1, n3 c2]; decide
  · simp only [c1, c2, if_true, if_false, List.map_cons, List.map_append, List.map_nil, n1, n2 c1]; decide
  · simp only [c1, c2, if_true, if_false, List.map_cons, List.map_append, List.map_nil, n1, n3 c2]; decide
  · simp only [c1, c2, if_false, List.map_cons, List.map_append, List.map_nil, n1]; decide

/-- What `checkCanonical` finds at one site. -/
theorem Chain.testSite [CommRing R] [StarRing R] (castF : R → R) (isId : NDArray R → Bool) {st : Store} {ts : List (Tensor R)}
    {phys : List LegId} {lft rgt : Nat → LegId} (C : Chain st ts phys lft rgt) {idx j : Nat} (hi : idx < ts.length)
    (ne : j ≠ idx) {t : Tensor R} (h : ts[j]? = some t) :
    ∃ b, isIsometry castF isId st t (MPS.canonLabels ts.length idx j) = .ok b ∧
      ((∀ a n, IsIdentity a n → isId a = true) → CanonicalAt st ts phys lft rgt idx → b = true) ∧
      ((∀ a n, a.shape = [n, n] → isId a = true → IsIdentity a n) → b = true →
        (j < idx → IsometryAt st t (phys.getD j 0 :: if 0 < j then [lft j] else []) (rgt j)) ∧
        (idx < j → IsometryAt st t (phys.getD j 0 :: if j + 1 < ts.length then [rgt j] else []) (lft j))) := by
  have hj : j < ts.length := (List.getElem?_eq_some_iff.mp h).1
  have hm := List.mem_of_getElem? h
  have n1 : st.name (phys.getD j 0) = "o" := C.nameP _ (by
    rw [List.getD_eq_getElem?_getD, List.getElem?_eq_getElem (by rw [C.len]; exact hj)]
    exact List.getElem_mem _)
  have n2 : j + 1 < ts.length → st.name (rgt j) = "r" := C.nameR j
  have n3 : 0 < j → st.name (lft j) = "l" := by
    intro h0
    obtain ⟨k, rfl⟩ : ∃ k, j = k + 1 := ⟨j - 1, by omega⟩
    exact C.nameL k hj
  have lg := C.legs j t h
  unfold siteLegs at lg
  by_cases c : j < idx
  · have hr : j + 1 < ts.length := by omega
    have e : MPS.canonLabels ts.length idx j = ((if 0 < j then [lft j] else []) ++ [phys.getD j 0]).map st.name := by
      unfold MPS.canonLabels
      by_cases c0 : 0 < j
      · rw [if_neg (by omega), if_pos c, if_pos c0]
        simp only [List.cons_append, List.nil_append, List.map_cons, List.map_nil, n1, n3 c0]
      · rw [if_pos (by omega), if_neg c0]
        simp only [List.nil_append, List.map_cons, List.map_nil, n1]
    rw [e]
    have p : (phys.getD j 0 :: if 0 < j then [lft j] else []).Perm ((if 0 < j then [lft j] else []) ++ [phys.getD j 0]) :=
      List.perm_append_comm (l₁ := [phys.getD j 0])
    obtain ⟨b, b1, b2, b3⟩ := isIsometry_iff castF isId (C.good t hm).1 (C.good t hm).2 (C.siteNames h) (x := rgt j)
      (by simp) (lg.trans (by
        rw [if_pos hr]
        exact (List.Perm.swap _ _ _).trans (p.cons _))) p
    exact ⟨b, b1, fun acc k => b2 acc (k.left j c t h), fun rej hb => ⟨fun _ => b3 rej hb, fun h => absurd h (by omega)⟩⟩
  · have h0 : 0 < j := by omega
    have e : MPS.canonLabels ts.length idx j =
        ((if j + 1 < ts.length then [rgt j] else []) ++ [phys.getD j 0]).map st.name := by
      unfold MPS.canonLabels
      by_cases c0 : j + 1 < ts.length
      · rw [if_neg (by omega), if_neg c, if_pos c0]
        simp only [List.cons_append, List.nil_append, List.map_cons, List.map_nil, n1, n2 c0]
      · rw [if_pos (by omega), if_neg c0]
        simp only [List.nil_append, List.map_cons, List.map_nil, n1]
    rw [e]
    have p : (phys.getD j 0 :: if j + 1 < ts.length then [rgt j] else []).Perm
        ((if j + 1 < ts.length then [rgt j] else []) ++ [phys.getD j 0]) :=
      List.perm_append_comm (l₁ := [phys.getD j 0])
    obtain ⟨b, b1, b2, b3⟩ := isIsometry_iff castF isId (C.good t hm).1 (C.good t hm).2 (C.siteNames h) (x := lft j)
      (by simp) (lg.trans (by
        rw [if_pos h0, ← List.cons_append]
        exact (List.perm_append_comm (l₂ := [lft j])).trans (p.cons _))) p
    exact ⟨b, b1, fun acc k => b2 acc (k.right j (by omega) t h), fun rej hb => ⟨fun h => absurd h c, fun _ => b3 rej hb⟩⟩

theorem checkLoop_iff [CommRing R] [StarRing R] (castF : R → R) (isId : NDArray R → Bool) {st : Store} {m : MPS R}
    {phys : List LegId} {lft rgt : Nat → LegId} (C : Chain st m.tensors phys lft rgt) {idx : Nat} (hi : idx < m.tensors.length)
    (is : List Nat) (his : ∀ i ∈ is, i < m.tensors.length) :
    ∃ b, m.checkLoop castF isId st idx is = .ok b ∧
      ((∀ a n, IsIdentity a n → isId a = true) → CanonicalAt st m.tensors phys lft rgt idx → b = true) ∧
      ((∀ a n, a.shape = [n, n] → isId a = true → IsIdentity a n) → b = true → ∀ j ∈ is, ∀ t, m.tensors[j]? = some t →
        (j < idx → IsometryAt st t (phys.getD j 0 :: if 0 < j then [lft j] else []) (rgt j)) ∧
        (idx < j → IsometryAt st t (phys.getD j 0 :: if j + 1 < m.tensors.length then [rgt j] else []) (lft j))) := by
  induction is with
  | nil => exact ⟨true, rfl, fun _ _ => rfl, fun _ _ j hj => by cases hj⟩
  | cons i is ih =>
    obtain ⟨b, b1, b2, b3⟩ := ih fun j hj => his j (by simp [hj])
    unfold MPS.checkLoop
    by_cases c : i = idx
    · rw [if_pos c]
      refine ⟨b, b1, b2, ?_⟩
      intro rej hb j hj t ht
      rcases List.mem_cons.mp hj with rfl | hj
      · exact ⟨fun h => absurd h (by omega), fun h => absurd h (by omega)⟩
      · exact b3 rej hb j hj t ht
    · rw [if_neg c]
      have hlt := his i (by simp)
      have hit : m.tensors[i]? = some m.tensors[i] := List.getElem?_eq_getElem hlt
      obtain ⟨b', d1, d2, d3⟩ := C.testSite castF isId hi c hit
      rw [hit]
      simp only [d1, bind, Except.bind]
      cases b' with
      | false =>
        exact ⟨false, rfl, fun acc k => by simpa using d2 acc k, fun _ h => by simp at h⟩
      | true =>
        refine ⟨b, by simpa using b1, b2, ?_⟩
        intro rej hb j hj t ht
        rcases List.mem_cons.mp hj with rfl | hj
        · rw [hit] at ht
          rw [← Option.some.inj ht]
          exact d3 rej rfl
        · exact b3 rej hb j hj t ht

end CTL
