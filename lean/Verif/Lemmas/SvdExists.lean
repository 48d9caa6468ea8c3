import Verif.Lemmas.Rank
import Verif.Lemmas.Svd
import Mathlib.Analysis.InnerProductSpace.SingularValues

/-! Exact unitary decompositions exist over the real and the complex numbers. -/

namespace CTL
open Finset

section
variable {𝕜 : Type} [RCLike 𝕜] {n m : Nat}

local notation "⟪" x ", " y "⟫" => inner 𝕜 x y

theorem exists_svd (A : Matrix (Fin n) (Fin m) 𝕜) :
    ∃ (u : Fin n → Fin n → 𝕜) (s : Nat → ℝ) (v : Fin m → Fin m → 𝕜),
      (∀ k l, ∑ i, star (u i k) * u i l = if k = l then 1 else 0) ∧
      (∀ k l, ∑ j, star (v k j) * v l j = if k = l then 1 else 0) ∧
      (∀ i j, A i j = ∑ k : Fin m, if h : (k : Nat) < n then u i ⟨k, h⟩ * (s k : 𝕜) * v k j else 0) ∧
      Antitone s ∧ ∀ k, 0 ≤ s k := by
  classical
  let T := Matrix.toEuclideanLin A
  have hT := T.isSymmetric_adjoint_comp_self
  have hm : Module.finrank 𝕜 (EuclideanSpace 𝕜 (Fin m)) = m := by simp
  let b := hT.eigenvectorBasis hm
  let s := T.singularValues
  have inn : ∀ i j : Fin m, ⟪T (b i), T (b j)⟫ = if i = j then ((s j : ℝ) ^ 2 : 𝕜) else 0 := by
    intro i j
    have : ⟪T (b i), T (b j)⟫ = ⟪b i, (LinearMap.adjoint T ∘ₗ T) (b j)⟫ := by
      rw [LinearMap.comp_apply, LinearMap.adjoint_inner_right]
    rw [this, hT.apply_eigenvectorBasis hm j, inner_smul_right, ← T.sq_singularValues_fin hm j,
      b.inner_eq_ite]
    split <;> simp [s]
  have supp : ∀ k, s k ≠ 0 → k < n := by
    intro k hk
    have h1 : T.singularValues.support.card ≤ n := by
      rw [T.card_support_singularValues]
      exact (LinearMap.range T).finrank_le.trans (by simp)
    have h2 : range (k + 1) ⊆ T.singularValues.support := by
      intro j hj
      rw [mem_range] at hj
      rw [Finsupp.mem_support_iff]
      have := T.singularValues_antitone (show j ≤ k by omega)
      have p := (T.singularValues_pos_iff_ne_zero k).mpr hk
      exact (p.trans_le this).ne'
    have := card_le_card h2
    rw [card_range] at this
    omega
  let w : Fin n → EuclideanSpace 𝕜 (Fin n) := fun i =>
    if h : (i : Nat) < m then ((s i : 𝕜)⁻¹) • T (b ⟨i, h⟩) else 0
  let S : Set (Fin n) := {i | s i ≠ 0}
  have lt : ∀ k, s k ≠ 0 → k < m := by
    intro k hk
    by_contra c
    exact hk (T.singularValues_of_finrank_le (by rw [hm]; omega))
  have ort : Orthonormal 𝕜 (S.domRestrict w) := by
    rw [orthonormal_iff_ite]
    rintro ⟨i, hi⟩ ⟨j, hj⟩
    have hi' : s i ≠ 0 := hi
    have hj' : s j ≠ 0 := hj
    simp only [Set.domRestrict_apply, w, lt i hi', lt j hj', dif_pos, inner_smul_left, inner_smul_right, inn]
    by_cases c : i = j
    · subst c
      have : (s i : 𝕜) ≠ 0 := by exact_mod_cast hj'
      simp
      field_simp
    · have : ¬ (i : Nat) = j := fun e => c (Fin.ext e)
      simp [this, c]
  obtain ⟨c, hc⟩ := Orthonormal.exists_orthonormalBasis_extension_of_card_eq (𝕜 := 𝕜) (by simp) ort
  have key : ∀ j : Fin m, T (b j) = if h : (j : Nat) < n then (s j : 𝕜) • c ⟨j, h⟩ else 0 := by
    intro j
    by_cases h0 : s j = 0
    · have : T (b j) = 0 := by
        have := inn j j
        rw [if_pos rfl, h0] at this
        exact inner_self_eq_zero.mp (by rw [this]; simp)
      rw [this, h0]
      split <;> simp
    · have hn := supp _ h0
      rw [dif_pos hn, hc ⟨j, hn⟩ h0]
      have : (s j : 𝕜) ≠ 0 := by exact_mod_cast h0
      simp only [w, dif_pos j.isLt]
      rw [smul_smul, mul_inv_cancel₀ this, one_smul]
  refine ⟨fun i k => c k i, s, fun k j => star (b k j), ?_, ?_, ?_, T.singularValues_antitone, T.singularValues_nonneg⟩
  · intro k l
    have := c.inner_eq_ite k l
    rw [← this, PiLp.inner_apply]
    exact sum_congr rfl fun i _ => by simp [mul_comm]
  · intro k l
    have := b.inner_eq_ite l k
    rw [eq_comm] at this
    simp only [eq_comm (a := l)] at this
    rw [this, PiLp.inner_apply]
    exact sum_congr rfl fun i _ => by simp [mul_comm]
  · intro i j
    have e : A i j = T (EuclideanSpace.single j 1) i := by simp [T]
    rw [e, ← b.sum_repr' (EuclideanSpace.single j (1 : 𝕜)), map_sum]
    simp only [map_smul, key]
    rw [WithLp.ofLp_sum, Finset.sum_apply]
    refine sum_congr rfl fun k _ => ?_
    rw [EuclideanSpace.inner_single_right]
    split
    · simp [RCLike.real_smul_eq_coe_mul]
      ring
    · simp

/-- The same for arrays. -/
theorem exists_unitarySVD (a : NDArray 𝕜) (w : a.WF) (hs : a.shape = [n, m]) :
    ∃ (o : NDArray 𝕜 × List 𝕜 × NDArray 𝕜) (s : Nat → ℝ), IsUnitarySVD a n m o ∧ Antitone s ∧ (∀ k, 0 ≤ s k) ∧
      o.2.1 = (List.range (min n m)).map fun k => (s k : 𝕜) := by
  obtain ⟨u, s, v, h1, h2, h3, h4, h5⟩ := exists_svd (fun (i : Fin n) (j : Fin m) => a.get [(i : Nat), (j : Nat)])
  let U : NDArray 𝕜 := .build [n, n] fun idx =>
    if h : idx.getD 0 0 < n ∧ idx.getD 1 0 < n then u ⟨_, h.1⟩ ⟨_, h.2⟩ else 0
  let V : NDArray 𝕜 := .build [m, m] fun idx =>
    if h : idx.getD 0 0 < m ∧ idx.getD 1 0 < m then v ⟨_, h.1⟩ ⟨_, h.2⟩ else 0
  have hU : ∀ i (hi : i < n) j (hj : j < n), U.get [i, j] = u ⟨i, hi⟩ ⟨j, hj⟩ := by
    intro i hi j hj
    rw [NDArray.get_build _ (valid2 hi hj)]
    exact dif_pos ⟨hi, hj⟩
  have hV : ∀ i (hi : i < m) j (hj : j < m), V.get [i, j] = v ⟨i, hi⟩ ⟨j, hj⟩ := by
    intro i hi j hj
    rw [NDArray.get_build _ (valid2 hi hj)]
    exact dif_pos ⟨hi, hj⟩
  have fin : ∀ {N : Nat} (f : Nat → 𝕜) (g : Fin N → 𝕜), (∀ i (hi : i < N), f i = g ⟨i, hi⟩) → ∑ i ∈ range N, f i = ∑ i, g i := by
    intro N f g h
    rw [← Fin.sum_univ_eq_sum_range]
    exact sum_congr rfl fun i _ => h i i.isLt
  refine ⟨(U, (List.range (min n m)).map fun k => (s k : 𝕜), V), s, ?_, h4, h5, rfl⟩
  refine ⟨⟨NDArray.build_wf _ _, rfl, by simp, NDArray.build_wf _ _, rfl, ?_⟩, ?_, ?_⟩
  · intro i hi j hj
    have e := h3 ⟨i, hi⟩ ⟨j, hj⟩
    simp only at e
    rw [e]
    unfold partialSVD
    rw [← fin (fun k => if k < n then U.get [i, k] * (s k : 𝕜) * V.get [k, j] else 0)]
    · rw [← sum_filter]
      have : (range m).filter (· < n) = range (min n m) := by
        ext k; simp [and_comm]
      rw [this]
      refine sum_congr rfl fun k hk => ?_
      rw [mem_range] at hk
      congr 2
      simp [hk]
    · intro k hk
      by_cases c : k < n
      · rw [if_pos c, dif_pos c, hU i hi k c, hV k hk j hj]
      · rw [if_neg c, dif_neg c]
  · intro k hk l hl
    have := h1 ⟨k, hk⟩ ⟨l, hl⟩
    simp only [Fin.mk.injEq] at this
    rw [← this]
    exact fin _ _ fun i hi => by rw [hU i hi k hk, hU i hi l hl]
  · intro k hk l hl
    have := h2 ⟨k, hk⟩ ⟨l, hl⟩
    simp only [Fin.mk.injEq] at this
    rw [← this]
    exact fin _ _ fun j hj => by rw [hV k hk j hj, hV l hl j hj]

end

/-- What is assumed of the numerical routines can be satisfied over the real and the complex numbers. -/
theorem exists_linAlg (𝕜 : Type) [RCLike 𝕜] : ∃ la : LinAlg 𝕜, ExactLinAlg la ∧ UnitaryLinAlg la ∧ RankRevealing la ∧
    ∀ z, la.isNonZero z = true ↔ z ≠ 0 := by
  classical
  have : ∀ a : NDArray 𝕜, ∃ (o : NDArray 𝕜 × List 𝕜 × NDArray 𝕜), ∀ n m, a.WF → a.shape = [n, m] →
      IsUnitarySVD a n m o ∧ ∃ s : Nat → ℝ, Antitone s ∧ (∀ k, 0 ≤ s k) ∧
        o.2.1 = (List.range (min n m)).map fun k => (s k : 𝕜) := by
    intro a
    by_cases h : ∃ n m, a.WF ∧ a.shape = [n, m]
    · obtain ⟨n, m, w, hs⟩ := h
      obtain ⟨o, s, h1, h2⟩ := exists_unitarySVD a w hs
      refine ⟨o, fun n' m' _ hs' => ?_⟩
      rw [hs] at hs'
      simp only [List.cons.injEq, and_true] at hs'
      rw [← hs'.1, ← hs'.2]
      exact ⟨h1, s, h2⟩
    · exact ⟨(a, [], a), fun n m w hs => absurd ⟨n, m, w, hs⟩ h⟩
  choose f hf using this
  refine ⟨⟨f, fun z => (Real.sqrt (RCLike.re z) : 𝕜), fun z => decide (z ≠ 0)⟩, ⟨?_, ?_⟩, ?_, ?_, ?_⟩
  · exact fun a n m w hs => (hf a n m w hs).1.toIsSVD
  · intro a n m w hs x hx
    obtain ⟨_, s, _, h2, h3⟩ := hf a n m w hs
    simp only at hx
    rw [h3] at hx
    obtain ⟨k, _, rfl⟩ := List.mem_map.mp hx
    simp only [RCLike.ofReal_re]
    rw [← RCLike.ofReal_mul, Real.mul_self_sqrt (h2 k)]
  · exact fun a n m w hs => (hf a n m w hs).1
  · intro a n m w hs
    obtain ⟨_, s, h1, h2, h3⟩ := hf a n m w hs
    obtain ⟨r, hr, hr'⟩ : ∃ r ≤ min n m, ∀ k < min n m, (s k ≠ 0 ↔ k < r) := by
      by_cases h : ∃ k < min n m, s k = 0
      · refine ⟨Nat.find h, (Nat.find_spec h).1.le, fun k hk => ⟨fun hne => ?_, fun hlt h0 => Nat.find_min h hlt ⟨hk, h0⟩⟩⟩
        by_contra c
        have := h1 (show Nat.find h ≤ k by omega)
        rw [(Nat.find_spec h).2] at this
        exact hne (le_antisymm this (h2 k))
      · refine ⟨_, le_refl _, fun k hk => ⟨fun _ => hk, fun _ h0 => h ⟨k, hk, h0⟩⟩⟩
    refine ⟨(f a).2.1.take r, (f a).2.1.drop r, (List.take_append_drop _ _).symm, ?_, ?_⟩
    · intro x hx
      rw [h3, ← List.map_take, List.take_range] at hx
      obtain ⟨k, hk, rfl⟩ := List.mem_map.mp hx
      rw [List.mem_range] at hk
      have := (hr' k (by omega)).mpr (by omega)
      simpa using this
    · intro x hx
      obtain ⟨j, hj, rfl⟩ := List.mem_iff_getElem.mp hx
      rw [List.length_drop] at hj
      have hl : (f a).2.1.length = min n m := by rw [h3]; simp
      have e : (List.drop r (f a).2.1)[j] = (s (r + j) : 𝕜) := by
        rw [List.getElem_drop]
        simp only [h3, List.getElem_map, List.getElem_range]
      have : s (r + j) = 0 := by
        by_contra c
        have := (hr' (r + j) (by omega)).mp c
        omega
      rw [e, this]
      simp
  · intro z; simp

end CTL
