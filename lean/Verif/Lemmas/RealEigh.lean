import Verif.Lemmas.SolveEnv
import Mathlib.Analysis.Matrix.Spectrum
import Mathlib.Data.Fin.Tuple.Sort

/-! Over the real numbers there is a routine as `ExactEigh` wants it. -/

namespace CTL

open Finset (range)

theorem exists_eigh_of {m : NDArray ℝ} {n : Nat} (hs : ∀ i < n, ∀ j < n, m.get [i, j] = m.get [j, i]) : ∃ o, IsEigh m n o := by
  let M : Matrix (Fin n) (Fin n) ℝ := fun i j => m.get [i, j]
  have hM : M.IsHermitian := by
    ext i j
    rw [Matrix.conjTranspose_apply]
    exact hs j j.isLt i i.isLt
  let σ := Tuple.sort hM.eigenvalues
  have hmono : Monotone (hM.eigenvalues ∘ σ) := Tuple.monotone_sort hM.eigenvalues
  let v : Fin n → Fin n → ℝ := fun i j => hM.eigenvectorBasis (σ j) i
  have hg : ∀ i j : Fin n, (NDArray.build [n, n] fun idx =>
      if h : idx.getD 0 0 < n ∧ idx.getD 1 0 < n then v ⟨_, h.1⟩ ⟨_, h.2⟩ else 0).get [i, j] = v i j := by
    intro i j
    rw [NDArray.get_build _ (validIdx_cons.mpr ⟨i.isLt, validIdx_cons.mpr ⟨j.isLt, validIdx_nil⟩⟩)]
    simp
  refine ⟨(List.ofFn (hM.eigenvalues ∘ σ), NDArray.build [n, n] fun idx =>
      if h : idx.getD 0 0 < n ∧ idx.getD 1 0 < n then v ⟨_, h.1⟩ ⟨_, h.2⟩ else 0), ?_⟩
  refine ⟨by simp, NDArray.build_wf _ _, rfl, ?_, ?_, ?_⟩
  · rw [List.pairwise_ofFn]
    exact fun i j h => hmono h.le
  · intro i hi j hj
    have := congrFun (hM.mulVec_eigenvectorBasis (σ ⟨j, hj⟩)) ⟨i, hi⟩
    have e : (List.ofFn (hM.eigenvalues ∘ σ)).getD j 0 = hM.eigenvalues (σ ⟨j, hj⟩) := by
      rw [List.getD_eq_getElem?_getD, List.getElem?_eq_getElem (by simpa using hj)]
      simp
    have hv := hg ⟨i, hi⟩ ⟨j, hj⟩
    simp only at hv
    rw [Finset.sum_range, e, hv]
    rw [Finset.sum_congr rfl fun k _ => by rw [hg k ⟨j, hj⟩]]
    simpa [Matrix.mulVec, dotProduct, M, v] using this
  · intro i hi j hj
    rw [Finset.sum_range]
    rw [Finset.sum_congr rfl fun k _ => by rw [hg k ⟨i, hi⟩, hg k ⟨j, hj⟩]]
    have := hM.eigenvectorBasis.inner_eq_ite (σ ⟨i, hi⟩) (σ ⟨j, hj⟩)
    simp only [PiLp.inner_apply, EmbeddingLike.apply_eq_iff_eq, Fin.mk.injEq] at this
    rw [← this]
    refine Finset.sum_congr rfl fun k _ => ?_
    simp [v, mul_comm]

theorem exists_eigh : ∃ eigh : NDArray ℝ → List ℝ × NDArray ℝ, ExactEigh eigh := by
  have h : ∀ m : NDArray ℝ, ∃ o, ∀ n, m.WF → m.shape = [n, n] → (∀ i < n, ∀ j < n, m.get [i, j] = m.get [j, i]) → IsEigh m n o := by
    intro m
    by_cases hn : ∃ n, m.shape = [n, n] ∧ ∀ i < n, ∀ j < n, m.get [i, j] = m.get [j, i]
    · obtain ⟨n, h1, h2⟩ := hn
      obtain ⟨o, ho⟩ := exists_eigh_of h2
      refine ⟨o, fun n' _ h1' _ => ?_⟩
      have : n' = n := by
        rw [h1] at h1'
        exact (List.cons.inj h1').1.symm
      rwa [this]
    · exact ⟨([], m), fun n _ h1 h2 => absurd ⟨n, h1, h2⟩ hn⟩
  choose eigh he using h
  exact ⟨eigh, fun m n w s sy => he m n w s sy⟩

end CTL
