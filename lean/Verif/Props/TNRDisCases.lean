import Verif.Props.TNRDis
import Verif.Props.TNRCases

/-! Cases that meet the hypotheses of C68. -/

namespace CTL

/-- The start value for `chiVI = 3` and `chiU = 2`, as in `C68_start`. -/
example : ∃ u : NDArray ℚ, startU 3 2 = .ok u ∧ LeftRight 3 2 u.at4 := by
  obtain ⟨u, h1, _, _, h2, _⟩ := C68_start (K := ℚ) 3 2 (by omega)
  exact ⟨u, h1, h2⟩

/-- Its entries: the first two of three indices are kept. -/
example : (startU (K := Int) 3 2).toOption.map (fun u => (u.get [1, 0, 1, 0], u.get [1, 0, 0, 1], u.get [2, 0, 0, 0], u.get [0, 1, 0, 1])) =
    some (1, 0, 0, 1) := by decide +kernel

/-- The environment for a ring and isometries with one dimension each, and a leg `v` of dimension 2. -/
example : (nconU (K := Int) ⟨[1, 1, 1, 1], [3]⟩ ⟨[1, 2, 1], [1, 2]⟩ ⟨[1, 1, 1], [5]⟩ ⟨[1, 1], [7]⟩).toOption.map (fun e => (e.shape, e.data)) =
    some ([2, 2, 1, 1], [11025, 22050, 22050, 44100]) := by decide +kernel

/-- With it the hypotheses of `C68_update` hold, the one on the singular values included. -/
example : ∃ (la : LinAlg ℝ) (w : NDArray ℝ),
    uUpdate la ⟨[1, 1, 1, 1], [3]⟩ ⟨[1, 2, 1], [1, 2]⟩ ⟨[1, 1, 1], [5]⟩ ⟨[1, 1], [7]⟩ = .ok w ∧ LeftRight 2 1 w.at4 := by
  obtain ⟨la, h1, h2⟩ := exists_nonneg_linAlg
  obtain ⟨e, w, he, hw, ww, ws, wi, _, h⟩ := C68_update (C := ⟨[1, 1, 1, 1], [3]⟩) (q := ⟨[1, 2, 1], [1, 2]⟩) (y := ⟨[1, 1, 1], [5]⟩)
    (s := ⟨[1, 1], [7]⟩) h1 rfl rfl rfl rfl (by omega) h2
  refine ⟨la, w, hw, (h ?_).1⟩
  have es : e.shape = [2, 2, 1, 1] := by
    obtain ⟨e', h', s', _⟩ := nconU_ok (K := ℝ) (C := ⟨[1, 1, 1, 1], [3]⟩) (q := ⟨[1, 2, 1], [1, 2]⟩) (y := ⟨[1, 1, 1], [5]⟩)
      (s := ⟨[1, 1], [7]⟩) rfl rfl rfl rfl
    rw [he] at h'
    rw [Except.ok.inj h']
    exact s'
  obtain ⟨s1, s2, s3⟩ := uSym_ok es
  have wm : (⟨[2 * 2, 1 * 1], (e.plus (e.transpose [1, 0, 3, 2])).data⟩ : NDArray ℝ).WF := by
    unfold NDArray.WF at s2 ⊢
    rw [s2, s1]
    simp
  have S := h1 _ _ _ wm rfl
  have nn := h2 _ _ _ wm rfl
  have e0 : e.get [0, 0, 0, 0] = 11025 := by
    have : e = NDArray.build [2, 2, 1, 1] _ := (Except.ok.inj he).symm
    rw [this, NDArray.get_build _ (valid4 (by omega) (by omega) (by omega) (by omega))]
    simp [sumIdx, List.range_succ, NDArray.get, ravel]
    norm_num
  have m0 := S.exact 0 (by omega) 0 (by omega)
  have m1 : (⟨[2 * 2, 1 * 1], (e.plus (e.transpose [1, 0, 3, 2])).data⟩ : NDArray ℝ).get [0, 0] = 22050 := by
    have := asMat_pair s1 0 0 0 0
    rw [s3 0 (by omega) 0 (by omega) 0 (by omega) 0 (by omega), e0] at this
    simp only [Nat.zero_mul, Nat.add_zero] at this
    refine Eq.trans this ?_
    norm_num
  rw [m1] at m0
  have len := S.sLen
  intro x hx
  refine lt_of_le_of_ne (nn x hx) fun h0 => ?_
  have : ∀ k, (la.svd ⟨[2 * 2, 1 * 1], (e.plus (e.transpose [1, 0, 3, 2])).data⟩).2.1.getD k 0 = 0 := by
    obtain ⟨z, hz⟩ := List.length_eq_one_iff.mp (len.trans (by rfl))
    rw [hz] at hx ⊢
    rw [List.mem_singleton] at hx
    rw [← hx, ← h0]
    intro k
    rcases k with _ | k <;> simp
  unfold partialSVD at m0
  simp only [this, mul_zero, zero_mul, Finset.sum_const_zero] at m0
  norm_num at m0

/-- The environment of `yM` for two values of `u`, and the hypotheses of `C68_y`. -/
example : (nconY (K := Int) ⟨[1, 1, 1, 1], [3]⟩ ⟨[1, 2, 1], [1, 2]⟩ ⟨[2, 2, 1, 1], [1, 0, 10, 0]⟩ ⟨[1, 1, 1], [5]⟩ ⟨[1, 1], [7]⟩).toOption.map
    (fun e => (e.shape, e.data)) = some ([1, 1, 1], [46305]) := by decide +kernel

example : ∃ (la : LinAlg ℝ) (w : NDArray ℝ), yUpdate la ⟨[1, 1, 1, 1], [3]⟩ ⟨[2, 2, 1], [1, 2, 3, 4]⟩
    ⟨[2, 2, 1, 1], [1, 0, 10, 0]⟩ ⟨[2, 1, 1], [5, 6]⟩ ⟨[1, 1], [7]⟩ = .ok w ∧ IsIsometry 2 1 (w.asMat 2 1) := by
  obtain ⟨la, h1, h2⟩ := exists_nonneg_linAlg
  obtain ⟨w, hw, _, _, wi, _⟩ := C68_y (C := ⟨[1, 1, 1, 1], [3]⟩) (q := ⟨[2, 2, 1], [1, 2, 3, 4]⟩) (u := ⟨[2, 2, 1, 1], [1, 0, 10, 0]⟩)
    (y := ⟨[2, 1, 1], [5, 6]⟩) (s := ⟨[1, 1], [7]⟩) h1 rfl rfl rfl rfl rfl h2
  exact ⟨la, w, hw, wi⟩

end CTL
