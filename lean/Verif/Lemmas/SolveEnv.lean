import Verif.Spec.HOTRG
import Verif.Lemmas.NDArray
import Mathlib.Algebra.Order.BigOperators.Ring.Finset
import Mathlib.LinearAlgebra.Matrix.NonsingularInverse
import Mathlib.Algebra.Order.Field.Basic

/-! The projector of `solveEnv`. -/

namespace CTL
variable {K : Type}

open Finset (range)

theorem envKept_le [Field K] [LinearOrder K] (p : RGParams K) (m : NDArray K) (chi : Nat) : envKept p m chi ≤ (p.eigh m).1.length :=
  (Nat.min_le_right _ _).trans List.countP_le_length

/-- The number of columns of the projector. -/
def prjCols [Field K] [LinearOrder K] (p : RGParams K) (m : NDArray K) (chi n : Nat) : Nat :=
  if envKept p m chi = 0 then n else envKept p m chi

section
variable [Field K] [LinearOrder K] {p : RGParams K} {m : NDArray K} {n : Nat}

theorem prjCols_le (h : IsEigh m n (p.eigh m)) (chi : Nat) : prjCols p m chi n ≤ n := by
  unfold prjCols
  split
  · exact le_rfl
  · have := envKept_le p m chi
    rwa [h.len] at this

theorem prjCols_pos (hn : n ≠ 0) (chi : Nat) : prjCols p m chi n ≠ 0 := by
  unfold prjCols
  split <;> assumption

/-- Column `o` of the projector is the eigenvector number `n - 1 - o`. -/
theorem solveEnv_prj (h : IsEigh m n (p.eigh m)) (chi : Nat) :
    (solveEnv p m chi).1.WF ∧ (solveEnv p m chi).1.shape = [n, prjCols p m chi n] ∧
    ∀ x < n, ∀ o < prjCols p m chi n, (solveEnv p m chi).1.get [x, o] = (p.eigh m).2.get [x, n - 1 - o] := by
  have hc : (if envKept p m chi = 0 then n else min (envKept p m chi) n) = prjCols p m chi n := by
    unfold prjCols
    split
    · rfl
    · have := envKept_le p m chi
      rw [h.len] at this
      omega
  have hle := prjCols_le h chi
  have hs : ((p.eigh m).2.lastCols (envKept p m chi)).shape = [n, prjCols p m chi n] := by
    unfold NDArray.lastCols
    simp only [NDArray.build_shape, h.shape, List.getD_cons_zero, List.getD_cons_succ, hc]
  have he : (solveEnv p m chi).1 = ((p.eigh m).2.lastCols (envKept p m chi)).flipCols := rfl
  rw [he]
  refine ⟨NDArray.build_wf _ _, by unfold NDArray.flipCols; rw [NDArray.build_shape, hs], fun x hx o ho => ?_⟩
  unfold NDArray.flipCols
  rw [NDArray.get_build _ (by rw [hs]; exact validIdx_cons.mpr ⟨hx, validIdx_cons.mpr ⟨ho, validIdx_nil⟩⟩), hs]
  simp only [List.getD_cons_zero, List.getD_cons_succ]
  unfold NDArray.lastCols
  simp only [h.shape, List.getD_cons_zero, List.getD_cons_succ, hc]
  rw [NDArray.get_build _ (validIdx_cons.mpr ⟨hx, validIdx_cons.mpr ⟨by omega, validIdx_nil⟩⟩)]
  simp only [List.getD_cons_zero, List.getD_cons_succ]
  congr 3
  omega

theorem IsEigh.complete (h : IsEigh m n (p.eigh m)) : ∀ i < n, ∀ j < n,
    ∑ k ∈ range n, (p.eigh m).2.get [i, k] * (p.eigh m).2.get [j, k] = if i = j then 1 else 0 := by
  intro i hi j hj
  let V : Matrix (Fin n) (Fin n) K := fun a b => (p.eigh m).2.get [a, b]
  have h1 : V.transpose * V = 1 := by
    ext a b
    rw [Matrix.mul_apply, Matrix.one_apply]
    have := h.orth a a.isLt b b.isLt
    rw [Finset.sum_range] at this
    simp only [Fin.ext_iff]
    exact this
  have h2 : V * V.transpose = 1 := mul_eq_one_comm.mp h1
  have := congrFun (congrFun h2 ⟨i, hi⟩) ⟨j, hj⟩
  rw [Matrix.mul_apply, Matrix.one_apply] at this
  rw [Finset.sum_range]
  simp only [Fin.ext_iff] at this
  exact this

/-- The projector leaves a vector unchanged that is orthogonal to what is cut off. -/
theorem solveEnv_fixes (h : IsEigh m n (p.eigh m)) {chi : Nat} (N : Nat → K)
    (hz : ∀ j < n - prjCols p m chi n, ∑ x ∈ range n, (p.eigh m).2.get [x, j] * N x = 0) : ∀ y < n,
    ∑ x ∈ range n, (∑ o ∈ range (prjCols p m chi n), (solveEnv p m chi).1.get [x, o] * (solveEnv p m chi).1.get [y, o]) * N x = N y := by
  intro y hy
  obtain ⟨_, _, hP⟩ := solveEnv_prj h chi
  have hle := prjCols_le h chi
  calc
    _ = ∑ x ∈ range n, (∑ o ∈ range (prjCols p m chi n),
          (p.eigh m).2.get [x, n - 1 - o] * (p.eigh m).2.get [y, n - 1 - o]) * N x := by
      refine Finset.sum_congr rfl fun x hx => ?_
      congr 1
      exact Finset.sum_congr rfl fun o ho => by
        rw [hP x (Finset.mem_range.mp hx) o (Finset.mem_range.mp ho), hP y hy o (Finset.mem_range.mp ho)]
    _ = ∑ o ∈ range (prjCols p m chi n), (p.eigh m).2.get [y, n - 1 - o] * ∑ x ∈ range n, (p.eigh m).2.get [x, n - 1 - o] * N x := by
      simp only [Finset.sum_mul, Finset.mul_sum]
      rw [Finset.sum_comm]
      exact Finset.sum_congr rfl fun o _ => Finset.sum_congr rfl fun x _ => by ring
    _ = ∑ o ∈ range n, (p.eigh m).2.get [y, n - 1 - o] * ∑ x ∈ range n, (p.eigh m).2.get [x, n - 1 - o] * N x := by
      refine Finset.sum_subset (Finset.range_mono hle) fun o ho hno => ?_
      rw [Finset.mem_range] at ho hno
      rw [hz (n - 1 - o) (by omega), mul_zero]
    _ = ∑ j ∈ range n, (p.eigh m).2.get [y, j] * ∑ x ∈ range n, (p.eigh m).2.get [x, j] * N x :=
      Finset.sum_range_reflect (fun j => (p.eigh m).2.get [y, j] * ∑ x ∈ range n, (p.eigh m).2.get [x, j] * N x) n
    _ = ∑ x ∈ range n, (∑ j ∈ range n, (p.eigh m).2.get [y, j] * (p.eigh m).2.get [x, j]) * N x := by
      simp only [Finset.sum_mul, Finset.mul_sum]
      rw [Finset.sum_comm]
      exact Finset.sum_congr rfl fun x _ => Finset.sum_congr rfl fun j _ => by ring
    _ = ∑ x ∈ range n, (if y = x then 1 else 0) * N x :=
      Finset.sum_congr rfl fun x hx => by rw [h.complete y hy x (Finset.mem_range.mp hx)]
    _ = N y := by
      rw [Finset.sum_eq_single y]
      · rw [if_pos rfl, one_mul]
      · intro x _ hx
        rw [if_neg (Ne.symm hx), zero_mul]
      · intro hy'
        exact absurd (Finset.mem_range.mpr hy) hy'

variable [IsStrictOrderedRing K]

/-- An eigenvector of `N Nᵀ` for the eigenvalue 0 annihilates `N`. -/
theorem null_vector {ι : Type} (S : Finset ι) (N : Nat → ι → K) {v : Nat → K}
    (h : ∀ x < n, ∑ y ∈ range n, (∑ s ∈ S, N x s * N y s) * v y = 0) : ∀ s ∈ S, ∑ x ∈ range n, v x * N x s = 0 := by
  have e : ∑ s ∈ S, (∑ x ∈ range n, v x * N x s) * (∑ x ∈ range n, v x * N x s) = 0 := by
    calc
      _ = ∑ s ∈ S, ∑ x ∈ range n, ∑ y ∈ range n, v x * N x s * (v y * N y s) := by
        refine Finset.sum_congr rfl fun s _ => ?_
        rw [Finset.sum_mul_sum]
      _ = ∑ x ∈ range n, v x * ∑ y ∈ range n, (∑ s ∈ S, N x s * N y s) * v y := by
        rw [Finset.sum_comm]
        refine Finset.sum_congr rfl fun x _ => ?_
        rw [Finset.sum_comm, Finset.mul_sum]
        refine Finset.sum_congr rfl fun y _ => ?_
        rw [Finset.sum_mul, Finset.mul_sum]
        exact Finset.sum_congr rfl fun s _ => by ring
      _ = 0 := Finset.sum_eq_zero fun x hx => by rw [h x (Finset.mem_range.mp hx), mul_zero]
  intro s hs
  have := (Finset.sum_eq_zero_iff_of_nonneg (fun i _ => mul_self_nonneg _)).mp e s hs
  exact mul_self_eq_zero.mp this

/-- Without loss, the projector leaves `N` unchanged, if the matrix is `N Nᵀ`. -/
theorem solveEnv_keeps (h : IsEigh m n (p.eigh m)) {chi : Nat} (hl : Lossless p m chi) {ι : Type} (S : Finset ι) (N : Nat → ι → K)
    (hm : ∀ x < n, ∀ y < n, m.get [x, y] = ∑ s ∈ S, N x s * N y s) : ∀ y < n, ∀ s ∈ S,
    ∑ x ∈ range n, (∑ o ∈ range (prjCols p m chi n), (solveEnv p m chi).1.get [x, o] * (solveEnv p m chi).1.get [y, o]) * N x s = N y s := by
  intro y hy s hs
  have hle := prjCols_le h chi
  have hz : ∀ j < n - prjCols p m chi n, ∑ x ∈ range n, (p.eigh m).2.get [x, j] * N x s = 0 := by
    intro j hj
    refine null_vector S N (fun x hx => ?_) s hs
    have h0 : (p.eigh m).1.getD j 0 = 0 := by
      have hc : envKept p m chi ≠ 0 := by
        intro h0
        unfold prjCols at hj
        rw [if_pos h0] at hj
        omega
      refine hl hc j ?_
      unfold prjCols at hj
      rw [if_neg hc] at hj
      rwa [h.len]
    have he := h.eig x hx j (by omega)
    rw [h0, zero_mul] at he
    rw [← he]
    exact Finset.sum_congr rfl fun z hz => by rw [hm x hx z (Finset.mem_range.mp hz)]
  exact solveEnv_fixes h (fun x => N x s) hz y hy

end

end CTL
