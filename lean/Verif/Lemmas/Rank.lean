import Verif.Spec.Decompose
import Mathlib.LinearAlgebra.Matrix.Rank
import Mathlib.LinearAlgebra.Matrix.Diagonal

/-! The number of non-zero singular values of a product is at most the inner dimension. -/

namespace CTL
variable {R : Type}
open Finset

/-- `uᴴ a vᴴ` is the diagonal matrix of the singular values. -/
theorem unitary_diag [CommRing R] [StarRing R] {a : NDArray R} {n m : Nat} {o : NDArray R × List R × NDArray R}
    (S : IsUnitarySVD a n m o) {k l : Nat} (hk : k < min n m) (hl : l < min n m) :
    ∑ i ∈ range n, ∑ j ∈ range m, star (o.1.get [i, k]) * a.get [i, j] * star (o.2.2.get [l, j]) =
      if k = l then o.2.1.getD k 0 else 0 := by
  have e : ∀ i ∈ range n, ∀ j ∈ range m, star (o.1.get [i, k]) * a.get [i, j] * star (o.2.2.get [l, j]) =
      ∑ p ∈ range (min n m), (star (o.1.get [i, k]) * o.1.get [i, p]) * o.2.1.getD p 0 *
        (star (o.2.2.get [l, j]) * o.2.2.get [p, j]) := by
    intro i hi j hj
    rw [mem_range] at hi hj
    rw [S.exact i hi j hj]
    unfold partialSVD
    rw [mul_sum, sum_mul]
    exact sum_congr rfl fun p _ => by ring
  rw [sum_congr rfl fun i hi => (sum_congr rfl (e i hi)).trans sum_comm, sum_comm]
  have : ∀ p ∈ range (min n m), ∑ i ∈ range n, ∑ j ∈ range m, (star (o.1.get [i, k]) * o.1.get [i, p]) * o.2.1.getD p 0 *
        (star (o.2.2.get [l, j]) * o.2.2.get [p, j]) = (if k = p then 1 else 0) * o.2.1.getD p 0 * (if l = p then 1 else 0) := by
    intro p hp
    rw [mem_range] at hp
    rw [← S.uOrtho k (by omega) p (by omega), ← S.vOrtho l (by omega) p (by omega), sum_mul, sum_mul]
    exact sum_congr rfl fun i _ => by rw [mul_sum]
  rw [sum_congr rfl this, sum_eq_single_of_mem k (mem_range.mpr hk)]
  · by_cases c : k = l
    · simp [c]
    · simp [c, Ne.symm c]
  · intro p _ hne
    simp [Ne.symm hne]

/-- A matrix that is a product over an index of size `D` has at most `D` non-zero singular values. -/
theorem unitary_rank [Field R] [StarRing R] {a : NDArray R} {n m : Nat} {o : NDArray R × List R × NDArray R}
    (S : IsUnitarySVD a n m o) {D : Nat} (A B : Nat → Nat → R)
    (h : ∀ i < n, ∀ j < m, a.get [i, j] = ∑ d ∈ range D, A i d * B d j) {K : Nat} (hK : K ≤ min n m)
    (nz : ∀ l < K, o.2.1.getD l 0 ≠ 0) : K ≤ D := by
  let P : Matrix (Fin K) (Fin D) R := fun k d => ∑ i ∈ range n, star (o.1.get [i, (k : Nat)]) * A i d
  let Q : Matrix (Fin D) (Fin K) R := fun d l => ∑ j ∈ range m, B d j * star (o.2.2.get [(l : Nat), j])
  have e : P * Q = Matrix.diagonal fun k : Fin K => o.2.1.getD k 0 := by
    ext k l
    rw [Matrix.mul_apply, Matrix.diagonal_apply]
    have := unitary_diag S (k := k) (l := l) (by omega) (by omega)
    have c : ((k : Nat) = (l : Nat)) ↔ k = l := Fin.ext_iff.symm
    simp only [c] at this
    rw [← this]
    have e1 : ∀ i ∈ range n, ∀ j ∈ range m, star (o.1.get [i, (k : Nat)]) * a.get [i, j] * star (o.2.2.get [(l : Nat), j]) =
        ∑ d ∈ range D, (star (o.1.get [i, (k : Nat)]) * A i d) * (B d j * star (o.2.2.get [(l : Nat), j])) := by
      intro i hi j hj
      rw [mem_range] at hi hj
      rw [h i hi j hj, mul_sum, sum_mul]
      exact sum_congr rfl fun p _ => by ring
    rw [sum_congr rfl fun i hi => (sum_congr rfl (e1 i hi)).trans sum_comm, sum_comm]
    rw [← Fin.sum_univ_eq_sum_range (fun d => ∑ i ∈ range n, ∑ j ∈ range m,
      (star (o.1.get [i, (k : Nat)]) * A i d) * (B d j * star (o.2.2.get [(l : Nat), j]))) D]
    refine sum_congr rfl fun d _ => ?_
    show (∑ i ∈ range n, _) * (∑ j ∈ range m, _) = _
    rw [sum_mul]
    exact sum_congr rfl fun i _ => by rw [mul_sum]
  classical
  have r1 : (P * Q).rank ≤ D := (Matrix.rank_mul_le_left P Q).trans ((Matrix.rank_le_card_width P).trans (by simp))
  rw [e, Matrix.rank_diagonal] at r1
  have : Fintype.card {k : Fin K // o.2.1.getD k 0 ≠ 0} = K := by
    rw [Fintype.card_congr (Equiv.subtypeUnivEquiv (p := fun k : Fin K => o.2.1.getD k 0 ≠ 0) fun k => nz k k.isLt)]
    simp
  omega

/-- Unitary decompositions over a field bound the rank. -/
theorem rankBounded_of_unitary [Field R] [StarRing R] {la : LinAlg R} (hu : UnitaryLinAlg la) (hr : RankRevealing la)
    (hz : ∀ z, la.isNonZero z = true → z ≠ 0) : RankBounded la := by
  intro a n m w hs D A B h
  have S := hu a _ _ w hs
  obtain ⟨pre, post, e, h1, h2⟩ := hr a _ _ w hs
  have cnt : (la.svd a).2.1.countP la.isNonZero = pre.length := by
    rw [e, List.countP_append]
    have a1 : pre.countP la.isNonZero = pre.length := List.countP_eq_length.mpr h1
    have a2 : post.countP la.isNonZero = 0 := by
      rw [List.countP_eq_zero]
      intro x hx; simp [(h2 x hx).2]
    omega
  rw [cnt]
  refine unitary_rank S A B h ?_ ?_
  · rw [← S.sLen, e, List.length_append]
    exact Nat.le_add_right _ _
  · intro l hl
    have : (la.svd a).2.1.getD l 0 = pre[l] := by
      rw [e, List.getD_eq_getElem?_getD, List.getElem?_append_left hl, List.getElem?_eq_getElem hl]
      rfl
    rw [this]
    exact hz _ (h1 _ (List.getElem_mem hl))

end CTL
