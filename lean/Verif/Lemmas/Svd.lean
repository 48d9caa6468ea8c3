import Verif.Spec.Decompose
import Verif.Lemmas.NDArray
import Verif.Lemmas.Contract
import Mathlib.Algebra.BigOperators.Ring.Finset
import Mathlib.Algebra.BigOperators.Intervals
import Mathlib.Tactic.Ring

/-! Matrix facts used for the truncated decompositions. -/

namespace CTL
variable {R : Type}
open Finset

theorem sum_range_list [AddCommMonoid R] (n : Nat) (f : Nat → R) : ((List.range n).map f).sum = ∑ i ∈ range n, f i := by
  rfl

/-- The squared norm of the part that was cut off. -/
theorem frobenius_tail [CommRing R] [StarRing R] {a : NDArray R} {n m : Nat} {o : NDArray R × List R × NDArray R}
    (h : IsUnitarySVD a n m o) (ks : Finset Nat) (hk : ∀ k ∈ ks, k < min n m) :
    ∑ i ∈ range n, ∑ j ∈ range m, star (partialSVD o.1 o.2.1 o.2.2 ks i j) * partialSVD o.1 o.2.1 o.2.2 ks i j
      = ∑ k ∈ ks, star (o.2.1.getD k 0) * o.2.1.getD k 0 := by
  have e1 : ∀ i j, star (partialSVD o.1 o.2.1 o.2.2 ks i j) * partialSVD o.1 o.2.1 o.2.2 ks i j =
      ∑ k ∈ ks, ∑ l ∈ ks, (star (o.2.1.getD k 0) * o.2.1.getD l 0) *
        ((star (o.1.get [i, k]) * o.1.get [i, l]) * (star (o.2.2.get [k, j]) * o.2.2.get [l, j])) := by
    intro i j
    unfold partialSVD
    rw [star_sum, Finset.sum_mul_sum]
    refine Finset.sum_congr rfl fun k _ => Finset.sum_congr rfl fun l _ => ?_
    rw [star_mul', star_mul']
    ring
  simp only [e1]
  rw [Finset.sum_congr rfl fun i _ => Finset.sum_comm, Finset.sum_comm]
  refine Finset.sum_congr rfl fun k hkk => ?_
  have e2 : ∀ l ∈ ks, ∑ i ∈ range n, ∑ j ∈ range m, (star (o.2.1.getD k 0) * o.2.1.getD l 0) *
        ((star (o.1.get [i, k]) * o.1.get [i, l]) * (star (o.2.2.get [k, j]) * o.2.2.get [l, j]))
      = if k = l then star (o.2.1.getD k 0) * o.2.1.getD l 0 else 0 := by
    intro l hl
    have b1 := hk k hkk
    have b2 := hk l hl
    rw [lt_min_iff] at b1 b2
    simp only [← Finset.mul_sum]
    rw [← Finset.sum_mul, h.uOrtho k b1.1 l b2.1, h.vOrtho k b1.2 l b2.2]
    split <;> simp
  have e3 : ∀ i ∈ range n, ∑ j ∈ range m, ∑ l ∈ ks, (star (o.2.1.getD k 0) * o.2.1.getD l 0) *
        ((star (o.1.get [i, k]) * o.1.get [i, l]) * (star (o.2.2.get [k, j]) * o.2.2.get [l, j])) =
      ∑ l ∈ ks, ∑ j ∈ range m, (star (o.2.1.getD k 0) * o.2.1.getD l 0) *
        ((star (o.1.get [i, k]) * o.1.get [i, l]) * (star (o.2.2.get [k, j]) * o.2.2.get [l, j])) :=
    fun i _ => Finset.sum_comm
  rw [Finset.sum_congr rfl e3, Finset.sum_comm, Finset.sum_congr rfl e2]
  simp [hkk]

/-- The whole decomposition minus the first `k` values is the rest. -/
theorem partialSVD_sub [CommRing R] (u : NDArray R) (s : List R) (vh : NDArray R) {k r : Nat} (h : k ≤ r) (i j : Nat) :
    partialSVD u s vh (range r) i j - partialSVD u s vh (range k) i j = partialSVD u s vh (Ico k r) i j := by
  unfold partialSVD
  rw [sub_eq_iff_eq_add, Finset.sum_range_add_sum_Ico _ h |>.symm, add_comm]

/-- Values that vanish do not contribute. -/
theorem partialSVD_cut [CommSemiring R] (u : NDArray R) (s : List R) (vh : NDArray R) {k r : Nat} (h : k ≤ r)
    (h0 : ∀ l, k ≤ l → l < r → s.getD l 0 = 0) (i j : Nat) :
    partialSVD u s vh (range k) i j = partialSVD u s vh (range r) i j := by
  unfold partialSVD
  rw [← Finset.sum_range_add_sum_Ico _ h]
  have : ∑ l ∈ Ico k r, u.get [i, l] * s.getD l 0 * vh.get [l, j] = 0 := ?_
  · rw [this, add_zero]
  apply Finset.sum_eq_zero
  intro l hl
  rw [Finset.mem_Ico] at hl
  rw [h0 l hl.1 hl.2]
  simp

theorem valid2 {n m i j : Nat} (hi : i < n) (hj : j < m) : ValidIdx [n, m] [i, j] :=
  .cons hi (.cons hj .nil)

theorem takeCols_spec [Zero R] {a : NDArray R} {n m k : Nat} (hs : a.shape = [n, m]) (hk : k ≤ m) :
    (a.takeCols k).shape = [n, k] ∧ (a.takeCols k).WF ∧
      ∀ i < n, ∀ j < k, (a.takeCols k).get [i, j] = a.get [i, j] := by
  have e : (a.takeCols k) = NDArray.build [n, k] a.get := by simp [NDArray.takeCols, hs, hk]
  rw [e]
  exact ⟨rfl, NDArray.build_wf _ _, fun i hi j hj => NDArray.get_build _ (valid2 hi hj)⟩

theorem takeRows_spec [Zero R] {a : NDArray R} {n m k : Nat} (hs : a.shape = [n, m]) (hk : k ≤ n) :
    (a.takeRows k).shape = [k, m] ∧ (a.takeRows k).WF ∧
      ∀ i < k, ∀ j < m, (a.takeRows k).get [i, j] = a.get [i, j] := by
  have e : (a.takeRows k) = NDArray.build [k, m] a.get := by simp [NDArray.takeRows, hs, hk]
  rw [e]
  exact ⟨rfl, NDArray.build_wf _ _, fun i hi j hj => NDArray.get_build _ (valid2 hi hj)⟩

theorem rightDiag_spec [NonUnitalNonAssocSemiring R] {a : NDArray R} {n m : Nat} (hs : a.shape = [n, m]) (q : List R) :
    (a.rightDiag q).shape = [n, m] ∧ (a.rightDiag q).WF ∧
      ∀ i < n, ∀ j < m, (a.rightDiag q).get [i, j] = a.get [i, j] * q.getD j 0 := by
  unfold NDArray.rightDiag
  rw [hs]
  exact ⟨rfl, NDArray.build_wf _ _, fun i hi j hj => NDArray.get_build _ (valid2 hi hj)⟩

theorem leftDiag_spec [NonUnitalNonAssocSemiring R] {a : NDArray R} {n m : Nat} (hs : a.shape = [n, m]) (q : List R) :
    (a.leftDiag q).shape = [n, m] ∧ (a.leftDiag q).WF ∧
      ∀ i < n, ∀ j < m, (a.leftDiag q).get [i, j] = a.get [i, j] * q.getD i 0 := by
  unfold NDArray.leftDiag
  rw [hs]
  exact ⟨rfl, NDArray.build_wf _ _, fun i hi j hj => NDArray.get_build _ (valid2 hi hj)⟩

theorem conjTranspose_spec [Zero R] [Star R] {a : NDArray R} {n m : Nat} (hs : a.shape = [n, m]) :
    a.conjTranspose.shape = [m, n] ∧ a.conjTranspose.WF ∧
      ∀ i < m, ∀ j < n, a.conjTranspose.get [i, j] = star (a.get [j, i]) := by
  unfold NDArray.conjTranspose
  rw [hs]
  exact ⟨rfl, NDArray.build_wf _ _, fun i hi j hj => NDArray.get_build _ (valid2 hi hj)⟩

theorem matmul_get [Semiring R] {a b : NDArray R} {n k m : Nat} (ha : a.shape = [n, k]) (hb : b.shape = [k, m]) :
    ∃ c, a.matmul b = .ok c ∧ c.shape = [n, m] ∧ c.WF ∧
      ∀ i < n, ∀ j < m, c.get [i, j] = ∑ t ∈ range k, a.get [i, t] * b.get [t, j] := by
  unfold NDArray.matmul
  rw [ha, hb]
  simp only [if_true]
  exact ⟨_, rfl, rfl, NDArray.build_wf _ _, fun i hi j hj => by rw [NDArray.get_build _ (valid2 hi hj)]; rfl⟩

theorem diagMatrix_get [Zero R] (q : List R) {i j : Nat} (hi : i < q.length) (hj : j < q.length) :
    (NDArray.diagMatrix q).get [i, j] = if i = j then q.getD i 0 else 0 := by
  unfold NDArray.diagMatrix
  rw [NDArray.get_build _ (valid2 hi hj)]
  rfl

theorem matmul_diag_right [Semiring R] {a : NDArray R} {n : Nat} (q : List R) (hs : a.shape = [n, q.length]) :
    ∃ b, a.matmul (.diagMatrix q) = .ok b ∧ b.shape = [n, q.length] ∧ b.WF ∧
      ∀ i < n, ∀ j < q.length, b.get [i, j] = a.get [i, j] * q.getD j 0 := by
  obtain ⟨c, h1, h2, h3, h4⟩ := matmul_get (b := .diagMatrix q) (m := q.length) hs rfl
  refine ⟨c, h1, h2, h3, ?_⟩
  intro i hi j hj
  rw [h4 i hi j hj, Finset.sum_eq_single j]
  · rw [diagMatrix_get q hj hj, if_pos rfl]
  · intro t ht htj
    rw [diagMatrix_get q (Finset.mem_range.mp ht) hj, if_neg htj, mul_zero]
  · intro h
    exact absurd (Finset.mem_range.mpr hj) h

theorem matmul_diag_left [Semiring R] {a : NDArray R} {m : Nat} (q : List R) (hs : a.shape = [q.length, m]) :
    ∃ b, NDArray.matmul (.diagMatrix q) a = .ok b ∧ b.shape = [q.length, m] ∧ b.WF ∧
      ∀ i < q.length, ∀ j < m, b.get [i, j] = q.getD i 0 * a.get [i, j] := by
  obtain ⟨c, h1, h2, h3, h4⟩ := matmul_get (a := .diagMatrix q) (n := q.length) rfl hs
  refine ⟨c, h1, h2, h3, ?_⟩
  intro i hi j hj
  rw [h4 i hi j hj, Finset.sum_eq_single i]
  · rw [diagMatrix_get q hi hi, if_pos rfl]
  · intro t ht hti
    rw [diagMatrix_get q hi (Finset.mem_range.mp ht), if_neg (Ne.symm hti), zero_mul]
  · intro h
    exact absurd (Finset.mem_range.mpr hi) h

/-- The product of the two cut factors, singular values shared as square roots. -/
theorem cut_product [CommSemiring R] {la : LinAlg R} (u : NDArray R) (s : List R) (vh : NDArray R) (k : Nat)
    (hk : k ≤ s.length) (hs : ∀ x ∈ s, la.sqrt x * la.sqrt x = x) (i j : Nat) :
    ∑ l ∈ range k, (u.get [i, l] * ((s.take k).map la.sqrt).getD l 0) * (vh.get [l, j] * ((s.take k).map la.sqrt).getD l 0)
      = partialSVD u s vh (range k) i j := by
  unfold partialSVD
  refine Finset.sum_congr rfl fun l hl => ?_
  rw [Finset.mem_range] at hl
  have hl2 : l < s.length := by omega
  have e : ((s.take k).map la.sqrt).getD l 0 = la.sqrt s[l] := by
    simp [List.getD_eq_getElem?_getD, hl, hl2]
  have e2 : s.getD l 0 = s[l] := by simp [List.getD_eq_getElem?_getD, hl2]
  rw [e, e2, ← hs s[l] (List.getElem_mem hl2)]
  rw [hs s[l] (List.getElem_mem hl2)]
  conv_rhs => rw [← hs s[l] (List.getElem_mem hl2)]
  ring

end CTL
