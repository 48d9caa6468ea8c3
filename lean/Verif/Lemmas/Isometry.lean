import Verif.Lemmas.Svd
import Verif.Spec.TNR
import Mathlib.Algebra.Order.BigOperators.Ring.Finset
import Mathlib.LinearAlgebra.Matrix.NonsingularInverse
import Mathlib.Tactic.Ring
import Mathlib.Tactic.Linarith

/-! Isometries from singular value decompositions, and which overlap they reach. -/

namespace CTL

open Finset (range)
set_option linter.unusedSectionVars false
variable {K : Type} [Field K] [LinearOrder K] [IsStrictOrderedRing K]

/-- Between unit vectors a matrix with orthonormal columns takes no value above 1. -/
theorem bilin_le_one_cols {n m : Nat} {x : Nat → Nat → K}
    (hx : ∀ j < m, ∀ l < m, ∑ i ∈ range n, x i j * x i l = if j = l then 1 else 0)
    {u v : Nat → K} (hu : ∑ i ∈ range n, u i * u i = 1) (hv : ∑ j ∈ range m, v j * v j = 1) :
    ∑ i ∈ range n, ∑ j ∈ range m, u i * x i j * v j ≤ 1 := by
  have e1 : ∑ i ∈ range n, ∑ j ∈ range m, u i * x i j * v j = ∑ i ∈ range n, u i * ∑ j ∈ range m, x i j * v j := by
    refine Finset.sum_congr rfl fun i _ => ?_
    rw [Finset.mul_sum]
    exact Finset.sum_congr rfl fun j _ => by ring
  have e2 : ∑ i ∈ range n, (∑ j ∈ range m, x i j * v j) ^ 2 = 1 := by
    have : ∀ i, (∑ j ∈ range m, x i j * v j) ^ 2 = ∑ j ∈ range m, ∑ l ∈ range m, (v j * v l) * (x i j * x i l) := by
      intro i
      rw [sq, Finset.sum_mul_sum]
      exact Finset.sum_congr rfl fun j _ => Finset.sum_congr rfl fun l _ => by ring
    simp only [this]
    rw [Finset.sum_comm]
    rw [← hv]
    refine Finset.sum_congr rfl fun j hj => ?_
    rw [Finset.sum_comm, Finset.sum_eq_single j]
    · rw [← Finset.mul_sum, hx j (Finset.mem_range.mp hj) j (Finset.mem_range.mp hj), if_pos rfl, mul_one]
    · intro l hl hne
      rw [← Finset.mul_sum, hx j (Finset.mem_range.mp hj) l (Finset.mem_range.mp hl), if_neg (Ne.symm hne), mul_zero]
    · exact fun h => absurd hj h
  have cs := Finset.sum_mul_sq_le_sq_mul_sq (range n) u fun i => ∑ j ∈ range m, x i j * v j
  have hu' : ∑ i ∈ range n, u i ^ 2 = 1 := by rw [← hu]; exact Finset.sum_congr rfl fun i _ => sq _
  rw [e2, hu', mul_one] at cs
  rw [e1]
  exact (abs_le.mp ((sq_le_one_iff_abs_le_one _).mp cs)).2

theorem bilin_le_one {n m : Nat} {x : Nat → Nat → K} (hx : IsIsometry n m x)
    {u v : Nat → K} (hu : ∑ i ∈ range n, u i * u i = 1) (hv : ∑ j ∈ range m, v j * v j = 1) :
    ∑ i ∈ range n, ∑ j ∈ range m, u i * x i j * v j ≤ 1 := by
  rcases Nat.le_total m n with h | h
  · exact bilin_le_one_cols (hx.1 h) hu hv
  · have := bilin_le_one_cols (x := fun j i => x i j) (hx.2 h) hv hu
    rw [Finset.sum_comm] at this
    refine le_of_eq_of_le ?_ this
    exact Finset.sum_congr rfl fun i _ => Finset.sum_congr rfl fun j _ => by ring

section
variable {n m : Nat} {u vh : Nat → Nat → K} {s : Nat → K}

/-- The overlap with the decomposed matrix is a weighted sum of values between the singular vectors. -/
theorem overlap_eq {x e : Nat → Nat → K} (he : ∀ i < n, ∀ j < m, e i j = ∑ k ∈ range (min n m), u i k * s k * vh k j) :
    ∑ i ∈ range n, ∑ j ∈ range m, x i j * e i j =
      ∑ k ∈ range (min n m), s k * ∑ i ∈ range n, ∑ j ∈ range m, u i k * x i j * vh k j := by
  simp only [Finset.mul_sum]
  rw [Finset.sum_comm (s := range (min n m))]
  refine Finset.sum_congr rfl fun i hi => ?_
  rw [Finset.sum_comm (s := range (min n m))]
  refine Finset.sum_congr rfl fun j hj => ?_
  rw [he i (Finset.mem_range.mp hi) j (Finset.mem_range.mp hj), Finset.mul_sum]
  exact Finset.sum_congr rfl fun k _ => by ring

/-- The polar factor of the decomposition. -/
def polar (k : Nat) (u vh : Nat → Nat → K) (i j : Nat) : K := ∑ t ∈ range k, u i t * vh t j

variable (hu : ∀ k < n, ∀ l < n, ∑ i ∈ range n, u i k * u i l = if k = l then 1 else 0)
  (hv : ∀ k < m, ∀ l < m, ∑ j ∈ range m, vh k j * vh l j = if k = l then 1 else 0)
include hu hv

/-- Between its own singular vectors the polar factor is 1. -/
theorem polar_between {k : Nat} (hk : k < min n m) :
    ∑ i ∈ range n, ∑ j ∈ range m, u i k * polar (min n m) u vh i j * vh k j = 1 := by
  have e : ∀ i j, u i k * polar (min n m) u vh i j * vh k j = ∑ t ∈ range (min n m), (u i k * u i t) * (vh k j * vh t j) := by
    intro i j
    unfold polar
    rw [Finset.mul_sum, Finset.sum_mul]
    exact Finset.sum_congr rfl fun t _ => by ring
  simp only [e]
  have : ∀ i ∈ range n, ∑ j ∈ range m, ∑ t ∈ range (min n m), (u i k * u i t) * (vh k j * vh t j) = u i k * u i k := by
    intro i _
    rw [Finset.sum_comm, Finset.sum_eq_single k]
    · rw [← Finset.mul_sum, hv k (by omega) k (by omega), if_pos rfl, mul_one]
    · intro t ht hne
      have := Finset.mem_range.mp ht
      rw [← Finset.mul_sum, hv k (by omega) t (by omega), if_neg (Ne.symm hne), mul_zero]
    · exact fun h => absurd (Finset.mem_range.mpr hk) h
  rw [Finset.sum_congr rfl this, hu k (by omega) k (by omega), if_pos rfl]

end

/-- The columns of a square matrix with orthonormal rows are orthonormal. -/
theorem orth_cols {m : Nat} {v : Nat → Nat → K} (hv : ∀ k < m, ∀ l < m, ∑ j ∈ range m, v k j * v l j = if k = l then 1 else 0) :
    ∀ i < m, ∀ j < m, ∑ k ∈ range m, v k i * v k j = if i = j then 1 else 0 := by
  let V : Matrix (Fin m) (Fin m) K := fun i j => v i j
  have h1 : V * V.transpose = 1 := by
    ext a b
    rw [Matrix.mul_apply, Matrix.one_apply]
    show ∑ j : Fin m, v a j * v b j = _
    rw [Fin.sum_univ_eq_sum_range (fun j => v a j * v b j), hv a a.2 b b.2]
    simp only [Fin.ext_iff]
  have h2 : V.transpose * V = 1 := mul_eq_one_comm.mp h1
  intro i hi j hj
  have := congrFun (congrFun h2 ⟨i, hi⟩) ⟨j, hj⟩
  rw [Matrix.mul_apply, Matrix.one_apply] at this
  rw [← Fin.sum_univ_eq_sum_range (fun k => v k i * v k j)]
  simp only [Fin.ext_iff] at this
  exact this

theorem polar_cols {n m p : Nat} {u vh : Nat → Nat → K}
    (hu : ∀ k < p, ∀ l < p, ∑ i ∈ range n, u i k * u i l = if k = l then 1 else 0)
    (hv : ∀ i < m, ∀ j < m, ∑ k ∈ range p, vh k i * vh k j = if i = j then 1 else 0) :
    ∀ j < m, ∀ l < m, ∑ i ∈ range n, polar p u vh i j * polar p u vh i l = if j = l then 1 else 0 := by
  intro j hj l hl
  have e : ∀ i, polar p u vh i j * polar p u vh i l =
      ∑ t ∈ range p, ∑ r ∈ range p, (vh t j * vh r l) * (u i t * u i r) := by
    intro i
    unfold polar
    rw [Finset.sum_mul_sum]
    exact Finset.sum_congr rfl fun t _ => Finset.sum_congr rfl fun r _ => by ring
  simp only [e]
  rw [Finset.sum_comm, ← hv j hj l hl]
  refine Finset.sum_congr rfl fun t ht => ?_
  rw [Finset.sum_comm, Finset.sum_eq_single t]
  · rw [← Finset.mul_sum, hu t (Finset.mem_range.mp ht) t (Finset.mem_range.mp ht), if_pos rfl, mul_one]
  · intro r hr hne
    rw [← Finset.mul_sum, hu t (Finset.mem_range.mp ht) r (Finset.mem_range.mp hr), if_neg (Ne.symm hne), mul_zero]
  · exact fun h => absurd ht h

theorem polar_isometry {n m : Nat} {u vh : Nat → Nat → K}
    (hu : ∀ k < n, ∀ l < n, ∑ i ∈ range n, u i k * u i l = if k = l then 1 else 0)
    (hv : ∀ k < m, ∀ l < m, ∑ j ∈ range m, vh k j * vh l j = if k = l then 1 else 0) :
    IsIsometry n m (polar (min n m) u vh) := by
  constructor
  · intro h
    rw [Nat.min_eq_right h]
    exact polar_cols (fun k hk l hl => hu k (by omega) l (by omega)) (orth_cols hv)
  · intro h i hi l hl
    rw [Nat.min_eq_left h]
    have := polar_cols (n := m) (m := n) (p := n) (u := fun j t => vh t j) (vh := fun t i => u i t)
      (fun k hk l hl => hv k (by omega) l (by omega))
      (orth_cols (v := fun t i => u i t) hu) i hi l hl
    rw [← this]
    refine Finset.sum_congr rfl fun j _ => ?_
    unfold polar
    congr 1 <;> exact Finset.sum_congr rfl fun t _ => mul_comm _ _

/-- No isometry overlaps more with a matrix than its polar factor, which reaches the sum of the singular values. -/
theorem polar_best {n m : Nat} {u vh e : Nat → Nat → K} {s : Nat → K}
    (hu : ∀ k < n, ∀ l < n, ∑ i ∈ range n, u i k * u i l = if k = l then 1 else 0)
    (hv : ∀ k < m, ∀ l < m, ∑ j ∈ range m, vh k j * vh l j = if k = l then 1 else 0)
    (he : ∀ i < n, ∀ j < m, e i j = ∑ k ∈ range (min n m), u i k * s k * vh k j) :
    ∑ i ∈ range n, ∑ j ∈ range m, polar (min n m) u vh i j * e i j = ∑ k ∈ range (min n m), s k ∧
    ((∀ k < min n m, 0 ≤ s k) → ∀ x, IsIsometry n m x → ∑ i ∈ range n, ∑ j ∈ range m, x i j * e i j ≤ ∑ k ∈ range (min n m), s k) := by
  constructor
  · rw [overlap_eq he]
    exact Finset.sum_congr rfl fun k hk => by rw [polar_between hu hv (Finset.mem_range.mp hk), mul_one]
  · intro hs x hx
    rw [overlap_eq he]
    refine Finset.sum_le_sum fun k hk => ?_
    have hk := Finset.mem_range.mp hk
    refine mul_le_of_le_one_right (hs k hk) (bilin_le_one hx ?_ ?_)
    · rw [hu k (by omega) k (by omega), if_pos rfl]
    · rw [hv k (by omega) k (by omega), if_pos rfl]

end CTL
