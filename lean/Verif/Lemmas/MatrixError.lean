import Verif.Model.MatrixError
import Verif.Lemmas.Svd
import Mathlib.Algebra.Order.BigOperators.Ring.Finset
import Mathlib.Algebra.Order.BigOperators.Group.List

/-! Norms of arrays and differences of arrays. -/

namespace CTL
variable {R 𝕜 : Type} [RCLike 𝕜]
open Finset

namespace NDArray

theorem sum_indices2 {M : Type} [AddCommMonoid M] (n m : Nat) (f : List Nat → M) :
    ((indices [n, m]).map f).sum = ∑ i ∈ range n, ∑ j ∈ range m, f [i, j] := by
  have e : ∀ i, ((indices [m]).map fun x => f (i :: x)).sum = ∑ j ∈ range m, f [i, j] := by
    intro i
    have : (indices [m]).map (fun x => f (i :: x)) = (List.range m).map fun j => f [i, j] := by
      simp [indices, List.flatMap, List.map_flatten, Function.comp_def]
      induction List.range m with
      | nil => rfl
      | cons x xs ih => simp_all
    rw [this]
    rfl
  show (((List.range n).flatMap fun i => (indices [m]).map (i :: ·)).map f).sum = _
  rw [List.flatMap, List.map_flatten, List.sum_flatten, List.map_map, List.map_map]
  have : (List.range n).map ((List.sum ∘ List.map f) ∘ fun i => (indices [m]).map (i :: ·)) =
      (List.range n).map fun i => ∑ j ∈ range m, f [i, j] := by
    apply List.map_congr_left
    intro i _
    simp only [Function.comp_apply, List.map_map]
    exact e i
  rw [this]
  rfl

theorem norm_nonneg (a : NDArray 𝕜) : 0 ≤ a.norm := Real.sqrt_nonneg _

theorem norm_sq (a : NDArray 𝕜) : a.norm ^ 2 = (a.data.map fun x => ‖x‖ ^ 2).sum := by
  unfold norm
  rw [Real.sq_sqrt]
  apply List.sum_nonneg
  intro x hx
  obtain ⟨y, _, rfl⟩ := List.mem_map.mp hx
  positivity

theorem norm_build2 (n m : Nat) (f : List Nat → 𝕜) :
    (build [n, m] f).norm ^ 2 = ∑ i ∈ range n, ∑ j ∈ range m, ‖f [i, j]‖ ^ 2 := by
  rw [norm_sq, build, List.map_map, sum_indices2]
  rfl

/-- A norm vanishes only for arrays of zeros. -/
theorem norm_eq_zero (a : NDArray 𝕜) : a.norm = 0 ↔ ∀ x ∈ a.data, x = 0 := by
  rw [← sq_eq_zero_iff, norm_sq]
  constructor
  · intro h x hx
    have := List.all_zero_of_le_zero_le_of_sum_eq_zero (l := a.data.map fun x => ‖x‖ ^ 2) (by
      intro y hy
      obtain ⟨z, _, rfl⟩ := List.mem_map.mp hy
      positivity) h (List.mem_map.mpr ⟨x, hx, rfl⟩)
    simpa using this
  · intro h
    apply List.sum_eq_zero
    intro y hy
    obtain ⟨z, hz, rfl⟩ := List.mem_map.mp hy
    simp [h z hz]

theorem norm_build_eq_zero (s : List Nat) (f : List Nat → 𝕜) : (build s f).norm = 0 ↔ ∀ i, ValidIdx s i → f i = 0 := by
  rw [norm_eq_zero]
  simp only [build, List.mem_map, mem_indices]
  exact ⟨fun h i hi => h _ ⟨i, hi, rfl⟩, by rintro h x ⟨i, hi, rfl⟩; exact h i hi⟩

theorem norm_ne_zero {a : NDArray 𝕜} {i : List Nat} (h : a.get i ≠ 0) : a.norm ≠ 0 := by
  intro e
  apply h
  unfold get
  rw [List.getD_eq_getElem?_getD]
  cases hx : a.data[ravel a.shape i]? with
  | none => rfl
  | some x => exact (norm_eq_zero a).mp e x (List.mem_of_getElem? hx)

theorem sub_same [AddGroup R] {a b : NDArray R} (h : a.shape = b.shape) :
    a.sub b = .ok (build a.shape fun idx => a.get idx - b.get idx) := by
  unfold sub
  rw [if_pos h]

end NDArray
end CTL
