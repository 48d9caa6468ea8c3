import Verif.Spec.TNRStep
import Mathlib.Algebra.BigOperators.Group.Finset.Sigma
import Mathlib.Algebra.BigOperators.Ring.Finset
import Mathlib.Algebra.Order.BigOperators.Group.Finset
import Mathlib.Algebra.Order.Ring.Basic
import Mathlib.Algebra.BigOperators.Field
import Mathlib.Tactic.Ring

/-! The sums in the truncation error of `doTNR`. -/

namespace CTL
open Finset (range)
variable {K : Type} [Field K]

/-- The sum of the squares of the truncated ring, with the double of the ring. -/
theorem sNorm_double (C : Nat → Nat → Nat → Nat → K) (n m : Nat) (s : Nat → Nat → K) :
    ∑ a ∈ range n, ∑ b ∈ range n, ∑ c ∈ range n, ∑ d ∈ range n,
      (∑ i ∈ range n, ∑ j ∈ range n, C a c i j * C b d i j) * (∑ x ∈ range m, s a x * s b x) * (∑ y ∈ range m, s c y * s d y) =
    sNorm C n m s := by
  have k1 : ∀ a b c d, (∑ i ∈ range n, ∑ j ∈ range n, C a c i j * C b d i j) * (∑ x ∈ range m, s a x * s b x) *
      (∑ y ∈ range m, s c y * s d y) =
      ∑ x ∈ range m, ∑ y ∈ range m, ∑ i ∈ range n, ∑ j ∈ range n, C a c i j * C b d i j * (s a x * s b x) * (s c y * s d y) := by
    intro a b c d
    simp only [← Finset.sum_mul, ← Finset.mul_sum]
  have k2 : ∀ x y i j, sTruncated C n s x y i j ^ 2 = ∑ a ∈ range n, ∑ c ∈ range n, ∑ b ∈ range n, ∑ d ∈ range n,
      C a c i j * C b d i j * (s a x * s b x) * (s c y * s d y) := by
    intro x y i j
    unfold sTruncated
    rw [sq, Finset.sum_mul]
    refine Finset.sum_congr rfl fun a _ => ?_
    rw [Finset.sum_mul]
    refine Finset.sum_congr rfl fun c _ => ?_
    rw [Finset.mul_sum]
    refine Finset.sum_congr rfl fun b _ => ?_
    rw [Finset.mul_sum]
    exact Finset.sum_congr rfl fun d _ => by ring
  unfold sNorm
  refine Eq.trans (Finset.sum_congr rfl fun a _ => Finset.sum_congr rfl fun b _ => Finset.sum_congr rfl fun c _ =>
    Finset.sum_congr rfl fun d _ => k1 a b c d) (Eq.trans ?_ (Finset.sum_congr rfl fun x _ => Finset.sum_congr rfl fun y _ =>
    Finset.sum_congr rfl fun i _ => Finset.sum_congr rfl fun j _ => (k2 x y i j).symm))
  iterate 14 rw [← Finset.sum_product']
  refine Finset.sum_nbij' (fun ⟨⟨⟨⟨⟨⟨⟨a, b⟩, c⟩, d⟩, x⟩, y⟩, i⟩, j⟩ => ⟨⟨⟨⟨⟨⟨⟨x, y⟩, i⟩, j⟩, a⟩, c⟩, b⟩, d⟩)
    (fun ⟨⟨⟨⟨⟨⟨⟨x, y⟩, i⟩, j⟩, a⟩, c⟩, b⟩, d⟩ => ⟨⟨⟨⟨⟨⟨⟨a, b⟩, c⟩, d⟩, x⟩, y⟩, i⟩, j⟩) ?_ ?_ ?_ ?_ ?_
  · rintro ⟨⟨⟨⟨⟨⟨⟨a, b⟩, c⟩, d⟩, x⟩, y⟩, i⟩, j⟩ hm
    simp only [Finset.mem_product, Finset.mem_range] at hm ⊢
    omega
  · rintro ⟨⟨⟨⟨⟨⟨⟨x, y⟩, i⟩, j⟩, a⟩, c⟩, b⟩, d⟩ hm
    simp only [Finset.mem_product, Finset.mem_range] at hm ⊢
    omega
  · rintro ⟨⟨⟨⟨⟨⟨⟨a, b⟩, c⟩, d⟩, x⟩, y⟩, i⟩, j⟩ _; rfl
  · rintro ⟨⟨⟨⟨⟨⟨⟨x, y⟩, i⟩, j⟩, a⟩, c⟩, b⟩, d⟩ _; rfl
  · rintro ⟨⟨⟨⟨⟨⟨⟨a, b⟩, c⟩, d⟩, x⟩, y⟩, i⟩, j⟩ _; rfl

/-- The trace of the environment is a sum of squares. -/
theorem sTrace_double (C : Nat → Nat → Nat → Nat → K) (n m : Nat) (s : Nat → Nat → K) :
    ∑ a ∈ range n, ∑ c ∈ range n, ∑ d ∈ range n,
      (∑ i ∈ range n, ∑ j ∈ range n, C a c i j * C a d i j) * (∑ y ∈ range m, s c y * s d y) =
    ∑ a ∈ range n, ∑ y ∈ range m, ∑ i ∈ range n, ∑ j ∈ range n, (∑ c ∈ range n, C a c i j * s c y) ^ 2 := by
  refine Finset.sum_congr rfl fun a _ => ?_
  have k1 : ∀ c d, (∑ i ∈ range n, ∑ j ∈ range n, C a c i j * C a d i j) * (∑ y ∈ range m, s c y * s d y) =
      ∑ y ∈ range m, ∑ i ∈ range n, ∑ j ∈ range n, C a c i j * C a d i j * (s c y * s d y) := by
    intro c d
    simp only [← Finset.sum_mul, ← Finset.mul_sum]
  have k2 : ∀ y i j, (∑ c ∈ range n, C a c i j * s c y) ^ 2 = ∑ c ∈ range n, ∑ d ∈ range n, C a c i j * C a d i j * (s c y * s d y) := by
    intro y i j
    rw [sq, Finset.sum_mul_sum]
    exact Finset.sum_congr rfl fun c _ => Finset.sum_congr rfl fun d _ => by ring
  refine Eq.trans (Finset.sum_congr rfl fun c _ => Finset.sum_congr rfl fun d _ => k1 c d) (Eq.trans ?_ (Finset.sum_congr rfl
    fun y _ => Finset.sum_congr rfl fun i _ => Finset.sum_congr rfl fun j _ => (k2 y i j).symm))
  iterate 8 rw [← Finset.sum_product']
  refine Finset.sum_nbij' (fun ⟨⟨⟨⟨c, d⟩, y⟩, i⟩, j⟩ => ⟨⟨⟨⟨y, i⟩, j⟩, c⟩, d⟩) (fun ⟨⟨⟨⟨y, i⟩, j⟩, c⟩, d⟩ => ⟨⟨⟨⟨c, d⟩, y⟩, i⟩, j⟩) ?_ ?_ ?_ ?_ ?_
  · rintro ⟨⟨⟨⟨c, d⟩, y⟩, i⟩, j⟩ hm
    simp only [Finset.mem_product, Finset.mem_range] at hm ⊢
    omega
  · rintro ⟨⟨⟨⟨y, i⟩, j⟩, c⟩, d⟩ hm
    simp only [Finset.mem_product, Finset.mem_range] at hm ⊢
    omega
  · rintro ⟨⟨⟨⟨c, d⟩, y⟩, i⟩, j⟩ _; rfl
  · rintro ⟨⟨⟨⟨y, i⟩, j⟩, c⟩, d⟩ _; rfl
  · rintro ⟨⟨⟨⟨c, d⟩, y⟩, i⟩, j⟩ _; rfl

theorem sOverlap_div (S : Nat → Nat → Nat → Nat → K) (n m : Nat) (s : Nat → Nat → K) (r : K) :
    sOverlap S n m (fun i j => s i j / r) = sOverlap S n m s / r ^ 2 := by
  unfold sOverlap
  simp only [Finset.sum_div]
  refine Finset.sum_congr rfl fun a _ => Finset.sum_congr rfl fun b _ => Finset.sum_congr rfl fun c _ =>
    Finset.sum_congr rfl fun d _ => ?_
  ring

theorem sNorm_div (C : Nat → Nat → Nat → Nat → K) (n m : Nat) (s : Nat → Nat → K) (r : K) :
    sNorm C n m (fun i j => s i j / r) = sNorm C n m s / r ^ 4 := by
  have h : ∀ x y i j, sTruncated C n (fun i j => s i j / r) x y i j = sTruncated C n s x y i j / r ^ 2 := by
    intro x y i j
    unfold sTruncated
    simp only [Finset.sum_div]
    exact Finset.sum_congr rfl fun a _ => Finset.sum_congr rfl fun b _ => by ring
  unfold sNorm
  simp only [Finset.sum_div]
  refine Finset.sum_congr rfl fun x _ => Finset.sum_congr rfl fun y _ => Finset.sum_congr rfl fun i _ =>
    Finset.sum_congr rfl fun j _ => ?_
  rw [h]
  ring

theorem sOverlap_congr (S : Nat → Nat → Nat → Nat → K) {n m : Nat} {s t : Nat → Nat → K} (h : ∀ i < n, ∀ j < m, s i j = t i j) :
    sOverlap S n m s = sOverlap S n m t := by
  unfold sOverlap
  refine Finset.sum_congr rfl fun a ha => Finset.sum_congr rfl fun b hb => Finset.sum_congr rfl fun c hc =>
    Finset.sum_congr rfl fun d hd => ?_
  simp only [Finset.mem_range] at ha hb hc hd
  rw [h a ha b hb, h c hc d hd]

theorem sNorm_congr (C : Nat → Nat → Nat → Nat → K) {n m : Nat} {s t : Nat → Nat → K} (h : ∀ i < n, ∀ j < m, s i j = t i j) :
    sNorm C n m s = sNorm C n m t := by
  unfold sNorm sTruncated
  refine Finset.sum_congr rfl fun x hx => Finset.sum_congr rfl fun y hy => Finset.sum_congr rfl fun i _ =>
    Finset.sum_congr rfl fun j _ => ?_
  congr 1
  refine Finset.sum_congr rfl fun a ha => Finset.sum_congr rfl fun b hb => ?_
  simp only [Finset.mem_range] at hx hy ha hb
  rw [h a ha x hx, h b hb y hy]

theorem sNorm_zero {C : Nat → Nat → Nat → Nat → K} {n m : Nat} {s : Nat → Nat → K}
    (h : ∀ x < m, ∀ y < m, ∀ i < n, ∀ j < n, sTruncated C n s x y i j = 0) : sNorm C n m s = 0 := by
  unfold sNorm
  refine Finset.sum_eq_zero fun x hx => Finset.sum_eq_zero fun y hy => Finset.sum_eq_zero fun i hi => Finset.sum_eq_zero fun j hj => ?_
  simp only [Finset.mem_range] at hx hy hi hj
  rw [h x hx y hy i hi j hj]
  ring

section
variable [LinearOrder K] [IsStrictOrderedRing K]

/-- Where the sum of the squares vanishes, so does every entry. -/
theorem sSquares_zero {n m : Nat} {s : Nat → Nat → K} (h : sSquares n m s = 0) : ∀ i < n, ∀ j < m, s i j = 0 := by
  intro i hi j hj
  have h1 := (Finset.sum_eq_zero_iff_of_nonneg fun i _ => Finset.sum_nonneg fun j _ => sq_nonneg (s i j)).mp h i (Finset.mem_range.mpr hi)
  have h2 := (Finset.sum_eq_zero_iff_of_nonneg fun j _ => sq_nonneg (s i j)).mp h1 j (Finset.mem_range.mpr hj)
  exact pow_eq_zero_iff (two_ne_zero) |>.mp h2

theorem sSquares_nonneg (n m : Nat) (s : Nat → Nat → K) : 0 ≤ sSquares n m s :=
  Finset.sum_nonneg fun _ _ => Finset.sum_nonneg fun _ _ => sq_nonneg _

theorem sSquares_ne {C : Nat → Nat → Nat → Nat → K} {n m : Nat} {s : Nat → Nat → K} (h : sNorm C n m s ≠ 0) : sSquares n m s ≠ 0 := by
  intro h0
  refine h (sNorm_zero fun x hx y hy i hi j hj => ?_)
  unfold sTruncated
  refine Finset.sum_eq_zero fun a ha => Finset.sum_eq_zero fun b hb => ?_
  rw [sSquares_zero h0 a (Finset.mem_range.mp ha) x hx]
  ring

theorem four_zero {n m p q : Nat} {f : Nat → Nat → Nat → Nat → K}
    (h : ∑ a ∈ range n, ∑ b ∈ range m, ∑ c ∈ range p, ∑ d ∈ range q, f a b c d ^ 2 = 0) :
    ∀ a < n, ∀ b < m, ∀ c < p, ∀ d < q, f a b c d = 0 := by
  intro a ha b hb c hc d hd
  have h1 := (Finset.sum_eq_zero_iff_of_nonneg fun a _ => Finset.sum_nonneg fun b _ => Finset.sum_nonneg fun c _ =>
    Finset.sum_nonneg fun d _ => sq_nonneg (f a b c d)).mp h a (Finset.mem_range.mpr ha)
  have h2 := (Finset.sum_eq_zero_iff_of_nonneg fun b _ => Finset.sum_nonneg fun c _ =>
    Finset.sum_nonneg fun d _ => sq_nonneg (f a b c d)).mp h1 b (Finset.mem_range.mpr hb)
  have h3 := (Finset.sum_eq_zero_iff_of_nonneg fun c _ => Finset.sum_nonneg fun d _ => sq_nonneg (f a b c d)).mp h2 c
    (Finset.mem_range.mpr hc)
  have h4 := (Finset.sum_eq_zero_iff_of_nonneg fun d _ => sq_nonneg (f a b c d)).mp h3 d (Finset.mem_range.mpr hd)
  exact pow_eq_zero_iff (two_ne_zero) |>.mp h4

/-- If the truncated ring is not 0, the trace of the environment is not. -/
theorem sTrace_ne {C : Nat → Nat → Nat → Nat → K} {n m : Nat} {s : Nat → Nat → K} (h : sNorm C n m s ≠ 0) :
    ∑ a ∈ range n, ∑ y ∈ range m, ∑ i ∈ range n, ∑ j ∈ range n, (∑ c ∈ range n, C a c i j * s c y) ^ 2 ≠ 0 := by
  intro h0
  have z := four_zero h0
  refine h (sNorm_zero fun x hx y hy i hi j hj => ?_)
  unfold sTruncated
  refine Finset.sum_eq_zero fun a ha => ?_
  have : ∑ b ∈ range n, C a b i j * s a x * s b y = s a x * ∑ c ∈ range n, C a c i j * s c y := by
    rw [Finset.mul_sum]
    exact Finset.sum_congr rfl fun b _ => by ring
  rw [this, z a (Finset.mem_range.mp ha) y hy i hi j hj, mul_zero]

/-- If the truncated ring is not 0, the ring is not. -/
theorem sRing_ne {C : Nat → Nat → Nat → Nat → K} {n m : Nat} {s : Nat → Nat → K} (h : sNorm C n m s ≠ 0) :
    ∑ a ∈ range n, ∑ b ∈ range n, ∑ i ∈ range n, ∑ j ∈ range n, C a b i j ^ 2 ≠ 0 := by
  intro h0
  have z := four_zero h0
  refine h (sNorm_zero fun x hx y hy i hi j hj => ?_)
  unfold sTruncated
  refine Finset.sum_eq_zero fun a ha => Finset.sum_eq_zero fun b hb => ?_
  rw [z a (Finset.mem_range.mp ha) b (Finset.mem_range.mp hb) i hi j hj]
  ring

end


end CTL
