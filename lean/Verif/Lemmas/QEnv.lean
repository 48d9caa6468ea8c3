import Verif.Spec.TNR
import Mathlib.Algebra.BigOperators.Group.Finset.Sigma
import Mathlib.Algebra.BigOperators.Ring.Finset
import Mathlib.Tactic.Ring

/-! The environment of the first isometry of `TNR.py` is a matrix of scalar products. -/

namespace CTL
open Finset (range)
variable {K : Type} [CommSemiring K]

/-- Four sites in a square: the corner `(u, l)` is open, and so are the legs shared with the mirror image. -/
def qHalf (A : Nat → Nat → Nat → Nat → K) (V H u l e b m k j i : Nat) : K :=
  ∑ q ∈ range V, ∑ h ∈ range H, ∑ f ∈ range V, ∑ n ∈ range H, A u l q h * A e b f h * A q n j i * A f n m k

theorem qEnv_sum (A : Nat → Nat → Nat → Nat → K) (V H u l u' l' : Nat) :
    ∑ x ∈ range V, ∑ s ∈ range H, ∑ q ∈ range V, ∑ h ∈ range H, ∑ g ∈ range V, ∑ f ∈ range V, ∑ e ∈ range V,
    ∑ b ∈ range H, ∑ a ∈ range H, ∑ n ∈ range H, ∑ m ∈ range V, ∑ k ∈ range H, ∑ j ∈ range V, ∑ i ∈ range H,
      A u l q h * A e b f h * A q n j i * A f n m k * A x a j i * A g a m k * A u' l' x s * A e b g s =
    ∑ e ∈ range V, ∑ b ∈ range H, ∑ m ∈ range V, ∑ k ∈ range H, ∑ j ∈ range V, ∑ i ∈ range H,
      qHalf A V H u l e b m k j i * qHalf A V H u' l' e b m k j i := by
  have key : ∀ e b m k j i, qHalf A V H u l e b m k j i * qHalf A V H u' l' e b m k j i =
      ∑ q ∈ range V, ∑ x ∈ range V, ∑ h ∈ range H, ∑ s ∈ range H, ∑ f ∈ range V, ∑ g ∈ range V, ∑ n ∈ range H, ∑ a ∈ range H,
        (A u l q h * A e b f h * A q n j i * A f n m k) * (A u' l' x s * A e b g s * A x a j i * A g a m k) := by
    intro e b m k j i
    unfold qHalf
    rw [Finset.sum_mul_sum]
    refine Finset.sum_congr rfl fun q _ => Finset.sum_congr rfl fun x _ => ?_
    rw [Finset.sum_mul_sum]
    refine Finset.sum_congr rfl fun h _ => Finset.sum_congr rfl fun s _ => ?_
    rw [Finset.sum_mul_sum]
    refine Finset.sum_congr rfl fun f _ => Finset.sum_congr rfl fun g _ => ?_
    rw [Finset.sum_mul_sum]
  refine Eq.trans ?_ (Finset.sum_congr rfl fun e _ => Finset.sum_congr rfl fun b _ => Finset.sum_congr rfl fun m _ =>
    Finset.sum_congr rfl fun k _ => Finset.sum_congr rfl fun j _ => Finset.sum_congr rfl fun i _ => (key e b m k j i).symm)
  -- rhs order: e b m k j i q x h s f g n a
  iterate 26 rw [← Finset.sum_product']
  refine Finset.sum_nbij' (fun ⟨⟨⟨⟨⟨⟨⟨⟨⟨⟨⟨⟨⟨x, s⟩, q⟩, h⟩, g⟩, f⟩, e⟩, b⟩, a⟩, n⟩, m⟩, k⟩, j⟩, i⟩ => ⟨⟨⟨⟨⟨⟨⟨⟨⟨⟨⟨⟨⟨e, b⟩, m⟩, k⟩, j⟩, i⟩, q⟩, x⟩, h⟩, s⟩, f⟩, g⟩, n⟩, a⟩) (fun ⟨⟨⟨⟨⟨⟨⟨⟨⟨⟨⟨⟨⟨e, b⟩, m⟩, k⟩, j⟩, i⟩, q⟩, x⟩, h⟩, s⟩, f⟩, g⟩, n⟩, a⟩ => ⟨⟨⟨⟨⟨⟨⟨⟨⟨⟨⟨⟨⟨x, s⟩, q⟩, h⟩, g⟩, f⟩, e⟩, b⟩, a⟩, n⟩, m⟩, k⟩, j⟩, i⟩) ?_ ?_ ?_ ?_ ?_
  · rintro ⟨⟨⟨⟨⟨⟨⟨⟨⟨⟨⟨⟨⟨x, s⟩, q⟩, h⟩, g⟩, f⟩, e⟩, b⟩, a⟩, n⟩, m⟩, k⟩, j⟩, i⟩ hm
    simp only [Finset.mem_product, Finset.mem_range] at hm ⊢
    omega
  · rintro ⟨⟨⟨⟨⟨⟨⟨⟨⟨⟨⟨⟨⟨e, b⟩, m⟩, k⟩, j⟩, i⟩, q⟩, x⟩, h⟩, s⟩, f⟩, g⟩, n⟩, a⟩ hm
    simp only [Finset.mem_product, Finset.mem_range] at hm ⊢
    omega
  · rintro ⟨⟨⟨⟨⟨⟨⟨⟨⟨⟨⟨⟨⟨x, s⟩, q⟩, h⟩, g⟩, f⟩, e⟩, b⟩, a⟩, n⟩, m⟩, k⟩, j⟩, i⟩ _; rfl
  · rintro ⟨⟨⟨⟨⟨⟨⟨⟨⟨⟨⟨⟨⟨e, b⟩, m⟩, k⟩, j⟩, i⟩, q⟩, x⟩, h⟩, s⟩, f⟩, g⟩, n⟩, a⟩ _; rfl
  · rintro ⟨⟨⟨⟨⟨⟨⟨⟨⟨⟨⟨⟨⟨x, s⟩, q⟩, h⟩, g⟩, f⟩, e⟩, b⟩, a⟩, n⟩, m⟩, k⟩, j⟩, i⟩ _
    dsimp only
    ring

end CTL
