import Verif.Spec.Impurity
import Mathlib.RingTheory.PowerSeries.Derivative

/-! Marks on the sites of a lattice, counted with power series. -/

namespace CTL
variable {K : Type} [Field K] [CharZero K]

open PowerSeries Finset

/-- The exponential generating function. -/
noncomputable def egf (g : ℕ → K) : K⟦X⟧ := PowerSeries.mk fun n => g n / (n.factorial : K)

theorem coeff_egf (g : ℕ → K) (n : ℕ) : coeff n (egf g) = g n / (n.factorial : K) := coeff_mk _ _

theorem egf_derivative (g : ℕ → K) : PowerSeries.derivative K (egf g) = egf fun n => g (n + 1) := by
  ext n
  rw [coeff_derivative, coeff_egf, coeff_egf, Nat.factorial_succ]
  have h1 : ((n : K) + 1) ≠ 0 := Nat.cast_add_one_ne_zero n
  have h2 : (n.factorial : K) ≠ 0 := Nat.cast_ne_zero.mpr n.factorial_ne_zero
  push_cast
  field_simp

theorem derivative_prod {S : Type} [DecidableEq S] (t : Finset S) (f : S → K⟦X⟧) :
    PowerSeries.derivative K (∏ i ∈ t, f i) = ∑ s ∈ t, ∏ i ∈ t, Function.update f s (PowerSeries.derivative K (f s)) i := by
  induction t using Finset.induction_on with
  | empty => simp
  | insert a t ha ih =>
    rw [prod_insert ha, Derivation.leibniz, ih, sum_insert ha, smul_eq_mul, smul_eq_mul, add_comm]
    congr 1
    · rw [prod_insert ha, Function.update_self, mul_comm]
      congr 1
      refine prod_congr rfl fun i hi => ?_
      rw [Function.update_of_ne (show i ≠ a from fun h => ha (h ▸ hi))]
    · rw [mul_sum]
      refine sum_congr rfl fun s hs => ?_
      rw [prod_insert ha, Function.update_of_ne (show a ≠ s from fun h => ha (h ▸ hs))]

theorem marksAt_cons {S : Type} [DecidableEq S] {k : Nat} (a : S) (f : Fin k → S) (s : S) :
    marksAt (Fin.cons a f : Fin (k + 1) → S) s = (if a = s then 1 else 0) + marksAt f s := by
  unfold marksAt
  rw [Finset.card_filter, Finset.card_filter, Fin.sum_univ_succ]
  simp

/-- The coefficients of a product of generating functions. -/
theorem coeff_prod_egf {S : Type} [Fintype S] [DecidableEq S] (k : ℕ) (g : S → ℕ → K) :
    (k.factorial : K) * coeff k (∏ s, egf (g s)) = ∑ f : Fin k → S, ∏ s, g s (marksAt f s) := by
  induction k generalizing g with
  | zero =>
    rw [Nat.factorial_zero, Nat.cast_one, one_mul, coeff_zero_eq_constantCoeff_apply, map_prod, Fintype.sum_unique]
    refine prod_congr rfl fun s _ => ?_
    rw [← coeff_zero_eq_constantCoeff_apply, coeff_egf]
    simp [marksAt]
  | succ k ih =>
    have e : ((k + 1).factorial : K) * coeff (k + 1) (∏ s, egf (g s)) =
        (k.factorial : K) * coeff k (PowerSeries.derivative K (∏ s, egf (g s))) := by
      rw [coeff_derivative, Nat.factorial_succ]
      push_cast
      ring
    rw [e, derivative_prod, map_sum, mul_sum]
    have h : ∀ s : S, (fun i => Function.update (fun s => egf (g s)) s (PowerSeries.derivative K (egf (g s))) i) =
        fun i => egf (Function.update g s (fun n => g s (n + 1)) i) := by
      intro s
      funext i
      by_cases hi : i = s
      · subst hi
        simp [egf_derivative]
      · simp [Function.update_of_ne hi]
    simp only [h, ih]
    rw [← Fintype.sum_prod_type']
    refine Fintype.sum_equiv (Fin.consEquiv fun _ => S) _ _ fun x => prod_congr rfl fun s _ => ?_
    obtain ⟨a, f⟩ := x
    show Function.update g a (fun n => g a (n + 1)) s (marksAt f s) = g s (marksAt (Fin.cons a f : Fin (k + 1) → S) s)
    rw [marksAt_cons]
    by_cases ha : a = s
    · subst ha
      rw [Function.update_self, if_pos rfl, Nat.add_comm]
    · rw [Function.update_of_ne (Ne.symm ha), if_neg ha, Nat.zero_add]

/-- The generating function of tensors. -/
noncomputable def egfSite (A : Nat → Nat → Nat → Nat → Nat → K) (u l d r : Nat) : K⟦X⟧ := egf fun k => A k u l d r

theorem coeff_torus_egf (rows cols V H : Nat) (A : Nat → Nat → Nat → Nat → Nat → K) (k : ℕ) :
    (k.factorial : K) * coeff k (torus rows cols V H (egfSite A)) = markedTorus rows cols V H A k := by
  unfold torus markedTorus torusOf egfSite
  rw [map_sum, mul_sum, sum_comm]
  refine sum_congr rfl fun v _ => ?_
  rw [map_sum, mul_sum, sum_comm]
  refine sum_congr rfl fun h _ => ?_
  simp only [← Fintype.prod_prod_type']
  exact coeff_prod_egf k fun (s : Fin rows × Fin cols) n => A n (v s.1 s.2) (h s.1 s.2) (v (around s.1) s.2) (h s.1 (around s.2))

end CTL
