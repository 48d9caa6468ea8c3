import Verif.Lemmas.Marks
import Verif.Lemmas.HOTRGExact
import Mathlib.RingTheory.Ideal.Quotient.Operations
import Mathlib.Algebra.BigOperators.Field
import Mathlib.Data.Nat.Choose.Cast

/-! Merging pairs of generating functions of tensors. -/

namespace CTL
variable {K : Type}

open PowerSeries

section
variable [Field K] [CharZero K]

theorem egf_mul (f g : ℕ → K) : egf f * egf g = egf fun k => ∑ j ∈ Finset.range (k + 1), (k.choose j : K) * (f j * g (k - j)) := by
  ext k
  rw [coeff_mul, coeff_egf, Finset.Nat.sum_antidiagonal_eq_sum_range_succ_mk, Finset.sum_div]
  refine Finset.sum_congr rfl fun j hj => ?_
  have hj : j ≤ k := Nat.lt_succ_iff.mp (Finset.mem_range.mp hj)
  have h1 : (k.factorial : K) ≠ 0 := Nat.cast_ne_zero.mpr k.factorial_ne_zero
  have h2 : (j.factorial : K) ≠ 0 := Nat.cast_ne_zero.mpr j.factorial_ne_zero
  have h3 : ((k - j).factorial : K) ≠ 0 := Nat.cast_ne_zero.mpr (k - j).factorial_ne_zero
  rw [coeff_egf, coeff_egf, Nat.cast_choose K hj]
  field_simp

theorem egf_sum {ι : Type} (S : Finset ι) (g : ι → ℕ → K) : ∑ i ∈ S, egf (g i) = egf fun k => ∑ i ∈ S, g i k := by
  ext k
  rw [map_sum, coeff_egf, Finset.sum_div]
  exact Finset.sum_congr rfl fun i _ => coeff_egf _ _

theorem egf_mul_C (g : ℕ → K) (c : K) : egf g * C c = egf fun k => g k * c := by
  ext k
  rw [coeff_mul_C, coeff_egf, coeff_egf]
  ring

theorem egf_rescale (g : ℕ → K) (c : K) : rescale c (egf g) = egf fun k => c ^ k * g k := by
  ext k
  rw [coeff_rescale, coeff_egf, coeff_egf]
  ring

end

theorem torus_map {R S : Type} [CommSemiring R] [CommSemiring S] (φ : R →+* S) (a b V H : Nat) (A : Nat → Nat → Nat → Nat → R) :
    torus a b V H (fun u l d r => φ (A u l d r)) = φ (torus a b V H A) := by
  unfold torus
  simp only [map_sum, map_prod]

/-- The orders of a pair: all ways to distribute the order over the two. -/
def pairOrders [Semiring K] (merge : (Nat → Nat → Nat → Nat → K) → (Nat → Nat → Nat → Nat → K) → Nat → Nat → Nat → Nat → K)
    (A : Nat → Nat → Nat → Nat → Nat → K) (k u l d r : Nat) : K :=
  ∑ j ∈ Finset.range (k + 1), (k.choose j : K) * merge (A j) (A (k - j)) u l d r

/-- The projector leaves the pair unchanged, at the left. -/
def KeptLeft [CommSemiring K] (V H k : Nat) (A B : Nat → Nat → Nat → Nat → K) (P : Nat → Nat → Nat → K) : Prop :=
  ∀ u < V, ∀ y1 < H, ∀ y2 < H, ∀ d < V, ∀ r1 < H, ∀ r2 < H,
    ∑ x1 ∈ Finset.range H, ∑ x2 ∈ Finset.range H, (∑ o ∈ Finset.range k, P x1 x2 o * P y1 y2 o) * pairN V A B u x1 x2 d r1 r2 =
      pairN V A B u y1 y2 d r1 r2

/-- At the right. -/
def KeptRight [CommSemiring K] (V H k : Nat) (A B : Nat → Nat → Nat → Nat → K) (P : Nat → Nat → Nat → K) : Prop :=
  ∀ u < V, ∀ l1 < H, ∀ l2 < H, ∀ d < V, ∀ x1 < H, ∀ x2 < H,
    ∑ y1 ∈ Finset.range H, ∑ y2 ∈ Finset.range H, (∑ o ∈ Finset.range k, P x1 x2 o * P y1 y2 o) * pairN V A B u l1 l2 d y1 y2 =
      pairN V A B u l1 l2 d x1 x2

section
variable [Field K] [CharZero K]

theorem pairN_egf (V : Nat) (A : Nat → Nat → Nat → Nat → Nat → K) (u x1 x2 d y1 y2 : Nat) :
    pairN V (egfSite A) (egfSite A) u x1 x2 d y1 y2 =
      egf fun k => ∑ j ∈ Finset.range (k + 1), (k.choose j : K) * pairN V (A j) (A (k - j)) u x1 x2 d y1 y2 := by
  unfold pairN egfSite
  simp only [egf_mul, egf_sum]
  congr 1
  funext k
  rw [Finset.sum_comm]
  exact Finset.sum_congr rfl fun j _ => by rw [Finset.mul_sum]

theorem projectedN_egf (V H : Nat) (A : Nat → Nat → Nat → Nat → Nat → K) (P : Nat → Nat → Nat → K) (u o d o' : Nat) :
    projectedN V H (egfSite A) (egfSite A) (fun x1 x2 o => C (P x1 x2 o)) u o d o' =
      egfSite (pairOrders (fun X Y => projectedN V H X Y P) A) u o d o' := by
  unfold projectedN pairOrders
  simp only [pairN_egf, egf_mul_C, egf_sum]
  unfold egfSite
  congr 1
  funext k
  simp only [Finset.mul_sum]
  refine Eq.trans ?_ Finset.sum_comm
  refine Finset.sum_congr rfl fun x1 _ => ?_
  refine Eq.trans ?_ Finset.sum_comm
  refine Finset.sum_congr rfl fun x2 _ => ?_
  refine Eq.trans ?_ Finset.sum_comm
  refine Finset.sum_congr rfl fun y1 _ => ?_
  refine Eq.trans ?_ Finset.sum_comm
  refine Finset.sum_congr rfl fun y2 _ => ?_
  rw [Finset.sum_mul, Finset.sum_mul]
  exact Finset.sum_congr rfl fun j _ => by ring

omit [CharZero K] in
/-- Equal up to the order `M`. -/
theorem mod_iff {M : ℕ} {f g : K⟦X⟧} : Ideal.Quotient.mk (Ideal.span {(X : K⟦X⟧) ^ M}) f = Ideal.Quotient.mk (Ideal.span {(X : K⟦X⟧) ^ M}) g ↔
    ∀ n < M, coeff n f = coeff n g := by
  rw [Ideal.Quotient.eq, Ideal.mem_span_singleton, X_pow_dvd_iff]
  simp only [map_sub, sub_eq_zero]

theorem torus_series {M V H k : Nat} {A : Nat → Nat → Nat → Nat → Nat → K} {P : Nat → Nat → Nat → K}
    (hk : (∀ i j, i + j < M → KeptLeft V H k (A i) (A j) P) ∨ (∀ i j, i + j < M → KeptRight V H k (A i) (A j) P)) (a b : Nat) :
    ∀ n < M, coeff n (torus a b V k (egfSite (pairOrders (fun X Y => projectedN V H X Y P) A))) = coeff n (torus (2 * a) b V H (egfSite A)) := by
  rw [← mod_iff, ← torus_map, ← torus_map]
  generalize hπ : Ideal.Quotient.mk (Ideal.span {(X : K⟦X⟧) ^ M}) = π
  have hs : ∀ u x1 x2 d y1 y2, stackedN V (fun u l d r => π (egfSite A u l d r)) u x1 x2 d y1 y2 =
      π (pairN V (egfSite A) (egfSite A) u x1 x2 d y1 y2) := by
    intro u x1 x2 d y1 y2
    unfold stackedN pairN
    simp only [map_sum, map_mul]
  refine torus_merged (P := fun x1 x2 o => π (C (P x1 x2 o))) ⟨fun u _ o _ d _ o' _ => ?_, ?_⟩ a b
  · rw [← projectedN_egf]
    unfold projectedN
    simp only [map_sum, map_mul, hs]
  · refine hk.imp (fun hk u hu y1 hy1 y2 hy2 d hd r1 hr1 r2 hr2 => ?_) fun hk u hu l1 hl1 l2 hl2 d hd x1 hx1 x2 hx2 => ?_
    · simp only [hs, ← map_mul, ← map_sum]
      subst hπ
      rw [mod_iff]
      intro n hn
      simp only [map_sum, ← Finset.sum_mul, ← map_mul]
      simp only [pairN_egf, ← map_sum, coeff_C_mul, coeff_egf]
      rw [← Finset.sum_congr rfl fun j hj => congrArg ((n.choose j : K) * ·)
        (hk j (n - j) (by have := Finset.mem_range.mp hj; omega) u hu y1 hy1 y2 hy2 d hd r1 hr1 r2 hr2)]
      simp only [Finset.mul_sum, Finset.sum_div]
      refine Eq.trans ?_ Finset.sum_comm
      refine Finset.sum_congr rfl fun x1 _ => ?_
      refine Eq.trans ?_ Finset.sum_comm
      refine Finset.sum_congr rfl fun x2 _ => ?_
      exact Finset.sum_congr rfl fun j _ => by ring
    · simp only [hs, ← map_mul, ← map_sum]
      subst hπ
      rw [mod_iff]
      intro n hn
      simp only [map_sum, ← Finset.sum_mul, ← map_mul]
      simp only [pairN_egf, ← map_sum, coeff_C_mul, coeff_egf]
      rw [← Finset.sum_congr rfl fun j hj => congrArg ((n.choose j : K) * ·)
        (hk j (n - j) (by have := Finset.mem_range.mp hj; omega) u hu l1 hl1 l2 hl2 d hd x1 hx1 x2 hx2)]
      simp only [Finset.mul_sum, Finset.sum_div]
      refine Eq.trans ?_ Finset.sum_comm
      refine Finset.sum_congr rfl fun y1 _ => ?_
      refine Eq.trans ?_ Finset.sum_comm
      refine Finset.sum_congr rfl fun y2 _ => ?_
      exact Finset.sum_congr rfl fun j _ => by ring

end

/-! ### The projector of `solveEnv` -/

section
variable [Field K] [LinearOrder K] {p : RGParams K}

theorem cut_kills {m : NDArray K} {n chi : Nat} (h : IsEigh m n (p.eigh m)) {Q : Nat → Prop}
    (hk : envKept p m chi ≠ 0 → ∀ i < (p.eigh m).1.length - envKept p m chi, Q i) : ∀ j < n - prjCols p m chi n, Q j := by
  intro j hj
  have hc : envKept p m chi ≠ 0 := by
    intro h0
    unfold prjCols at hj
    rw [if_pos h0] at hj
    omega
  refine hk hc j ?_
  unfold prjCols at hj
  rw [if_neg hc] at hj
  rwa [h.len]

theorem keptLeft_of {V H : Nat} {A B : Nat → Nat → Nat → Nat → K} {m : NDArray K} {chi : Nat} (h : IsEigh m (H * H) (p.eigh m))
    (hk : ∀ j < H * H - prjCols p m chi (H * H), KillsLeft V H A B fun x => (p.eigh m).2.get [x, j]) :
    KeptLeft V H (prjCols p m chi (H * H)) A B (prjAt H (solveEnv p m chi).1) := by
  intro u hu y1 hy1 y2 hy2 d hd r1 hr1 r2 hr2
  have hy : y1 * H + y2 < H * H := by nlinarith
  have key := solveEnv_fixes h (fun x => pairN V A B u (x / H) (x % H) d r1 r2) (fun j hj => hk j hj u hu d hd r1 hr1 r2 hr2) (y1 * H + y2) hy
  rw [show (y1 * H + y2) / H = y1 by rw [Nat.add_comm, Nat.add_mul_div_right _ _ (by omega), Nat.div_eq_of_lt hy2, Nat.zero_add],
    show (y1 * H + y2) % H = y2 by rw [Nat.add_comm, Nat.add_mul_mod_self_right, Nat.mod_eq_of_lt hy2]] at key
  rw [← key, ← sum_pairs H fun x1 x2 => (∑ o ∈ Finset.range (prjCols p m chi (H * H)),
        prjAt H (solveEnv p m chi).1 x1 x2 o * prjAt H (solveEnv p m chi).1 y1 y2 o) * pairN V A B u x1 x2 d r1 r2]
  refine Finset.sum_congr rfl fun x _ => ?_
  unfold prjAt
  rw [Nat.div_add_mod']

theorem keptRight_of {V H : Nat} {A B : Nat → Nat → Nat → Nat → K} {m : NDArray K} {chi : Nat} (h : IsEigh m (H * H) (p.eigh m))
    (hk : ∀ j < H * H - prjCols p m chi (H * H), KillsRight V H A B fun x => (p.eigh m).2.get [x, j]) :
    KeptRight V H (prjCols p m chi (H * H)) A B (prjAt H (solveEnv p m chi).1) := by
  intro u hu l1 hl1 l2 hl2 d hd y1 hy1 y2 hy2
  have hy : y1 * H + y2 < H * H := by nlinarith
  have key := solveEnv_fixes h (fun x => pairN V A B u l1 l2 d (x / H) (x % H)) (fun j hj => hk j hj u hu d hd l1 hl1 l2 hl2) (y1 * H + y2) hy
  rw [show (y1 * H + y2) / H = y1 by rw [Nat.add_comm, Nat.add_mul_div_right _ _ (by omega), Nat.div_eq_of_lt hy2, Nat.zero_add],
    show (y1 * H + y2) % H = y2 by rw [Nat.add_comm, Nat.add_mul_mod_self_right, Nat.mod_eq_of_lt hy2]] at key
  rw [← key, ← sum_pairs H fun x1 x2 => (∑ o ∈ Finset.range (prjCols p m chi (H * H)),
        prjAt H (solveEnv p m chi).1 y1 y2 o * prjAt H (solveEnv p m chi).1 x1 x2 o) * pairN V A B u l1 l2 d x1 x2]
  refine Finset.sum_congr rfl fun x _ => ?_
  unfold prjAt
  rw [Nat.div_add_mod']
  congr 1
  exact Finset.sum_congr rfl fun o _ => mul_comm _ _

/-- A step of the impurities. -/
theorem torus_merge_orders [CharZero K] {M V H : Nat} {A : Nat → Nat → Nat → Nat → Nat → K} {m : NDArray K} {chi : Nat} {d : RGDir}
    (h : IsEigh m (envSize V H d) (p.eigh m)) (hk : ∀ i j, i + j < M → KeepsPair p m chi V H (A i) (A j) d) (a b : Nat) :
    ∀ n < M, coeff n (torus a b (mergedV V (prjCols p m chi (envSize V H d)) d) (mergedH H (prjCols p m chi (envSize V H d)) d)
      (egfSite (pairOrders (fun X Y => mergedSite V H X Y (solveEnv p m chi).1 d) A))) =
      coeff n (torus (rowFactor d * a) (colFactor d * b) V H (egfSite A)) := by
  have hk' := fun i j hij => cut_kills h (hk i j hij)
  cases d with
  | l =>
    simp only [mergedV, mergedH, mergedSite, rowFactor, colFactor, RGDir.horizontal, if_true, one_mul]
    exact torus_series (Or.inl fun i j hij => keptLeft_of h (hk' i j hij)) a b
  | r =>
    simp only [mergedV, mergedH, mergedSite, rowFactor, colFactor, RGDir.horizontal, if_true, one_mul]
    exact torus_series (Or.inr fun i j hij => keptRight_of h (hk' i j hij)) a b
  | u =>
    simp only [mergedV, mergedH, mergedSite, rowFactor, colFactor, RGDir.horizontal, Bool.false_eq_true, if_false]
    intro n hn
    rw [torus_transpose, torus_transpose (1 * a)]
    have key := torus_series (A := fun i => flipped (A i)) (Or.inl fun i j hij => keptLeft_of h (hk' i j hij)) b a n hn
    have e : (fun l u r d => egfSite (pairOrders (fun X Y => flipped (projectedN H V (flipped X) (flipped Y) (prjAt V (solveEnv p m chi).1))) A) u l d r) =
        egfSite (pairOrders (fun X Y => projectedN H V X Y (prjAt V (solveEnv p m chi).1)) fun i => flipped (A i)) := by
      funext l u r d
      simp only [egfSite, pairOrders, flipped]
    have e' : (fun l u r d => egfSite A u l d r) = egfSite fun i => flipped (A i) := by
      funext l u r d
      simp only [egfSite, flipped]
    rw [e, e', one_mul]
    exact key
  | d =>
    simp only [mergedV, mergedH, mergedSite, rowFactor, colFactor, RGDir.horizontal, Bool.false_eq_true, if_false]
    intro n hn
    rw [torus_transpose, torus_transpose (1 * a)]
    have key := torus_series (A := fun i => flipped (A i)) (Or.inr fun i j hij => keptRight_of h (hk' i j hij)) b a n hn
    have e : (fun l u r d => egfSite (pairOrders (fun X Y => flipped (projectedN H V (flipped X) (flipped Y) (prjAt V (solveEnv p m chi).1))) A) u l d r) =
        egfSite (pairOrders (fun X Y => projectedN H V X Y (prjAt V (solveEnv p m chi).1)) fun i => flipped (A i)) := by
      funext l u r d
      simp only [egfSite, pairOrders, flipped]
    have e' : (fun l u r d => egfSite A u l d r) = egfSite fun i => flipped (A i) := by
      funext l u r d
      simp only [egfSite, flipped]
    rw [e, e', one_mul]
    exact key

end

end CTL
