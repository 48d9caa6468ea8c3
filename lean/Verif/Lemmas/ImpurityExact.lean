import Verif.Lemmas.ImpurityRun

/-! The marked tori over the steps of the impurities. -/

namespace CTL
variable {K : Type}

open Finset (range)

/-! ### Marked tori -/

theorem marksAt_le {S : Type} [DecidableEq S] {k : Nat} (f : Fin k → S) (s : S) : marksAt f s ≤ k := by
  unfold marksAt
  exact (Finset.card_filter_le _ _).trans (by simp)

section
variable [CommSemiring K]

theorem markedTorus_congr {rows cols V H k : Nat} {A B : Nat → Nat → Nat → Nat → Nat → K}
    (h : ∀ j ≤ k, ∀ u < V, ∀ l < H, ∀ d < V, ∀ r < H, A j u l d r = B j u l d r) : markedTorus rows cols V H A k = markedTorus rows cols V H B k := by
  unfold markedTorus torusOf
  refine Finset.sum_congr rfl fun f _ => Finset.sum_congr rfl fun v _ => Finset.sum_congr rfl fun h' _ => Finset.prod_congr rfl fun i _ =>
    Finset.prod_congr rfl fun j _ => h _ (marksAt_le f _) _ (Fin.isLt _) _ (Fin.isLt _) _ (Fin.isLt _) _ (Fin.isLt _)

theorem markedTorus_scale (rows cols V H k : Nat) (c : K) (A : Nat → Nat → Nat → Nat → Nat → K) :
    markedTorus rows cols V H (fun j u l d r => c * A j u l d r) k = c ^ (rows * cols) * markedTorus rows cols V H A k := by
  unfold markedTorus torusOf
  simp only [Finset.mul_sum]
  refine Finset.sum_congr rfl fun f _ => Finset.sum_congr rfl fun v _ => Finset.sum_congr rfl fun h _ => ?_
  simp only [Finset.prod_mul_distrib, Finset.prod_const, Finset.card_univ, Fintype.card_fin]
  rw [← pow_mul, Nat.mul_comm]

/-- No marks. -/
theorem markedTorus_zero (rows cols V H : Nat) (A : Nat → Nat → Nat → Nat → Nat → K) :
    markedTorus rows cols V H A 0 = torus rows cols V H (A 0) := by
  unfold markedTorus
  rw [Fintype.sum_unique]
  unfold torusOf torus marksAt
  simp

/-- One site. -/
theorem markedTorus_site (V H k : Nat) (A : Nat → Nat → Nat → Nat → Nat → K) : markedTorus 1 1 V H A k = torus 1 1 V H (A k) := by
  unfold markedTorus
  rw [Fintype.sum_subsingleton _ (fun _ => (0, 0) : Fin k → Fin 1 × Fin 1)]
  unfold torusOf torus
  refine Finset.sum_congr rfl fun v _ => Finset.sum_congr rfl fun h' _ => Finset.prod_congr rfl fun i _ => Finset.prod_congr rfl fun j _ => ?_
  have : marksAt (fun _ => (0, 0) : Fin k → Fin 1 × Fin 1) (i, j) = k := by
    unfold marksAt
    rw [Finset.filter_true_of_mem fun m _ => Subsingleton.elim _ _]
    simp
  simp only [this]

/-- One mark. -/
theorem markedTorus_one (rows cols V H : Nat) (A : Nat → Nat → Nat → Nat → Nat → K) :
    markedTorus rows cols V H A 1 = torusOneOf rows cols V H (A 0) (A 1) := by
  unfold markedTorus torusOneOf
  rw [← Fintype.sum_prod_type']
  refine Fintype.sum_equiv (Equiv.funUnique (Fin 1) _) _ _ fun f => ?_
  congr 1
  funext i' j'
  have : marksAt f (i', j') = if i' = (f 0).1 ∧ j' = (f 0).2 then 1 else 0 := by
    unfold marksAt
    by_cases h : f 0 = (i', j')
    · rw [Finset.filter_true_of_mem fun m _ => by rw [Subsingleton.elim m 0, h], if_pos (by rw [h]; exact ⟨rfl, rfl⟩)]
      simp
    · rw [Finset.filter_false_of_mem fun m _ => by rw [Subsingleton.elim m 0]; exact h, if_neg fun e => h (Prod.ext e.1.symm e.2.symm)]
      simp
  rw [this]
  show A (if i' = (f 0).1 ∧ j' = (f 0).2 then 1 else 0) = if i' = (f 0).1 ∧ j' = (f 0).2 then A 1 else A 0
  split <;> rfl

end

section
variable [Field K] [CharZero K]

theorem markedTorus_weight (rows cols V H k : Nat) (x : K) (A : Nat → Nat → Nat → Nat → Nat → K) :
    markedTorus rows cols V H (fun j u l d r => x ^ j * A j u l d r) k = x ^ k * markedTorus rows cols V H A k := by
  rw [← coeff_torus_egf, ← coeff_torus_egf]
  have : egfSite (fun j u l d r => x ^ j * A j u l d r) = fun u l d r => PowerSeries.rescale x (egfSite A u l d r) := by
    funext u l d r
    exact (egf_rescale _ _).symm
  rw [this, torus_map, PowerSeries.coeff_rescale]
  ring

variable [LinearOrder K] {p : RGParams K}

theorem markedTorus_merge {M V H : Nat} {A : Nat → Nat → Nat → Nat → Nat → K} {m : NDArray K} {chi : Nat} {d : RGDir}
    (h : IsEigh m (envSize V H d) (p.eigh m)) (hk : ∀ i j, i + j < M → KeepsPair p m chi V H (A i) (A j) d) (a b : Nat) {n : Nat} (hn : n < M) :
    markedTorus a b (mergedV V (prjCols p m chi (envSize V H d)) d) (mergedH H (prjCols p m chi (envSize V H d)) d)
      (pairOrders (fun X Y => mergedSite V H X Y (solveEnv p m chi).1 d) A) n =
      markedTorus (rowFactor d * a) (colFactor d * b) V H A n := by
  rw [← coeff_torus_egf, ← coeff_torus_egf, torus_merge_orders h hk a b n hn]

end

/-! ### The archives -/

section
variable [Field K] [LinearOrder K] [Star K] [IsStrictOrderedRing K] {p : RGParams K} {V H : Nat} {A : Nat → Nat → Nat → Nat → K}
  {src : ImpSource K} {s : HOTRGState K} {net : ImpurityNet K}

omit [LinearOrder K] [Star K] [IsStrictOrderedRing K] in
theorem scale_step (norms : List K) {i : Nat} {c : K} (hc : norms[i + 1]? = some c) (d : RGDir) (a b : Nat) :
    totalScale (norms.take (i + 1 + 1)) ^ (a * b) = totalScale (norms.take (i + 1)) ^ (rowFactor d * a * (colFactor d * b)) * c ^ (a * b) := by
  rw [List.take_add_one, hc, Option.toList, totalScale_append, mul_pow, ← pow_mul]
  congr 2
  unfold rowFactor colFactor
  split <;> ring

theorem rgExact (he : ExactEigh p.eigh) (R : RGInv p V H A s) {m : Nat} (h0 : ∀ c ∈ s.aNorms.take (m + 1), c ≠ 0) (hm : m ≤ s.directChoices.length)
    (hl : ∀ i < m, ∀ d, s.directChoices[i]? = some d → Lossless p (s.envAt i d) (s.chi d)) : ∀ i ≤ m, ∀ a b,
    totalScale (s.aNorms.take (i + 1)) ^ (a * b) * torus a b (s.dimV i) (s.dimH i) (s.siteAt i) =
      torus (2 ^ rowSteps (s.directChoices.take i) * a) (2 ^ colSteps (s.directChoices.take i) * b) V H A
  | 0, _, a, b => by
    obtain ⟨c, hc⟩ : ∃ c, s.aNorms[0]? = some c := ⟨_, List.getElem?_eq_getElem (by rw [R.norms]; omega)⟩
    have hc0 := h0 c (List.mem_iff_getElem?.mpr ⟨0, by rw [List.getElem?_take_of_lt (by omega), hc]⟩)
    have e : totalScale (s.aNorms.take (0 + 1)) = c := by
      rw [List.take_add_one, hc]
      simp [totalScale]
    rw [e, R.v, R.h, ← torus_scale]
    simp only [List.take_zero, rowSteps, colSteps, List.countP_nil, pow_zero, one_mul]
    refine torus_congr _ _ _ _ fun u _ l _ d' _ r _ => ?_
    rw [R.first c hc, mul_div_cancel₀ _ hc0]
  | i + 1, hi, a, b => by
    obtain ⟨d, c, S⟩ := R.step i (by omega)
    have hc0 := h0 c (List.mem_iff_getElem?.mpr ⟨i + 1, by rw [List.getElem?_take_of_lt (by omega), S.norm]⟩)
    have ih := rgExact he R h0 hm hl i (by omega) (rowFactor d * a) (colFactor d * b)
    rw [scale_step _ S.norm d, List.take_add_one (l := s.directChoices), S.choice, Option.toList, rowSteps_append, colSteps_append, mul_assoc (2 ^ rowSteps _),
      mul_assoc (2 ^ colSteps _), ← ih, mul_assoc]
    congr 1
    rw [← torus_scale]
    have key := torus_mergedSite he (s.dimV i) (s.dimH i) (s.siteAt i) d (hl i (by omega) d S.choice) a b
    refine Eq.trans ?_ key
    rw [S.v, S.h]
    refine torus_congr _ _ _ _ fun u hu l hl' d' hd' r hr => ?_
    rw [← HOTRGState.envAt, S.val u (S.v ▸ hu) l (S.h ▸ hl') d' (S.v ▸ hd') r (S.h ▸ hr), mul_div_cancel₀ _ hc0]

/-- A norm is 0 only if a partition function is. -/
theorem norms_pos (he : ExactEigh p.eigh) (R : RGInv p V H A s) (ht : TriangleTRGState.TrueNorm p.norm) {m : Nat} (hm : m ≤ s.directChoices.length)
    (hl : ∀ i < m, ∀ d, s.directChoices[i]? = some d → Lossless p (s.envAt i d) (s.chi d))
    (hZ : ∀ i ≤ m, torus (2 ^ rowSteps (s.directChoices.take i)) (2 ^ colSteps (s.directChoices.take i)) V H A ≠ 0) :
    ∀ i ≤ m, ∀ c, s.aNorms[i]? = some c → 0 < c := by
  intro i
  induction i using Nat.strong_induction_on with
  | _ i ih =>
    intro hi c hc
    cases i with
    | zero =>
      obtain ⟨h1, h2⟩ := R.zero ht c hc
      refine lt_of_le_of_ne h1 fun e => hZ 0 hi ?_
      rw [List.take_zero]
      show torus (2 ^ 0) (2 ^ 0) V H A = 0
      rw [pow_zero, torus_one]
      exact Finset.sum_eq_zero fun _ _ => Finset.sum_eq_zero fun _ _ => h2 e.symm _ _ _ _
    | succ i =>
      obtain ⟨d, c', S⟩ := R.step i (by omega)
      obtain rfl := Option.some.inj (S.norm.symm.trans hc)
      obtain ⟨h1, h2⟩ := S.zero ht
      refine lt_of_le_of_ne h1 fun e => hZ (i + 1) hi ?_
      have hE := rgExact he R (m := i) (fun c hc => by
        obtain ⟨j, hj⟩ := List.mem_iff_getElem?.mp hc
        have hji : j < i + 1 := by
          have := (List.getElem?_eq_some_iff.mp hj).1
          rw [List.length_take] at this
          omega
        rw [List.getElem?_take_of_lt hji] at hj
        exact (ih j hji (by omega) c hj).ne') (by omega) (fun j hj => hl j (by omega)) i le_rfl (rowFactor d) (colFactor d)
      rw [List.take_add_one (l := s.directChoices), S.choice, Option.toList, rowSteps_append, colSteps_append, ← hE]
      have key := torus_mergedSite he (s.dimV i) (s.dimH i) (s.siteAt i) d (hl i (by omega) d S.choice) 1 1
      rw [mul_one, mul_one] at key
      rw [← key, torus_one]
      refine mul_eq_zero_of_right _ (Finset.sum_eq_zero fun x hx => Finset.sum_eq_zero fun y hy => ?_)
      have hx := Finset.mem_range.mp hx
      have hy := Finset.mem_range.mp hy
      change x < mergedV (s.dimV i) (prjCols p (s.envAt i d) (s.chi d) _) d at hx
      change y < mergedH (s.dimH i) (prjCols p (s.envAt i d) (s.chi d) _) d at hy
      rw [← S.v] at hx
      rw [← S.h] at hy
      exact h2 e.symm x hx y hy x hx y hy

theorem impExact (he : ExactEigh p.eigh) (R : RGInv p V H A s) (I : ImpActive s src net) (h0 : ∀ c ∈ s.aNorms, c ≠ 0)
    (hk : ∀ i < net.iterateIdx, ∀ d, s.directChoices[i]? = some d → ∀ j l, j + l < src.order →
      KeepsPair p (s.envAt i d) (s.chi d) (s.dimV i) (s.dimH i) (net.siteAt s.st i j) (net.siteAt s.st i l) d) :
    ∀ i ≤ net.iterateIdx, ∀ k < src.order, ∀ a b,
    totalScale (s.aNorms.take (i + 1)) ^ (a * b) * markedTorus a b (s.dimV i) (s.dimH i) (net.siteAt s.st i) k =
      (1 / 2 ^ i) ^ k * markedTorus (2 ^ rowSteps (s.directChoices.take i) * a) (2 ^ colSteps (s.directChoices.take i) * b) V H src.A k
  | 0, _, k, hk0, a, b => by
    obtain ⟨c, hc⟩ : ∃ c, s.aNorms[0]? = some c := ⟨_, List.getElem?_eq_getElem (by rw [R.norms]; omega)⟩
    have hc0 := h0 c (List.mem_of_getElem? hc)
    have e : totalScale (s.aNorms.take (0 + 1)) = c := by
      rw [List.take_add_one, hc]
      simp [totalScale]
    rw [e, R.v, R.h, ← markedTorus_scale]
    simp only [List.take_zero, rowSteps, colSteps, List.countP_nil, pow_zero, one_mul, div_one, one_pow]
    refine markedTorus_congr fun j hj u _ l _ d' _ r _ => ?_
    rw [I.first c hc j (by omega), mul_div_cancel₀ _ hc0]
  | i + 1, hi, k, hk0, a, b => by
    have hidx := I.idx
    obtain ⟨d, c, S⟩ := R.step i (by omega)
    have hc0 := h0 c (List.mem_of_getElem? S.norm)
    have ih := impExact he R I h0 hk i (by omega) k hk0 (rowFactor d * a) (colFactor d * b)
    rw [scale_step _ S.norm d, List.take_add_one (l := s.directChoices), S.choice, Option.toList, rowSteps_append, colSteps_append, mul_assoc (2 ^ rowSteps _),
      mul_assoc (2 ^ colSteps _)]
    have e2 : (1 / 2 ^ (i + 1) : K) ^ k = (1 / 2) ^ k * (1 / 2 ^ i) ^ k := by
      rw [← mul_pow, one_div_mul_one_div, pow_succ']
    rw [e2, mul_assoc ((1 / 2 : K) ^ k), ← ih]
    have hE := envMatrix_eigh he (s.dimV i) (s.dimH i) (s.siteAt i) d
    rw [← markedTorus_merge hE (hk i (by omega) d S.choice) a b hk0, mul_assoc, ← markedTorus_scale]
    have e3 := markedTorus_weight a b (mergedV (s.dimV i) (prjCols p (s.envAt i d) (s.chi d) (envSize (s.dimV i) (s.dimH i) d)) d)
      (mergedH (s.dimH i) (prjCols p (s.envAt i d) (s.chi d) (envSize (s.dimV i) (s.dimH i) d)) d) k (1 / 2 : K)
      (pairOrders (fun X Y => mergedSite (s.dimV i) (s.dimH i) X Y (solveEnv p (s.envAt i d) (s.chi d)).1 d) (net.siteAt s.st i))
    rw [mul_left_comm ((1 / 2 : K) ^ k)]
    congr 1
    refine Eq.trans ?_ e3
    rw [S.v, S.h]
    refine markedTorus_congr fun j hj u hu l hl' d' hd' r hr => ?_
    rw [I.step i (by omega) d _ c S.choice S.projector S.norm j (by omega) u (S.v ▸ hu) l (S.h ▸ hl') d' (S.v ▸ hd') r (S.h ▸ hr),
      mul_div_cancel₀ _ hc0]

end

/-! ### `measureObservables` -/

section
variable [Field K] [LinearOrder K] [Star K] {p : RGParams K} {V H : Nat} {A : Nat → Nat → Nat → Nat → K} {s : HOTRGState K}

/-- The trace of a tensor. -/
theorem tensorTrace_ok {t : Tensor K} (q : SquareSite s.st t) : s.tensorTrace t = .ok (torus 1 1 (t.dimOf s.st "u") (t.dimOf s.st "l") (t.site s.st)) := by
  rw [torus_one]
  exact C49_squareTrace q.labels q.v q.h

theorem pureTrace_ok (R : RGInv p V H A s) {i : Nat} (hi : i ≤ s.directChoices.length) :
    s.pureTensorTrace i = .ok (torus 1 1 (s.dimV i) (s.dimH i) (s.siteAt i)) := by
  obtain ⟨x, hx⟩ : ∃ x, s.aArchive[i]? = some x := ⟨_, List.getElem?_eq_getElem (by rw [R.archive]; omega)⟩
  have q := R.sites x (List.mem_of_getElem? hx)
  unfold HOTRGState.pureTensorTrace
  have : pyGet s.aArchive i = .ok x := pyGet_of_getElem? hx
  simp only [this, bind, Except.bind]
  unfold HOTRGState.dimV HOTRGState.dimH HOTRGState.siteAt
  rw [hx]
  exact tensorTrace_ok q

theorem measure_ok {V' H' i : Nat} {z : K} (hz : s.pureTensorTrace i = .ok z) : ∀ (cs : List (DofTensor K)), Sites s.st V' H' cs →
    ∃ xs, ImpurityNet.measure s i cs = .ok xs ∧ xs.length = cs.length ∧
      ∀ k < cs.length, xs[k]? = some (torus 1 1 V' H' (siteOf s.st cs k) / z)
  | [], _ => ⟨[], rfl, rfl, fun k hk => absurd hk (Nat.not_lt_zero k)⟩
  | t :: cs, hs => by
    obtain ⟨xs, e, l, v⟩ := measure_ok hz cs fun x hx => hs x (List.mem_cons_of_mem _ hx)
    have ht := hs t List.mem_cons_self
    refine ⟨torus 1 1 V' H' (t.1.site s.st) / z :: xs, ?_, by simp [l], fun k hk => ?_⟩
    · unfold ImpurityNet.measure
      simp only [tensorTrace_ok ht.1, ht.2.1, ht.2.2, hz, e, bind, Except.bind, pure, Except.pure]
    · cases k with
      | zero => rfl
      | succ k => exact v k (by simpa using hk)

theorem measureFrom_ok (dimV dimH : Nat → Nat) (z : Nat → K) : ∀ (i0 : Nat) (css : List (List (DofTensor K))),
    (∀ i cs, css[i]? = some cs → Sites s.st (dimV (i0 + i)) (dimH (i0 + i)) cs ∧ s.pureTensorTrace (i0 + i) = .ok (z (i0 + i))) →
    ∃ xss, ImpurityNet.measureFrom s i0 css = .ok xss ∧ xss.length = css.length ∧
      ∀ i cs, css[i]? = some cs → ∃ xs, xss[i]? = some xs ∧ xs.length = cs.length ∧
        ∀ k < cs.length, xs[k]? = some (torus 1 1 (dimV (i0 + i)) (dimH (i0 + i)) (siteOf s.st cs k) / z (i0 + i))
  | _, [], _ => ⟨[], rfl, rfl, fun i cs h => by simp at h⟩
  | i0, cs :: css, h => by
    obtain ⟨h1, h2⟩ := h 0 cs rfl
    obtain ⟨xs, e, l, v⟩ := measure_ok (i := i0) h2 cs h1
    obtain ⟨xss, e', l', v'⟩ := measureFrom_ok dimV dimH z (i0 + 1) css fun i cs hi => by
      have := h (i + 1) cs hi
      rw [show i0 + (i + 1) = i0 + 1 + i by omega] at this
      exact this
    refine ⟨xs :: xss, ?_, by simp [l'], fun i cs' hi => ?_⟩
    · unfold ImpurityNet.measureFrom
      simp only [e, e', bind, Except.bind, pure, Except.pure]
    · cases i with
      | zero =>
        obtain rfl := Option.some.inj hi
        exact ⟨xs, rfl, l, v⟩
      | succ i =>
        rw [show i0 + (i + 1) = i0 + 1 + i by omega]
        exact v' i cs' hi

end

end CTL
