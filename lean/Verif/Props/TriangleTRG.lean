import Verif.Lemmas.TriangleExact
import Verif.Lemmas.SvdExists
import Mathlib.Analysis.SpecialFunctions.Log.Basic

/-! C53: `TriangleTRG` computes the partition function of dimers on a lattice of hexagons; its `logZDensity` does not give the density. -/

namespace CTL
variable {K : Type}

open Finset (range)

section
variable [Field K] [LinearOrder K] [Star K] {p : RGParams K} {la : LinAlg K}

/-- C53: the constructor makes the two tensors of a site, divides by the norm and archives the result. -/
theorem C53_new {st : Store} (wf : WFStore st) (alpha : K) (chi : Nat) :
    ∃ s, TriangleTRGState.new p st alpha chi = .ok s ∧ TriangleTRGState.Good p s ∧ TriangleTRGState.Started p st alpha chi s :=
  TriangleTRGState.new_ok wf alpha chi

variable [TrivialStar K]

/-- C53: every call of `iterate` succeeds, and does what `Iterated` says: the two factors of the joined sites, each three times around
a triangle, divided by the norm, and everything recorded. -/
theorem C53_iterate (hla : ExactLinAlg la) {s : TriangleTRGState K} (g : TriangleTRGState.Good p s) (hchi : 0 < s.chi) :
    ∃ s', Settles (fun fuel => s.iterate p la fuel) s' ∧ TriangleTRGState.Good p s' ∧ TriangleTRGState.Iterated p la s s' :=
  TriangleTRGState.iterate_settles hla g hchi

/-- C53: any number of calls succeeds. -/
theorem C53_run (hla : ExactLinAlg la) {s0 : TriangleTRGState K} (g : TriangleTRGState.Good p s0) (hchi : 0 < s0.chi) (n : Nat) :
    ∃ s, TriangleTRGState.Ran p la s0 n s ∧ TriangleTRGState.Good p s := by
  obtain ⟨s, r, g1, -⟩ := TriangleTRGState.run_exists hla g hchi n
  exact ⟨s, r, g1⟩

variable [IsStrictOrderedRing K]

/-- C53: if no step has cut off singular values other than 0, then no norm is 0, and the trace of the archived tensors number `i`, times
the factor taken out by the normalizations, is the partition function of dimers on the lattice number `i`. -/
theorem C53_exact (hla : ExactLinAlg la) (hn : TriangleTRGState.TrueNorm p.norm) {st : Store} {alpha : K} {chi : Nat}
    {s0 : TriangleTRGState K} (g : TriangleTRGState.Good p s0) (S : TriangleTRGState.Started p st alpha chi s0) (hchi : 0 < chi) {n : Nat}
    {s : TriangleTRGState K} (h : TriangleTRGState.Ran p la s0 n s)
    (hl : ∀ i < n, ∀ s1, TriangleTRGState.Ran p la s0 i s1 → LosslessSVD la s1.mat s1.chi) :
    s.aArchive.length = n + 1 ∧ s.bArchive.length = n + 1 ∧ s.aNorms.length = n + 1 ∧ s.bNorms.length = n + 1 ∧ s.errors.length = n ∧
      (∀ c ∈ s.aNorms ++ s.bNorms, 0 < c) ∧
      ∀ i ≤ n, ∃ c d st' t x, s.aArchive[i]? = some (c, 3 ^ i) ∧ s.bArchive[i]? = some (d, 3 ^ i) ∧
        triangleTensorTrace p.rand p.cast s.st c d = .ok (st', t) ∧ t.single st' = .ok x ∧
        triScale (s.norms.take (i + 1)) * x = (Honey.grown i).dimers (alpha * alpha) := by
  have P0 := S.norms_pos hn
  obtain ⟨C, P⟩ := h.coarse_pos hla hn g (S.chi ▸ hchi) (S.coarse fun c hc => (P0 c hc).ne') P0 hl
  have gs : WFStore s.st := by
    obtain ⟨s1, r1, g1, -⟩ := TriangleTRGState.run_exists hla g (S.chi ▸ hchi) n
    obtain rfl := Settles.unique h r1
    exact g1.wf
  refine ⟨C.aArchive, C.bArchive, C.aNorms, C.bNorms, C.errors, P, fun i hi => ?_⟩
  obtain ⟨⟨c, k⟩, e1⟩ : ∃ y, s.aArchive[i]? = some y := ⟨_, List.getElem?_eq_getElem (by rw [C.aArchive]; omega)⟩
  obtain ⟨⟨d, m⟩, e2⟩ : ∃ y, s.bArchive[i]? = some y := ⟨_, List.getElem?_eq_getElem (by rw [C.bArchive]; omega)⟩
  obtain ⟨k1, k2, D, q1, q2, E⟩ := C.all i c k d m e1 e2
  obtain ⟨st', t, e3, e4, -, -⟩ := TriangleTRGState.trace_ok (p := p) gs q1 q2
  refine ⟨c, d, st', t, _, k1 ▸ e1, k2 ▸ e2, e3, e4, ?_⟩
  have := E Honey.point
  rw [Honey.card_point, pow_one, Honey.Z_dimers] at this
  exact this

/-- C53: nothing is cut off when `chi` is large enough. -/
theorem C53_exact_size (hla : ExactLinAlg la) {st : Store} {alpha : K} {chi : Nat} {s0 : TriangleTRGState K} (g : TriangleTRGState.Good p s0)
    (S : TriangleTRGState.Started p st alpha chi s0) {n : Nat} (hchi : 4 ^ 2 ^ (n - 1) ≤ chi) :
    ∀ i < n, ∀ s1, TriangleTRGState.Ran p la s0 i s1 → LosslessSVD la s1.mat s1.chi := by
  intro i hi s1 r1
  have pos : 0 < chi := lt_of_lt_of_le (Nat.pow_pos (by decide)) hchi
  obtain ⟨c1, b1⟩ := r1.size hla g (S.chi ▸ pos)
  rw [S.dim] at b1
  refine lossless_of_size hla (NDArray.build_wf _ _) rfl ?_
  rw [c1, S.chi]
  exact b1.trans (le_trans (Nat.pow_le_pow_right (by decide) (Nat.pow_le_pow_right (by decide) (by omega))) hchi)

/-- C53: nothing has been cut off when all recorded errors are 0. -/
theorem C53_exact_errors (hla : ExactLinAlg la) {st : Store} {alpha : K} {chi : Nat} {s0 : TriangleTRGState K} (g : TriangleTRGState.Good p s0)
    (S : TriangleTRGState.Started p st alpha chi s0) (hchi : 0 < chi) {n : Nat} {s : TriangleTRGState K} (h : TriangleTRGState.Ran p la s0 n s)
    (herr : ∀ e ∈ s.errors, e = 0) :
    ∀ i < n, ∀ s1, TriangleTRGState.Ran p la s0 i s1 → LosslessSVD la s1.mat s1.chi := by
  intro i hi s1 r1
  obtain ⟨-, hr⟩ := TriangleTRGState.Ran.errors hla g (S.chi ▸ hchi) S.empty h
  obtain ⟨s2, r2, -, e⟩ := hr i hi
  obtain rfl := Settles.unique r1 r2
  exact lossless_of_share (herr _ (List.mem_of_getElem? e))

omit [TrivialStar K] [Star K] [IsStrictOrderedRing K] [LinearOrder K] [Field K] in
/-- C53: the lattice number `i` has `3 ^ i` sites of each kind, is connected, and all its faces are hexagons but three, which have two
bonds. -/
theorem C53_lattice (i : Nat) : Fintype.card (Honey.grown i).S = 3 ^ i ∧ (Honey.grown i).Connected ∧
    (∀ c d s, (Honey.grown i).face c d ((Honey.grown i).face c d ((Honey.grown i).face c d s)) = s) ∧
    (Honey.grown i).bigons 0 1 + (Honey.grown i).bigons 0 2 + (Honey.grown i).bigons 1 2 = 3 :=
  ⟨Honey.card_grown i, Honey.grown_connected i, Honey.grown_hexagonal i, Honey.grown_bigons i⟩

/-- C53: entry `i` of `logZDensity`. -/
theorem C53_logZ (hla : ExactLinAlg la) (hn : TriangleTRGState.TrueNorm p.norm)
    {log : K → K} (hlog : ∀ x y, 0 < x → 0 < y → log (x * y) = log x + log y) {st : Store} {alpha : K} {chi : Nat}
    {s0 : TriangleTRGState K} (g : TriangleTRGState.Good p s0) (S : TriangleTRGState.Started p st alpha chi s0) (hchi : 0 < chi) {n : Nat}
    {s : TriangleTRGState K} (h : TriangleTRGState.Ran p la s0 n s)
    (hl : ∀ i < n, ∀ s1, TriangleTRGState.Ran p la s0 i s1 → LosslessSVD la s1.mat s1.chi) :
    ∃ res, s.logZDensity p log = .ok res ∧ res.length = n + 1 ∧ ∀ i ≤ n, res[i]? =
      some ((log ((Honey.grown i).dimers (alpha * alpha)) + ∑ j ∈ range (i + 1), (9 ^ (i - j) - 3 ^ (i - j)) * log (s.norms.getD j 1)) / 9 ^ i) := by
  have P0 := S.norms_pos hn
  obtain ⟨C, P⟩ := h.coarse_pos hla hn g (S.chi ▸ hchi) (S.coarse fun c hc => (P0 c hc).ne') P0 hl
  have gs : WFStore s.st := by
    obtain ⟨s1, r1, g1, -⟩ := TriangleTRGState.run_exists hla g (S.chi ▸ hchi) n
    obtain rfl := Settles.unique h r1
    exact g1.wf
  have len : s.steps.length = n + 1 := by
    simp [TriangleTRGState.steps, C.aNorms, C.bNorms, C.aArchive, C.bArchive]
  have hstep : ∀ j ≤ n, ∃ x, s.steps[j]? = some x ∧ s.norms[j]? = some (x.aNorm * x.bNorm) ∧
      x.a.2 = 3 ^ j ∧ x.b.2 = 3 ^ j ∧ ∃ D, TriSite s.st x.a.1 D ∧ TriSite s.st x.b.1 D ∧
        TriangleTRGState.StandsFor alpha D (x.a.1.tri s.st) (x.b.1.tri s.st) (s.norms.take (j + 1)) j := by
    intro j hj
    obtain ⟨⟨c, k⟩, e1⟩ : ∃ y, s.aArchive[j]? = some y := ⟨_, List.getElem?_eq_getElem (by rw [C.aArchive]; omega)⟩
    obtain ⟨⟨d, m⟩, e2⟩ : ∃ y, s.bArchive[j]? = some y := ⟨_, List.getElem?_eq_getElem (by rw [C.bArchive]; omega)⟩
    obtain ⟨x, e3⟩ : ∃ y, s.aNorms[j]? = some y := ⟨_, List.getElem?_eq_getElem (by rw [C.aNorms]; omega)⟩
    obtain ⟨y, e4⟩ : ∃ y, s.bNorms[j]? = some y := ⟨_, List.getElem?_eq_getElem (by rw [C.bNorms]; omega)⟩
    obtain ⟨k1, k2, D, q1, q2, E⟩ := C.all j c k d m e1 e2
    refine ⟨⟨x, y, (c, k), (d, m)⟩, ?_, ?_, k1, k2, D, q1, q2, E⟩
    · unfold TriangleTRGState.steps
      have z1 : (s.aNorms.zip s.bNorms)[j]? = some (x, y) := List.getElem?_zip_eq_some.mpr ⟨e3, e4⟩
      have z2 : (s.aArchive.zip s.bArchive)[j]? = some ((c, k), (d, m)) := List.getElem?_zip_eq_some.mpr ⟨e1, e2⟩
      have z3 : ((s.aNorms.zip s.bNorms).zip (s.aArchive.zip s.bArchive))[j]? = some ((x, y), (c, k), (d, m)) :=
        List.getElem?_zip_eq_some.mpr ⟨z1, z2⟩
      rw [List.getElem?_map, z3]
      rfl
    · unfold TriangleTRGState.norms
      rw [List.getElem?_zipWith, e3, e4]
  obtain ⟨res, e, hlen, hv⟩ := TriangleTRGState.logLoop_values (p := p) log s.steps s.st 0 gs fun x hx => by
    obtain ⟨j, hj⟩ := List.mem_iff_getElem?.mp hx
    have hj1 : j < n + 1 := len ▸ (List.getElem?_eq_some_iff.mp hj).1
    obtain ⟨y, ey, -, -, -, D, q1, q2, -⟩ := hstep j (by omega)
    obtain rfl := Option.some.inj (hj.symm.trans ey)
    exact ⟨D, q1, q2⟩
  refine ⟨res, e, hlen.trans len, fun i hi => ?_⟩
  obtain ⟨x, ex, en, ka, kb, D, q1, q2, E⟩ := hstep i hi
  obtain ⟨D', q1', -, hr⟩ := hv i x ex
  obtain rfl : D' = D := by rw [← q1'.d1, ← q1.d1]
  have nine : ∀ j : Nat, (((3 ^ j * 3 ^ j : Nat)) : K) = 9 ^ j := fun j => by
    push_cast
    rw [← mul_pow]
    norm_num
  rw [hr, ka, kb, nine, zero_add, sum_take (g := fun j => log (s.norms.getD j 1) / 9 ^ j)]
  · have PN := TriangleTRGState.norms_all_pos P
    have hlen : (s.norms.take (i + 1)).length = i + 1 := by
      simp [TriangleTRGState.norms, C.aNorms, C.bNorms, hi]
    obtain ⟨sp, sl⟩ := log_triScale hlog (s.norms.take (i + 1)) fun c hc => PN c (List.mem_of_mem_take hc)
    have E := E Honey.point
    rw [Honey.card_point, pow_one, Honey.Z_dimers] at E
    have E : _ = (Honey.grown i).dimers (alpha * alpha) := E
    have hZ := Honey.dimers_pos (Honey.grown i) alpha
    rw [← E] at hZ ⊢
    have tp := (pos_iff_pos_of_mul_pos hZ).mp sp
    have e9 : (9 : K) ^ i ≠ 0 := pow_ne_zero _ (by norm_num)
    rw [hlog _ _ sp tp, sl, hlen]
    congr 1
    rw [eq_div_iff e9, add_mul, div_mul_cancel₀ _ e9, Finset.sum_mul]
    have : ∀ a b c d : K, a = b + d → a + c = b + c + d := fun a b c d h => by rw [h]; ring
    refine this _ _ _ _ ?_
    rw [← Finset.sum_add_distrib]
    refine Finset.sum_congr rfl fun j hj => ?_
    rw [Finset.mem_range] at hj
    have ej : (s.norms.take (i + 1)).getD j 1 = s.norms.getD j 1 := by
      rw [List.getD_eq_getElem?_getD, List.getD_eq_getElem?_getD, List.getElem?_take_of_lt hj]
    have e9j : (9 : K) ^ j ≠ 0 := pow_ne_zero _ (by norm_num)
    have e9i : (9 : K) ^ i = 9 ^ (i - j) * 9 ^ j := by rw [← pow_add]; congr 1; omega
    rw [ej, Nat.add_sub_cancel, e9i, mul_comm ((9 : K) ^ (i - j)), ← mul_assoc, div_mul_cancel₀ _ e9j]
    ring
  · intro j hj
    obtain ⟨y, ey, eyn, ja, jb, -⟩ := hstep j (by omega)
    refine ⟨y, ey, ?_⟩
    rw [ja, jb, nine, List.getD_eq_getElem?_getD, eyn]
    rfl

end

/-! ### A deviation -/

/-- `numpy.linalg.norm`. -/
noncomputable def frobenius (a : NDArray ℝ) : ℝ := Real.sqrt ((a.data.map (· ^ 2)).sum)

theorem frobenius_true : TriangleTRGState.TrueNorm frobenius := by
  intro a
  refine ⟨Real.sqrt_nonneg _, fun h x hx => ?_⟩
  have nn : ∀ y ∈ a.data.map (· ^ 2), (0 : ℝ) ≤ y := fun y hy => by
    obtain ⟨z, -, rfl⟩ := List.mem_map.mp hy
    exact sq_nonneg z
  have h0 := (Real.sqrt_eq_zero (List.sum_nonneg nn)).mp h
  exact pow_eq_zero_iff two_ne_zero |>.mp (sum_zero_all nn h0 _ (List.mem_map_of_mem hx))

/-- The routines of NumPy for real numbers. -/
noncomputable def realParams : RGParams ℝ := ⟨fun _ _ => 0, id, frobenius, fun m => ([], m), 1 / 10 ^ 10⟩

theorem dimers_one : (Honey.grown 1).dimers (1 : ℝ) = 40 := by
  have h : (Honey.grown 1).Z 2 (Honey.dimerSite 1) (Honey.dimerSite 1) = 40 := by decide +kernel
  rw [Honey.Z_dimers] at h
  have : (((Honey.grown 1).dimers (1 * 1 : ℕ) : ℕ) : ℝ) = (Honey.grown 1).dimers (1 : ℝ) := by
    unfold Honey.dimers
    push_cast
    simp
  rw [← this, h]
  norm_num

/-- C53, a deviation: already after one step the entry of `logZDensity` is the logarithm of the partition function divided by no number
of sites or of degrees of freedom whatever. -/
theorem C53_logZ_wrong : ∃ (la : LinAlg ℝ) (s0 s : TriangleTRGState ℝ) (res : List ℝ) (v : ℝ), ExactLinAlg la ∧
    TriangleTRGState.new realParams Store.empty 1 16 = .ok s0 ∧ TriangleTRGState.Ran realParams la s0 1 s ∧
    s.logZDensity realParams Real.log = .ok res ∧ res[1]? = some v ∧
    ∀ k : Nat, v ≠ Real.log ((Honey.grown 1).dimers (1 * 1)) / k := by
  obtain ⟨la, hla, -⟩ := exists_linAlg ℝ
  obtain ⟨s0, e0, g, S⟩ := C53_new (p := realParams) Reachable.empty.wf 1 16
  have pos : 0 < s0.chi := S.chi ▸ (by decide)
  obtain ⟨s, h, -⟩ := C53_run hla g pos 1
  have hl := C53_exact_size hla g S (n := 1) (by decide)
  obtain ⟨res, e, -, hv⟩ := C53_logZ hla frobenius_true (fun x y hx hy => Real.log_mul hx.ne' hy.ne') g S (by decide) h hl
  have n0 : s.norms.getD 0 1 = 4 := by
    obtain ⟨s1, r1, -, -, -, I⟩ := h.succ hla g pos
    obtain rfl := TriangleTRGState.Ran.zero.mp r1
    obtain ⟨a, b, u, v, Na, Nb, -⟩ := I.tensors
    obtain ⟨x, -, nx, -⟩ := Na.a
    obtain ⟨y, -, ny, -⟩ := Nb.a
    have f4 : frobenius ⟨[2, 2, 2], [1, 1, 1, 0, 1, 0, 0, 0]⟩ = 2 := by
      unfold frobenius
      rw [show ((([1, 1, 1, 0, 1, 0, 0, 0] : List ℝ).map (· ^ 2)).sum) = 2 ^ 2 by norm_num]
      exact Real.sqrt_sq (by norm_num)
    have na : s1.aNorms = [2] := by
      rw [S.first.1]
      show [frobenius _] = _
      rw [f4]
    have nb : s1.bNorms = [2] := S.first.2.trans na
    unfold TriangleTRGState.norms
    rw [nx, ny, na, nb]
    norm_num
  refine ⟨la, s0, s, res, _, hla, e0, h, e, hv 1 le_rfl, fun k hk => ?_⟩
  have hd : (Honey.grown 1).dimers ((1 : ℝ) * 1) = 40 := by rw [one_mul, dimers_one]
  rw [hd, Finset.sum_range_succ, Finset.sum_range_one, n0] at hk
  norm_num at hk
  have p40 : 0 < Real.log 40 := Real.log_pos (by norm_num)
  have p4 : 0 < Real.log 4 := Real.log_pos (by norm_num)
  have l1 : 12 * Real.log 4 < 7 * Real.log 40 := by
    have := Real.log_lt_log (x := 4 ^ 12) (y := 40 ^ 7) (by norm_num) (by norm_num)
    rwa [Real.log_pow, Real.log_pow] at this
  have l2 : 2 * Real.log 40 < 6 * Real.log 4 := by
    have := Real.log_lt_log (x := 40 ^ 2) (y := 4 ^ 6) (by norm_num) (by norm_num)
    rwa [Real.log_pow, Real.log_pow] at this
  rcases Nat.lt_or_ge k 3 with h3 | h3
  · interval_cases k
    · norm_num at hk
      linarith
    · norm_num at hk
      linarith
    · norm_num at hk
      linarith
  · have h3 : (3 : ℝ) ≤ k := by exact_mod_cast h3
    have : Real.log 40 / k ≤ Real.log 40 / 3 := div_le_div_of_nonneg_left p40.le (by norm_num) h3
    linarith

/-- The hypotheses of `C53_exact` and of `C53_exact_errors` hold for any number of steps, with the norm of NumPy and any weight. -/
example (n : Nat) (alpha : ℝ) : ∃ (la : LinAlg ℝ) (s0 s : TriangleTRGState ℝ), ExactLinAlg la ∧ TriangleTRGState.TrueNorm realParams.norm ∧
    TriangleTRGState.new realParams Store.empty alpha (4 ^ 2 ^ n) = .ok s0 ∧ TriangleTRGState.Good realParams s0 ∧
    TriangleTRGState.Started realParams Store.empty alpha (4 ^ 2 ^ n) s0 ∧ TriangleTRGState.Ran realParams la s0 n s ∧
    (∀ i < n, ∀ s1, TriangleTRGState.Ran realParams la s0 i s1 → LosslessSVD la s1.mat s1.chi) ∧ ∀ e ∈ s.errors, e = 0 := by
  obtain ⟨la, hla, -⟩ := exists_linAlg ℝ
  obtain ⟨s0, e0, g, S⟩ := C53_new (p := realParams) Reachable.empty.wf alpha (4 ^ 2 ^ n)
  have pos : 0 < s0.chi := S.chi ▸ Nat.pow_pos (by decide)
  obtain ⟨s, h, -⟩ := C53_run hla g pos n
  refine ⟨la, s0, s, hla, frobenius_true, e0, g, S, h,
    C53_exact_size hla g S (Nat.pow_le_pow_right (by decide) (Nat.pow_le_pow_right (by decide) (Nat.sub_le n 1))), fun e he => ?_⟩
  obtain ⟨len, hr⟩ := TriangleTRGState.Ran.errors hla g pos S.empty h
  obtain ⟨i, hi⟩ := List.mem_iff_getElem?.mp he
  have hi1 : i < n := len ▸ (List.getElem?_eq_some_iff.mp hi).1
  obtain ⟨s1, r1, -, e1⟩ := hr i hi1
  obtain ⟨c1, b1⟩ := r1.size hla g pos
  rw [S.dim] at b1
  rw [Option.some.inj (hi.symm.trans e1)]
  unfold cutShare
  rw [if_pos]
  rw [List.drop_eq_nil_iff, (hla.svd s1.mat (s1.dim * s1.dim) (s1.dim * s1.dim) (NDArray.build_wf _ _) rfl).sLen, Nat.min_self, c1, S.chi]
  exact b1.trans (Nat.pow_le_pow_right (by decide) (Nat.pow_le_pow_right (by decide) (by omega)))

end CTL
