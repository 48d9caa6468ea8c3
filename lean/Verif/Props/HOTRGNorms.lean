import Verif.Props.Impurity
import Verif.Props.HOTRGCases

/-! C50 and C56 without hypotheses about the recorded norms: a norm is 0 only if a partition function is. -/

namespace CTL
variable {K : Type}

section
variable [Field K] [LinearOrder K] [Star K] [TrivialStar K] [IsStrictOrderedRing K] {p : RGParams K}

/-! ### Runs of `HOTRG` alone -/

theorem run_inv (he : ExactEigh p.eigh) {V H : Nat} {A : Nat → Nat → Nat → Nat → K} {s0 : HOTRGState K} (R0 : RGInv p V H A s0) :
    ∀ {n : Nat} {s : HOTRGState K}, Run p s0 n s → RGInv p V H A s ∧ s.directChoices.length = s0.directChoices.length + n ∧
      ∀ i ≤ n, ∀ s1, Run p s0 i s1 → Grown s1 s
  | 0, s, h => by
    obtain rfl := Run.zero.mp h
    refine ⟨R0, rfl, fun i hi s1 h1 => ?_⟩
    obtain rfl := Nat.le_zero.mp hi
    obtain rfl := Run.zero.mp h1
    exact .refl _
  | n + 1, s, h => by
    obtain ⟨s1, d, r1, g1, -, g2, I⟩ := h.succ he R0.good
    obtain ⟨R1, l1, G1⟩ := run_inv he R0 r1
    refine ⟨R1.iterated he g2 I, by rw [I.choice]; simp [l1]; omega, fun i hi s2 h2 => ?_⟩
    rcases Nat.lt_succ_iff_lt_or_eq.mp (Nat.lt_succ_iff.mpr hi) with hi | rfl
    · exact (G1 i (by omega) s2 h2).trans I.grown
    · obtain rfl := Settles.unique h h2
      exact .refl _

theorem run_env (he : ExactEigh p.eigh) {V H : Nat} {A : Nat → Nat → Nat → Nat → K} {s0 : HOTRGState K} (R0 : RGInv p V H A s0)
    (h0 : s0.directChoices = []) {n i : Nat} (hi : i ≤ n) {s s1 : HOTRGState K} (h : Run p s0 n s) (h1 : Run p s0 i s1) (d : RGDir) :
    s.envAt i d = s1.env d ∧ s.chi d = s1.chi d := by
  obtain ⟨R, l, G⟩ := run_inv he R0 h
  obtain ⟨R1, l1, -⟩ := run_inv he R0 h1
  have G := G i hi s1 h1
  have l1 : s1.directChoices.length = i := by rw [l1, h0]; simp
  have hz : i < s1.aArchive.length := by rw [R1.archive, l1]; omega
  refine ⟨(G.envAt R1.sites hz d).trans ?_, G.chiOf d⟩
  obtain ⟨x, hx⟩ : ∃ x, s1.aArchive[i]? = some x := ⟨_, List.getElem?_eq_getElem hz⟩
  have S := R1.last x (by rw [l1]; exact hx)
  unfold HOTRGState.envAt HOTRGState.env HOTRGState.dimV HOTRGState.dimH HOTRGState.siteAt
  rw [hx]
  show envMatrix (x.1.dimOf s1.st "u") (x.1.dimOf s1.st "l") (x.1.site s1.st) d = _
  rw [S.v, S.h]
  congr 1
  funext u l d r
  exact S.val u l d r

/-- C50: if the norm is 0 only for zero arrays, no recorded norm is 0 unless a partition function is. -/
theorem C50_norms (he : ExactEigh p.eigh) (ht : TriangleTRGState.TrueNorm p.norm) {st : Store} {V H : Nat} {A : Nat → Nat → Nat → Nat → K}
    {dof : Option Nat} {chiH : Nat} {chiV : Option Nat} {s0 : HOTRGState K} (g : HGood p s0) (S : Started p st V H A dof chiH chiV s0) {n : Nat}
    {s : HOTRGState K} (h : Run p s0 n s) (hl : ∀ i s1 d, Run p s0 i s1 → s.directChoices[i]? = some d → Lossless p (s1.env d) (s1.chi d))
    (hZ : ∀ i ≤ n, torus (2 ^ rowSteps (s.directChoices.take i)) (2 ^ colSteps (s.directChoices.take i)) V H A ≠ 0) :
    ∀ c ∈ s.aNorms, 0 < c := by
  have R0 := S.inv g
  obtain ⟨R, l, -⟩ := run_inv he R0 h
  rw [S.empty.2.1] at l
  have l : s.directChoices.length = n := l.trans (by simp)
  intro c hc
  obtain ⟨i, hi⟩ := List.mem_iff_getElem?.mp hc
  have hin : i ≤ n := by
    have := (List.getElem?_eq_some_iff.mp hi).1
    rw [R.norms, l] at this
    omega
  refine norms_pos he R ht (m := n) l.ge (fun i hi d hd => ?_) hZ i hin c hi
  obtain ⟨s1, r1, -⟩ := run_exists he g i
  obtain ⟨e1, e2⟩ := run_env he R0 S.empty.2.1 hi.le h r1 d
  rw [e1, e2]
  exact hl i s1 d r1 hd

/-- C50: with positive entries and nothing cut off, `logZDensity` is exact. -/
theorem C50_logZ_positive (he : ExactEigh p.eigh) (ht : TriangleTRGState.TrueNorm p.norm) {log : K → K}
    (hlog : ∀ x y, 0 < x → 0 < y → log (x * y) = log x + log y) {st : Store} {V H : Nat}
    {A : Nat → Nat → Nat → Nat → K} (hA : ∀ u < V, ∀ l < H, ∀ d < V, ∀ r < H, 0 < A u l d r) {dof : Option Nat} {chiH : Nat}
    {chiV : Option Nat} {s0 : HOTRGState K} (g : HGood p s0) (S : Started p st V H A dof chiH chiV s0) {n : Nat} {s : HOTRGState K}
    (h : Run p s0 n s) (hl : ∀ i s1 d, Run p s0 i s1 → s.directChoices[i]? = some d → Lossless p (s1.env d) (s1.chi d)) :
    ∃ res, s.logZDensity log = .ok res ∧ res.length = n + 1 ∧
      ∀ i ≤ n, res[i]? = some (log (torus (2 ^ rowSteps (s.directChoices.take i)) (2 ^ colSteps (s.directChoices.take i)) V H A) /
        ((dof.getD 1 * 2 ^ i : Nat) : K)) :=
  have hV : V ≠ 0 := S.v ▸ dimOf_pos g.a.labels (by decide) (by decide)
  have hH : H ≠ 0 := S.h ▸ dimOf_pos g.a.labels (by decide) (by decide)
  have hZ := fun a b => torus_pos a b hV hH hA
  C50_logZ he hlog g S h hl (C50_norms he ht g S h hl fun _ _ => (hZ _ _).ne') fun _ _ => hZ _ _

/-! ### With impurities -/

/-- C56: the norms are not 0 in any history of calls, unless a partition function is. -/
theorem C56_norms (he : ExactEigh p.eigh) (ht : TriangleTRGState.TrueNorm p.norm) {st : Store} {V H : Nat} {A : Nat → Nat → Nat → Nat → K}
    {dof : Option Nat} {chiH : Nat} {chiV : Option Nat} {s0 s : HOTRGState K} (g : HGood p s0) (S : Started p st V H A dof chiH chiV s0)
    {nets : List (ImpSource K × ImpurityNet K)} (h : Reach p V H s0 s nets)
    (hl : ∀ i d, s.directChoices[i]? = some d → Lossless p (s.envAt i d) (s.chi d))
    (hZ : ∀ i ≤ s.directChoices.length,
      torus (2 ^ rowSteps (s.directChoices.take i)) (2 ^ colSteps (s.directChoices.take i)) V H A ≠ 0) :
    ∀ c ∈ s.aNorms, 0 < c := by
  obtain ⟨R, -⟩ := h.inv he (S.inv g)
  intro c hc
  obtain ⟨i, hi⟩ := List.mem_iff_getElem?.mp hc
  refine norms_pos he R ht le_rfl (fun i _ d hd => hl i d hd) hZ i ?_ c hi
  have := (List.getElem?_eq_some_iff.mp hi).1
  rw [R.norms] at this
  omega

theorem square_keeps (he : ExactEigh p.eigh) {V H : Nat} {A : Nat → Nat → Nat → Nat → K} {s : HOTRGState K} (R : RGInv p V H A s) {i : Nat} {d : RGDir}
    (hd : s.directChoices[i]? = some d) (hp : ∀ P, s.projectors[i]? = some P → ∃ n, P.shape = [n, n]) :
    Lossless p (s.envAt i d) (s.chi d) ∧ ∀ V H A B, KeepsPair p (s.envAt i d) (s.chi d) V H A B d := by
  obtain ⟨d', c, T⟩ := R.step i (List.getElem?_eq_some_iff.mp hd).1
  obtain rfl : d' = d := Option.some.inj (T.choice.symm.trans hd)
  have hE := envMatrix_eigh he (s.dimV i) (s.dimH i) (s.siteAt i) d'
  obtain ⟨n, hn⟩ := hp _ T.projector
  obtain ⟨-, sp, -⟩ := solveEnv_prj hE (s.chi d')
  have e := hn.symm.trans sp
  simp only [List.cons.injEq, and_true] at e
  have hk : prjCols p (s.envAt i d') (s.chi d') (envSize (s.dimV i) (s.dimH i) d') = envSize (s.dimV i) (s.dimH i) d' := e.2.symm.trans e.1
  exact ⟨(keeps_all (V := 0) (H := 0) (A := fun _ _ _ _ => 0) (B := fun _ _ _ _ => 0) (d := .l) hE hk).1, fun _ _ _ _ => (keeps_all hE hk).2⟩

/-- C56: with positive entries, a true norm and square projectors, all observables are exact. -/
theorem C56_positive (he : ExactEigh p.eigh) (ht : TriangleTRGState.TrueNorm p.norm) {st : Store} {V H : Nat}
    {A : Nat → Nat → Nat → Nat → K} (hA : ∀ u < V, ∀ l < H, ∀ d < V, ∀ r < H, 0 < A u l d r) {dof : Option Nat} {chiH : Nat}
    {chiV : Option Nat} {s0 s : HOTRGState K} (g : HGood p s0) (S : Started p st V H A dof chiH chiV s0)
    {nets : List (ImpSource K × ImpurityNet K)} (h : Reach p V H s0 s nets) {src : ImpSource K} {net : ImpurityNet K} (hn : (src, net) ∈ nets)
    (hp : ∀ P ∈ s.projectors, ∃ n, P.shape = [n, n]) :
    ∃ obs, net.measureObservables s = .ok obs ∧ obs.length = net.archive.length ∧
      ∀ i < obs.length, ∃ xs, obs[i]? = some xs ∧ xs.length = src.order ∧ ∃ rows cols, rows * cols = 2 ^ i ∧
        rows = 2 ^ rowSteps (s.directChoices.take i) ∧ ∀ k < src.order, xs[k]? =
          some (markedTorus rows cols V H src.A k / ((rows * cols : Nat) : K) ^ k / torus rows cols V H A) := by
  have hV : V ≠ 0 := S.v ▸ dimOf_pos g.a.labels (by decide) (by decide)
  have hH : H ≠ 0 := S.h ▸ dimOf_pos g.a.labels (by decide) (by decide)
  obtain ⟨R, -⟩ := h.inv he (S.inv g)
  refine C56_untruncated he g S h hn (fun P hP => hp P (List.mem_of_mem_take hP))
    fun c hc => (C56_norms he ht g S h (fun i d hd => ?_) (fun _ _ => (torus_pos _ _ hV hH hA).ne') c hc).ne'
  exact (square_keeps he R hd (fun P hP => hp P (List.mem_of_getElem? hP))).1

end

/-- C56: the average magnetization or energy of the Ising model, with square projectors and a true norm. -/
theorem C56_ising_exact {p : RGParams ℝ} (he : ExactEigh p.eigh) (ht : TriangleTRGState.TrueNorm p.norm) {st : Store} {A : Nat → Nat → Nat → Nat → ℝ}
    {dof : Option Nat} {chiH : Nat} {chiV : Option Nat} {s0 s : HOTRGState ℝ} (g : HGood p s0) (S : Started p st 2 2 A dof chiH chiV s0)
    {nets : List (ImpSource ℝ × ImpurityNet ℝ)} (h : Reach p 2 2 s0 s nets) {src : ImpSource ℝ} {net : ImpurityNet ℝ} (hn : (src, net) ∈ nets)
    (hp : ∀ P ∈ s.projectors, ∃ n, P.shape = [n, n]) (ho : 2 ≤ src.order) (beta field : ℝ) {obs : String} (hobs : obs = "M" ∨ obs = "E")
    (hA : ∀ u < 2, ∀ l < 2, ∀ d < 2, ∀ r < 2, A u l d r = measured u l d r none * Real.exp (-(beta * aroundEnergy 1 1 u l d r) + field * aroundM u l d r))
    (h1 : ∀ u < 2, ∀ l < 2, ∀ d < 2, ∀ r < 2,
      src.A 0 u l d r = measured u l d r none * Real.exp (-(beta * aroundEnergy 1 1 u l d r) + field * aroundM u l d r))
    (h2 : ∀ u < 2, ∀ l < 2, ∀ d < 2, ∀ r < 2,
      src.A 1 u l d r = measured u l d r (some obs) * Real.exp (-(beta * aroundEnergy 1 1 u l d r) + field * aroundM u l d r)) :
    ∃ res, net.measureObservables s = .ok res ∧ res.length = net.archive.length ∧
      ∀ i < res.length, ∃ xs, res[i]? = some xs ∧ ∃ rows cols, rows * cols = 2 ^ i ∧ xs[0]? = some 1 ∧
        xs[1]? = some ((∑ s : Spins rows cols, (if obs = "M" then s.magnetization else s.energy 1 1) * s.weight beta beta field) /
          (2 ^ i : ℝ) / isingTorus rows cols beta beta field) := by
  obtain ⟨R, -⟩ := h.inv he (S.inv g)
  have hk : ∀ i d, s.directChoices[i]? = some d → _ := fun i d hd => square_keeps he R hd (fun P hP => hp P (List.mem_of_getElem? hP))
  refine C56_ising he g S h hn (fun i _ d hd => ⟨(hk i d hd).1, fun _ _ _ => (hk i d hd).2 _ _ _ _⟩) (fun c hc => ?_) ho beta field hobs hA h1 h2
  refine (C56_norms he ht g S h (fun i d hd => (hk i d hd).1) (fun _ _ => (torus_pos _ _ (by decide) (by decide) fun u hu l hl d hd r hr => ?_).ne') c hc).ne'
  rw [hA u hu l hl d hd r hr, measured, one_mul]
  exact Real.exp_pos _

/-- The hypothesis about the norm can be met: the sum of the absolute values. -/
theorem absSum_true : TriangleTRGState.TrueNorm fun b : NDArray ℝ => (b.data.map fun x => |x|).sum := by
  intro b
  refine ⟨List.sum_nonneg fun x hx => ?_, fun h x hx => ?_⟩
  · obtain ⟨y, -, rfl⟩ := List.mem_map.mp hx
    exact abs_nonneg y
  · exact abs_eq_zero.mp (sum_zero_all (l := b.data.map fun x => |x|) (fun z hz => by
      obtain ⟨y, -, rfl⟩ := List.mem_map.mp hz
      exact abs_nonneg y) h _ (List.mem_map_of_mem hx))

/-- The hypotheses of `C50_logZ_positive` hold for any number of steps without a limit. -/
example (n : Nat) : ∃ (p : RGParams ℝ) (s0 s : HOTRGState ℝ) (res : List ℝ), ExactEigh p.eigh ∧
    p.norm = (fun b => (b.data.map fun x => |x|).sum) ∧
    HOTRGState.new p Store.empty (.inr sampleArray) none 0 none = .ok s0 ∧ Run p s0 n s ∧ s.logZDensity Real.log = .ok res ∧
    res.length = n + 1 := by
  obtain ⟨eigh, he⟩ := exists_eigh
  let p : RGParams ℝ := ⟨fun _ _ => 0, id, fun b => (b.data.map fun x => |x|).sum, eigh, 1 / 10 ^ 10⟩
  obtain ⟨s0, e0, g, S⟩ := C50_new (p := p) Reachable.empty.wf (V := 2) (H := 2) (A := fun u l d r => sampleArray.get [u, l, d, r])
    (x := .inr sampleArray) ⟨NDArray.build_wf _ _, rfl, by decide, by decide, fun _ _ _ _ => rfl⟩ none 0 none
  have he : ExactEigh p.eigh := he
  obtain ⟨s, h, -⟩ := C50_run he g n
  obtain ⟨res, e, len, -⟩ := C50_logZ_positive he absSum_true (log := Real.log) (fun x y hx hy => Real.log_mul hx.ne' hy.ne') sampleArray_pos g S h
    (by
      intro i s1 d r1 _
      obtain ⟨h1, h2⟩ := run_chi he g r1
      have hc : s1.chi d = 0 := by
        unfold HOTRGState.chi
        rw [h1, h2, S.chi.1, S.chi.2]
        simp
      rw [hc]
      exact fun hk => absurd (by simp [envKept]) hk)
  exact ⟨p, s0, s, res, he, rfl, e0, h, e, len⟩

end CTL
