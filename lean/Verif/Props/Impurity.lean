import Verif.Lemmas.ImpurityExact
import Verif.Props.Plaquette

/-! C56: `ImpurityTensorNetwork` measures averages on the torus. -/

namespace CTL
variable {K : Type}

open Finset (range)

section
variable [Field K] [LinearOrder K] [Star K] [TrivialStar K] [IsStrictOrderedRing K] {p : RGParams K}

/-! ### Which calls succeed -/

/-- C56: in every state that can be reached, `HOTRG.iterate` succeeds, and impurities with the dimensions of the original tensor can be made. -/
theorem C56_rg (he : ExactEigh p.eigh) {st : Store} {V H : Nat} {A : Nat → Nat → Nat → Nat → K} {dof : Option Nat} {chiH : Nat}
    {chiV : Option Nat} {s0 s : HOTRGState K} (g : HGood p s0) (S : Started p st V H A dof chiH chiV s0)
    {nets : List (ImpSource K × ImpurityNet K)} (h : Reach p V H s0 s nets) :
    (∃ s', Settles (fun fuel => s.iterate p fuel) s') ∧
    ∀ (ts : List (DofTensor K)) (order : Option Nat), Sites s.st V H ts → order.getD ts.length ≤ ts.length →
      ∃ st' net, ImpurityNet.new p s.st ts order = .ok (st', net) := by
  obtain ⟨R, -⟩ := h.inv he (S.inv g)
  refine ⟨?_, fun ts order hs ho => ?_⟩
  · obtain ⟨s', d, e, -⟩ := iterate_settles he R.good
    exact ⟨s', e⟩
  · obtain ⟨st', net, e, -⟩ := newImp_ok R.good hs ho
    exact ⟨st', net, e⟩

/-- C56: `iterate` of the impurities succeeds if the `HOTRG` object is at least one step ahead and the first impurity has a
`degreeOfFreedom`, and fails otherwise; the archive has one list of `order` tensors for each step done, and the norms are those of the `HOTRG`
object. -/
theorem C56_iterate (he : ExactEigh p.eigh) {st : Store} {V H : Nat} {A : Nat → Nat → Nat → Nat → K} {dof : Option Nat} {chiH : Nat}
    {chiV : Option Nat} {s0 s : HOTRGState K} (g : HGood p s0) (S : Started p st V H A dof chiH chiV s0)
    {nets : List (ImpSource K × ImpurityNet K)} (h : Reach p V H s0 s nets) {src : ImpSource K} {net : ImpurityNet K} (hn : (src, net) ∈ nets) :
    net.iterateIdx ≤ s.directChoices.length ∧ net.highestOrder = src.order ∧
    net.archive.length = (if net.initialized then net.iterateIdx + 1 else 0) ∧ (∀ cs ∈ net.archive, cs.length = src.order) ∧
    net.norms = s.aNorms.take net.archive.length ∧ (net.initialized = false → net.iterateIdx = 0) ∧
    if net.iterateIdx = s.directChoices.length then ∀ fuel, net.iterate p fuel s = .error .assertionError
    else if src.order = 0 then ∀ fuel, net.iterate p fuel s = .error .indexError
    else match src.dof with
      | none => ∀ fuel, net.iterate p fuel s = .error .typeError
      | some _ => ∃ s' net', Settles (fun fuel => net.iterate p fuel s) (s', net') ∧ net'.iterateIdx = net.iterateIdx + 1 ∧
          s'.directChoices = s.directChoices := by
  obtain ⟨R, I⟩ := h.inv he (S.inv g)
  have I := I _ hn
  obtain ⟨s', net', e', U, I', hidx⟩ := ensure_ok R I
  have R' := R.used U
  have hch : s'.directChoices = s.directChoices := by
    obtain ⟨_, _, _, rfl, _⟩ := U
    rfl
  refine ⟨by rw [← hidx, ← hch]; exact I'.idx, ?_, ?_, ?_, ?_, ?_, ?_⟩
  · exact I.elim (·.order) (·.order)
  · rcases I with I | I
    · rw [I.archive, I.init]
      rfl
    · rw [I.archive, I.init]
      rfl
  · rcases I with I | I
    · rw [I.archive]
      simp
    · intro cs hcs
      obtain ⟨i, hi⟩ := List.mem_iff_getElem?.mp hcs
      exact (I.all i cs hi).1
  · rcases I with I | I
    · rw [I.archive, I.norms]
      rfl
    · rw [I.archive, I.norms]
  · intro hi
    rcases I with I | I
    · exact I.idx
    · rw [I.init] at hi
      cases hi
  · have hf := iterate_ensured e' I'.init
    split
    · rename_i hl
      exact fun fuel => (hf fuel).trans (iterateImp_last R' I' (by rw [hidx, hl, hch]) fuel)
    · rename_i hl
      have hlt : net'.iterateIdx < s'.directChoices.length := Nat.lt_of_le_of_ne I'.idx (by rw [hidx, hch]; exact hl)
      split
      · rename_i h0
        intro fuel
        rw [hf, iterateImp_bad R' I' hlt (Or.inl h0), if_pos h0]
      · rename_i h0
        split
        · rename_i hd
          intro fuel
          rw [hf, iterateImp_bad R' I' hlt (Or.inr hd), if_neg h0]
        · rename_i hd
          obtain ⟨s2, net2, ⟨n, e2⟩, U2, -, hi2⟩ := iterateImp_ok he R' I' hlt h0 hd
          refine ⟨s2, net2, ⟨n, fun fuel hn => (hf fuel).trans (e2 fuel hn)⟩, by rw [hi2, hidx], ?_⟩
          obtain ⟨_, _, _, rfl, _⟩ := U2
          exact hch

omit [TrivialStar K] [IsStrictOrderedRing K] in
/-- C56: with a `highestOrder` above the number of impurities the list is filled up with `None`, and `iterate` always fails. -/
theorem C56_padded {s : HOTRGState K} (g : HGood p s) {V H : Nat} {ts : List (DofTensor K)} (hs : Sites s.st V H ts) {order : Nat}
    (ho : ts.length < order) : ∃ st' net, ImpurityNet.new p s.st ts (some order) = .ok (st', net) ∧
      ∀ s' : HOTRGState K, s'.aNorms ≠ [] → ∀ fuel, net.iterate p fuel s' = .error .attributeError := by
  obtain ⟨st', cs, e, w, k, hc, l, v, d⟩ := copyTensors_ok (p := p) ts g.wf hs
  have hp : ∀ (c : K) (xs : List (DofTensor K)) (n : Nat), Sites st' V H xs →
      divideEach c (xs.map some ++ List.replicate (n + 1) none) = .error .attributeError := by
    intro c xs n hx
    induction xs with
    | nil => rfl
    | cons x xs ih =>
      obtain ⟨b, hb, -⟩ := (hx x List.mem_cons_self).1.labels.good.data
      have ih := ih fun y hy => hx y (List.mem_cons_of_mem _ hy)
      rw [List.map_cons, List.cons_append]
      unfold divideEach
      simp only [hb, ih, bind, Except.bind]
  refine ⟨st', _, by unfold ImpurityNet.new; simp only [e, bind, Except.bind, pure, Except.pure]; rfl, fun s' hn fuel => ?_⟩
  obtain ⟨c, hc0⟩ : ∃ c, s'.aNorms[0]? = some c := ⟨_, List.getElem?_eq_getElem (List.length_pos_iff.mpr hn)⟩
  obtain ⟨n, hn⟩ : ∃ n, order - cs.length = n + 1 := ⟨order - cs.length - 1, by omega⟩
  unfold ImpurityNet.iterate ImpurityNet.ensure ImpurityNet.init ImpurityNet.append
  simp only [Bool.false_eq_true, if_false, getNormOf hc0, Option.getD_some, List.length_map, if_neg (show ¬ order < cs.length by omega), hn, hp c cs n hc,
    bind, Except.bind]

/-! ### What is measured -/

/-- C56: after any calls, entry `k` of the observables of step `i` is the sum over all places of `k` marks on the torus of that step, a site with
`j` marks having impurity number `j`, divided by the number of sites to the power `k` and by the partition function; as long as no step
has cut off anything of a pair of tensors or of impurities of a total order below the number of orders. -/
theorem C56_measured (he : ExactEigh p.eigh) {st : Store} {V H : Nat} {A : Nat → Nat → Nat → Nat → K} {dof : Option Nat} {chiH : Nat}
    {chiV : Option Nat} {s0 s : HOTRGState K} (g : HGood p s0) (S : Started p st V H A dof chiH chiV s0)
    {nets : List (ImpSource K × ImpurityNet K)} (h : Reach p V H s0 s nets) {src : ImpSource K} {net : ImpurityNet K} (hn : (src, net) ∈ nets)
    (hl : ∀ i < net.iterateIdx, ∀ d, s.directChoices[i]? = some d → Lossless p (s.envAt i d) (s.chi d) ∧ ∀ j l, j + l < src.order →
      KeepsPair p (s.envAt i d) (s.chi d) (s.dimV i) (s.dimH i) (net.siteAt s.st i j) (net.siteAt s.st i l) d)
    (h0 : ∀ c ∈ s.aNorms, c ≠ 0) :
    ∃ obs, net.measureObservables s = .ok obs ∧ obs.length = net.archive.length ∧
      ∀ i < obs.length, ∃ xs, obs[i]? = some xs ∧ xs.length = src.order ∧ ∃ rows cols, rows * cols = 2 ^ i ∧
        rows = 2 ^ rowSteps (s.directChoices.take i) ∧ ∀ k < src.order, xs[k]? =
          some (markedTorus rows cols V H src.A k / ((rows * cols : Nat) : K) ^ k / torus rows cols V H A) := by
  obtain ⟨R, I⟩ := h.inv he (S.inv g)
  have I : ImpInv V H s src net := I _ hn
  rcases I with I | I
  · refine ⟨[], ?_, by rw [I.archive]; rfl, fun i hi => absurd hi (Nat.not_lt_zero i)⟩
    unfold ImpurityNet.measureObservables
    rw [I.archive]
    rfl
  · have hb : ∀ i cs, net.archive[i]? = some cs → i ≤ net.iterateIdx := fun i cs hi => by
      have := (List.getElem?_eq_some_iff.mp hi).1
      rw [I.archive] at this
      omega
    obtain ⟨obs, e, l, v⟩ := measureFrom_ok (s := s) s.dimV s.dimH (fun i => torus 1 1 (s.dimV i) (s.dimH i) (s.siteAt i)) 0 net.archive
      fun i cs hi => by
        rw [Nat.zero_add]
        exact ⟨(I.all i cs hi).2, pureTrace_ok R ((hb i cs hi).trans I.idx)⟩
    refine ⟨obs, e, l, fun i hi => ?_⟩
    rw [l] at hi
    obtain ⟨cs, hcs⟩ : ∃ cs, net.archive[i]? = some cs := ⟨_, List.getElem?_eq_getElem hi⟩
    obtain ⟨xs, hx, lx, vx⟩ := v i cs hcs
    have hidx := hb i cs hcs
    have hle := hidx.trans I.idx
    have lc := (I.all i cs hcs).1
    have hpow : 2 ^ rowSteps (s.directChoices.take i) * 2 ^ colSteps (s.directChoices.take i) = 2 ^ i := by
      rw [← pow_add, rowSteps, colSteps]
      congr 1
      have := List.length_eq_countP_add_countP (l := s.directChoices.take i) fun x => x.horizontal
      rw [List.length_take, Nat.min_eq_left hle] at this
      refine Eq.trans ?_ this.symm
      congr 2
      funext x
      cases x.horizontal <;> rfl
    refine ⟨xs, hx, lx.trans lc, _, _, hpow, rfl, fun k hk => ?_⟩
    rw [vx k (by omega), Nat.zero_add, hpow]
    have e1 := rgExact he R (fun c hc => h0 c (List.mem_of_mem_take hc)) I.idx (fun i hi d hd => (hl i hi d hd).1) i hidx 1 1
    have e2 := impExact he R I h0 (fun i hi d hd => (hl i hi d hd).2) i hidx k hk 1 1
    rw [mul_one, mul_one, mul_one] at e1 e2
    rw [markedTorus_site] at e2
    have hsite : siteOf s.st cs k = net.siteAt s.st i k := by
      unfold ImpurityNet.siteAt
      rw [List.getD_eq_getElem?_getD, hcs]
      rfl
    have ht : totalScale (s.aNorms.take (i + 1)) ^ 1 ≠ 0 := by
      rw [pow_one]
      have : ∀ ns : List K, (∀ c ∈ ns, c ≠ 0) → totalScale ns ≠ 0 := by
        intro ns
        induction ns using List.reverseRecOn with
        | nil => intro _; exact one_ne_zero
        | append_singleton ns c ih =>
          intro hc
          rw [totalScale_append]
          exact mul_ne_zero (pow_ne_zero _ (ih fun x hx => hc x (by simp [hx]))) (hc c (by simp))
      exact this _ fun c hc => h0 c (List.mem_of_mem_take hc)
    rw [hsite, ← e1, ← mul_div_mul_left _ _ ht, e2]
    congr 2
    push_cast
    rw [one_div, inv_pow, inv_mul_eq_div]

/-- C56: entry 1 is the average of the sum over all sites of the second impurity, per site, in a torus of the first one. -/
theorem C56_average (he : ExactEigh p.eigh) {st : Store} {V H : Nat} {A : Nat → Nat → Nat → Nat → K} {dof : Option Nat} {chiH : Nat}
    {chiV : Option Nat} {s0 s : HOTRGState K} (g : HGood p s0) (S : Started p st V H A dof chiH chiV s0)
    {nets : List (ImpSource K × ImpurityNet K)} (h : Reach p V H s0 s nets) {src : ImpSource K} {net : ImpurityNet K} (hn : (src, net) ∈ nets)
    (hl : ∀ i < net.iterateIdx, ∀ d, s.directChoices[i]? = some d → Lossless p (s.envAt i d) (s.chi d) ∧ ∀ j l, j + l < src.order →
      KeepsPair p (s.envAt i d) (s.chi d) (s.dimV i) (s.dimH i) (net.siteAt s.st i j) (net.siteAt s.st i l) d)
    (h0 : ∀ c ∈ s.aNorms, c ≠ 0) (ho : 2 ≤ src.order) :
    ∃ obs, net.measureObservables s = .ok obs ∧ obs.length = net.archive.length ∧
      ∀ i < obs.length, ∃ xs, obs[i]? = some xs ∧ ∃ rows cols, rows * cols = 2 ^ i ∧
        xs[0]? = some (torus rows cols V H (src.A 0) / torus rows cols V H A) ∧
        xs[1]? = some (torusOneOf rows cols V H (src.A 0) (src.A 1) / ((rows * cols : Nat) : K) / torus rows cols V H A) := by
  obtain ⟨obs, e, l, hv⟩ := C56_measured he g S h hn hl h0
  refine ⟨obs, e, l, fun i hi => ?_⟩
  obtain ⟨xs, hx, -, rows, cols, hr, -, v⟩ := hv i hi
  refine ⟨xs, hx, rows, cols, hr, ?_, ?_⟩
  · rw [v 0 (by omega), markedTorus_zero, pow_zero, div_one]
  · rw [v 1 (by omega), markedTorus_one, pow_one]

omit [Star K] [TrivialStar K] [IsStrictOrderedRing K] in
theorem keeps_all {m : NDArray K} {n chi : Nat} (h : IsEigh m n (p.eigh m)) (hk : prjCols p m chi n = n) {V H : Nat}
    {A B : Nat → Nat → Nat → Nat → K} {d : RGDir} : Lossless p m chi ∧ KeepsPair p m chi V H A B d := by
  have key : envKept p m chi ≠ 0 → (p.eigh m).1.length - envKept p m chi = 0 := by
    intro h0
    unfold prjCols at hk
    rw [if_neg h0] at hk
    rw [h.len, hk, Nat.sub_self]
  exact ⟨fun h0 i hi => by rw [key h0] at hi; exact absurd hi (Nat.not_lt_zero i),
    fun h0 i hi => by rw [key h0] at hi; exact absurd hi (Nat.not_lt_zero i)⟩

/-- C56: nothing is cut off if the projectors are square, so then everything is exact. -/
theorem C56_untruncated (he : ExactEigh p.eigh) {st : Store} {V H : Nat} {A : Nat → Nat → Nat → Nat → K} {dof : Option Nat} {chiH : Nat}
    {chiV : Option Nat} {s0 s : HOTRGState K} (g : HGood p s0) (S : Started p st V H A dof chiH chiV s0)
    {nets : List (ImpSource K × ImpurityNet K)} (h : Reach p V H s0 s nets) {src : ImpSource K} {net : ImpurityNet K} (hn : (src, net) ∈ nets)
    (hp : ∀ P ∈ s.projectors.take net.iterateIdx, ∃ n, P.shape = [n, n]) (h0 : ∀ c ∈ s.aNorms, c ≠ 0) :
    ∃ obs, net.measureObservables s = .ok obs ∧ obs.length = net.archive.length ∧
      ∀ i < obs.length, ∃ xs, obs[i]? = some xs ∧ xs.length = src.order ∧ ∃ rows cols, rows * cols = 2 ^ i ∧
        rows = 2 ^ rowSteps (s.directChoices.take i) ∧ ∀ k < src.order, xs[k]? =
          some (markedTorus rows cols V H src.A k / ((rows * cols : Nat) : K) ^ k / torus rows cols V H A) := by
  obtain ⟨R, -⟩ := h.inv he (S.inv g)
  refine C56_measured he g S h hn (fun i hi d hd => ?_) h0
  obtain ⟨d', c, T⟩ := R.step i (List.getElem?_eq_some_iff.mp hd).1
  obtain rfl : d' = d := Option.some.inj (T.choice.symm.trans hd)
  have hE := envMatrix_eigh he (s.dimV i) (s.dimH i) (s.siteAt i) d'
  obtain ⟨n, hn⟩ := hp _ (List.mem_iff_getElem?.mpr ⟨i, by rw [List.getElem?_take_of_lt hi, T.projector]⟩)
  obtain ⟨-, sp, -⟩ := solveEnv_prj hE (s.chi d')
  have e := hn.symm.trans sp
  simp only [List.cons.injEq, and_true] at e
  have hk : prjCols p (s.envAt i d') (s.chi d') (envSize (s.dimV i) (s.dimH i) d') = envSize (s.dimV i) (s.dimH i) d' := e.2.symm.trans e.1
  exact ⟨(keeps_all (V := 0) (H := 0) (A := fun _ _ _ _ => 0) (B := fun _ _ _ _ => 0) (d := .l) hE hk).1, fun j l _ => (keeps_all hE hk).2⟩

end

/-! ### The Ising model -/

/-- C56: with the tensors of `squareIsingTensor` without and with `obs`, entry 1 is the average magnetization or energy per tensor. -/
theorem C56_ising {p : RGParams ℝ} (he : ExactEigh p.eigh) {st : Store} {A : Nat → Nat → Nat → Nat → ℝ} {dof : Option Nat} {chiH : Nat}
    {chiV : Option Nat} {s0 s : HOTRGState ℝ} (g : HGood p s0) (S : Started p st 2 2 A dof chiH chiV s0)
    {nets : List (ImpSource ℝ × ImpurityNet ℝ)} (h : Reach p 2 2 s0 s nets) {src : ImpSource ℝ} {net : ImpurityNet ℝ} (hn : (src, net) ∈ nets)
    (hl : ∀ i < net.iterateIdx, ∀ d, s.directChoices[i]? = some d → Lossless p (s.envAt i d) (s.chi d) ∧ ∀ j l, j + l < src.order →
      KeepsPair p (s.envAt i d) (s.chi d) (s.dimV i) (s.dimH i) (net.siteAt s.st i j) (net.siteAt s.st i l) d)
    (h0 : ∀ c ∈ s.aNorms, c ≠ 0) (ho : 2 ≤ src.order) (beta field : ℝ) {obs : String} (hobs : obs = "M" ∨ obs = "E")
    (hA : ∀ u < 2, ∀ l < 2, ∀ d < 2, ∀ r < 2, A u l d r = measured u l d r none * Real.exp (-(beta * aroundEnergy 1 1 u l d r) + field * aroundM u l d r))
    (h1 : ∀ u < 2, ∀ l < 2, ∀ d < 2, ∀ r < 2,
      src.A 0 u l d r = measured u l d r none * Real.exp (-(beta * aroundEnergy 1 1 u l d r) + field * aroundM u l d r))
    (h2 : ∀ u < 2, ∀ l < 2, ∀ d < 2, ∀ r < 2,
      src.A 1 u l d r = measured u l d r (some obs) * Real.exp (-(beta * aroundEnergy 1 1 u l d r) + field * aroundM u l d r)) :
    ∃ res, net.measureObservables s = .ok res ∧ res.length = net.archive.length ∧
      ∀ i < res.length, ∃ xs, res[i]? = some xs ∧ ∃ rows cols, rows * cols = 2 ^ i ∧ xs[0]? = some 1 ∧
        xs[1]? = some ((∑ s : Spins rows cols, (if obs = "M" then s.magnetization else s.energy 1 1) * s.weight beta beta field) /
          (2 ^ i : ℝ) / isingTorus rows cols beta beta field) := by
  obtain ⟨res, e, l, hv⟩ := C56_average he g S h hn hl h0 ho
  refine ⟨res, e, l, fun i hi => ?_⟩
  obtain ⟨xs, hx, rows, cols, hr, v0, v1⟩ := hv i hi
  have hT : ∀ B : Nat → Nat → Nat → Nat → ℝ, (∀ u < 2, ∀ l < 2, ∀ d < 2, ∀ r < 2,
      B u l d r = measured u l d r none * Real.exp (-(beta * aroundEnergy 1 1 u l d r) + field * aroundM u l d r)) →
      torus rows cols 2 2 B = isingTorus rows cols beta beta field := fun B hB =>
    (C51_measured rows cols beta field hB (fun _ _ _ _ _ _ _ _ => rfl) (fun _ _ _ _ _ _ _ _ => rfl)).1
  have hpos : 0 < torus rows cols 2 2 A := torus_pos _ _ (by decide) (by decide) fun u hu l hl d hd r hr => by
    rw [hA u hu l hl d hd r hr, measured, one_mul]
    exact Real.exp_pos _
  refine ⟨xs, hx, rows, cols, hr, ?_, ?_⟩
  · rw [v0, hT _ h1, ← hT _ hA, div_self hpos.ne']
  · rw [v1, hT _ hA, hr]
    push_cast
    congr 3
    rcases hobs with rfl | rfl
    · rw [(C51_measured rows cols beta field h1 h2 (fun _ _ _ _ _ _ _ _ => rfl)).2.1]
      simp
    · rw [(C51_measured rows cols beta field h1 (fun _ _ _ _ _ _ _ _ => rfl) h2).2.2]
      simp

/-! ### Examples -/

section
variable [Field K] [LinearOrder K] [Star K] {p : RGParams K}

theorem Grown.refl (s : HOTRGState K) : Grown s s := ⟨.refl _, List.prefix_rfl, List.prefix_rfl, List.prefix_rfl, List.prefix_rfl, rfl, rfl⟩

theorem Grown.trans {s1 s2 s3 : HOTRGState K} (h : Grown s1 s2) (k : Grown s2 s3) : Grown s1 s3 :=
  ⟨h.kept.trans k.kept, h.archive.trans k.archive, h.norms.trans k.norms, h.choices.trans k.choices, h.projectors.trans k.projectors,
    k.chi.1.trans h.chi.1, k.chi.2.trans h.chi.2⟩

variable [TrivialStar K] [IsStrictOrderedRing K]

theorem reach_steps (he : ExactEigh p.eigh) {V H : Nat} {A : Nat → Nat → Nat → Nat → K} {s0 s : HOTRGState K} (R0 : RGInv p V H A s0)
    {nets : List (ImpSource K × ImpurityNet K)} (h : Reach p V H s0 s nets) (n : Nat) :
    ∃ s', Reach p V H s0 s' nets ∧ s'.directChoices.length = s.directChoices.length + n := by
  induction n with
  | zero => exact ⟨s, h, rfl⟩
  | succ n ih =>
    obtain ⟨s', h', l⟩ := ih
    obtain ⟨s2, d, e, -, I⟩ := iterate_settles he (h'.inv he R0).1.good
    exact ⟨s2, h'.rg e, by rw [I.choice]; simp [l]; omega⟩

theorem reach_impurities (he : ExactEigh p.eigh) {V H : Nat} {A : Nat → Nat → Nat → Nat → K} {s0 s : HOTRGState K} {st : Store} {dof : Option Nat}
    {chiH : Nat} {chiV : Option Nat} (g : HGood p s0) (S : Started p st V H A dof chiH chiV s0) {src : ImpSource K} {net : ImpurityNet K}
    (h : Reach p V H s0 s [(src, net)]) (h0 : src.order ≠ 0) {k : Nat} (hk : src.dof = some k) (n : Nat)
    (hn : net.iterateIdx + n ≤ s.directChoices.length) :
    ∃ s' net', Reach p V H s0 s' [(src, net')] ∧ s'.directChoices = s.directChoices ∧ net'.iterateIdx = net.iterateIdx + n := by
  induction n with
  | zero => exact ⟨s, net, h, rfl, rfl⟩
  | succ n ih =>
    obtain ⟨s', net', h', l, i⟩ := ih (by omega)
    have := (C56_iterate he g S h' List.mem_cons_self).2.2.2.2.2.2
    rw [if_neg (by rw [l, i]; omega), if_neg h0, hk] at this
    obtain ⟨s2, net2, e, hi, hc⟩ := this
    exact ⟨s2, net2, h'.imp (j := 0) rfl e, hc.trans l, by rw [hi, i]; rfl⟩

theorem reach_grown (he : ExactEigh p.eigh) {V H : Nat} {A : Nat → Nat → Nat → Nat → K} {s0 s : HOTRGState K} (R0 : RGInv p V H A s0)
    {nets : List (ImpSource K × ImpurityNet K)} (h : Reach p V H s0 s nets) (hn : ∀ c ∈ s0.aNorms, ∃ b, c = p.norm b) :
    Grown s0 s ∧ ∀ c ∈ s.aNorms, ∃ b, c = p.norm b := by
  induction h with
  | start => exact ⟨.refl _, hn⟩
  | other h k w ih => exact ⟨ih.1.trans (used_store (h.inv he R0).1.good w k).grown, ih.2⟩
  | rg h e ih =>
    obtain ⟨s2, d, e2, -, I⟩ := iterate_settles he (h.inv he R0).1.good
    obtain rfl := Settles.unique e e2
    refine ⟨ih.1.trans I.grown, fun c hc => ?_⟩
    obtain ⟨t, N, -⟩ := I.tensor
    obtain ⟨b, -, hb, -⟩ := N.a
    rw [hb] at hc
    rcases List.mem_append.mp hc with hc | hc
    · exact ih.2 c hc
    · exact ⟨b, List.mem_singleton.mp hc⟩
  | make h hs ho e ih =>
    obtain ⟨st', net, e', U, -⟩ := newImp_ok (h.inv he R0).1.good hs ho
    obtain ⟨rfl, rfl⟩ := Prod.mk.inj (Except.ok.inj (e.symm.trans e'))
    exact ⟨ih.1.trans U.grown, ih.2⟩
  | init h hj e ih =>
    obtain ⟨R, I⟩ := h.inv he R0
    obtain ⟨s', net', e', U, -⟩ := ensure_ok R (I _ (List.mem_of_getElem? hj))
    obtain ⟨rfl, rfl⟩ := Prod.mk.inj (Except.ok.inj (e.symm.trans e'))
    refine ⟨ih.1.trans U.grown, ?_⟩
    obtain ⟨_, _, _, rfl, _⟩ := U
    exact ih.2
  | imp h hj e ih =>
    obtain ⟨R, I⟩ := h.inv he R0
    obtain ⟨U, -⟩ := iterateImp_settled he R (I _ (List.mem_of_getElem? hj)) e
    refine ⟨ih.1.trans U.grown, ?_⟩
    obtain ⟨_, _, _, rfl, _⟩ := U
    exact ih.2

end

/-- The hypotheses of all theorems above can be met: the Ising model on any number of steps that keep everything, with the impurities made after
the first half of the steps of `HOTRG`. -/
example (n m : Nat) (beta field : ℝ) : ∃ (p : RGParams ℝ) (st : Store) (A : Nat → Nat → Nat → Nat → ℝ) (s0 s : HOTRGState ℝ) (src : ImpSource ℝ)
    (net : ImpurityNet ℝ), ExactEigh p.eigh ∧ HGood p s0 ∧ Started p st 2 2 A (some 2) 0 none s0 ∧ Reach p 2 2 s0 s [(src, net)] ∧
    s.directChoices.length = n + m ∧ net.iterateIdx = n + m ∧ src.order = 2 ∧ src.dof = some 2 ∧ TriangleTRGState.TrueNorm p.norm ∧ (∀ c ∈ s.aNorms, c ≠ 0) ∧
    (∀ P ∈ s.projectors.take net.iterateIdx, ∃ n, P.shape = [n, n]) ∧
    (∀ u < 2, ∀ l < 2, ∀ d < 2, ∀ r < 2, A u l d r = measured u l d r none * Real.exp (-(beta * aroundEnergy 1 1 u l d r) + field * aroundM u l d r)) ∧
    (∀ u < 2, ∀ l < 2, ∀ d < 2, ∀ r < 2,
      src.A 0 u l d r = measured u l d r none * Real.exp (-(beta * aroundEnergy 1 1 u l d r) + field * aroundM u l d r)) ∧
    (∀ u < 2, ∀ l < 2, ∀ d < 2, ∀ r < 2,
      src.A 1 u l d r = measured u l d r (some "M") * Real.exp (-(beta * aroundEnergy 1 1 u l d r) + field * aroundM u l d r)) := by
  obtain ⟨eigh, he⟩ := exists_eigh
  let p : RGParams ℝ := ⟨fun _ _ => 0, id, fun _ => 2, eigh, 0⟩
  have he : ExactEigh p.eigh := he
  obtain ⟨st1, t, e1, w1, -, q1, v1, l1, val1⟩ := C51_square Reachable.empty.wf beta field (obs := none) (by simp)
  obtain ⟨st2, t2, e2, w2, k2, q2, v2, l2, val2⟩ := C51_square w1 beta field (obs := some "M") (by simp)
  obtain ⟨s0, e0, g, S⟩ := C50_new (p := p) w2 (V := 2) (H := 2) (A := t.site st2) (x := .inl t)
    ⟨q1.kept k2, (k2.dimOf q1.labels.known _).trans v1, (k2.dimOf q1.labels.known _).trans l1, rfl⟩ (some 2) 0 none
  have R0 := S.inv g
  have hA : ∀ u < 2, ∀ l < 2, ∀ d < 2, ∀ r < 2,
      t.site st2 u l d r = measured u l d r none * Real.exp (-(beta * aroundEnergy 1 1 u l d r) + field * aroundM u l d r) := by
    rw [q1.site_kept k2]
    exact val1
  obtain ⟨sa, ha, la⟩ := reach_steps he R0 (.start (p := p) (V := 2) (H := 2)) n
  have hN : ∀ c ∈ s0.aNorms, ∃ b, c = p.norm b := by
    obtain ⟨t, N, -⟩ := S.tensor
    obtain ⟨b, -, hn, -⟩ := N.a
    intro c hc
    rw [hn] at hc
    exact ⟨b, List.mem_singleton.mp hc⟩
  have ka : LegsUnchanged s0.st sa.st := (reach_grown he R0 ha hN).1.kept
  have kb := S.kept.trans ka
  have hs : Sites sa.st 2 2 [(t, some 2), (t2, some 2)] := by
    intro x hx
    simp only [List.mem_cons, List.not_mem_nil, or_false] at hx
    rcases hx with rfl | rfl
    · exact ⟨(q1.kept k2).kept kb, ((k2.trans kb).dimOf q1.labels.known _).trans v1, ((k2.trans kb).dimOf q1.labels.known _).trans l1⟩
    · exact ⟨q2.kept kb, (kb.dimOf q2.labels.known _).trans v2, (kb.dimOf q2.labels.known _).trans l2⟩
  obtain ⟨-, hm⟩ := C56_rg he g S ha
  obtain ⟨st', net, en⟩ := hm [(t, some 2), (t2, some 2)] none hs le_rfl
  have hb := ha.make hs le_rfl en
  obtain ⟨sc, hc, lc⟩ := reach_steps he R0 hb m
  have hidx : net.iterateIdx = 0 := by
    unfold ImpurityNet.new at en
    cases hcp : copyTensors p sa.st [(t, some 2), (t2, some 2)] with
    | error x => rw [hcp] at en; cases en
    | ok y =>
      rw [hcp] at en
      obtain ⟨-, rfl⟩ := Prod.mk.inj (Except.ok.inj en)
      rfl
  have lc' : sc.directChoices.length = n + m := by
    rw [lc]
    show sa.directChoices.length + m = n + m
    rw [la, S.empty.2.1]
    simp
  obtain ⟨s, net', h, hch, hi⟩ := reach_impurities he g S hc (by simp [impSource]) (k := 2) rfl (n + m) (by rw [hidx, lc']; simp)
  obtain ⟨G, hnorm⟩ := reach_grown he R0 h hN
  have hchi : ∀ d, s.chi d = 0 := by
    intro d
    unfold HOTRGState.chi
    rw [G.chi.1, G.chi.2, S.chi.1, S.chi.2]
    simp
  obtain ⟨R, -⟩ := h.inv he R0
  refine ⟨p, st2, t.site st2, s0, s, _, net', he, g, S, h, by rw [hch, lc'], by rw [hi, hidx, Nat.zero_add], rfl, rfl, fun _ => ⟨by show (0 : ℝ) ≤ 2; norm_num, fun h => absurd h (by show (2 : ℝ) ≠ 0; norm_num)⟩, ?_, ?_, hA, ?_, ?_⟩
  · intro c hc
    obtain ⟨b, rfl⟩ := hnorm c hc
    show (2 : ℝ) ≠ 0
    norm_num
  · intro P hP
    obtain ⟨i, hP⟩ := List.mem_iff_getElem?.mp (List.mem_of_mem_take hP)
    obtain ⟨d, c, T⟩ := R.step i (R.projectors ▸ (List.getElem?_eq_some_iff.mp hP).1)
    obtain rfl := Option.some.inj (T.projector.symm.trans hP)
    obtain ⟨-, sp, -⟩ := solveEnv_prj (envMatrix_eigh he (s.dimV i) (s.dimH i) (s.siteAt i) d) (s.chi d)
    refine ⟨envSize (s.dimV i) (s.dimH i) d, sp.trans ?_⟩
    rw [hchi]
    simp [prjCols, envKept]
  · show ∀ u < 2, ∀ l < 2, ∀ d < 2, ∀ r < 2, t.site sa.st u l d r = _
    rw [(q1.kept k2).site_kept kb]
    exact hA
  · show ∀ u < 2, ∀ l < 2, ∀ d < 2, ∀ r < 2, t2.site sa.st u l d r = _
    rw [q2.site_kept kb]
    exact val2

end CTL
