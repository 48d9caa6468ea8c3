import Verif.Lemmas.TRGExact
import Verif.Props.HOTRGCases
import Verif.Lemmas.SvdExists

/-! C52: `SquareTRG` computes the partition function of a torus. -/

namespace CTL
variable {K : Type}

open Finset (range)

section
variable [Field K] [LinearOrder K] [Star K] {p : RGParams K} {la : LinAlg K}

/-- C52: the constructor takes a tensor of the square lattice or an array, divides by the norm and archives the result. -/
theorem C52_new {st : Store} (wf : WFStore st) {V H : Nat} {A : Nat → Nat → Nat → Nat → K} {x : Tensor K ⊕ NDArray K}
    (hx : InitialSite st V H A x) (dof : Option Nat) (chi : Nat) (fuel : Nat) :
    ∃ s, SquareTRGState.new p la fuel st x none dof chi = .ok s ∧ SquareTRGState.Good p s ∧ SquareTRGState.Started p st V H A dof chi s :=
  SquareTRGState.new_ok wf hx dof chi fuel

/-- C52, a deviation: with a second tensor the constructor never returns an object. -/
theorem C52_new_two (fuel : Nat) (st : Store) (x b : Tensor K ⊕ NDArray K) (dof : Option Nat) (chi : Nat) (s : SquareTRGState K) :
    SquareTRGState.new p la fuel st x (some b) dof chi ≠ .ok s :=
  SquareTRGState.new_fails fuel st x b dof chi s

variable [TrivialStar K]

/-- C52: every call of `iterate` succeeds, and does what `Iterated` says: the four factors around a square, divided by the norm,
and everything recorded. -/
theorem C52_iterate (hla : ExactLinAlg la) {s : SquareTRGState K} (g : SquareTRGState.Good p s) (hchi : 0 < s.chi) :
    ∃ s', Settles (fun fuel => s.iterate p la fuel) s' ∧ SquareTRGState.Good p s' ∧ SquareTRGState.Iterated p la s s' :=
  SquareTRGState.iterate_settles hla g hchi

/-- C52: any number of calls succeeds. -/
theorem C52_run (hla : ExactLinAlg la) {s0 : SquareTRGState K} (g : SquareTRGState.Good p s0) (hchi : 0 < s0.chi) (n : Nat) :
    ∃ s, SquareTRGState.Ran p la s0 n s ∧ SquareTRGState.Good p s := by
  obtain ⟨s, r, g1, -⟩ := SquareTRGState.run_exists hla g hchi n
  exact ⟨s, r, g1⟩

/-- C52: the trace of the archived tensor number `i`, times the factor taken out by the normalizations, is the partition function of
the torus of `2 ^ i` sites, if no step has cut off singular values other than 0. -/
theorem C52_exact (hla : ExactLinAlg la) {st : Store} {V H : Nat} {A : Nat → Nat → Nat → Nat → K} {dof : Option Nat} {chi : Nat}
    {s0 : SquareTRGState K} (g : SquareTRGState.Good p s0) (S : SquareTRGState.Started p st V H A dof chi s0) (hchi : 0 < chi) {n : Nat} {s : SquareTRGState K}
    (h : SquareTRGState.Ran p la s0 n s)
    (hl : ∀ i < n, ∀ s1, SquareTRGState.Ran p la s0 i s1 → LosslessSVD la s1.mat s1.chi ∧ LosslessSVD la s1.crossMat s1.chi)
    (h0 : ∀ c ∈ s.aNorms, c ≠ 0) :
    s.aArchive.length = n + 1 ∧ s.aNorms.length = n + 1 ∧ s.errors.length = n ∧
      ∀ i ≤ n, ∃ t x, s.aArchive[i]? = some (t, dof.getD 1 * 2 ^ i) ∧ squareTrace s.st t = .ok x ∧
        totalScale (s.aNorms.take (i + 1)) * x = trgTorus i V H A := by
  have C := h.coarse hla g (S.chi ▸ hchi) S.coarse hl h0
  refine ⟨C.archive, C.norms, C.errors, fun i hi => ?_⟩
  obtain ⟨⟨t, k⟩, e⟩ : ∃ y, s.aArchive[i]? = some y := ⟨_, List.getElem?_eq_getElem (by rw [C.archive]; omega)⟩
  obtain ⟨q, hk, E⟩ := C.all i t k e
  refine ⟨t, _, hk ▸ e, C49_squareTrace q.labels q.v q.h, ?_⟩
  have := E Plane.point
  rw [Plane.card_point, pow_one, trgTorus_eq, Plane.Z_point] at this
  exact this

theorem run_size (hla : ExactLinAlg la) {s0 : SquareTRGState K} (g : SquareTRGState.Good p s0) (hchi : 0 < s0.chi) : ∀ {n : Nat} {s : SquareTRGState K},
    SquareTRGState.Ran p la s0 n s → s.chi = s0.chi ∧ s.a.dimOf s.st "u" * s.a.dimOf s.st "l" ≤ (s0.a.dimOf s0.st "u" * s0.a.dimOf s0.st "l") ^ 2 ^ n
  | 0, s, h => by
    obtain rfl := SquareTRGState.Ran.zero.mp h
    simp
  | n + 1, s, h => by
    obtain ⟨s1, r1, g1, c1, -, I⟩ := h.succ hla g hchi
    obtain ⟨c, ih⟩ := run_size hla g hchi r1
    refine ⟨I.chi.trans c, ?_⟩
    rw [I.v, I.h, pow_succ 2 n, pow_mul, pow_two]
    exact Nat.mul_le_mul ((Nat.min_le_right _ _).trans ih) ((Nat.min_le_right _ _).trans ih)

/-- C52: the same when `chi` is so large that nothing is ever cut off. -/
theorem C52_exact_size (hla : ExactLinAlg la) {st : Store} {V H : Nat} {A : Nat → Nat → Nat → Nat → K} {dof : Option Nat} {chi : Nat}
    {s0 : SquareTRGState K} (g : SquareTRGState.Good p s0) (S : SquareTRGState.Started p st V H A dof chi s0) {n : Nat} {s : SquareTRGState K} (h : SquareTRGState.Ran p la s0 n s)
    (hchi : (V * H) ^ 2 ^ (n - 1) ≤ chi) (h0 : ∀ c ∈ s.aNorms, c ≠ 0) :
    ∀ i ≤ n, ∃ t x, s.aArchive[i]? = some (t, dof.getD 1 * 2 ^ i) ∧ squareTrace s.st t = .ok x ∧
        totalScale (s.aNorms.take (i + 1)) * x = trgTorus i V H A := by
  have hV : V ≠ 0 := S.v ▸ dimOf_pos g.a.labels (by decide) (by decide)
  have hH : H ≠ 0 := S.h ▸ dimOf_pos g.a.labels (by decide) (by decide)
  have hVH : 0 < V * H := Nat.pos_of_ne_zero (Nat.mul_ne_zero hV hH)
  have pos : 0 < chi := lt_of_lt_of_le (Nat.pow_pos hVH) hchi
  refine (C52_exact hla g S pos h (fun i hi s1 r1 => ?_) h0).2.2.2
  obtain ⟨c1, b1⟩ := run_size hla g (S.chi ▸ pos) r1
  rw [S.v, S.h] at b1
  have hle : s1.a.dimOf s1.st "u" * s1.a.dimOf s1.st "l" ≤ s1.chi := by
    rw [c1, S.chi]
    refine b1.trans (le_trans ?_ hchi)
    exact Nat.pow_le_pow_right hVH (Nat.pow_le_pow_right (by decide) (by omega))
  exact ⟨lossless_of_size hla (NDArray.build_wf _ _) rfl hle, lossless_of_size hla (NDArray.build_wf _ _) rfl hle⟩

variable [IsStrictOrderedRing K]

/-- C52: the same when all recorded errors are 0. -/
theorem C52_exact_errors (hla : ExactLinAlg la) {st : Store} {V H : Nat} {A : Nat → Nat → Nat → Nat → K} {dof : Option Nat} {chi : Nat}
    {s0 : SquareTRGState K} (g : SquareTRGState.Good p s0) (S : SquareTRGState.Started p st V H A dof chi s0) (hchi : 0 < chi) {n : Nat} {s : SquareTRGState K}
    (h : SquareTRGState.Ran p la s0 n s) (herr : ∀ e ∈ s.errors, e = (0, 0)) (h0 : ∀ c ∈ s.aNorms, c ≠ 0) :
    ∀ i ≤ n, ∃ t x, s.aArchive[i]? = some (t, dof.getD 1 * 2 ^ i) ∧ squareTrace s.st t = .ok x ∧
        totalScale (s.aNorms.take (i + 1)) * x = trgTorus i V H A := by
  refine (C52_exact hla g S hchi h (fun i hi s1 r1 => ?_) h0).2.2.2
  obtain ⟨-, hr⟩ := SquareTRGState.Ran.errors hla g (S.chi ▸ hchi) S.empty h
  obtain ⟨s2, r2, -, e⟩ := hr i hi
  obtain rfl := Settles.unique r1 r2
  obtain ⟨e1, e2⟩ := Prod.mk.inj (herr _ (List.mem_of_getElem? e))
  exact ⟨lossless_of_share e1, lossless_of_share e2⟩

/-- C52: entry `i` of `logZDensity` is the logarithm of the partition function of the torus per degree of freedom. -/
theorem C52_logZ (hla : ExactLinAlg la) {log : K → K} (hlog : ∀ x y, 0 < x → 0 < y → log (x * y) = log x + log y)
    {st : Store} {V H : Nat} {A : Nat → Nat → Nat → Nat → K} {dof : Option Nat} {chi : Nat}
    {s0 : SquareTRGState K} (g : SquareTRGState.Good p s0) (S : SquareTRGState.Started p st V H A dof chi s0) (hchi : 0 < chi) {n : Nat} {s : SquareTRGState K}
    (h : SquareTRGState.Ran p la s0 n s)
    (hl : ∀ i < n, ∀ s1, SquareTRGState.Ran p la s0 i s1 → LosslessSVD la s1.mat s1.chi ∧ LosslessSVD la s1.crossMat s1.chi)
    (h0 : ∀ c ∈ s.aNorms, 0 < c) (hZ : ∀ i ≤ n, 0 < trgTorus i V H A) :
    ∃ res, s.logZDensity log = .ok res ∧ res.length = n + 1 ∧
      ∀ i ≤ n, res[i]? = some (log (trgTorus i V H A) / ((dof.getD 1 * 2 ^ i : Nat) : K)) := by
  have C := h.coarse hla g (S.chi ▸ hchi) S.coarse hl fun c hc => (h0 c hc).ne'
  obtain ⟨res, e, len, hv⟩ := logZ_values hlog C.norms C.archive (fun i t k e => (C.all i t k e).2.1)
    (tr := fun t => ∑ i ∈ range (t.dimOf s.st "u"), ∑ j ∈ range (t.dimOf s.st "l"), t.site s.st i j i j) (st := s.st) (by
      intro x hx
      obtain ⟨i, hi⟩ := List.mem_iff_getElem?.mp hx
      have q := (C.all i x.1 x.2 hi).1
      exact C49_squareTrace q.labels q.v q.h)
    (Z := fun i => trgTorus i V H A) (by
      intro i t k e
      have := (C.all i t k e).2.2 Plane.point
      rw [Plane.card_point, pow_one, trgTorus_eq, Plane.Z_point] at this
      exact this) h0 hZ
  exact ⟨res, (logLoop_same log s.st 0 _).trans e, len, hv⟩

theorem run_all_norms (hla : ExactLinAlg la) {s0 : SquareTRGState K} (g : SquareTRGState.Good p s0) (hchi : 0 < s0.chi)
    (h0 : ∀ c ∈ s0.aNorms, ∃ b, c = p.norm b) : ∀ {n : Nat} {s : SquareTRGState K}, SquareTRGState.Ran p la s0 n s → ∀ c ∈ s.aNorms, ∃ b, c = p.norm b
  | 0, s, h => by
    obtain rfl := SquareTRGState.Ran.zero.mp h
    exact h0
  | n + 1, s, h => by
    obtain ⟨s1, r1, -, -, -, I⟩ := h.succ hla g hchi
    obtain ⟨t, uA, vA, uB, vB, N, -⟩ := I.tensor
    obtain ⟨b, -, hn, -⟩ := N.a
    intro c hc
    rw [hn] at hc
    rcases List.mem_append.mp hc with hc | hc
    · exact run_all_norms hla g hchi h0 r1 c hc
    · exact ⟨b, List.mem_singleton.mp hc⟩

end

theorem trgTorus_pos [Field K] [LinearOrder K] [IsStrictOrderedRing K] {V H : Nat} (hV : 0 < V) (hH : 0 < H) {A : Nat → Nat → Nat → Nat → K}
    (h : ∀ u < V, ∀ l < H, ∀ d < V, ∀ r < H, 0 < A u l d r) (i : Nat) : 0 < trgTorus i V H A := by
  rw [← trgTorus_eq, Plane.Z]
  haveI : Nonempty (Fin V) := ⟨⟨0, hV⟩⟩
  haveI : Nonempty (Fin H) := ⟨⟨0, hH⟩⟩
  exact Finset.sum_pos (fun v _ => Finset.sum_pos (fun w _ => Finset.prod_pos fun s _ =>
    h _ (Fin.isLt _) _ (Fin.isLt _) _ (Fin.isLt _) _ (Fin.isLt _)) Finset.univ_nonempty) Finset.univ_nonempty

theorem started_norms [Field K] {p : RGParams K} {st : Store} {V H : Nat} {A : Nat → Nat → Nat → Nat → K} {dof : Option Nat} {chi : Nat}
    {s : SquareTRGState K} (S : SquareTRGState.Started p st V H A dof chi s) : ∀ c ∈ s.aNorms, ∃ b, c = p.norm b := by
  obtain ⟨t, N, -⟩ := S.tensor
  obtain ⟨b, -, hn, -⟩ := N.a
  intro c hc
  rw [hn] at hc
  exact ⟨b, List.mem_singleton.mp hc⟩

/-- The hypotheses of `C52_logZ` hold for any number of steps: `chi` large enough, and a norm that is positive. -/
example (n : Nat) : ∃ (p : RGParams ℝ) (la : LinAlg ℝ) (s0 s : SquareTRGState ℝ) (res : List ℝ), ExactLinAlg la ∧
    SquareTRGState.new p la 0 Store.empty (.inr sampleArray) none none (4 ^ 2 ^ n) = .ok s0 ∧ SquareTRGState.Ran p la s0 n s ∧
    s.logZDensity Real.log = .ok res ∧
    res[n]? = some (Real.log (trgTorus n 2 2 fun u l d r => sampleArray.get [u, l, d, r]) / (2 : ℝ) ^ n) := by
  obtain ⟨la, hla, -⟩ := exists_linAlg ℝ
  let p : RGParams ℝ := ⟨fun _ _ => 0, id, fun _ => 2, fun m => ([], m), 1 / 10 ^ 10⟩
  obtain ⟨s0, e0, g, S⟩ := C52_new (p := p) (la := la) Reachable.empty.wf (V := 2) (H := 2) (A := fun u l d r => sampleArray.get [u, l, d, r])
    (x := .inr sampleArray) ⟨NDArray.build_wf _ _, rfl, by decide, by decide, fun _ _ _ _ => rfl⟩ none (4 ^ 2 ^ n) 0
  have pos : 0 < 4 ^ 2 ^ n := Nat.pow_pos (by decide)
  obtain ⟨s, h, -⟩ := C52_run hla g (S.chi ▸ pos) n
  have hn : ∀ c ∈ s.aNorms, 0 < c := by
    intro c hc
    obtain ⟨b, rfl⟩ := run_all_norms hla g (S.chi ▸ pos) (started_norms S) h c hc
    show (0 : ℝ) < 2
    norm_num
  obtain ⟨res, e, -, hv⟩ := C52_logZ hla (log := Real.log) (fun x y hx hy => Real.log_mul hx.ne' hy.ne') g S pos h (fun i hi s1 r1 => by
      obtain ⟨c1, b1⟩ := run_size hla g (S.chi ▸ pos) r1
      rw [S.v, S.h] at b1
      have hle : s1.a.dimOf s1.st "u" * s1.a.dimOf s1.st "l" ≤ s1.chi := by
        rw [c1, S.chi]
        exact b1.trans (Nat.pow_le_pow_right (by decide) (Nat.pow_le_pow_right (by decide) (by omega)))
      exact ⟨lossless_of_size hla (NDArray.build_wf _ _) rfl hle, lossless_of_size hla (NDArray.build_wf _ _) rfl hle⟩) hn
    (fun i _ => trgTorus_pos (by decide) (by decide) sampleArray_pos i)
  refine ⟨p, la, s0, s, res, hla, e0, h, e, ?_⟩
  rw [hv n le_rfl]
  simp

/-- The hypotheses of `C52_exact_errors` hold for a step that cuts nothing off. -/
example : ∃ (p : RGParams ℝ) (la : LinAlg ℝ) (s0 s : SquareTRGState ℝ), ExactLinAlg la ∧ SquareTRGState.Good p s0 ∧
    SquareTRGState.Started p Store.empty 2 2 (fun u l d r => sampleArray.get [u, l, d, r]) none 4 s0 ∧ SquareTRGState.Ran p la s0 1 s ∧
    (∀ e ∈ s.errors, e = (0, 0)) ∧ ∀ c ∈ s.aNorms, c ≠ 0 := by
  obtain ⟨la, hla, -⟩ := exists_linAlg ℝ
  let p : RGParams ℝ := ⟨fun _ _ => 0, id, fun _ => 2, fun m => ([], m), 1 / 10 ^ 10⟩
  obtain ⟨s0, e0, g, S⟩ := C52_new (p := p) (la := la) Reachable.empty.wf (V := 2) (H := 2) (A := fun u l d r => sampleArray.get [u, l, d, r])
    (x := .inr sampleArray) ⟨NDArray.build_wf _ _, rfl, by decide, by decide, fun _ _ _ _ => rfl⟩ none 4 0
  have pos : 0 < s0.chi := S.chi ▸ (by decide)
  obtain ⟨s, h, -⟩ := C52_run hla g pos 1
  refine ⟨p, la, s0, s, hla, g, S, h, fun e he => ?_, fun c hc => ?_⟩
  · obtain ⟨len, hr⟩ := SquareTRGState.Ran.errors hla g pos S.empty h
    obtain ⟨i, hi⟩ := List.mem_iff_getElem?.mp he
    have hi1 : i < 1 := len ▸ (List.getElem?_eq_some_iff.mp hi).1
    obtain ⟨s1, r1, -, e1⟩ := hr i hi1
    obtain rfl : i = 0 := by omega
    obtain rfl := SquareTRGState.Ran.zero.mp r1
    rw [hi] at e1
    rw [Option.some.inj e1]
    have hd : ∀ m : NDArray ℝ, m.WF → m.shape = [4, 4] → cutShare la m s1.chi = 0 := by
      intro m wm sm
      unfold cutShare
      rw [S.chi, if_pos]
      rw [List.drop_eq_nil_iff, (hla.svd m 4 4 wm sm).sLen]
      decide
    have hs : [s1.a.dimOf s1.st "u" * s1.a.dimOf s1.st "l", s1.a.dimOf s1.st "u" * s1.a.dimOf s1.st "l"] = [4, 4] := by
      rw [S.v, S.h]
    exact Prod.ext (hd _ (NDArray.build_wf _ _) hs) (hd _ (NDArray.build_wf _ _) hs)
  · obtain ⟨b, rfl⟩ := run_all_norms hla g pos (started_norms S) h c hc
    show (2 : ℝ) ≠ 0
    norm_num

end CTL
