import Verif.Props.TRG
import Verif.Props.HOTRGNorms

/-! C52 without hypotheses about the recorded norms: a norm is 0 only if a partition function is. -/

namespace CTL
variable {K : Type}

open Finset (range)

namespace SquareTRGState

section
variable [Field K] [LinearOrder K] [IsStrictOrderedRing K] [Star K] {p : RGParams K} {la : LinAlg K} {s0 s : SquareTRGState K}

theorem norm_pos (hn : TriangleTRGState.TrueNorm p.norm) {t : Tensor K} {st : Store} {b : NDArray K} (e : t.a = some b)
    (h : ¬ ∀ u l d r, t.site st u l d r = 0) : 0 < p.norm b :=
  lt_of_le_of_ne (hn b).1 fun e0 => h (site_zero e ((hn b).2 e0.symm))

omit [LinearOrder K] [IsStrictOrderedRing K] [Star K] in
theorem Z_zero {P : Plane} {V H : Nat} {A : Nat → Nat → Nat → Nat → K} (x : P.S) (h : ∀ u < V, ∀ l < H, ∀ d < V, ∀ r < H, A u l d r = 0) :
    P.Z V H A = 0 := by
  rw [Plane.Z]
  refine Finset.sum_eq_zero fun v _ => Finset.sum_eq_zero fun w _ => Finset.prod_eq_zero (Finset.mem_univ x) ?_
  exact h _ (Fin.isLt _) _ (Fin.isLt _) _ (Fin.isLt _) _ (Fin.isLt _)

theorem Started.norms_pos (hn : TriangleTRGState.TrueNorm p.norm) {st : Store} {V H : Nat} {A : Nat → Nat → Nat → Nat → K} {dof : Option Nat}
    {chi : Nat} (S : Started p st V H A dof chi s) (hZ : trgTorus 0 V H A ≠ 0) : ∀ c ∈ s.aNorms, 0 < c := by
  obtain ⟨t, N, ht⟩ := S.tensor
  obtain ⟨b, eb, hb, -⟩ := N.a
  intro c hc
  rw [hb] at hc
  obtain rfl := List.mem_singleton.mp hc
  refine norm_pos (st := s.st) hn eb fun h => hZ ?_
  rw [← trgTorus_eq]
  exact Z_zero (P := Plane.point) (Classical.choice (Fintype.card_pos_iff.mp (by rw [Plane.card_point]; exact Nat.one_pos)))
    fun u _ l _ d _ r _ => (ht u l d r).symm.trans (h u l d r)

theorem Iterated.norms_pos (hla : ExactLinAlg la) (hn : TriangleTRGState.TrueNorm p.norm) {V H : Nat} {A : Nat → Nat → Nat → Nat → K} {dof0 n : Nat}
    (C : Coarse V H A dof0 n s) {s' : SquareTRGState K} (I : Iterated p la s s') (hA : LosslessSVD la s.mat s.chi)
    (hB : LosslessSVD la s.crossMat s.chi) (hZ : trgTorus (n + 1) V H A ≠ 0) (h0 : ∀ c ∈ s.aNorms, 0 < c) : ∀ c ∈ s'.aNorms, 0 < c := by
  obtain ⟨t, uA, vA, uB, vB, N, FA, FB, ht⟩ := I.tensor
  obtain ⟨b, eb, hb, -⟩ := N.a
  intro c hc
  rw [hb] at hc
  rcases List.mem_append.mp hc with hc | hc
  · exact h0 c hc
  obtain rfl := List.mem_singleton.mp hc
  refine norm_pos (st := s'.st) hn eb fun h => hZ ?_
  have key := Plane.Z_refine Plane.point (FA.site hla hA) (FB.cross hla hB)
  rw [← I.v] at key
  rw [← trgTorus_eq, Function.iterate_succ_apply, ← C.last Plane.point.refine, ← key, Z_zero, mul_zero]
  · exact Classical.choice (Fintype.card_pos_iff.mp (by rw [Plane.card_point]; exact Nat.one_pos))
  · intro u hu l hl d hd r hr
    rw [I.v, ← I.h] at hl hr
    exact (ht u hu l hl d hd r hr).symm.trans (h u l d r)

variable [TrivialStar K]

theorem Ran.coarse_pos {st : Store} {V H : Nat} {A : Nat → Nat → Nat → Nat → K} {dof : Option Nat} {chi : Nat} (hla : ExactLinAlg la)
    (hn : TriangleTRGState.TrueNorm p.norm) (g : Good p s0) (S : Started p st V H A dof chi s0) (hchi : 0 < chi) :
    ∀ {n : Nat} {s : SquareTRGState K}, Ran p la s0 n s →
    (∀ i < n, ∀ s1, Ran p la s0 i s1 → LosslessSVD la s1.mat s1.chi ∧ LosslessSVD la s1.crossMat s1.chi) →
    (∀ i ≤ n, trgTorus i V H A ≠ 0) → Coarse V H A (dof.getD 1) n s ∧ ∀ c ∈ s.aNorms, 0 < c
  | 0, s, h, _, hZ => by
    obtain rfl := Ran.zero.mp h
    have := S.norms_pos hn (hZ 0 le_rfl)
    exact ⟨S.coarse fun c hc => (this c hc).ne', this⟩
  | n + 1, s, h, hl, hZ => by
    obtain ⟨s1, r1, g1, -, -, I⟩ := h.succ hla g (S.chi ▸ hchi)
    obtain ⟨C1, p1⟩ := Ran.coarse_pos hla hn g S hchi r1 (fun i hi => hl i (by omega)) fun i hi => hZ i (by omega)
    obtain ⟨hA, hB⟩ := hl n (by omega) s1 r1
    have p2 := I.norms_pos hla hn C1 hA hB (hZ _ le_rfl) p1
    exact ⟨C1.step hla I hA hB fun c hc => (p2 c hc).ne', p2⟩

end

end SquareTRGState

section
variable [Field K] [LinearOrder K] [IsStrictOrderedRing K] [Star K] [TrivialStar K] {p : RGParams K} {la : LinAlg K}

/-- C52: if the norm is 0 only for zero arrays, no recorded norm is 0 unless a partition function is. -/
theorem C52_norms (hla : ExactLinAlg la) (hn : TriangleTRGState.TrueNorm p.norm) {st : Store} {V H : Nat} {A : Nat → Nat → Nat → Nat → K}
    {dof : Option Nat} {chi : Nat} {s0 : SquareTRGState K} (g : SquareTRGState.Good p s0)
    (S : SquareTRGState.Started p st V H A dof chi s0) (hchi : 0 < chi) {n : Nat} {s : SquareTRGState K} (h : SquareTRGState.Ran p la s0 n s)
    (hl : ∀ i < n, ∀ s1, SquareTRGState.Ran p la s0 i s1 → LosslessSVD la s1.mat s1.chi ∧ LosslessSVD la s1.crossMat s1.chi)
    (hZ : ∀ i ≤ n, trgTorus i V H A ≠ 0) : ∀ c ∈ s.aNorms, 0 < c :=
  (SquareTRGState.Ran.coarse_pos hla hn g S hchi h hl hZ).2

/-- C52: with positive entries and `chi` so large that nothing is cut off, `logZDensity` is exact. -/
theorem C52_logZ_positive (hla : ExactLinAlg la) (hn : TriangleTRGState.TrueNorm p.norm) {log : K → K}
    (hlog : ∀ x y, 0 < x → 0 < y → log (x * y) = log x + log y) {st : Store} {V H : Nat} {A : Nat → Nat → Nat → Nat → K}
    (hA : ∀ u < V, ∀ l < H, ∀ d < V, ∀ r < H, 0 < A u l d r) {dof : Option Nat} {chi : Nat} {s0 : SquareTRGState K}
    (g : SquareTRGState.Good p s0) (S : SquareTRGState.Started p st V H A dof chi s0) {n : Nat} {s : SquareTRGState K}
    (h : SquareTRGState.Ran p la s0 n s) (hchi : (V * H) ^ 2 ^ (n - 1) ≤ chi) :
    ∃ res, s.logZDensity log = .ok res ∧ res.length = n + 1 ∧
      ∀ i ≤ n, res[i]? = some (log (trgTorus i V H A) / ((dof.getD 1 * 2 ^ i : Nat) : K)) := by
  have hV : V ≠ 0 := S.v ▸ dimOf_pos g.a.labels (by decide) (by decide)
  have hH : H ≠ 0 := S.h ▸ dimOf_pos g.a.labels (by decide) (by decide)
  have hVH : 0 < V * H := Nat.pos_of_ne_zero (Nat.mul_ne_zero hV hH)
  have pos : 0 < chi := lt_of_lt_of_le (Nat.pow_pos hVH) hchi
  have hl : ∀ i < n, ∀ s1, SquareTRGState.Ran p la s0 i s1 → LosslessSVD la s1.mat s1.chi ∧ LosslessSVD la s1.crossMat s1.chi := by
    intro i hi s1 r1
    obtain ⟨c1, b1⟩ := run_size hla g (S.chi ▸ pos) r1
    rw [S.v, S.h] at b1
    have hle : s1.a.dimOf s1.st "u" * s1.a.dimOf s1.st "l" ≤ s1.chi := by
      rw [c1, S.chi]
      refine b1.trans (le_trans ?_ hchi)
      exact Nat.pow_le_pow_right hVH (Nat.pow_le_pow_right (by decide) (by omega))
    exact ⟨lossless_of_size hla (NDArray.build_wf _ _) rfl hle, lossless_of_size hla (NDArray.build_wf _ _) rfl hle⟩
  have hZ := fun i => trgTorus_pos (Nat.pos_of_ne_zero hV) (Nat.pos_of_ne_zero hH) hA i
  exact C52_logZ hla hlog g S pos h hl (C52_norms hla hn g S pos h hl fun i _ => (hZ i).ne') fun i _ => hZ i

end

/-- The hypotheses of `C52_logZ_positive` hold for any number of steps, with the sum of the absolute values as the norm. -/
example (n : Nat) : ∃ (p : RGParams ℝ) (la : LinAlg ℝ) (s0 s : SquareTRGState ℝ) (res : List ℝ), ExactLinAlg la ∧
    p.norm = (fun b => (b.data.map fun x => |x|).sum) ∧
    SquareTRGState.new p la 0 Store.empty (.inr sampleArray) none none (4 ^ 2 ^ n) = .ok s0 ∧ SquareTRGState.Ran p la s0 n s ∧
    s.logZDensity Real.log = .ok res ∧ res.length = n + 1 := by
  obtain ⟨la, hla, -⟩ := exists_linAlg ℝ
  let p : RGParams ℝ := ⟨fun _ _ => 0, id, fun b => (b.data.map fun x => |x|).sum, fun m => ([], m), 1 / 10 ^ 10⟩
  obtain ⟨s0, e0, g, S⟩ := C52_new (p := p) (la := la) Reachable.empty.wf (V := 2) (H := 2) (A := fun u l d r => sampleArray.get [u, l, d, r])
    (x := .inr sampleArray) ⟨NDArray.build_wf _ _, rfl, by decide, by decide, fun _ _ _ _ => rfl⟩ none (4 ^ 2 ^ n) 0
  have pos : 0 < 4 ^ 2 ^ n := Nat.pow_pos (by decide)
  obtain ⟨s, h, -⟩ := C52_run hla g (S.chi ▸ pos) n
  obtain ⟨res, e, len, -⟩ := C52_logZ_positive hla absSum_true (log := Real.log) (fun x y hx hy => Real.log_mul hx.ne' hy.ne') sampleArray_pos g S h
    (Nat.pow_le_pow_right (by decide) (Nat.pow_le_pow_right (by decide) (by omega)))
  exact ⟨p, la, s0, s, res, hla, rfl, e0, h, e, len⟩

end CTL
