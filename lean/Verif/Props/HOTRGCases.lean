import Verif.Props.HOTRG
import Verif.Lemmas.RealEigh
import Mathlib.Analysis.SpecialFunctions.Log.Basic

/-! C50, continued: special cases, tensors to start from, and examples. -/

namespace CTL
variable {K : Type}

open Finset (range)

/-! ### The factories -/

section
variable [Zero K]

/-- C50: `makeSquareTensor` makes a tensor with the entries of the array. -/
theorem C50_makeSquareTensor (rand : List Nat → List Nat → K) {st : Store} (wf : WFStore st) {x : NDArray K} (wx : x.WF) {a b c d : Nat}
    (sx : x.shape = [a, b, c, d]) (pos : ∀ n ∈ x.shape, n ≠ 0) :
    ∃ st' t, makeSquareTensor rand st x = .ok (st', t) ∧ WFStore st' ∧ LegsUnchanged st st' ∧ HasLabels st' t ["u", "l", "d", "r"] ∧
      t.dimOf st' "u" = a ∧ t.dimOf st' "l" = b ∧ t.dimOf st' "d" = c ∧ t.dimOf st' "r" = d ∧
      ∀ u l d r, t.site st' u l d r = x.get [u, l, d, r] := by
  obtain ⟨st1, t, e, w1, k1, l1, d1, v1⟩ := construct_plain rand wf wx (labels := ["u", "l", "d", "r"]) (by rw [sx]; rfl) (by decide) pos
  rw [sx] at d1
  refine ⟨st1, t, ?_, w1, k1, l1, d1 "u" a (by simp), d1 "l" b (by simp), d1 "d" c (by simp), d1 "r" d (by simp), fun u l d r => v1 [u, l, d, r] rfl⟩
  simp only [makeSquareTensor, sx, pyAssert]
  exact e

/-- C50: arrays with another number of axes are refused. -/
theorem C50_makeSquareTensor_refused (rand : List Nat → List Nat → K) (st : Store) (x : NDArray K) (labels : List String)
    (h : x.shape.length ≠ 4) : makeSquareTensor rand st x labels = .error .assertionError := by
  unfold makeSquareTensor
  rw [pyAssert, if_neg (by simpa using h)]
  rfl

/-- C50: `makeTriangleTensor` makes a tensor with the entries of the array. -/
theorem C50_makeTriangleTensor (rand : List Nat → List Nat → K) {st : Store} (wf : WFStore st) {x : NDArray K} (wx : x.WF) {a b c : Nat}
    (sx : x.shape = [a, b, c]) (pos : ∀ n ∈ x.shape, n ≠ 0) :
    ∃ st' t, makeTriangleTensor rand st x = .ok (st', t) ∧ WFStore st' ∧ LegsUnchanged st st' ∧ HasLabels st' t ["1", "2", "3"] ∧
      t.dimOf st' "1" = a ∧ t.dimOf st' "2" = b ∧ t.dimOf st' "3" = c ∧
      ∀ i j k, t.at st' [("1", i), ("2", j), ("3", k)] = x.get [i, j, k] := by
  obtain ⟨st1, t, e, w1, k1, l1, d1, v1⟩ := construct_plain rand wf wx (labels := ["1", "2", "3"]) (by rw [sx]; rfl) (by decide) pos
  rw [sx] at d1
  refine ⟨st1, t, ?_, w1, k1, l1, d1 "1" a (by simp), d1 "2" b (by simp), d1 "3" c (by simp), fun i j k => v1 [i, j, k] rfl⟩
  simp only [makeTriangleTensor, sx, pyAssert]
  exact e

/-- C50: arrays with another number of axes are refused. -/
theorem C50_makeTriangleTensor_refused (rand : List Nat → List Nat → K) (st : Store) (x : NDArray K) (labels : List String)
    (h : x.shape.length ≠ 3) : makeTriangleTensor rand st x labels = .error .assertionError := by
  unfold makeTriangleTensor
  rw [pyAssert, if_neg (by simpa using h)]
  rfl

/-- The two directions from a corner to its neighbours: from an upper corner down, from a left one to the right. -/
def cornerLabels : String × String → List String
  | (v, h) => [if v = "u" then "d" else "u", if h = "l" then "r" else "l", "o"]

/-- C50: `makeSquareOutTensor` at a corner makes a tensor whose legs point to the neighbours of the corner and outwards. -/
theorem C50_makeSquareOutTensor (rand : List Nat → List Nat → K) {st : Store} (wf : WFStore st) {x : NDArray K} (wx : x.WF) {a b c : Nat}
    (sx : x.shape = [a, b, c]) (pos : ∀ n ∈ x.shape, n ≠ 0) {v h : String} (hv : v ∈ ["u", "d"]) (hh : h ∈ ["l", "r"]) :
    ∃ st' t, makeSquareOutTensor rand st x (v ++ h) = .ok (st', t) ∧ WFStore st' ∧ LegsUnchanged st st' ∧
      HasLabels st' t (cornerLabels (v, h)) ∧
      ∀ i j k, t.at st' ((cornerLabels (v, h)).zip [i, j, k]) = x.get [i, j, k] := by
  have hl : ∃ y z, cornerLabels (v, h) = [y, z, "o"] ∧ [y, z, "o"].Nodup ∧
      makeSquareOutTensor rand st x (v ++ h) = construct rand st { data := some x, labels := some [y, z, "o"] } := by
    simp only [List.mem_cons, List.not_mem_nil, or_false] at hv hh
    rcases hv with rfl | rfl <;> rcases hh with rfl | rfl
    · exact ⟨"d", "r", rfl, by decide, rfl⟩
    · exact ⟨"d", "l", rfl, by decide, rfl⟩
    · exact ⟨"u", "r", rfl, by decide, rfl⟩
    · exact ⟨"u", "l", rfl, by decide, rfl⟩
  obtain ⟨y, z, e1, nd, e2⟩ := hl
  obtain ⟨st1, t, e, w1, k1, l1, d1, v1⟩ := construct_plain rand wf wx (labels := [y, z, "o"]) (by rw [sx]; rfl) nd pos
  rw [e1, e2]
  exact ⟨st1, t, e, w1, k1, l1, fun i j k => v1 [i, j, k] rfl⟩

/-- C50: other places are refused. -/
theorem C50_makeSquareOutTensor_refused (rand : List Nat → List Nat → K) (st : Store) (x : NDArray K) (loc : String)
    (h : loc ∉ ["ul", "ur", "dl", "dr"]) : makeSquareOutTensor rand st x loc = .error .assertionError := by
  unfold makeSquareOutTensor
  rw [pyAssert, if_neg (by simpa using h)]
  rfl

end

/-! ### No limit, or one that is never reached -/

section
variable [Field K] [LinearOrder K] [Star K] [TrivialStar K] [IsStrictOrderedRing K] {p : RGParams K}

theorem run_chi (he : ExactEigh p.eigh) {s0 : HOTRGState K} (g : HGood p s0) : ∀ {n : Nat} {s : HOTRGState K}, Run p s0 n s →
    s.chiH = s0.chiH ∧ s.chiV = s0.chiV
  | 0, s, h => by
    obtain rfl := Run.zero.mp h
    exact ⟨rfl, rfl⟩
  | n + 1, s, h => by
    obtain ⟨s1, d, r1, g1, -, -, I⟩ := h.succ he g
    obtain ⟨h1, h2⟩ := run_chi he g r1
    exact ⟨I.chi.1.trans h1, I.chi.2.trans h2⟩

/-- C50: with the bond dimension 0, which `solveEnv` takes as no limit, the result is exact for every tensor. -/
theorem C50_exact_unlimited (he : ExactEigh p.eigh) {st : Store} {V H : Nat} {A : Nat → Nat → Nat → Nat → K} {dof : Option Nat}
    {s0 : HOTRGState K} (g : HGood p s0) (S : Started p st V H A dof 0 none s0) {n : Nat} {s : HOTRGState K}
    (h : Run p s0 n s) (h0 : ∀ c ∈ s.aNorms, c ≠ 0) :
    ∀ i ≤ n, ∃ x, s.pureTensorTrace i = .ok x ∧
      totalScale (s.aNorms.take (i + 1)) * x =
        torus (2 ^ rowSteps (s.directChoices.take i)) (2 ^ colSteps (s.directChoices.take i)) V H A := by
  refine (C50_exact he g S h (fun i s1 d r1 _ => ?_) h0).2.2.2
  obtain ⟨h1, h2⟩ := run_chi he g r1
  have hc : s1.chi d = 0 := by
    unfold HOTRGState.chi
    rw [h1, h2, S.chi.1, S.chi.2]
    simp
  rw [hc]
  intro hk
  exact absurd (by simp [envKept]) hk

/-- C50: the first step is exact when the bond dimension is at least the square of both dimensions of the tensor and the threshold
is not positive. -/
theorem C50_exact_first (he : ExactEigh p.eigh) (ht : p.threshold ≤ 0) {st : Store} {V H : Nat} {A : Nat → Nat → Nat → Nat → K}
    {dof : Option Nat} {chi : Nat} (hV : V * V ≤ chi) (hH : H * H ≤ chi) {s0 : HOTRGState K} (g : HGood p s0)
    (S : Started p st V H A dof chi none s0) {s : HOTRGState K} (h : Run p s0 1 s) (h0 : ∀ c ∈ s.aNorms, c ≠ 0) :
    ∃ d x, s.directChoices = [d] ∧ s.pureTensorTrace 1 = .ok x ∧
      totalScale s.aNorms * x = if d.horizontal then torus 2 1 V H A else torus 1 2 V H A := by
  obtain ⟨len, -, -⟩ := (run_record he g ⟨S.empty.2.1, S.empty.2.2, S.empty.1⟩ h).1
  obtain ⟨d, hd⟩ := List.length_eq_one_iff.mp len
  obtain ⟨-, nl, -, key⟩ := C50_exact he g S h (fun i s1 d' r1 hi => by
    have hi0 : i = 0 := by
      have := (List.getElem?_eq_some_iff.mp hi).1
      omega
    subst hi0
    obtain rfl := Run.zero.mp r1
    have hE := envMatrix_eigh he (s1.a.dimOf s1.st "u") (s1.a.dimOf s1.st "l") (s1.a.site s1.st) d'
    obtain ⟨Sg, N, hN⟩ := env_gram (s1.a.dimOf s1.st "u") (s1.a.dimOf s1.st "l") (s1.a.site s1.st) d'
    refine lossless_of_count hE (eig_nonneg hE Sg N hN) ht (List.countP_le_length.trans ?_)
    rw [hE.len, S.v, S.h]
    unfold HOTRGState.chi envSize
    rw [S.chi.1, S.chi.2]
    split
    · exact hH
    · exact hV) h0
  obtain ⟨x, e, hx⟩ := key 1 le_rfl
  refine ⟨d, x, hd, e, ?_⟩
  rw [List.take_of_length_le (by omega), List.take_of_length_le (by omega), hd] at hx
  rw [hx]
  cases d <;> simp [rowSteps, colSteps, RGDir.horizontal]

end

/-! ### The error can be 0 although something is lost -/

/-- C50, a deviation: a diagonal matrix with the eigenvalues 10⁻¹¹ and 1, the default threshold 10⁻¹⁰ and `chi = 2`: the reported
error is 0, and an eigenvector with a positive eigenvalue is cut off. -/
theorem C50_error_zero_but_truncated : ∃ (p : RGParams ℚ) (m : NDArray ℚ), IsEigh m 2 (p.eigh m) ∧ p.threshold = 1 / 10 ^ 10 ∧
    (solveEnv p m 2).2 = 0 ∧ (solveEnv p m 2).1.shape = [2, 1] ∧ ¬ Lossless p m 2 := by
  refine ⟨⟨fun _ _ => 0, id, fun _ => 1, fun _ => ([1 / 10 ^ 11, 1], ⟨[2, 2], [1, 0, 0, 1]⟩), 1 / 10 ^ 10⟩,
    ⟨[2, 2], [1 / 10 ^ 11, 0, 0, 1]⟩, ⟨rfl, rfl, rfl, by norm_num, ?_, ?_⟩, rfl, ?_, ?_, ?_⟩
  · intro i hi j hj
    interval_cases i <;> interval_cases j <;> norm_num [Finset.sum_range_succ, NDArray.get, ravel]
  · intro i hi j hj
    interval_cases i <;> interval_cases j <;> norm_num [Finset.sum_range_succ, NDArray.get, ravel]
  · refine C50_solveEnv_silent 2 ?_
    norm_num [List.countP_cons]
  · norm_num [solveEnv, List.countP_cons, NDArray.flipCols, NDArray.lastCols, NDArray.build]
  · intro h
    have := h (by norm_num [envKept, List.countP_cons]) 0 (by norm_num [envKept, List.countP_cons])
    norm_num at this

/-! ### Examples -/

theorem torus_pos [CommSemiring K] [PartialOrder K] [IsStrictOrderedRing K] (a b : Nat) {V H : Nat} (hV : V ≠ 0) (hH : H ≠ 0)
    {A : Nat → Nat → Nat → Nat → K} (pos : ∀ u < V, ∀ l < H, ∀ d < V, ∀ r < H, 0 < A u l d r) : 0 < torus a b V H A := by
  have : Nonempty (Fin V) := ⟨⟨0, Nat.pos_of_ne_zero hV⟩⟩
  have : Nonempty (Fin H) := ⟨⟨0, Nat.pos_of_ne_zero hH⟩⟩
  unfold torus
  exact Finset.sum_pos (fun v _ => Finset.sum_pos (fun h _ => Finset.prod_pos fun i _ => Finset.prod_pos fun j _ =>
    pos _ (Fin.isLt _) _ (Fin.isLt _) _ (Fin.isLt _) _ (Fin.isLt _)) Finset.univ_nonempty) Finset.univ_nonempty

section
variable [Field K] [LinearOrder K] [Star K] [TrivialStar K] [IsStrictOrderedRing K] {p : RGParams K}

theorem run_norms (he : ExactEigh p.eigh) {s0 : HOTRGState K} (g : HGood p s0) (h0 : ∀ c ∈ s0.aNorms, ∃ b, c = p.norm b) :
    ∀ {n : Nat} {s : HOTRGState K}, Run p s0 n s → ∀ c ∈ s.aNorms, ∃ b, c = p.norm b
  | 0, s, h => by
    obtain rfl := Run.zero.mp h
    exact h0
  | n + 1, s, h => by
    obtain ⟨s1, d, r1, g1, -, -, I⟩ := h.succ he g
    obtain ⟨t, N, -⟩ := I.tensor
    obtain ⟨b, -, hn, -⟩ := N.a
    intro c hc
    rw [hn] at hc
    rcases List.mem_append.mp hc with hc | hc
    · exact run_norms he g h0 r1 c hc
    · exact ⟨b, List.mem_singleton.mp hc⟩

end

/-- An array for the examples. -/
def sampleArray : NDArray ℝ := NDArray.build [2, 2, 2, 2] fun idx => 1 + (idx.sum : ℝ)

theorem sampleArray_pos : ∀ u < 2, ∀ l < 2, ∀ d < 2, ∀ r < 2, 0 < sampleArray.get [u, l, d, r] := by
  intro u hu l hl d hd r hr
  unfold sampleArray
  rw [NDArray.get_build _ (validIdx_cons.mpr ⟨hu, validIdx_cons.mpr ⟨hl, validIdx_cons.mpr ⟨hd, validIdx_cons.mpr ⟨hr, validIdx_nil⟩⟩⟩⟩)]
  positivity

/-- The hypotheses of `C50_logZ` hold for any number of steps: no limit, and a norm that is positive. -/
example (n : Nat) : ∃ (p : RGParams ℝ) (s0 s : HOTRGState ℝ) (res : List ℝ), ExactEigh p.eigh ∧
    HOTRGState.new p Store.empty (.inr sampleArray) none 0 none = .ok s0 ∧ Run p s0 n s ∧ s.logZDensity Real.log = .ok res ∧
    res[n]? = some (Real.log (torus (2 ^ rowSteps s.directChoices) (2 ^ colSteps s.directChoices) 2 2
      fun u l d r => sampleArray.get [u, l, d, r]) / (2 : ℝ) ^ n) := by
  obtain ⟨eigh, he⟩ := exists_eigh
  let p : RGParams ℝ := ⟨fun _ _ => 0, id, fun _ => 2, eigh, 1 / 10 ^ 10⟩
  obtain ⟨s0, e0, g, S⟩ := C50_new (p := p) Reachable.empty.wf (V := 2) (H := 2) (A := fun u l d r => sampleArray.get [u, l, d, r])
    (x := .inr sampleArray) ⟨NDArray.build_wf _ _, rfl, by decide, by decide, fun _ _ _ _ => rfl⟩ none 0 none
  have he : ExactEigh p.eigh := he
  obtain ⟨s, h, -⟩ := C50_run he g n
  have hn : ∀ c ∈ s.aNorms, 0 < c := by
    intro c hc
    have h0 : ∀ c ∈ s0.aNorms, ∃ b, c = p.norm b := by
      obtain ⟨t, N, -⟩ := S.tensor
      obtain ⟨b, -, hn, -⟩ := N.a
      intro c hc
      rw [hn] at hc
      exact ⟨b, List.mem_singleton.mp hc⟩
    obtain ⟨b, rfl⟩ := run_norms he g h0 h c hc
    show (0 : ℝ) < 2
    norm_num
  have hl : ∀ i s1 d, Run p s0 i s1 → s.directChoices[i]? = some d → Lossless p (s1.env d) (s1.chi d) := by
    intro i s1 d r1 _
    obtain ⟨h1, h2⟩ := run_chi he g r1
    have hc : s1.chi d = 0 := by
      unfold HOTRGState.chi
      rw [h1, h2, S.chi.1, S.chi.2]
      simp
    rw [hc]
    exact fun hk => absurd (by simp [envKept]) hk
  obtain ⟨res, e, -, hv⟩ := C50_logZ he (log := Real.log) (fun x y hx hy => Real.log_mul hx.ne' hy.ne') g S h hl hn
    fun i _ => torus_pos _ _ (by decide) (by decide) sampleArray_pos
  refine ⟨p, s0, s, res, he, e0, h, e, ?_⟩
  have hc := (C50_exact he g S h hl fun c hc => (hn c hc).ne').2.2.1
  rw [hv n le_rfl, List.take_of_length_le hc.le]
  simp

/-- The hypotheses of `C50_exact_first` hold for a tensor with dimensions 2 and `chi = 4`. -/
example : ∃ (p : RGParams ℝ) (s0 s : HOTRGState ℝ), ExactEigh p.eigh ∧ p.threshold ≤ 0 ∧ HGood p s0 ∧
    Started p Store.empty 2 2 (fun u l d r => sampleArray.get [u, l, d, r]) none 4 none s0 ∧ Run p s0 1 s ∧ ∀ c ∈ s.aNorms, c ≠ 0 := by
  obtain ⟨eigh, he⟩ := exists_eigh
  let p : RGParams ℝ := ⟨fun _ _ => 0, id, fun _ => 2, eigh, 0⟩
  obtain ⟨s0, e0, g, S⟩ := C50_new (p := p) Reachable.empty.wf (V := 2) (H := 2) (A := fun u l d r => sampleArray.get [u, l, d, r])
    (x := .inr sampleArray) ⟨NDArray.build_wf _ _, rfl, by decide, by decide, fun _ _ _ _ => rfl⟩ none 4 none
  have he : ExactEigh p.eigh := he
  obtain ⟨s, h, -⟩ := C50_run he g 1
  refine ⟨p, s0, s, he, le_rfl, g, S, h, fun c hc => ?_⟩
  have h0 : ∀ c ∈ s0.aNorms, ∃ b, c = p.norm b := by
    obtain ⟨t, N, -⟩ := S.tensor
    obtain ⟨b, -, hn, -⟩ := N.a
    intro c hc
    rw [hn] at hc
    exact ⟨b, List.mem_singleton.mp hc⟩
  obtain ⟨b, rfl⟩ := run_norms he g h0 h c hc
  show (2 : ℝ) ≠ 0
  norm_num

/-- Arrays as in `C50_makeSquareTensor`, `C50_makeTriangleTensor` and `C50_makeSquareOutTensor`. -/
example : ∃ st' t, makeSquareTensor (fun _ _ => (0 : ℝ)) Store.empty (NDArray.build [2, 1, 3, 2] fun idx => (idx.sum : ℝ)) = .ok (st', t) ∧
    t.dimOf st' "d" = 3 := by
  obtain ⟨st', t, e, -, -, -, -, -, h, -⟩ := C50_makeSquareTensor (fun _ _ => (0 : ℝ)) Reachable.empty.wf
    (NDArray.build_wf [2, 1, 3, 2] fun idx => (idx.sum : ℝ)) rfl (by decide)
  exact ⟨st', t, e, h⟩

example : ∃ st' t, makeTriangleTensor (fun _ _ => (0 : ℝ)) Store.empty (NDArray.build [2, 1, 3] fun idx => (idx.sum : ℝ)) = .ok (st', t) ∧
    t.dimOf st' "3" = 3 := by
  obtain ⟨st', t, e, -, -, -, -, -, h, -⟩ := C50_makeTriangleTensor (fun _ _ => (0 : ℝ)) Reachable.empty.wf
    (NDArray.build_wf [2, 1, 3] fun idx => (idx.sum : ℝ)) rfl (by decide)
  exact ⟨st', t, e, h⟩

example : ∃ st' t, makeSquareOutTensor (fun _ _ => (0 : ℝ)) Store.empty (NDArray.build [2, 1, 3] fun idx => (idx.sum : ℝ)) "ur" = .ok (st', t) ∧
    HasLabels st' t (cornerLabels ("u", "r")) := by
  obtain ⟨st', t, e, -, -, h, -⟩ := C50_makeSquareOutTensor (fun _ _ => (0 : ℝ)) Reachable.empty.wf
    (NDArray.build_wf [2, 1, 3] fun idx => (idx.sum : ℝ)) rfl (by decide) (v := "u") (h := "r") (by decide) (by decide)
  exact ⟨st', t, e, h⟩

/-- Arrays that `makeSquareTensor` and `makeTriangleTensor` refuse. -/
example : makeSquareTensor (fun _ _ => (0 : ℝ)) Store.empty ⟨[2], [1, 2]⟩ = .error .assertionError ∧
    makeTriangleTensor (fun _ _ => (0 : ℝ)) Store.empty ⟨[2], [1, 2]⟩ = .error .assertionError :=
  ⟨C50_makeSquareTensor_refused _ _ _ _ (by decide), C50_makeTriangleTensor_refused _ _ _ _ (by decide)⟩

/-- A matrix with the eigenvalues 1 and 4, and what `solveEnv` reports when one is kept. -/
noncomputable def eighFour : RGParams ℝ :=
  ⟨fun _ _ => 0, id, fun _ => 1, fun _ => ([1, 4], ⟨[2, 2], [1, 0, 0, 1]⟩), 0⟩

example : IsEigh (⟨[2, 2], [1, 0, 0, 4]⟩ : NDArray ℝ) 2 (eighFour.eigh ⟨[2, 2], [1, 0, 0, 4]⟩) := by
  refine ⟨rfl, rfl, rfl, by norm_num [eighFour], fun i hi j hj => ?_, fun i hi j hj => ?_⟩ <;>
    interval_cases i <;> interval_cases j <;> norm_num [eighFour, Finset.sum_range_succ, NDArray.get, ravel]

example (m : NDArray ℝ) : (solveEnv eighFour m 1).2 = 1 / 5 ∧ (solveEnv eighFour m 3).2 = 0 := by
  constructor
  · rw [C50_solveEnv_error 1 (by decide) (by norm_num [eighFour]) (by norm_num [eighFour])]
    norm_num [eighFour]
  · exact C50_solveEnv_silent 3 (by norm_num [eighFour])

end CTL
