import Verif.Lemmas.MatrixError
import Verif.Lemmas.CanonTells
import Verif.Props.Canon

/-! C64: the measures of error of matrices measure what they are documented to measure. -/

namespace CTL
variable {R 𝕜 : Type} [RCLike 𝕜]
open Finset

/-- The squared distance of a matrix, given by its entries, to the identity. -/
noncomputable def distSqEye (n m : Nat) (f : Nat → Nat → 𝕜) : ℝ :=
  ∑ i ∈ range n, ∑ j ∈ range m, ‖f i j - if i = j then 1 else 0‖ ^ 2

theorem distSqEye_nonneg (n m : Nat) (f : Nat → Nat → 𝕜) : 0 ≤ distSqEye n m f :=
  sum_nonneg fun _ _ => sum_nonneg fun _ _ => by positivity

theorem distSqEye_congr {n m : Nat} {f g : Nat → Nat → 𝕜} (h : ∀ i < n, ∀ j < m, f i j = g i j) :
    distSqEye n m f = distSqEye n m g :=
  sum_congr rfl fun i hi => sum_congr rfl fun j hj => by rw [h i (mem_range.mp hi) j (mem_range.mp hj)]

theorem distSqEye_eq_zero (n m : Nat) (f : Nat → Nat → 𝕜) :
    distSqEye n m f = 0 ↔ ∀ i < n, ∀ j < m, f i j = if i = j then 1 else 0 := by
  unfold distSqEye
  rw [sum_eq_zero_iff_of_nonneg fun _ _ => sum_nonneg fun _ _ => by positivity]
  constructor
  · intro h i hi j hj
    have h := h i (mem_range.mpr hi)
    rw [sum_eq_zero_iff_of_nonneg fun _ _ => by positivity] at h
    have := h j (mem_range.mpr hj)
    rw [sq_eq_zero_iff, norm_eq_zero, sub_eq_zero] at this
    exact this
  · intro h i hi
    apply sum_eq_zero
    intro j hj
    rw [h i (mem_range.mp hi) j (mem_range.mp hj)]
    simp

theorem identityError_val {a : NDArray 𝕜} {n m : Nat} (hs : a.shape = [n, m]) :
    ∃ e, identityError a = .ok e ∧ 0 ≤ e ∧ e ^ 2 = distSqEye n m fun i j => a.get [i, j] := by
  refine ⟨(NDArray.build [n, m] fun idx => a.get idx - (NDArray.eye n m : NDArray 𝕜).get idx).norm, ?_, NDArray.norm_nonneg _, ?_⟩
  · unfold identityError
    rw [hs]
    simp only
    rw [NDArray.sub_same (by rw [hs]; rfl), hs]
    rfl
  · rw [NDArray.norm_build2]
    unfold distSqEye
    refine sum_congr rfl fun i hi => sum_congr rfl fun j hj => ?_
    rw [show (NDArray.eye n m : NDArray 𝕜).get [i, j] = if i = j then 1 else 0 from
      NDArray.get_build _ (valid2 (mem_range.mp hi) (mem_range.mp hj))]

/-- C64: `identityError` of a matrix is the distance to the identity (to ones on the diagonal, if it is not square): its square is the sum
of the squared differences of the entries, and it vanishes for the identity only. -/
theorem C64_identityError {a : NDArray 𝕜} {n m : Nat} (hs : a.shape = [n, m]) :
    ∃ e, identityError a = .ok e ∧ 0 ≤ e ∧ e ^ 2 = ∑ i ∈ range n, ∑ j ∈ range m, ‖a.get [i, j] - if i = j then 1 else 0‖ ^ 2 ∧
      (e = 0 ↔ ∀ i < n, ∀ j < m, a.get [i, j] = if i = j then 1 else 0) := by
  obtain ⟨e, h1, h2, h3⟩ := identityError_val hs
  refine ⟨e, h1, h2, h3, ?_⟩
  rw [← distSqEye_eq_zero n m fun i j => a.get [i, j], ← h3, sq_eq_zero_iff]

/-- C64: arrays with less than two axes are refused. -/
theorem C64_identityError_rank {a : NDArray 𝕜} (h : a.shape.length < 2) (eps : ℝ) :
    identityError a = .error .indexError ∧ checkIdentity eps a = .error .indexError := by
  have : identityError a = .error .indexError := by
    unfold identityError
    match hs : a.shape with
    | [] => rfl
    | [_] => rfl
    | _ :: _ :: _ => rw [hs] at h; simp at h
  refine ⟨this, ?_⟩
  unfold checkIdentity
  rw [this]
  rfl

theorem checkIdentity_val {a : NDArray 𝕜} {n m : Nat} (hs : a.shape = [n, m]) (eps : ℝ) :
    ∃ b, checkIdentity eps a = .ok b ∧ (b = true ↔ 0 < eps ∧ (distSqEye n m fun i j => a.get [i, j]) < eps ^ 2) := by
  obtain ⟨e, h1, h2, h3⟩ := identityError_val hs
  refine ⟨_, by unfold checkIdentity; rw [h1]; rfl, ?_⟩
  rw [decide_eq_true_iff, ← h3]
  constructor
  · intro h
    exact ⟨lt_of_le_of_lt h2 h, by gcongr⟩
  · rintro ⟨h4, h5⟩
    exact lt_of_pow_lt_pow_left₀ 2 h4.le h5

/-- C64: `checkIdentity(a, eps)` of a matrix tells whether the distance to the identity is below `eps`. -/
theorem C64_checkIdentity {a : NDArray 𝕜} {n : Nat} (hs : a.shape = [n, n]) {eps : ℝ} (he : 0 < eps) :
    ∃ b, checkIdentity eps a = .ok b ∧
      (b = true ↔ ∑ i ∈ range n, ∑ j ∈ range n, ‖a.get [i, j] - if i = j then 1 else 0‖ ^ 2 < eps ^ 2) := by
  obtain ⟨b, h1, h2⟩ := checkIdentity_val hs eps
  exact ⟨b, h1, h2.trans ⟨fun h => h.2, fun h => ⟨he, h⟩⟩⟩

theorem identityTest_iff {a : NDArray 𝕜} {n : Nat} (hs : a.shape = [n, n]) {eps : ℝ} (he : 0 < eps) :
    identityTest eps a = true ↔ (distSqEye n n fun i j => a.get [i, j]) < eps ^ 2 := by
  obtain ⟨b, h1, h2⟩ := checkIdentity_val hs eps
  unfold identityTest
  rw [h1]
  exact h2.trans ⟨fun h => h.2, fun h => ⟨he, h⟩⟩

/-- The identity passes. -/
theorem identityTest_identity {eps : ℝ} (he : 0 < eps) (a : NDArray 𝕜) (n : Nat) (h : IsIdentity a n) : identityTest eps a = true := by
  rw [identityTest_iff h.1 he, (distSqEye_eq_zero n n _).mpr h.2]
  positivity

/-- C64: `projectorError(a)` is the distance of `a† a` to the identity; it vanishes exactly if the columns are orthonormal. -/
theorem C64_projectorError {a : NDArray 𝕜} {n m : Nat} (hs : a.shape = [n, m]) :
    ∃ e, projectorError a = .ok e ∧ 0 ≤ e ∧
      e ^ 2 = ∑ i ∈ range m, ∑ j ∈ range m, ‖(∑ k ∈ range n, star (a.get [k, i]) * a.get [k, j]) - if i = j then 1 else 0‖ ^ 2 ∧
      (e = 0 ↔ ∀ i < m, ∀ j < m, ∑ k ∈ range n, star (a.get [k, i]) * a.get [k, j] = if i = j then 1 else 0) := by
  obtain ⟨c1, c2, c3⟩ := conjTranspose_spec hs
  obtain ⟨p, p1, p2, -, p4⟩ := matmul_get c1 hs
  obtain ⟨e, h1, h2, h3⟩ := identityError_val p2
  have h4 : ∀ i < m, ∀ j < m, p.get [i, j] = ∑ k ∈ range n, star (a.get [k, i]) * a.get [k, j] := by
    intro i hi j hj
    rw [p4 i hi j hj]
    exact sum_congr rfl fun k hk => by rw [c3 i hi k (mem_range.mp hk)]
  rw [distSqEye_congr h4] at h3
  refine ⟨e, ?_, h2, h3, ?_⟩
  · unfold projectorError aDaggerAProduct
    rw [p1]
    exact h1
  · rw [← distSqEye_eq_zero m m fun i j => ∑ k ∈ range n, star (a.get [k, i]) * a.get [k, j], ← h3, sq_eq_zero_iff]

/-- C64: the entries of `aDaggerAProduct` and `aADaggerProduct`. -/
theorem C64_products [CommRing R] [StarRing R] {a : NDArray R} {n m : Nat} (hs : a.shape = [n, m]) :
    (∃ p, aDaggerAProduct a = .ok p ∧ p.shape = [m, m] ∧
      ∀ i < m, ∀ j < m, p.get [i, j] = ∑ k ∈ range n, star (a.get [k, i]) * a.get [k, j]) ∧
    (∃ p, aADaggerProduct a = .ok p ∧ p.shape = [n, n] ∧
      ∀ i < n, ∀ j < n, p.get [i, j] = ∑ k ∈ range m, a.get [i, k] * star (a.get [j, k])) := by
  obtain ⟨c1, c2, c3⟩ := conjTranspose_spec hs
  obtain ⟨p, p1, p2, -, p4⟩ := matmul_get c1 hs
  obtain ⟨q, q1, q2, -, q4⟩ := matmul_get hs c1
  refine ⟨⟨p, p1, p2, fun i hi j hj => ?_⟩, ⟨q, q1, q2, fun i hi j hj => ?_⟩⟩
  · rw [p4 i hi j hj]
    exact sum_congr rfl fun k hk => by rw [c3 i hi k (mem_range.mp hk)]
  · rw [q4 i hi j hj]
    exact sum_congr rfl fun k hk => by rw [c3 k (mem_range.mp hk) j hj]

theorem ratio_sq {x y : ℝ} : (x / y) ^ 2 * y ^ 2 = if y = 0 then 0 else x ^ 2 := by
  split
  · next h => simp [h]
  · next h => field_simp

theorem norm_sq2 {a : NDArray 𝕜} (hw : a.WF) {n m : Nat} (hs : a.shape = [n, m]) :
    a.norm ^ 2 = ∑ i ∈ range n, ∑ j ∈ range m, ‖a.get [i, j]‖ ^ 2 := by
  have : a = NDArray.build [n, m] a.get := NDArray.ext_get hw (NDArray.build_wf _ _) hs fun i hi => by
    rw [NDArray.get_build _ (hs ▸ hi)]
  conv_lhs => rw [this]
  rw [NDArray.norm_build2]

/-- What `symmetricError`, `diagError` and `matDiffError` return, in terms of the difference. -/
theorem ratio_spec {d : NDArray 𝕜} {a : NDArray 𝕜} (hw : a.WF) {n m : Nat} (hs : a.shape = [n, m]) (f : List Nat → 𝕜)
    (hd : d = NDArray.build [n, m] f) (hz : ∃ i j, a.get [i, j] ≠ 0) :
    0 ≤ d.norm / a.norm ∧
      (d.norm / a.norm) ^ 2 * ∑ i ∈ range n, ∑ j ∈ range m, ‖a.get [i, j]‖ ^ 2 = ∑ i ∈ range n, ∑ j ∈ range m, ‖f [i, j]‖ ^ 2 ∧
      (d.norm / a.norm = 0 ↔ ∀ i < n, ∀ j < m, f [i, j] = 0) := by
  obtain ⟨i, j, hz⟩ := hz
  have hn := NDArray.norm_ne_zero hz
  refine ⟨div_nonneg (NDArray.norm_nonneg _) (NDArray.norm_nonneg _), ?_, ?_⟩
  · rw [← norm_sq2 hw hs, ratio_sq, if_neg hn, hd, NDArray.norm_build2]
  · rw [div_eq_zero_iff, or_iff_left hn, hd, NDArray.norm_build_eq_zero]
    constructor
    · exact fun h i hi j hj => h _ (valid2 hi hj)
    · intro h idx hv
      match idx, hv with
      | [i, j], hv =>
        rw [validIdx_cons, validIdx_cons] at hv
        exact h i hv.1 j hv.2.1

theorem transpose2_get [Zero R] {a : NDArray R} {n m : Nat} (hs : a.shape = [n, m]) :
    a.transpose2.shape = [m, n] ∧ ∀ i < m, ∀ j < n, a.transpose2.get [i, j] = a.get [j, i] := by
  unfold NDArray.transpose2 NDArray.transpose
  rw [hs]
  exact ⟨rfl, fun i hi j hj => by
    rw [NDArray.get_build _ (by exact valid2 hi hj)]
    simp [List.range_succ, List.idxOf_cons]⟩

/-- C64: `symmetricError` of a square matrix: the root of the sum of `|a_ij - a_ji|²` over the sum of `|a_ij|²`; zero exactly for symmetric
matrices. -/
theorem C64_symmetricError {a : NDArray 𝕜} (hw : a.WF) {n : Nat} (hs : a.shape = [n, n]) (hz : ∃ i j, a.get [i, j] ≠ 0) :
    ∃ e, symmetricError a = .ok e ∧ 0 ≤ e ∧
      e ^ 2 * ∑ i ∈ range n, ∑ j ∈ range n, ‖a.get [i, j]‖ ^ 2 = ∑ i ∈ range n, ∑ j ∈ range n, ‖a.get [i, j] - a.get [j, i]‖ ^ 2 ∧
      (e = 0 ↔ ∀ i < n, ∀ j < n, a.get [i, j] = a.get [j, i]) := by
  obtain ⟨t1, t2⟩ := transpose2_get hs
  obtain ⟨h1, h2, h3⟩ := ratio_spec hw hs (fun idx => a.get idx - a.transpose2.get idx) rfl hz
  refine ⟨_, ?_, h1, h2.trans ?_, h3.trans ?_⟩
  · unfold symmetricError
    rw [NDArray.sub_same (hs.trans t1.symm), hs]
    rfl
  · exact sum_congr rfl fun i hi => sum_congr rfl fun j hj => by rw [t2 i (mem_range.mp hi) j (mem_range.mp hj)]
  · exact forall₂_congr fun i hi => forall₂_congr fun j hj => by rw [t2 i hi j hj, sub_eq_zero]

/-- C64: `diagError` of a square matrix: the root of the sum of `|a_ij|²` off the diagonal over the sum of all `|a_ij|²`; zero exactly for
diagonal matrices. -/
theorem C64_diagError {a : NDArray 𝕜} (hw : a.WF) {n : Nat} (hs : a.shape = [n, n]) (hz : ∃ i j, a.get [i, j] ≠ 0) :
    ∃ e, diagError a = .ok e ∧ 0 ≤ e ∧
      e ^ 2 * ∑ i ∈ range n, ∑ j ∈ range n, ‖a.get [i, j]‖ ^ 2 = ∑ i ∈ range n, ∑ j ∈ range n, (if i = j then 0 else ‖a.get [i, j]‖ ^ 2) ∧
      (e = 0 ↔ ∀ i < n, ∀ j < n, i ≠ j → a.get [i, j] = 0) := by
  have hl : a.diagonal.length = n := by simp [NDArray.diagonal, hs]
  have t2 : ∀ i < n, ∀ j < n, a.get [i, j] - (NDArray.diagMatrix a.diagonal).get [i, j] = if i = j then 0 else a.get [i, j] := by
    intro i hi j hj
    rw [diagMatrix_get _ (hl.symm ▸ hi) (hl.symm ▸ hj)]
    split
    · next h =>
      subst h
      simp [NDArray.diagonal, hs, hi]
    · simp
  obtain ⟨h1, h2, h3⟩ := ratio_spec hw hs (fun idx => a.get idx - (NDArray.diagMatrix a.diagonal).get idx) rfl hz
  refine ⟨_, ?_, h1, h2.trans ?_, h3.trans ?_⟩
  · unfold diagError
    rw [NDArray.sub_same (by rw [hs]; simp [NDArray.diagMatrix, NDArray.build, hl]), hs]
    rfl
  · refine sum_congr rfl fun i hi => sum_congr rfl fun j hj => ?_
    rw [t2 i (mem_range.mp hi) j (mem_range.mp hj)]
    split <;> simp
  · refine forall₂_congr fun i hi => forall₂_congr fun j hj => ?_
    rw [t2 i hi j hj]
    split <;> simp_all

/-- C64: matrices that are not square and of which no side has length 1 are refused. -/
theorem C64_not_square {a : NDArray 𝕜} {n m : Nat} (hs : a.shape = [n, m]) (h : n ≠ m) (h1 : n ≠ 1) (h2 : m ≠ 1) :
    symmetricError a = .error .valueError := by
  obtain ⟨t1, -⟩ := transpose2_get hs
  unfold symmetricError NDArray.sub
  rw [hs, t1, if_neg (by simp [h])]
  simp [NDArray.castDim, h, h1, h2, bind, Except.bind]

/-- C64: `matDiffError(a, b)` of matrices of the same shape: `‖a - b‖ / ‖a‖`, zero exactly if the matrices are equal. -/
theorem C64_matDiffError {a b : NDArray 𝕜} (ha : a.WF) (hb : b.WF) {n m : Nat} (hs : a.shape = [n, m]) (hs' : b.shape = [n, m])
    (hz : ∃ i j, a.get [i, j] ≠ 0) :
    ∃ e, matDiffError a b = .ok e ∧ 0 ≤ e ∧
      e ^ 2 * ∑ i ∈ range n, ∑ j ∈ range m, ‖a.get [i, j]‖ ^ 2 = ∑ i ∈ range n, ∑ j ∈ range m, ‖a.get [i, j] - b.get [i, j]‖ ^ 2 ∧
      (e = 0 ↔ a = b) := by
  obtain ⟨h1, h2, h3⟩ := ratio_spec ha hs (fun idx => a.get idx - b.get idx) rfl hz
  refine ⟨_, ?_, h1, h2, h3.trans ⟨fun h => ?_, ?_⟩⟩
  · unfold matDiffError
    rw [NDArray.sub_same (hs.trans hs'.symm), hs]
    rfl
  · refine NDArray.ext_get ha hb (hs.trans hs'.symm) fun idx hv => ?_
    rw [hs] at hv
    match idx, hv with
    | [i, j], hv =>
      rw [validIdx_cons, validIdx_cons] at hv
      exact sub_eq_zero.mp (h i hv.1 j hv.2.1)
  · rintro rfl i _ j _
    exact sub_self _

/-- C64: on rows and columns, NumPy subtracts the transpose by repeating both: the row `(1, 1)` passes for a symmetric and for a diagonal
matrix, although it is not square and has an entry off the diagonal. -/
theorem C64_row_wrong :
    symmetricError (⟨[1, 2], [1, 1]⟩ : NDArray ℝ) = .ok 0 ∧ diagError (⟨[1, 2], [1, 1]⟩ : NDArray ℝ) = .ok 0 ∧
      (⟨[1, 2], [1, 1]⟩ : NDArray ℝ).get [0, 1] ≠ 0 := by
  have h1 : (⟨[1, 2], [1, 1]⟩ : NDArray ℝ).sub (NDArray.transpose2 ⟨[1, 2], [1, 1]⟩) = .ok ⟨[2, 2], [1 - 1, 1 - 1, 1 - 1, 1 - 1]⟩ := rfl
  have h2 : (⟨[1, 2], [1, 1]⟩ : NDArray ℝ).sub (NDArray.diagMatrix (NDArray.diagonal ⟨[1, 2], [1, 1]⟩)) =
    .ok ⟨[1, 2], [1 - 1, 1 - 1]⟩ := rfl
  refine ⟨?_, ?_, ?_⟩
  · unfold symmetricError
    rw [h1]
    simp [NDArray.norm, bind, Except.bind, pure, Except.pure]
  · unfold diagError
    rw [h2]
    simp [NDArray.norm, bind, Except.bind, pure, Except.pure]
  · simp [NDArray.get, ravel]

/-- C64: `getDiffError` is documented as the sum of the squared differences.  For numbers it is the square of the difference of the absolute
values. -/
theorem C64_getDiffError_number (x y : 𝕜) : getDiffError ⟨[1], [x]⟩ ⟨[1], [y]⟩ = .ok ((‖x‖ - ‖y‖) ^ 2) := by
  have h : ∀ f : List Nat → 𝕜, (NDArray.build [1] f).norm = ‖f [0]‖ := by
    intro f
    show Real.sqrt (‖f [0]‖ ^ 2 + 0) = _
    rw [add_zero, Real.sqrt_sq (norm_nonneg _)]
  unfold getDiffError
  rw [if_pos rfl]
  simp only [h]
  simp only [NDArray.get, ravel, List.prod_nil, norm_pow, norm_mul]
  simp
  ring

/-- C64: `getDiffError` does not tell apart arrays that differ in the signs of their entries: between `(1, 1)` and `(1, -1)` it finds no
difference, where the sum of the squared differences is 4; and it is not the sum of the squared differences for positive entries either. -/
theorem C64_getDiffError_wrong :
    getDiffError (⟨[2], [1, 1]⟩ : NDArray ℝ) ⟨[2], [1, -1]⟩ = .ok 0 ∧
    ∃ e, getDiffError (⟨[2], [3, 4]⟩ : NDArray ℝ) ⟨[2], [0, 0]⟩ = .ok e ∧ e < 25 := by
  have h : ∀ f : List Nat → ℝ, (NDArray.build [2] f).norm = Real.sqrt (‖f [0]‖ ^ 2 + ‖f [1]‖ ^ 2) := by
    intro f
    show Real.sqrt (‖f [0]‖ ^ 2 + (‖f [1]‖ ^ 2 + 0)) = _
    rw [add_zero]
  constructor
  · unfold getDiffError
    rw [if_pos rfl]
    simp only [h]
    simp [NDArray.get, ravel]
    ring
  · refine ⟨_, by unfold getDiffError; rw [if_pos rfl], ?_⟩
    simp only [h]
    simp [NDArray.get, ravel]
    rw [Real.sqrt_lt' (by norm_num)]
    norm_num

theorem foldl_max (xs : List 𝕜) : ∀ m : ℝ, m ≤ xs.foldl (fun m y => max m ‖y‖) m ∧ (∀ y ∈ xs, ‖y‖ ≤ xs.foldl (fun m y => max m ‖y‖) m) ∧
    (xs.foldl (fun m y => max m ‖y‖) m = m ∨ ∃ y ∈ xs, xs.foldl (fun m y => max m ‖y‖) m = ‖y‖) := by
  induction xs with
  | nil => intro m; exact ⟨le_rfl, by simp, .inl rfl⟩
  | cons x xs ih =>
    intro m
    obtain ⟨h1, h2, h3⟩ := ih (max m ‖x‖)
    simp only [List.foldl_cons]
    refine ⟨(le_max_left _ _).trans h1, ?_, ?_⟩
    · intro y hy
      rcases List.mem_cons.mp hy with rfl | hy
      · exact (le_max_right _ _).trans h1
      · exact h2 y hy
    · rcases h3 with h3 | ⟨y, hy, h3⟩
      · rcases max_choice m ‖x‖ with h | h
        · exact .inl (h3.trans h)
        · exact .inr ⟨x, by simp, h3.trans h⟩
      · exact .inr ⟨y, by simp [hy], h3⟩

/-- C64: `normalizeInfinity` divides an array that has an entry other than zero by a positive number, so that the largest absolute value
becomes 1; an array without entries is refused. -/
theorem C64_normalizeInfinity (a : NDArray 𝕜) :
    (a.data = [] → normalizeInfinity a = .error .valueError) ∧
    ((∃ x ∈ a.data, x ≠ 0) → ∃ r, normalizeInfinity a = .ok r ∧ r.shape = a.shape ∧
      (∃ m : ℝ, 0 < m ∧ r.data = a.data.map fun x => x / (m : 𝕜)) ∧ (∀ y ∈ r.data, ‖y‖ ≤ 1) ∧ ∃ y ∈ r.data, ‖y‖ = 1) := by
  constructor
  · intro h
    unfold normalizeInfinity maxAbs
    rw [h]
    rfl
  · rintro ⟨z, hz, z0⟩
    obtain ⟨x, xs, hx⟩ : ∃ x xs, a.data = x :: xs := List.exists_cons_of_ne_nil (List.ne_nil_of_mem hz)
    obtain ⟨h1, h2, h3⟩ := foldl_max xs ‖x‖
    generalize hM : xs.foldl (fun m y => max m ‖y‖) ‖x‖ = M at h1 h2 h3
    have hle : ∀ y ∈ a.data, ‖y‖ ≤ M := by
      rw [hx]
      intro y hy
      rcases List.mem_cons.mp hy with rfl | hy
      · exact h1
      · exact h2 y hy
    have hat : ∃ y ∈ a.data, ‖y‖ = M := by
      rw [hx]
      rcases h3 with h3 | ⟨y, hy, h3⟩
      · exact ⟨x, by simp, h3.symm⟩
      · exact ⟨y, by simp [hy], h3.symm⟩
    have pos : 0 < M := lt_of_lt_of_le (norm_pos_iff.mpr z0) (hle z hz)
    have hn : ∀ y : 𝕜, ‖y / (M : 𝕜)‖ = ‖y‖ / M := by
      intro y
      rw [norm_div, RCLike.norm_ofReal, abs_of_pos pos]
    refine ⟨⟨a.shape, a.data.map fun x => x / (M : 𝕜)⟩, ?_, rfl, ⟨M, pos, rfl⟩, ?_, ?_⟩
    · unfold normalizeInfinity maxAbs
      rw [hx]
      simp only [hM]
      rfl
    · intro y hy
      obtain ⟨w, hw, rfl⟩ := List.mem_map.mp hy
      rw [hn, div_le_one pos]
      exact hle w hw
    · obtain ⟨w, hw, e⟩ := hat
      exact ⟨_, List.mem_map.mpr ⟨w, hw, rfl⟩, by rw [hn, e, div_self pos.ne']⟩

/-- `Σ_L conj(t[L, a]) t[L, b]` differs from `δ_ab` by less than `eps`, in the norm of matrices. -/
def NearIsometryAt (eps : ℝ) (st : Store) (t : Tensor 𝕜) (L : List LegId) (x : LegId) : Prop :=
  ∀ σ, ∑ a ∈ range (st.dim x), ∑ b ∈ range (st.dim x),
    ‖sumLegs st.dim L (fun τ => star (entry t (τ.set x a)) * entry t (τ.set x b)) σ - if a = b then 1 else 0‖ ^ 2 < eps ^ 2

theorem tells_near (castF : 𝕜 → 𝕜) {eps : ℝ} (he : 0 < eps) (st : Store) :
    Tells castF (identityTest eps) st (NearIsometryAt eps st) := by
  intro t x cols L g dg names hc hp hL
  obtain ⟨m, h1, h2, h3⟩ := isIsometry_value castF (identityTest eps) g dg names hc hp
  have nd := hp.nodup_iff.mp g.nodup
  rw [List.nodup_cons] at nd
  refine ⟨_, h1, ?_⟩
  rw [identityTest_iff h2 he]
  have e : ∀ σ, (∑ a ∈ range (st.dim x), ∑ b ∈ range (st.dim x),
      ‖sumLegs st.dim L (fun τ => star (entry t (τ.set x a)) * entry t (τ.set x b)) σ - if a = b then 1 else 0‖ ^ 2) =
      distSqEye (st.dim x) (st.dim x) fun i j => m.get [i, j] := by
    intro σ
    unfold distSqEye
    rw [sum_comm]
    refine sum_congr rfl fun i hi => sum_congr rfl fun j hj => ?_
    beta_reduce
    rw [h3 i (mem_range.mp hi) j (mem_range.mp hj) σ, sumLegs_perm st.dim hL (hL.nodup_iff.mpr nd.2)]
    simp only [eq_comm]
  unfold NearIsometryAt
  simp only [e]
  exact ⟨fun h _ => h, fun h => h fun _ => 0⟩

/-- C64: `isIsometry(tensor, labels, eps)` tells whether the products of the rows of the tensor, seen as a matrix from its remaining leg to
the legs named, differ from those of an isometry by less than `eps`. -/
theorem C64_isIsometry (castF : 𝕜 → 𝕜) {eps : ℝ} (he : 0 < eps) {st : Store} {t : Tensor 𝕜} (g : GoodTensor st t) (dg : t.diag = false)
    (names : (t.legs.map st.name).Nodup) {x : LegId} {cols : List LegId} (hc : cols ≠ []) (hp : t.legs.Perm (x :: cols)) :
    ∃ b, isIsometry castF (identityTest eps) st t (cols.map st.name) = .ok b ∧ (b = true ↔ NearIsometryAt eps st t cols x) :=
  tells_near castF he st t x cols cols g dg names hc hp (.refl _)

/-- C64: isometries are accepted with every threshold, and what every threshold accepts is an isometry. -/
theorem C64_isometry_iff (st : Store) (t : Tensor 𝕜) (L : List LegId) (x : LegId) :
    IsometryAt st t L x ↔ ∀ eps : ℝ, 0 < eps → NearIsometryAt eps st t L x := by
  constructor
  · intro h eps he σ
    have : (∑ a ∈ range (st.dim x), ∑ b ∈ range (st.dim x),
        ‖sumLegs st.dim L (fun τ => star (entry t (τ.set x a)) * entry t (τ.set x b)) σ - if a = b then 1 else 0‖ ^ 2) = 0 :=
      sum_eq_zero fun a ha => sum_eq_zero fun b hb => by
        rw [h σ a b (mem_range.mp ha) (mem_range.mp hb)]
        simp
    rw [this]
    positivity
  · intro h σ
    have z : (distSqEye (st.dim x) (st.dim x) fun a b =>
        sumLegs st.dim L (fun τ => star (entry t (τ.set x a)) * entry t (τ.set x b)) σ) = 0 := by
      refine le_antisymm (le_of_forall_pos_lt_add fun δ hδ => ?_) (distSqEye_nonneg _ _ _)
      have := h (Real.sqrt δ) (Real.sqrt_pos.mpr hδ) σ
      rw [Real.sq_sqrt hδ.le] at this
      rw [zero_add]
      exact this
    exact fun a b ha hb => (distSqEye_eq_zero _ _ _).mp z a ha b hb

/-- C64: `checkCanonical(idx)` of a matrix product state, with the comparison of `checkIdentity`: it answers whether every site left and
right of `idx` is an isometry towards `idx` up to `eps` (`1e-10`). -/
theorem C64_checkCanonical (castF : 𝕜 → 𝕜) {eps : ℝ} (he : 0 < eps) {st : Store} {m : MPS 𝕜} {phys : List LegId}
    {lft rgt : Nat → LegId} (C : Chain st m.tensors phys lft rgt) {idx : Nat} (hi : idx < m.tensors.length) :
    ∃ b, m.checkCanonical castF (identityTest eps) st (some (idx : Int)) = .ok b ∧ (b = true ↔
      (∀ j < idx, ∀ t, m.tensors[j]? = some t → NearIsometryAt eps st t (phys.getD j 0 :: if 0 < j then [lft j] else []) (rgt j)) ∧
      (∀ j, idx < j → ∀ t, m.tensors[j]? = some t →
        NearIsometryAt eps st t (phys.getD j 0 :: if j + 1 < m.tensors.length then [rgt j] else []) (lft j))) := by
  obtain ⟨b, b1, b2⟩ := checkLoop_tells (tells_near castF he st) C hi (List.range m.tensors.length) (by simp)
  refine ⟨b, ?_, b2.trans ⟨fun h => ⟨fun j hj t ht => ?_, fun j hj t ht => ?_⟩, fun h j _ t ht => ⟨fun hj => h.1 j hj t ht, fun hj => h.2 j hj t ht⟩⟩⟩
  · unfold MPS.checkCanonical
    have : m.isIndex (idx : Int) = true := by
      unfold MPS.isIndex
      exact decide_eq_true ⟨by omega, by omega⟩
    simp only [this, pyAssert, if_true, bind, Except.bind, pure, Except.pure, Int.toNat_natCast, b1]
  · exact (h j (List.mem_range.mpr (List.getElem?_eq_some_iff.mp ht).1) t ht).1 hj
  · exact (h j (List.mem_range.mpr (List.getElem?_eq_some_iff.mp ht).1) t ht).2 hj

/-- C64: after `canonicalize(idx)`, `checkCanonical()` with the comparison of `checkIdentity` answers `True`. -/
theorem C64_canonicalize_then_check {la : LinAlg 𝕜} (hla : ExactLinAlg la) (hu : UnitaryLinAlg la) (cast castF : 𝕜 → 𝕜) {eps : ℝ}
    (he : 0 < eps) {st : Store} {m : MPS 𝕜} {phys : List LegId} (C : IsChain st m.tensors phys) {chi : Nat} (hc : m.chi = chi) {idx : Nat}
    (hi : idx < m.tensors.length) :
    ∃ st' m', m.canonicalize la cast castF st idx = .ok (st', m') ∧ m'.checkCanonical castF (identityTest eps) st' none = .ok true :=
  C46_canonicalize_then_check hla hu cast castF (identityTest_identity he) C hc hi

/-! The hypotheses can be met. -/

/-- The matrix `((1, 2), (3, 4))`. -/
def exMat : NDArray ℝ := ⟨[2, 2], [1, 2, 3, 4]⟩

example : ∃ e, identityError exMat = .ok e ∧ e ^ 2 = 22 := by
  obtain ⟨e, h1, _, h3, _⟩ := C64_identityError (a := exMat) (n := 2) (m := 2) rfl
  refine ⟨e, h1, h3.trans ?_⟩
  simp [sum_range_succ, exMat, NDArray.get, ravel]
  norm_num

example : ∃ e, symmetricError exMat = .ok e ∧ e ≠ 0 := by
  obtain ⟨e, h1, _, _, h4⟩ := C64_symmetricError (a := exMat) (by rfl) (n := 2) rfl ⟨0, 0, by simp [exMat, NDArray.get, ravel]⟩
  refine ⟨e, h1, fun h => ?_⟩
  have := h4.mp h 0 (by omega) 1 (by omega)
  simp [exMat, NDArray.get, ravel] at this

example : ∃ e, diagError exMat = .ok e ∧ e ≠ 0 := by
  obtain ⟨e, h1, _, _, h4⟩ := C64_diagError (a := exMat) (by rfl) (n := 2) rfl ⟨0, 0, by simp [exMat, NDArray.get, ravel]⟩
  refine ⟨e, h1, fun h => ?_⟩
  have := h4.mp h 0 (by omega) 1 (by omega) (by omega)
  simp [exMat, NDArray.get, ravel] at this

example : checkIdentity 5 exMat = .ok true := by
  obtain ⟨b, h1, h2⟩ := C64_checkIdentity (a := exMat) (n := 2) rfl (eps := 5) (by norm_num)
  rw [h1, h2.mpr]
  simp [sum_range_succ, exMat, NDArray.get, ravel]
  norm_num

example : symmetricError (⟨[2, 3], [1, 2, 3, 4, 5, 6]⟩ : NDArray ℝ) = .error .valueError :=
  C64_not_square (n := 2) (m := 3) rfl (by omega) (by omega) (by omega)

example : ∃ r, normalizeInfinity exMat = .ok r ∧ ∀ y ∈ r.data, ‖y‖ ≤ 1 := by
  obtain ⟨r, h1, _, _, h4, _⟩ := (C64_normalizeInfinity exMat).2 ⟨1, by simp [exMat], one_ne_zero⟩
  exact ⟨r, h1, h4⟩

example : ∃ (la : LinAlg ℂ) (st' : Store) (m' : MPS ℂ), exChainC.canonicalize la id id exChainStore (1 : Nat) = .ok (st', m') ∧
    m'.checkCanonical id (identityTest 1e-10) st' none = .ok true := by
  obtain ⟨la, h1, h2, h3, h4⟩ := exists_linAlg ℂ
  exact ⟨la, C64_canonicalize_then_check h1 h2 id id (by norm_num) ⟨_, _, exChainC_chain⟩ (chi := 2) rfl (idx := 1)
    (by simp [exChainC, exChain])⟩

example : ∃ b, exChainC.checkCanonical id (identityTest 1e-10) exChainStore (some ((1 : Nat) : Int)) = .ok b := by
  obtain ⟨b, h, _⟩ := C64_checkCanonical id (eps := 1e-10) (by norm_num) exChainC_chain (idx := 1) (by simp [exChainC, exChain])
  exact ⟨b, h⟩

end CTL
