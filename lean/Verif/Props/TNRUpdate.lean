import Verif.Props.HOTRG
import Verif.Lemmas.Isometry

/-! C66: what `TensorUpdateSVD` and the error of `TNR.py` return. -/

namespace CTL

open Finset (range)
variable {K : Type} [Field K] [LinearOrder K] [IsStrictOrderedRing K]

/-- The array as a matrix with `n` rows and `m` columns. -/
def NDArray.asMat {R : Type} [Zero R] (a : NDArray R) (n m : Nat) (i j : Nat) : R := (⟨[n, m], a.data⟩ : NDArray R).get [i, j]

theorem range_sum_getD (l : List K) : ∑ k ∈ range l.length, l.getD k 0 = l.sum := by
  induction l with
  | nil => rfl
  | cons x l ih =>
    rw [List.length_cons, Finset.sum_range_succ', List.sum_cons, ← ih, add_comm]
    rfl

/-- C66: `TensorUpdateSVD` returns an isometry of the shape of the environment, no isometry overlaps more with the
environment, and the overlap is the sum of the singular values. -/
theorem C66_update [StarRing K] [TrivialStar K] {la : LinAlg K} (hla : UnitaryLinAlg la) {e : NDArray K} (we : e.WF)
    {L R : List Nat} (hs : e.shape = L ++ R) (hL : L ≠ []) (hR : R ≠ [])
    (hnn : ∀ x ∈ (la.svd ⟨[L.prod, R.prod], e.data⟩).2.1, 0 ≤ x) :
    ∃ w, tensorUpdateSVD la e L.length = .ok w ∧ w.WF ∧ w.shape = L ++ R ∧ IsIsometry L.prod R.prod (w.asMat L.prod R.prod) ∧
      ∑ i ∈ range L.prod, ∑ j ∈ range R.prod, w.asMat L.prod R.prod i j * e.asMat L.prod R.prod i j =
        (la.svd ⟨[L.prod, R.prod], e.data⟩).2.1.sum ∧
      ∀ x, IsIsometry L.prod R.prod x →
        ∑ i ∈ range L.prod, ∑ j ∈ range R.prod, x i j * e.asMat L.prod R.prod i j ≤
          ∑ i ∈ range L.prod, ∑ j ∈ range R.prod, w.asMat L.prod R.prod i j * e.asMat L.prod R.prod i j := by
  set n := L.prod with hn
  set m := R.prod with hm
  have wm : (⟨[n, m], e.data⟩ : NDArray K).WF := by
    unfold NDArray.WF at we ⊢
    rw [we, hs, List.prod_append]
    simp [hn, hm]
  have h := hla _ n m wm rfl
  set o := la.svd ⟨[n, m], e.data⟩ with ho
  have hu : ∀ k < n, ∀ l < n, ∑ i ∈ range n, o.1.get [i, k] * o.1.get [i, l] = if k = l then 1 else 0 := by
    have := h.uOrtho
    simpa only [star_trivial] using this
  have hv : ∀ k < m, ∀ l < m, ∑ j ∈ range m, o.2.2.get [k, j] * o.2.2.get [l, j] = if k = l then 1 else 0 := by
    have := h.vOrtho
    simpa only [star_trivial] using this
  have c1 : (o.1.takeCols (min n m)).shape = [n, min n m] := by
    simp only [NDArray.takeCols, NDArray.build_shape, h.uShape, List.getD_cons_zero, List.getD_cons_succ]
    congr 2
    omega
  have c2 : (o.2.2.takeRows (min n m)).shape = [min n m, m] := by
    simp only [NDArray.takeRows, NDArray.build_shape, h.vShape, List.getD_cons_zero, List.getD_cons_succ]
    congr 1
    omega
  obtain ⟨c, hc, sc, wc, vc⟩ := matmul_get c1 c2
  have run : tensorUpdateSVD la e L.length = .ok ⟨L ++ R, c.data⟩ := by
    unfold tensorUpdateSVD
    simp only [hs, List.take_left, List.drop_left]
    rw [if_neg (by simp [hL, hR])]
    simp only [NDArray.reshape, hs, List.prod_append, List.prod_cons, List.prod_nil, mul_one, if_true]
    show (do
      let prod ← (o.1.takeCols (min n m)).matmul (o.2.2.takeRows (min n m))
      if prod.shape.prod = n * m then Except.ok (⟨L ++ R, prod.data⟩ : NDArray K) else .error PyErr.valueError) = _
    rw [hc]
    show (if c.shape.prod = n * m then Except.ok (⟨L ++ R, c.data⟩ : NDArray K) else .error PyErr.valueError) = _
    rw [sc, if_pos (by simp)]
  have wv : ∀ i < n, ∀ j < m, (⟨L ++ R, c.data⟩ : NDArray K).asMat n m i j =
      polar (min n m) (fun i k => o.1.get [i, k]) (fun k j => o.2.2.get [k, j]) i j := by
    intro i hi j hj
    unfold NDArray.asMat
    rw [← sc]
    show c.get [i, j] = _
    rw [vc i hi j hj]
    unfold polar
    refine Finset.sum_congr rfl fun t ht => ?_
    have ht := Finset.mem_range.mp ht
    have b1 : t < min n m := ht
    congr 1
    · unfold NDArray.takeCols at c1 ⊢
      rw [NDArray.get_build]
      rw [NDArray.build_shape] at c1
      rw [c1]
      exact valid2 hi b1
    · unfold NDArray.takeRows at c2 ⊢
      rw [NDArray.get_build]
      rw [NDArray.build_shape] at c2
      rw [c2]
      exact valid2 b1 hj
  have he : ∀ i < n, ∀ j < m, e.asMat n m i j = ∑ k ∈ range (min n m), o.1.get [i, k] * o.2.1.getD k 0 * o.2.2.get [k, j] :=
    fun i hi j hj => h.exact i hi j hj
  have best := polar_best hu hv he
  have same : ∑ i ∈ range n, ∑ j ∈ range m, (⟨L ++ R, c.data⟩ : NDArray K).asMat n m i j * e.asMat n m i j =
      ∑ k ∈ range (min n m), o.2.1.getD k 0 := by
    rw [← best.1]
    refine Finset.sum_congr rfl fun i hi => Finset.sum_congr rfl fun j hj => ?_
    rw [wv i (Finset.mem_range.mp hi) j (Finset.mem_range.mp hj)]
  refine ⟨_, run, ?_, rfl, ?_, ?_, ?_⟩
  · unfold NDArray.WF at wc ⊢
    rw [sc] at wc
    rw [wc, List.prod_append]
    simp [hn, hm]
  · have iso := polar_isometry hu hv
    constructor
    · intro hle j hj l hl
      rw [← iso.1 hle j hj l hl]
      exact Finset.sum_congr rfl fun i hi => by rw [wv i (Finset.mem_range.mp hi) j hj, wv i (Finset.mem_range.mp hi) l hl]
    · intro hle j hj l hl
      rw [← iso.2 hle j hj l hl]
      exact Finset.sum_congr rfl fun i hi => by rw [wv j hj i (Finset.mem_range.mp hi), wv l hl i (Finset.mem_range.mp hi)]
  · rw [same, ← h.sLen]
    exact range_sum_getD o.2.1
  · intro x hx
    rw [same]
    refine best.2 (fun k hk => ?_) x hx
    rw [List.getD_eq_getElem?_getD, List.getElem?_eq_getElem (by rw [h.sLen]; exact hk)]
    exact hnn _ (List.getElem_mem _)

omit [LinearOrder K] [IsStrictOrderedRing K] in
/-- C66: with no dimensions on one side, and only then, `TensorUpdateSVD` raises a TypeError. -/
theorem C66_update_error (la : LinAlg K) (e : NDArray K) (k : Nat) :
    tensorUpdateSVD la e k = .error .typeError ↔ k = 0 ∨ e.shape.length ≤ k := by
  have hc : (e.shape.take k = [] ∨ e.shape.drop k = []) ↔ k = 0 ∨ e.shape.length ≤ k := by
    rw [List.take_eq_nil_iff, List.drop_eq_nil_iff]
    constructor
    · rintro ((h | h) | h)
      · exact .inl h
      · exact .inr (by simp [h])
      · exact .inr h
    · rintro (h | h)
      · exact .inl (.inl h)
      · exact .inr h
  constructor
  · intro h
    by_contra hn
    unfold tensorUpdateSVD at h
    simp only at h
    rw [if_neg (by rw [hc]; exact hn)] at h
    unfold NDArray.reshape at h
    split at h
    · simp only [bind, Except.bind] at h
      split at h
      · rename_i x hx
        unfold NDArray.matmul at hx
        split at hx
        · split at hx <;> simp_all
        · simp_all
      · split at h <;> cases h
    · cases h
  · intro h
    unfold tensorUpdateSVD
    simp only
    rw [if_pos (hc.mpr h)]

variable {p : RGParams K} {env : NDArray K} {n : Nat}

/-- The trace is the sum of the eigenvalues. -/
theorem mtrace_eigh (h : IsEigh env n (p.eigh env)) (hs : env.shape = [n, n]) : env.mtrace = (p.eigh env).1.sum := by
  have hr := orth_cols (v := fun i k => (p.eigh env).2.get [k, i]) h.orth
  have e1 : env.mtrace = ∑ i ∈ range n, env.get [i, i] := by
    unfold NDArray.mtrace
    rw [hs]
    simp only [List.getD_cons_zero, List.getD_cons_succ, Nat.min_self]
    rfl
  have e2 : ∀ i ∈ range n, env.get [i, i] = ∑ j ∈ range n, (∑ k ∈ range n, env.get [i, k] * (p.eigh env).2.get [k, j]) * (p.eigh env).2.get [i, j] := by
    intro i hi
    simp only [Finset.sum_mul]
    rw [Finset.sum_comm, Finset.sum_eq_single i]
    · simp only [mul_assoc, ← Finset.mul_sum]
      rw [hr i (Finset.mem_range.mp hi) i (Finset.mem_range.mp hi), if_pos rfl, mul_one]
    · intro k hk hne
      simp only [mul_assoc, ← Finset.mul_sum]
      rw [hr k (Finset.mem_range.mp hk) i (Finset.mem_range.mp hi), if_neg hne, mul_zero]
    · exact fun h => absurd hi h
  rw [e1, Finset.sum_congr rfl e2, Finset.sum_comm, ← range_sum_getD, h.len]
  refine Finset.sum_congr rfl fun j hj => ?_
  have hj := Finset.mem_range.mp hj
  have : ∀ i ∈ range n, (∑ k ∈ range n, env.get [i, k] * (p.eigh env).2.get [k, j]) * (p.eigh env).2.get [i, j] =
      (p.eigh env).1.getD j 0 * ((p.eigh env).2.get [i, j] * (p.eigh env).2.get [i, j]) := by
    intro i hi
    rw [h.eig i (Finset.mem_range.mp hi) j hj, mul_assoc]
  rw [Finset.sum_congr rfl this, ← Finset.mul_sum, h.orth j hj j hj, if_pos rfl, mul_one]

/-- C66: the reported error is the share of the eigenvalues cut off, as an absolute value: of the `n` eigenvalues all but
the last `k` are cut off, where `k` is the number of columns of the projector. -/
theorem C66_spErr (h : IsEigh env n (p.eigh env)) (hs : env.shape = [n, n]) (chi : Nat) :
    ∃ k, k ≤ n ∧ (solveEnv p env chi).1.shape = [n, k] ∧
      spErr env (solveEnv p env chi).1 = .ok |((p.eigh env).1.take (n - k)).sum / (p.eigh env).1.sum| := by
  obtain ⟨k, hk, _, w, sh, orth, eig⟩ := C50_solveEnv h chi
  refine ⟨k, hk, sh, ?_⟩
  set q := (solveEnv p env chi).1 with hq
  have st : (q.transpose [1, 0]).shape = [k, n] := by
    simp [NDArray.transpose, sh]
  have vt : ∀ i < k, ∀ j < n, (q.transpose [1, 0]).get [i, j] = q.get [j, i] := by
    intro i hi j hj
    unfold NDArray.transpose
    rw [NDArray.get_build]
    · rw [sh]
      rfl
    · rw [sh]
      exact valid2 hi hj
  obtain ⟨a, ha, sa, _, va⟩ := matmul_get st hs
  obtain ⟨b, hb, sb, _, vb⟩ := matmul_get sa sh
  unfold spErr
  rw [ha]
  show (do let b ← a.matmul q; Except.ok |(env.mtrace - b.mtrace) / env.mtrace|) = _
  rw [hb]
  show Except.ok |(env.mtrace - b.mtrace) / env.mtrace| = _
  rw [mtrace_eigh h hs]
  have tb : b.mtrace = ((p.eigh env).1.drop (n - k)).sum := by
    have e1 : b.mtrace = ∑ i ∈ range k, b.get [i, i] := by
      unfold NDArray.mtrace
      rw [sb]
      simp only [List.getD_cons_zero, List.getD_cons_succ, Nat.min_self]
      rfl
    have e2 : ∀ i ∈ range k, b.get [i, i] = (p.eigh env).1.getD (n - 1 - i) 0 := by
      intro i hi
      have hi := Finset.mem_range.mp hi
      rw [vb i hi i hi]
      have : ∀ t ∈ range n, a.get [i, t] * q.get [t, i] = ∑ x ∈ range n, q.get [x, i] * (env.get [x, t] * q.get [t, i]) := by
        intro t ht
        rw [va i hi t (Finset.mem_range.mp ht), Finset.sum_mul]
        refine Finset.sum_congr rfl fun x hx => ?_
        rw [vt i hi x (Finset.mem_range.mp hx), mul_assoc]
      rw [Finset.sum_congr rfl this, Finset.sum_comm]
      simp only [← Finset.mul_sum]
      have : ∀ x ∈ range n, q.get [x, i] * ∑ t ∈ range n, env.get [x, t] * q.get [t, i] =
          (p.eigh env).1.getD (n - 1 - i) 0 * (q.get [x, i] * q.get [x, i]) := by
        intro x hx
        rw [eig x (Finset.mem_range.mp hx) i hi]
        ring
      rw [Finset.sum_congr rfl this, ← Finset.mul_sum, orth i hi i hi, if_pos rfl, mul_one]
    rw [e1, Finset.sum_congr rfl e2, ← range_sum_getD, List.length_drop, h.len]
    have hkk : n - (n - k) = k := by omega
    rw [hkk, ← Finset.sum_range_reflect]
    refine Finset.sum_congr rfl fun i hi => ?_
    have hi := Finset.mem_range.mp hi
    rw [List.getD_eq_getElem?_getD, List.getD_eq_getElem?_getD, List.getElem?_drop]
    congr 2
    omega
  rw [tb]
  have := List.sum_take_add_sum_drop (p.eigh env).1 (n - k)
  rw [← this, add_sub_cancel_right]

end CTL
