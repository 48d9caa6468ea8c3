import Verif.Props.CTMRGTensor

/-! C60: the decomposition of a tensor by its labels. -/

namespace CTL
open Finset
variable {K : Type}

/-- The number of the row, or of the column, that belongs to indices for the labels. -/
def jointIndex (st : Store) (t : Tensor K) (ls : List String) (xs : List (String × Nat)) : Nat :=
  ravel (ls.map (t.dimOf st)) (ls.map (indexAt xs))

/-- The product of the dimensions. -/
def jointDim (st : Store) (t : Tensor K) (ls : List String) : Nat := (ls.map (t.dimOf st)).prod

/-- The product of the three tensors, with `k` values kept. -/
def svdProduct [Field K] (st : Store) (d : SVDTensors K) (R C i1 i2 : String) (k i j : Nat) : K :=
  ∑ l ∈ range k, d.u.at st [(R, i), (i1, l)] * d.s.at st [(R, l), (C, l)] * d.v.at st [(i2, l), (C, j)]

theorem jointIndex_lt {st : Store} {t : Tensor K} {ls : List String} {xs : List (String × Nat)} (h : ∀ x ∈ ls, indexAt xs x < t.dimOf st x) :
    jointIndex st t ls xs < jointDim st t ls := ravel_lt (validIdx_map ls _ _ h)

theorem svdTail_eq [AddCommMonoid K] (f : K → K) : ∀ (s : List K) (k : Nat), ((s.drop k).map f).sum = ∑ l ∈ Ico k s.length, f (s.getD l 0)
  | [], k => by simp
  | x :: s, 0 => by
    have := svdTail_eq f s 0
    rw [List.drop_zero, ← Finset.range_eq_Ico] at this
    rw [List.drop_zero, List.map_cons, List.sum_cons, this, List.length_cons, ← Finset.range_eq_Ico, Finset.sum_range_succ', add_comm]
    rfl
  | x :: s, k + 1 => by
    rw [List.drop_succ_cons, svdTail_eq f s k, List.length_cons, ← Finset.sum_Ico_add' _ k s.length 1]
    rfl

section
variable [Field K] [LinearOrder K] [StarRing K] (p : RGParams K) {la : LinAlg K}

/-- What `tensorSVDDecomposition` returns for any labels in the rows and in the columns. -/
theorem tensorSVD_ok (hla : UnitaryLinAlg la) {st : Store} (wf : WFStore st) {t : Tensor K} {labels rows cols : List String}
    (h : HasLabels st t labels) (hp : labels.Perm (rows ++ cols)) (nd : (rows ++ cols).Nodup) (hr : rows ≠ []) (hc : cols ≠ [])
    (inner : Option (String × String)) {R C i1 i2 : String} (eR : R = "|".intercalate rows) (eC : C = "|".intercalate cols)
    (ei : (i1, i2) = inner.getD ("inner:" ++ R, "inner:" ++ C)) (hRC : R ≠ C) (h1 : R ≠ i1) (h2 : i2 ≠ C) {chi : Nat} (hchi : chi ≠ 0) (e : Nat) :
    ∃ M st' d, tensorSVDDecomposition p la st t rows cols inner chi e = .ok (st', d) ∧ WFStore st' ∧ LegsUnchanged st st' ∧
      M.WF ∧ M.shape = [jointDim st t rows, jointDim st t cols] ∧
      (∀ xs, (∀ x ∈ rows ++ cols, indexAt xs x < t.dimOf st x) → M.get [jointIndex st t rows xs, jointIndex st t cols xs] = t.at st xs) ∧
      IsMatrix st' d.u R i1 (jointDim st t rows) (min chi (min (jointDim st t rows) (jointDim st t cols))) (fun i k => (la.svd M).1.get [i, k]) ∧
      IsDiagonal st' d.s R C (min chi (min (jointDim st t rows) (jointDim st t cols))) (fun k => (la.svd M).2.1.getD k 0) ∧
      IsMatrix st' d.v i2 C (min chi (min (jointDim st t rows) (jointDim st t cols))) (jointDim st t cols) (fun k j => (la.svd M).2.2.get [k, j]) ∧
      d.error = (svdTruncated la M chi e).error := by
  obtain ⟨M, eM, wM, sM, vM⟩ := h.matrix rows cols nd hp hr hc
  have h' : HasLabels st t (rows ++ cols) := ⟨h.good, h.dense, h.known, h.pos, h.labels.trans hp⟩
  have hn : jointDim st t rows ≠ 0 := by
    unfold jointDim
    rw [Ne, List.prod_eq_zero_iff, List.mem_map]
    rintro ⟨x, hx, e0⟩
    exact dimOf_pos h' nd (List.mem_append_left _ hx) e0
  have hm : jointDim st t cols ≠ 0 := by
    unfold jointDim
    rw [Ne, List.prod_eq_zero_iff, List.mem_map]
    rintro ⟨x, hx, e0⟩
    exact dimOf_pos h' nd (List.mem_append_right _ hx) e0
  change M.shape = [jointDim st t rows, jointDim st t cols] at sM
  have S := (hla M _ _ wM sM).toIsSVD
  generalize jointDim st t rows = n at *
  generalize jointDim st t cols = m at *
  obtain ⟨k1, k2, k3, k4, k5, k6⟩ := C39_svd_kept S chi e
  have k0 : min chi (min n m) ≠ 0 := by omega
  have wu : (svdTruncated la M chi e).u.WF := NDArray.build_wf _ _
  have wv : (svdTruncated la M chi e).vh.WF := NDArray.build_wf _ _
  obtain ⟨st1, u, e1, wf1, ku, lu, du, vu⟩ := construct_plain p.rand wf wu (labels := [R, i1]) (by rw [k1]; rfl) (by simp [h1])
    (by rw [k1]; simp; omega)
  obtain ⟨st2, s, e2, wf2, ks, ls⟩ := constructDiag_plain wf1 (s := (svdTruncated la M chi e).s)
    (fun e0 => k0 (by rw [← k4, e0]; rfl)) hRC
  obtain ⟨st3, v, e3, wf3, kv, lv, dv, vv⟩ := construct_plain p.rand wf2 wv (labels := [i2, C]) (by rw [k2]; rfl) (by simp [h2])
    (by rw [k2]; simp; omega)
  rw [k1] at du
  rw [k2] at dv
  have mu : IsMatrix st1 u R i1 n (min chi (min n m)) (fun i k => (la.svd M).1.get [i, k]) :=
    ⟨lu, du _ _ (by simp), du _ _ (by simp), fun i hi j hj => by
      rw [← k5 i hi j hj]
      exact vu [i, j] rfl⟩
  have mv : IsMatrix st3 v i2 C (min chi (min n m)) m (fun k j => (la.svd M).2.2.get [k, j]) :=
    ⟨lv, dv _ _ (by simp), dv _ _ (by simp), fun i hi j hj => by
      rw [← k6 i hi j hj]
      exact vv [i, j] rfl⟩
  have ms : IsDiagonal st2 s R C (min chi (min n m)) (fun k => (la.svd M).2.1.getD k 0) := by
    rw [k4] at ls
    refine ⟨ls.labels, ls.diag, ls.dx, ls.dy, fun i hi j hj => ?_⟩
    rw [ls.val i hi j hj, k3]
    by_cases hij : i = j
    · rw [if_pos hij, if_pos hij]
      simp only [List.getD_eq_getElem?_getD, List.getElem?_take, hi, if_true]
    · rw [if_neg hij, if_neg hij]
  refine ⟨M, st3, ⟨u, s, v, _⟩, ?_, wf3, (ku.trans ks).trans kv, wM, sM, vM, mu.kept (ks.trans kv), ms.kept kv, mv, rfl⟩
  unfold tensorSVDDecomposition
  simp only [eM, bind, Except.bind, ← eR, ← eC, ← ei, e1, e2, e3]
  rfl

/-- C60: `tensorSVDDecomposition` for any labels: `u` and `v` are isometries, `s` is diagonal, the inner legs have at most `chi` values, and the
sum of the squares of what is lost is that of the singular values left out; the number returned as error is their share in the power asked for. -/
theorem C60_svd (hla : UnitaryLinAlg la) {st : Store} (wf : WFStore st) {t : Tensor K} {labels rows cols : List String}
    (h : HasLabels st t labels) (hp : labels.Perm (rows ++ cols)) (nd : (rows ++ cols).Nodup) (hr : rows ≠ []) (hc : cols ≠ [])
    (inner : Option (String × String)) {R C i1 i2 : String} (eR : R = "|".intercalate rows) (eC : C = "|".intercalate cols)
    (ei : (i1, i2) = inner.getD ("inner:" ++ R, "inner:" ++ C)) (hRC : R ≠ C) (h1 : R ≠ i1) (h2 : i2 ≠ C) {chi : Nat} (hchi : chi ≠ 0) (e : Nat) :
    ∃ (A : Nat → Nat → K) (sv : List K) (st' : Store) (d : SVDTensors K),
      tensorSVDDecomposition p la st t rows cols inner chi e = .ok (st', d) ∧ WFStore st' ∧ LegsUnchanged st st' ∧
      -- the matrix of the tensor
      (∀ xs, (∀ x ∈ rows ++ cols, indexAt xs x < t.dimOf st x) → A (jointIndex st t rows xs) (jointIndex st t cols xs) = t.at st xs) ∧
      sv.length = min (jointDim st t rows) (jointDim st t cols) ∧
      -- the tensors
      (HasLabels st' d.u [R, i1] ∧ d.u.dimOf st' R = jointDim st t rows ∧ d.u.dimOf st' i1 = min chi sv.length) ∧
      (HasLabels st' d.v [i2, C] ∧ d.v.dimOf st' i2 = min chi sv.length ∧ d.v.dimOf st' C = jointDim st t cols) ∧
      IsDiagonal st' d.s R C (min chi sv.length) (fun k => sv.getD k 0) ∧
      (∀ k < min chi sv.length, ∀ l < min chi sv.length,
        ∑ i ∈ range (jointDim st t rows), star (d.u.at st' [(R, i), (i1, k)]) * d.u.at st' [(R, i), (i1, l)] = if k = l then 1 else 0) ∧
      (∀ k < min chi sv.length, ∀ l < min chi sv.length,
        ∑ j ∈ range (jointDim st t cols), star (d.v.at st' [(i2, k), (C, j)]) * d.v.at st' [(i2, l), (C, j)] = if k = l then 1 else 0) ∧
      -- the error
      ∑ i ∈ range (jointDim st t rows), ∑ j ∈ range (jointDim st t cols),
        star (A i j - svdProduct st' d R C i1 i2 (min chi sv.length) i j) * (A i j - svdProduct st' d R C i1 i2 (min chi sv.length) i j) =
        ((sv.drop chi).map fun x => star x * x).sum ∧
      ((∀ x ∈ sv.drop chi, x = 0) → ∀ xs, (∀ x ∈ rows ++ cols, indexAt xs x < t.dimOf st x) →
        svdProduct st' d R C i1 i2 (min chi sv.length) (jointIndex st t rows xs) (jointIndex st t cols xs) = t.at st xs) ∧
      d.error = if sv.length ≤ chi then 0 else ((sv.drop chi).map (· ^ e)).sum / (sv.map (· ^ e)).sum := by
  obtain ⟨M, st', d, e1, wf', un, wM, sM, vM, mu, ms, mv, er⟩ := tensorSVD_ok p hla wf h hp nd hr hc inner eR eC ei hRC h1 h2 hchi e
  have S := hla M _ _ wM sM
  have hrow : ∀ xs, (∀ x ∈ rows ++ cols, indexAt xs x < t.dimOf st x) → jointIndex st t rows xs < jointDim st t rows := by
    intro xs hx
    exact jointIndex_lt fun x hx' => hx x (List.mem_append_left _ hx')
  have hcol : ∀ xs, (∀ x ∈ rows ++ cols, indexAt xs x < t.dimOf st x) → jointIndex st t cols xs < jointDim st t cols := by
    intro xs hx
    exact jointIndex_lt fun x hx' => hx x (List.mem_append_right _ hx')
  generalize jointDim st t rows = n at *
  generalize jointDim st t cols = m at *
  have prod : ∀ i < n, ∀ j < m, svdProduct st' d R C i1 i2 (min chi (min n m)) i j =
      partialSVD (la.svd M).1 (la.svd M).2.1 (la.svd M).2.2 (range (min chi (min n m))) i j := by
    intro i hi j hj
    unfold svdProduct partialSVD
    refine Finset.sum_congr rfl fun l hl => ?_
    rw [Finset.mem_range] at hl
    rw [mu.val i hi l hl, ms.val l hl l hl, mv.val l hl j hj, if_pos rfl]
  refine ⟨fun i j => M.get [i, j], (la.svd M).2.1, st', d, e1, wf', un, vM, S.sLen, ?_⟩
  rw [S.sLen]
  refine ⟨⟨mu.labels, mu.dx, mu.dy⟩, ⟨mv.labels, mv.dx, mv.dy⟩, ms, ?_, ?_, ?_, ?_, ?_⟩
  · intro k hk l hl
    rw [← S.uOrtho k (by omega) l (by omega)]
    refine Finset.sum_congr rfl fun i hi => ?_
    rw [Finset.mem_range] at hi
    rw [mu.val i hi k hk, mu.val i hi l hl]
  · intro k hk l hl
    rw [← S.vOrtho k (by omega) l (by omega)]
    refine Finset.sum_congr rfl fun j hj => ?_
    rw [Finset.mem_range] at hj
    rw [mv.val k hk j hj, mv.val l hl j hj]
  · have := frobenius_tail S (Ico (min chi (min n m)) (min n m)) (fun l hl => (Finset.mem_Ico.mp hl).2)
    rw [svdTail_eq (fun x => star x * x), S.sLen, show Ico chi (min n m) = Ico (min chi (min n m)) (min n m) by
      ext k; simp only [Finset.mem_Ico]; omega, ← this]
    refine Finset.sum_congr rfl fun i hi => Finset.sum_congr rfl fun j hj => ?_
    rw [Finset.mem_range] at hi hj
    rw [prod i hi j hj]
    dsimp only
    rw [S.exact i hi j hj, partialSVD_sub _ _ _ (by omega)]
  · intro h0 xs hx
    rw [prod _ (hrow xs hx) _ (hcol xs hx), cut_exact S.toIsSVD (by omega) _ (hrow xs hx) (hcol xs hx)]
    · exact vM xs hx
    · intro z hz
      refine h0 z ?_
      by_cases hc : chi ≤ min n m
      · rw [min_eq_left hc] at hz
        exact hz
      · rw [min_eq_right (by omega), List.drop_eq_nil_of_le (by rw [S.sLen])] at hz
        cases hz
  · rw [er, C39_svd_errorValue]
    simp only [List.drop_eq_nil_iff, S.sLen]

/-- C60: nothing is lost if `chi` is not smaller than both sides of the matrix. -/
theorem C60_svd_full (hla : UnitaryLinAlg la) {st : Store} (wf : WFStore st) {t : Tensor K} {labels rows cols : List String}
    (h : HasLabels st t labels) (hp : labels.Perm (rows ++ cols)) (nd : (rows ++ cols).Nodup) (hr : rows ≠ []) (hc : cols ≠ [])
    (inner : Option (String × String)) {R C i1 i2 : String} (eR : R = "|".intercalate rows) (eC : C = "|".intercalate cols)
    (ei : (i1, i2) = inner.getD ("inner:" ++ R, "inner:" ++ C)) (hRC : R ≠ C) (h1 : R ≠ i1) (h2 : i2 ≠ C) {chi : Nat} (hchi : chi ≠ 0)
    (big : min (jointDim st t rows) (jointDim st t cols) ≤ chi) (e : Nat) :
    ∃ (st' : Store) (d : SVDTensors K), tensorSVDDecomposition p la st t rows cols inner chi e = .ok (st', d) ∧ d.error = 0 ∧
      ∀ xs, (∀ x ∈ rows ++ cols, indexAt xs x < t.dimOf st x) →
        svdProduct st' d R C i1 i2 (min (jointDim st t rows) (jointDim st t cols)) (jointIndex st t rows xs) (jointIndex st t cols xs) =
          t.at st xs := by
  obtain ⟨A, sv, st', d, e1, -, -, -, len, -, -, -, -, -, -, ex, er⟩ := C60_svd p hla wf h hp nd hr hc inner eR eC ei hRC h1 h2 hchi e
  have hle : sv.length ≤ chi := by rw [len]; exact big
  refine ⟨st', d, e1, by rw [er, if_pos hle], ?_⟩
  rw [← len]
  rw [min_eq_right hle] at ex
  exact ex (by rw [List.drop_eq_nil_of_le hle]; simp)

end

/-- A tensor with three legs, split into the first and the last against the one between. -/
example : ∃ (la : LinAlg ℝ) (st : Store) (t : Tensor ℝ), UnitaryLinAlg la ∧ WFStore st ∧ HasLabels st t ["a", "b", "c"] ∧
    ["a", "b", "c"].Perm (["c", "a"] ++ ["b"]) ∧ jointDim st t ["c", "a"] = 4 ∧ jointDim st t ["b"] = 3 ∧
    "|".intercalate ["c", "a"] = "c|a" ∧ "c|a" ≠ "|".intercalate ["b"] := by
  obtain ⟨la, -, hla, -, -⟩ := exists_linAlg ℝ
  obtain ⟨st, t, -, wf, -, hl, hd, -⟩ := construct_plain (fun _ _ => (0 : ℝ)) Reachable.empty.wf
    (d := NDArray.build [2, 3, 2] fun i => (i.getD 1 0 : ℝ)) (NDArray.build_wf _ _) (labels := ["a", "b", "c"]) rfl (by decide) (by
      show ∀ x ∈ [2, 3, 2], x ≠ 0
      decide)
  have ha : t.dimOf st "a" = 2 := hd _ _ (by show ("a", 2) ∈ [("a", 2), ("b", 3), ("c", 2)]; simp)
  have hb : t.dimOf st "b" = 3 := hd _ _ (by show ("b", 3) ∈ [("a", 2), ("b", 3), ("c", 2)]; simp)
  have hc : t.dimOf st "c" = 2 := hd _ _ (by show ("c", 2) ∈ [("a", 2), ("b", 3), ("c", 2)]; simp)
  refine ⟨la, st, t, hla, wf, hl, by decide, ?_, ?_, by decide, by decide⟩
  · simp [jointDim, ha, hc]
  · simp [jointDim, hb]

end CTL
