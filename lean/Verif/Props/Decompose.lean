import Verif.Lemmas.Merge
import Verif.Props.Link
import Mathlib.Tactic.IntervalCases
import Mathlib.Data.Rat.Defs

/-! C39: truncated decompositions. -/

namespace CTL
variable {R : Type}
open Finset

/-- `SVDDecomposition(a, chi, returnSV = True)`: the first `min(chi, n, m)` singular values with their vectors. -/
theorem C39_svd_kept [CommSemiring R] [Div R] {la : LinAlg R} {a : NDArray R} {n m : Nat}
    (S : IsSVD a n m (la.svd a)) (chi e : Nat) :
    (svdTruncated la a chi e).u.shape = [n, min chi (min n m)] ∧
    (svdTruncated la a chi e).vh.shape = [min chi (min n m), m] ∧
    (svdTruncated la a chi e).s = (la.svd a).2.1.take (min chi (min n m)) ∧
    (svdTruncated la a chi e).s.length = min chi (min n m) ∧
    (∀ i < n, ∀ k < min chi (min n m), (svdTruncated la a chi e).u.get [i, k] = (la.svd a).1.get [i, k]) ∧
    (∀ k < min chi (min n m), ∀ j < m, (svdTruncated la a chi e).vh.get [k, j] = (la.svd a).2.2.get [k, j]) := by
  have hk : (if chi ≥ (la.svd a).2.1.length then (la.svd a).2.1.length else chi) = min chi (min n m) := by
    rw [S.sLen]; split <;> omega
  have key : ∃ er, svdTruncated la a chi e = ⟨(la.svd a).1.takeCols (min chi (min n m)), (la.svd a).2.1.take (min chi (min n m)),
      (la.svd a).2.2.takeRows (min chi (min n m)), er⟩ := by
    unfold svdTruncated
    simp only [hk]
    exact ⟨_, rfl⟩
  obtain ⟨er, key⟩ := key
  rw [key]
  obtain ⟨a1, _, a3⟩ := takeCols_spec (k := min chi (min n m)) S.uShape (by omega)
  obtain ⟨b1, _, b3⟩ := takeRows_spec (k := min chi (min n m)) S.vShape (by omega)
  exact ⟨a1, b1, rfl, by simp [S.sLen], a3, b3⟩

/-- `SVDDecomposition(a, chi)`: two factors of inner size `min(chi, n, m)`.  The second one comes back conjugated and
transposed (the docstring announces shape `(k, m)`; it is `(m, k)`). -/
theorem svd_factors [CommSemiring R] [Div R] [StarRing R] {la : LinAlg R} {a : NDArray R} {n m : Nat}
    (S : IsSVD a n m (la.svd a)) (Q : ∀ x ∈ (la.svd a).2.1, la.sqrt x * la.sqrt x = x) (chi e : Nat) :
    ∃ u v er, svdDecomposition la a chi e = .ok (u, v, er) ∧ er = (svdTruncated la a chi e).error ∧
      u.shape = [n, min chi (min n m)] ∧ v.shape = [m, min chi (min n m)] ∧
      ∀ i < n, ∀ j < m, ∑ k ∈ range (min chi (min n m)), u.get [i, k] * star (v.get [j, k]) =
        partialSVD (la.svd a).1 (la.svd a).2.1 (la.svd a).2.2 (range (min chi (min n m))) i j := by
  obtain ⟨h1, h2, h3, h4, h5, h6⟩ := C39_svd_kept S chi e
  unfold svdDecomposition
  generalize hok : svdTruncated la a chi e = o at *
  have hk : min chi (min n m) ≤ (la.svd a).2.1.length := by rw [S.sLen]; omega
  generalize min chi (min n m) = k at *
  have hq : (o.s.map la.sqrt).length = k := by rw [List.length_map, h4]
  obtain ⟨uR, u1, u2, u3, u4⟩ := matmul_diag_right (o.s.map la.sqrt) (a := o.u) (n := n) (by rw [h1, hq])
  obtain ⟨vR, v1, v2, v3, v4⟩ := matmul_diag_left (o.s.map la.sqrt) (a := o.vh) (m := m) (by rw [h2, hq])
  rw [hq] at u2 u4 v2 v4
  obtain ⟨c1, c2, c3⟩ := conjTranspose_spec v2
  refine ⟨uR, vR.conjTranspose, o.error, ?_, rfl, u2, c1, ?_⟩
  · simp only [u1, v1, bind, Except.bind, pure, Except.pure]
  · intro i hi j hj
    rw [← cut_product (la := la) _ _ _ k hk Q i j]
    refine Finset.sum_congr rfl fun l hl => ?_
    rw [Finset.mem_range] at hl
    rw [u4 i hi l hl, c3 j hj l hl, star_star, v4 l hl j hj, h5 i hi l hl, h6 l hl j hj, h3, mul_comm (_ : R) ((la.svd a).2.2.get [l, j])]

/-- With `chi` values (or all of them, if there are fewer) kept and all others zero, the product of the factors is
the matrix. -/
theorem C39_svd_exact [CommSemiring R] [Div R] [StarRing R] {la : LinAlg R} {a : NDArray R} {n m : Nat}
    (S : IsSVD a n m (la.svd a)) (Q : ∀ x ∈ (la.svd a).2.1, la.sqrt x * la.sqrt x = x) (chi e : Nat)
    (h0 : ∀ z ∈ (la.svd a).2.1.drop chi, z = 0) :
    ∃ u v er, svdDecomposition la a chi e = .ok (u, v, er) ∧
      u.shape = [n, min chi (min n m)] ∧ v.shape = [m, min chi (min n m)] ∧
      ∀ i < n, ∀ j < m, ∑ k ∈ range (min chi (min n m)), u.get [i, k] * star (v.get [j, k]) = a.get [i, j] := by
  obtain ⟨u, v, er, h1, _, h2, h3, h4⟩ := svd_factors S Q chi e
  refine ⟨u, v, er, h1, h2, h3, ?_⟩
  intro i hi j hj
  rw [h4 i hi j hj, cut_exact S (by omega) _ hi hj]
  intro z hz
  by_cases hc : chi ≤ min n m
  · rw [min_eq_left hc] at hz
    exact h0 z hz
  · rw [min_eq_right (by omega), List.drop_eq_nil_of_le (by rw [S.sLen])] at hz
    cases hz

/-- The squared Frobenius distance to the matrix is the sum of the squares of the discarded singular values. -/
theorem C39_svd_error [CommRing R] [Div R] [StarRing R] {la : LinAlg R} {a : NDArray R} {n m : Nat}
    (S : IsUnitarySVD a n m (la.svd a)) (Q : ∀ x ∈ (la.svd a).2.1, la.sqrt x * la.sqrt x = x) (chi e : Nat) :
    ∃ u v er, svdDecomposition la a chi e = .ok (u, v, er) ∧
      ∑ i ∈ range n, ∑ j ∈ range m,
        star (a.get [i, j] - ∑ k ∈ range (min chi (min n m)), u.get [i, k] * star (v.get [j, k])) *
          (a.get [i, j] - ∑ k ∈ range (min chi (min n m)), u.get [i, k] * star (v.get [j, k])) =
      ∑ k ∈ Ico chi (min n m), star ((la.svd a).2.1.getD k 0) * (la.svd a).2.1.getD k 0 := by
  obtain ⟨u, v, er, h1, _, h2, h3, h4⟩ := svd_factors S.toIsSVD Q chi e
  refine ⟨u, v, er, h1, ?_⟩
  have hI : Ico chi (min n m) = Ico (min chi (min n m)) (min n m) := by
    ext k; simp only [Finset.mem_Ico]; omega
  rw [hI, ← frobenius_tail S _ (fun l hl => (Finset.mem_Ico.mp hl).2)]
  refine Finset.sum_congr rfl fun i hi => Finset.sum_congr rfl fun j hj => ?_
  rw [Finset.mem_range] at hi hj
  rw [h4 i hi j hj, S.exact i hi j hj, partialSVD_sub _ _ _ (by omega)]

/-- The returned error is the share of the discarded values: `0` when none is discarded, and otherwise the sum of
their powers over the sum of the powers of all. -/
theorem C39_svd_errorValue [Semiring R] [Div R] (la : LinAlg R) (a : NDArray R) (chi e : Nat) :
    (svdTruncated la a chi e).error = if (la.svd a).2.1.drop chi = [] then 0
      else (((la.svd a).2.1.drop chi).map (· ^ e)).sum / ((la.svd a).2.1.map (· ^ e)).sum := by
  unfold svdTruncated
  simp only [List.drop_eq_nil_iff, ge_iff_le]

theorem sides_nodup [Zero R] {st : Store} {ta tb : Tensor R} {swapA swapB : List String}
    (i : SchmidtInput st ta tb swapA swapB) : (sideA st ta tb swapA swapB ++ sideB st ta tb swapA swapB).Nodup := by
  have := (sideLegs_perm (st := st) ta tb swapA swapB).nodup_iff.mpr (List.nodup_append.mpr
      ⟨i.goodA.nodup.filter _, i.goodB.nodup.filter _, by
        intro a ha b hb e
        rw [List.mem_filter] at ha hb
        exact i.disj a ha.1 (e ▸ hb.1)⟩)
  exact this

/-- `SchimdtDecomposition(ta, tb, chi)` with exchanged labels (square roots on either side): the product of the two
tensors is regrouped into a matrix whose rows are the legs that stay with `ta` and those taken from `tb`; the
result is two tensors joined by one bond of dimension `min(chi, number of non-zero singular values)`; the legs,
their names, dimensions and bonds are as specified; if only zeros were cut off the network is unchanged. -/
theorem C39_schmidt [CommSemiring R] {la : LinAlg R} (hla : ExactLinAlg la) (cast castF : R → R) {st : Store}
    {ta tb : Tensor R} {swapA swapB : List String} (i : SchmidtInput st ta tb swapA swapB) (chi : Nat) :
    ∃ mat st' u v na nb x y, (sharedPairs st ta.legs tb.legs).head? = some (na, nb) ∧
      schmidt la cast castF st ta tb chi true swapA swapB = .ok (st', u, none, v) ∧
      Cut la st st' ((sharedPairs st ta.legs tb.legs).flatMap fun q => [q.1, q.2])
        (sideA st ta tb swapA swapB) (sideB st ta tb swapA swapB)
        (sumBonds st.dim (sharedPairs st ta.legs tb.legs) fun τ => entry ta τ * entry tb τ) chi
        (st.name na) (st.name nb) mat u v x y ∧
      ((∀ z ∈ (la.svd mat).2.1.drop (min chi ((la.svd mat).2.1.countP la.isNonZero)), z = 0) →
        ∀ σ, InRange st.dim (sideA st ta tb swapA swapB ++ sideB st ta tb swapA swapB) σ →
          sumBonds st'.dim [(x, y)] (fun τ => entry u τ * entry v τ) σ =
          sumBonds st.dim (sharedPairs st ta.legs tb.legs) (fun τ => entry ta τ * entry tb τ) σ) := by
  obtain ⟨mat, st', u, v, na, nb, x, y, h1, h2, h3, h4, h5⟩ := schmidt_sqrt hla cast castF i chi
  have S := hla.svd mat _ _ h2.1 h2.2.1
  rw [keptN_eq la chi _ _ S.sLen] at h4 h5
  have C : Cut la st st' ((sharedPairs st ta.legs tb.legs).flatMap fun q => [q.1, q.2])
        (sideA st ta tb swapA swapB) (sideB st ta tb swapA swapB)
        (sumBonds st.dim (sharedPairs st ta.legs tb.legs) fun τ => entry ta τ * entry tb τ) chi
        (st.name na) (st.name nb) mat u v x y := ⟨h2, h4, h5⟩
  exact ⟨mat, st', u, v, na, nb, x, y, h1, h3, C, C.exact hla⟩

/-- The squared error of `SchimdtDecomposition`, summed over all values of the uncontracted legs, is the sum of the
squares of the discarded singular values. -/
theorem C39_schmidt_error [CommRing R] [StarRing R] {la : LinAlg R} (hla : ExactLinAlg la) (cast castF : R → R) {st : Store}
    {ta tb : Tensor R} {swapA swapB : List String} (i : SchmidtInput st ta tb swapA swapB) (chi : Nat) :
    ∃ mat st' u v x y, schmidt la cast castF st ta tb chi true swapA swapB = .ok (st', u, none, v) ∧
      st'.partner x = some y ∧ x ∈ u.legs ∧ y ∈ v.legs ∧
      IsMatrixOf st.dim (sideA st ta tb swapA swapB) (sideB st ta tb swapA swapB)
        (sumBonds st.dim (sharedPairs st ta.legs tb.legs) fun τ => entry ta τ * entry tb τ) mat ∧
      (IsUnitarySVD mat ((sideA st ta tb swapA swapB).map st.dim).prod ((sideB st ta tb swapA swapB).map st.dim).prod
          (la.svd mat) → ∀ σ,
        sumLegs st.dim (sideA st ta tb swapA swapB ++ sideB st ta tb swapA swapB) (fun τ =>
            star (sumBonds st.dim (sharedPairs st ta.legs tb.legs) (fun τ => entry ta τ * entry tb τ) τ -
              sumBonds st'.dim [(x, y)] (fun τ => entry u τ * entry v τ) τ) *
            (sumBonds st.dim (sharedPairs st ta.legs tb.legs) (fun τ => entry ta τ * entry tb τ) τ -
              sumBonds st'.dim [(x, y)] (fun τ => entry u τ * entry v τ) τ)) σ =
        (((la.svd mat).2.1.drop (min chi ((la.svd mat).2.1.countP la.isNonZero))).map fun z => star z * z).sum) := by
  obtain ⟨mat, st', u, v, na, nb, x, y, h1, h2, C, _⟩ := C39_schmidt hla cast castF i chi
  refine ⟨mat, st', u, v, x, y, h2, C.split.joined.1, by rw [C.split.legsU]; simp, by rw [C.split.legsV]; simp, C.isMat, ?_⟩
  intro hu σ
  refine C.error ?_ hu σ
  exact sides_nodup i

/-- If the numerical rank is exact and not larger than `chi`, the decomposition is exact. -/
theorem C39_schmidt_full [CommSemiring R] {la : LinAlg R} (hla : ExactLinAlg la) (hr : RankRevealing la) (cast castF : R → R)
    {st : Store} {ta tb : Tensor R} {swapA swapB : List String} (i : SchmidtInput st ta tb swapA swapB) :
    ∃ r, ∀ chi, r ≤ chi → ∃ st' u v x y, schmidt la cast castF st ta tb (chi : Nat) true swapA swapB = .ok (st', u, none, v) ∧
      st'.partner x = some y ∧ u.legs = sideA st ta tb swapA swapB ++ [x] ∧ v.legs = y :: sideB st ta tb swapA swapB ∧
      st'.dim x = r ∧
      ∀ σ, InRange st.dim (sideA st ta tb swapA swapB ++ sideB st ta tb swapA swapB) σ →
        sumBonds st'.dim [(x, y)] (fun τ => entry u τ * entry v τ) σ =
          sumBonds st.dim (sharedPairs st ta.legs tb.legs) (fun τ => entry ta τ * entry tb τ) σ := by
  obtain ⟨mat0, _, _, _, _, _, _, _, _, _, C0, _⟩ := C39_schmidt hla cast castF i 0
  refine ⟨(la.svd mat0).2.1.countP la.isNonZero, ?_⟩
  intro chi hchi
  obtain ⟨mat, st', u, v, na, nb, x, y, h1, h2, C, h3⟩ := C39_schmidt hla cast castF i chi
  have e : mat = mat0 := C.isMat.unique (sides_nodup i) C0.isMat
  subst e
  refine ⟨st', u, v, x, y, h2, C.split.joined.1, C.split.legsU, C.split.legsV, ?_, ?_⟩
  · rw [C.split.dimX, min_eq_right hchi]
  · exact h3 (rank_drop hr C.isMat.1 C.isMat.2.1 hchi)


theorem rest_nodup [Zero R] {st : Store} {ta tb : Tensor R} (ga : GoodTensor st ta) (gb : GoodTensor st tb)
    (disj : ∀ x ∈ ta.legs, x ∉ tb.legs) (bs : List (LegId × LegId)) : (restA ta.legs bs ++ restB tb.legs bs).Nodup := by
  refine List.nodup_append.mpr ⟨ga.nodup.filter _, gb.nodup.filter _, ?_⟩
  intro a ha b hb e
  unfold restA at ha
  unfold restB at hb
  rw [List.mem_filter] at ha hb
  exact disj a ha.1 (e ▸ hb.1)

/-- `merge(ta, tb, chi = chi)`: however many bonds are shared (at least one), the result is two tensors with the legs
of `ta` and of `tb` that were not shared, joined by one bond of dimension `min(chi, number of non-zero singular
values)`, named as `mergeLink` names it; if only zeros were cut off the product is the same. -/
theorem C39_merge [CommSemiring R] {la : LinAlg R} (hla : ExactLinAlg la) (castF : R → R) {st : Store} (w : WFStore st)
    {ta tb : Tensor R} (ga : GoodTensor st ta) (gb : GoodTensor st tb) (da : ta.diag = false) (db : tb.diag = false)
    (disj : ∀ x ∈ ta.legs, x ∉ tb.legs) (oldA : ∀ l ∈ ta.legs, l < st.nextLeg) (oldB : ∀ l ∈ tb.legs, l < st.nextLeg)
    (own : ∀ l ∈ ta.legs, ∀ m, st.partner l = some m → ((st.leg m).tensor = some tb.id ↔ m ∈ tb.legs))
    (share : sharedPairs st ta.legs tb.legs ≠ [])
    (posA : ∀ l ∈ ta.legs, l ∉ (sharedPairs st ta.legs tb.legs).map Prod.fst → st.dim l ≠ 0)
    (posB : ∀ l ∈ tb.legs, l ∉ (sharedPairs st ta.legs tb.legs).map Prod.snd → st.dim l ≠ 0)
    (name : BondName) (chi : Nat) :
    ∃ st1 ta1 tb1 l m mat st' u v x y, mergeLink st ta tb name = (st1, ta1, tb1, .ok ()) ∧
      sharedPairs st1 ta1.legs tb1.legs = [(l, m)] ∧
      merge la castF st ta tb (some chi) name = .ok (st', u, v) ∧
      Cut la st st' ((sharedPairs st ta.legs tb.legs).flatMap fun q => [q.1, q.2])
        (restA ta.legs (sharedPairs st ta.legs tb.legs)) (restB tb.legs (sharedPairs st ta.legs tb.legs))
        (sumBonds st.dim (sharedPairs st ta.legs tb.legs) fun τ => entry ta τ * entry tb τ) chi
        (st1.name l) (st1.name m) mat u v x y ∧
      ((∀ z ∈ (la.svd mat).2.1.drop (min chi ((la.svd mat).2.1.countP la.isNonZero)), z = 0) →
        ∀ σ, InRange st.dim (restA ta.legs (sharedPairs st ta.legs tb.legs) ++
            restB tb.legs (sharedPairs st ta.legs tb.legs)) σ →
          sumBonds st'.dim [(x, y)] (fun τ => entry u τ * entry v τ) σ =
          sumBonds st.dim (sharedPairs st ta.legs tb.legs) (fun τ => entry ta τ * entry tb τ) σ) := by
  obtain ⟨st1, ta1, tb1, l, m, mat, st', u, v, x, y, h1, h2, h3, C⟩ :=
    merge_ok hla castF w ga gb da db disj oldA oldB own share posA posB name chi
  exact ⟨st1, ta1, tb1, l, m, mat, st', u, v, x, y, h1, h2, h3, C, C.exact hla⟩

/-- The squared error of `merge` is the sum of the squares of the discarded singular values. -/
theorem C39_merge_error [CommRing R] [StarRing R] {la : LinAlg R} (hla : ExactLinAlg la) (castF : R → R) {st : Store}
    (w : WFStore st) {ta tb : Tensor R} (ga : GoodTensor st ta) (gb : GoodTensor st tb)
    (da : ta.diag = false) (db : tb.diag = false) (disj : ∀ x ∈ ta.legs, x ∉ tb.legs)
    (oldA : ∀ l ∈ ta.legs, l < st.nextLeg) (oldB : ∀ l ∈ tb.legs, l < st.nextLeg)
    (own : ∀ l ∈ ta.legs, ∀ m, st.partner l = some m → ((st.leg m).tensor = some tb.id ↔ m ∈ tb.legs))
    (share : sharedPairs st ta.legs tb.legs ≠ [])
    (posA : ∀ l ∈ ta.legs, l ∉ (sharedPairs st ta.legs tb.legs).map Prod.fst → st.dim l ≠ 0)
    (posB : ∀ l ∈ tb.legs, l ∉ (sharedPairs st ta.legs tb.legs).map Prod.snd → st.dim l ≠ 0)
    (name : BondName) (chi : Nat) :
    ∃ mat st' u v x y, merge la castF st ta tb (some chi) name = .ok (st', u, v) ∧
      st'.partner x = some y ∧ x ∈ u.legs ∧ y ∈ v.legs ∧
      IsMatrixOf st.dim (restA ta.legs (sharedPairs st ta.legs tb.legs)) (restB tb.legs (sharedPairs st ta.legs tb.legs))
        (sumBonds st.dim (sharedPairs st ta.legs tb.legs) fun τ => entry ta τ * entry tb τ) mat ∧
      (IsUnitarySVD mat ((restA ta.legs (sharedPairs st ta.legs tb.legs)).map st.dim).prod
          ((restB tb.legs (sharedPairs st ta.legs tb.legs)).map st.dim).prod (la.svd mat) → ∀ σ,
        sumLegs st.dim (restA ta.legs (sharedPairs st ta.legs tb.legs) ++ restB tb.legs (sharedPairs st ta.legs tb.legs))
          (fun τ =>
            star (sumBonds st.dim (sharedPairs st ta.legs tb.legs) (fun τ => entry ta τ * entry tb τ) τ -
              sumBonds st'.dim [(x, y)] (fun τ => entry u τ * entry v τ) τ) *
            (sumBonds st.dim (sharedPairs st ta.legs tb.legs) (fun τ => entry ta τ * entry tb τ) τ -
              sumBonds st'.dim [(x, y)] (fun τ => entry u τ * entry v τ) τ)) σ =
        (((la.svd mat).2.1.drop (min chi ((la.svd mat).2.1.countP la.isNonZero))).map fun z => star z * z).sum) := by
  obtain ⟨st1, ta1, tb1, l, m, mat, st', u, v, x, y, h1, h2, h3, C⟩ :=
    merge_ok hla castF w ga gb da db disj oldA oldB own share posA posB name chi
  exact ⟨mat, st', u, v, x, y, h3, C.split.joined.1, by rw [C.split.legsU]; simp, by rw [C.split.legsV]; simp, C.isMat,
    fun hu σ => C.error (rest_nodup ga gb disj _) hu σ⟩

/-! Non-vacuity. -/

/-- The decompositions `1 · 1 · a` and `a · 1 · 1`, which exist over every ring. -/
def trivLA (R : Type) [CommSemiring R] [DecidableEq R] : LinAlg R where
  svd := fun a =>
    let n := a.shape.getD 0 0
    let m := a.shape.getD 1 0
    if n ≤ m then
      (NDArray.build [n, n] fun i => if i.getD 0 0 = i.getD 1 0 then 1 else 0, List.replicate n 1,
        NDArray.build [m, m] fun i => if i.getD 0 0 < n then a.get i else 0)
    else
      (NDArray.build [n, n] fun i => if i.getD 1 0 < m then a.get i else 0, List.replicate m 1,
        NDArray.build [m, m] fun i => if i.getD 0 0 = i.getD 1 0 then 1 else 0)
  sqrt := id
  isNonZero := fun x => decide (x ≠ 0)

theorem trivLA_values (R : Type) [CommSemiring R] [DecidableEq R] (a : NDArray R) {n m : Nat} (h : a.shape = [n, m]) :
    ((trivLA R).svd a).2.1 = List.replicate (min n m) 1 := by
  simp only [trivLA, h]
  by_cases c : n ≤ m
  · simp [c]
  · simp [c, min_eq_right (le_of_lt (not_le.mp c))]

theorem trivLA_exact (R : Type) [CommSemiring R] [DecidableEq R] : ExactLinAlg (trivLA R) := by
  constructor
  · intro a n m _ h
    have hs := trivLA_values R a h
    by_cases c : n ≤ m
    · have e1 : ((trivLA R).svd a).1 = NDArray.build [n, n] fun i => if i.getD 0 0 = i.getD 1 0 then 1 else 0 := by
        simp [trivLA, h, c]
      have e2 : ((trivLA R).svd a).2.2 = NDArray.build [m, m] fun i => if i.getD 0 0 < n then a.get i else 0 := by
        simp [trivLA, h, c]
      refine ⟨by rw [e1]; exact NDArray.build_wf _ _, by rw [e1]; rfl, by rw [hs]; simp, by rw [e2]; exact NDArray.build_wf _ _,
        by rw [e2]; rfl, ?_⟩
      intro i hi j hj
      unfold partialSVD
      rw [e1, e2, hs, min_eq_left c, Finset.sum_eq_single i]
      · rw [NDArray.get_build _ (valid2 hi hi), NDArray.get_build _ (valid2 (by omega) hj)]
        simp [List.getD_eq_getElem?_getD, hi]
      · intro k hk hki
        rw [Finset.mem_range] at hk
        rw [NDArray.get_build _ (valid2 hi hk)]
        simp [Ne.symm hki]
      · intro hn; exact absurd (Finset.mem_range.mpr hi) hn
    · have c' : m < n := not_le.mp c
      have e1 : ((trivLA R).svd a).1 = NDArray.build [n, n] fun i => if i.getD 1 0 < m then a.get i else 0 := by
        simp [trivLA, h, c]
      have e2 : ((trivLA R).svd a).2.2 = NDArray.build [m, m] fun i => if i.getD 0 0 = i.getD 1 0 then 1 else 0 := by
        simp [trivLA, h, c]
      refine ⟨by rw [e1]; exact NDArray.build_wf _ _, by rw [e1]; rfl, by rw [hs]; simp, by rw [e2]; exact NDArray.build_wf _ _,
        by rw [e2]; rfl, ?_⟩
      intro i hi j hj
      unfold partialSVD
      rw [e1, e2, hs, min_eq_right c'.le, Finset.sum_eq_single j]
      · rw [NDArray.get_build _ (valid2 hi (by omega)), NDArray.get_build _ (valid2 hj hj)]
        simp [List.getD_eq_getElem?_getD, hj]
      · intro k hk hki
        rw [Finset.mem_range] at hk
        rw [NDArray.get_build (s := [m, m]) _ (valid2 hk hj)]
        simp [hki]
      · intro hn; exact absurd (Finset.mem_range.mpr hj) hn
  · intro a n m _ h x hx
    rw [trivLA_values R a h, List.mem_replicate] at hx
    simp [trivLA, hx.2]

theorem trivLA_rank (R : Type) [CommSemiring R] [DecidableEq R] [Nontrivial R] : RankRevealing (trivLA R) := by
  intro a n m _ h
  refine ⟨_, [], by rw [List.append_nil], ?_, by simp⟩
  intro x hx
  rw [trivLA_values R a h, List.mem_replicate] at hx
  simp [trivLA, hx.2]

/-- A decomposition of diagonal matrices, unitary but of course not exact for all matrices. -/
def diagLA : LinAlg Rat where
  svd := fun a => (NDArray.diagMatrix (List.replicate (a.shape.getD 0 0) 1),
    (List.range (min (a.shape.getD 0 0) (a.shape.getD 1 0))).map fun i => a.get [i, i],
    NDArray.diagMatrix (List.replicate (a.shape.getD 1 0) 1))
  sqrt := fun x => if x = 4 then 2 else x
  isNonZero := fun x => decide (x ≠ 0)

attribute [local instance] starRingOfComm

/-- `C39_svd_error` on the matrix `diag(4, 1)` with one value kept: the squared error is 1. -/
example : ∃ u v er, svdDecomposition diagLA ⟨[2, 2], [4, 0, 0, 1]⟩ 1 2 = .ok (u, v, er) ∧
    ∑ i ∈ range 2, ∑ j ∈ range 2,
      star ((⟨[2, 2], [4, 0, 0, 1]⟩ : NDArray Rat).get [i, j] - ∑ k ∈ range 1, u.get [i, k] * star (v.get [j, k])) *
        ((⟨[2, 2], [4, 0, 0, 1]⟩ : NDArray Rat).get [i, j] - ∑ k ∈ range 1, u.get [i, k] * star (v.get [j, k])) = 1 := by
  obtain ⟨u, v, er, h1, h2⟩ := C39_svd_error (la := diagLA) (a := ⟨[2, 2], [4, 0, 0, 1]⟩) (n := 2) (m := 2)
    ⟨⟨rfl, rfl, rfl, rfl, rfl, by
      intro i hi j hj
      interval_cases i <;> interval_cases j <;> decide +kernel⟩, by
      intro i hi j hj
      interval_cases i <;> interval_cases j <;> decide +kernel, by
      intro i hi j hj
      interval_cases i <;> interval_cases j <;> decide +kernel⟩ (by decide +kernel) 1 2
  refine ⟨u, v, er, h1, h2.trans ?_⟩
  decide +kernel

/-- The returned error there: `1² / (4² + 1²)`. -/
example : (svdTruncated diagLA ⟨[2, 2], [4, 0, 0, 1]⟩ 1 2).error = 1 / 17 := by
  rw [C39_svd_errorValue]
  decide +kernel

/-- `C39_svd_exact`: a `2 × 3` matrix with more values allowed than there are. -/
example : ∃ u v er, svdDecomposition (trivLA Rat) ⟨[2, 3], [1, 2, 3, 4, 5, 6]⟩ 7 2 = .ok (u, v, er) ∧
    u.shape = [2, 2] ∧ v.shape = [3, 2] := by
  have S := (trivLA_exact Rat).svd ⟨[2, 3], [1, 2, 3, 4, 5, 6]⟩ 2 3 rfl rfl
  obtain ⟨u, v, er, h1, h2, h3, _⟩ := C39_svd_exact S ((trivLA_exact Rat).sqrt _ 2 3 rfl rfl) 7 2 (by decide +kernel)
  exact ⟨u, v, er, h1, h2, h3⟩

/-- Two matrices of the chain `p - A - B - q`, with the physical legs called `o`. -/
def exSchmidtStore : Store where
  leg := fun l => match l with
    | 0 => ⟨2, "o", none, some 0⟩
    | 1 => ⟨2, "r", some 0, some 0⟩
    | 2 => ⟨2, "l", some 0, some 1⟩
    | 3 => ⟨3, "o", none, some 1⟩
    | _ => ⟨0, "", none, none⟩
  bond := fun b => match b with
    | 0 => (1, 2)
    | _ => (0, 0)
  nextLeg := 4
  nextBond := 1
  nextTensor := 2

def exSchmidtA : Tensor Int := ⟨0, [0, 1], some ⟨[2, 2], [1, 2, 3, 4]⟩, false, false, 0⟩
def exSchmidtB : Tensor Int := ⟨1, [2, 3], some ⟨[2, 3], [1, -1, 2, -2, 3, -3]⟩, false, false, 0⟩

theorem exSchmidtStore_wf : WFStore exSchmidtStore := by
  refine ⟨?_, ?_, ?_⟩ <;> intro l b h
  · match l with
    | 0 => simp [exSchmidtStore] at h
    | 1 => simp [exSchmidtStore] at h; subst h; simp [exSchmidtStore, Store.dim]
    | 2 => simp [exSchmidtStore] at h; subst h; simp [exSchmidtStore, Store.dim]
    | 3 => simp [exSchmidtStore] at h
    | n + 4 => simp [exSchmidtStore] at h
  · match l with
    | 0 | 1 | 2 | 3 => simp [exSchmidtStore]
    | n + 4 => simp [exSchmidtStore] at h
  · match l with
    | 0 => simp [exSchmidtStore] at h
    | 1 => simp [exSchmidtStore] at h; subst h; simp [exSchmidtStore]
    | 2 => simp [exSchmidtStore] at h; subst h; simp [exSchmidtStore]
    | 3 => simp [exSchmidtStore] at h
    | n + 4 => simp [exSchmidtStore] at h

theorem exSchmidt_input : SchmidtInput exSchmidtStore exSchmidtA exSchmidtB ["o"] ["o"] where
  wf := exSchmidtStore_wf
  goodA := ⟨by decide, rfl, _, rfl, rfl, fun _ => by decide, fun h => by cases h⟩
  goodB := ⟨by decide, rfl, _, rfl, rfl, fun _ => by decide, fun h => by cases h⟩
  denseA := rfl
  denseB := rfl
  disj := by decide
  oldA := by decide
  oldB := by decide
  namesA := by decide
  namesB := by decide
  dashA := by decide
  dashB := by decide
  share := ⟨1, by decide, 2, by decide, by decide⟩
  swapLen := rfl
  swapInA := by decide
  swapInB := by decide
  namesU := by decide
  namesV := by decide
  neA := by decide
  neB := by decide

/-- `C39_schmidt_full`: swapping the two sites of the chain, with at least 2 values allowed. -/
example : ∃ st' u v x y, schmidt (trivLA Int) id id exSchmidtStore exSchmidtA exSchmidtB 2 true ["o"] ["o"] =
      .ok (st', u, none, v) ∧ st'.partner x = some y ∧ u.legs = [3, x] ∧ v.legs = [y, 0] ∧ st'.dim x = 2 := by
  obtain ⟨mat, st', u, v, na, nb, x, y, _, h2, C, _⟩ := C39_schmidt (trivLA_exact Int) id id exSchmidt_input 2
  refine ⟨st', u, v, x, y, h2, C.split.joined.1, C.split.legsU, C.split.legsV, ?_⟩
  rw [C.split.dimX, trivLA_values Int mat (n := 3) (m := 2) C.isMat.2.1]
  decide

example : ∃ r, ∀ chi, r ≤ chi → ∃ st' u v x y,
    schmidt (trivLA Int) id id exSchmidtStore exSchmidtA exSchmidtB (chi : Nat) true ["o"] ["o"] = .ok (st', u, none, v) ∧
      st'.partner x = some y ∧ st'.dim x = r := by
  obtain ⟨r, h⟩ := C39_schmidt_full (trivLA_exact Int) (trivLA_rank Int) id id exSchmidt_input
  refine ⟨r, fun chi hc => ?_⟩
  obtain ⟨st', u, v, x, y, h1, h2, _, _, h5, _⟩ := h chi hc
  exact ⟨st', u, v, x, y, h1, h2, h5⟩

/-- `C39_merge` on two tensors with two bonds. -/
example : ∃ st' u v x y, merge (trivLA Int) id exMergeStore exMergeA exMergeB (some 5) .none = .ok (st', u, v) ∧
    u.legs = [1, x] ∧ v.legs = [y] ∧ st'.partner x = some y ∧ st'.dim x = 1 := by
  obtain ⟨st1, ta1, tb1, l, m, mat, st', u, v, x, y, _, _, h3, C, _⟩ := C39_merge (trivLA_exact Int) id exMergeStore_wf
    (ta := exMergeA) (tb := exMergeB)
    ⟨by decide, rfl, _, rfl, rfl, fun _ => by decide, fun h => by cases h⟩
    ⟨by decide, rfl, _, rfl, rfl, fun _ => by decide, fun h => by cases h⟩ rfl rfl (by decide)
    (by decide) (by decide)
    (by
      intro l hl m hm
      simp only [exMergeA, List.mem_cons, List.not_mem_nil, or_false] at hl
      rcases hl with rfl | rfl | rfl <;> revert hm <;> simp [Store.partner, exMergeStore] <;>
        rintro rfl <;> decide)
    (by decide) (by decide) (by decide) .none 5
  refine ⟨st', u, v, x, y, h3, C.split.legsU, C.split.legsV, C.split.joined.1, ?_⟩
  rw [C.split.dimX, trivLA_values Int mat (n := 2) (m := 1) C.isMat.2.1]
  decide

end CTL
