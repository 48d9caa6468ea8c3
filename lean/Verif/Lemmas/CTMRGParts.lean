import Verif.Lemmas.MixedNet
import Verif.Lemmas.HOTRGStep
import Verif.Lemmas.HOTRGRun
import Verif.Lemmas.LabelMatrix
import Verif.Props.Ops
import Verif.Props.Decompose
import Verif.Spec.TriangleTRG

/-! The single operations of `CTMRG`: copies, sums over legs, decompositions, divisions. -/

namespace CTL
variable {K : Type}

open Finset (range)

/-! ### Entries -/

theorem entry_map [Zero K] {t c : Tensor K} (ha : c.a = t.a) (hd : c.diag = t.diag) {σ τ : Assign} (h : c.legs.map σ = t.legs.map τ) :
    entry c σ = entry t τ := by
  unfold entry
  rw [ha, hd]
  rcases t.a with _ | arr
  · rfl
  · simp only
    split
    · generalize c.legs = ls at h
      generalize t.legs = ks at h
      match ls, ks, h with
      | [], [], _ => rfl
      | x :: ls, y :: ks, h =>
        obtain ⟨h1, h2⟩ := List.cons.inj h
        simp only
        have : (∀ m ∈ ls, σ m = σ x) ↔ ∀ m ∈ ks, τ m = τ y := by
          rw [← List.forall_mem_map (f := σ) (P := fun z => z = σ x), ← List.forall_mem_map (f := τ) (P := fun z => z = τ y), h1, h2]
        by_cases e : ∀ m ∈ ls, σ m = σ x
        · rw [if_pos e, if_pos (this.mp e), h1]
        · rw [if_neg e, if_neg (fun k => e (this.mpr k))]
    · rw [h]

theorem at_map [Zero K] {st st' : Store} {t c : Tensor K} (hn : c.legs.map st'.name = t.legs.map st.name) (ha : c.a = t.a)
    (hd : c.diag = t.diag) (xs : List (String × Nat)) : c.at st' xs = t.at st xs := by
  refine entry_map ha hd ?_
  have := congrArg (List.map (indexAt xs)) hn
  simpa only [List.map_map, Function.comp_def] using this

/-- The tensor `c` in `st'` is the same as `t` in `st`. -/
structure SameTensor (st : Store) (t : Tensor K) (st' : Store) (c : Tensor K) : Prop where
  good : GoodTensor st' c
  known : ∀ l ∈ c.legs, l < st'.nextLeg
  names : c.legs.map st'.name = t.legs.map st.name
  dims : c.legs.map st'.dim = t.legs.map st.dim
  data : c.a = t.a
  diag : c.diag = t.diag

section
variable {st st' : Store} {t c : Tensor K}

theorem SameTensor.any (S : SameTensor st t st' c) {labels : List String} (h : AnyLabels st t labels) : AnyLabels st' c labels := by
  refine ⟨S.good, S.known, fun l hl => ?_, by rw [S.names]; exact h.labels⟩
  have := S.dims ▸ List.mem_map_of_mem (f := st'.dim) hl
  obtain ⟨k, hk, e⟩ := List.mem_map.mp this
  rw [← e]
  exact h.pos k hk

theorem SameTensor.dense (S : SameTensor st t st' c) {labels : List String} (h : HasLabels st t labels) : HasLabels st' c labels := by
  have := S.any h.any
  exact ⟨this.good, S.diag.trans h.dense, this.known, this.pos, this.labels⟩

theorem SameTensor.dimOf (S : SameTensor st t st' c) (x : String) : c.dimOf st' x = t.dimOf st x := dimOf_congr S.names S.dims x

variable [Zero K]

theorem SameTensor.at (S : SameTensor st t st' c) (xs : List (String × Nat)) : c.at st' xs = t.at st xs := at_map S.names S.data S.diag xs

theorem SameTensor.matrix (S : SameTensor st t st' c) {x y : String} {n m : Nat} {A : Nat → Nat → K} (h : IsMatrix st t x y n m A) :
    IsMatrix st' c x y n m A :=
  ⟨S.dense h.labels, by rw [S.dimOf, h.dx], by rw [S.dimOf, h.dy], fun i hi j hj => by rw [S.at, h.val i hi j hj]⟩

theorem SameTensor.diagonal (S : SameTensor st t st' c) {x y : String} {n : Nat} {A : Nat → K} (h : IsDiagonal st t x y n A) :
    IsDiagonal st' c x y n A :=
  ⟨S.any h.labels, S.diag.trans h.diag, by rw [S.dimOf, h.dx], by rw [S.dimOf, h.dy], fun i hi j hj => by rw [S.at, h.val i hi j hj]⟩

theorem SameTensor.edge (S : SameTensor st t st' c) {x z y : String} {n D : Nat} {A : Nat → Nat → Nat → K} (h : IsEdge st t x z y n D A) :
    IsEdge st' c x z y n D A :=
  ⟨S.dense h.labels, by rw [S.dimOf, h.dx], by rw [S.dimOf, h.dz], by rw [S.dimOf, h.dy],
    fun k hk i hi j hj => by rw [S.at, h.val k hk i hi j hj]⟩

theorem SameTensor.site (S : SameTensor st t st' c) {V H : Nat} {w : Nat → Nat → Nat → Nat → K} (h : IsCenter st t V H w) : IsCenter st' c V H w :=
  ⟨S.dense h.labels, by rw [S.dimOf, h.du], by rw [S.dimOf, h.dl], by rw [S.dimOf, h.dd], by rw [S.dimOf, h.dr],
    fun u hu l hl d hd r hr => by rw [S.at, h.val u hu l hl d hd r hr]⟩

omit [Zero K] in
theorem LegsUnchanged.same {labels : List String} (k : LegsUnchanged st st') (h : AnyLabels st t labels) : SameTensor st t st' t :=
  ⟨k.good h.known h.good, fun l hl => (h.known l hl).trans_le k.le, k.names h.known, k.dims h.known, rfl, rfl⟩

theorem IsMatrix.kept {x y : String} {n m : Nat} {A : Nat → Nat → K} (h : IsMatrix st t x y n m A) (k : LegsUnchanged st st') :
    IsMatrix st' t x y n m A := (k.same h.labels.any).matrix h

theorem IsDiagonal.kept {x y : String} {n : Nat} {A : Nat → K} (h : IsDiagonal st t x y n A) (k : LegsUnchanged st st') :
    IsDiagonal st' t x y n A := (k.same h.labels).diagonal h

theorem IsEdge.kept {x z y : String} {n D : Nat} {A : Nat → Nat → Nat → K} (h : IsEdge st t x z y n D A) (k : LegsUnchanged st st') :
    IsEdge st' t x z y n D A := (k.same h.labels.any).edge h

theorem IsCenter.kept {V H : Nat} {w : Nat → Nat → Nat → Nat → K} (h : IsCenter st t V H w) (k : LegsUnchanged st st') : IsCenter st' t V H w :=
  (k.same h.labels.any).site h

theorem IsTrio.kept {t : Trio (Tensor K)} {V H n : Nat} {c : Nat → K} {v h : Nat → Nat → Nat → K} (T : IsTrio st t V H n c v h)
    (k : LegsUnchanged st st') : IsTrio st' t V H n c v h := ⟨T.corner.kept k, T.hEdge.kept k, T.vEdge.kept k⟩

theorem IsWide.kept {t : Trio (Tensor K)} {V H n m : Nat} {C : Nat → Nat → K} {v h : Nat → Nat → Nat → K} (T : IsWide st t V H n m C v h)
    (k : LegsUnchanged st st') : IsWide st' t V H n m C v h := ⟨T.corner.kept k, T.hEdge.kept k, T.vEdge.kept k⟩

end

/-! ### Copies -/

theorem copy_same [Zero K] [One K] (rand : List Nat → List Nat → K) {st : Store} {t : Tensor K} {labels : List String}
    (h : AnyLabels st t labels) (hne : labels ≠ []) (wf : WFStore st) :
    ∃ st' c, t.copy rand st = .ok (st', c) ∧ WFStore st' ∧ LegsUnchanged st st' ∧ SameTensor st t st' c := by
  have hl : t.legs ≠ [] := by
    intro e
    have := h.labels
    rw [e] at this
    exact hne this.symm.eq_nil
  obtain ⟨st', c, e, g, dg, wf', -, -, le, old, fresh, -, dims, names, ha⟩ := copy_good rand h.good hl wf
  exact ⟨st', c, e, wf', ⟨le, old.leg⟩, g, fun l hl => (fresh l hl).2, names, dims, ha, dg⟩

/-! ### Sums over a leg -/

theorem sumOut_label [NonUnitalNonAssocSemiring K] {st : Store} {t : Tensor K} {labels : List String} (h : HasLabels st t labels)
    (nd : labels.Nodup) {x : String} (hx : x ∈ labels) :
    ∃ t', t.sumOutLegByLabel1 st x false none = (t', .ok ()) ∧ HasLabels st t' (labels.erase x) ∧
      (∀ y, y ≠ x → t'.dimOf st y = t.dimOf st y) ∧
      ∀ xs, (∀ y ∈ labels.erase x, indexAt xs y < t.dimOf st y) →
        t'.at st xs = ∑ i ∈ range (t.dimOf st x), t.at st ((x, i) :: xs) := by
  obtain ⟨l, hl, rfl⟩ := List.mem_map.mp (h.labels.symm.subset hx)
  have ndn : (t.legs.map st.name).Nodup := h.labels.nodup_iff.mpr nd
  obtain ⟨t', e, el, g, dg, val⟩ := C22_sumOutLeg_dense h.good h.dense l hl
  have hmem : ∀ k ∈ t'.legs, k ∈ t.legs ∧ k ≠ l := by
    intro k hk
    rw [el, h.good.nodup.mem_erase_iff] at hk
    exact ⟨hk.2, hk.1⟩
  have hname : ∀ k ∈ t.legs, st.name k = st.name l → k = l := fun k hk e => List.inj_on_of_nodup_map ndn hk hl e
  have hp : (t'.legs.map st.name).Perm (labels.erase (st.name l)) := by
    rw [el]
    have h1 : (st.name l :: (t.legs.erase l).map st.name).Perm labels := by
      rw [← List.map_cons]
      exact ((List.perm_cons_erase hl).map st.name).symm.trans h.labels
    have := h1.erase (st.name l)
    rwa [List.erase_cons_head] at this
  have hh : HasLabels st t' (labels.erase (st.name l)) :=
    ⟨g, dg, fun k hk => h.known k (hmem k hk).1, fun k hk => h.pos k (hmem k hk).1, hp⟩
  have ndE : (labels.erase (st.name l)).Nodup := nd.erase _
  refine ⟨t', ?_, hh, ?_, ?_⟩
  · unfold Tensor.sumOutLegByLabel1
    rw [getLeg_unique ndn hl]
    exact e
  · intro y hy
    by_cases hm : y ∈ labels
    · have : y ∈ labels.erase (st.name l) := (nd.mem_erase_iff).mpr ⟨hy, hm⟩
      obtain ⟨k, hk, rfl⟩ := List.mem_map.mp (hp.symm.subset this)
      rw [dimOf_leg hh ndE hk, dimOf_leg h nd (hmem k hk).1]
    · have none : ∀ (s : Tensor K) (ls : List String), HasLabels st s ls → y ∉ ls → s.dimOf st y = 0 := by
        intro s ls hs hn
        unfold Tensor.dimOf
        rw [List.find?_eq_none.mpr]
        · rfl
        · intro k hk e
          rw [beq_iff_eq] at e
          exact hn (hs.labels.subset (e ▸ List.mem_map_of_mem hk))
      rw [none t' _ hh (fun hc => hm (List.mem_of_mem_erase hc)), none t _ h hm]
  · intro xs hxs
    unfold Tensor.at
    rw [val, list_range_sum, dimOf_leg h nd hl]
    · refine Finset.sum_congr rfl fun i _ => entry_congr t fun k hk => ?_
      rw [indexAt]
      by_cases hkl : k = l
      · subst hkl
        rw [if_pos rfl, Assign.set, if_pos rfl]
      · rw [if_neg (fun e => hkl (hname k hk e)), Assign.set, if_neg hkl]
    · intro k hk
      beta_reduce
      rw [← dimOf_leg h nd (hmem k hk).1]
      exact hxs _ (hp.subset (List.mem_map_of_mem hk))

/-! ### Division -/

theorem entry_divBy [Field K] {t : Tensor K} {arr : NDArray K} (ha : t.a = some arr) (x : K) (σ : Assign) :
    entry { t with a := some (arr.divBy x) } σ = entry t σ / x := by
  unfold entry
  rw [ha]
  simp only
  split
  · rcases t.legs with _ | ⟨l, ls⟩
    · simp only [divBy_get]
    · simp only
      split
      · rw [divBy_get]
      · rw [zero_div]
  · rw [divBy_get]

theorem entry_zero [Zero K] {t : Tensor K} {arr : NDArray K} (ha : t.a = some arr) (h : ∀ x ∈ arr.data, x = 0) (σ : Assign) : entry t σ = 0 := by
  have hz : ∀ idx, arr.get idx = 0 := by
    intro idx
    unfold NDArray.get
    rw [List.getD_eq_getElem?_getD]
    rcases e : arr.data[ravel arr.shape idx]? with _ | y
    · rfl
    · rw [Option.getD_some]
      exact h y (List.mem_of_getElem? e)
  unfold entry
  rw [ha]
  simp only [hz]
  split
  · split <;> simp
  · rfl

theorem GoodTensor.divBy [Field K] {st : Store} {t : Tensor K} {arr : NDArray K} (g : GoodTensor st t) (ha : t.a = some arr) (x : K) :
    GoodTensor st { t with a := some (arr.divBy x) } := by
  obtain ⟨arr', ea, wa, sa, sd⟩ := g.data
  rw [ha] at ea
  obtain rfl := Option.some.inj ea
  refine ⟨g.nodup, g.notLike, arr.divBy x, rfl, ?_, fun hd => sa hd, fun hd => sd hd⟩
  unfold NDArray.WF at wa ⊢
  simpa [NDArray.divBy] using wa

/-- What `divideByNorm` does. -/
theorem divide_ok [Field K] [LinearOrder K] [Star K] (p : RGParams K) (hnorm : TriangleTRGState.TrueNorm p.norm) {st : Store} {t : Tensor K}
    {labels : List String} (h : AnyLabels st t labels) :
    ∃ t' x, divideByNorm p t = .ok (t', x) ∧ AnyLabels st t' labels ∧ t'.diag = t.diag ∧ (∀ y, t'.dimOf st y = t.dimOf st y) ∧
      (∀ xs, t'.at st xs = t.at st xs / x) ∧ 0 ≤ x ∧ (x = 0 → ∀ xs, t.at st xs = 0) := by
  obtain ⟨arr, ea, wa, sa, sd⟩ := h.good.data
  refine ⟨{ t with a := some (arr.divBy (p.norm arr)) }, p.norm arr, ?_, ⟨h.good.divBy ea _, h.known, h.pos, h.labels⟩, rfl, fun _ => rfl,
    fun xs => entry_divBy ea _ _, (hnorm arr).1, fun h0 xs => entry_zero ea ((hnorm arr).2 h0) _⟩
  unfold divideByNorm
  simp only [h.good.notLike, Bool.false_eq_true, if_false, ea]
  rfl

/-! ### The factors of a decomposition -/

theorem constructDiag_plain [Zero K] [One K] {st : Store} (wf : WFStore st) {s : List K} (hs : s ≠ []) {x y : String} (hxy : x ≠ y) :
    ∃ st' t, constructDiag st { data := some (NDArray.vector s), labels := some [x, y] } = .ok (st', t) ∧ WFStore st' ∧
      LegsUnchanged st st' ∧ IsDiagonal st' t x y s.length fun i => s.getD i 0 := by
  have M := makeLegs_ok st.nextTensor [(x, some s.length), (y, some s.length)] { st with nextTensor := st.nextTensor + 1 }
  rcases hm : makeLegs { st with nextTensor := st.nextTensor + 1 } st.nextTensor [(x, some s.length), (y, some s.length)] with ⟨st', ls⟩
  rw [hm] at M
  simp only at M
  have hls : ls = [st.nextLeg, st.nextLeg + 1] := by
    rw [M.legs]
    rfl
  have names := M.name
  have dims := M.dim
  rw [hls] at names dims
  simp only [List.map_cons, List.map_nil, List.cons.injEq, and_true, Option.getD_some] at names dims
  have n0 : s.length ≠ 0 := fun e => hs (List.length_eq_zero_iff.mp e)
  have hw : (NDArray.vector s).WF := by simp [NDArray.WF, NDArray.vector]
  refine ⟨st', ⟨st.nextTensor, ls, some (NDArray.vector s), true, false, s.length⟩, ?_, M.grows.wf ?_, ⟨M.grows.le, M.old⟩, ?_⟩
  · unfold constructDiag deduceShapeDiag
    have c0 : allEqualDims [s.length] = true := by simp [allEqualDims]
    simp only [isScalarCall, Option.isNone_some, Bool.and_false, Bool.false_and, Bool.false_eq_true, if_false, deduceDimension,
      NDArray.vector, c0, List.length_cons, List.length_nil, dataShape, chosenLabels, checkShapeLabels, bind, Except.bind, pure, Except.pure]
    simp [generateDataDiag, diagLength, List.replicate, hm]
  · exact ⟨wf.1, wf.2, wf.3⟩
  · have any : AnyLabels st' (⟨st.nextTensor, ls, some (NDArray.vector s), true, false, s.length⟩ : Tensor K) [x, y] := by
      refine ⟨⟨by simp [hls], rfl, _, rfl, hw, (fun h => by cases h), fun _ => Or.inr ⟨by simp [hls], rfl, fun l hl => ?_⟩⟩, fun l hl => ?_,
        fun l hl => ?_, by simp [hls, names]⟩
      · simp only [hls, List.mem_cons, List.not_mem_nil, or_false] at hl
        rcases hl with rfl | rfl
        · exact dims.1
        · exact dims.2
      · rw [M.nextLeg]
        simp only [hls, List.mem_cons, List.not_mem_nil, or_false] at hl
        rcases hl with rfl | rfl <;> simp <;> omega
      · simp only [hls, List.mem_cons, List.not_mem_nil, or_false] at hl
        rcases hl with rfl | rfl
        · rw [dims.1]; exact n0
        · rw [dims.2]; exact n0
    refine ⟨any, rfl, ?_, ?_, fun i hi j hj => ?_⟩
    · simp [Tensor.dimOf, hls, names, dims, List.find?]
    · simp [Tensor.dimOf, hls, names, dims, List.find?, hxy]
    · unfold Tensor.at
      rw [entry_diag (arr := NDArray.vector s) rfl rfl (l0 := st.nextLeg) (by simp [hls])]
      have e0 : indexAt [(x, i), (y, j)] (st'.name st.nextLeg) = i := by rw [names.1]; simp [indexAt]
      have e1 : indexAt [(x, i), (y, j)] (st'.name (st.nextLeg + 1)) = j := by rw [names.2]; simp [indexAt, hxy.symm]
      simp only [hls, List.mem_cons, List.not_mem_nil, or_false, forall_eq_or_imp, forall_eq, e0, e1, true_and]
      by_cases hij : i = j
      · rw [if_pos hij.symm, if_pos hij]
        simp [NDArray.get, NDArray.vector, ravel]
      · rw [if_neg (Ne.symm hij), if_neg hij]

theorem matOf_get [CommSemiring K] {n m : Nat} (C : Nat → Nat → K) {i j : Nat} (hi : i < n) (hj : j < m) : (matOf n m C).get [i, j] = C i j := by
  unfold matOf
  rw [NDArray.get_build _ (validIdx_cons.mpr ⟨hi, validIdx_cons.mpr ⟨hj, validIdx_nil⟩⟩)]
  rfl

theorem matOf_wf [CommSemiring K] (n m : Nat) (C : Nat → Nat → K) : (matOf n m C).WF := NDArray.build_wf _ _

theorem eq_matOf [CommSemiring K] {n m : Nat} {C : Nat → Nat → K} {M : NDArray K} (w : M.WF) (s : M.shape = [n, m])
    (h : ∀ i < n, ∀ j < m, M.get [i, j] = C i j) : M = matOf n m C := by
  refine NDArray.ext_get w (matOf_wf _ _ _) s fun idx hi => ?_
  rw [s] at hi
  obtain ⟨i, j, rfl⟩ : ∃ i j, idx = [i, j] := by
    match idx, hi.length with
    | [i, j], _ => exact ⟨i, j, rfl⟩
  obtain ⟨hi, hj⟩ := validIdx_cons.mp hi
  obtain ⟨hj, _⟩ := validIdx_cons.mp hj
  rw [h i hi j hj, matOf_get C hi hj]

section
variable [Field K] [LinearOrder K] [Star K] (p : RGParams K) {la : LinAlg K}

/-- The three tensors of a decomposition. -/
theorem svdTensors_ok (hS : ∀ (a : NDArray K) n m, a.WF → a.shape = [n, m] → IsSVD a n m (la.svd a)) {st : Store} (wf : WFStore st) {t : Tensor K}
    {x y : String} {n m : Nat} {C : Nat → Nat → K} (h : IsMatrix st t x y n m C) {i1 i2 : String} (hxy : x ≠ y) (h1 : x ≠ i1) (h2 : i2 ≠ y)
    {chi : Nat} (hchi : chi ≠ 0) (e : Nat) :
    ∃ st' d, tensorSVDDecomposition p la st t [x] [y] (some (i1, i2)) chi e = .ok (st', d) ∧ WFStore st' ∧ LegsUnchanged st st' ∧
      IsMatrix st' d.u x i1 n (min chi (min n m)) (fun i k => (la.svd (matOf n m C)).1.get [i, k]) ∧
      IsDiagonal st' d.s x y (min chi (min n m)) (fun k => (la.svd (matOf n m C)).2.1.getD k 0) ∧
      IsMatrix st' d.v i2 y (min chi (min n m)) m (fun k j => (la.svd (matOf n m C)).2.2.get [k, j]) ∧
      d.error = (svdTruncated la (matOf n m C) chi e).error := by
  have nd : [x, y].Nodup := by simp [hxy]
  obtain ⟨M, eM, wM, sM, vM⟩ := h.labels.matrix [x] [y] nd (.refl _) (by simp) (by simp)
  have hn : n ≠ 0 := h.dx ▸ dimOf_pos h.labels nd (by simp)
  have hm : m ≠ 0 := h.dy ▸ dimOf_pos h.labels nd (by simp)
  simp only [List.map_cons, List.map_nil, List.prod_cons, List.prod_nil, mul_one, h.dx, h.dy] at sM
  have eMat : M = matOf n m C := by
    refine eq_matOf wM sM fun i hi j hj => ?_
    have := vM [(x, i), (y, j)] (by
      intro z hz
      simp only [List.cons_append, List.nil_append, List.mem_cons, List.not_mem_nil, or_false] at hz
      rcases hz with rfl | rfl
      · simpa [indexAt, h.dx] using hi
      · simpa [indexAt, h.dy, hxy.symm] using hj)
    rw [h.val i hi j hj] at this
    simpa [indexAt, hxy.symm, ravel] using this
  subst eMat
  obtain ⟨k1, k2, k3, k4, k5, k6⟩ := C39_svd_kept (hS _ n m wM sM) chi e
  have k0 : min chi (min n m) ≠ 0 := by omega
  have wu : (svdTruncated la (matOf n m C) chi e).u.WF := NDArray.build_wf _ _
  have wv : (svdTruncated la (matOf n m C) chi e).vh.WF := NDArray.build_wf _ _
  obtain ⟨st1, u, e1, wf1, ku, lu, du, vu⟩ := construct_plain p.rand wf wu (labels := [x, i1]) (by rw [k1]; rfl) (by simp [h1])
    (by rw [k1]; simp; omega)
  obtain ⟨st2, s, e2, wf2, ks, ls⟩ := constructDiag_plain wf1 (s := (svdTruncated la (matOf n m C) chi e).s)
    (fun e0 => k0 (by rw [← k4, e0]; rfl)) hxy
  obtain ⟨st3, v, e3, wf3, kv, lv, dv, vv⟩ := construct_plain p.rand wf2 wv (labels := [i2, y]) (by rw [k2]; rfl) (by simp [h2])
    (by rw [k2]; simp; omega)
  rw [k1] at du
  rw [k2] at dv
  have mu : IsMatrix st1 u x i1 n (min chi (min n m)) (fun i k => (la.svd (matOf n m C)).1.get [i, k]) :=
    ⟨lu, du _ _ (by simp), du _ _ (by simp), fun i hi j hj => by
      rw [← k5 i hi j hj]
      exact vu [i, j] rfl⟩
  have mv : IsMatrix st3 v i2 y (min chi (min n m)) m (fun k j => (la.svd (matOf n m C)).2.2.get [k, j]) :=
    ⟨lv, dv _ _ (by simp), dv _ _ (by simp), fun i hi j hj => by
      rw [← k6 i hi j hj]
      exact vv [i, j] rfl⟩
  have ms : IsDiagonal st2 s x y (min chi (min n m)) (fun k => (la.svd (matOf n m C)).2.1.getD k 0) := by
    rw [k4] at ls
    refine ⟨ls.labels, ls.diag, ls.dx, ls.dy, fun i hi j hj => ?_⟩
    rw [ls.val i hi j hj, k3]
    by_cases hij : i = j
    · rw [if_pos hij, if_pos hij]
      simp only [List.getD_eq_getElem?_getD, List.getElem?_take, hi, if_true]
    · rw [if_neg hij, if_neg hij]
  refine ⟨st3, ⟨u, s, v, _⟩, ?_, wf3, (ku.trans ks).trans kv, mu.kept (ks.trans kv), ms.kept kv, mv, rfl⟩
  unfold tensorSVDDecomposition
  simp only [eM, bind, Except.bind]
  have ex : ("|".intercalate [x], "|".intercalate [y]) = (x, y) := rfl
  obtain ⟨ex1, ex2⟩ := Prod.mk.inj ex
  simp only [ex1, ex2, Option.getD_some, e1, e2, e3]
  rfl

end

end CTL
