import Verif.Lemmas.HOTRGSums
import Verif.Props.Traces

/-! Single steps of HOTRG. -/

namespace CTL
variable {K : Type}

open Finset (range)

/-! ### Constructed tensors -/

theorem indexAt_zip : ∀ {labels : List String} {idx : List Nat}, labels.Nodup → idx.length = labels.length →
    labels.map (indexAt (labels.zip idx)) = idx
  | [], [], _, _ => rfl
  | x :: labels, i :: idx, nd, h => by
    have nd' := List.nodup_cons.mp nd
    rw [List.map_cons, List.zip_cons_cons, indexAt, if_pos rfl]
    congr 1
    have ih := indexAt_zip (idx := idx) nd'.2 (by simpa using h)
    conv_rhs => rw [← ih]
    refine List.map_congr_left fun z hz => ?_
    have hne : z ≠ x := fun e => nd'.1 (e ▸ hz)
    rw [indexAt, if_neg hne]

theorem Constructed.shaped [Zero K] {rand : List Nat → List Nat → K} {st st' : Store} {c : CArgs K} {t : Tensor K}
    (C : Constructed rand st st' c t) (wf : WFStore st) {d : NDArray K} (wd : d.WF) {s : List Nat} {labels : List String}
    (h1 : c.like = false) (h2 : c.legs = none) (h3 : c.labels = some labels) (h4 : c.data = some d) (dims : t.legs.map st'.dim = s)
    (nd : labels.Nodup) (hp : d.shape.prod = s.prod) (pos : ∀ x ∈ s, x ≠ 0) :
    WFStore st' ∧
      LegsUnchanged st st' ∧ HasLabels st' t labels ∧ (∀ x n, (x, n) ∈ labels.zip s → t.dimOf st' x = n) ∧
      ∀ idx, idx.length = labels.length → t.at st' (labels.zip idx) = (⟨s, d.data⟩ : NDArray K).get idx := by
  obtain ⟨arr, ea, sa, da, _⟩ := C.data h1
  have names : t.legs.map st'.name = labels := C.labels labels h3
  obtain ⟨ndl, fresh⟩ := C.fresh h2
  have harr : arr = ⟨s, d.data⟩ := by
    rw [← da d h4, ← dims, ← sa]
  have wa : arr.WF := by
    rw [harr]
    unfold NDArray.WF at wd ⊢
    rw [wd]
    exact hp
  have hd : t.diag = false := C.flags.1
  have hh : HasLabels st' t labels := by
    refine ⟨⟨ndl, C.flags.2.trans h1, arr, ea, wa, fun _ => sa, fun h => by rw [hd] at h; cases h⟩, hd, fun l hl => (fresh l hl).2.1, fun l hl => ?_, by rw [names]⟩
    exact pos _ (dims ▸ List.mem_map_of_mem hl)
  refine ⟨C.grows.wf wf, ⟨C.grows.le, fun l hl => C.others l (fun hm => absurd (fresh l hm).1 (Nat.not_le_of_lt hl)) hl⟩, hh, ?_, ?_⟩
  · intro x n hxn
    rw [← names, ← dims, List.zip_map'] at hxn
    obtain ⟨l, hl, he⟩ := List.mem_map.mp hxn
    obtain ⟨rfl, rfl⟩ := Prod.mk.inj he
    exact dimOf_leg hh nd hl
  · intro idx hi
    unfold Tensor.at
    rw [entry_dense hd, ea]
    simp only [Option.map_some, Option.getD_some]
    rw [harr]
    congr 1
    conv_rhs => rw [← indexAt_zip nd hi]
    conv_rhs =>
      arg 2
      rw [← names]
    rw [List.map_map]
    rfl

theorem construct_shaped [Zero K] (rand : List Nat → List Nat → K) {st : Store} (wf : WFStore st) {d : NDArray K} (wd : d.WF)
    {s : List Nat} {labels : List String} (hl : labels.length = s.length) (nd : labels.Nodup) (hp : d.shape.prod = s.prod)
    (pos : ∀ x ∈ s, x ≠ 0) :
    ∃ st' t, construct rand st { data := some d, shape := some (.tuple s), labels := some labels } = .ok (st', t) ∧ WFStore st' ∧
      LegsUnchanged st st' ∧ HasLabels st' t labels ∧ (∀ x n, (x, n) ∈ labels.zip s → t.dimOf st' x = n) ∧
      ∀ idx, idx.length = labels.length → t.at st' (labels.zip idx) = (⟨s, d.data⟩ : NDArray K).get idx := by
  let c : CArgs K := { data := some d, shape := some (.tuple s), labels := some labels }
  have acc : Acceptable st c := by
    show (∀ ls, some labels = some ls → ls.length = s.length) ∧ (some labels = none → s.length ≤ 26) ∧ (∀ d', some d = some d' → d'.shape.prod = s.prod)
    refine ⟨fun ls e => ?_, (fun e => by cases e), fun d' e => ?_⟩
    · rw [← Option.some.inj e]
      exact hl
    · rw [← Option.some.inj e]
      exact hp
  obtain ⟨st', t, e, C⟩ := construct_ok rand acc
  exact ⟨st', t, e, C.shaped wf wd rfl rfl rfl rfl (C.shape s rfl) nd hp pos⟩

theorem construct_plain [Zero K] (rand : List Nat → List Nat → K) {st : Store} (wf : WFStore st) {d : NDArray K} (wd : d.WF)
    {labels : List String} (hl : labels.length = d.shape.length) (nd : labels.Nodup) (pos : ∀ x ∈ d.shape, x ≠ 0) :
    ∃ st' t, construct rand st { data := some d, labels := some labels } = .ok (st', t) ∧ WFStore st' ∧
      LegsUnchanged st st' ∧ HasLabels st' t labels ∧ (∀ x n, (x, n) ∈ labels.zip d.shape → t.dimOf st' x = n) ∧
      ∀ idx, idx.length = labels.length → t.at st' (labels.zip idx) = d.get idx := by
  let c : CArgs K := { data := some d, labels := some labels }
  have acc : Acceptable st c := by
    show (∀ ls, some labels = some ls → ls.length = d.shape.length) ∧ (some labels = none → d.shape.length ≤ 26)
    refine ⟨fun ls e => ?_, (fun e => by cases e)⟩
    rw [← Option.some.inj e]
    exact hl
  obtain ⟨st', t, e, C⟩ := construct_ok rand acc
  exact ⟨st', t, e, C.shaped wf wd rfl rfl rfl rfl (C.dataShape rfl rfl d rfl) nd rfl pos⟩

/-! ### The projector tensors -/

/-- A tensor with the entries of a projector. -/
structure IsProjector [Zero K] (st : Store) (t : Tensor K) (x y : String) (chi k : Nat) (P : NDArray K) : Prop where
  labels : HasLabels st t [x, y, "o"]
  dx : t.dimOf st x = chi
  dy : t.dimOf st y = chi
  do' : t.dimOf st "o" = k
  val : ∀ i < chi, ∀ j < chi, ∀ o < k, t.at st [(x, i), (y, j), ("o", o)] = prjAt chi P i j o

theorem IsProjector.kept [Zero K] {st st' : Store} {t : Tensor K} {x y : String} {chi k : Nat} {P : NDArray K}
    (h : IsProjector st t x y chi k P) (hk : LegsUnchanged st st') : IsProjector st' t x y chi k P :=
  ⟨hk.hasLabels h.labels, by rw [hk.dimOf h.labels.known, h.dx], by rw [hk.dimOf h.labels.known, h.dy],
    by rw [hk.dimOf h.labels.known, h.do'], fun i hi j hj o ho => by rw [hk.at h.labels.known]; exact h.val i hi j hj o ho⟩

theorem projectorTensors_ok [Field K] [LinearOrder K] [Star K] [TrivialStar K] (p : RGParams K) {st : Store} (wf : WFStore st)
    {P : NDArray K} {chi k : Nat} (wp : P.WF) (sp : P.shape = [chi * chi, k]) (hc : chi ≠ 0) (hk : k ≠ 0) {x y : String}
    (nd : [x, y, "o"].Nodup) :
    ∃ st' t1 t2, HOTRGState.projectorTensors p st P chi x y = .ok (st', t1, t2) ∧ WFStore st' ∧ LegsUnchanged st st' ∧
      IsProjector st' t1 x y chi k P ∧ IsProjector st' t2 x y chi k P := by
  have hxy : x ≠ y ∧ x ≠ "o" ∧ y ≠ "o" := by
    simp only [List.nodup_cons, List.mem_cons, List.not_mem_nil, or_false, not_or] at nd
    exact ⟨nd.1.1, nd.1.2, nd.2.1⟩
  obtain ⟨hxy, hxo, hyo⟩ := hxy
  obtain ⟨st1, t1, e1, w1, k1, l1, d1, v1⟩ := construct_shaped p.rand wf wp (s := [chi, chi, k]) (labels := [x, y, "o"]) rfl nd
    (by rw [sp]; simp [mul_assoc]) (by simp [hc, hk])
  have nd2 : ["o", x, y].Nodup := by simp [hxy, hxo.symm, hyo.symm]
  have ws : P.conjTranspose.WF := NDArray.build_wf _ _
  have ss : P.conjTranspose.shape = [k, chi * chi] := by
    unfold NDArray.conjTranspose
    rw [NDArray.build_shape, sp]
    rfl
  obtain ⟨st2, t2, e2, w2, k2, l2, d2, v2⟩ := construct_shaped p.rand w1 ws (s := [k, chi, chi]) (labels := ["o", x, y]) rfl nd2
    (by rw [ss]; simp) (by simp [hc, hk])
  have p1 : IsProjector st1 t1 x y chi k P := by
    refine ⟨l1, d1 x chi (by simp), d1 y chi (by simp), d1 "o" k (by simp), fun i hi j hj o ho => ?_⟩
    have := v1 [i, j, o] rfl
    simp only [List.zip_cons_cons, List.zip_nil_right] at this
    rw [this]
    refine NDArray.get_mk_reshape P [chi, chi, k] [i, j, o] [i * chi + j, o] ?_
    rw [sp]
    simp [ravel]
    ring
  have p2 : IsProjector st2 t2 x y chi k P := by
    refine ⟨⟨l2.good, l2.dense, l2.known, l2.pos, l2.labels.trans ?_⟩, d2 x chi (by simp), d2 y chi (by simp), d2 "o" k (by simp),
      fun i hi j hj o ho => ?_⟩
    · exact (List.perm_append_comm (l₁ := ["o"]) (l₂ := [x, y]))
    · have := v2 [o, i, j] rfl
      simp only [List.zip_cons_cons, List.zip_nil_right] at this
      have e : t2.at st2 [(x, i), (y, j), ("o", o)] = t2.at st2 [("o", o), (x, i), (y, j)] := by
        unfold Tensor.at
        refine entry_congr t2 fun l hl => ?_
        have hm := l2.labels.subset (List.mem_map_of_mem (f := st2.name) hl)
        simp only [List.mem_cons, List.not_mem_nil, or_false] at hm
        rcases hm with h | h | h <;> simp [indexAt, h, hxy, hxy.symm, hxo, hxo.symm, hyo, hyo.symm]
      rw [e, this]
      have hlt : i * chi + j < chi * chi := by nlinarith
      have : (⟨[k, chi, chi], P.conjTranspose.data⟩ : NDArray K).get [o, i, j] = P.conjTranspose.get [o, i * chi + j] := by
        refine NDArray.get_mk_reshape P.conjTranspose [k, chi, chi] [o, i, j] [o, i * chi + j] ?_
        rw [ss]
        simp [ravel]
      rw [this]
      unfold NDArray.conjTranspose prjAt
      rw [sp]
      simp only [List.getD_cons_zero, List.getD_cons_succ]
      rw [NDArray.get_build _ (validIdx_cons.mpr ⟨ho, validIdx_cons.mpr ⟨hlt, validIdx_nil⟩⟩)]
      simp
  refine ⟨st2, t1, t2, ?_, w2, k1.trans k2, p1.kept k2, p2⟩
  unfold HOTRGState.projectorTensors
  have hk' : P.shape.getD 1 0 = k := by rw [sp]; rfl
  simp only [hk', e1, e2, bind, Except.bind, pure, Except.pure]

/-! ### States -/

variable [Field K] [LinearOrder K] [Star K] {p : RGParams K} {s : HOTRGState K}

theorem trial_settles (g : HGood p s) (d : RGDir) :
    ∃ st' net, Settles (fun fuel => s.trial p fuel d)
      ({ s with st := st', project := fun x => if x = d then net else s.project x }, (solveEnv p (s.env d) (s.chi d)).2,
        (solveEnv p (s.env d) (s.chi d)).1) ∧
      LegsUnchanged s.st st' ∧ WFStore st' ∧ NetOf p (projectMake d) net := by
  obtain ⟨net, st', t, hs, hn, o⟩ := contractNet_settles (g.project d) (project_computes p.rand p.cast g.wf g.a d) (.refl _)
  obtain ⟨m, e, wm, sm, vm⟩ := o.matrix (project_labels s.st s.a d)
  obtain ⟨d1, d2⟩ := project_dim g.a d
  rw [d1, d2] at sm
  rw [d1, d2] at vm
  have hm : m = s.env d := by
    refine NDArray.ext_get wm (NDArray.build_wf _ _) sm fun idx hi => ?_
    rw [sm] at hi
    obtain ⟨i, j, rfl⟩ : ∃ i j, idx = [i, j] := by
      match idx, hi.length with
      | [i, j], _ => exact ⟨i, j, rfl⟩
    obtain ⟨hi, hj⟩ := validIdx_cons.mp hi
    obtain ⟨hj, _⟩ := validIdx_cons.mp hj
    rw [vm i hi j hj, project_val g.a d, HOTRGState.env, envMatrix_get _ _ _ _ hi hj]
  refine ⟨st', net, ?_, o.kept, o.wf, hn⟩
  unfold HOTRGState.trial
  refine hs.bind (Settles.const ?_)
  simp only [e, hm, bind, Except.bind, pure, Except.pure]
  rfl

variable [TrivialStar K]

theorem directed_settles (g : HGood p s) (d : RGDir) {P : NDArray K} {k V H : Nat} {i1 i2 : Option (Tensor K)}
    (h1 : SquareSite s.st (i1.getD s.a)) (h2 : SquareSite s.st (i2.getD s.a))
    (v1 : (i1.getD s.a).dimOf s.st "u" = V) (v2 : (i2.getD s.a).dimOf s.st "u" = V)
    (l1 : (i1.getD s.a).dimOf s.st "l" = H) (l2 : (i2.getD s.a).dimOf s.st "l" = H)
    (wp : P.WF) (sp : P.shape = [envSize V H d, k]) (hk : k ≠ 0) :
    ∃ s' t, Settles (fun fuel => s.directed p fuel d P i1 i2) (s', t) ∧
      (∃ st' h v, s' = { s with st := st', horizontalIterate := h, verticalIterate := v } ∧ LegsUnchanged s.st st' ∧ WFStore st' ∧
        NetOf p HOTRGHorizontalContractFTN h ∧ NetOf p HOTRGVerticalContractFTN v) ∧
      SquareSite s'.st t ∧ t.dimOf s'.st "u" = mergedV V k d ∧ t.dimOf s'.st "l" = mergedH H k d ∧
      ∀ u < mergedV V k d, ∀ l < mergedH H k d, ∀ d' < mergedV V k d, ∀ r < mergedH H k d,
        t.site s'.st u l d' r = mergedSite V H ((i1.getD s.a).site s.st) ((i2.getD s.a).site s.st) P d u l d' r := by
  have eH : (i1.getD s.a).shapeOfLabel s.st "l" = some H := by
    rw [h1.labels.shapeOfLabel (by decide) (by decide), l1]
  have eV : (i1.getD s.a).shapeOfLabel s.st "u" = some V := by
    rw [h1.labels.shapeOfLabel (by decide) (by decide), v1]
  have hH : H ≠ 0 := l1 ▸ dimOf_pos h1.labels (by decide) (by decide)
  have hV : V ≠ 0 := v1 ▸ dimOf_pos h1.labels (by decide) (by decide)
  have vd1 : (i1.getD s.a).dimOf s.st "d" = V := h1.v ▸ v1
  have vd2 : (i2.getD s.a).dimOf s.st "d" = V := h2.v ▸ v2
  have lr1 : (i1.getD s.a).dimOf s.st "r" = H := h1.h ▸ l1
  have lr2 : (i2.getD s.a).dimOf s.st "r" = H := h2.h ▸ l2
  generalize hX : i1.getD s.a = X at *
  generalize hY : i2.getD s.a = Y at *
  by_cases hd : d.horizontal = true
  · have hsz : envSize V H d = H * H := by simp [envSize, hd]
    rw [hsz] at sp
    obtain ⟨st1, t1, t2, e1, w1, k1, p1, p2⟩ := projectorTensors_ok p g.wf wp sp hH hk (x := "u") (y := "d") (by decide)
    have hp : ∃ lT rT, (if d = .r then (t2, t1) else (t1, t2)) = (lT, rT) ∧ IsProjector st1 lT "u" "d" H k P ∧ IsProjector st1 rT "u" "d" H k P := by
      split
      · exact ⟨t2, t1, rfl, p2, p1⟩
      · exact ⟨t1, t2, rfl, p1, p2⟩
    obtain ⟨lT, rT, e2, pl, pr⟩ := hp
    have hX' := h1.kept k1
    have hY' := h2.kept k1
    have dX := fun x => k1.dimOf h1.labels.known x
    have dY := fun x => k1.dimOf h2.labels.known x
    have hc := C49_hotrgH p.rand p.cast w1 hX'.labels hY'.labels pl.labels pr.labels (by rw [dX, l1, pl.dx]) (by rw [dX, lr1, pr.dx])
      (by rw [dY, l2, pl.dy]) (by rw [dY, lr2, pr.dy]) (by rw [dX, dY, vd1, v2])
    obtain ⟨net, st', t, hs, hn, o⟩ := contractNet_settles g.horizontal hc (.refl _)
    refine ⟨{ s with st := st', horizontalIterate := net }, t, ?_, ⟨st', net, s.verticalIterate, rfl, k1.trans o.kept, o.wf, hn, g.vertical⟩, ?_, ?_, ?_, ?_⟩
    · unfold HOTRGState.directed
      simp only [hX, hY, eH, eV, if_pos hd, e1, bind, Except.bind, e2]
      refine Settles.bind hs (Settles.const rfl)
    · refine ⟨o.hasLabels (by show ["u", "d", "l", "r"].Perm _; decide), ?_, ?_⟩
      · rw [o.dimOf (by show "u" ∈ ["u", "d", "l", "r"]; decide), o.dimOf (by show "d" ∈ ["u", "d", "l", "r"]; decide)]
        show X.dimOf st1 "u" = Y.dimOf st1 "d"
        rw [dX, dY, v1, vd2]
      · rw [o.dimOf (by show "l" ∈ ["u", "d", "l", "r"]; decide), o.dimOf (by show "r" ∈ ["u", "d", "l", "r"]; decide)]
        show lT.dimOf st1 "o" = rT.dimOf st1 "o"
        rw [pl.do', pr.do']
    · rw [o.dimOf (by show "u" ∈ ["u", "d", "l", "r"]; decide)]
      show X.dimOf st1 "u" = _
      rw [dX, v1, mergedV, if_pos hd]
    · rw [o.dimOf (by show "l" ∈ ["u", "d", "l", "r"]; decide)]
      show lT.dimOf st1 "o" = _
      rw [pl.do', mergedH, if_pos hd]
    · rw [mergedV, mergedH, if_pos hd, if_pos hd, mergedSite, if_pos hd]
      intro u hu l hl d' hd' r hr
      have ha := o.at (xs := [("u", u), ("l", l), ("d", d'), ("r", r)]) (by
        intro x hx
        have hx : x ∈ ["u", "d", "l", "r"] := hx
        simp only [List.mem_cons, List.not_mem_nil, or_false] at hx
        rcases hx with rfl | rfl | rfl | rfl
        · show u < X.dimOf st1 "u"
          rw [dX, v1]; exact hu
        · show d' < Y.dimOf st1 "d"
          rw [dY, vd2]; exact hd'
        · show l < lT.dimOf st1 "o"
          rw [pl.do']; exact hl
        · show r < rT.dimOf st1 "o"
          rw [pr.do']; exact hr)
      refine ha.trans ?_
      simp only [hotrgHArr, dX, dY, vd1, lr2, l2, lr1, l1]
      rw [sum5_first]
      unfold projectedN
      refine Finset.sum_congr rfl fun x1 m1 => Finset.sum_congr rfl fun x2 m2 => Finset.sum_congr rfl fun y1 m3 => Finset.sum_congr rfl fun y2 m4 => ?_
      unfold pairN
      rw [Finset.sum_mul, Finset.sum_mul]
      refine Finset.sum_congr rfl fun n _ => ?_
      rw [Finset.mem_range] at m1 m2 m3 m4
      rw [k1.at h1.labels.known, k1.at h2.labels.known]
      have a1 := pl.val x1 m1 x2 m2 l hl
      have a2 := pr.val y1 m3 y2 m4 r hr
      simp only [indexAt, if_true, show ("l" = "u") = False by decide, show ("d" = "u") = False by decide, show ("d" = "l") = False by decide,
        show ("r" = "u") = False by decide, show ("r" = "l") = False by decide, show ("r" = "d") = False by decide, if_false, a1, a2]
      rfl
  · have hsz : envSize V H d = V * V := by simp [envSize, hd]
    rw [hsz] at sp
    obtain ⟨st1, t1, t2, e1, w1, k1, p1, p2⟩ := projectorTensors_ok p g.wf wp sp hV hk (x := "l") (y := "r") (by decide)
    have hp : ∃ lT rT, (if d = .d then (t2, t1) else (t1, t2)) = (lT, rT) ∧ IsProjector st1 lT "l" "r" V k P ∧ IsProjector st1 rT "l" "r" V k P := by
      split
      · exact ⟨t2, t1, rfl, p2, p1⟩
      · exact ⟨t1, t2, rfl, p1, p2⟩
    obtain ⟨uT, dT, e2, pu, pd⟩ := hp
    have hX' := h1.kept k1
    have hY' := h2.kept k1
    have dX := fun x => k1.dimOf h1.labels.known x
    have dY := fun x => k1.dimOf h2.labels.known x
    have hc := C49_hotrgV p.rand p.cast w1 pu.labels pd.labels hX'.labels hY'.labels (by rw [dX, v1, pu.dx]) (by rw [dY, v2, pu.dy])
      (by rw [dX, vd1, pd.dx]) (by rw [dY, vd2, pd.dy]) (by rw [dX, dY, lr1, l2])
    obtain ⟨net, st', t, hs, hn, o⟩ := contractNet_settles g.vertical hc (.refl _)
    refine ⟨{ s with st := st', verticalIterate := net }, t, ?_, ⟨st', s.horizontalIterate, net, rfl, k1.trans o.kept, o.wf, g.horizontal, hn⟩, ?_, ?_, ?_, ?_⟩
    · unfold HOTRGState.directed
      simp only [hX, hY, eH, eV, if_neg hd, e1, bind, Except.bind, e2]
      refine Settles.bind hs (Settles.const rfl)
    · refine ⟨o.hasLabels (by show ["u", "d", "l", "r"].Perm _; decide), ?_, ?_⟩
      · rw [o.dimOf (by show "u" ∈ ["u", "d", "l", "r"]; decide), o.dimOf (by show "d" ∈ ["u", "d", "l", "r"]; decide)]
        show uT.dimOf st1 "o" = dT.dimOf st1 "o"
        rw [pu.do', pd.do']
      · rw [o.dimOf (by show "l" ∈ ["u", "d", "l", "r"]; decide), o.dimOf (by show "r" ∈ ["u", "d", "l", "r"]; decide)]
        show X.dimOf st1 "l" = Y.dimOf st1 "r"
        rw [dX, dY, l1, lr2]
    · rw [o.dimOf (by show "u" ∈ ["u", "d", "l", "r"]; decide)]
      show uT.dimOf st1 "o" = _
      rw [pu.do', mergedV, if_neg hd]
    · rw [o.dimOf (by show "l" ∈ ["u", "d", "l", "r"]; decide)]
      show X.dimOf st1 "l" = _
      rw [dX, l1, mergedH, if_neg hd]
    · rw [mergedV, mergedH, if_neg hd, if_neg hd, mergedSite, if_neg hd]
      intro u hu l hl d' hd' r hr
      have ha := o.at (xs := [("u", u), ("l", l), ("d", d'), ("r", r)]) (by
        intro x hx
        have hx : x ∈ ["u", "d", "l", "r"] := hx
        simp only [List.mem_cons, List.not_mem_nil, or_false] at hx
        rcases hx with rfl | rfl | rfl | rfl
        · show u < uT.dimOf st1 "o"
          rw [pu.do']; exact hu
        · show d' < dT.dimOf st1 "o"
          rw [pd.do']; exact hd'
        · show l < X.dimOf st1 "l"
          rw [dX, l1]; exact hl
        · show r < Y.dimOf st1 "r"
          rw [dY, lr2]; exact hr)
      refine ha.trans ?_
      simp only [hotrgVArr, dX, dY, lr1, pd.dx, pd.dy, pu.dx, pu.dy]
      rw [sum5_second]
      unfold flipped projectedN
      refine Finset.sum_congr rfl fun x1 m1 => Finset.sum_congr rfl fun x2 m2 => Finset.sum_congr rfl fun y1 m3 => Finset.sum_congr rfl fun y2 m4 => ?_
      unfold pairN
      rw [Finset.sum_mul, Finset.sum_mul]
      refine Finset.sum_congr rfl fun n _ => ?_
      rw [Finset.mem_range] at m1 m2 m3 m4
      rw [k1.at h1.labels.known, k1.at h2.labels.known]
      have a1 := pu.val x1 m1 x2 m2 u hu
      have a2 := pd.val y1 m3 y2 m4 d' hd'
      simp only [indexAt, if_true, show ("l" = "u") = False by decide, show ("d" = "u") = False by decide, show ("d" = "l") = False by decide,
        show ("r" = "u") = False by decide, show ("r" = "l") = False by decide, show ("r" = "d") = False by decide, if_false, a1, a2]
      unfold Tensor.site
      ring

end CTL
