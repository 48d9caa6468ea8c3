import Verif.Lemmas.CTMRGParts

/-! Single steps of `CTMRG`. -/

namespace CTL
variable {K : Type}

open Finset (range)

/-! ### Networks -/

/-- The networks of a `CTMRG` object after any number of contractions. -/
structure CTMRGNets.Good [Field K] (p : RGParams K) (n : CTMRGNets) : Prop where
  hEdgeExtend : NetOf p CTMRGHEdgeExtendFTN n.hEdgeExtend
  vEdgeExtend : NetOf p CTMRGVEdgeExtendFTN n.vEdgeExtend
  cornerExtend : MixedNetOf p CTMRGCornerExtendFTN (· = 0) n.cornerExtend
  vBuild : NetOf p CTMRGVEdgeBuildFTN n.vBuild
  hBuild : NetOf p CTMRGHEdgeBuildFTN n.hBuild
  evenZ : MixedNetOf p CTMRGEvenZFTN FirstFour n.evenZ
  oddZ : MixedNetOf p CTMRGOddFTN FirstFour n.oddZ

theorem networks_ok [Field K] (p : RGParams K) : ∃ nets, CTMRGState.networks = .ok nets ∧ nets.Good p := by
  obtain ⟨n1, e1⟩ : ∃ net, CTMRGHEdgeExtendFTN 1 = .ok net := ⟨_, rfl⟩
  obtain ⟨n2, e2⟩ : ∃ net, CTMRGVEdgeExtendFTN 2 = .ok net := ⟨_, rfl⟩
  obtain ⟨n3, e3⟩ : ∃ net, CTMRGCornerExtendFTN 3 = .ok net := ⟨_, rfl⟩
  obtain ⟨n4, e4⟩ : ∃ net, CTMRGVEdgeBuildFTN 4 = .ok net := ⟨_, rfl⟩
  obtain ⟨n5, e5⟩ : ∃ net, CTMRGHEdgeBuildFTN 5 = .ok net := ⟨_, rfl⟩
  obtain ⟨n6, e6⟩ : ∃ net, CTMRGEvenZFTN 6 = .ok net := ⟨_, rfl⟩
  obtain ⟨n7, e7⟩ : ∃ net, CTMRGOddFTN 7 = .ok net := ⟨_, rfl⟩
  refine ⟨⟨n1, n2, n3, n4, n5, n6, n7⟩, ?_, .made e1, .made e2, .made e3 rfl, .made e4, .made e5, .made e6 rfl, .made e7 rfl⟩
  unfold CTMRGState.networks
  simp only [e1, e2, e3, e4, e5, e6, e7, bind, Except.bind, pure, Except.pure]

section
variable [Field K] [LinearOrder K] [Star K] {p : RGParams K} {st : Store} {V H n : Nat} {w : Nat → Nat → Nat → Nat → K}

theorem hExtend_settles (wf : WFStore st) {net : Net} (hn : NetOf p CTMRGHEdgeExtendFTN net) {t a : Tensor K} {h : Nat → Nat → Nat → K}
    (ht : IsEdge st t "l" "u" "r" n V h) (ha : IsCenter st a V H w) :
    ∃ net' st' t', Settles (fun fuel => contractNet p fuel net st [("p", t), ("w", a)]) (net', st', t') ∧ NetOf p CTMRGHEdgeExtendFTN net' ∧
      WFStore st' ∧ LegsUnchanged st st' ∧ IsEdge st' t' "l" "u" "r" (n * H) V (wideH w V H h) := by
  have hH : 0 < H := Nat.pos_of_ne_zero (ha.dl ▸ dimOf_pos ha.labels (by decide) (by decide))
  obtain ⟨net', st', t', hs, hn', o⟩ := contractNet_settles hn (C49_hEdgeExtend p.rand p.cast wf ht.labels ha.labels (by rw [ht.dz, ha.dd])) (.refl _)
  refine ⟨net', st', t', hs, hn', o.wf, o.kept, o.hasLabels (by show ["l", "r", "u"].Perm _; decide), ?_, ?_, ?_, ?_⟩
  · rw [o.dimOf (by show "l" ∈ ["l", "r", "u"]; decide)]
    simp [hEdgeExtendArr, ht.dx, ha.dl]
  · rw [o.dimOf (by show "u" ∈ ["l", "r", "u"]; decide)]
    simp [hEdgeExtendArr, ha.du]
  · rw [o.dimOf (by show "r" ∈ ["l", "r", "u"]; decide)]
    simp [hEdgeExtendArr, ht.dy, ha.dr]
  · intro k hk i hi j hj
    rw [o.at (by
      intro x hx
      have hx : x ∈ ["l", "r", "u"] := hx
      simp only [List.mem_cons, List.not_mem_nil, or_false] at hx
      rcases hx with rfl | rfl | rfl <;> simpa [indexAt, hEdgeExtendArr, ht.dx, ht.dy, ha.dl, ha.dr, ha.du])]
    simp only [hEdgeExtendArr, indexAt, ht.dz, ha.dl, ha.dr, wideH]
    refine Finset.sum_congr rfl fun q hq => ?_
    rw [Finset.mem_range] at hq
    have e1 : i / H < n := Nat.div_lt_of_lt_mul (by rwa [mul_comm])
    have e2 : j / H < n := Nat.div_lt_of_lt_mul (by rwa [mul_comm])
    simp only [if_true, if_false, reduceCtorEq, String.reduceEq]
    rw [ht.val q hq _ e1 _ e2, ha.val k hk _ (Nat.mod_lt _ hH) q hq _ (Nat.mod_lt _ hH)]

theorem vExtend_settles (wf : WFStore st) {net : Net} (hn : NetOf p CTMRGVEdgeExtendFTN net) {t a : Tensor K} {v : Nat → Nat → Nat → K}
    (ht : IsEdge st t "u" "r" "d" n H v) (ha : IsCenter st a V H w) :
    ∃ net' st' t', Settles (fun fuel => contractNet p fuel net st [("p", t), ("w", a)]) (net', st', t') ∧ NetOf p CTMRGVEdgeExtendFTN net' ∧
      WFStore st' ∧ LegsUnchanged st st' ∧ IsEdge st' t' "u" "r" "d" (n * V) H (wideV w V H v) := by
  have hV : 0 < V := Nat.pos_of_ne_zero (ha.du ▸ dimOf_pos ha.labels (by decide) (by decide))
  obtain ⟨net', st', t', hs, hn', o⟩ := contractNet_settles hn (C49_vEdgeExtend p.rand p.cast wf ht.labels ha.labels (by rw [ht.dz, ha.dl])) (.refl _)
  refine ⟨net', st', t', hs, hn', o.wf, o.kept, o.hasLabels (by show ["u", "d", "r"].Perm _; decide), ?_, ?_, ?_, ?_⟩
  · rw [o.dimOf (by show "u" ∈ ["u", "d", "r"]; decide)]
    simp [vEdgeExtendArr, ht.dx, ha.du]
  · rw [o.dimOf (by show "r" ∈ ["u", "d", "r"]; decide)]
    simp [vEdgeExtendArr, ha.dr]
  · rw [o.dimOf (by show "d" ∈ ["u", "d", "r"]; decide)]
    simp [vEdgeExtendArr, ht.dy, ha.dd]
  · intro k hk i hi j hj
    rw [o.at (by
      intro x hx
      have hx : x ∈ ["u", "d", "r"] := hx
      simp only [List.mem_cons, List.not_mem_nil, or_false] at hx
      rcases hx with rfl | rfl | rfl <;> simpa [indexAt, vEdgeExtendArr, ht.dx, ht.dy, ha.du, ha.dr, ha.dd])]
    simp only [vEdgeExtendArr, indexAt, ht.dz, ha.du, ha.dd, wideV]
    refine Finset.sum_congr rfl fun q hq => ?_
    rw [Finset.mem_range] at hq
    have e1 : i / V < n := Nat.div_lt_of_lt_mul (by rwa [mul_comm])
    have e2 : j / V < n := Nat.div_lt_of_lt_mul (by rwa [mul_comm])
    simp only [if_true, if_false, reduceCtorEq, String.reduceEq]
    rw [ht.val q hq _ e1 _ e2, ha.val _ (Nat.mod_lt _ hV) q hq _ (Nat.mod_lt _ hV) k hk]

theorem corner_settles (hcast : ∀ x, p.cast x = x) (wf : WFStore st) {net : Net} (hn : MixedNetOf p CTMRGCornerExtendFTN (· = 0) net)
    {t : Trio (Tensor K)} {a : Tensor K} {c : Nat → K} {v h : Nat → Nat → Nat → K} (ht : IsTrio st t V H n c v h) (ha : IsCenter st a V H w) :
    ∃ net' st' t', Settles (fun fuel => contractNet p fuel net st [("ph", t.hEdge), ("pv", t.vEdge), ("w", a), ("c", t.corner)]) (net', st', t') ∧
      MixedNetOf p CTMRGCornerExtendFTN (· = 0) net' ∧
      WFStore st' ∧ LegsUnchanged st st' ∧ IsMatrix st' t' "u" "r" (n * V) (n * H) (wideCorner w V H n c v h) := by
  have hV : 0 < V := Nat.pos_of_ne_zero (ha.du ▸ dimOf_pos ha.labels (by decide) (by decide))
  have hH : 0 < H := Nat.pos_of_ne_zero (ha.dl ▸ dimOf_pos ha.labels (by decide) (by decide))
  obtain ⟨net', st', t', hs, hn', o⟩ := cornerExtend_settles hcast wf hn ht.corner.labels ht.corner.diag ht.hEdge.labels ht.vEdge.labels ha.labels
    (by rw [ht.corner.dx, ht.vEdge.dy]) (by rw [ht.corner.dy, ht.hEdge.dx]) (by rw [ht.vEdge.dz, ha.dl]) (by rw [ht.hEdge.dz, ha.dd])
  refine ⟨net', st', t', hs, hn', o.wf, o.kept, o.hasLabels (by show ["u", "r"].Perm _; decide), ?_, ?_, ?_⟩
  · rw [o.dimOf (by show "u" ∈ ["u", "r"]; decide)]
    simp [cornerExtendArr, ht.vEdge.dx, ha.du]
  · rw [o.dimOf (by show "r" ∈ ["u", "r"]; decide)]
    simp [cornerExtendArr, ht.hEdge.dy, ha.dr]
  · intro x hx y hy
    rw [o.at (by
      intro z hz
      have hz : z ∈ ["u", "r"] := hz
      simp only [List.mem_cons, List.not_mem_nil, or_false] at hz
      rcases hz with rfl | rfl <;> simpa [indexAt, cornerExtendArr, ht.vEdge.dx, ht.hEdge.dy, ha.du, ha.dr])]
    simp only [cornerExtendArr, indexAt, ht.hEdge.dz, ht.vEdge.dz, ht.corner.dx, ht.corner.dy, ha.du, ha.dr, wideCorner]
    simp only [if_true, if_false, reduceCtorEq, String.reduceEq]
    have e1 : x / V < n := Nat.div_lt_of_lt_mul (by rwa [mul_comm])
    have e2 : y / H < n := Nat.div_lt_of_lt_mul (by rwa [mul_comm])
    refine Finset.sum_congr rfl fun m hm => Finset.sum_congr rfl fun k hk => ?_
    rw [Finset.sum_comm]
    refine Finset.sum_congr rfl fun i hi => ?_
    rw [Finset.mem_range] at hm hk hi
    rw [Finset.sum_eq_single_of_mem i (Finset.mem_range.mpr hi)]
    · rw [ht.corner.val i hi i hi, if_pos rfl, ht.hEdge.val m hm i hi _ e2, ht.vEdge.val k hk _ e1 i hi,
        ha.val _ (Nat.mod_lt _ hV) k hk m hm _ (Nat.mod_lt _ hH)]
      ring
    · intro j hj hne
      rw [Finset.mem_range] at hj
      rw [ht.corner.val i hi j hj, if_neg hne.symm]
      ring

theorem vBuild_settles (wf : WFStore st) {net : Net} (hn : NetOf p CTMRGVEdgeBuildFTN net) {t x y : Tensor K} {k : Nat} {v : Nat → Nat → Nat → K}
    {U : NDArray K} (ht : IsEdge st t "u" "r" "d" n H v) (hx : IsMatrix st x "u" "d" n k fun i j => U.get [i, j])
    (hy : IsMatrix st y "u" "d" n k fun i j => U.get [i, j]) :
    ∃ net' st' t', Settles (fun fuel => contractNet p fuel net st [("au", x), ("ad", y), ("p", t)]) (net', st', t') ∧
      NetOf p CTMRGVEdgeBuildFTN net' ∧ WFStore st' ∧ LegsUnchanged st st' ∧ IsEdge st' t' "u" "r" "d" k H (cutV U n v) := by
  obtain ⟨net', st', t', hs, hn', o⟩ := contractNet_settles hn
    (C49_vEdgeBuild p.rand p.cast wf ht.labels hx.labels hy.labels (by rw [hy.dx, ht.dy]) (by rw [hx.dx, ht.dx]))
    (dict := [("au", x), ("ad", y), ("p", t)]) (List.perm_append_comm (l₁ := [("au", x), ("ad", y)]) (l₂ := [("p", t)]))
  refine ⟨net', st', t', hs, hn', o.wf, o.kept, o.hasLabels (by show ["r", "u", "d"].Perm _; decide), ?_, ?_, ?_, ?_⟩
  · rw [o.dimOf (by show "u" ∈ ["r", "u", "d"]; decide)]
    simp [vEdgeBuildArr, hx.dy]
  · rw [o.dimOf (by show "r" ∈ ["r", "u", "d"]; decide)]
    simp [vEdgeBuildArr, ht.dz]
  · rw [o.dimOf (by show "d" ∈ ["r", "u", "d"]; decide)]
    simp [vEdgeBuildArr, hy.dy]
  · intro q hq i hi j hj
    rw [o.at (by
      intro z hz
      have hz : z ∈ ["r", "u", "d"] := hz
      simp only [List.mem_cons, List.not_mem_nil, or_false] at hz
      rcases hz with rfl | rfl | rfl <;> simpa [indexAt, vEdgeBuildArr, ht.dz, hx.dy, hy.dy])]
    simp only [vEdgeBuildArr, indexAt, hx.dx, hy.dx, cutV]
    refine Finset.sum_congr rfl fun a ha => Finset.sum_congr rfl fun b hb => ?_
    rw [Finset.mem_range] at ha hb
    simp only [if_true, if_false, reduceCtorEq, String.reduceEq]
    rw [ht.val q hq a ha b hb, hx.val a ha i hi, hy.val b hb j hj]

theorem hBuild_settles (wf : WFStore st) {net : Net} (hn : NetOf p CTMRGHEdgeBuildFTN net) {t x y : Tensor K} {k : Nat} {h : Nat → Nat → Nat → K}
    {U : NDArray K} (ht : IsEdge st t "l" "u" "r" n V h) (hx : IsMatrix st x "l" "r" k n fun i j => U.get [i, j])
    (hy : IsMatrix st y "l" "r" k n fun i j => U.get [i, j]) :
    ∃ net' st' t', Settles (fun fuel => contractNet p fuel net st [("al", x), ("ar", y), ("p", t)]) (net', st', t') ∧
      NetOf p CTMRGHEdgeBuildFTN net' ∧ WFStore st' ∧ LegsUnchanged st st' ∧ IsEdge st' t' "l" "u" "r" k V (cutH U n h) := by
  obtain ⟨net', st', t', hs, hn', o⟩ := contractNet_settles hn
    (C49_hEdgeBuild p.rand p.cast wf ht.labels hx.labels hy.labels (by rw [hx.dy, ht.dx]) (by rw [hy.dy, ht.dy]))
    (dict := [("al", x), ("ar", y), ("p", t)]) (List.perm_append_comm (l₁ := [("al", x), ("ar", y)]) (l₂ := [("p", t)]))
  refine ⟨net', st', t', hs, hn', o.wf, o.kept, o.hasLabels (by show ["u", "l", "r"].Perm _; decide), ?_, ?_, ?_, ?_⟩
  · rw [o.dimOf (by show "l" ∈ ["u", "l", "r"]; decide)]
    simp [hEdgeBuildArr, hx.dx]
  · rw [o.dimOf (by show "u" ∈ ["u", "l", "r"]; decide)]
    simp [hEdgeBuildArr, ht.dz]
  · rw [o.dimOf (by show "r" ∈ ["u", "l", "r"]; decide)]
    simp [hEdgeBuildArr, hy.dx]
  · intro q hq i hi j hj
    rw [o.at (by
      intro z hz
      have hz : z ∈ ["u", "l", "r"] := hz
      simp only [List.mem_cons, List.not_mem_nil, or_false] at hz
      rcases hz with rfl | rfl | rfl <;> simpa [indexAt, hEdgeBuildArr, ht.dz, hx.dx, hy.dx])]
    simp only [hEdgeBuildArr, indexAt, hx.dy, hy.dy, cutH]
    rw [Finset.sum_comm]
    refine Finset.sum_congr rfl fun a ha => Finset.sum_congr rfl fun b hb => ?_
    rw [Finset.mem_range] at ha hb
    simp only [if_true, if_false, reduceCtorEq, String.reduceEq]
    rw [ht.val q hq a ha b hb, hx.val i hi a ha, hy.val j hj b hb]

/-! ### `reduceDimension` -/

theorem copyTwo_matrix (p : RGParams K) (wf : WFStore st) {t : Tensor K} {x y : String} {n m : Nat} {A : Nat → Nat → K} (h : IsMatrix st t x y n m A) :
    ∃ st' c d, copyTwo p st t = .ok (st', c, d) ∧ WFStore st' ∧ LegsUnchanged st st' ∧ IsMatrix st' c x y n m A ∧ IsMatrix st' d x y n m A := by
  obtain ⟨st1, c, e1, w1, k1, S1⟩ := copy_same p.rand h.labels.any (by simp) wf
  obtain ⟨st2, d, e2, w2, k2, S2⟩ := copy_same p.rand (h.kept k1).labels.any (by simp) w1
  refine ⟨st2, c, d, ?_, w2, k1.trans k2, (S1.matrix h).kept k2, S2.matrix (h.kept k1)⟩
  unfold copyTwo
  simp only [e1, e2, bind, Except.bind, pure, Except.pure]

theorem reduce_settles {la : LinAlg K} (hS : ∀ (a : NDArray K) n m, a.WF → a.shape = [n, m] → IsSVD a n m (la.svd a)) (wf : WFStore st)
    {nets : CTMRGNets} (hn : nets.Good p) {t : Trio (Tensor K)} {n m chi : Nat} (hchi : chi ≠ 0) {C : Nat → Nat → K} {v h : Nat → Nat → Nat → K}
    (T : IsWide st t V H n m C v h) :
    ∃ nets' st' t' err, Settles (fun fuel => CTMRGState.reduceDimension p la fuel nets chi st t) (nets', st', t', err) ∧ nets'.Good p ∧
      WFStore st' ∧ LegsUnchanged st st' ∧ err = (svdTruncated la (matOf n m C) chi 4).error ∧
      IsTrio st' t' V H (min chi (min n m)) (fun k => (la.svd (matOf n m C)).2.1.getD k 0) (cutV (la.svd (matOf n m C)).1 n v)
        (cutH (la.svd (matOf n m C)).2.2 m h) := by
  obtain ⟨st1, d, e1, w1, k1, hu, hs, hv, he⟩ := svdTensors_ok p hS wf T.corner (i1 := "d") (i2 := "l") (by decide) (by decide) (by decide) hchi 4
  obtain ⟨st2, ua, ub, e2, w2, k2, hua, hub⟩ := copyTwo_matrix p w1 hu
  obtain ⟨st3, va, vb, e3, w3, k3, hva, hvb⟩ := copyTwo_matrix p w2 (hv.kept k2)
  obtain ⟨net4, st4, tv, e4, n4, w4, k4, hv4⟩ := vBuild_settles w3 hn.vBuild (T.vEdge.kept ((k1.trans k2).trans k3)) (hua.kept k3) (hub.kept k3)
  obtain ⟨net5, st5, th, e5, n5, w5, k5, hh5⟩ := hBuild_settles w4 hn.hBuild (T.hEdge.kept (((k1.trans k2).trans k3).trans k4)) (hva.kept k4) (hvb.kept k4)
  obtain ⟨st6, _, e6, w6, k6, -⟩ := copy_same p.rand hh5.labels.any (by simp) w5
  refine ⟨{ nets with vBuild := net4, hBuild := net5 }, st6, ⟨d.s, th, tv⟩, d.error, ?_,
    ⟨hn.hEdgeExtend, hn.vEdgeExtend, hn.cornerExtend, n4, n5, hn.evenZ, hn.oddZ⟩, w6,
    ((((k1.trans k2).trans k3).trans k4).trans k5).trans k6, he,
    hs.kept ((((k2.trans k3).trans k4).trans k5).trans k6), hh5.kept k6, hv4.kept (k5.trans k6)⟩
  unfold CTMRGState.reduceDimension
  refine (Settles.const e1).bind ((Settles.const e2).bind ((Settles.const e3).bind (e4.bind (e5.bind (Settles.const ?_)))))
  simp only [e6, bind, Except.bind, pure, Except.pure]

/-! ### The first tensors -/

omit [LinearOrder K] [Star K] in
theorem at_ext {t : Tensor K} {labels : List String} (h : HasLabels st t labels) {xs ys : List (String × Nat)}
    (e : ∀ y ∈ labels, indexAt xs y = indexAt ys y) : t.at st xs = t.at st ys :=
  entry_congr t fun l hl => e _ (h.labels.subset (List.mem_map_of_mem hl))

theorem summed_ok (p : RGParams K) (wf : WFStore st) {a : Tensor K} (ha : IsCenter st a V H w) :
    ∃ st' t, CTMRGState.summedOut p st a = .ok (st', t) ∧ WFStore st' ∧ LegsUnchanged st st' ∧
      IsWide st' t V H (1 * V) (1 * H) (wideCorner w V H 1 (fun _ => 1) (fun _ _ _ => 1) fun _ _ _ => 1) (wideV w V H fun _ _ _ => 1)
        (wideH w V H fun _ _ _ => 1) := by
  obtain ⟨st1, c, e1, w1, k1, S1⟩ := copy_same p.rand ha.labels.any (by simp) wf
  obtain ⟨st2, h, e2, w2, k2, S2⟩ := copy_same p.rand (ha.kept k1).labels.any (by simp) w1
  obtain ⟨st3, v, e3, w3, k3, S3⟩ := copy_same p.rand (ha.kept (k1.trans k2)).labels.any (by simp) w2
  have hc := (S1.site ha).kept (k2.trans k3)
  have hh := (S2.site (ha.kept k1)).kept k3
  have hv := S3.site (ha.kept (k1.trans k2))
  obtain ⟨c1, f1, lc1, dc1, vc1⟩ := sumOut_label hc.labels (by decide) (x := "d") (by decide)
  obtain ⟨c2, f2, lc2, dc2, vc2⟩ := sumOut_label lc1 (by decide) (x := "l") (by decide)
  obtain ⟨h1, f3, lh1, dh1, vh1⟩ := sumOut_label hh.labels (by decide) (x := "d") (by decide)
  obtain ⟨v1, f4, lv1, dv1, vv1⟩ := sumOut_label hv.labels (by decide) (x := "l") (by decide)
  have lc2 : HasLabels st3 c2 ["u", "r"] := ⟨lc2.good, lc2.dense, lc2.known, lc2.pos, lc2.labels.trans (by decide)⟩
  have lh1 : HasLabels st3 h1 ["l", "u", "r"] := ⟨lh1.good, lh1.dense, lh1.known, lh1.pos, lh1.labels.trans (by decide)⟩
  have lv1 : HasLabels st3 v1 ["u", "r", "d"] := ⟨lv1.good, lv1.dense, lv1.known, lv1.pos, lv1.labels.trans (by decide)⟩
  have m1 : ∀ {x : Nat}, x < V → x % V = x := fun h => Nat.mod_eq_of_lt h
  have m2 : ∀ {x : Nat}, x < H → x % H = x := fun h => Nat.mod_eq_of_lt h
  refine ⟨st3, ⟨c2, h1, v1⟩, ?_, w3, (k1.trans k2).trans k3, ?_, ?_, ?_⟩
  · unfold CTMRGState.summedOut
    have g : c.sumOutLegByLabelList st3 ["d", "l"] false none = (c2, .ok ()) := by
      rw [(C22_sumOutLegByLabel_list st3 c false none "d" ["l"] c1 f1).1, (C22_sumOutLegByLabel_list st3 c1 false none "l" [] c2 f2).1,
        (C22_sumOutLegByLabel_list st3 c2 false none "" [] c2 (by
          refine ((C22_sumOutLegByLabel st3 c2 "" false none).1 fun hm => ?_)
          have := lc2.labels.subset hm
          simp at this)).2]
    simp only [e1, e2, e3, g, f3, f4, changed, bind, Except.bind, pure, Except.pure]
  · rw [one_mul, one_mul]
    refine ⟨lc2, ?_, ?_, fun i hi j hj => ?_⟩
    · rw [dc2 _ (by decide), dc1 _ (by decide), hc.du]
    · rw [dc2 _ (by decide), dc1 _ (by decide), hc.dr]
    · rw [vc2 _ (by
        intro y hy
        have hy : y ∈ ["u", "r"] := hy
        simp only [List.mem_cons, List.not_mem_nil, or_false] at hy
        rcases hy with rfl | rfl
        · rw [dc1 _ (by decide), hc.du]; simpa [indexAt]
        · rw [dc1 _ (by decide), hc.dr]; simpa [indexAt]), dc1 _ (by decide), hc.dl, wideCorner, Finset.sum_comm]
      refine Finset.sum_congr rfl fun l hl => ?_
      rw [Finset.mem_range] at hl
      rw [vc1 _ (by
        intro y hy
        have hy : y ∈ ["u", "l", "r"] := hy
        simp only [List.mem_cons, List.not_mem_nil, or_false] at hy
        rcases hy with rfl | rfl | rfl
        · rw [hc.du]; simpa [indexAt]
        · rw [hc.dl]; simpa [indexAt]
        · rw [hc.dr]; simpa [indexAt]), hc.dd]
      refine Finset.sum_congr rfl fun d hd => ?_
      rw [Finset.mem_range] at hd
      rw [at_ext hc.labels (ys := [("u", i), ("l", l), ("d", d), ("r", j)]) (by simp [indexAt]), hc.val i hi l hl d hd j hj, m1 hi, m2 hj]
      simp
  · rw [one_mul]
    refine ⟨lh1, ?_, ?_, ?_, fun k hk i hi j hj => ?_⟩
    · rw [dh1 _ (by decide), hh.dl]
    · rw [dh1 _ (by decide), hh.du]
    · rw [dh1 _ (by decide), hh.dr]
    · rw [vh1 _ (by
        intro y hy
        have hy : y ∈ ["u", "l", "r"] := hy
        simp only [List.mem_cons, List.not_mem_nil, or_false] at hy
        rcases hy with rfl | rfl | rfl
        · rw [hh.du]; simpa [indexAt]
        · rw [hh.dl]; simpa [indexAt]
        · rw [hh.dr]; simpa [indexAt]), hh.dd, wideH]
      refine Finset.sum_congr rfl fun d hd => ?_
      rw [Finset.mem_range] at hd
      rw [at_ext hh.labels (ys := [("u", k), ("l", i), ("d", d), ("r", j)]) (by simp [indexAt]), hh.val k hk i hi d hd j hj, m2 hi, m2 hj, one_mul]
  · rw [one_mul]
    refine ⟨lv1, ?_, ?_, ?_, fun k hk i hi j hj => ?_⟩
    · rw [dv1 _ (by decide), hv.du]
    · rw [dv1 _ (by decide), hv.dr]
    · rw [dv1 _ (by decide), hv.dd]
    · rw [vv1 _ (by
        intro y hy
        have hy : y ∈ ["u", "d", "r"] := hy
        simp only [List.mem_cons, List.not_mem_nil, or_false] at hy
        rcases hy with rfl | rfl | rfl
        · rw [hv.du]; simpa [indexAt]
        · rw [hv.dd]; simpa [indexAt]
        · rw [hv.dr]; simpa [indexAt]), hv.dl, wideV]
      refine Finset.sum_congr rfl fun l hl => ?_
      rw [Finset.mem_range] at hl
      rw [at_ext hv.labels (ys := [("u", i), ("l", l), ("d", j), ("r", k)]) (by simp [indexAt]), hv.val i hi l hl j hj k hk, m1 hi, m1 hj, one_mul]

/-! ### `copyAll`, `extend` -/

theorem copyAll_ok (p : RGParams K) (wf : WFStore st) {t : Trio (Tensor K)} {N : Numbers K} (T : t.Is st V H N) :
    ∃ st' t', CTMRGState.copyAll p st t = .ok (st', t') ∧ WFStore st' ∧ LegsUnchanged st st' ∧ t'.Is st' V H N := by
  obtain ⟨st1, c, e1, w1, k1, S1⟩ := copy_same p.rand T.corner.labels (by simp) wf
  obtain ⟨st2, h, e2, w2, k2, S2⟩ := copy_same p.rand (T.hEdge.kept k1).labels.any (by simp) w1
  obtain ⟨st3, v, e3, w3, k3, S3⟩ := copy_same p.rand (T.vEdge.kept (k1.trans k2)).labels.any (by simp) w2
  refine ⟨st3, ⟨c, h, v⟩, ?_, w3, (k1.trans k2).trans k3, (S1.diagonal T.corner).kept (k2.trans k3), (S2.edge (T.hEdge.kept k1)).kept k3,
    S3.edge (T.vEdge.kept (k1.trans k2))⟩
  unfold CTMRGState.copyAll
  simp only [e1, e2, e3, bind, Except.bind, pure, Except.pure]

theorem extend_settles (hcast : ∀ x, p.cast x = x) (wf : WFStore st) {nets : CTMRGNets} (hn : nets.Good p) {a : Tensor K} (ha : IsCenter st a V H w)
    {t : Trio (Tensor K)} {N : Numbers K} (T : t.Is st V H N) :
    ∃ nets' st' t', Settles (fun fuel => CTMRGState.extend p fuel nets st a t) (nets', st', t') ∧ nets'.Good p ∧ WFStore st' ∧ LegsUnchanged st st' ∧
      IsWide st' t' V H (N.n * V) (N.n * H) (wideCorner w V H N.n N.c N.v N.h) (wideV w V H N.v) (wideH w V H N.h) := by
  obtain ⟨st1, c, e1, w1, k1, T1⟩ := copyAll_ok p wf T
  obtain ⟨n2, st2, t2, e2, g2, w2, k2, h2⟩ := hExtend_settles w1 hn.hEdgeExtend T1.hEdge (ha.kept k1)
  obtain ⟨n3, st3, t3, e3, g3, w3, k3, h3⟩ := vExtend_settles w2 hn.vEdgeExtend (T1.vEdge.kept k2) (ha.kept (k1.trans k2))
  obtain ⟨n4, st4, t4, e4, g4, w4, k4, h4⟩ := corner_settles hcast w3 hn.cornerExtend (IsTrio.kept T1 (k2.trans k3)) (ha.kept ((k1.trans k2).trans k3))
  refine ⟨{ nets with hEdgeExtend := n2, vEdgeExtend := n3, cornerExtend := n4 }, st4, ⟨t4, t2, t3⟩, ?_,
    ⟨g2, g3, g4, hn.vBuild, hn.hBuild, hn.evenZ, hn.oddZ⟩, w4, ((k1.trans k2).trans k3).trans k4, h4, h2.kept (k3.trans k4), h3.kept k4⟩
  unfold CTMRGState.extend
  exact (Settles.const e1).bind (e2.bind (e3.bind (e4.bind (Settles.const rfl))))

/-! ### Objects -/

/-- What holds of every `CTMRG` object for the site `w`. -/
structure CTMRGState.Good (p : RGParams K) (s : CTMRGState K) (V H : Nat) (w : Nat → Nat → Nat → Nat → K) : Prop where
  wf : WFStore s.st
  site : IsCenter s.st s.a V H w
  nets : s.nets.Good p
  chi : s.chi ≠ 0

theorem new_settles {la : LinAlg K} (hS : ∀ (a : NDArray K) n m, a.WF → a.shape = [n, m] → IsSVD a n m (la.svd a)) (wf : WFStore st) {a : Tensor K}
    (ha : IsCenter st a V H w) {chi : Nat} (hchi : chi ≠ 0) :
    ∃ s, Settles (fun fuel => CTMRGState.new p la fuel st a chi) s ∧ s.Good p V H w ∧ s.tensors.Is s.st V H (Numbers.start.step la chi w V H) ∧
      s.logScale = ⟨0, 0, 0⟩ ∧ s.records = ⟨[], [], []⟩ ∧ s.chi = chi ∧ s.errors = [(svdTruncated la (Numbers.start.wide w V H) chi 4).error] := by
  obtain ⟨st1, a1, e1, w1, k1, S1⟩ := copy_same p.rand ha.labels.any (by simp) wf
  obtain ⟨nets, e2, hn⟩ := networks_ok p
  have ha1 := S1.site ha
  obtain ⟨st3, t3, e3, w3, k3, T3⟩ := summed_ok p w1 ha1
  obtain ⟨nets4, st4, t4, err, e4, g4, w4, k4, h4, T4⟩ := reduce_settles hS w3 hn hchi T3
  refine ⟨{ st := st4, a := a1, chi := chi, tensors := t4, logScale := ⟨0, 0, 0⟩, records := ⟨[], [], []⟩, errors := [err], nets := nets4 }, ?_,
    ⟨w4, ha1.kept (k3.trans k4), g4, hchi⟩, T4, rfl, rfl, rfl, congrArg (fun x => [x]) h4⟩
  unfold CTMRGState.new
  refine (Settles.const e1).bind ?_
  have hp : pyAssert (compareLists (a.labels st) ["l", "r", "u", "d"]) = .ok () := by
    have : compareLists (a.labels st) ["l", "r", "u", "d"] = true := (C37_compareLists _ _).mpr (ha.labels.labels.trans (by decide))
    rw [this]
    rfl
  refine (Settles.const hp).bind ((Settles.const e2).bind ((Settles.const e3).bind (e4.bind (Settles.const rfl))))

theorem push_ok {s : CTMRGState K} (g : s.Good p V H w) {N : Numbers K} (T : s.tensors.Is s.st V H N) :
    ∃ (st' : Store) (t' : Trio (Tensor K)), s.push p = .ok { s with st := st', records :=
        ⟨s.records.corner ++ [(t'.corner, s.logScale.corner)], s.records.hEdge ++ [(t'.hEdge, s.logScale.hEdge)],
          s.records.vEdge ++ [(t'.vEdge, s.logScale.vEdge)]⟩ } ∧ WFStore st' ∧ LegsUnchanged s.st st' ∧ t'.Is st' V H N := by
  obtain ⟨st1, c, e1, w1, k1, T1⟩ := copyAll_ok p g.wf T
  refine ⟨st1, c, ?_, w1, k1, T1⟩
  unfold CTMRGState.push
  simp only [e1, bind, Except.bind, pure, Except.pure]

theorem iterate_ok {la : LinAlg K} (hS : ∀ (a : NDArray K) n m, a.WF → a.shape = [n, m] → IsSVD a n m (la.svd a)) (hcast : ∀ x, p.cast x = x)
    (hnorm : TriangleTRGState.TrueNorm p.norm) (log : K → K) {s : CTMRGState K} (g : s.Good p V H w) {N : Numbers K} (T : s.tensors.Is s.st V H N) :
    ∃ (s' : CTMRGState K) (t' : Trio (Tensor K)) (x y z : K), Settles (fun fuel => s.iterate p la fuel log) s' ∧ s'.Good p V H w ∧ LegsUnchanged s.st s'.st ∧ s'.chi = s.chi ∧
      s'.tensors.Is s'.st V H ((N.step la s.chi w V H).over x y z) ∧ (N.step la s.chi w V H).Norms V H x y z ∧
      s'.logScale = ⟨log x + s.logScale.corner + s.logScale.hEdge + s.logScale.vEdge, log y + s.logScale.hEdge, log z + s.logScale.vEdge⟩ ∧
      s'.records = ⟨s.records.corner ++ [(t'.corner, s.logScale.corner)], s.records.hEdge ++ [(t'.hEdge, s.logScale.hEdge)],
          s.records.vEdge ++ [(t'.vEdge, s.logScale.vEdge)]⟩ ∧ t'.Is s'.st V H N ∧
      s'.errors = s.errors ++ [(svdTruncated la (N.wide w V H) s.chi 4).error] := by
  obtain ⟨st1, t1, e1, w1, k1, T1⟩ := push_ok g T
  obtain ⟨nets2, st2, t2, e2, g2, w2, k2, T2⟩ := extend_settles hcast w1 g.nets (g.site.kept k1) (IsTrio.kept T k1)
  obtain ⟨nets3, st3, t3, err, e3, g3, w3, k3, h3, T3⟩ := reduce_settles hS w2 g2 g.chi T2
  obtain ⟨c, x, ec, lc, dc, sc, vc, x0, xz⟩ := divide_ok p hnorm T3.corner.labels
  obtain ⟨h, y, eh, lh, dh, sh, vh, y0, yz⟩ := divide_ok p hnorm T3.hEdge.labels.any
  obtain ⟨v, z, ev, lv, dv, sv, vv, z0, zz⟩ := divide_ok p hnorm T3.vEdge.labels.any
  refine ⟨{ s with
    st := st3, nets := nets3, tensors := ⟨c, h, v⟩
    records := ⟨s.records.corner ++ [(t1.corner, s.logScale.corner)], s.records.hEdge ++ [(t1.hEdge, s.logScale.hEdge)],
          s.records.vEdge ++ [(t1.vEdge, s.logScale.vEdge)]⟩
    logScale := ⟨log x + s.logScale.corner + s.logScale.hEdge + s.logScale.vEdge, log y + s.logScale.hEdge, log z + s.logScale.vEdge⟩
    errors := s.errors ++ [err] }, t1, x, y, z, ?_, ⟨w3, g.site.kept ((k1.trans k2).trans k3), g3, g.chi⟩, (k1.trans k2).trans k3, rfl, ?_, ?_, rfl, rfl,
    IsTrio.kept T1 (k2.trans k3), by rw [h3]; rfl⟩
  · unfold CTMRGState.iterate
    refine (Settles.const e1).bind (e2.bind (e3.bind ((Settles.const ec).bind ((Settles.const eh).bind ((Settles.const ev).bind (Settles.const rfl))))))
  · refine ⟨⟨lc, dc.trans T3.corner.diag, by rw [sc, T3.corner.dx]; rfl, by rw [sc, T3.corner.dy]; rfl, fun i hi j hj => ?_⟩,
      ⟨⟨lh.good, dh.trans T3.hEdge.labels.dense, lh.known, lh.pos, lh.labels⟩, by rw [sh, T3.hEdge.dx]; rfl, by rw [sh, T3.hEdge.dz],
        by rw [sh, T3.hEdge.dy]; rfl, fun k hk i hi j hj => ?_⟩,
      ⟨⟨lv.good, dv.trans T3.vEdge.labels.dense, lv.known, lv.pos, lv.labels⟩, by rw [sv, T3.vEdge.dx]; rfl, by rw [sv, T3.vEdge.dz],
        by rw [sv, T3.vEdge.dy]; rfl, fun k hk i hi j hj => ?_⟩⟩
    · rw [vc, T3.corner.val i hi j hj]
      by_cases hij : i = j
      · rw [if_pos hij, if_pos hij]
        rfl
      · rw [if_neg hij, if_neg hij, zero_div]
    · rw [vh, T3.hEdge.val k hk i hi j hj]
      rfl
    · rw [vv, T3.vEdge.val k hk i hi j hj]
      rfl
  · refine ⟨x0, y0, z0, fun e i hi => ?_, fun e k hk i hi j hj => ?_, fun e k hk i hi j hj => ?_⟩
    · have := T3.corner.val i hi i hi
      rw [xz e, if_pos rfl] at this
      exact this.symm
    · exact (T3.hEdge.val k hk i hi j hj).symm.trans (yz e _)
    · exact (T3.vEdge.val k hk i hi j hj).symm.trans (zz e _)

end

end CTL
