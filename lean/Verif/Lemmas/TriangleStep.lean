import Verif.Spec.TriangleTRG
import Verif.Lemmas.Honey
import Verif.Lemmas.TRGExact
import Verif.Props.Traces
import Verif.Lemmas.ContractPair

/-! Single steps of `TriangleTRG`. -/

namespace CTL
variable {K : Type}

open Finset (range)

/-! ### Sites -/

/-- A site whose legs have not changed. -/
theorem TriSite.keptOn {st st' : Store} {t : Tensor K} {D : Nat} (h : TriSite st t D) (le : st.nextLeg ≤ st'.nextLeg)
    (hl : ∀ l ∈ t.legs, st'.leg l = st.leg l) : TriSite st' t D := by
  have hn : t.legs.map st'.name = t.legs.map st.name := List.map_congr_left fun l hm => by unfold Store.name; rw [hl l hm]
  have hd : ∀ l ∈ t.legs, st'.dim l = st.dim l := fun l hm => by unfold Store.dim; rw [hl l hm]
  have hD := dimOf_congr hn (List.map_congr_left hd)
  refine ⟨⟨h.labels.good.congr_dim hd, h.labels.dense, fun l hm => (h.labels.known l hm).trans_le le, fun l hm => ?_, by rw [hn]; exact h.labels.labels⟩,
    by rw [hD, h.d1], by rw [hD, h.d2], by rw [hD, h.d3], fun l hm => by rw [hl l hm]; exact h.free l hm⟩
  rw [hd l hm]
  exact h.labels.pos l hm

theorem TriSite.triOn [Zero K] {st st' : Store} {t : Tensor K} {D : Nat} (h : TriSite st t D)
    (hl : ∀ l ∈ t.legs, st'.leg l = st.leg l) (x y z : Nat) : t.tri st' x y z = t.tri st x y z := by
  have hn : t.legs.map st'.name = t.legs.map st.name := List.map_congr_left fun l hm => by unfold Store.name; rw [hl l hm]
  exact at_congr hn rfl h.labels.dense h.labels.dense _

theorem TriSite.kept {st st' : Store} {t : Tensor K} {D : Nat} (h : TriSite st t D) (k : LegsUnchanged st st') : TriSite st' t D :=
  h.keptOn k.le fun l hl => k.leg l (h.labels.known l hl)

theorem TriSite.tri_kept [Zero K] {st st' : Store} {t : Tensor K} {D : Nat} (h : TriSite st t D) (k : LegsUnchanged st st') (x y z : Nat) :
    t.tri st' x y z = t.tri st x y z :=
  h.triOn (fun l hl => k.leg l (h.labels.known l hl)) x y z

theorem FreshTensor.tri [Zero K] {st st' : Store} {t c : Tensor K} {D : Nat} (F : FreshTensor st t c st') (h : TriSite st t D) :
    TriSite st' c D ∧ ∀ x y z, c.tri st' x y z = t.tri st x y z := by
  have hd := dimOf_congr F.labels F.dims
  refine ⟨⟨⟨F.good, F.dense, fun l hl => (F.new l hl).2, fun l hl => ?_, by rw [F.labels]; exact h.labels.labels⟩, ?_, ?_, ?_, F.free⟩, ?_⟩
  · have := F.dims ▸ List.mem_map_of_mem (f := st'.dim) hl
    obtain ⟨k, hk, e⟩ := List.mem_map.mp this
    rw [← e]
    exact h.labels.pos k hk
  · rw [hd, h.d1]
  · rw [hd, h.d2]
  · rw [hd, h.d3]
  · exact fun x y z => at_congr F.labels F.data F.dense h.labels.dense _

theorem TriSite.divided [Field K] {st : Store} {t : Tensor K} {D : Nat} (h : TriSite st t D) {b : NDArray K} (hb : t.a = some b) (c : K) :
    TriSite st { t with a := some (b.divBy c) } D ∧
      ∀ x y z, ({ t with a := some (b.divBy c) } : Tensor K).tri st x y z = t.tri st x y z / c := by
  obtain ⟨arr, ea, wa, sa, sd⟩ := h.labels.good.data
  obtain rfl : arr = b := Option.some.inj (ea.symm.trans hb)
  refine ⟨⟨⟨⟨h.labels.good.nodup, h.labels.good.notLike, _, rfl, ?_, sa, sd⟩, h.labels.dense, h.labels.known, h.labels.pos, h.labels.labels⟩,
    h.d1, h.d2, h.d3, h.free⟩, ?_⟩
  · unfold NDArray.WF NDArray.divBy at *
    simpa using wa
  · intro x y z
    unfold Tensor.tri Tensor.at
    rw [entry_dense h.labels.dense, entry_dense (by exact h.labels.dense), hb]
    simp only [Option.map_some, Option.getD_some, divBy_get]

theorem Honey.corners_range [CommSemiring K] (D : Nat) (u : Nat → Nat → Nat → K) (x y z : Nat) :
    corners D u x y z = ∑ k ∈ range D, ∑ j ∈ range D, ∑ i ∈ range D, u i j x * u k i y * u j k z := by
  unfold corners
  have := Fintype.sum_equiv (M := K)
    (show (Fin 3 → Fin D) ≃ Fin D × Fin D × Fin D from
      ⟨fun y => (y 1, y 2, y 0),
       fun f c => match c with
        | 0 => f.2.2
        | 1 => f.1
        | 2 => f.2.1,
       fun y => by
        funext c
        match c with
        | 0 => rfl
        | 1 => rfl
        | 2 => rfl,
       fun f => rfl⟩)
    (fun w => u (w 0) (w 2) x * u (w 1) (w 0) y * u (w 2) (w 1) z)
    (fun f => u f.2.2 f.2.1 x * u f.1 f.2.2 y * u f.2.1 f.1 z) (fun _ => rfl)
  refine Eq.trans this ?_
  simp only [Fintype.sum_prod_type]
  rw [← Fin.sum_univ_eq_sum_range (fun k => ∑ j ∈ range D, ∑ i ∈ range D, u i j x * u k i y * u j k z) D]
  refine Finset.sum_congr rfl fun k _ => ?_
  rw [← Fin.sum_univ_eq_sum_range (fun j => ∑ i ∈ range D, u i j x * u k i y * u j k z) D]
  refine Finset.sum_congr rfl fun j _ => ?_
  rw [← Fin.sum_univ_eq_sum_range (fun i => u i j x * u k i y * u j k z) D]

/-! ### Two sites joined -/

/-- A tag before the labels 1, 2 and 3. -/
theorem tag_three {st : Store} {t : Tensor K} (nd : t.legs.Nodup) (h : (t.legs.map st.name).Perm ["1", "2", "3"]) (tag x1 x2 x3 : String)
    (h1 : x1.toList = tag.toList ++ '-' :: "1".toList) (h2 : x2.toList = tag.toList ++ '-' :: "2".toList)
    (h3 : x3.toList = tag.toList ++ '-' :: "3".toList) :
    ∃ st', raiseIf (t.addTensorTag st tag) = .ok st' ∧ SameButNames st st' t.legs ∧
      ∀ l ∈ t.legs, (st.name l = "1" ∧ st'.name l = x1) ∨ (st.name l = "2" ∧ st'.name l = x2) ∨ (st.name l = "3" ∧ st'.name l = x3) := by
  have hn : ∀ l ∈ t.legs, st.name l = "1" ∨ st.name l = "2" ∨ st.name l = "3" := fun l hl => by
    have := h.subset (List.mem_map_of_mem hl)
    simpa using this
  have nodash : ∀ l ∈ t.legs, '-' ∉ (st.name l).toList := by
    intro l hl
    rcases hn l hl with e | e | e <;> rw [e] <;> decide
  obtain ⟨c1, c2⟩ := C19_addTensorTag t st tag nd
  obtain ⟨s, n⟩ := c2 nodash
  refine ⟨(t.addTensorTag st tag).1, ?_, s, fun l hl => ?_⟩
  · have := c1.mpr nodash
    rcases e : t.addTensorTag st tag with ⟨s', o⟩
    rw [e] at this
    cases this
    rfl
  · have nl := n l hl
    rcases hn l hl with e | e | e
    · exact Or.inl ⟨e, String.toList_inj.mp (by rw [nl, h1, e])⟩
    · exact Or.inr (Or.inl ⟨e, String.toList_inj.mp (by rw [nl, h2, e])⟩)
    · exact Or.inr (Or.inr ⟨e, String.toList_inj.mp (by rw [nl, h3, e])⟩)

/-- The three legs of a site after they have been renamed. -/
theorem three_legs {st st' : Store} {t : Tensor K} {D : Nat} (h : TriSite st t D) {x1 x2 x3 : String}
    (hn : ∀ l ∈ t.legs, (st.name l = "1" ∧ st'.name l = x1) ∨ (st.name l = "2" ∧ st'.name l = x2) ∨ (st.name l = "3" ∧ st'.name l = x3))
    (nd : [x1, x2, x3].Nodup) :
    ∃ l1 l2 l3, [l1, l2, l3].Perm t.legs ∧ st.name l1 = "1" ∧ st.name l2 = "2" ∧ st.name l3 = "3" ∧ st'.name l1 = x1 ∧ st'.name l2 = x2 ∧
      st'.name l3 = x3 ∧ t.getLeg st' x1 = some l1 ∧ st.dim l1 = D ∧ st.dim l2 = D ∧ st.dim l3 = D := by
  obtain ⟨ls, e, hp, -⟩ := legs_of_labels (by decide) h.labels.good.nodup h.labels.labels
  obtain ⟨l1, l2, l3, rfl⟩ := List.length_eq_three.mp (by simpa using congrArg List.length e : ls.length = 3)
  simp only [List.map_cons, List.map_nil, List.cons.injEq, and_true] at e
  obtain ⟨n1, n2, n3⟩ := e
  have m1 : l1 ∈ t.legs := hp.subset (by simp)
  have m2 : l2 ∈ t.legs := hp.subset (by simp)
  have m3 : l3 ∈ t.legs := hp.subset (by simp)
  have k1 : st'.name l1 = x1 := by simpa [n1] using hn l1 m1
  have k2 : st'.name l2 = x2 := by simpa [n2] using hn l2 m2
  have k3 : st'.name l3 = x3 := by simpa [n3] using hn l3 m3
  refine ⟨l1, l2, l3, hp, n1, n2, n3, k1, k2, k3, ?_, ?_, ?_, ?_⟩
  · have : (t.legs.map st'.name).Nodup := by
      refine ((hp.map st'.name).nodup_iff).mp ?_
      simpa [k1, k2, k3] using nd
    have := getLeg_unique this m1
    rwa [k1] at this
  · rw [← dimOf_leg h.labels (by decide) m1, n1, h.d1]
  · rw [← dimOf_leg h.labels (by decide) m2, n2, h.d2]
  · rw [← dimOf_leg h.labels (by decide) m3, n3, h.d3]

/-- A tensor with the entries of a factor. -/
structure TriPiece [Zero K] (st : Store) (t : Tensor K) (D k : Nat) (u : NDArray K) : Prop where
  labels : HasLabels st t ["1", "2", "3"]
  d1 : t.dimOf st "1" = k
  d2 : t.dimOf st "2" = D
  d3 : t.dimOf st "3" = D
  val : ∀ i < D, ∀ j < D, ∀ o < k, t.tri st o i j = factorAt D u i j o

theorem TriPiece.kept [Zero K] {st st' : Store} {t : Tensor K} {D k : Nat} {u : NDArray K}
    (h : TriPiece st t D k u) (hk : LegsUnchanged st st') : TriPiece st' t D k u :=
  ⟨hk.hasLabels h.labels, by rw [hk.dimOf h.labels.known, h.d1], by rw [hk.dimOf h.labels.known, h.d2],
    by rw [hk.dimOf h.labels.known, h.d3], fun i hi j hj o ho => by
      unfold Tensor.tri
      rw [hk.at h.labels.known]
      exact h.val i hi j hj o ho⟩

theorem triPiece_ok [Zero K] (rand : List Nat → List Nat → K) {st : Store} (wf : WFStore st) {u : NDArray K} {D k : Nat} (wu : u.WF)
    (su : u.shape = [D * D, k]) (hD : D ≠ 0) (hk : k ≠ 0) :
    ∃ r st' t, u.reshape [D, D, k] = .ok r ∧ makeTriangleTensor rand st r ["2", "3", "1"] = .ok (st', t) ∧
      WFStore st' ∧ LegsUnchanged st st' ∧ TriPiece st' t D k u := by
  have hp : u.shape.prod = [D, D, k].prod := by rw [su]; simp [mul_assoc]
  have wr : NDArray.WF (⟨[D, D, k], u.data⟩ : NDArray K) := by
    unfold NDArray.WF at wu ⊢
    rw [wu, hp]
  obtain ⟨st1, t1, e1, w1, k1, l1, d1, v1⟩ := construct_plain rand wf wr (labels := ["2", "3", "1"]) rfl (by decide) (by simp [hD, hk])
  have l2 : HasLabels st1 t1 ["1", "2", "3"] := ⟨l1.good, l1.dense, l1.known, l1.pos, l1.labels.trans (by decide)⟩
  refine ⟨_, st1, t1, by unfold NDArray.reshape; rw [if_pos hp], ?_, w1, k1, l2, d1 "1" k (by simp), d1 "2" D (by simp), d1 "3" D (by simp), fun i hi j hj o ho => ?_⟩
  · unfold makeTriangleTensor
    simp only [List.length_cons, List.length_nil, bind, Except.bind, pyAssert]
    exact e1
  · have := v1 [i, j, o] rfl
    simp only [List.zip_cons_cons, List.zip_nil_right] at this
    have e : t1.tri st1 o i j = t1.at st1 [("2", i), ("3", j), ("1", o)] := by
      unfold Tensor.tri Tensor.at
      refine entry_congr t1 fun l hl => ?_
      have hn := l2.labels.subset (List.mem_map_of_mem hl)
      simp only [List.mem_cons, List.not_mem_nil, or_false] at hn
      rcases hn with e | e | e <;> rw [e] <;> rfl
    rw [e, this]
    refine NDArray.get_mk_reshape u [D, D, k] [i, j, o] [i * D + j, o] ?_
    rw [su]
    simp [ravel]
    ring

variable [Field K] [LinearOrder K] [Star K] {p : RGParams K} {la : LinAlg K}

namespace TriangleTRGState

theorem pair_ok {st : Store} (wf : WFStore st) {a b : Tensor K} {D : Nat} (ha : TriSite st a D) (hb : TriSite st b D)
    (apart : ∀ l ∈ a.legs, l ∉ b.legs) :
    ∃ st' t, pair p st a b = .ok (st', t) ∧ WFStore st' ∧ st'.nextLeg = st.nextLeg ∧
      (∀ l, l ∉ a.legs → l ∉ b.legs → st'.leg l = st.leg l) ∧ HasLabels st' t ["a-2", "b-2", "a-3", "b-3"] ∧
      (∀ x ∈ ["a-2", "b-2", "a-3", "b-3"], t.dimOf st' x = D) ∧
      ∀ a2 < D, ∀ b2 < D, ∀ a3 < D, ∀ b3 < D, t.at st' [("a-2", a2), ("b-2", b2), ("a-3", a3), ("b-3", b3)] =
        pairTri D (a.tri st) (b.tri st) a2 b2 a3 b3 := by
  -- the tags
  obtain ⟨st1, e1, s1, n1⟩ := tag_three ha.labels.good.nodup ha.labels.labels "a" "a-1" "a-2" "a-3" rfl rfl rfl
  have hb1 : b.legs.map st1.name = b.legs.map st.name := List.map_congr_left fun l hl => s1.name fun h => apart l h hl
  obtain ⟨st2, e2, s2, n2⟩ := tag_three (st := st1) hb.labels.good.nodup (hb1 ▸ hb.labels.labels) "b" "b-1" "b-2" "b-3" rfl rfl rfl
  have na : ∀ l ∈ a.legs, (st.name l = "1" ∧ st2.name l = "a-1") ∨ (st.name l = "2" ∧ st2.name l = "a-2") ∨ (st.name l = "3" ∧ st2.name l = "a-3") := by
    intro l hl
    rw [s2.name (apart l hl)]
    exact n1 l hl
  have nb : ∀ l ∈ b.legs, (st.name l = "1" ∧ st2.name l = "b-1") ∨ (st.name l = "2" ∧ st2.name l = "b-2") ∨ (st.name l = "3" ∧ st2.name l = "b-3") := by
    intro l hl
    rw [← s1.name fun h => apart l h hl]
    exact n2 l hl
  obtain ⟨a1, a2, a3, pa, _, _, _, ka1, ka2, ka3, ga, da1, da2, da3⟩ := three_legs ha na (by decide)
  obtain ⟨b1, b2, b3, pb, _, _, _, kb1, kb2, kb3, gb, db1, db2, db3⟩ := three_legs hb nb (by decide)
  have dim2 : ∀ l, st2.dim l = st.dim l := fun l => (s2.dim l).trans (s1.dim l)
  have bond2 : ∀ l, (st2.leg l).bond = (st.leg l).bond := fun l => (s2.bondOf l).trans (s1.bondOf l)
  have w2 : WFStore st2 := s2.wf (s1.wf wf)
  have next2 : st2.nextLeg = st.nextLeg := s2.2.2.2.1.trans s1.2.2.2.1
  have ma1 : a1 ∈ a.legs := pa.subset (by simp)
  have mb1 : b1 ∈ b.legs := pb.subset (by simp)
  have hd : st2.dim a1 = st2.dim b1 := by rw [dim2, dim2, da1, db1]
  -- the bond
  have w3 : WFStore (bonded st2 a1 b1) := bonded_wf w2 hd (by rw [bond2]; exact ha.free _ ma1) (by rw [bond2]; exact hb.free _ mb1)
    (by rw [next2]; exact ha.labels.known _ ma1) (by rw [next2]; exact hb.labels.known _ mb1)
  have ej : join st2 a b = .ok (bonded st2 a1 b1) := by
    unfold join
    rw [ga, gb]
    simp only [linkOr_two st2 a1 b1 hd, linkOr]
  have dim3 : ∀ l, (bonded st2 a1 b1).dim l = st.dim l := fun l => (bonded_dim ..).trans (dim2 l)
  have sh : sharedPairs (bonded st2 a1 b1) a.legs b.legs = [(a1, b1)] := by
    refine shared_single ha.labels.good.nodup ma1 (bonded_partner a1 b1).1 mb1 fun l hl m hm k => ?_
    by_contra hne
    rw [bonded_partner_other w2 hne fun e => apart l hl (e ▸ mb1)] at k
    unfold Store.partner at k
    rw [bond2, ha.free l hl] at k
    cases k
  obtain ⟨o, eo, hl, od, oe, oc⟩ := C01_contract_dense p.cast w3.inv (ha.labels.good.congr_dim fun l _ => dim3 l)
    (hb.labels.good.congr_dim fun l _ => dim3 l) ha.labels.dense hb.labels.dense apart
  rw [sh] at oe oc
  obtain ⟨-, -, -, -, fr⟩ := contract_frame p.cast ha.labels.dense hb.labels.dense eo
  have nda : [a1, a2, a3].Nodup := pa.nodup_iff.mpr ha.labels.good.nodup
  have ndb : [b1, b2, b3].Nodup := pb.nodup_iff.mpr hb.labels.good.nodup
  have legs : o.result.legs.Perm [a2, b2, a3, b3] := by
    refine oc.legs.trans ?_
    unfold restA restB
    refine ((pa.symm.filter _).append (pb.symm.filter _)).trans ?_
    simp only [List.nodup_cons, List.mem_cons, List.not_mem_nil, or_false, not_or] at nda ndb
    have e1 : ([a1, a2, a3].filter fun l => decide (l ∉ [(a1, b1)].map Prod.fst)) = [a2, a3] := by
      simp [Ne.symm nda.1.1, Ne.symm nda.1.2]
    have e2 : ([b1, b2, b3].filter fun l => decide (l ∉ [(a1, b1)].map Prod.snd)) = [b2, b3] := by
      simp [Ne.symm ndb.1.1, Ne.symm ndb.1.2]
    rw [e1, e2]
    exact (List.Perm.swap _ _ _).cons _
  have name3 : ∀ l, o.store.name l = st2.name l := fun l => by rw [oc.same.name]; exact bonded_name ..
  have dim4 : ∀ l, o.store.dim l = st.dim l := fun l => by rw [oc.same.dim]; exact dim3 l
  have L : HasLabels o.store o.result ["a-2", "b-2", "a-3", "b-3"] := by
    refine ⟨oc.good, od, fun l hl => ?_, fun l hl => ?_, ?_⟩
    · rw [oc.same.nextLeg]
      show l < st2.nextLeg
      rw [next2]
      have := legs.subset hl
      simp only [List.mem_cons, List.not_mem_nil, or_false] at this
      rcases this with rfl | rfl | rfl | rfl
      · exact ha.labels.known _ (pa.subset (by simp))
      · exact hb.labels.known _ (pb.subset (by simp))
      · exact ha.labels.known _ (pa.subset (by simp))
      · exact hb.labels.known _ (pb.subset (by simp))
    · rw [dim4]
      have := legs.subset hl
      simp only [List.mem_cons, List.not_mem_nil, or_false] at this
      rcases this with rfl | rfl | rfl | rfl
      · exact ha.labels.pos _ (pa.subset (by simp))
      · exact hb.labels.pos _ (pb.subset (by simp))
      · exact ha.labels.pos _ (pa.subset (by simp))
      · exact hb.labels.pos _ (pb.subset (by simp))
    · refine (legs.map _).trans ?_
      simp only [List.map_cons, List.map_nil, name3, ka2, ka3, kb2, kb3]
      exact .refl _
  have dims : ∀ l ∈ o.result.legs, o.store.dim l = D := by
    intro l hl
    rw [dim4]
    have := legs.subset hl
    simp only [List.mem_cons, List.not_mem_nil, or_false] at this
    rcases this with rfl | rfl | rfl | rfl <;> assumption
  refine ⟨o.store, o.result, ?_, oc.same.wf w3, oc.same.nextLeg.trans next2, ?_, L, ?_, ?_⟩
  · unfold pair
    simp only [e1, e2, ej, eo, bind, Except.bind, pure, Except.pure]
  · intro l h1 h2
    rw [fr l h1 h2, bonded_other _ _ _ _ (by rintro rfl; exact h1 ma1) (by rintro rfl; exact h2 mb1), s2.2.1 l h2, s1.2.1 l h1]
  · intro x hx
    obtain ⟨l, hl, rfl⟩ := List.mem_map.mp (L.labels.symm.subset hx)
    rw [dimOf_leg L (by decide) hl, dims l hl]
  · intro i hi j hj k hk m hm
    have hr : InRange (bonded st2 a1 b1).dim o.result.legs fun l => indexAt [("a-2", i), ("b-2", j), ("a-3", k), ("b-3", m)] (o.store.name l) := by
      intro l hl
      show indexAt _ (o.store.name l) < _
      rw [dim3, ← dim4, dims l hl, name3]
      have := legs.subset hl
      simp only [List.mem_cons, List.not_mem_nil, or_false] at this
      rcases this with rfl | rfl | rfl | rfl
      · rw [ka2]; exact hi
      · rw [kb2]; exact hj
      · rw [ka3]; exact hk
      · rw [kb3]; exact hm
    refine (oe _ hr).trans ?_
    simp only [sumBonds]
    rw [dim3, da1, list_range_sum]
    unfold pairTri
    refine Finset.sum_congr rfl fun w _ => ?_
    have ab : a1 ≠ b1 := fun e => apart a1 ma1 (e ▸ mb1)
    simp only [List.nodup_cons, List.mem_cons, List.not_mem_nil, or_false, not_or] at nda ndb
    congr 1
    · unfold Tensor.tri Tensor.at
      refine entry_congr a fun l hl => ?_
      have hlb : l ≠ b1 := fun e => apart l hl (e ▸ mb1)
      have := pa.symm.subset hl
      simp only [List.mem_cons, List.not_mem_nil, or_false] at this
      unfold Assign.set
      rw [if_neg hlb]
      rcases this with rfl | rfl | rfl
      · rw [if_pos rfl]
        simp [*, indexAt]
      · rw [if_neg (Ne.symm nda.1.1)]
        simp [*, indexAt]
      · rw [if_neg (Ne.symm nda.1.2)]
        simp [*, indexAt]
    · unfold Tensor.tri Tensor.at
      refine entry_congr b fun l hl => ?_
      have hla : l ≠ a1 := fun e => apart a1 ma1 (e ▸ hl)
      have := pb.symm.subset hl
      simp only [List.mem_cons, List.not_mem_nil, or_false] at this
      unfold Assign.set
      rw [if_neg hla]
      rcases this with rfl | rfl | rfl
      · rw [if_pos rfl]
        simp [*, indexAt]
      · rw [if_neg (Ne.symm ndb.1.1)]
        simp [*, indexAt]
      · rw [if_neg (Ne.symm ndb.1.2)]
        simp [*, indexAt]

theorem factor_ok [TrivialStar K] (hla : ExactLinAlg la) {chi : Nat} (hchi : 0 < chi) {st : Store} (wf : WFStore st) {t : Tensor K} {D : Nat}
    {M : Nat → Nat → Nat → Nat → K} (L : HasLabels st t ["a-2", "b-2", "a-3", "b-3"])
    (hd : ∀ x ∈ ["a-2", "b-2", "a-3", "b-3"], t.dimOf st x = D)
    (hM : ∀ a2 < D, ∀ b2 < D, ∀ a3 < D, ∀ b3 < D, t.at st [("a-2", a2), ("b-2", b2), ("a-3", a3), ("b-3", b3)] = M a2 b2 a3 b3) :
    ∃ st' uT vT u v, factor p la chi st t = .ok (st', uT, vT, cutShare la (siteMatrix D D M) chi) ∧ WFStore st' ∧ LegsUnchanged st st' ∧
      TriPiece st' uT D (min chi (D * D)) u ∧ TriPiece st' vT D (min chi (D * D)) v ∧ Factors la (siteMatrix D D M) (D * D) chi u v := by
  have d1 := hd "a-2" (by decide)
  have d2 := hd "b-2" (by decide)
  have d3 := hd "a-3" (by decide)
  have d4 := hd "b-3" (by decide)
  have hD : D ≠ 0 := d1 ▸ dimOf_pos L (by decide) (by decide)
  have hk : min chi (D * D) ≠ 0 := by
    have := Nat.mul_ne_zero hD hD
    omega
  have s1 : t.shapeOfLabel st "a-2" = some D := by rw [L.shapeOfLabel (by decide) (by decide), d1]
  have s2 : t.shapeOfLabel st "b-2" = some D := by rw [L.shapeOfLabel (by decide) (by decide), d2]
  have s3 : t.shapeOfLabel st "a-3" = some D := by rw [L.shapeOfLabel (by decide) (by decide), d3]
  have s4 : t.shapeOfLabel st "b-3" = some D := by rw [L.shapeOfLabel (by decide) (by decide), d4]
  obtain ⟨m, em, wm, sm, vm⟩ := L.matrix ["a-2", "b-2"] ["a-3", "b-3"] (by decide) (.refl _) (by decide) (by decide)
  have e : m = siteMatrix D D M := by
    refine ext_pairs wm (NDArray.build_wf _ _) ?_ rfl fun i hi j hj k hk l hl => ?_
    · rw [sm]
      simp [d1, d2, d3, d4]
    · rw [siteMatrix_get _ hi hj hk hl, ← hM i hi j hj k hk l hl]
      have := vm [("a-2", i), ("b-2", j), ("a-3", k), ("b-3", l)] (by
        simp only [List.cons_append, List.nil_append, List.mem_cons, List.not_mem_nil, or_false]
        rintro x (rfl | rfl | rfl | rfl)
        · rw [d1]; exact hi
        · rw [d2]; exact hj
        · rw [d3]; exact hk
        · rw [d4]; exact hl)
      rw [← this]
      simp [ravel, indexAt, d2, d4]
  subst e
  obtain ⟨u, v, ef, F⟩ := factors_ok hla wm (n := D * D) rfl chi
  obtain ⟨r1, st1, uT, q1, c1, w1, k1, p1⟩ := triPiece_ok p.rand wf F.uWF F.uShape hD hk
  obtain ⟨r2, st2, vT, q2, c2, w2, k2, p2⟩ := triPiece_ok p.rand w1 F.vWF F.vShape hD hk
  refine ⟨st2, uT, vT, u, v, ?_, w2, k1.trans k2, p1.kept k2, p2, F⟩
  unfold factor
  simp only [s1, s2, s3, s4, em, ef, F.uShape, F.vShape, List.getD_cons_zero, List.getD_cons_succ, q1, q2, c1, c2, bind, Except.bind, pure, Except.pure]

/-- Three copies of a factor around a triangle. -/
theorem triangle_settles {net : Net} (hn : NetOf p triangleContractFTN net) {st : Store} (wf : WFStore st) {t : Tensor K} {D k : Nat} {u : NDArray K}
    (h : TriPiece st t D k u) :
    ∃ net' st' c, Settles (fun fuel => contractNet p fuel net st (makeTriangleTensorDict t)) (net', st', c) ∧ NetOf p triangleContractFTN net' ∧
      WFStore st' ∧ LegsUnchanged st st' ∧ TriSite st' c k ∧ (∀ l ∈ c.legs, st.nextLeg ≤ l) ∧
      ∀ x < k, ∀ y < k, ∀ z < k, c.tri st' x y z = Honey.corners D (factorAt D u) x y z := by
  have hc := C49_triangle p.rand p.cast wf h.labels h.labels h.labels (by rw [h.d2, h.d3]) (by rw [h.d2, h.d3]) (by rw [h.d2, h.d3])
  obtain ⟨net', st', c, hs, hn', o⟩ := contractNet_settles hn hc (dict := makeTriangleTensorDict t) (.refl _)
  have d : ∀ x ∈ ["1", "2", "3"], c.dimOf st' x = k := by
    intro x hx
    rw [o.dimOf hx]
    show (if x = "1" then t.dimOf st "1" else if x = "2" then t.dimOf st "1" else t.dimOf st "1") = k
    rw [h.d1]
    split <;> [rfl; split <;> rfl]
  refine ⟨net', st', c, hs, hn', o.wf, o.kept, ⟨o.hasLabels (.refl _), d "1" (by decide), d "2" (by decide), d "3" (by decide), o.free⟩,
    fun l hl => (o.fresh l hl).1, fun x hx y hy z hz => ?_⟩
  refine (o.at (xs := [("1", x), ("2", y), ("3", z)]) ?_).trans ?_
  · intro w hw
    have hw : w ∈ ["1", "2", "3"] := hw
    rw [← o.dimOf hw, d w hw]
    simp only [List.mem_cons, List.not_mem_nil, or_false] at hw
    rcases hw with rfl | rfl | rfl
    · exact hx
    · exact hy
    · exact hz
  · simp only [triangleArr, h.d2, h.d3]
    have e := Honey.corners_range D (factorAt D u) x y z
    rw [e]
    refine Finset.sum_congr rfl fun k' hk' => Finset.sum_congr rfl fun j hj => Finset.sum_congr rfl fun i hi => ?_
    rw [Finset.mem_range] at hk' hj hi
    have a1 := h.val i hi j hj x hx
    have a2 := h.val k' hk' i hi y hy
    have a3 := h.val j hj k' hk' z hz
    unfold Tensor.tri at a1 a2 a3
    simp only [indexAt, if_true, show ("2" = "1") = False by decide, show ("3" = "1") = False by decide, show ("3" = "2") = False by decide,
      if_false, a1, a2, a3]

/-! ### Steps -/

theorem normalized_ok {st : Store} {t : Tensor K} {D : Nat} (h : TriSite st t D) :
    ∃ b, t.a = some b ∧ normalized p t = .ok ({ t with a := some (b.divBy (p.norm b)) }, p.norm b) := by
  obtain ⟨b, hb, -⟩ := h.labels.good.data
  refine ⟨b, hb, ?_⟩
  have hl : ¬ t.like = true := by rw [h.labels.good.notLike]; decide
  unfold normalized
  rw [if_neg hl, hb]
  rfl

theorem append_ok {s : TriangleTRGState K} {D : Nat} (wf : WFStore s.st) (ha : TriSite s.st s.a D) (hb : TriSite s.st s.b D) :
    ∃ st' a b c d aNorms bNorms, s.append p = .ok { s with st := st', a := a, b := b, aNorms := aNorms, bNorms := bNorms, aArchive := s.aArchive ++ [(c, s.dof)], bArchive := s.bArchive ++ [(d, s.dof)] } ∧
      WFStore st' ∧ LegsUnchanged s.st st' ∧ TriSite st' a D ∧ TriSite st' b D ∧ a.legs = s.a.legs ∧ b.legs = s.b.legs ∧
      (∀ l ∈ c.legs, s.st.nextLeg ≤ l ∧ l < st'.nextLeg) ∧ (∀ l ∈ d.legs, s.st.nextLeg ≤ l ∧ l < st'.nextLeg) ∧
      Recorded p st' D s.dof s.aNorms s.aArchive s.a a aNorms (s.aArchive ++ [(c, s.dof)]) ∧
      Recorded p st' D s.dof s.bNorms s.bArchive s.b b bNorms (s.bArchive ++ [(d, s.dof)]) := by
  obtain ⟨x, hx, nx⟩ := normalized_ok (p := p) ha
  obtain ⟨y, hy, ny⟩ := normalized_ok (p := p) hb
  obtain ⟨ga, va⟩ := ha.divided hx (p.norm x)
  obtain ⟨gb, vb⟩ := hb.divided hy (p.norm y)
  obtain ⟨st1, c, e1, F1, O1⟩ := copy_fresh p.rand ga.labels.good ga.labels.dense
  have k1 : LegsUnchanged s.st st1 := ⟨O1.grows.le, O1.old.leg⟩
  have gb1 := gb.kept k1
  obtain ⟨st2, d, e2, F2, O2⟩ := copy_fresh p.rand gb1.labels.good gb1.labels.dense
  have k2 : LegsUnchanged st1 st2 := ⟨O2.grows.le, O2.old.leg⟩
  obtain ⟨hc, vc⟩ := F1.tri ga
  obtain ⟨hd, vd⟩ := F2.tri gb1
  refine ⟨st2, _, _, c, d, s.aNorms ++ [p.norm x], s.bNorms ++ [p.norm y], ?_, O2.grows.wf (O1.grows.wf wf), k1.trans k2, ga.kept (k1.trans k2), gb1.kept k2,
    rfl, rfl, fun l hl => ⟨(F1.new l hl).1, (F1.new l hl).2.trans_le k2.le⟩, fun l hl => ⟨k1.le.trans (F2.new l hl).1, (F2.new l hl).2⟩,
    ⟨⟨x, hx, rfl, rfl, fun i j k => ?_⟩, c, rfl, hc.kept k2, fun i j k => ?_⟩, ⟨⟨y, hy, rfl, rfl, fun i j k => ?_⟩, d, rfl, hd, fun i j k => ?_⟩⟩
  · unfold append normalize
    simp only [nx, ny, e1, e2, bind, Except.bind, pure, Except.pure]
  · rw [ga.tri_kept (k1.trans k2), ha.tri_kept (k1.trans k2), va]
  · rw [hc.tri_kept k2, vc, ga.tri_kept (k1.trans k2)]
  · rw [gb.tri_kept (k1.trans k2), hb.tri_kept (k1.trans k2), vb]
  · rw [vd, gb1.tri_kept k2]

theorem iterate_settles [TrivialStar K] (hla : ExactLinAlg la) {s : TriangleTRGState K} (g : Good p s) (hchi : 0 < s.chi) :
    ∃ s', Settles (fun fuel => s.iterate p la fuel) s' ∧ Good p s' ∧ Iterated p la s s' := by
  obtain ⟨net, en, hn⟩ : ∃ net, network s.iterateFTN = .ok net ∧ NetOf p triangleContractFTN net := by
    cases h : s.iterateFTN with
    | some n => exact ⟨n, rfl, g.net n h⟩
    | none =>
      obtain ⟨net, e⟩ : ∃ net, triangleContractFTN 1 = .ok net := ⟨_, rfl⟩
      exact ⟨net, e, NetOf.made e⟩
  obtain ⟨st1, t, e1, w1, n1, k1, L, hd, hM⟩ := pair_ok (p := p) g.wf g.a g.b g.apart
  obtain ⟨st2, uT, vT, u, v, e2, w2, k2, pu, pv, F⟩ := factor_ok (p := p) hla hchi w1 L hd hM
  obtain ⟨net3, st3, a, e3, hn3, w3, k3, q3, f3, v3⟩ := triangle_settles hn w2 pu
  obtain ⟨net4, st4, b, e4, hn4, w4, k4, q4, f4, v4⟩ := triangle_settles hn3 w3 (pv.kept k3)
  obtain ⟨st5, a5, b5, c, d, aN, bN, e5, w5, k5, qa, qb, la5, lb5, fc, fd, Ra, Rb⟩ := append_ok (p := p)
    (s := { s with st := st4, a := a, b := b, dof := s.dof * 3, iterateFTN := some net4, errors := s.errors ++ [cutShare la s.mat s.chi] })
    w4 (q3.kept k4) q4
  simp only at la5 lb5 fc fd
  have k25 := (k3.trans k4).trans k5
  have le1 : s.st.nextLeg ≤ st5.nextLeg := by
    rw [← n1]
    exact k2.le.trans k25.le
  have fa : ∀ l ∈ a5.legs, s.st.nextLeg ≤ l ∧ l < st4.nextLeg := by
    intro l hl
    rw [la5] at hl
    exact ⟨by rw [← n1]; exact k2.le.trans (f3 l hl), (q3.labels.known l hl).trans_le k4.le⟩
  have fb : ∀ l ∈ b5.legs, s.st.nextLeg ≤ l ∧ l < st4.nextLeg := by
    intro l hl
    rw [lb5] at hl
    exact ⟨by rw [← n1]; exact (k2.trans k3).le.trans (f4 l hl), q4.labels.known l hl⟩
  let s' : TriangleTRGState K := { s with st := st5, a := a5, b := b5, dof := s.dof * 3, iterateFTN := some net4, errors := s.errors ++ [cutShare la s.mat s.chi], aNorms := aN, bNorms := bN, aArchive := s.aArchive ++ [(c, s.dof * 3)], bArchive := s.bArchive ++ [(d, s.dof * 3)] }
  have dim' : s'.dim = min s.chi (s.dim * s.dim) := qa.d1
  refine ⟨s', ?_, ?_, ?_⟩
  · unfold iterate
    simp only [en, e1, e2, bind, Except.bind]
    refine Settles.bind e3 (Settles.bind e4 (Settles.const ?_))
    exact e5
  · refine ⟨w5, dim' ▸ qa, dim' ▸ qb, fun l h1 h2 => ?_, fun x hx l hl => ?_, fun n h => Option.some.inj h ▸ hn4⟩
    · have h1 : l ∈ a.legs := la5 ▸ h1
      have h2 : l ∈ b.legs := lb5 ▸ h2
      exact absurd (q3.labels.known l h1) (Nat.not_lt.mpr (f4 l h2))
    · have hx : x ∈ (s.aArchive ++ [(c, s.dof * 3)]) ++ (s.bArchive ++ [(d, s.dof * 3)]) := hx
      have old : x ∈ s.aArchive ++ s.bArchive → l < st5.nextLeg ∧ l ∉ a5.legs ∧ l ∉ b5.legs := fun hx => by
        have := (g.archived x hx l hl).1
        exact ⟨this.trans_le le1, fun h => Nat.not_lt.mpr (fa l h).1 this, fun h => Nat.not_lt.mpr (fb l h).1 this⟩
      have new : st4.nextLeg ≤ l ∧ l < st5.nextLeg → l < st5.nextLeg ∧ l ∉ a5.legs ∧ l ∉ b5.legs := fun h =>
        ⟨h.2, fun h' => Nat.not_lt.mpr h.1 (fa l h').2, fun h' => Nat.not_lt.mpr h.1 (fb l h').2⟩
      simp only [List.mem_append, List.mem_singleton] at hx
      rcases hx with (hx | rfl) | (hx | rfl)
      · exact old (List.mem_append_left _ hx)
      · exact new (fc l hl)
      · exact old (List.mem_append_right _ hx)
      · exact new (fd l hl)
  · refine ⟨rfl, rfl, le1, fun l hl h1 h2 => ?_, rfl, dim', a, b, u, v, ?_, ?_, F, ?_, ?_⟩
    · have h3 : l < st1.nextLeg := n1 ▸ hl
      exact (((k2.trans k25).leg l h3)).trans (k1 l h1 h2)
    · rw [dim']
      exact Ra
    · rw [dim']
      exact Rb
    · rw [dim']
      intro x hx y hy z hz
      exact (q3.tri_kept (k4.trans k5) x y z).trans (v3 x hx y hy z hz)
    · rw [dim']
      intro x hx y hy z hz
      exact (q4.tri_kept k5 x y z).trans (v4 x hx y hy z hz)

theorem site_ok {st : Store} (wf : WFStore st) (alpha : K) :
    ∃ st' t, makeTriangleTensor p.rand st (siteArray alpha) = .ok (st', t) ∧ WFStore st' ∧ LegsUnchanged st st' ∧ TriSite st' t 2 ∧
      (∀ l ∈ t.legs, st.nextLeg ≤ l) ∧ (∀ x < 2, ∀ y < 2, ∀ z < 2, t.tri st' x y z = Honey.dimerSite alpha x y z) ∧
      t.a = some (siteArray alpha) := by
  let c : CArgs K := { data := some (siteArray alpha), labels := some ["1", "2", "3"] }
  have acc : Acceptable st c := by
    show (∀ ls, some ["1", "2", "3"] = some ls → ls.length = 3) ∧ (some ["1", "2", "3"] = none → 3 ≤ 26)
    exact ⟨fun ls e => by rw [← Option.some.inj e]; rfl, fun e => by cases e⟩
  obtain ⟨st1, t1, e, C⟩ := construct_ok p.rand acc
  obtain ⟨w1, k1, l1, d1, v1⟩ := C.shaped wf (d := siteArray alpha) (s := [2, 2, 2]) rfl rfl rfl rfl rfl (C.dataShape rfl rfl _ rfl) (by decide) rfl (by decide)
  have hf := (C.fresh rfl).2
  refine ⟨st1, t1, ?_, w1, k1, ⟨l1, d1 "1" 2 (by decide), d1 "2" 2 (by decide), d1 "3" 2 (by decide), fun l hl => (hf l hl).2.2⟩, fun l hl => (hf l hl).1, ?_, ?_⟩
  · exact e
  · intro x hx y hy z hz
    refine (v1 [x, y, z] rfl).trans ?_
    interval_cases x <;> interval_cases y <;> interval_cases z <;> simp [siteArray, NDArray.get, ravel, Honey.dimerSite]
  · obtain ⟨arr, ea, sa, da, _⟩ := C.data rfl
    rw [ea]
    refine congrArg some ?_
    have h1 : arr.shape = [2, 2, 2] := sa.trans (C.dataShape rfl rfl _ rfl)
    have h2 : arr.data = (siteArray alpha).data := da _ rfl
    cases arr
    cases h1
    cases h2
    rfl

theorem new_ok {st : Store} (wf : WFStore st) (alpha : K) (chi : Nat) :
    ∃ s, TriangleTRGState.new p st alpha chi = .ok s ∧ Good p s ∧ Started p st alpha chi s := by
  obtain ⟨st1, a, e1, w1, k1, q1, f1, v1, d1⟩ := site_ok (p := p) wf alpha
  obtain ⟨st2, b, e2, w2, k2, q2, f2, v2, d2⟩ := site_ok (p := p) w1 alpha
  obtain ⟨st5, a5, b5, c, d, aN, bN, e5, w5, k5, qa, qb, la5, lb5, fc, fd, Ra, Rb⟩ := append_ok (p := p)
    (s := ⟨st2, a, b, 1, chi, none, [], [], [], [], []⟩) w2 (q1.kept k2) q2
  simp only at la5 lb5 fc fd
  let s' : TriangleTRGState K := ⟨st5, a5, b5, 1, chi, none, aN, bN, [(c, 1)], [(d, 1)], []⟩
  have dim' : s'.dim = 2 := qa.d1
  refine ⟨s', ?_, ⟨w5, dim' ▸ qa, dim' ▸ qb, fun l h1 h2 => ?_, fun x hx l hl => ?_, fun n h => nomatch h⟩,
    ⟨(k1.trans k2).trans k5, rfl, rfl, rfl, dim', ⟨a, b, ?_, ?_, ?_, ?_⟩, ?_⟩⟩
  · unfold TriangleTRGState.new
    simp only [e1, e2, bind, Except.bind]
    exact e5
  · have h1 : l ∈ a.legs := la5 ▸ h1
    have h2 : l ∈ b.legs := lb5 ▸ h2
    exact absurd (q1.labels.known l h1) (Nat.not_lt.mpr (f2 l h2))
  · have hx : x ∈ [(c, 1)] ++ [(d, 1)] := hx
    have new : st2.nextLeg ≤ l ∧ l < st5.nextLeg → l < st5.nextLeg ∧ l ∉ a5.legs ∧ l ∉ b5.legs := fun h =>
      ⟨h.2, fun h' => Nat.not_lt.mpr h.1 ((q1.labels.known l (la5 ▸ h')).trans_le k2.le), fun h' => Nat.not_lt.mpr h.1 (q2.labels.known l (lb5 ▸ h'))⟩
    simp only [List.mem_append, List.mem_singleton] at hx
    rcases hx with rfl | rfl
    · exact new (fc l hl)
    · exact new (fd l hl)
  · rw [dim']
    exact Ra
  · rw [dim']
    exact Rb
  · intro x hx y hy z hz
    exact (q1.tri_kept (k2.trans k5) x y z).trans (v1 x hx y hy z hz)
  · intro x hx y hy z hz
    exact (q2.tri_kept k5 x y z).trans (v2 x hx y hy z hz)
  · obtain ⟨x, ex, nx, -⟩ := Ra.a
    obtain ⟨y, ey, ny, -⟩ := Rb.a
    obtain rfl := Option.some.inj (d1.symm.trans ex)
    obtain rfl := Option.some.inj (d2.symm.trans ey)
    exact ⟨nx, ny.trans nx.symm⟩

end TriangleTRGState

end CTL
