import Verif.Props.TNREnv
import Verif.Props.Traces
import Verif.Props.ContractNets
import Verif.Lemmas.HOTRGStep
import Verif.Lemmas.Canon

/-! C66: what `doTNR` starts its iteration with. -/

namespace CTL

open Finset (range)
variable {K : Type}

/-- The site of an array with the axes left, up, right, down. -/
def lurd [Zero K] (A : NDArray K) (u l d r : Nat) : K := A.get [l, u, r, d]

/-- The isometry on the left and upper leg of the site. -/
def tnrQA [CommSemiring K] (A q : NDArray K) (H V h v o : Nat) : K :=
  ∑ u ∈ range V, ∑ l ∈ range H, q.get [l * V + u, o] * A.get [l, u, h, v]

/-- Four such tensors in a ring. -/
def tnrRing [CommSemiring K] (A q : NDArray K) (H V ul ur dl dr : Nat) : K :=
  ∑ m ∈ range H, ∑ k ∈ range H, ∑ j ∈ range V, ∑ i ∈ range V,
    tnrQA A q H V k i ul * tnrQA A q H V k j ur * tnrQA A q H V m i dl * tnrQA A q H V m j dr

/-- A tensor with the labels `h`, `v` and `o`. -/
structure IsHVO [Zero K] (st : Store) (t : Tensor K) (H V k : Nat) (F : Nat → Nat → Nat → K) : Prop where
  labels : HasLabels st t ["h", "v", "o"]
  dh : t.dimOf st "h" = H
  dv : t.dimOf st "v" = V
  dO : t.dimOf st "o" = k
  val : ∀ h < H, ∀ v < V, ∀ o < k, t.at st [("h", h), ("v", v), ("o", o)] = F h v o

/-- A tensor with the labels of four corners. -/
structure IsCorners [Zero K] (st : Store) (t : Tensor K) (k : Nat) (F : Nat → Nat → Nat → Nat → K) : Prop where
  labels : HasLabels st t ["ul", "ur", "dl", "dr"]
  dim : ∀ x ∈ ["ul", "ur", "dl", "dr"], t.dimOf st x = k
  val : ∀ a < k, ∀ b < k, ∀ c < k, ∀ d < k, t.at st [("ul", a), ("ur", b), ("dl", c), ("dr", d)] = F a b c d

theorem IsHVO.kept [Zero K] {st st' : Store} {t : Tensor K} {H V k : Nat} {F : Nat → Nat → Nat → K} (h : IsHVO st t H V k F)
    (hk : LegsUnchanged st st') : IsHVO st' t H V k F :=
  ⟨hk.hasLabels h.labels, by rw [hk.dimOf h.labels.known, h.dh], by rw [hk.dimOf h.labels.known, h.dv],
    by rw [hk.dimOf h.labels.known, h.dO], fun a ha b hb c hc => by rw [hk.at h.labels.known]; exact h.val a ha b hb c hc⟩

theorem IsCorners.kept [Zero K] {st st' : Store} {t : Tensor K} {k : Nat} {F : Nat → Nat → Nat → Nat → K} (h : IsCorners st t k F)
    (hk : LegsUnchanged st st') : IsCorners st' t k F :=
  ⟨hk.hasLabels h.labels, fun x hx => by rw [hk.dimOf h.labels.known, h.dim x hx],
    fun a ha b hb c hc d hd => by rw [hk.at h.labels.known]; exact h.val a ha b hb c hc d hd⟩

/-- The sum of the squares of a tensor with four corners. -/
theorem IsCorners.squares [CommSemiring K] {st : Store} {t : Tensor K} {k : Nat} {F : Nat → Nat → Nat → Nat → K} (h : IsCorners st t k F)
    (σ : Assign) : sumLegs st.dim t.legs (fun τ => entry t τ * entry t τ) σ =
      ∑ a ∈ range k, ∑ b ∈ range k, ∑ c ∈ range k, ∑ d ∈ range k, F a b c d * F a b c d := by
  have nd : ["ul", "ur", "dl", "dr"].Nodup := by decide
  obtain ⟨ls, hn, hp, _⟩ := legs_of_labels nd h.labels.good.nodup h.labels.labels
  rw [← sumLegs_perm st.dim hp (hp.nodup_iff.mpr h.labels.good.nodup)]
  obtain ⟨x1, x2, x3, x4, rfl⟩ : ∃ x1 x2 x3 x4, ls = [x1, x2, x3, x4] := by
    have := congrArg List.length hn
    match ls, this with
    | [a, b, c, d], _ => exact ⟨a, b, c, d, rfl⟩
  simp only [List.map_cons, List.map_nil, List.cons.injEq, and_true] at hn
  obtain ⟨n1, n2, n3, n4⟩ := hn
  have hd : ∀ l ∈ [x1, x2, x3, x4], st.dim l = k := by
    intro l hl
    have hm := hp.subset hl
    rw [← dimOf_leg h.labels nd hm]
    refine h.dim _ (h.labels.labels.subset (List.mem_map_of_mem hm))
  have ndl := hp.nodup_iff.mpr h.labels.good.nodup
  simp only [sumLegs, hd x1 (by simp), hd x2 (by simp), hd x3 (by simp), hd x4 (by simp)]
  change ∑ a ∈ range k, ∑ b ∈ range k, ∑ c ∈ range k, ∑ d ∈ range k,
    entry t ((((σ.set x1 a).set x2 b).set x3 c).set x4 d) * entry t ((((σ.set x1 a).set x2 b).set x3 c).set x4 d) = _
  refine Finset.sum_congr rfl fun a ha => Finset.sum_congr rfl fun b hb => Finset.sum_congr rfl fun c hc => Finset.sum_congr rfl fun d hd => ?_
  have e : entry t ((((σ.set x1 a).set x2 b).set x3 c).set x4 d) = F a b c d := by
    rw [← h.val a (Finset.mem_range.mp ha) b (Finset.mem_range.mp hb) c (Finset.mem_range.mp hc) d (Finset.mem_range.mp hd)]
    unfold Tensor.at
    refine entry_congr t fun l hl => ?_
    have hm := hp.symm.subset hl
    simp only [List.nodup_cons, List.mem_cons, List.not_mem_nil, or_false, not_or] at ndl hm
    rcases hm with rfl | rfl | rfl | rfl
    · rw [n1]; simp [Assign.set, indexAt, ndl.1.1, ndl.1.2.1, ndl.1.2.2]
    · rw [n2]; simp [Assign.set, indexAt, ndl.2.1.1, ndl.2.1.2]
    · rw [n3]; simp [Assign.set, indexAt, ndl.2.2.1]
    · rw [n4]; simp [Assign.set, indexAt]
  rw [e]

section
variable [Field K] [LinearOrder K] [Star K] {p : RGParams K}

/-- `createQxAFTN` with the isometry and the site. -/
theorem qxA_settles {net : Net} (hn : NetOf p createQxAFTN net) {st : Store} (wf : WFStore st) {a q : Tensor K} {H V k : Nat}
    {A P : NDArray K} (la : HasLabels st a ["u", "l", "d", "r"]) (da : a.dimOf st "u" = V ∧ a.dimOf st "l" = H ∧ a.dimOf st "d" = V ∧ a.dimOf st "r" = H)
    (va : ∀ u l d r, a.at st [("u", u), ("l", l), ("d", d), ("r", r)] = A.get [l, u, r, d])
    (hq : IsHVO st q H V k fun h v o => P.get [h * V + v, o]) :
    ∃ net' st' t, Settles (fun fuel => contractNet p fuel net st [("A", a), ("q", q)]) (net', st', t) ∧ WFStore st' ∧ LegsUnchanged st st' ∧
      IsHVO st' t H V k (tnrQA A P H V) := by
  have hc := C66_qxA p.rand p.cast wf hq.labels la (by rw [hq.dh, da.2.1]) (by rw [hq.dv, da.1])
  obtain ⟨net', st', t, hs, _, o⟩ := contractNet_settles hn hc (dict := [("A", a), ("q", q)]) (.swap _ _ _)
  refine ⟨net', st', t, hs, o.wf, o.kept, o.hasLabels (by show ["o", "v", "h"].Perm _; decide), ?_, ?_, ?_, ?_⟩
  · rw [o.dimOf (by show "h" ∈ ["o", "v", "h"]; decide)]
    exact da.2.2.2
  · rw [o.dimOf (by show "v" ∈ ["o", "v", "h"]; decide)]
    exact da.2.2.1
  · rw [o.dimOf (by show "o" ∈ ["o", "v", "h"]; decide)]
    exact hq.dO
  · intro h hh v hv x hx
    have := o.at (xs := [("h", h), ("v", v), ("o", x)]) (by
      intro z hz
      have hz : z ∈ ["o", "v", "h"] := hz
      simp only [List.mem_cons, List.not_mem_nil, or_false] at hz
      rcases hz with rfl | rfl | rfl
      · show x < q.dimOf st "o"
        rw [hq.dO]; exact hx
      · show v < a.dimOf st "d"
        rw [da.2.2.1]; exact hv
      · show h < a.dimOf st "r"
        rw [da.2.2.2]; exact hh)
    refine this.trans ?_
    simp only [qxAArr, hq.dh, hq.dv]
    unfold tnrQA
    refine Finset.sum_congr rfl fun u hu => Finset.sum_congr rfl fun l hl => ?_
    rw [hq.val l (Finset.mem_range.mp hl) u (Finset.mem_range.mp hu) _ (by simpa [indexAt] using hx), va]
    simp [indexAt]

/-- `createCFTN` with four times the same tensor. -/
theorem ring_settles {net : Net} (hn : NetOf p createCFTN net) {st : Store} (wf : WFStore st) {t : Tensor K} {H V k : Nat}
    {F : Nat → Nat → Nat → K} (h : IsHVO st t H V k F) :
    ∃ net' st' c, Settles (fun fuel => contractNet p fuel net st [("ul", t), ("ur", t), ("dl", t), ("dr", t)]) (net', st', c) ∧ WFStore st' ∧
      LegsUnchanged st st' ∧ IsCorners st' c k fun a b c d => ∑ m ∈ range H, ∑ n ∈ range H, ∑ j ∈ range V, ∑ i ∈ range V,
        F n i a * F n j b * F m i c * F m j d := by
  have hc := C66_tnrC p.rand p.cast wf h.labels h.labels h.labels h.labels rfl rfl rfl rfl
  obtain ⟨net', st', c, hs, _, o⟩ := contractNet_settles hn hc (.refl _)
  refine ⟨net', st', c, hs, o.wf, o.kept, o.hasLabels (.refl _), fun x hx => ?_, ?_⟩
  · rw [o.dimOf hx, tnrCArr_dim]
    simp only [h.dO, ite_self]
  · intro a ha b hb c hc d hd
    have := o.at (xs := [("ul", a), ("ur", b), ("dl", c), ("dr", d)]) (by
      intro z hz
      rw [tnrCArr_dim]
      simp only [h.dO, ite_self]
      have hz : z ∈ ["ul", "ur", "dl", "dr"] := hz
      simp only [List.mem_cons, List.not_mem_nil, or_false] at hz
      rcases hz with rfl | rfl | rfl | rfl <;> simpa [indexAt])
    refine this.trans ?_
    simp only [tnrCArr, h.dh, h.dv]
    refine Finset.sum_congr rfl fun m hm => Finset.sum_congr rfl fun n hn => Finset.sum_congr rfl fun j hj => Finset.sum_congr rfl fun i hi => ?_
    have hm := Finset.mem_range.mp hm
    have hn := Finset.mem_range.mp hn
    have hj := Finset.mem_range.mp hj
    have hi := Finset.mem_range.mp hi
    simp only [indexAt, String.reduceEq, if_true, if_false]
    rw [h.val n hn i hi a ha, h.val n hn j hj b hb, h.val m hm i hi c hc, h.val m hm j hj d hd]

/-- `createCCFTN` with twice the same tensor. -/
theorem double_settles {net : Net} (hn : NetOf p createCCFTN net) {st : Store} (wf : WFStore st) {t : Tensor K} {k : Nat}
    {F : Nat → Nat → Nat → Nat → K} (h : IsCorners st t k F) :
    ∃ net' st' c, Settles (fun fuel => contractNet p fuel net st [("u", t), ("d", t)]) (net', st', c) ∧ WFStore st' ∧
      LegsUnchanged st st' ∧ IsCorners st' c k fun a b c d => ∑ j ∈ range k, ∑ i ∈ range k, F a b i j * F c d i j := by
  have hc := C66_tnrCC p.rand p.cast wf h.labels h.labels rfl rfl
  obtain ⟨net', st', c, hs, _, o⟩ := contractNet_settles hn hc (.refl _)
  have d1 := h.dim "ul" (by decide)
  have d2 := h.dim "ur" (by decide)
  have d3 := h.dim "dl" (by decide)
  have d4 := h.dim "dr" (by decide)
  refine ⟨net', st', c, hs, o.wf, o.kept, o.hasLabels (.refl _), fun x hx => ?_, ?_⟩
  · rw [o.dimOf hx, tnrCCArr_dim]
    simp only [d1, d2, ite_self]
  · intro a ha b hb c hc d hd
    have := o.at (xs := [("ul", a), ("ur", b), ("dl", c), ("dr", d)]) (by
      intro z hz
      rw [tnrCCArr_dim]
      simp only [d1, d2, ite_self]
      have hz : z ∈ ["ul", "ur", "dl", "dr"] := hz
      simp only [List.mem_cons, List.not_mem_nil, or_false] at hz
      rcases hz with rfl | rfl | rfl | rfl <;> simpa [indexAt])
    refine this.trans ?_
    simp only [tnrCCArr, d3, d4]
    refine Finset.sum_congr rfl fun j hj => Finset.sum_congr rfl fun i hi => ?_
    have hj := Finset.mem_range.mp hj
    have hi := Finset.mem_range.mp hi
    simp only [indexAt, String.reduceEq, if_true, if_false]
    rw [h.val a ha b hb i hi j hj, h.val c hc d hd i hi j hj]

end

/-- The environment of the isometry, written with the half networks. -/
def tnrEnvMat [CommSemiring K] (A : NDArray K) (H V : Nat) : NDArray K :=
  .build [H * V, H * V] fun idx => ∑ e ∈ range V, ∑ b ∈ range H, ∑ m ∈ range V, ∑ k ∈ range H, ∑ j ∈ range V, ∑ i ∈ range H,
    qHalf (lurd A) V H (idx.getD 0 0 % V) (idx.getD 0 0 / V) e b m k j i *
    qHalf (lurd A) V H (idx.getD 1 0 % V) (idx.getD 1 0 / V) e b m k j i

/-- The state of `doTNR` at the start of its iteration, for a site with dimensions `H` and `V`. -/
structure TNRStarted [Field K] [LinearOrder K] (p : RGParams K) (A : NDArray K) (H V chi0 k : Nat) (r : TNRStart K) : Prop where
  env : r.qEnv = tnrEnvMat A H V
  q : r.qTemp = (solveEnv p r.qEnv (min chi0 (H * V))).1
  shape : r.qTemp.shape = [H * V, k]
  pos : k ≠ 0
  orth : ∀ i < k, ∀ j < k, ∑ x ∈ range (H * V), r.qTemp.get [x, i] * r.qTemp.get [x, j] = if i = j then 1 else 0
  err : r.sp1err = ((p.eigh r.qEnv).1.take (H * V - k)).sum / (p.eigh r.qEnv).1.sum
  qT : IsHVO r.st r.qTensor H V k fun h v o => r.qTemp.get [h * V + v, o]
  qA : IsHVO r.st r.qATensor H V k (tnrQA A r.qTemp H V)
  c : IsCorners r.st r.cTensor k (tnrRing A r.qTemp H V)
  cc : IsCorners r.st r.cdubTensor k fun a b c d => ∑ j ∈ range k, ∑ i ∈ range k, tnrRing A r.qTemp H V a b i j * tnrRing A r.qTemp H V c d i j
  sp2 : r.sp2exact = ∑ a ∈ range k, ∑ b ∈ range k, ∑ c ∈ range k, ∑ d ∈ range k, tnrRing A r.qTemp H V a b c d * tnrRing A r.qTemp H V a b c d

variable [Field K] [LinearOrder K] [IsStrictOrderedRing K] [Star K]

/-- C66: `doTNR` starts its iteration with the isometry from the environment of the site, with the ring of four and its double, and
with the sum of the squares of the ring; the site may live beside any other tensors, which are left alone. -/
theorem C66_start (p : RGParams K) (he : ExactEigh p.eigh) {st : Store} (wf : WFStore st) {A : NDArray K} {H V : Nat} (wA : A.WF)
    (sA : A.shape = [H, V, H, V]) (hH : H ≠ 0) (hV : V ≠ 0) (chi0 : Nat) :
    ∃ k r, Settles (fun fuel => tnrStart p fuel st A chi0) r ∧ LegsUnchanged st r.st ∧ TNRStarted p A H V chi0 k r := by
  obtain ⟨st1, a, e1, w1, k1, l1, d1, v1⟩ := construct_plain p.rand wf wA (labels := ["l", "u", "r", "d"]) (by rw [sA]; rfl) (by decide)
    (by rw [sA]; simp [hH, hV])
  rw [sA] at d1
  have la : HasLabels st1 a ["u", "l", "d", "r"] := ⟨l1.good, l1.dense, l1.known, l1.pos, l1.labels.trans (by decide)⟩
  have da : a.dimOf st1 "u" = V ∧ a.dimOf st1 "l" = H ∧ a.dimOf st1 "d" = V ∧ a.dimOf st1 "r" = H :=
    ⟨d1 _ _ (by simp), d1 _ _ (by simp), d1 _ _ (by simp), d1 _ _ (by simp)⟩
  have va : ∀ u l d r, a.at st1 [("u", u), ("l", l), ("d", d), ("r", r)] = A.get [l, u, r, d] := by
    intro u l d r
    rw [← v1 [l, u, r, d] rfl]
    unfold Tensor.at
    refine entry_congr a fun x hx => ?_
    have hm := l1.labels.subset (List.mem_map_of_mem (f := st1.name) hx)
    simp only [List.mem_cons, List.not_mem_nil, or_false] at hm
    rcases hm with h | h | h | h <;> simp [indexAt, h]
  have hv := da.1.trans da.2.2.1.symm
  have hh := da.2.1.trans da.2.2.2.symm
  obtain ⟨M, hM, hE, hl, h1, h2, hq⟩ := C66_q p.rand p.cast w1 la hv hh p he (min chi0 (H * V))
  obtain ⟨M', _, hE', _, _, _, hval⟩ := C66_qEnv p.rand p.cast w1 la hv hh
  have hMM : M' = M := hE'.trans hE.symm
  rw [hMM] at hval
  rw [da.1, da.2.1] at h1 h2
  have hn : H * V ≠ 0 := Nat.mul_ne_zero hH hV
  -- the environment
  obtain ⟨f1, names1, hm1, _⟩ := hM 0
  obtain ⟨net1, st2, t, hs1, _, o⟩ := contractNet_settles (NetOf.made (p := p) hm1) hM (.refl _)
  obtain ⟨env, e2, we, se, ve⟩ := o.matrix (x := "1") (y := "2") (by rw [hl])
  obtain ⟨_, _, _, k, sk, hk, orth, herr⟩ := hq env we se fun i hi j hj => ve i hi j hj
  rw [h1] at sk hk orth herr
  have henv : env = tnrEnvMat A H V := by
    rw [h1, h2] at se ve
    refine NDArray.ext_get we (NDArray.build_wf _ _) se fun idx hi => ?_
    rw [se] at hi
    unfold tnrEnvMat
    rw [NDArray.get_build _ hi]
    obtain ⟨i, j, rfl⟩ : ∃ i j, idx = [i, j] := by
      match idx, hi.length with
      | [i, j], _ => exact ⟨i, j, rfl⟩
    obtain ⟨hi, hj⟩ := validIdx_cons.mp hi
    obtain ⟨hj, _⟩ := validIdx_cons.mp hj
    rw [ve i hi j hj, hval]
    have hf : (fun u l d r => a.at st1 [("u", u), ("l", l), ("d", d), ("r", r)]) = lurd A := by
      funext u l d r
      exact va u l d r
    rw [hf, da.1, da.2.1]
    rfl
  set q := (solveEnv p env (min chi0 (H * V))).1 with hqd
  have eg : IsEigh env (H * V) (p.eigh env) := by
    refine he env _ we (by rw [se, h1, h2]) ?_
    obtain ⟨sym, _⟩ := hq env we se fun i hi j hj => ve i hi j hj
    rw [h1] at sym
    exact sym
  have wq : q.WF := by
    obtain ⟨_, _, _, w, _⟩ := C50_solveEnv eg (min chi0 (H * V))
    exact w
  have hk0 : k ≠ 0 := by
    obtain ⟨k', _, ek, _, sk', _⟩ := C50_solveEnv eg (min chi0 (H * V))
    have : k' = k := by
      rw [← hqd, sk] at sk'
      simpa using sk'.symm
    rw [← this, ek]
    split <;> assumption
  have hkd : q.shape.getD 1 0 = k := by rw [sk]; rfl
  -- the isometry
  obtain ⟨st3, qT, e3, w3, k3, l3, d3, v3⟩ := construct_shaped p.rand o.wf wq (s := [H, V, k]) (labels := ["h", "v", "o"]) rfl (by decide)
    (by rw [sk]; simp [mul_assoc]) (by simp [hH, hV, hk0])
  have hvo : IsHVO st3 qT H V k fun h v o => q.get [h * V + v, o] := by
    refine ⟨l3, d3 _ _ (by simp), d3 _ _ (by simp), d3 _ _ (by simp), fun h _ v _ x _ => ?_⟩
    rw [show [("h", h), ("v", v), ("o", x)] = ["h", "v", "o"].zip [h, v, x] from rfl, v3 [h, v, x] rfl]
    refine NDArray.get_mk_reshape q [H, V, k] [h, v, x] [h * V + v, x] ?_
    rw [sk]
    simp [ravel]
    ring
  have kk := o.kept.trans k3
  -- the ring
  obtain ⟨f2, names2, hm2, _⟩ := C66_qxA p.rand p.cast w3 l3 (kk.hasLabels la) (by rw [hvo.dh, kk.dimOf la.known, da.2.1])
    (by rw [hvo.dv, kk.dimOf la.known, da.1]) 1
  obtain ⟨net2, st4, qA, hs2, w4, k4, hqA⟩ := qxA_settles (NetOf.made (p := p) hm2) w3 (kk.hasLabels la)
    (by simp only [kk.dimOf la.known]; exact da) (A := A) (fun u l d r => by rw [kk.at la.known]; exact va u l d r) hvo
  obtain ⟨f3, names3, hm3, _⟩ := C66_tnrC p.rand p.cast w4 hqA.labels hqA.labels hqA.labels hqA.labels rfl rfl rfl rfl 2
  obtain ⟨net3, st5, c, hs3, w5, k5, hc⟩ := ring_settles (NetOf.made (p := p) hm3) w4 hqA
  obtain ⟨f4, names4, hm4, _⟩ := C66_tnrCC p.rand p.cast w5 hc.labels hc.labels rfl rfl 3
  obtain ⟨net4, st6, cc, hs4, w6, k6, hcc⟩ := double_settles (NetOf.made (p := p) hm4) w5 hc
  have hc6 := hc.kept k6
  obtain ⟨st7, tr, e5, ltr, gtr, old7, w7, le7, vtr⟩ := C49_selfTrace p.rand p.cast w6 hc6.labels.good hc6.labels.dense hc6.labels.known
  have k7 : LegsUnchanged st6 st7 := ⟨le7, old7.leg⟩
  have single : tr.single st7 = .ok (entry tr fun _ => 0) :=
    single_of_represents (A := ⟨[], fun _ => 0, fun _ => entry tr fun _ => 0⟩) (st := st7) (t := tr)
      ⟨List.nodup_nil, by simp [ltr], by simp [ltr], fun τ _ => entry_congr tr (by simp [ltr])⟩ gtr rfl fun _ => 0
  refine ⟨k, ⟨st7, a, env, q, qT, ((p.eigh env).1.take (H * V - k)).sum / (p.eigh env).1.sum, qA, c, cc, entry tr fun _ => 0⟩, ?_, ?_, ?_⟩
  · unfold tnrStart
    have g0 : pyGet A.shape 0 = .ok H := by rw [sA]; rfl
    have g1 : pyGet A.shape 1 = .ok V := by rw [sA]; rfl
    refine (Settles.const g0).bind ?_
    refine (Settles.const g1).bind ?_
    refine (Settles.const e1).bind ?_
    refine (Settles.const hm1).bind ?_
    refine hs1.bind ?_
    refine (Settles.const e2).bind ?_
    refine (Settles.const (by rw [← hqd, hkd]; exact e3)).bind ?_
    refine (Settles.const herr).bind ?_
    refine (Settles.const hm2).bind ?_
    refine hs2.bind ?_
    refine (Settles.const hm3).bind ?_
    refine hs3.bind ?_
    refine (Settles.const hm4).bind ?_
    refine hs4.bind ?_
    refine (Settles.const e5).bind ?_
    refine (Settles.const single).bind ?_
    exact Settles.const rfl
  · exact k1.trans (o.kept.trans (k3.trans (k4.trans (k5.trans (k6.trans k7)))))
  · exact ⟨henv, hqd, sk, hk0, orth, rfl, hvo.kept (k4.trans (k5.trans (k6.trans k7))), hqA.kept (k5.trans (k6.trans k7)),
      hc.kept (k6.trans k7), hcc.kept k7, (vtr _).trans (hc6.squares _)⟩

end CTL
