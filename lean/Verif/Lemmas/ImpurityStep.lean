import Verif.Lemmas.HOTRGRun
import Verif.Spec.Impurity
import Verif.Props.Legs
import Verif.Props.RG
import Verif.Lemmas.ImpurityMath

/-! The sum over the parts of an order. -/

namespace CTL
variable {K : Type}

open Finset (range)

/-- The indices of the four legs. -/
abbrev siteIdx (u l d r : Nat) : List (String × Nat) := [("u", u), ("l", l), ("d", d), ("r", r)]

/-- The dimension of the leg with a label. -/
def siteDim (V H : Nat) (x : String) : Nat := if x = "u" ∨ x = "d" then V else H

/-- An array whose axes are labelled `u`, `l`, `d`, `r` in any order, with given entries. -/
structure SiteArray [Zero K] (V H : Nat) (labels : List String) (a : NDArray K) (f : Nat → Nat → Nat → Nat → K) : Prop where
  perm : labels.Perm ["u", "l", "d", "r"]
  wf : a.WF
  shape : a.shape = labels.map (siteDim V H)
  get : ∀ u < V, ∀ l < H, ∀ d < V, ∀ r < H, a.get (labels.map (indexAt (siteIdx u l d r))) = f u l d r

section
variable [Zero K] {st : Store} {t : Tensor K} {V H : Nat}

omit [Zero K] in
theorem SquareSite.siteDim (h : SquareSite st t) (hv : t.dimOf st "u" = V) (hh : t.dimOf st "l" = H) :
    t.legs.map st.dim = (t.legs.map st.name).map (siteDim V H) := by
  rw [List.map_map]
  refine List.map_congr_left fun l hl => ?_
  have e := dimOf_leg h.labels (by decide) hl
  have hm := h.labels.labels.subset (List.mem_map_of_mem (f := st.name) hl)
  have hd := h.v
  have hr := h.h
  show st.dim l = CTL.siteDim V H (st.name l)
  simp only [List.mem_cons, List.not_mem_nil, or_false] at hm
  rw [← e]
  rcases hm with hm | hm | hm | hm <;> rw [hm] <;> simp [CTL.siteDim, ← hd, ← hr, hv, hh]

theorem SquareSite.array (h : SquareSite st t) (hv : t.dimOf st "u" = V) (hh : t.dimOf st "l" = H) :
    ∃ arr, t.a = some arr ∧ SiteArray V H (t.labels st) arr (t.site st) := by
  obtain ⟨arr, ea, wa, sa, -⟩ := h.labels.good.data
  refine ⟨arr, ea, h.labels.labels, wa, (sa h.labels.dense).trans (h.siteDim hv hh), fun u _ l _ d _ r _ => ?_⟩
  unfold Tensor.site Tensor.at
  rw [entry_dense h.labels.dense, ea, Tensor.labels, List.map_map]
  rfl

theorem reArrange_diag (st : Store) (t : Tensor K) (labels : List String) : (t.reArrange st labels).1.diag = t.diag := by
  unfold Tensor.reArrange Tensor.moveLabelsToFront Tensor.moveLegsToFront
  dsimp only
  repeat' split
  all_goals rfl

theorem SquareSite.reArranged (h : SquareSite st t) (hv : t.dimOf st "u" = V) (hh : t.dimOf st "l" = H) {labels : List String}
    (hl : labels.Perm ["u", "l", "d", "r"]) : ∃ t', t.reArrange st labels = (t', .ok ()) ∧
      ∃ arr, t'.a = some arr ∧ SiteArray V H labels arr (t.site st) := by
  obtain ⟨t', e, el, ep, g', hv'⟩ := (C15_reArrange h.labels.good labels).1 (h.labels.labels.trans hl.symm)
  have hd : t'.diag = false := by
    have := reArrange_diag st t labels
    rw [e] at this
    exact this.trans h.labels.dense
  obtain ⟨arr, ea, wa, sa, -⟩ := g'.data
  have hdim : ∀ l ∈ t.legs, st.dim l = CTL.siteDim V H (st.name l) := by
    have := h.siteDim hv hh
    rw [List.map_map] at this
    exact List.map_inj_left.mp this
  refine ⟨t', e, arr, ea, hl, wa, ?_, fun u hu l hl' d hd' r hr => ?_⟩
  · rw [sa hd, ← el, Tensor.labels, List.map_map]
    exact List.map_congr_left fun l hl => hdim l (ep.subset hl)
  · unfold Tensor.site Tensor.at
    rw [← hv' _ fun l hl => ?_, entry_dense hd, ea, ← el, Tensor.labels, List.map_map]
    · rfl
    · have hm := h.labels.labels.subset (List.mem_map_of_mem (f := st.name) hl)
      rw [hdim l hl]
      simp only [List.mem_cons, List.not_mem_nil, or_false] at hm
      rcases hm with hm | hm | hm | hm <;> rw [hm] <;> simp [CTL.siteDim, indexAt, hu, hl', hd', hr]

end

section
variable [Field K] {V H : Nat} {labels : List String} {a b : NDArray K} {f g : Nat → Nat → Nat → Nat → K}

theorem SiteArray.congr (h : SiteArray V H labels a f) (e : ∀ u < V, ∀ l < H, ∀ d < V, ∀ r < H, f u l d r = g u l d r) :
    SiteArray V H labels a g :=
  ⟨h.perm, h.wf, h.shape, fun u hu l hl d hd r hr => (h.get u hu l hl d hd r hr).trans (e u hu l hl d hd r hr)⟩

theorem mulBy_get (a : NDArray K) (x : K) (idx : List Nat) : (a.mulBy x).get idx = a.get idx * x := by
  unfold NDArray.mulBy NDArray.get
  simp only [List.getD_eq_getElem?_getD, List.getElem?_map]
  cases a.data[ravel a.shape idx]? <;> simp

theorem SiteArray.mul (h : SiteArray V H labels a f) (x : K) : SiteArray V H labels (a.mulBy x) fun u l d r => f u l d r * x := by
  refine ⟨h.perm, ?_, h.shape, fun u hu l hl d hd r hr => by rw [mulBy_get, h.get u hu l hl d hd r hr]⟩
  have := h.wf
  unfold NDArray.WF NDArray.mulBy at *
  simpa using this

theorem SiteArray.div (h : SiteArray V H labels a f) (x : K) : SiteArray V H labels (a.divBy x) fun u l d r => f u l d r / x := by
  refine ⟨h.perm, ?_, h.shape, fun u hu l hl d hd r hr => by rw [divBy_get, h.get u hu l hl d hd r hr]⟩
  have := h.wf
  unfold NDArray.WF NDArray.divBy at *
  simpa using this

theorem SiteArray.add (h : SiteArray V H labels a f) (k : SiteArray V H labels b g) :
    ∃ c, a.addTo b = .ok c ∧ SiteArray V H labels c fun u l d r => f u l d r + g u l d r := by
  have hs : a.shape = b.shape := h.shape.trans k.shape.symm
  have wa := h.wf
  have wb := k.wf
  refine ⟨_, if_pos hs, h.perm, ?_, h.shape, fun u hu l hl d hd r hr => ?_⟩
  · unfold NDArray.WF at *
    simp only [List.length_zipWith, wa, wb, hs, Nat.min_self]
  · rw [← h.get u hu l hl d hd r hr, ← k.get u hu l hl d hd r hr]
    unfold NDArray.get
    simp only [hs]
    generalize ravel b.shape _ = i
    have hlen : a.data.length = b.data.length := by
      unfold NDArray.WF at *
      rw [wa, wb, hs]
    simp only [List.getD_eq_getElem?_getD]
    by_cases hi : i < a.data.length
    · have hi' : i < b.data.length := hlen ▸ hi
      rw [List.getElem?_zipWith, List.getElem?_eq_getElem hi, List.getElem?_eq_getElem hi']
      rfl
    · have hi' : b.data.length ≤ i := by rw [← hlen]; exact Nat.le_of_not_lt hi
      rw [List.getElem?_zipWith, List.getElem?_eq_none (Nat.le_of_not_lt hi), List.getElem?_eq_none hi']
      simp

/-- The tensor made of the array. -/
theorem SiteArray.construct (h : SiteArray V H labels a f) (hV : V ≠ 0) (hH : H ≠ 0) (rand : List Nat → List Nat → K) {st : Store}
    (wf : WFStore st) : ∃ st' t, CTL.construct rand st { data := some a, labels := some labels } = .ok (st', t) ∧ WFStore st' ∧
      LegsUnchanged st st' ∧ SquareSite st' t ∧ t.dimOf st' "u" = V ∧ t.dimOf st' "l" = H ∧
      ∀ u < V, ∀ l < H, ∀ d < V, ∀ r < H, t.site st' u l d r = f u l d r := by
  have nd : labels.Nodup := h.perm.nodup_iff.mpr (by decide)
  obtain ⟨st', t, e, w, k, hl, hd, hv⟩ := construct_plain rand wf h.wf (labels := labels) (by rw [h.shape, List.length_map]) nd (by
    rw [h.shape]
    intro x hx
    obtain ⟨y, -, rfl⟩ := List.mem_map.mp hx
    unfold siteDim
    split <;> assumption)
  have hz : ∀ x ∈ labels, t.dimOf st' x = siteDim V H x := by
    intro x hx
    refine hd x _ ?_
    rw [h.shape]
    generalize labels = ls at hx
    induction ls with
    | nil => cases hx
    | cons y ys ih =>
      rcases List.mem_cons.mp hx with rfl | hx
      · exact List.mem_cons_self
      · exact List.mem_cons_of_mem _ (ih hx)
  have hm : ∀ x ∈ ["u", "l", "d", "r"], x ∈ labels := fun x hx => h.perm.symm.subset hx
  have du := hz "u" (hm _ (by decide))
  have dl := hz "l" (hm _ (by decide))
  have dd := hz "d" (hm _ (by decide))
  have dr := hz "r" (hm _ (by decide))
  refine ⟨st', t, e, w, k, ⟨⟨hl.good, hl.dense, hl.known, hl.pos, hl.labels.trans h.perm⟩, by rw [du, dd]; rfl, by rw [dl, dr]; rfl⟩, du, dl, ?_⟩
  intro u hu l hl' d hd' r hr
  rw [← h.get u hu l hl' d hd' r hr, ← hv (labels.map (indexAt (siteIdx u l d r))) (by simp)]
  unfold Tensor.site Tensor.at
  refine entry_congr t fun x hx => ?_
  have hx := hl.labels.subset (List.mem_map_of_mem (f := st'.name) hx)
  generalize st'.name x = y at hx
  have key : ∀ ls : List String, y ∈ ls → indexAt (ls.zip (ls.map (indexAt (siteIdx u l d r)))) y = indexAt (siteIdx u l d r) y := by
    intro ls
    induction ls with
    | nil => intro h; cases h
    | cons z zs ih =>
      intro h
      simp only [List.map_cons, List.zip_cons_cons, indexAt]
      split
      · rename_i h'
        subst h'
        rfl
      · rename_i h'
        rcases List.mem_cons.mp h with h | h
        · exact absurd h h'
        · exact ih h
  exact (key labels hx).symm

end

/-! ### The loop -/

section
variable [Field K] [LinearOrder K] [Star K] {p : RGParams K}

/-- A state of the `RG` that differs in the store and in the networks for merging only. -/
def Used (p : RGParams K) (s s1 : HOTRGState K) : Prop :=
  ∃ st' h v, s1 = { s with st := st', horizontalIterate := h, verticalIterate := v } ∧ LegsUnchanged s.st st' ∧ WFStore st' ∧
    NetOf p HOTRGHorizontalContractFTN h ∧ NetOf p HOTRGVerticalContractFTN v

theorem Used.refl {s : HOTRGState K} (g : HGood p s) : Used p s s := ⟨_, _, _, rfl, .refl _, g.wf, g.horizontal, g.vertical⟩

theorem Used.trans {s s1 s2 : HOTRGState K} (h : Used p s s1) (k : Used p s1 s2) : Used p s s2 := by
  obtain ⟨st1, h1, v1, rfl, k1, w1, n1, m1⟩ := h
  obtain ⟨st2, h2, v2, rfl, k2, w2, n2, m2⟩ := k
  exact ⟨st2, h2, v2, rfl, k1.trans k2, w2, n2, m2⟩

theorem Used.good {s s1 : HOTRGState K} (g : HGood p s) (h : Used p s s1) : HGood p s1 := by
  obtain ⟨st1, h1, v1, rfl, k1, w1, n1, m1⟩ := h
  exact ⟨w1, g.a.kept k1, n1, m1, g.project⟩

theorem Used.legs {s s1 : HOTRGState K} (h : Used p s s1) : LegsUnchanged s.st s1.st := by
  obtain ⟨st1, h1, v1, rfl, k1, w1, n1, m1⟩ := h
  exact k1

theorem Used.store {s s1 : HOTRGState K} (h : Used p s s1) {st : Store} (w : WFStore st) (k : LegsUnchanged s1.st st) :
    Used p s { s1 with st := st } := by
  obtain ⟨st1, h1, v1, rfl, k1, w1, n1, m1⟩ := h
  exact ⟨st, h1, v1, rfl, k1.trans k, w, n1, m1⟩

variable {V H k : Nat} {labels : List String} {sum : NDArray K} {f g : Nat → Nat → Nat → Nat → K}

theorem addPart_first {st : Store} {t : Tensor K} (h : SquareSite st t) (hv : t.dimOf st "u" = V) (hh : t.dimOf st "l" = H) (w : K) :
    ∃ labels sum, ImpurityNet.addPart st none t w = .ok (labels, sum) ∧ SiteArray V H labels sum fun u l d r => t.site st u l d r * w := by
  obtain ⟨arr, ea, A⟩ := h.array hv hh
  refine ⟨_, _, ?_, A.mul w⟩
  unfold ImpurityNet.addPart
  simp only [ea]

theorem addPart_next {st : Store} {t : Tensor K} (h : SquareSite st t) (hv : t.dimOf st "u" = V) (hh : t.dimOf st "l" = H) (w : K)
    (S : SiteArray V H labels sum f) :
    ∃ sum', ImpurityNet.addPart st (some (labels, sum)) t w = .ok (labels, sum') ∧
      SiteArray V H labels sum' fun u l d r => f u l d r + t.site st u l d r * w := by
  obtain ⟨t', e, arr, ea, A⟩ := h.reArranged hv hh S.perm
  obtain ⟨c, ec, hc⟩ := S.add (A.mul w)
  refine ⟨c, ?_, hc⟩
  unfold ImpurityNet.addPart
  simp only [e, ea, ec]
  rfl

variable [TrivialStar K]

/-- The merged tensor. -/
theorem merge_settles {s : HOTRGState K} (gs : HGood p s) {idx : Nat} {d : RGDir} {P : NDArray K} (hd : s.directChoices[idx]? = some d)
    (hP : s.projectors[idx]? = some P) (wp : P.WF) (sp : P.shape = [envSize V H d, k]) (hk : k ≠ 0) {x y : Tensor K}
    (hx : SquareSite s.st x) (hy : SquareSite s.st y) (v1 : x.dimOf s.st "u" = V) (v2 : y.dimOf s.st "u" = V)
    (l1 : x.dimOf s.st "l" = H) (l2 : y.dimOf s.st "l" = H) :
    ∃ s' t, Settles (fun fuel => s.impurityIterate p fuel [x, y] idx) (s', t) ∧ Used p s s' ∧ SquareSite s'.st t ∧
      t.dimOf s'.st "u" = mergedV V k d ∧ t.dimOf s'.st "l" = mergedH H k d ∧
      ∀ u < mergedV V k d, ∀ l < mergedH H k d, ∀ d' < mergedV V k d, ∀ r < mergedH H k d,
        t.site s'.st u l d' r = mergedSite V H (x.site s.st) (y.site s.st) P d u l d' r := by
  obtain ⟨s', t, e, hu, q, dv, dh, val⟩ := directed_settles gs d (i1 := some x) (i2 := some y) hx hy v1 v2 l1 l2 wp sp hk
  refine ⟨s', t, ?_, hu, q, dv, dh, val⟩
  have p1 : pyGet s.directChoices idx = .ok d := by
    unfold pyGet
    have h0 : ¬ ((idx : Int) < 0) := Int.not_lt.mpr (Int.natCast_nonneg idx)
    simp only [if_neg h0, Int.toNat_natCast, hd, if_pos (Int.natCast_nonneg idx)]
  have p2 : pyGet s.projectors idx = .ok P := by
    unfold pyGet
    have h0 : ¬ ((idx : Int) < 0) := Int.not_lt.mpr (Int.natCast_nonneg idx)
    simp only [if_neg h0, Int.toNat_natCast, hP, if_pos (Int.natCast_nonneg idx)]
  unfold HOTRGState.impurityIterate
  simp only [if_pos (List.getElem?_eq_some_iff.mp hd).1, p1, p2, bind, Except.bind]
  exact e

omit [LinearOrder K] [Star K] [TrivialStar K] [Field K] in
theorem Sites.kept {st st' : Store} {ts : List (DofTensor K)} (h : Sites st V H ts) (k : LegsUnchanged st st') : Sites st' V H ts := fun x hx =>
  ⟨(h x hx).1.kept k, (k.dimOf (h x hx).1.labels.known _).trans (h x hx).2.1, (k.dimOf (h x hx).1.labels.known _).trans (h x hx).2.2⟩

omit [LinearOrder K] [Star K] [TrivialStar K] in
theorem siteOf_kept {st st' : Store} {ts : List (DofTensor K)} (h : Sites st V H ts) (hk : LegsUnchanged st st') (j : Nat) :
    siteOf st' ts j = siteOf st ts j := by
  unfold siteOf
  cases e : ts[j]? with
  | none => rfl
  | some t => exact (h t (List.mem_of_getElem? e)).1.site_kept hk

theorem part_settles {s : HOTRGState K} (gs : HGood p s) {idx : Nat} {d : RGDir} {P : NDArray K} (hd : s.directChoices[idx]? = some d)
    (hP : s.projectors[idx]? = some P) (wp : P.WF) (sp : P.shape = [envSize V H d, k]) (hk : k ≠ 0) {ts : List (DofTensor K)}
    (hs : Sites s.st V H ts) {i j : Nat} (hi : i < ts.length) (hj : j ≤ i) (w W : K)
    (acc : Option (List String × NDArray K)) (F : Nat → Nat → Nat → Nat → K)
    (hacc : match acc with
      | none => F = fun _ _ _ _ => 0
      | some (labels, sum) => SiteArray (mergedV V k d) (mergedH H k d) labels sum F) :
    ∃ s' labels sum, Settles (fun fuel => ImpurityNet.part p fuel (ts.map some) idx w (s, W, acc) [j, i - j])
        (s', W + (i.choose j : K) * w, some (labels, sum)) ∧ Used p s s' ∧
      SiteArray (mergedV V k d) (mergedH H k d) labels sum fun u l d' r =>
        F u l d' r + mergedSite V H (siteOf s.st ts j) (siteOf s.st ts (i - j)) P d u l d' r * ((i.choose j : K) * w) := by
  have hj' : j < ts.length := by omega
  have hij : i - j < ts.length := by omega
  have h1 := hs _ (List.getElem_mem hj')
  have h2 := hs _ (List.getElem_mem hij)
  obtain ⟨s', t, e, hu, q, dv, dh, val⟩ := merge_settles gs hd hP wp sp hk h1.1 h2.1 h1.2.1 h2.2.1 h1.2.2 h2.2.2
  have e1 : siteOf s.st ts j = ts[j].1.site s.st := by
    unfold siteOf
    rw [List.getElem?_eq_getElem hj']
  have e2 : siteOf s.st ts (i - j) = ts[i - j].1.site s.st := by
    unfold siteOf
    rw [List.getElem?_eq_getElem hij]
  have hm : ([j, i - j].mapM fun j => ((ts.map some)[j]?).join) = some [ts[j], ts[i - j]] := by
    simp [List.getElem?_eq_getElem hj', List.getElem?_eq_getElem hij]
  have hc : ((calculateDivisionTimes [j, i - j] : Int) : K) = (i.choose j : K) := by
    rw [division_two hj]
    simp
  have hadd : ∃ labels sum, ImpurityNet.addPart s'.st acc t ((i.choose j : K) * w) = .ok (labels, sum) ∧
      SiteArray (mergedV V k d) (mergedH H k d) labels sum fun u l d' r => F u l d' r + t.site s'.st u l d' r * ((i.choose j : K) * w) := by
    match acc, hacc with
    | none, hacc =>
      subst hacc
      obtain ⟨labels, sum, e, A⟩ := addPart_first q dv dh ((i.choose j : K) * w)
      exact ⟨labels, sum, e, A.congr fun u _ l _ d' _ r _ => by rw [zero_add]⟩
    | some (labels, sum), hacc =>
      obtain ⟨sum', e, A⟩ := addPart_next q dv dh ((i.choose j : K) * w) hacc
      exact ⟨labels, sum', e, A⟩
  obtain ⟨labels, sum, ea, A⟩ := hadd
  refine ⟨s', labels, sum, ?_, hu, A.congr fun u hu l hl d' hd' r hr => by rw [val u hu l hl d' hd' r hr, e1, e2]⟩
  unfold ImpurityNet.part
  simp only [hm, hc]
  refine Settles.bind e (Settles.const ?_)
  simp only [ea, bind, Except.bind, pure, Except.pure]

theorem parts_settle {s : HOTRGState K} (gs : HGood p s) {idx : Nat} {d : RGDir} {P : NDArray K} (hd : s.directChoices[idx]? = some d)
    (hP : s.projectors[idx]? = some P) (wp : P.WF) (sp : P.shape = [envSize V H d, k]) (hk : k ≠ 0) {ts : List (DofTensor K)}
    (hs : Sites s.st V H ts) {i : Nat} (hi : i < ts.length) (w : K) : ∀ q ≤ i,
    ∃ s' labels sum, Settles (fun fuel => ((List.range (q + 1)).map fun j => [j, i - j]).foldlM (ImpurityNet.part p fuel (ts.map some) idx w) (s, 0, none))
        (s', ∑ j ∈ range (q + 1), (i.choose j : K) * w, some (labels, sum)) ∧ Used p s s' ∧
      SiteArray (mergedV V k d) (mergedH H k d) labels sum fun u l d' r => ∑ j ∈ range (q + 1),
        mergedSite V H (siteOf s.st ts j) (siteOf s.st ts (i - j)) P d u l d' r * ((i.choose j : K) * w)
  | 0, _ => by
    obtain ⟨s', labels, sum, e, hu, A⟩ := part_settles gs hd hP wp sp hk hs hi (Nat.zero_le i) w 0 none (fun _ _ _ _ => 0) rfl
    refine ⟨s', labels, sum, ?_, hu, A.congr fun u _ l _ d' _ r _ => by simp⟩
    have : (List.range (0 + 1)).map (fun j => [j, i - j]) = [[0, i - 0]] := rfl
    simp only [this, List.foldlM_cons, List.foldlM_nil]
    rw [Finset.sum_range_one, ← zero_add (((i.choose 0 : Nat) : K) * w)]
    exact e.bind (Settles.const rfl)
  | q + 1, hq => by
    obtain ⟨s1, labels1, sum1, e1, hu1, A1⟩ := parts_settle gs hd hP wp sp hk hs hi w q (by omega)
    have g1 := hu1.good gs
    have hd1 : s1.directChoices[idx]? = some d := by
      obtain ⟨_, _, _, rfl, _⟩ := hu1
      exact hd
    have hP1 : s1.projectors[idx]? = some P := by
      obtain ⟨_, _, _, rfl, _⟩ := hu1
      exact hP
    obtain ⟨s2, labels2, sum2, e2, hu2, A2⟩ := part_settles g1 hd1 hP1 wp sp hk (hs.kept hu1.legs) hi hq w
      (∑ j ∈ range (q + 1), (i.choose j : K) * w) (some (labels1, sum1)) _ A1
    refine ⟨s2, labels2, sum2, ?_, hu1.trans hu2, A2.congr fun u _ l _ d' _ r _ => ?_⟩
    · rw [List.range_succ, List.map_append, Finset.sum_range_succ]
      simp only [List.foldlM_append]
      refine Settles.bind e1 ?_
      simp only [List.map_cons, List.map_nil, List.foldlM_cons, List.foldlM_nil]
      exact e2.bind (Settles.const rfl)
    · rw [siteOf_kept hs hu1.legs, siteOf_kept hs hu1.legs, Finset.sum_range_succ _ (q + 1)]

variable [IsStrictOrderedRing K]

theorem order_settles {s : HOTRGState K} (gs : HGood p s) {idx : Nat} {d : RGDir} {P : NDArray K} (hd : s.directChoices[idx]? = some d)
    (hP : s.projectors[idx]? = some P) (wp : P.WF) (sp : P.shape = [envSize V H d, k]) (hk : k ≠ 0) (hV : V ≠ 0) (hH : H ≠ 0)
    {ts : List (DofTensor K)} (hs : Sites s.st V H ts) {i : Nat} (hi : i < ts.length) (dof : Nat) :
    ∃ s' t, Settles (fun fuel => ImpurityNet.orderOf p fuel (ts.map some) idx dof s i) (s', (t, some dof)) ∧ Used p s s' ∧
      SquareSite s'.st t ∧ t.dimOf s'.st "u" = mergedV V k d ∧ t.dimOf s'.st "l" = mergedH H k d ∧
      ∀ u < mergedV V k d, ∀ l < mergedH H k d, ∀ d' < mergedV V k d, ∀ r < mergedH H k d, t.site s'.st u l d' r =
        (1 / 2) ^ i * pairOrders (fun X Y => mergedSite V H X Y P d) (siteOf s.st ts) i u l d' r := by
  obtain ⟨s1, labels, sum, e, hu, A⟩ := parts_settle gs hd hP wp sp hk hs hi ((1 / 2) ^ i) i le_rfl
  have h2 : (2 : K) ≠ 0 := two_ne_zero
  have hw : ∑ j ∈ range (i + 1), (i.choose j : K) * (1 / 2) ^ i = 1 := by
    rw [← Finset.sum_mul, ← Nat.cast_sum, Nat.sum_range_choose]
    push_cast
    rw [← mul_pow, mul_one_div_cancel h2, one_pow]
  rw [hw] at e
  obtain ⟨st', t, ec, w', k', q, dv, dh, val⟩ := (A.div 1).construct (by unfold mergedV; split <;> assumption)
    (by unfold mergedH; split <;> assumption) p.rand (hu.good gs).wf
  refine ⟨{ s1 with st := st' }, t, ?_, hu.store w' k', q, dv, dh, fun u hu l hl d' hd' r hr => ?_⟩
  · unfold ImpurityNet.orderOf
    rw [divide_two]
    refine Settles.bind e (Settles.const ?_)
    simp only [ec, bind, Except.bind, pure, Except.pure]
  · rw [val u hu l hl d' hd' r hr, div_one, pairOrders, Finset.mul_sum]
    exact Finset.sum_congr rfl fun j _ => by ring

theorem orders_settle {s : HOTRGState K} (gs : HGood p s) {idx : Nat} {d : RGDir} {P : NDArray K} (hd : s.directChoices[idx]? = some d)
    (hP : s.projectors[idx]? = some P) (wp : P.WF) (sp : P.shape = [envSize V H d, k]) (hk : k ≠ 0) (hV : V ≠ 0) (hH : H ≠ 0)
    {ts : List (DofTensor K)} (hs : Sites s.st V H ts) (dof : Nat) : ∀ is : List Nat, (∀ i ∈ is, i < ts.length) →
    ∃ s' rs, Settles (fun fuel => ImpurityNet.orders p fuel (ts.map some) idx dof s is) (s', rs) ∧ Used p s s' ∧
      rs.length = is.length ∧ (∀ x ∈ rs, x.2 = some dof) ∧ Sites s'.st (mergedV V k d) (mergedH H k d) rs ∧
      ∀ n i, is[n]? = some i → ∀ u < mergedV V k d, ∀ l < mergedH H k d, ∀ d' < mergedV V k d, ∀ r < mergedH H k d,
        siteOf s'.st rs n u l d' r = (1 / 2) ^ i * pairOrders (fun X Y => mergedSite V H X Y P d) (siteOf s.st ts) i u l d' r
  | [], _ => ⟨s, [], Settles.const rfl, .refl gs, rfl, by simp, (fun x hx => by cases hx), fun n i h => by simp at h⟩
  | i :: is, hi => by
    obtain ⟨s1, t, e1, hu1, q, dv, dh, val⟩ := order_settles gs hd hP wp sp hk hV hH hs (hi i List.mem_cons_self) dof
    have g1 := hu1.good gs
    have hd1 : s1.directChoices[idx]? = some d := by
      obtain ⟨_, _, _, rfl, _⟩ := hu1
      exact hd
    have hP1 : s1.projectors[idx]? = some P := by
      obtain ⟨_, _, _, rfl, _⟩ := hu1
      exact hP
    obtain ⟨s2, rs, e2, hu2, hl, hdof, hr, hv⟩ := orders_settle g1 hd1 hP1 wp sp hk hV hH (hs.kept hu1.legs) dof is
      fun j hj => hi j (List.mem_cons_of_mem _ hj)
    have ht : Sites s2.st (mergedV V k d) (mergedH H k d) [(t, some dof)] := Sites.kept (st := s1.st) (fun x hx => by
      obtain rfl := List.mem_singleton.mp hx
      exact ⟨q, dv, dh⟩) hu2.legs
    refine ⟨s2, (t, some dof) :: rs, ?_, hu1.trans hu2, by simp [hl], ?_, ?_, ?_⟩
    · unfold ImpurityNet.orders
      exact e1.bind (e2.bind (Settles.const rfl))
    · intro x hx
      rcases List.mem_cons.mp hx with rfl | hx
      · rfl
      · exact hdof x hx
    · intro x hx
      rcases List.mem_cons.mp hx with rfl | hx
      · exact ht _ List.mem_cons_self
      · exact hr x hx
    · intro n j hj u hu l hl d' hd' r hr
      cases n with
      | zero =>
        obtain rfl := Option.some.inj hj
        rw [← val u hu l hl d' hd' r hr]
        show t.site s2.st u l d' r = _
        rw [q.site_kept hu2.legs]
      | succ n =>
        have := hv n j hj u hu l hl d' hd' r hr
        rw [show siteOf s1.st ts = siteOf s.st ts from funext fun j => siteOf_kept hs hu1.legs j] at this
        exact this

end

end CTL
