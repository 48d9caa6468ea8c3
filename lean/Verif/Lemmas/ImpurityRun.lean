import Verif.Lemmas.ImpurityStep
import Verif.Props.HOTRG
import Verif.Spec.TriangleTRG

/-! What is known of a `HOTRG` object and the impurities that use it, after any calls. -/

namespace CTL
variable {K : Type}

open Finset (range)

/-! ### Lists of tensors -/

section
variable [Field K] [LinearOrder K] [Star K] {p : RGParams K} {V H : Nat}

theorem copyTensors_ok : ∀ (ts : List (DofTensor K)) {st : Store}, WFStore st → Sites st V H ts →
    ∃ st' cs, copyTensors p st ts = .ok (st', cs) ∧ WFStore st' ∧ LegsUnchanged st st' ∧ Sites st' V H cs ∧ cs.length = ts.length ∧
      (∀ k, siteOf st' cs k = siteOf st ts k) ∧ cs.map Prod.snd = ts.map Prod.snd
  | [], st, wf, _ => ⟨st, [], rfl, wf, .refl _, (fun x hx => by cases hx), rfl, fun _ => rfl, rfl⟩
  | t :: ts, st, wf, hs => by
    have ht := hs t List.mem_cons_self
    obtain ⟨st1, c, e1, F, O⟩ := copy_fresh p.rand ht.1.labels.good ht.1.labels.dense
    have k1 : LegsUnchanged st st1 := ⟨O.grows.le, O.old.leg⟩
    obtain ⟨q, S⟩ := F.square ht.1
    have hs1 : Sites st V H ts := fun x hx => hs x (List.mem_cons_of_mem _ hx)
    obtain ⟨st2, cs, e2, w2, k2, h2, l2, v2, d2⟩ := copyTensors_ok ts (O.grows.wf wf) (hs1.kept k1)
    have hc : Sites st1 V H [(c, t.2)] := fun x hx => by
      obtain rfl := List.mem_singleton.mp hx
      exact ⟨q, S.v.trans ht.2.1, S.h.trans ht.2.2⟩
    refine ⟨st2, (c, t.2) :: cs, ?_, w2, k1.trans k2, ?_, by simp [l2], ?_, by simp [d2]⟩
    · unfold copyTensors
      simp only [e1, e2, bind, Except.bind, pure, Except.pure]
    · intro x hx
      rcases List.mem_cons.mp hx with rfl | hx
      · exact hc.kept k2 _ List.mem_cons_self
      · exact h2 x hx
    · intro k
      cases k with
      | zero =>
        show c.site st2 = t.1.site st
        rw [q.site_kept k2]
        funext u l d r
        exact S.val u l d r
      | succ k =>
        have := v2 k
        rw [siteOf_kept hs1 k1] at this
        exact this

theorem divideEach_ok (c : K) {st : Store} : ∀ (ts : List (DofTensor K)), Sites st V H ts →
    ∃ rs, divideEach c (ts.map some) = .ok rs ∧ Sites st V H rs ∧ rs.length = ts.length ∧
      (∀ k u l d r, siteOf st rs k u l d r = siteOf st ts k u l d r / c) ∧ rs.map Prod.snd = ts.map Prod.snd
  | [], _ => ⟨[], rfl, (fun x hx => by cases hx), rfl, fun k u l d r => by simp [siteOf], rfl⟩
  | t :: ts, hs => by
    have ht := hs t List.mem_cons_self
    obtain ⟨b, hb, -⟩ := ht.1.labels.good.data
    obtain ⟨q, hv⟩ := divided ht.1 hb c
    obtain ⟨rs, e, h2, l2, v2, d2⟩ := divideEach_ok c ts fun x hx => hs x (List.mem_cons_of_mem _ hx)
    refine ⟨({ t.1 with a := some (b.divBy c) }, t.2) :: rs, ?_, ?_, by simp [l2], ?_, by simp [d2]⟩
    · rw [List.map_cons]
      unfold divideEach
      simp only [hb, e, bind, Except.bind, pure, Except.pure]
    · intro x hx
      rcases List.mem_cons.mp hx with rfl | hx
      · exact ⟨q, ht.2⟩
      · exact h2 x hx
    · intro k u l d r
      cases k with
      | zero => exact hv u l d r
      | succ k => exact v2 k u l d r

/-- `appendToArchive`. -/
theorem appendImp_ok {net : ImpurityNet K} {s : HOTRGState K} (wf : WFStore s.st) {ts : List (DofTensor K)} (hn : net.impurities = ts.map some)
    (hs : Sites s.st V H ts) (c : K) :
    ∃ st' rs cs, net.append p s c = .ok ({ s with st := st' },
        { net with impurities := rs.map some, norms := net.norms ++ [c], archive := net.archive ++ [cs] }) ∧
      WFStore st' ∧ LegsUnchanged s.st st' ∧ Sites st' V H rs ∧ Sites st' V H cs ∧ rs.length = ts.length ∧ cs.length = ts.length ∧
      (∀ k, siteOf st' rs k = siteOf st' cs k) ∧ (∀ k u l d r, siteOf st' cs k u l d r = siteOf s.st ts k u l d r / c) ∧
      rs.map Prod.snd = ts.map Prod.snd := by
  obtain ⟨rs, e1, h1, l1, v1, d1⟩ := divideEach_ok c ts hs
  obtain ⟨st', cs, e2, w2, k2, h2, l2, v2, d2⟩ := copyTensors_ok (p := p) rs wf h1
  refine ⟨st', rs, cs, ?_, w2, k2, h1.kept k2, h2, l1, l2.trans l1, fun k => ?_, fun k u l d r => ?_, d1⟩
  · unfold ImpurityNet.append
    rw [hn]
    simp only [e1, e2, bind, Except.bind, pure, Except.pure]
  · rw [v2, siteOf_kept h1 k2]
  · rw [v2, v1]

end

/-! ### The `HOTRG` object -/

section
variable [Field K] [LinearOrder K] [Star K] {p : RGParams K} {V H : Nat} {A : Nat → Nat → Nat → Nat → K}

/-- One step of the archive. -/
structure ArchStep (p : RGParams K) (s : HOTRGState K) (i : Nat) (d : RGDir) (c : K) : Prop where
  choice : s.directChoices[i]? = some d
  projector : s.projectors[i]? = some (solveEnv p (s.envAt i d) (s.chi d)).1
  norm : s.aNorms[i + 1]? = some c
  v : s.dimV (i + 1) = mergedV (s.dimV i) (prjCols p (s.envAt i d) (s.chi d) (envSize (s.dimV i) (s.dimH i) d)) d
  h : s.dimH (i + 1) = mergedH (s.dimH i) (prjCols p (s.envAt i d) (s.chi d) (envSize (s.dimV i) (s.dimH i) d)) d
  val : ∀ u < s.dimV (i + 1), ∀ l < s.dimH (i + 1), ∀ d' < s.dimV (i + 1), ∀ r < s.dimH (i + 1), s.siteAt (i + 1) u l d' r =
    mergedSite (s.dimV i) (s.dimH i) (s.siteAt i) (s.siteAt i) (solveEnv p (s.envAt i d) (s.chi d)).1 d u l d' r / c
  zero : TriangleTRGState.TrueNorm p.norm → 0 ≤ c ∧ (c = 0 →
    ∀ u < s.dimV (i + 1), ∀ l < s.dimH (i + 1), ∀ d' < s.dimV (i + 1), ∀ r < s.dimH (i + 1),
      mergedSite (s.dimV i) (s.dimH i) (s.siteAt i) (s.siteAt i) (solveEnv p (s.envAt i d) (s.chi d)).1 d u l d' r = 0)

/-- What is known of the archive. -/
structure RGInv (p : RGParams K) (V H : Nat) (A : Nat → Nat → Nat → Nat → K) (s : HOTRGState K) : Prop where
  good : HGood p s
  projectors : s.projectors.length = s.directChoices.length
  norms : s.aNorms.length = s.directChoices.length + 1
  archive : s.aArchive.length = s.directChoices.length + 1
  sites : ∀ x ∈ s.aArchive, SquareSite s.st x.1
  last : ∀ x, s.aArchive[s.directChoices.length]? = some x → SameSite s.st s.a s.st x.1
  v : s.dimV 0 = V
  h : s.dimH 0 = H
  first : ∀ c, s.aNorms[0]? = some c → ∀ u l d r, s.siteAt 0 u l d r = A u l d r / c
  zero : TriangleTRGState.TrueNorm p.norm → ∀ c, s.aNorms[0]? = some c → 0 ≤ c ∧ (c = 0 → ∀ u l d r, A u l d r = 0)
  step : ∀ i < s.directChoices.length, ∃ d c, ArchStep p s i d c

/-- A tensor with an array of zeros. -/
theorem site_zero {t : Tensor K} {st : Store} {b : NDArray K} (e : t.a = some b) (h : ∀ x ∈ b.data, x = 0) (u l d r : Nat) : t.site st u l d r = 0 := by
  have hg : ∀ idx, b.get idx = 0 := by
    intro idx
    unfold NDArray.get
    rw [List.getD_eq_getElem?_getD]
    cases hx : b.data[ravel b.shape idx]? with
    | none => rfl
    | some x => exact h x (List.mem_of_getElem? hx)
  unfold Tensor.site Tensor.at entry
  rw [e]
  simp only [hg]
  repeat' split
  all_goals rfl

/-- The archive of `s` is the beginning of that of `s'`. -/
structure Grown (s s' : HOTRGState K) : Prop where
  kept : LegsUnchanged s.st s'.st
  archive : s.aArchive <+: s'.aArchive
  norms : s.aNorms <+: s'.aNorms
  choices : s.directChoices <+: s'.directChoices
  projectors : s.projectors <+: s'.projectors
  chi : s'.chiH = s.chiH ∧ s'.chiV = s.chiV

omit [Field K] [LinearOrder K] [Star K] in
theorem prefix_get {α : Type} {l l' : List α} (h : l <+: l') {i : Nat} (hi : i < l.length) : l'[i]? = l[i]? := by
  obtain ⟨t, rfl⟩ := h
  exact List.getElem?_append_left hi

theorem Used.grown {s s1 : HOTRGState K} (h : Used p s s1) : Grown s s1 := by
  obtain ⟨_, _, _, rfl, k, _⟩ := h
  exact ⟨k, List.prefix_rfl, List.prefix_rfl, List.prefix_rfl, List.prefix_rfl, rfl, rfl⟩

theorem Iterated.grown {s s' : HOTRGState K} {d : RGDir} (I : Iterated p s s' d) : Grown s s' := by
  obtain ⟨t, N, -⟩ := I.tensor
  obtain ⟨b, -, hn, -⟩ := N.a
  obtain ⟨c, ha, -⟩ := N.archive
  exact ⟨I.kept, ha ▸ List.prefix_append _ _, hn ▸ List.prefix_append _ _, I.choice ▸ List.prefix_append _ _,
    I.projector ▸ List.prefix_append _ _, I.chi⟩

section
variable {s s' : HOTRGState K} (G : Grown s s') (hs : ∀ x ∈ s.aArchive, SquareSite s.st x.1) {i : Nat} (hi : i < s.aArchive.length)
include G hs hi

theorem Grown.dimV : s'.dimV i = s.dimV i := by
  unfold HOTRGState.dimV
  rw [prefix_get G.archive hi, List.getElem?_eq_getElem hi]
  exact G.kept.dimOf (hs _ (List.getElem_mem hi)).labels.known _

theorem Grown.dimH : s'.dimH i = s.dimH i := by
  unfold HOTRGState.dimH
  rw [prefix_get G.archive hi, List.getElem?_eq_getElem hi]
  exact G.kept.dimOf (hs _ (List.getElem_mem hi)).labels.known _

theorem Grown.siteAt : s'.siteAt i = s.siteAt i := by
  unfold HOTRGState.siteAt
  rw [prefix_get G.archive hi, List.getElem?_eq_getElem hi]
  exact (hs _ (List.getElem_mem hi)).site_kept G.kept

theorem Grown.envAt (d : RGDir) : s'.envAt i d = s.envAt i d := by
  unfold HOTRGState.envAt
  rw [G.dimV hs hi, G.dimH hs hi, G.siteAt hs hi]

end

theorem Grown.chiOf {s s' : HOTRGState K} (G : Grown s s') (d : RGDir) : s'.chi d = s.chi d := by
  unfold HOTRGState.chi
  rw [G.chi.1, G.chi.2]

theorem ArchStep.grown {s s' : HOTRGState K} (G : Grown s s') (hs : ∀ x ∈ s.aArchive, SquareSite s.st x.1) {i : Nat} {d : RGDir} {c : K}
    (ha : s.aArchive.length = s.directChoices.length + 1) (h : ArchStep p s i d c) : ArchStep p s' i d c := by
  have hi : i < s.directChoices.length := (List.getElem?_eq_some_iff.mp h.choice).1
  have h0 : i < s.aArchive.length := by omega
  have h1 : i + 1 < s.aArchive.length := by omega
  refine ⟨?_, ?_, ?_, ?_, ?_, ?_, ?_⟩
  · rw [prefix_get G.choices hi, h.choice]
  · rw [prefix_get G.projectors (List.getElem?_eq_some_iff.mp h.projector).1, h.projector, G.envAt hs h0, G.chiOf]
  · rw [prefix_get G.norms (List.getElem?_eq_some_iff.mp h.norm).1, h.norm]
  · rw [G.envAt hs h0, G.chiOf, G.dimV hs h0, G.dimH hs h0, G.dimV hs h1, h.v]
  · rw [G.envAt hs h0, G.chiOf, G.dimV hs h0, G.dimH hs h0, G.dimH hs h1, h.h]
  · rw [G.envAt hs h0, G.chiOf, G.dimV hs h0, G.dimH hs h0, G.siteAt hs h0, G.siteAt hs h1, G.dimV hs h1, G.dimH hs h1]
    exact h.val
  · rw [G.envAt hs h0, G.chiOf, G.dimV hs h0, G.dimH hs h0, G.siteAt hs h0, G.dimV hs h1, G.dimH hs h1]
    exact h.zero

theorem RGInv.used {s s1 : HOTRGState K} (R : RGInv p V H A s) (h : Used p s s1) : RGInv p V H A s1 := by
  have G := h.grown
  have g := h.good R.good
  obtain ⟨st1, h1, v1, rfl, k1, w1, n1, m1⟩ := h
  have hz : 0 < s.aArchive.length := by rw [R.archive]; omega
  refine ⟨g, R.projectors, R.norms, R.archive, fun x hx => (R.sites x hx).kept k1, fun x hx => ?_, ?_, ?_, ?_, R.zero, fun i hi => ?_⟩
  · have S := R.last x hx
    have q := R.sites x (List.mem_of_getElem? hx)
    refine ⟨?_, ?_, fun u l d r => ?_⟩
    · show x.1.dimOf st1 _ = s.a.dimOf st1 _
      rw [k1.dimOf q.labels.known, k1.dimOf R.good.a.labels.known, S.v]
    · show x.1.dimOf st1 _ = s.a.dimOf st1 _
      rw [k1.dimOf q.labels.known, k1.dimOf R.good.a.labels.known, S.h]
    · show x.1.site st1 u l d r = s.a.site st1 u l d r
      rw [q.site_kept k1, R.good.a.site_kept k1, S.val]
  · rw [G.dimV R.sites hz, R.v]
  · rw [G.dimH R.sites hz, R.h]
  · intro c hc u l d r
    rw [G.siteAt R.sites hz]
    exact R.first c hc u l d r
  · obtain ⟨d, c, h⟩ := R.step i hi
    exact ⟨d, c, h.grown G R.sites R.archive⟩

theorem RGInv.iterated (he : ExactEigh p.eigh) {s s' : HOTRGState K} {d : RGDir} (R : RGInv p V H A s) (g' : HGood p s') (I : Iterated p s s' d) : RGInv p V H A s' := by
  have G := I.grown
  obtain ⟨t, N, ht⟩ := I.tensor
  obtain ⟨b, hb, hn, -, hs⟩ := N.a
  obtain ⟨c, ha, hq, hS⟩ := N.archive
  have hz : 0 < s.aArchive.length := by rw [R.archive]; omega
  have hlen : s'.directChoices.length = s.directChoices.length + 1 := by rw [I.choice]; simp
  have hnew : s'.aArchive[s.directChoices.length + 1]? = some (c, s'.dof) := by
    rw [ha, List.getElem?_append_right (by rw [R.archive]), R.archive, Nat.sub_self]
    rfl
  have hold : s.directChoices.length < s.aArchive.length := by rw [R.archive]; omega
  refine ⟨g', ?_, ?_, ?_, ?_, ?_, ?_, ?_, ?_, ?_, ?_⟩
  · rw [hlen, I.projector]; simp [R.projectors]
  · rw [hlen, hn]; simp [R.norms]
  · rw [hlen, ha]; simp [R.archive]
  · intro x hx
    rw [ha] at hx
    rcases List.mem_append.mp hx with hx | hx
    · exact (R.sites x hx).kept I.kept
    · obtain rfl := List.mem_singleton.mp hx
      exact hq
  · intro x hx
    rw [hlen, hnew] at hx
    obtain rfl := Option.some.inj hx
    exact hS
  · rw [G.dimV R.sites hz, R.v]
  · rw [G.dimH R.sites hz, R.h]
  · intro c hc u l d r
    rw [G.siteAt R.sites hz]
    rw [prefix_get G.norms (by rw [R.norms]; omega)] at hc
    exact R.first c hc u l d r
  · intro ht c hc
    rw [prefix_get G.norms (by rw [R.norms]; omega)] at hc
    exact R.zero ht c hc
  · intro i hi
    rw [hlen] at hi
    rcases Nat.lt_succ_iff_lt_or_eq.mp hi with hi | rfl
    · obtain ⟨d, c, h⟩ := R.step i hi
      exact ⟨d, c, h.grown G R.sites R.archive⟩
    · obtain ⟨x, hx⟩ : ∃ x, s.aArchive[s.directChoices.length]? = some x := ⟨_, List.getElem?_eq_getElem hold⟩
      have S := R.last x hx
      have eV : s.dimV s.directChoices.length = s.a.dimOf s.st "u" := by
        unfold HOTRGState.dimV
        rw [hx]
        exact S.v
      have eH : s.dimH s.directChoices.length = s.a.dimOf s.st "l" := by
        unfold HOTRGState.dimH
        rw [hx]
        exact S.h
      have eA : s.siteAt s.directChoices.length = s.a.site s.st := by
        unfold HOTRGState.siteAt
        rw [hx]
        funext u l d r
        exact S.val u l d r
      have eE : s.envAt s.directChoices.length d = s.env d := by
        unfold HOTRGState.envAt HOTRGState.env
        rw [eV, eH, eA]
      have nV : s'.dimV (s.directChoices.length + 1) = s'.a.dimOf s'.st "u" := by
        unfold HOTRGState.dimV
        rw [hnew]
        exact hS.v
      have nH : s'.dimH (s.directChoices.length + 1) = s'.a.dimOf s'.st "l" := by
        unfold HOTRGState.dimH
        rw [hnew]
        exact hS.h
      have nA : s'.siteAt (s.directChoices.length + 1) = s'.a.site s'.st := by
        unfold HOTRGState.siteAt
        rw [hnew]
        funext u l d r
        exact hS.val u l d r
      obtain ⟨-, sp, -⟩ := solveEnv_prj (envMatrix_eigh he (s.a.dimOf s.st "u") (s.a.dimOf s.st "l") (s.a.site s.st) d) (s.chi d)
      have hk : (s.projectorOf p d).shape.getD 1 0 =
          prjCols p (s.env d) (s.chi d) (envSize (s.a.dimOf s.st "u") (s.a.dimOf s.st "l") d) := by
        show (solveEnv p (s.env d) (s.chi d)).1.shape.getD 1 0 = _
        unfold HOTRGState.env
        rw [sp]
        rfl
      refine ⟨d, p.norm b, ?_, ?_, ?_, ?_, ?_, ?_, ?_⟩
      · rw [I.choice, List.getElem?_append_right le_rfl, Nat.sub_self]
        rfl
      · rw [I.projector, G.envAt R.sites hold, G.chiOf, eE, ← R.projectors, List.getElem?_append_right le_rfl, Nat.sub_self]
        rfl
      · rw [hn, List.getElem?_append_right (by rw [R.norms]), R.norms, Nat.sub_self]
        rfl
      · rw [nV, I.v, G.envAt R.sites hold, G.chiOf, G.dimV R.sites hold, G.dimH R.sites hold, eE, eV, eH, hk]
      · rw [nH, I.h, G.envAt R.sites hold, G.chiOf, G.dimV R.sites hold, G.dimH R.sites hold, eE, eV, eH, hk]
      · rw [nV, nH, nA, G.envAt R.sites hold, G.chiOf, G.dimV R.sites hold, G.dimH R.sites hold, G.siteAt R.sites hold, eE, eV, eH, eA]
        intro u hu l hl d' hd' r hr
        rw [hs, ht u hu l hl d' hd' r hr]
        rfl
      · rw [nV, nH, G.envAt R.sites hold, G.chiOf, G.dimV R.sites hold, G.dimH R.sites hold, G.siteAt R.sites hold, eE, eV, eH, eA]
        exact fun htn => ⟨(htn b).1, fun h0 u hu l hl d' hd' r hr => (ht u hu l hl d' hd' r hr).symm.trans (site_zero hb ((htn b).2 h0) u l d' r)⟩

theorem Started.inv {st : Store} {dof : Option Nat} {chiH : Nat} {chiV : Option Nat} {s : HOTRGState K} (g : HGood p s)
    (S : Started p st V H A dof chiH chiV s) : RGInv p V H A s := by
  obtain ⟨t, N, ht⟩ := S.tensor
  obtain ⟨b0, hb, hn, -, hs⟩ := N.a
  have hn : s.aNorms = [p.norm b0] := hn
  obtain ⟨c, ha, hq, hS⟩ := N.archive
  have ha : s.aArchive = [(c, s.dof)] := ha
  refine ⟨g, by rw [S.empty.2.1, S.empty.2.2]; rfl, by rw [hn, S.empty.2.1]; rfl, by rw [ha, S.empty.2.1]; rfl, ?_, ?_, ?_, ?_, ?_, ?_, ?_⟩
  · intro x hx
    rw [ha] at hx
    obtain rfl := List.mem_singleton.mp hx
    exact hq
  · intro x hx
    rw [S.empty.2.1, ha] at hx
    obtain rfl := Option.some.inj hx
    exact hS
  · unfold HOTRGState.dimV
    rw [ha]
    exact hS.v.trans S.v
  · unfold HOTRGState.dimH
    rw [ha]
    exact hS.h.trans S.h
  · intro x hx u l d r
    rw [hn] at hx
    obtain rfl := Option.some.inj hx
    unfold HOTRGState.siteAt
    rw [ha]
    show c.site s.st u l d r = _
    rw [hS.val, hs, ht]
  · intro htn x hx
    rw [hn] at hx
    obtain rfl := Option.some.inj hx
    exact ⟨(htn b0).1, fun h0 u l d r => (ht u l d r).symm.trans (site_zero hb ((htn b0).2 h0) u l d r)⟩
  · intro i hi
    rw [S.empty.2.1] at hi
    exact absurd hi (Nat.not_lt_zero i)

end

/-! ### The impurities -/

section
variable [Field K] [LinearOrder K] [Star K] {p : RGParams K} {V H : Nat} {A : Nat → Nat → Nat → Nat → K} {src : ImpSource K}

/-- What is known before `initialize`. -/
structure ImpFresh (V H : Nat) (s : HOTRGState K) (src : ImpSource K) (net : ImpurityNet K) : Prop where
  order : net.highestOrder = src.order
  init : net.initialized = false
  idx : net.iterateIdx = 0
  archive : net.archive = []
  norms : net.norms = []
  now : ∃ ts, net.impurities = ts.map some ∧ ts.length = src.order ∧ Sites s.st V H ts ∧ (∀ k < src.order, siteOf s.st ts k = src.A k) ∧
    ∀ x, ts[0]? = some x → x.2 = src.dof

/-- What is known afterwards. -/
structure ImpActive (s : HOTRGState K) (src : ImpSource K) (net : ImpurityNet K) : Prop where
  order : net.highestOrder = src.order
  init : net.initialized = true
  idx : net.iterateIdx ≤ s.directChoices.length
  archive : net.archive.length = net.iterateIdx + 1
  norms : net.norms = s.aNorms.take (net.iterateIdx + 1)
  now : ∃ ts, net.impurities = ts.map some ∧ ts.length = src.order ∧ Sites s.st (s.dimV net.iterateIdx) (s.dimH net.iterateIdx) ts ∧
    (∀ k, siteOf s.st ts k = net.siteAt s.st net.iterateIdx k) ∧ ∀ x, ts[0]? = some x → x.2 = src.dof.map (2 ^ net.iterateIdx * ·)
  all : ∀ i cs, net.archive[i]? = some cs → cs.length = src.order ∧ Sites s.st (s.dimV i) (s.dimH i) cs
  first : ∀ c, s.aNorms[0]? = some c → ∀ k < src.order, ∀ u l d r, net.siteAt s.st 0 k u l d r = src.A k u l d r / c
  step : ∀ i < net.iterateIdx, ∀ d P c, s.directChoices[i]? = some d → s.projectors[i]? = some P → s.aNorms[i + 1]? = some c →
    ∀ k < src.order, ∀ u < s.dimV (i + 1), ∀ l < s.dimH (i + 1), ∀ d' < s.dimV (i + 1), ∀ r < s.dimH (i + 1),
      net.siteAt s.st (i + 1) k u l d' r =
        (1 / 2) ^ k * pairOrders (fun X Y => mergedSite (s.dimV i) (s.dimH i) X Y P d) (net.siteAt s.st i) k u l d' r / c

/-- One or the other. -/
def ImpInv (V H : Nat) (s : HOTRGState K) (src : ImpSource K) (net : ImpurityNet K) : Prop := ImpFresh V H s src net ∨ ImpActive s src net

theorem netSite_kept {s : HOTRGState K} {net : ImpurityNet K} {st' : Store} (R : ImpActive s src net) (hk : LegsUnchanged s.st st') (i k : Nat) :
    net.siteAt st' i k = net.siteAt s.st i k := by
  unfold ImpurityNet.siteAt
  rw [List.getD_eq_getElem?_getD]
  cases e : net.archive[i]? with
  | none => rfl
  | some cs => exact siteOf_kept (R.all i cs e).2 hk k

theorem ImpFresh.grown {s s' : HOTRGState K} {net : ImpurityNet K} (G : Grown s s') (h : ImpFresh V H s src net) : ImpFresh V H s' src net := by
  obtain ⟨ts, e, l, q, v, d⟩ := h.now
  exact ⟨h.order, h.init, h.idx, h.archive, h.norms, ts, e, l, q.kept G.kept, fun k hk => by rw [siteOf_kept q G.kept, v k hk], d⟩

theorem ImpActive.grown {s s' : HOTRGState K} {net : ImpurityNet K} (R : RGInv p V H A s) (G : Grown s s') (h : ImpActive s src net) :
    ImpActive s' src net := by
  have hb : ∀ i, i ≤ net.iterateIdx → i < s.aArchive.length := fun i hi => by have := h.idx; rw [R.archive]; omega
  have hlen : s.directChoices.length ≤ s'.directChoices.length := G.choices.length_le
  have hV := fun i hi => G.dimV R.sites (hb i hi)
  have hH := fun i hi => G.dimH R.sites (hb i hi)
  have hS := netSite_kept h G.kept
  refine ⟨h.order, h.init, h.idx.trans hlen, h.archive, ?_, ?_, ?_, ?_, ?_⟩
  · obtain ⟨t, ht⟩ := G.norms
    rw [← ht, List.take_append_of_le_length (by have := h.idx; rw [R.norms]; omega), h.norms]
  · obtain ⟨ts, e, l, q, v, d⟩ := h.now
    refine ⟨ts, e, l, ?_, fun k => ?_, d⟩
    · rw [hV _ le_rfl, hH _ le_rfl]
      exact q.kept G.kept
    · rw [hS, siteOf_kept q G.kept, v]
  · intro i cs hi
    have hi' : i ≤ net.iterateIdx := by
      have := (List.getElem?_eq_some_iff.mp hi).1
      rw [h.archive] at this
      omega
    rw [hV i hi', hH i hi']
    exact ⟨(h.all i cs hi).1, (h.all i cs hi).2.kept G.kept⟩
  · intro c hc
    rw [prefix_get G.norms (by rw [R.norms]; omega)] at hc
    rw [funext (hS 0)]
    exact h.first c hc
  · intro i hi d P c hd hP hc
    have hi2 := h.idx
    rw [prefix_get G.norms (by rw [R.norms]; omega)] at hc
    rw [prefix_get G.choices (by omega)] at hd
    rw [prefix_get G.projectors (by rw [R.projectors]; omega)] at hP
    rw [hV _ hi, hH _ hi, hV _ hi.le, hH _ hi.le, funext (hS i), funext (hS (i + 1))]
    exact h.step i hi d P c hd hP hc

theorem ImpInv.grown {s s' : HOTRGState K} {net : ImpurityNet K} (R : RGInv p V H A s) (G : Grown s s') (h : ImpInv V H s src net) :
    ImpInv V H s' src net := h.imp (·.grown G) (·.grown R G)

theorem used_store {s : HOTRGState K} (g : HGood p s) {st' : Store} (w : WFStore st') (k : LegsUnchanged s.st st') : Used p s { s with st := st' } :=
  ⟨st', _, _, rfl, k, w, g.horizontal, g.vertical⟩

/-- `__init__`. -/
theorem newImp_ok {s : HOTRGState K} (g : HGood p s) {ts : List (DofTensor K)} (hs : Sites s.st V H ts) {order : Option Nat}
    (ho : order.getD ts.length ≤ ts.length) :
    ∃ st' net, ImpurityNet.new p s.st ts order = .ok (st', net) ∧ Used p s { s with st := st' } ∧
      ImpFresh V H { s with st := st' } (impSource s.st ts order) net := by
  obtain ⟨st', cs, e, w, k, h, l, v, d⟩ := copyTensors_ok (p := p) ts g.wf hs
  refine ⟨st', _, by unfold ImpurityNet.new; simp only [e, bind, Except.bind, pure, Except.pure]; rfl, used_store g w k, rfl, rfl, rfl, rfl, rfl,
    cs.take (order.getD ts.length), ?_, ?_, ?_, ?_, ?_⟩
  · show (if order.getD ts.length < (cs.map some).length then _ else _) = _
    rw [List.length_map, l]
    split
    · rw [List.map_take]
    · have : order.getD ts.length = ts.length := by omega
      rw [this, ← l, Nat.sub_self, List.take_length, List.replicate_zero, List.append_nil]
  · rw [List.length_take, l]
    exact Nat.min_eq_left ho
  · exact fun x hx => h x (List.mem_of_mem_take hx)
  · intro j hj
    show siteOf st' _ j = siteOf s.st ts j
    rw [← v]
    unfold siteOf
    rw [List.getElem?_take_of_lt (show j < order.getD ts.length from hj)]
  · intro x hx
    show x.2 = (ts[0]?).bind Prod.snd
    have h0 : cs[0]? = some x := by
      by_cases hz : 0 < order.getD ts.length
      · rwa [List.getElem?_take_of_lt hz] at hx
      · rw [Nat.le_zero.mp (Nat.le_of_not_lt hz)] at hx
        cases hx
    have hd := congrArg (fun l => l[0]?) d
    simp only [List.getElem?_map, h0] at hd
    cases et : ts[0]? with
    | none =>
      rw [et] at hd
      cases hd
    | some t =>
      rw [et] at hd
      exact Option.some.inj hd

theorem getNormOf {s : HOTRGState K} {i : Nat} {c : K} (h : s.aNorms[i]? = some c) : s.getNorm i = .ok c := by
  unfold HOTRGState.getNorm
  rw [if_pos (List.getElem?_eq_some_iff.mp h).1]
  exact pyGet_of_getElem? h

/-- `initialize`. -/
theorem init_ok {s : HOTRGState K} {net : ImpurityNet K} (R : RGInv p V H A s) (h : ImpFresh V H s src net) :
    ∃ s' net', net.init p s = .ok (s', net') ∧ Used p s s' ∧ ImpActive s' src net' ∧ net'.iterateIdx = 0 := by
  obtain ⟨ts, e, l, q, v, d⟩ := h.now
  obtain ⟨c, hc⟩ : ∃ c, s.aNorms[0]? = some c := ⟨_, List.getElem?_eq_getElem (by rw [R.norms]; omega)⟩
  obtain ⟨st', rs, cs, e1, w, k, q1, q2, l1, l2, v1, v2, d1⟩ := appendImp_ok (p := p) R.good.wf e q c
  have U := used_store R.good w k
  have G := U.grown
  have hz : 0 < s.aArchive.length := by rw [R.archive]; omega
  have hV : ({ s with st := st' } : HOTRGState K).dimV 0 = V := (G.dimV R.sites hz).trans R.v
  have hH : ({ s with st := st' } : HOTRGState K).dimH 0 = H := (G.dimH R.sites hz).trans R.h
  have ha : net.archive ++ [cs] = [cs] := by rw [h.archive]; rfl
  refine ⟨{ s with st := st' },
    { net with impurities := rs.map some, norms := net.norms ++ [c], archive := net.archive ++ [cs], initialized := true }, ?_, U, ?_, h.idx⟩
  · unfold ImpurityNet.init
    simp only [getNormOf hc, e1, bind, Except.bind, pure, Except.pure]
  · refine ⟨h.order, rfl, ?_, ?_, ?_, ?_, ?_, ?_, ?_⟩
    · show net.iterateIdx ≤ _
      rw [h.idx]
      exact Nat.zero_le _
    · show (net.archive ++ [cs]).length = net.iterateIdx + 1
      rw [ha, h.idx]
      rfl
    · show net.norms ++ [c] = s.aNorms.take (net.iterateIdx + 1)
      rw [h.norms, h.idx, List.take_add_one, hc]
      rfl
    · refine ⟨rs, rfl, l1.trans l, ?_, ?_, ?_⟩
      · show Sites st' (HOTRGState.dimV _ net.iterateIdx) (HOTRGState.dimH _ net.iterateIdx) rs
        rw [h.idx, hV, hH]
        exact q1
      · intro k
        show _ = siteOf st' ((net.archive ++ [cs]).getD net.iterateIdx []) k
        rw [ha, h.idx]
        exact v1 k
      · intro x hx
        show x.2 = src.dof.map (2 ^ net.iterateIdx * ·)
        have hd := congrArg (fun l => l[0]?) d1
        simp only [List.getElem?_map, hx] at hd
        cases et : ts[0]? with
        | none =>
          rw [et] at hd
          cases hd
        | some t =>
          rw [et] at hd
          rw [h.idx, Option.some.inj hd, d t et]
          cases src.dof <;> simp
    · intro i xs hi
      change (net.archive ++ [cs])[i]? = some xs at hi
      rw [ha] at hi
      cases i with
      | succ i => simp at hi
      | zero =>
        obtain rfl := Option.some.inj hi
        rw [hV, hH]
        exact ⟨l2.trans l, q2⟩
    · intro c' hc' k hk u l d r
      obtain rfl : c = c' := Option.some.inj (hc.symm.trans hc')
      show siteOf st' ((net.archive ++ [cs]).getD 0 []) k u l d r = _
      rw [ha]
      show siteOf st' cs k u l d r = _
      rw [v2, v k hk]
    · intro i hi
      change i < net.iterateIdx at hi
      rw [h.idx] at hi
      exact absurd hi (Nat.not_lt_zero i)

/-- The first two lines of `iterate`. -/
theorem ensure_ok {s : HOTRGState K} {net : ImpurityNet K} (R : RGInv p V H A s) (h : ImpInv V H s src net) :
    ∃ s' net', net.ensure p s = .ok (s', net') ∧ Used p s s' ∧ ImpActive s' src net' ∧ net'.iterateIdx = net.iterateIdx := by
  rcases h with h | h
  · obtain ⟨s', net', e, U, I, hi⟩ := init_ok R h
    refine ⟨s', net', ?_, U, I, hi.trans h.idx.symm⟩
    unfold ImpurityNet.ensure
    rw [if_neg (by rw [h.init]; decide)]
    exact e
  · refine ⟨s, net, ?_, .refl R.good, h, rfl⟩
    unfold ImpurityNet.ensure
    rw [if_pos h.init]

theorem newDOF_ok {net : ImpurityNet K} {ts : List (DofTensor K)} (e : net.impurities = ts.map some) {x : DofTensor K} (hx : ts[0]? = some x) {n : Nat}
    (hn : x.2 = some n) : net.newDOF = .ok (2 * n) := by
  obtain ⟨t, dof⟩ := x
  obtain rfl : dof = some n := hn
  have : pyGet net.impurities 0 = .ok (some (t, some n)) := by
    have := pyGet_of_getElem? (l := net.impurities) (i := 0) (x := some (t, some n)) (by rw [e, List.getElem?_map, hx]; rfl)
    exact this
  unfold ImpurityNet.newDOF
  simp only [this, bind, Except.bind]
  rfl

variable [TrivialStar K] [IsStrictOrderedRing K]

/-- `iterate`, after `initialize`. -/
theorem iterateImp_ok (he : ExactEigh p.eigh) {s : HOTRGState K} {net : ImpurityNet K} (R : RGInv p V H A s) (h : ImpActive s src net)
    (hi : net.iterateIdx < s.directChoices.length) (h0 : src.order ≠ 0) {n : Nat} (hdof : src.dof = some n) :
    ∃ s' net', Settles (fun fuel => net.iterate p fuel s) (s', net') ∧ Used p s s' ∧ ImpActive s' src net' ∧
      net'.iterateIdx = net.iterateIdx + 1 := by
  obtain ⟨ts, e, l, q, v, dt⟩ := h.now
  obtain ⟨d, c, S⟩ := R.step _ hi
  have hb : ∀ i, i ≤ net.iterateIdx + 1 → i < s.aArchive.length := fun i hi' => by rw [R.archive]; omega
  obtain ⟨t0, ht0⟩ : ∃ x, ts[0]? = some x := ⟨_, List.getElem?_eq_getElem (by omega)⟩
  have hV : s.dimV net.iterateIdx ≠ 0 := by
    have := q t0 (List.mem_of_getElem? ht0)
    rw [← this.2.1]
    exact dimOf_pos this.1.labels (by decide) (by decide)
  have hH : s.dimH net.iterateIdx ≠ 0 := by
    have := q t0 (List.mem_of_getElem? ht0)
    rw [← this.2.2]
    exact dimOf_pos this.1.labels (by decide) (by decide)
  have hn : envSize (s.dimV net.iterateIdx) (s.dimH net.iterateIdx) d ≠ 0 := by
    unfold envSize
    split
    · exact Nat.mul_ne_zero hH hH
    · exact Nat.mul_ne_zero hV hV
  obtain ⟨wp, sp, -⟩ := solveEnv_prj (envMatrix_eigh he (s.dimV net.iterateIdx) (s.dimH net.iterateIdx) (s.siteAt net.iterateIdx) d) (s.chi d)
  have hdof' : net.newDOF = .ok (2 * (2 ^ net.iterateIdx * n)) := newDOF_ok e ht0 (by rw [dt t0 ht0, hdof]; rfl)
  obtain ⟨s1, rs, e1, U1, l1, d1, q1, v1⟩ := orders_settle R.good S.choice S.projector wp sp (prjCols_pos hn _) hV hH q (2 * (2 ^ net.iterateIdx * n))
    (List.range src.order) (fun i hi => by rw [l]; exact List.mem_range.mp hi)
  have R1 := R.used U1
  obtain ⟨st', rs', cs, e2, w, k, q2, q3, l2, l3, v2, v3, d2⟩ := appendImp_ok (p := p)
    (net := { net with iterateIdx := net.iterateIdx + 1, impurities := rs.map some }) R1.good.wf rfl q1 c
  have U := U1.trans (used_store R1.good w k)
  have G := U.grown
  have h' := h.grown R G
  have hV' := fun i hi => G.dimV R.sites (hb i hi)
  have hH' := fun i hi => G.dimH R.sites (hb i hi)
  have hch : ({ s1 with st := st' } : HOTRGState K).directChoices = s.directChoices := by
    obtain ⟨_, _, _, rfl, _⟩ := U1
    rfl
  have hprj : ({ s1 with st := st' } : HOTRGState K).projectors = s.projectors := by
    obtain ⟨_, _, _, rfl, _⟩ := U1
    rfl
  have hnorms : ({ s1 with st := st' } : HOTRGState K).aNorms = s.aNorms := by
    obtain ⟨_, _, _, rfl, _⟩ := U1
    rfl
  have hlen : rs.length = src.order := by rw [l1, List.length_range]
  have hget : (net.archive ++ [cs])[net.iterateIdx + 1]? = some cs := by
    rw [List.getElem?_append_right (by rw [h.archive]), h.archive, Nat.sub_self]
    rfl
  have hold : ∀ i, i ≤ net.iterateIdx → (net.archive ++ [cs])[i]? = net.archive[i]? := fun i hi =>
    List.getElem?_append_left (by rw [h.archive]; omega)
  generalize hs' : ({ s1 with st := st' } : HOTRGState K) = s' at *
  have hst : s'.st = st' := by rw [← hs']
  subst hst
  refine ⟨s', { net with impurities := rs'.map some, norms := net.norms ++ [c], archive := net.archive ++ [cs], iterateIdx := net.iterateIdx + 1 },
    ?_, U, ⟨h.order, h.init, ?_, ?_, ?_, ?_, ?_, ?_, ?_⟩, rfl⟩
  · unfold ImpurityNet.iterate ImpurityNet.ensure
    simp only [if_pos h.init, getNormOf S.norm, hdof', bind, Except.bind]
    rw [← e, ← h.order] at e1
    exact e1.bind (Settles.const e2)
  · rw [hch]
    exact hi
  · show (net.archive ++ [cs]).length = net.iterateIdx + 1 + 1
    simp [h.archive]
  · show net.norms ++ [c] = s'.aNorms.take (net.iterateIdx + 1 + 1)
    rw [hnorms, List.take_add_one, S.norm, h.norms]
    rfl
  · refine ⟨rs', rfl, l2.trans hlen, ?_, ?_, ?_⟩
    · show Sites s'.st (s'.dimV (net.iterateIdx + 1)) (s'.dimH (net.iterateIdx + 1)) rs'
      rw [hV' _ le_rfl, hH' _ le_rfl, S.v, S.h]
      exact q2
    · intro k
      show _ = siteOf s'.st ((net.archive ++ [cs]).getD (net.iterateIdx + 1) []) k
      rw [List.getD_eq_getElem?_getD, hget]
      exact v2 k
    · intro x hx
      have hd := congrArg (fun l => l[0]?) d2
      simp only [List.getElem?_map, hx] at hd
      cases et : rs[0]? with
      | none =>
        rw [et] at hd
        cases hd
      | some t =>
        rw [et] at hd
        rw [Option.some.inj hd, d1 t (List.mem_of_getElem? et), hdof]
        show some _ = some _
        congr 1
        show _ = 2 ^ (net.iterateIdx + 1) * n
        rw [pow_succ]
        ring
  · intro i xs hx
    change (net.archive ++ [cs])[i]? = some xs at hx
    rcases Nat.lt_trichotomy i (net.iterateIdx + 1) with hlt | rfl | hgt
    · rw [hold i (by omega)] at hx
      exact h'.all i xs hx
    · rw [hget] at hx
      obtain rfl := Option.some.inj hx
      rw [hV' _ le_rfl, hH' _ le_rfl, S.v, S.h]
      exact ⟨l3.trans hlen, q3⟩
    · rw [List.getElem?_eq_none (by simp [h.archive]; omega)] at hx
      cases hx
  · intro c' hc'
    show ∀ k < src.order, ∀ u l d r, siteOf s'.st ((net.archive ++ [cs]).getD 0 []) k u l d r = _
    rw [List.getD_eq_getElem?_getD, hold 0 (Nat.zero_le _), ← List.getD_eq_getElem?_getD]
    exact h'.first c' hc'
  · intro i hi' d' P' c' hd' hP' hc'
    change i < net.iterateIdx + 1 at hi'
    show ∀ k < src.order, ∀ u < s'.dimV (i + 1), ∀ l < s'.dimH (i + 1), ∀ d0 < s'.dimV (i + 1), ∀ r < s'.dimH (i + 1),
      siteOf s'.st ((net.archive ++ [cs]).getD (i + 1) []) k u l d0 r =
        (1 / 2) ^ k * pairOrders (fun X Y => mergedSite (s'.dimV i) (s'.dimH i) X Y P' d') (fun k => siteOf s'.st ((net.archive ++ [cs]).getD i []) k)
          k u l d0 r / c'
    rcases Nat.lt_succ_iff_lt_or_eq.mp hi' with hlt | rfl
    · rw [List.getD_eq_getElem?_getD, List.getD_eq_getElem?_getD, hold (i + 1) hlt, hold i hlt.le, ← List.getD_eq_getElem?_getD,
        ← List.getD_eq_getElem?_getD]
      exact h'.step i hlt d' P' c' hd' hP' hc'
    · rw [hch, S.choice] at hd'
      rw [hprj, S.projector] at hP'
      rw [hnorms, S.norm] at hc'
      obtain rfl := Option.some.inj hd'
      obtain rfl := Option.some.inj hP'
      obtain rfl := Option.some.inj hc'
      rw [List.getD_eq_getElem?_getD, List.getD_eq_getElem?_getD, hget, hold net.iterateIdx le_rfl, hV' _ le_rfl, hH' _ le_rfl,
        hV' _ (by omega), hH' _ (by omega), S.v, S.h]
      intro k' hk' u hu l' hl' d0 hd0 r hr
      show siteOf s'.st cs k' u l' d0 r = _
      rw [v3, v1 k' k' (by rw [List.getElem?_range hk']) u hu l' hl' d0 hd0 r hr]
      have : siteOf s.st ts = fun k => siteOf s'.st (net.archive[net.iterateIdx]?.getD []) k := by
        funext k
        rw [v k, ← List.getD_eq_getElem?_getD]
        exact (netSite_kept h G.kept net.iterateIdx k).symm
      rw [this]

omit [TrivialStar K] [IsStrictOrderedRing K] in
theorem iterate_ensured {s s' : HOTRGState K} {net net' : ImpurityNet K} (e : net.ensure p s = .ok (s', net')) (hi : net'.initialized = true)
    (fuel : Nat) : net.iterate p fuel s = net'.iterate p fuel s' := by
  have : net'.ensure p s' = .ok (s', net') := by
    unfold ImpurityNet.ensure
    rw [if_pos hi]
  unfold ImpurityNet.iterate
  simp only [e, this, bind, Except.bind]

omit [TrivialStar K] [IsStrictOrderedRing K] in
/-- Without another step of the `RG`. -/
theorem iterateImp_last {s : HOTRGState K} {net : ImpurityNet K} (R : RGInv p V H A s) (h : ImpActive s src net)
    (hi : net.iterateIdx = s.directChoices.length) (fuel : Nat) : net.iterate p fuel s = .error .assertionError := by
  have hn : s.getNorm (net.iterateIdx + 1) = .error .assertionError := by
    unfold HOTRGState.getNorm
    rw [if_neg (by rw [R.norms]; omega)]
  unfold ImpurityNet.iterate ImpurityNet.ensure
  simp only [if_pos h.init, hn, bind, Except.bind]

omit [TrivialStar K] [IsStrictOrderedRing K] in
/-- Without `degreeOfFreedom`, or without impurities. -/
theorem iterateImp_bad {s : HOTRGState K} {net : ImpurityNet K} (R : RGInv p V H A s) (h : ImpActive s src net)
    (hi : net.iterateIdx < s.directChoices.length) (hb : src.order = 0 ∨ src.dof = none) (fuel : Nat) :
    net.iterate p fuel s = .error (if src.order = 0 then .indexError else .typeError) := by
  obtain ⟨c, hc⟩ : ∃ c, s.aNorms[net.iterateIdx + 1]? = some c := ⟨_, List.getElem?_eq_getElem (by rw [R.norms]; omega)⟩
  obtain ⟨ts, e, l, q, v, dt⟩ := h.now
  have hd : net.newDOF = .error (if src.order = 0 then .indexError else .typeError) := by
    unfold ImpurityNet.newDOF
    rw [e]
    cases ts with
    | nil =>
      rw [if_pos (show src.order = 0 from l.symm)]
      rfl
    | cons t ts =>
      rw [if_neg (by rw [← l]; simp)]
      have hn : src.dof = none := hb.resolve_left (by rw [← l]; simp)
      have := dt t rfl
      rw [hn] at this
      obtain ⟨x, dof⟩ := t
      obtain rfl : dof = none := this
      rfl
  unfold ImpurityNet.iterate ImpurityNet.ensure
  simp only [if_pos h.init, getNormOf hc, hd, bind, Except.bind]

/-- Any call of `iterate` that succeeds. -/
theorem iterateImp_settled (he : ExactEigh p.eigh) {s s2 : HOTRGState K} {net net2 : ImpurityNet K} (R : RGInv p V H A s) (h : ImpInv V H s src net)
    (e : Settles (fun fuel => net.iterate p fuel s) (s2, net2)) : Used p s s2 ∧ ImpActive s2 src net2 := by
  obtain ⟨s', net', e', U, I, hidx⟩ := ensure_ok R h
  have R' := R.used U
  have e : Settles (fun fuel => net'.iterate p fuel s') (s2, net2) := by
    obtain ⟨n, hn⟩ := e
    exact ⟨n, fun fuel hf => (iterate_ensured e' I.init fuel).symm.trans (hn fuel hf)⟩
  have no : ∀ x, (∀ fuel, net'.iterate p fuel s' = .error x) → False := by
    intro x hx
    obtain ⟨n, hn⟩ := e
    have := (hn n le_rfl).symm.trans (hx n)
    cases this
  rcases Nat.lt_or_eq_of_le I.idx with hlt | heq
  swap
  · exact (no _ (iterateImp_last R' I heq)).elim
  by_cases h0 : src.order = 0
  · exact (no _ (iterateImp_bad R' I hlt (Or.inl h0))).elim
  cases hdof : src.dof with
  | none => exact (no _ (iterateImp_bad R' I hlt (Or.inr hdof))).elim
  | some n =>
    obtain ⟨s3, net3, e3, U3, I3, -⟩ := iterateImp_ok he R' I hlt h0 hdof
    obtain ⟨rfl, rfl⟩ := Prod.mk.inj (Settles.unique e e3)
    exact ⟨U.trans U3, I3⟩

/-- Everything that can be reached. -/
theorem Reach.inv (he : ExactEigh p.eigh) {s0 s : HOTRGState K} {nets : List (ImpSource K × ImpurityNet K)} (R0 : RGInv p V H A s0)
    (h : Reach p V H s0 s nets) : RGInv p V H A s ∧ ∀ x ∈ nets, ImpInv V H s x.1 x.2 := by
  induction h with
  | start => exact ⟨R0, fun x hx => by cases hx⟩
  | other _ hk hw ih =>
    have U := used_store ih.1.good hw hk
    exact ⟨ih.1.used U, fun x hx => (ih.2 x hx).grown ih.1 U.grown⟩
  | rg _ e ih =>
    obtain ⟨s', d, e', g', I⟩ := iterate_settles he ih.1.good
    obtain rfl := Settles.unique e e'
    exact ⟨ih.1.iterated he g' I, fun x hx => (ih.2 x hx).grown ih.1 I.grown⟩
  | make _ hs ho e ih =>
    obtain ⟨st', net, e', U, I⟩ := newImp_ok ih.1.good hs ho
    obtain ⟨rfl, rfl⟩ := Prod.mk.inj (Except.ok.inj (e.symm.trans e'))
    refine ⟨ih.1.used U, fun x hx => ?_⟩
    rcases List.mem_append.mp hx with hx | hx
    · exact (ih.2 x hx).grown ih.1 U.grown
    · obtain rfl := List.mem_singleton.mp hx
      exact Or.inl I
  | init _ hj e ih =>
    obtain ⟨s', net', e', U, I, -⟩ := ensure_ok ih.1 (ih.2 _ (List.mem_of_getElem? hj))
    obtain ⟨rfl, rfl⟩ := Prod.mk.inj (Except.ok.inj (e.symm.trans e'))
    refine ⟨ih.1.used U, fun x hx => ?_⟩
    rcases List.mem_or_eq_of_mem_set hx with hx | rfl
    · exact (ih.2 x hx).grown ih.1 U.grown
    · exact Or.inr I
  | imp _ hj e ih =>
    obtain ⟨U, I⟩ := iterateImp_settled he ih.1 (ih.2 _ (List.mem_of_getElem? hj)) e
    refine ⟨ih.1.used U, fun x hx => ?_⟩
    rcases List.mem_or_eq_of_mem_set hx with hx | rfl
    · exact (ih.2 x hx).grown ih.1 U.grown
    · exact Or.inr I

end

end CTL
