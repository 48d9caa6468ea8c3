import Verif.Lemmas.HOTRGStep

/-! Whole steps of HOTRG. -/

namespace CTL
variable {K : Type}

open Finset (range)

/-! ### Normalizing and archiving -/

theorem dimOf_congr {st st' : Store} {t c : Tensor K} (hn : c.legs.map st'.name = t.legs.map st.name)
    (hd : c.legs.map st'.dim = t.legs.map st.dim) (x : String) : c.dimOf st' x = t.dimOf st x := by
  unfold Tensor.dimOf
  generalize c.legs = ls at hn hd
  generalize t.legs = ks at hn hd
  induction ls generalizing ks with
  | nil =>
    cases ks with
    | nil => rfl
    | cons => cases hn
  | cons l ls ih =>
    cases ks with
    | nil => cases hn
    | cons k ks =>
      obtain ⟨n1, n2⟩ := List.cons.inj hn
      obtain ⟨d1, d2⟩ := List.cons.inj hd
      simp only [List.find?_cons, n1]
      split
      · simp [d1]
      · exact ih ks n2 d2

theorem at_congr [Zero K] {st st' : Store} {t c : Tensor K} (hn : c.legs.map st'.name = t.legs.map st.name) (ha : c.a = t.a)
    (hc : c.diag = false) (ht : t.diag = false) (xs : List (String × Nat)) : c.at st' xs = t.at st xs := by
  unfold Tensor.at
  rw [entry_dense hc, entry_dense ht, ha]
  have : (c.legs.map fun l => indexAt xs (st'.name l)) = t.legs.map fun l => indexAt xs (st.name l) := by
    have := congrArg (List.map (indexAt xs)) hn
    simpa only [List.map_map, Function.comp_def] using this
  rw [this]

theorem divBy_get [Field K] (a : NDArray K) (x : K) (idx : List Nat) : (a.divBy x).get idx = a.get idx / x := by
  unfold NDArray.divBy NDArray.get
  simp only [List.getD_eq_getElem?_getD, List.getElem?_map]
  cases a.data[ravel a.shape idx]? <;> simp

theorem FreshTensor.square [Zero K] {st st' : Store} {t c : Tensor K} (F : FreshTensor st t c st') (h : SquareSite st t) :
    SquareSite st' c ∧ SameSite st t st' c := by
  have hd := dimOf_congr F.labels F.dims
  refine ⟨⟨⟨F.good, F.dense, fun l hl => (F.new l hl).2, fun l hl => ?_, by rw [F.labels]; exact h.labels.labels⟩, ?_, ?_⟩, ?_, ?_, ?_⟩
  · have := F.dims ▸ List.mem_map_of_mem (f := st'.dim) hl
    obtain ⟨k, hk, e⟩ := List.mem_map.mp this
    rw [← e]
    exact h.labels.pos k hk
  · rw [hd, hd, h.v]
  · rw [hd, hd, h.h]
  · exact hd _
  · exact hd _
  · exact fun u l d r => at_congr F.labels F.data F.dense h.labels.dense _

variable [Field K]

theorem divided [LinearOrder K] {st : Store} {t : Tensor K} (h : SquareSite st t) {b : NDArray K} (hb : t.a = some b) (x : K) :
    SquareSite st { t with a := some (b.divBy x) } ∧
      ∀ u l d r, ({ t with a := some (b.divBy x) } : Tensor K).site st u l d r = t.site st u l d r / x := by
  obtain ⟨arr, ea, wa, sa, sd⟩ := h.labels.good.data
  obtain rfl : arr = b := Option.some.inj (ea.symm.trans hb)
  refine ⟨⟨⟨⟨h.labels.good.nodup, h.labels.good.notLike, _, rfl, ?_, sa, sd⟩, h.labels.dense, h.labels.known, h.labels.pos, h.labels.labels⟩, h.v, h.h⟩, ?_⟩
  · unfold NDArray.WF NDArray.divBy at *
    simpa using wa
  · intro u l d r
    unfold Tensor.site Tensor.at
    rw [entry_dense h.labels.dense, entry_dense (by exact h.labels.dense), hb]
    simp only [Option.map_some, Option.getD_some, divBy_get]

variable [LinearOrder K] [Star K] {p : RGParams K} {s : HOTRGState K}

theorem append_ok (wf : WFStore s.st) (ha : SquareSite s.st s.a) :
    ∃ st' a c norms, s.append p = .ok { s with st := st', a := a, aNorms := norms, aArchive := s.aArchive ++ [(c, s.dof)] } ∧
      WFStore st' ∧ LegsUnchanged s.st st' ∧ SquareSite st' a ∧ (∀ x, a.dimOf st' x = s.a.dimOf s.st x) ∧
      Normalized p s.aNorms s.aArchive s.a
        { s with st := st', a := a, aNorms := norms, aArchive := s.aArchive ++ [(c, s.dof)] } := by
  obtain ⟨b, hb, -⟩ := ha.labels.good.data
  obtain ⟨hd, hv⟩ := divided ha hb (p.norm b)
  obtain ⟨st', c, e, F, O⟩ := copy_fresh p.rand hd.labels.good hd.labels.dense
  have hk : LegsUnchanged s.st st' := ⟨O.grows.le, O.old.leg⟩
  obtain ⟨hc, hs⟩ := F.square hd
  refine ⟨st', { s.a with a := some (b.divBy (p.norm b)) }, c, s.aNorms ++ [p.norm b], ?_, O.grows.wf wf, hk, hd.kept hk, ?_, ?_, ?_⟩
  · have hl : ¬ s.a.like = true := by rw [ha.labels.good.notLike]; decide
    have hn : s.normalize p =
        .ok { s with a := { s.a with a := some (b.divBy (p.norm b)) }, aNorms := s.aNorms ++ [p.norm b] } := by
      unfold HOTRGState.normalize
      rw [if_neg hl, hb]
      rfl
    unfold HOTRGState.append
    rw [hn]
    simp only [bind, Except.bind, pure, Except.pure, e]
  · intro x
    exact hk.dimOf (t := { s.a with a := some (b.divBy (p.norm b)) }) ha.labels.known x
  · refine ⟨b, hb, rfl, rfl, fun u l d r => ?_⟩
    rw [hd.site_kept hk, ha.site_kept hk]
    exact hv u l d r
  · refine ⟨c, rfl, hc, ?_, ?_, fun u l d r => ?_⟩
    · rw [hs.v]
      exact (hk.dimOf (t := { s.a with a := some (b.divBy (p.norm b)) }) ha.labels.known _).symm
    · rw [hs.h]
      exact (hk.dimOf (t := { s.a with a := some (b.divBy (p.norm b)) }) ha.labels.known _).symm
    · rw [hs.val]
      rw [hd.site_kept hk]

/-! ### Choosing a direction -/

/-- The choice made by the loop of `iterate`, on errors and projectors alone. -/
def pickBy (err : RGDir → K) (prj : RGDir → NDArray K) (x : K × Option (RGDir × NDArray K)) (d : RGDir) : K × Option (RGDir × NDArray K) :=
  if x.1 < 0 ∨ err d < x.1 then (err d, some (d, prj d)) else x

theorem pickBy_foldl (err : RGDir → K) (prj : RGDir → NDArray K) (ds : List RGDir) (d0 : RGDir) :
    ∃ d ∈ d0 :: ds, ds.foldl (pickBy err prj) (err d0, some (d0, prj d0)) = (err d, some (d, prj d)) ∧
      ((∀ x, 0 ≤ err x) → (∀ x ∈ d0 :: ds, err d ≤ err x) ∧
        ∃ before after, d0 :: ds = before ++ d :: after ∧ ∀ x ∈ before, err d < err x) := by
  induction ds generalizing d0 with
  | nil =>
    refine ⟨d0, by simp, rfl, fun _ => ⟨by simp, [], [], rfl, by simp⟩⟩
  | cons e ds ih =>
    rw [List.foldl_cons]
    by_cases hc : err d0 < 0 ∨ err e < err d0
    · rw [pickBy, if_pos hc]
      obtain ⟨d, hd, he, h⟩ := ih e
      refine ⟨d, List.mem_cons_of_mem _ hd, he, fun pos => ?_⟩
      obtain ⟨h1, before, after, h2, h3⟩ := h pos
      have hlt : err d < err d0 := (h1 e List.mem_cons_self).trans_lt (hc.resolve_left (pos d0).not_gt)
      refine ⟨fun x hx => ?_, d0 :: before, after, by rw [h2, List.cons_append], fun x hx => ?_⟩
      · rcases List.mem_cons.mp hx with rfl | hx
        · exact hlt.le
        · exact h1 x hx
      · rcases List.mem_cons.mp hx with rfl | hx
        · exact hlt
        · exact h3 x hx
    · rw [pickBy, if_neg hc]
      obtain ⟨d, hd, he, h⟩ := ih d0
      refine ⟨d, ?_, he, fun pos => ?_⟩
      · rcases List.mem_cons.mp hd with rfl | hd
        · simp
        · simp [hd]
      · obtain ⟨h1, before, after, h2, h3⟩ := h pos
        have hle : err d0 ≤ err e := not_lt.mp fun hl => hc (Or.inr hl)
        refine ⟨fun x hx => ?_, ?_⟩
        · rcases List.mem_cons.mp hx with rfl | hx
          · exact h1 _ (by simp)
          · rcases List.mem_cons.mp hx with rfl | hx
            · exact (h1 d0 (by simp)).trans hle
            · exact h1 x (by simp [hx])
        · cases before with
          | nil =>
            obtain ⟨rfl, rfl⟩ := List.cons.inj h2
            exact ⟨[], e :: ds, rfl, by simp⟩
          | cons b before =>
            obtain ⟨rfl, rfl⟩ := List.cons.inj h2
            refine ⟨d0 :: e :: before, after, rfl, fun x hx => ?_⟩
            rcases List.mem_cons.mp hx with rfl | hx
            · exact h3 _ (by simp)
            · rcases List.mem_cons.mp hx with rfl | hx
              · exact (h3 d0 (by simp)).trans_le hle
              · exact h3 x (by simp [hx])

/-- A state that differs in the store and in the networks of the environments only. -/
def Mid (p : RGParams K) (s s1 : HOTRGState K) : Prop :=
  ∃ st' pr, s1 = { s with st := st', project := pr } ∧ LegsUnchanged s.st st' ∧ WFStore st' ∧ ∀ d, NetOf p (projectMake d) (pr d)

theorem Mid.good {s1 : HOTRGState K} (g : HGood p s) (h : Mid p s s1) : HGood p s1 := by
  obtain ⟨st', pr, rfl, hk, wf, hn⟩ := h
  exact ⟨wf, g.a.kept hk, g.horizontal, g.vertical, hn⟩

omit [LinearOrder K] [Star K] in
theorem Mid.env {s1 : HOTRGState K} (g : HGood p s) (h : Mid p s s1) (d : RGDir) : s1.env d = s.env d := by
  obtain ⟨st', pr, rfl, hk, wf, hn⟩ := h
  unfold HOTRGState.env
  have e : s.a.site st' = s.a.site s.st := by
    exact g.a.site_kept hk
  show envMatrix (s.a.dimOf st' "u") (s.a.dimOf st' "l") (s.a.site st') d = _
  rw [hk.dimOf g.a.labels.known, hk.dimOf g.a.labels.known, e]

omit [LinearOrder K] [Star K] in
theorem Mid.chi {s1 : HOTRGState K} (h : Mid p s s1) (d : RGDir) : s1.chi d = s.chi d := by
  obtain ⟨st', pr, rfl, _⟩ := h
  rfl

theorem trials_settle (g : HGood p s) (ds : List RGDir) : ∀ {s1 : HOTRGState K} (_ : Mid p s s1) (x : K × Option (RGDir × NDArray K)),
    ∃ s2, Mid p s s2 ∧ Settles (fun fuel => ds.foldlM (HOTRGState.tryDirection p fuel) (s1, x))
      (s2, ds.foldl (pickBy (s.errorOf p) (s.projectorOf p)) x) := by
  induction ds with
  | nil =>
    intro s1 h x
    exact ⟨s1, h, Settles.const rfl⟩
  | cons d ds ih =>
    intro s1 h x
    obtain ⟨st', net, hs, hk, wf, hn⟩ := trial_settles (h.good g) d
    rw [h.env g, h.chi] at hs
    have h2 : Mid p s { s1 with st := st', project := fun x => if x = d then net else s1.project x } := by
      obtain ⟨st1, pr, rfl, hk1, wf1, hn1⟩ := h
      refine ⟨st', _, rfl, hk1.trans hk, wf, fun y => ?_⟩
      beta_reduce
      split
      · subst y
        exact hn
      · exact hn1 y
    obtain ⟨s2, m2, e2⟩ := ih h2 (pickBy (s.errorOf p) (s.projectorOf p) x d)
    refine ⟨s2, m2, ?_⟩
    simp only [List.foldlM_cons, List.foldl_cons]
    refine Settles.bind ?_ e2
    unfold HOTRGState.tryDirection
    refine Settles.bind hs (Settles.const ?_)
    unfold pickBy
    by_cases hc : x.1 < 0 ∨ s.errorOf p d < x.1
    · rw [if_pos hc]
      exact congrArg Except.ok (if_pos hc)
    · rw [if_neg hc]
      exact congrArg Except.ok (if_neg hc)

/-! ### One step -/

variable [TrivialStar K] [IsStrictOrderedRing K]

theorem iterate_settles (he : ExactEigh p.eigh) (g : HGood p s) :
    ∃ s' d, Settles (fun fuel => s.iterate p fuel) s' ∧ HGood p s' ∧ Iterated p s s' d := by
  have hV : s.a.dimOf s.st "u" ≠ 0 := dimOf_pos g.a.labels (by decide) (by decide)
  have hH : s.a.dimOf s.st "l" ≠ 0 := dimOf_pos g.a.labels (by decide) (by decide)
  have m0 : Mid p s s := ⟨s.st, s.project, rfl, .refl _, g.wf, g.project⟩
  obtain ⟨s1, m1, e1⟩ := trials_settle g [.u, .d, .l, .r] m0 (-1, none)
  obtain ⟨d, hd, hf, hb⟩ := pickBy_foldl (s.errorOf p) (s.projectorOf p) [.d, .l, .r] .u
  have hpick : [RGDir.u, .d, .l, .r].foldl (pickBy (s.errorOf p) (s.projectorOf p)) (-1, none) =
      (s.errorOf p d, some (d, s.projectorOf p d)) := by
    rw [List.foldl_cons, pickBy, if_pos (Or.inl (by simp)), hf]
  rw [hpick] at e1
  have g1 := m1.good g
  obtain ⟨wp, sp, -⟩ := solveEnv_prj (envMatrix_eigh he (s.a.dimOf s.st "u") (s.a.dimOf s.st "l") (s.a.site s.st) d) (s.chi d)
  change (s.projectorOf p d).WF at wp
  change (s.projectorOf p d).shape = [_, prjCols p (s.env d) (s.chi d) _] at sp
  have hn : envSize (s.a.dimOf s.st "u") (s.a.dimOf s.st "l") d ≠ 0 := by
    unfold envSize
    split
    · exact Nat.mul_ne_zero hH hH
    · exact Nat.mul_ne_zero hV hV
  obtain ⟨st1, pr, rfl, hk1, wf1, hn1⟩ := m1
  have ek := fun x => hk1.dimOf g.a.labels.known x
  obtain ⟨s2, t, e2, ⟨st2, hN, vN, rfl, hk2, wf2, nh, nv⟩, q2, v2, h2, val2⟩ := directed_settles g1 d (i1 := none) (i2 := none) g1.a g1.a
    (ek "u") (ek "u") (ek "l") (ek "l") wp sp (prjCols_pos hn _)
  obtain ⟨st3, a3, c3, norms, e3, wf3, hk3, q3, d3, N3⟩ := append_ok (p := p)
    (s := { s with st := st2, project := pr, horizontalIterate := hN, verticalIterate := vN, a := t, dof := s.dof * 2 }) wf2 q2
  have hk : LegsUnchanged s.st st3 := (hk1.trans hk2).trans hk3
  refine ⟨{ s with st := st3, project := pr, horizontalIterate := hN, verticalIterate := vN, a := a3, dof := s.dof * 2, aNorms := norms, aArchive := s.aArchive ++ [(c3, s.dof * 2)], errors := s.errors ++ [s.errorOf p d], directChoices := s.directChoices ++ [d], projectors := s.projectors ++ [s.projectorOf p d] }, d, ?_, ⟨wf3, q3, nh, nv, hn1⟩, ?_⟩
  · unfold HOTRGState.iterate
    refine Settles.bind e1 ?_
    refine Settles.bind e2 (Settles.const ?_)
    simp only [e3, bind, Except.bind, pure, Except.pure]
  · have hsh : (s.projectorOf p d).shape.getD 1 0 = prjCols p (s.env d) (s.chi d) (envSize (s.a.dimOf s.st "u") (s.a.dimOf s.st "l") d) := by
      rw [sp]
      rfl
    have dv : a3.dimOf st3 "u" = _ := (d3 "u").trans v2
    have dh : a3.dimOf st3 "l" = _ := (d3 "l").trans h2
    have pos : ∀ x, 0 ≤ s.errorOf p x := fun x => env_error_nonneg he _ _ _ x _
    refine ⟨rfl, rfl, rfl, fun x => (hb pos).1 x (by cases x <;> simp), (hb pos).2, rfl, ⟨rfl, rfl⟩, hk, ?_, ?_, t, ⟨N3.a, N3.archive⟩, ?_⟩
    · rw [hsh]
      exact dv
    · rw [hsh]
      exact dh
    · intro u hu l hl d' hd' r hr
      rw [dv] at hu hd'
      rw [dh] at hl hr
      rw [q2.site_kept hk3, val2 u hu l hl d' hd' r hr]
      simp only [Option.getD_none]
      rw [g.a.site_kept hk1]

/-! ### The constructor -/

omit [TrivialStar K] [IsStrictOrderedRing K] in
theorem initial_ok {st : Store} (wf : WFStore st) {V H : Nat} {A : Nat → Nat → Nat → Nat → K} {x : Tensor K ⊕ NDArray K}
    (hx : InitialSite st V H A x) :
    ∃ st1 a1, HOTRGState.initial p st x = .ok (st1, a1) ∧ WFStore st1 ∧ LegsUnchanged st st1 ∧ SquareSite st1 a1 ∧
      a1.dimOf st1 "u" = V ∧ a1.dimOf st1 "l" = H ∧ ∀ u l d r, a1.site st1 u l d r = A u l d r := by
  match x, hx with
  | .inl t, ⟨h, hv, hh, ha⟩ =>
    obtain ⟨st1, c, e, F, O⟩ := copy_fresh p.rand h.labels.good h.labels.dense
    obtain ⟨h1, h2⟩ := F.square h
    exact ⟨st1, c, e, O.grows.wf wf, ⟨O.grows.le, O.old.leg⟩, h1, h2.v.trans hv, h2.h.trans hh, fun u l d r => (h2.val u l d r).trans (by rw [ha])⟩
  | .inr arr, ⟨wa, sa, v0, h0, ha⟩ =>
    obtain ⟨st1, t, e, w1, k1, l1, d1, v1⟩ := construct_plain p.rand wf wa (labels := ["u", "l", "d", "r"]) (by rw [sa]; rfl) (by decide)
      (by rw [sa]; simp [v0, h0])
    rw [sa] at d1
    refine ⟨st1, t, ?_, w1, k1, ⟨l1, ?_, ?_⟩, d1 "u" V (by simp), d1 "l" H (by simp), fun u l d r => (v1 [u, l, d, r] rfl).trans (ha u l d r)⟩
    · simp only [HOTRGState.initial, makeSquareTensor, sa, pyAssert]
      exact e
    · rw [d1 "u" V (by simp), d1 "d" V (by simp)]
    · rw [d1 "l" H (by simp), d1 "r" H (by simp)]

omit [TrivialStar K] [IsStrictOrderedRing K] in
theorem new_ok {st : Store} (wf : WFStore st) {V H : Nat} {A : Nat → Nat → Nat → Nat → K} {x : Tensor K ⊕ NDArray K}
    (hx : InitialSite st V H A x) (dof : Option Nat) (chiH : Nat) (chiV : Option Nat) :
    ∃ s, HOTRGState.new p st x dof chiH chiV = .ok s ∧ HGood p s ∧ Started p st V H A dof chiH chiV s := by
  obtain ⟨st1, a1, e1, wf1, k1, q1, dv, dh, val⟩ := initial_ok (p := p) wf hx
  obtain ⟨hN, eh⟩ : ∃ net, HOTRGHorizontalContractFTN 1 = .ok net := ⟨_, rfl⟩
  obtain ⟨vN, ev⟩ : ∃ net, HOTRGVerticalContractFTN 2 = .ok net := ⟨_, rfl⟩
  obtain ⟨lN, el⟩ : ∃ net, squareHorizontalContractFTN 3 "l" = .ok net := ⟨_, rfl⟩
  obtain ⟨rN, er⟩ : ∃ net, squareHorizontalContractFTN 4 "r" = .ok net := ⟨_, rfl⟩
  obtain ⟨uN, eu⟩ : ∃ net, squareVerticalContractFTN 5 "u" = .ok net := ⟨_, rfl⟩
  obtain ⟨dN, ed⟩ : ∃ net, squareVerticalContractFTN 6 "d" = .ok net := ⟨_, rfl⟩
  unfold HOTRGState.new
  simp only [eh, ev, el, er, eu, ed, e1, bind, Except.bind]
  obtain ⟨st3, a3, c3, norms, e3, wf3, hk3, q3, d3, N3⟩ := append_ok (p := p)
    (s := { st := st1, a := a1, dof := dof.getD 1, chiH := chiH, chiV := chiV.getD chiH, horizontalIterate := hN, verticalIterate := vN, project := fun x => match x with
        | .u => uN | .d => dN | .l => lN | .r => rN, aNorms := [], aArchive := [], errors := [], directChoices := [], projectors := [] }) wf1 q1
  refine ⟨_, e3, ⟨wf3, q3, NetOf.made eh, NetOf.made ev, fun d => ?_⟩, ⟨k1.trans hk3, rfl, ⟨rfl, rfl⟩, ⟨rfl, rfl, rfl⟩, (d3 "u").trans dv, (d3 "l").trans dh, a1, N3, ?_⟩⟩
  · cases d
    · exact NetOf.made eu
    · exact NetOf.made ed
    · exact NetOf.made el
    · exact NetOf.made er
  · intro u l d r
    rw [q1.site_kept hk3]
    exact val u l d r

end CTL
