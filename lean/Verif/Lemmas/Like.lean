import Verif.Spec.Like
import Verif.Model.TensorOps
import Verif.Lemmas.Sequence

/-! Helper lemmas: operations on shape-only tensors against the same operations on real ones. -/

namespace CTL
variable {R : Type}

theorem shapeOf_bare (t : Tensor R) : ShapeOf t t.bare := ⟨rfl, rfl, rfl, List.Perm.refl _, rfl, rfl⟩

theorem Store.ext' {a b : Store} (h1 : a.leg = b.leg) (h2 : a.bond = b.bond) (h3 : a.nextLeg = b.nextLeg)
    (h4 : a.nextBond = b.nextBond) (h5 : a.nextTensor = b.nextTensor) : a = b := by
  cases a; cases b; simp_all

theorem sharedPairs_mem_perm (st : Store) {la la' lb lb' : List LegId} (pa : la'.Perm la) (pb : lb'.Perm lb)
    (p : LegId × LegId) : p ∈ sharedPairs st la' lb' ↔ p ∈ sharedPairs st la lb := by
  rw [mem_sharedPairs, mem_sharedPairs, pa.mem_iff, pb.mem_iff]

theorem sharedPairs_perm {st : Store} (inv : BondInv st) {la la' lb lb' : List LegId} (na : la.Nodup)
    (disj : ∀ x ∈ la, x ∉ lb) (pa : la'.Perm la) (pb : lb'.Perm lb) :
    (sharedPairs st la' lb').Perm (sharedPairs st la lb) := by
  have n1 : (sharedPairs st la lb).Nodup := List.Nodup.of_map _ (by rw [sharedPairs_fst]; exact na.filter _)
  have n2 : (sharedPairs st la' lb').Nodup :=
    List.Nodup.of_map _ (by rw [sharedPairs_fst]; exact (pa.nodup_iff.mpr na).filter _)
  rw [List.perm_ext_iff_of_nodup n2 n1]
  exact sharedPairs_mem_perm st pa pb

/-- The bond that a collected bond is, seen from its first leg. -/
theorem shared_bond_of {st st1 : Store} (inv : BondInv st) (hso : SameUpToOrientation st st1) {la : List LegId}
    {bs : List BondId} (h4 : ∀ b, b ∈ bs → ∃ l ∈ la, (st.leg l).bond = some b) {b : BondId} (hb : b ∈ bs) :
    (st.leg (st1.bond b).1).bond = some b := by
  obtain ⟨l, _, hl⟩ := h4 b hb
  obtain ⟨_, e1, e2, _⟩ := inv l b hl
  rcases hso.bond b with h | h <;> rw [h]
  · exact e1
  · exact e2

/-- `shareBonds` on the same legs in another order: the same store, the same bonds in another order. -/
theorem shareBonds_perm {st : Store} (inv : BondInv st) {la la' lb lb' : List LegId} (na : la.Nodup)
    (disj : ∀ x ∈ la, x ∉ lb) (pa : la'.Perm la) (pb : lb'.Perm lb) :
    ∃ st1 bs bs', shareBondsLoop lb la st = .ok (st1, bs) ∧ shareBondsLoop lb' la' st = .ok (st1, bs') ∧
      SameUpToOrientation st st1 ∧ bs.map st1.bond = sharedPairs st la lb ∧
      bs'.map st1.bond = sharedPairs st la' lb' := by
  obtain ⟨st1, bs, h1, h2, h3, h4, h5⟩ := shareBondsLoop_spec lb la st inv na disj
  obtain ⟨st2, bs', k1, k2, k3, k4, k5⟩ := shareBondsLoop_spec lb' la' st inv (pa.nodup_iff.mpr na)
    (fun x hx hx' => disj x (pa.mem_iff.mp hx) (pb.mem_iff.mp hx'))
  have key : ∀ {s t : Store} {cs ds : List BondId} {ma mb : List LegId} {qs rs : List (LegId × LegId)},
      SameUpToOrientation st s → SameUpToOrientation st t →
      (∀ b, b ∈ cs → ∃ l ∈ ma, (st.leg l).bond = some b) → (∀ b, b ∈ ds → ∃ l ∈ mb, (st.leg l).bond = some b) →
      cs.map s.bond = qs → ds.map t.bond = rs → (∀ p, p ∈ qs → p ∈ rs) →
      ∀ b ∈ cs, b ∈ ds ∧ t.bond b = s.bond b := by
    intro s t cs ds ma mb qs rs hs ht hc hd hq hr hqr b hb
    have hm : s.bond b ∈ rs := hqr _ (hq ▸ List.mem_map_of_mem hb)
    rw [← hr, List.mem_map] at hm
    obtain ⟨c, hc', he⟩ := hm
    have e1 := shared_bond_of inv hs hc hb
    have e2 := shared_bond_of inv ht hd hc'
    rw [he, e1] at e2
    cases e2
    exact ⟨hc', he⟩
  have hst : st2 = st1 := by
    refine Store.ext' (k2.leg.trans h2.leg.symm) ?_ (k2.nextLeg.trans h2.nextLeg.symm)
      (k2.nextBond.trans h2.nextBond.symm) (k2.nextTensor.trans h2.nextTensor.symm)
    funext b
    by_cases hb : b ∈ bs
    · exact (key h2 k2 h4 k4 h3 k3 (fun p => (sharedPairs_mem_perm st pa pb p).mpr) b hb).2
    · have hb' : b ∉ bs' := fun h =>
        hb (key k2 h2 k4 h4 k3 h3 (fun p => (sharedPairs_mem_perm st pa pb p).mp) b h).1
      rw [h5 b hb, k5 b hb']
  subst hst
  exact ⟨st2, bs, bs', h1, k1, h2, h3, k3⟩

theorem setOwner_owner (st : Store) (legs : List LegId) (t : TensorId) (l : LegId) :
    ((st.setOwner legs t).leg l).tensor = if l ∈ legs then some t else (st.leg l).tensor := by
  unfold Store.setOwner
  induction legs generalizing st with
  | nil => simp
  | cons x xs ih =>
    simp only [List.foldl_cons]
    rw [ih]
    unfold Store.setLeg
    by_cases h : l ∈ xs
    · simp [h]
    · by_cases hx : l = x
      · subst hx; simp
      · simp [h, hx]

theorem setOwner_perm (st : Store) {legs legs' : List LegId} (h : legs'.Perm legs) (t : TensorId) :
    st.setOwner legs' t = st.setOwner legs t := by
  have a := setOwner_next st legs t
  have b := setOwner_next st legs' t
  refine Store.ext' ?_ ?_ (b.1.trans a.1.symm) (b.2.1.trans a.2.1.symm) (b.2.2.trans a.2.2.symm)
  · funext l
    have e := (setOwner_leg st legs t l).1
    have e' := (setOwner_leg st legs' t l).1
    have f := setOwner_owner st legs t l
    have f' := setOwner_owner st legs' t l
    simp only [h.mem_iff] at f'
    rw [← f] at f'
    cases hx : (st.setOwner legs' t).leg l
    cases hy : (st.setOwner legs t).leg l
    rw [hx] at e' f'
    rw [hy] at e f'
    simp_all
  · rw [(setOwner_leg st legs' t 0).2, (setOwner_leg st legs t 0).2]

/-- What a constructor call with real data returned, when it returned. -/
theorem newTensor_some {st s : Store} {t : Tensor R} {shape : List Nat} {d : NDArray R} {legs : List LegId}
    (h : newTensor st shape (some d) legs = .ok (s, t)) :
    s = { st.setOwner legs st.nextTensor with nextTensor := st.nextTensor + 1 } ∧ t.id = st.nextTensor ∧
      t.legs = legs ∧ t.diag = false ∧ t.length = 0 := by
  unfold newTensor at h
  split at h
  · cases h
  · simp only at h
    split at h
    · simp only [Except.ok.injEq, Prod.mk.injEq] at h
      obtain ⟨rfl, rfl⟩ := h
      exact ⟨rfl, rfl, rfl, rfl, rfl⟩
    · cases h

theorem newTensor_none (st : Store) (legs : List LegId) :
    newTensor (R := R) st (legs.map st.dim) none legs
      = .ok ({ st.setOwner legs st.nextTensor with nextTensor := st.nextTensor + 1 },
        ⟨st.nextTensor, legs, none, false, true, 0⟩) := by
  unfold newTensor
  simp

theorem newTensor_shape {st s : Store} {t : Tensor R} {shape : List Nat} {d : NDArray R} {legs legs' : List LegId}
    (h : newTensor st shape (some d) legs = .ok (s, t)) (hp : legs'.Perm legs) :
    ∃ u : Tensor R, newTensor (R := R) st (legs'.map st.dim) none legs' = .ok (s, u) ∧ ShapeOf t u ∧ u.legs = legs' := by
  obtain ⟨hs, h1, h2, h3, h4⟩ := newTensor_some h
  refine ⟨⟨st.nextTensor, legs', none, false, true, 0⟩, ?_, ?_, rfl⟩
  · rw [newTensor_none, hs, setOwner_perm st hp]
  · exact ⟨rfl, rfl, h1.symm, by rw [h2]; exact hp, h3.symm, h4.symm⟩

theorem newDiagonal_shape [Zero R] {st s : Store} {t : Tensor R} {d : NDArray R} {legs legs' : List LegId}
    (h : newDiagonal st (legs.map st.dim) (some d) legs = .ok (s, t)) (hp : legs'.Perm legs) :
    ∃ u : Tensor R, newDiagonal (R := R) st (legs'.map st.dim) none legs' = .ok (s, u) ∧ ShapeOf t u ∧
      u.legs = legs' ∧ t.legs = legs := by
  unfold newDiagonal at h
  split at h
  · cases h
  rename_i hdim
  rw [not_not] at hdim
  rw [if_neg (by simp)] at h
  have hlen : (if legs'.map st.dim = [] then 1 else (legs'.map st.dim).headD 0)
      = (if legs.map st.dim = [] then 1 else (legs.map st.dim).headD 0) := by
    cases legs' with
    | nil => rw [hp.symm.eq_nil]
    | cons x xs =>
      cases legs with
      | nil => exact absurd hp.eq_nil (by simp)
      | cons y ys =>
        simp only [List.map_cons, reduceCtorEq, if_false, List.headD_cons]
        exact hdim x (hp.mem_iff.mp (by simp))
  have hd' : ∀ l ∈ legs', st.dim l = (legs'.map st.dim).headD 0 := by
    intro l hl
    cases legs' with
    | nil => cases hl
    | cons x xs =>
      rw [hdim l (hp.mem_iff.mp hl)]
      simp only [List.map_cons, List.headD_cons]
      exact (hdim x (hp.mem_iff.mp (by simp))).symm
  have hfin : ∀ (e : NDArray R), (⟨st.nextTensor, legs, some e, true, false,
      if legs.map st.dim = [] then 1 else (legs.map st.dim).headD 0⟩ : Tensor R) = t →
      ({ st.setOwner legs st.nextTensor with nextTensor := st.nextTensor + 1 } : Store) = s →
      ∃ u : Tensor R, newDiagonal (R := R) st (legs'.map st.dim) none legs' = .ok (s, u) ∧ ShapeOf t u ∧
        u.legs = legs' ∧ t.legs = legs := by
    rintro e rfl rfl
    refine ⟨⟨st.nextTensor, legs', none, true, true,
      if legs'.map st.dim = [] then 1 else (legs'.map st.dim).headD 0⟩, ?_,
      ⟨rfl, rfl, rfl, hp, rfl, hlen⟩, rfl, rfl⟩
    unfold newDiagonal
    rw [if_neg (not_not.mpr hd'), if_neg (by simp)]
    simp only [Option.isNone_none, setOwner_perm st hp]
  simp only at h
  split at h
  · split at h
    · simp only [Except.ok.injEq, Prod.mk.injEq, Option.isNone_some] at h
      exact hfin _ h.2 h.1
    · split at h
      · cases h
      · rename_i hne
        simp only [Except.ok.injEq, Prod.mk.injEq, Option.isNone_some] at h
        refine hfin (NDArray.build [(legs.map st.dim).headD 0] fun idx =>
          d.get (List.replicate (legs.map st.dim).length (idx.headD 0))) ?_ h.1
        rw [if_neg hne]
        exact h.2
  · cases h

theorem shape_of_bare {st : Store} {t s : Tensor R} (g : GoodTensor st t) (h : ShapeOf t s) :
    s.shape st = s.legs.map st.dim := by
  unfold Tensor.shape
  rw [h.noData, h.diag]
  cases hd : t.diag with
  | false => rfl
  | true =>
    simp only [if_true]
    symm
    rw [List.eq_replicate_iff]
    refine ⟨by simp, ?_⟩
    intro b hb
    rw [List.mem_map] at hb
    obtain ⟨l, hl, rfl⟩ := hb
    obtain ⟨arr, _, _, _, h4⟩ := g.data
    have hl' := h.legs.mem_iff.mp hl
    rcases h4 hd with ⟨h5, _⟩ | ⟨_, _, h7⟩
    · rw [h5] at hl'; cases hl'
    · rw [h7 l hl', h.length]

theorem restA_perm {la la' : List LegId} {ps ps' : List (LegId × LegId)} (hl : la'.Perm la) (hp : ps'.Perm ps) :
    (restA la' ps').Perm (restA la ps) := by
  unfold restA
  have : (la'.filter fun l => decide (l ∉ ps'.map Prod.fst)) = la'.filter fun l => decide (l ∉ ps.map Prod.fst) := by
    apply List.filter_congr
    intro l _
    rw [decide_eq_decide, (hp.map Prod.fst).mem_iff]
  rw [this]
  exact hl.filter _

theorem restB_perm {lb lb' : List LegId} {ps ps' : List (LegId × LegId)} (hl : lb'.Perm lb) (hp : ps'.Perm ps) :
    (restB lb' ps').Perm (restB lb ps) := by
  unfold restB
  have : (lb'.filter fun l => decide (l ∉ ps'.map Prod.snd)) = lb'.filter fun l => decide (l ∉ ps.map Prod.snd) := by
    apply List.filter_congr
    intro l _
    rw [decide_eq_decide, (hp.map Prod.snd).mem_iff]
  rw [this]
  exact hl.filter _

/-- What remains on either side, for either class of operand. -/
theorem complement_shared {st : Store} {la lb : List LegId} {ps : List (LegId × LegId)} (ok : PairsOK st la lb ps)
    {ta tb : Tensor R} (ha : ta.legs = la) (hb : tb.legs = lb) :
    ta.complementLegs (ps.map Prod.fst) = .ok (restA la ps) ∧
      tb.complementLegs (ps.map Prod.snd) = .ok (restB lb ps) := by
  subst ha; subst hb
  exact ⟨nodup_diff _ _ ok.na ok.nodupA ok.subA, nodup_diff _ _ ok.nb ok.nodupB ok.subB⟩

/-- A contraction of real tensors that succeeds is matched by the contraction of their shape-only versions. -/
theorem like_ordered [NonUnitalNonAssocSemiring R] (cast : R → R) {st : Store} (inv : BondInv st)
    {ta tb sa sb : Tensor R} (ga : GoodTensor st ta) (gb : GoodTensor st tb) (disj : ∀ x ∈ ta.legs, x ∉ tb.legs)
    (ha : ShapeOf ta sa) (hb : ShapeOf tb sb) {o : ContractOut R} (h : contractOrdered cast st ta tb none = .ok o) :
    ∃ o', contractOrdered cast st sa sb none = .ok o' ∧ o'.store = o.store ∧ ShapeOf o.result o'.result ∧
      o'.ta = sa ∧ o'.tb = sb ∧ o.ta = ta ∧
      (ta.diag = tb.diag → sa.legs = ta.legs → sb.legs = tb.legs → o'.result.legs = o.result.legs) := by
  obtain ⟨st1, bs, bs', h1, h2, hso, h3, h4⟩ := shareBonds_perm inv ga.nodup disj ha.legs hb.legs
  have hsn := hso.sameNet
  have hp := sharedPairs_perm inv ga.nodup disj ha.legs hb.legs
  have hbs : bs' = [] ↔ bs = [] := by
    have := hp.length_eq
    rw [← h3, ← h4, List.length_map, List.length_map] at this
    rw [← List.length_eq_zero_iff, ← List.length_eq_zero_iff, this]
  have ok := pairsOK_shared inv ga.nodup gb.nodup disj
  have ok' := pairsOK_shared inv (ha.legs.nodup_iff.mpr ga.nodup) (hb.legs.nodup_iff.mpr gb.nodup)
    (fun x hx hx' => disj x (ha.legs.mem_iff.mp hx) (hb.legs.mem_iff.mp hx'))
  have sha := shape_of_bare (ga.congr hsn) ha
  have shb := shape_of_bare (gb.congr hsn) hb
  have shA := shape_good (ga.congr hsn)
  have shB := shape_good (gb.congr hsn)
  unfold contractOrdered at h ⊢
  simp only [shareBonds, h1, h2, bind, Except.bind, ga.notLike, gb.notLike, ha.flag, hb.flag, ne_eq,
    not_true_eq_false, if_false, pure, Except.pure] at h ⊢
  by_cases hnil : bs = []
  · simp only [hnil, hbs.mpr hnil, if_true] at h ⊢
    have hlegs : (sa.legs ++ sb.legs).Perm (ta.legs ++ tb.legs) := ha.legs.append hb.legs
    have hout : ∀ {s : Store} {t : Tensor R}, outerContract cast st1 ta tb = .ok (s, t) →
        ∃ u, outerContract cast st1 sa sb = .ok (s, u) ∧ ShapeOf t u ∧ u.legs = sa.legs ++ sb.legs ∧
          t.legs = ta.legs ++ tb.legs := by
      intro s t hok
      unfold outerContract at hok ⊢
      obtain ⟨arrA, hA, _⟩ := ga.data
      obtain ⟨arrB, hB, _⟩ := gb.data
      simp only [ha.diag, hb.diag, ha.flag, if_true, sha, shb, shA, shB, ← List.map_append, ga.notLike, hA, hB,
        Bool.false_eq_true, if_false, bind, Except.bind] at hok ⊢
      cases da : ta.diag <;> cases db : tb.diag <;> simp only [da, db, Bool.and_self, Bool.and_true, Bool.and_false,
        Bool.false_eq_true, if_false, if_true] at hok ⊢
      · obtain ⟨u, h5, h6, h7⟩ := newTensor_shape hok hlegs
        exact ⟨u, h5, h6, h7, (newTensor_some hok).2.2.1⟩
      · obtain ⟨u, h5, h6, h7⟩ := newTensor_shape hok hlegs
        exact ⟨u, h5, h6, h7, (newTensor_some hok).2.2.1⟩
      · split at hok
        · cases hok
        · obtain ⟨u, h5, h6, h7⟩ := newTensor_shape hok hlegs
          exact ⟨u, h5, h6, h7, (newTensor_some hok).2.2.1⟩
      · split at hok
        · cases hok
        · obtain ⟨u, h5, h6, h7, h8⟩ := newDiagonal_shape hok hlegs
          exact ⟨u, h5, h6, h7, h8⟩
    cases hoc : outerContract cast st1 ta tb with
    | error e => rw [hoc] at h; cases h
    | ok r =>
      obtain ⟨s, t⟩ := r
      rw [hoc] at h
      obtain ⟨u, h5, h6, h7, h8⟩ := hout hoc
      simp only [Except.ok.injEq] at h
      subst h
      rw [h5]
      exact ⟨⟨s, u, sa, sb⟩, rfl, rfl, h6, rfl, rfl, rfl, fun _ e1 e2 => by rw [h7, h8, e1, e2]⟩
  · simp only [hnil, mt hbs.mp hnil, if_false] at h ⊢
    obtain ⟨l1, l2⟩ := bondContract_legs h3
    obtain ⟨l1', l2'⟩ := bondContract_legs h4
    obtain ⟨c1, c2⟩ := complement_shared ok (ta := ta) (tb := tb) rfl rfl
    obtain ⟨c1', c2'⟩ := complement_shared ok' (ta := sa) (tb := sb) rfl rfl
    set ps := sharedPairs st ta.legs tb.legs with hps
    set ps' := sharedPairs st sa.legs sb.legs with hps'
    have pra := restA_perm ha.legs hp
    have prb := restB_perm hb.legs hp
    have hlegs : (restA sa.legs ps' ++ restB sb.legs ps').Perm (restA ta.legs ps ++ restB tb.legs ps) :=
      pra.append prb
    have hlegs' : (restA sa.legs ps' ++ restB sb.legs ps').Perm (restB tb.legs ps ++ restA ta.legs ps) :=
      hlegs.trans List.perm_append_comm
    have hbc : ∀ {s : Store} {t tb1 : Tensor R}, bondContract st1 ta tb bs = .ok (s, t, tb1) →
        ∃ u, bondContract st1 sa sb bs' = .ok (s, u, sb) ∧ ShapeOf t u ∧
          (ta.diag = tb.diag → sa.legs = ta.legs → sb.legs = tb.legs → u.legs = t.legs) := by
      intro s t tb1 hok
      obtain ⟨arrA, hA, _⟩ := ga.data
      obtain ⟨arrB, hB, _⟩ := gb.data
      unfold bondContract at hok ⊢
      simp only [l1, l2, l1', l2', c1, c2, c1', c2', ha.diag, hb.diag, ha.flag, if_true, ga.notLike, hA, hB,
        Bool.false_eq_true, if_false, bind, Except.bind, pure, Except.pure] at hok ⊢
      have fin : sa.legs = ta.legs → sb.legs = tb.legs →
          restA sa.legs ps' ++ restB sb.legs ps' = restA ta.legs ps ++ restB tb.legs ps := by
        intro e1 e2
        rw [hps, hps', e1, e2]
      cases da : ta.diag <;> cases db : tb.diag <;> simp only [da, db, Bool.and_self, Bool.and_true, Bool.and_false,
        Bool.false_eq_true, if_false, if_true] at hok ⊢
      · split at hok
        · cases hok
        split at hok
        · cases hok
        split at hok
        · cases hok
        split at hok
        · cases hok
        split at hok
        · cases hok
        rename_i r hr
        simp only [Except.ok.injEq, Prod.mk.injEq] at hok
        obtain ⟨rfl, rfl, rfl⟩ := hok
        obtain ⟨u, h5, h6, h7⟩ := newTensor_shape hr hlegs
        rw [h5]
        exact ⟨u, rfl, h6, fun _ e1 e2 => by rw [h7, fin e1 e2, (newTensor_some hr).2.2.1]⟩
      · split at hok
        · cases hok
        split at hok
        · cases hok
        split at hok
        · cases hok
        split at hok
        · cases hok
        split at hok
        · cases hok
        rename_i r hr
        simp only [Except.ok.injEq, Prod.mk.injEq] at hok
        obtain ⟨rfl, rfl, rfl⟩ := hok
        obtain ⟨u, h5, h6, h7⟩ := newTensor_shape hr hlegs
        rw [h5]
        exact ⟨u, rfl, h6, fun _ e1 e2 => by rw [h7, fin e1 e2, (newTensor_some hr).2.2.1]⟩
      · split at hok
        · cases hok
        split at hok
        · split at hok
          · cases hok
          split at hok
          · cases hok
          split at hok
          · cases hok
          split at hok
          · cases hok
          rename_i r hr
          simp only [Except.ok.injEq, Prod.mk.injEq] at hok
          obtain ⟨rfl, rfl, rfl⟩ := hok
          obtain ⟨u, h5, h6, h7⟩ := newTensor_shape hr hlegs'
          rw [h5]
          exact ⟨u, rfl, h6, fun e => by cases e⟩
        · cases hok
      · split at hok
        · cases hok
        split at hok
        · split at hok
          · cases hok
          rename_i r hr
          simp only [Except.ok.injEq, Prod.mk.injEq] at hok
          obtain ⟨rfl, rfl, rfl⟩ := hok
          obtain ⟨u, h5, h6, h7, h8⟩ := newDiagonal_shape hr hlegs
          rw [h5]
          exact ⟨u, rfl, h6, fun _ e1 e2 => by rw [h7, fin e1 e2, h8]⟩
        · rename_i hnn
          rw [not_not] at hnn
          rw [hnn] at hlegs
          have hnn' := hlegs.eq_nil
          simp only [Except.ok.injEq, Prod.mk.injEq] at hok
          obtain ⟨rfl, rfl, rfl⟩ := hok
          rw [hnn']
          refine ⟨⟨st1.nextTensor, [], none, true, true, 1⟩, ?_, ⟨rfl, rfl, rfl, List.Perm.refl _, rfl, rfl⟩,
            fun _ _ _ => rfl⟩
          simp [newDiagonal, newScalarDiagonal, Store.setOwner]
    cases hoc : bondContract st1 ta tb bs with
    | error e => rw [hoc] at h; cases h
    | ok r =>
      obtain ⟨s, t, tb1⟩ := r
      rw [hoc] at h
      obtain ⟨u, h5, h6, h7⟩ := hbc hoc
      simp only [Except.ok.injEq] at h
      subst h
      rw [h5]
      exact ⟨⟨s, u, sa, sb⟩, rfl, rfl, h6, rfl, rfl, rfl, h7⟩

theorem like_contract [NonUnitalNonAssocSemiring R] (cast : R → R) {st : Store} (inv : BondInv st)
    {ta tb sa sb : Tensor R} (ga : GoodTensor st ta) (gb : GoodTensor st tb) (disj : ∀ x ∈ ta.legs, x ∉ tb.legs)
    (ha : ShapeOf ta sa) (hb : ShapeOf tb sb) {o : ContractOut R}
    (h : contractTwoTensors cast st ta tb none = .ok o) :
    ∃ o', contractTwoTensors cast st sa sb none = .ok o' ∧ o'.store = o.store ∧ ShapeOf o.result o'.result ∧
      o'.ta = sa ∧ o'.tb = sb ∧
      (ta.diag = tb.diag → sa.legs = ta.legs → sb.legs = tb.legs → o'.result.legs = o.result.legs) := by
  unfold contractTwoTensors at h ⊢
  rw [ha.diag, hb.diag]
  split at h
  · rename_i hsw
    cases hoc : contractOrdered cast st tb ta none with
    | error e => rw [hoc] at h; cases h
    | ok o1 =>
      rw [hoc] at h
      simp only [Except.map, Except.ok.injEq] at h
      subst h
      obtain ⟨o', h1, h2, h3, h4, h5, h6, h7⟩ :=
        like_ordered cast inv gb ga (fun x hx hx' => disj x hx' hx) hb ha hoc
      rw [if_pos hsw, h1]
      exact ⟨_, rfl, h2, h3, h5, h4, fun e1 e2 e3 => h7 e1.symm e3 e2⟩
  · rename_i hsw
    obtain ⟨o', h1, h2, h3, h4, h5, h6, h7⟩ := like_ordered cast inv ga gb disj ha hb h
    rw [if_neg hsw, h1]
    exact ⟨_, rfl, h2, h3, h4, h5, h7⟩

theorem like_cost {st : Store} (inv : BondInv st)
    {ta tb sa sb : Tensor R} (ga : GoodTensor st ta) (gb : GoodTensor st tb) (disj : ∀ x ∈ ta.legs, x ∉ tb.legs)
    (ha : ShapeOf ta sa) (hb : ShapeOf tb sb) : contractCost st sa sb = contractCost st ta tb := by
  obtain ⟨st1, bs, bs', h1, h2, hso, h3, h4⟩ := shareBonds_perm inv ga.nodup disj ha.legs hb.legs
  have hsn := hso.sameNet
  have hp := sharedPairs_perm inv ga.nodup disj ha.legs hb.legs
  have hi : (bs'.map fun b => st1.dim (st1.bond b).1).Perm (bs.map fun b => st1.dim (st1.bond b).1) := by
    have := hp.map fun p => st1.dim p.1
    rw [← h3, ← h4, List.map_map, List.map_map] at this
    exact this
  have e1 : (sa.shape st1).Perm (ta.shape st1) := by
    rw [shape_of_bare (ga.congr hsn) ha, shape_good (ga.congr hsn)]
    exact ha.legs.map _
  have e2 : (sb.shape st1).Perm (tb.shape st1) := by
    rw [shape_of_bare (gb.congr hsn) hb, shape_good (gb.congr hsn)]
    exact hb.legs.map _
  unfold contractCost
  simp only [ha.diag, hb.diag, ha.length, shareBonds, h1, h2, bind, Except.bind, tupleProduct_eq, hi.prod_eq,
    e1.prod_eq, e2.prod_eq, e1.length_eq, e2.length_eq, hi.length_eq]

theorem contractCost_same {st st1 : Store} (inv : BondInv st) {ta tb : Tensor R} {c lvl : Nat} (na : ta.legs.Nodup)
    (disj : ∀ x ∈ ta.legs, x ∉ tb.legs) (h : contractCost st ta tb = .ok (st1, c, lvl)) :
    SameUpToOrientation st st1 := by
  unfold contractCost at h
  split at h
  · simp only [Except.ok.injEq, Prod.mk.injEq] at h
    rw [← h.1]
    exact .refl st
  · obtain ⟨st2, bs, hsb, hso, _⟩ := shareBondsLoop_spec tb.legs ta.legs st inv na disj
    simp only [shareBonds, hsb, bind, Except.bind] at h
    split at h
    · cases h
    · split at h <;>
      · simp only [pure, Except.pure, Except.ok.injEq, Prod.mk.injEq] at h
        rw [← h.1]
        exact hso

theorem like_seqStep [NonUnitalNonAssocSemiring R] (cast : R → R) {st st' : Store} (inv : BondInv st)
    {ts ts' ss : List (Tensor R)} {a b a' b' : Tensor R} {s t c : Nat} (ga : GoodTensor st a) (gb : GoodTensor st b)
    (disj : ∀ x ∈ a.legs, x ∉ b.legs) (ea : ts[s]? = some a) (eb : ts[t]? = some b) (ea' : ss[s]? = some a')
    (eb' : ss[t]? = some b') (ha : ShapeOf a a') (hb : ShapeOf b b') (h : seqStep cast st ts (s, t) = .ok (st', ts', c)) :
    ∃ o o' : ContractOut R, ts' = ((ts.set s o.ta).set t o.tb).set (min s t) o.result ∧
      seqStep cast st ss (s, t) = .ok (st', ((ss.set s o'.ta).set t o'.tb).set (min s t) o'.result, c) ∧
      ShapeOf o.result o'.result ∧
      (a.diag = b.diag → a'.legs = a.legs → b'.legs = b.legs → o'.result.legs = o.result.legs) := by
  unfold seqStep at h ⊢
  simp only [ea, eb, ea', eb', like_cost inv ga gb disj ha hb, bind, Except.bind] at h ⊢
  cases hc : contractCost st a b with
  | error e => rw [hc] at h; cases h
  | ok r =>
    obtain ⟨st1, c1, lvl⟩ := r
    have hso := contractCost_same inv ga.nodup disj hc
    have hsn := hso.sameNet
    simp only [hc] at h ⊢
    cases hk : contractTwoTensors cast st1 a b none with
    | error e => rw [hk] at h; cases h
    | ok o =>
      obtain ⟨o', ho', hst, hres, _, _, hexact⟩ :=
        like_contract cast (hso.inv inv) (ga.congr hsn) (gb.congr hsn) disj ha hb hk
      simp only [hk, ho', pure, Except.pure, Except.ok.injEq, Prod.mk.injEq] at h ⊢
      obtain ⟨rfl, rfl, rfl⟩ := h
      exact ⟨o, o', rfl, ⟨hst, rfl, rfl⟩, hres, hexact⟩

/-- The loop on shape-only tensors follows the loop on real ones. -/
theorem like_seqLoop [CommSemiring R] (cast : R → R) (seq : List (Nat × Nat)) :
    ∀ (st : Store) (ts ss : List (Tensor R)) (total : Nat) (live : List Nat), live.Nodup →
    (∀ i ∈ live, i < ts.length) → ss.length = ts.length → 0 ∈ live → GoodNet st (pick ts live) →
    (∀ l m, st.partner l = some m → Cross (pick ts live) l m → st.dim l ≠ 0) → validFrom live seq →
    ((∀ t ∈ pick ts live, t.diag = false) ∨ SafeSeq cast st ts seq) →
    (∀ i ∈ live, ∀ t s, ts[i]? = some t → ss[i]? = some s → ShapeOf t s) →
    ∃ st' ts' ss' total' t s, seqLoop cast st ts total seq = .ok (st', ts', total') ∧
      seqLoop cast st ss total seq = .ok (st', ss', total') ∧ ts'[0]? = some t ∧ ss'[0]? = some s ∧ ShapeOf t s ∧
      ((∀ t ∈ pick ts live, t.diag = false) →
        (∀ i ∈ live, ∀ t s, ts[i]? = some t → ss[i]? = some s → s.legs = t.legs) → s.legs = t.legs) := by
  induction seq with
  | nil =>
    intro st ts ss total live nd hlt hl h0 g hpos hv _ hm
    have e1 := List.getElem?_eq_getElem (hlt 0 h0)
    have e2 := List.getElem?_eq_getElem (l := ss) (i := 0) (by rw [hl]; exact hlt 0 h0)
    exact ⟨st, ts, ss, total, _, _, rfl, rfl, e1, e2, hm 0 h0 _ _ e1 e2, fun _ h => h 0 h0 _ _ e1 e2⟩
  | cons p seq ih =>
    obtain ⟨s, t⟩ := p
    intro st ts ss total live nd hlt hlen h0 g hpos hv hsafe hm
    obtain ⟨hs, ht, hne, hv'⟩ := hv
    have hmem : ∀ i ∈ live, ∀ x, ts[i]? = some x → x ∈ pick ts live := by
      intro i hi x hx
      exact List.mem_filterMap.mpr ⟨i, hi, hx⟩
    obtain ⟨a, b, o, st1, ea, eb, hperm, hso, ho, hcon, hstep, hmin, hrest, hperm'⟩ :=
      seqStep_spec cast nd hlt g hpos hs ht hne (by
        intro ta tb h1 h2
        rcases hsafe with hd | hd
        · exact Or.inl ⟨hd ta (hmem s hs ta h1), hd tb (hmem t ht tb h2)⟩
        · exact (hd ta tb h1 h2).1)
    have g' := g.perm hperm
    have ga := g'.good a (by simp)
    have gb := g'.good b (by simp)
    have dab := g'.split.1
    have hsn := hso.sameNet
    obtain ⟨a', ea'⟩ : ∃ a', ss[s]? = some a' := ⟨_, List.getElem?_eq_getElem (by rw [hlen]; exact hlt s hs)⟩
    obtain ⟨b', eb'⟩ : ∃ b', ss[t]? = some b' := ⟨_, List.getElem?_eq_getElem (by rw [hlen]; exact hlt t ht)⟩
    have sa := hm s hs a a' ea ea'
    have sb := hm t ht b b' eb eb'
    obtain ⟨o1, o2, h1, h2, h3, h4⟩ := like_seqStep cast g.inv ga gb dab ea eb ea' eb' sa sb hstep
    generalize hts' : ((ts.set s o.ta).set t o.tb).set (min s t) o.result = ts' at *
    generalize hss' : ((ss.set s o2.ta).set t o2.tb).set (min s t) o2.result = ss' at *
    have hr1 : o1.result = o.result := by
      have : ts'[min s t]? = some o1.result := by
        rw [h1, List.getElem?_set_self]
        simp only [List.length_set]
        have := hlt s hs
        omega
      rw [hmin] at this
      exact (Option.some.inj this).symm
    have hmin' : ss'[min s t]? = some o2.result := by
      rw [← hss', List.getElem?_set_self]
      simp only [List.length_set, hlen]
      have := hlt s hs
      omega
    have hrest' : ∀ i, i ≠ s → i ≠ t → ss'[i]? = ss[i]? := by
      intro i h1 h2
      have h3 : min s t ≠ i := by omega
      rw [← hss', List.getElem?_set_ne h3, List.getElem?_set_ne h2.symm, List.getElem?_set_ne h1.symm]
    have hl1 : ts'.length = ts.length := by rw [← hts']; simp
    have hl2 : ss'.length = ss.length := by rw [← hss']; simp
    have hsame := hcon.same
    have hpart := hsame.partner g.inv
    have gn := step_goodNet g' hcon
    have dense_step : (∀ t ∈ pick ts live, t.diag = false) → o.result.diag = false := by
      intro hd
      obtain ⟨o3, ho3, _, hd3, _⟩ := contract_dense cast (hso.inv g.inv) (ga.congr hsn) (gb.congr hsn)
        (hd a (hmem s hs a ea)) (hd b (hmem t ht b eb)) dab
      rw [ho] at ho3
      cases ho3
      exact hd3
    have dense' : (∀ t ∈ pick ts live, t.diag = false) →
        ∀ x ∈ pick ts' (live.erase (max s t)), x.diag = false := by
      intro hd x hx
      rw [hperm'.mem_iff, List.mem_cons] at hx
      rcases hx with rfl | hx
      · exact dense_step hd
      · exact hd x (hperm.mem_iff.mpr (by simp [hx]))
    have h0' : 0 ∈ live.erase (max s t) := by
      apply (List.mem_erase_of_ne _).mpr h0
      omega
    have slot : ∀ i ∈ live.erase (max s t), ∀ x y, ts'[i]? = some x → ss'[i]? = some y →
        (x = o.result ∧ y = o2.result) ∨ (i ∈ live ∧ ts[i]? = some x ∧ ss[i]? = some y) := by
      intro i hi x y hx hy
      have hi1 := nd.mem_erase_iff.mp hi
      by_cases him : i = min s t
      · subst him
        rw [hmin] at hx
        rw [hmin'] at hy
        exact Or.inl ⟨(Option.some.inj hx).symm, (Option.some.inj hy).symm⟩
      · have hi2 : i ≠ s ∧ i ≠ t := by omega
        have hi3 : i ∈ (live.erase s).erase t :=
          (List.mem_erase_of_ne hi2.2).mpr ((List.mem_erase_of_ne hi2.1).mpr hi1.2)
        rw [hrest i hi3] at hx
        rw [hrest' i hi2.1 hi2.2] at hy
        exact Or.inr ⟨hi1.2, hx, hy⟩
    obtain ⟨st', ts2, ss2, total', x, y, k1, k2, k3, k4, k5, k6⟩ := ih o.store ts' ss'
      (total + (if a.diag && b.diag then a.length
         else if a.diag || b.diag then ((mergeLegLists st a.legs b.legs).map st.dim).prod
         else pairCost st a.legs b.legs)) (live.erase (max s t))
      (nd.erase _) (by intro i hi; rw [hl1]; exact hlt i (List.mem_of_mem_erase hi)) (by rw [hl1, hl2, hlen]) h0'
      (gn.perm hperm'.symm) (by
        intro l m hp hc
        rw [hpart] at hp
        rw [cross_perm hperm'] at hc
        rw [hsame.dim]
        exact hpos l m hp ((cross_perm hperm l m).mpr ((cross_step g' hcon hp).mpr (Or.inr hc))))
      hv' (by
        rcases hsafe with hd | hd
        · exact Or.inl (dense' hd)
        · exact Or.inr ((hd a b ea eb).2 _ _ _ hstep)) (by
        intro i hi x y hx hy
        rcases slot i hi x y hx hy with ⟨rfl, rfl⟩ | ⟨h5, h6, h7⟩
        · rw [← hr1]; exact h3
        · exact hm i h5 x y h6 h7)
    refine ⟨st', ts2, ss2, total', x, y, ?_, ?_, k3, k4, k5, ?_⟩
    · unfold seqLoop
      rw [hstep]
      exact k1
    · unfold seqLoop
      rw [h2]
      exact k2
    · intro hd he
      refine k6 (dense' hd) ?_
      intro i hi x y hx hy
      rcases slot i hi x y hx hy with ⟨rfl, rfl⟩ | ⟨h5, h6, h7⟩
      · rw [← hr1]
        exact h4 (by rw [hd a (hmem s hs a ea), hd b (hmem t ht b eb)]) (he s hs a a' ea ea') (he t ht b b' eb eb')
      · exact he i h5 x y h6 h7

end CTL
