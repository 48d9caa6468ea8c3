import Verif.Lemmas.Bonds
import Verif.Spec.Contraction

/-! Helper lemmas: contraction of dense tensors. -/

namespace CTL
variable {R : Type}

theorem SameNet.refl (st : Store) : SameNet st st := ⟨rfl, rfl, fun _ => rfl, fun _ _ => rfl, id, rfl, rfl⟩

theorem SameNet.trans {a b c : Store} (h1 : SameNet a b) (h2 : SameNet b c) : SameNet a c :=
  ⟨h2.dim.trans h1.dim, h2.name.trans h1.name, fun l => (h2.bondOf l).trans (h1.bondOf l),
    fun i l => (h2.partner (h1.inv i) l).trans (h1.partner i l), fun i => h2.inv (h1.inv i),
    h2.nextLeg.trans h1.nextLeg, h2.nextBond.trans h1.nextBond⟩

theorem SameUpToOrientation.sameNet {a b : Store} (h : SameUpToOrientation a b) : SameNet a b :=
  ⟨h.dim, by funext l; unfold Store.name; rw [h.leg], fun l => by rw [h.leg],
    fun i l => h.partner i l, fun i => h.inv i, h.nextLeg, h.nextBond⟩

/-- A store that differs in the owners of legs and in the counters only. -/
theorem sameNet_of_owner {a b : Store}
    (h : ∀ l, (b.leg l).dim = (a.leg l).dim ∧ (b.leg l).name = (a.leg l).name ∧
      (b.leg l).bond = (a.leg l).bond) (hb : b.bond = a.bond) (hn : b.nextLeg = a.nextLeg)
    (hm : b.nextBond = a.nextBond) : SameNet a b := by
  have hp : ∀ l, b.partner l = a.partner l := by
    intro l
    unfold Store.partner
    rw [(h l).2.2, hb]
  have hdim : b.dim = a.dim := by funext l; exact (h l).1
  refine ⟨hdim, by funext l; exact (h l).2.1, fun l => (h l).2.2, fun _ l => hp l, ?_, hn, hm⟩
  intro inv l x hx
  rw [(h l).2.2] at hx
  have := inv l x hx
  rw [hb, hdim, (h _).2.2, (h _).2.2]
  exact this

theorem setOwner_leg (st : Store) (legs : List LegId) (t : TensorId) (l : LegId) :
    (((st.setOwner legs t).leg l).dim = (st.leg l).dim ∧
      ((st.setOwner legs t).leg l).name = (st.leg l).name ∧
      ((st.setOwner legs t).leg l).bond = (st.leg l).bond) ∧ (st.setOwner legs t).bond = st.bond := by
  unfold Store.setOwner
  induction legs generalizing st with
  | nil => simp
  | cons x xs ih =>
    simp only [List.foldl_cons]
    have := ih (st.setLeg x { st.leg x with tensor := some t })
    refine ⟨?_, this.2⟩
    obtain ⟨h1, h2, h3⟩ := this.1
    rw [h1, h2, h3]
    unfold Store.setLeg
    by_cases h : l = x
    · subst h; simp
    · simp [h]

theorem setOwner_next (st : Store) (legs : List LegId) (t : TensorId) :
    (st.setOwner legs t).nextLeg = st.nextLeg ∧ (st.setOwner legs t).nextBond = st.nextBond ∧
      (st.setOwner legs t).nextTensor = st.nextTensor := by
  unfold Store.setOwner
  induction legs generalizing st with
  | nil => simp
  | cons x xs ih =>
    simp only [List.foldl_cons]
    exact ih (st.setLeg x { st.leg x with tensor := some t })

theorem sameNet_setOwner (st : Store) (legs : List LegId) (t n : TensorId) :
    SameNet st { st.setOwner legs t with nextTensor := n } := by
  apply sameNet_of_owner
  · intro l; exact (setOwner_leg st legs t l).1
  · exact (setOwner_leg st legs t 0).2
  · exact (setOwner_next st legs t).1
  · exact (setOwner_next st legs t).2.1

/-- `Tensor(shape, data, legs)` succeeds when the sizes agree. -/
theorem newTensor_ok (st : Store) (legs : List LegId) (d : NDArray R)
    (hp : d.shape.prod = (legs.map st.dim).prod) :
    ∃ s t, newTensor st (legs.map st.dim) (some d) legs = .ok (s, t) ∧ SameNet st s ∧
      t = ⟨st.nextTensor, legs, some ⟨legs.map st.dim, d.data⟩, false, false, 0⟩ ∧
      s.nextTensor = st.nextTensor + 1 ∧ s.nextLeg = (st.setOwner legs st.nextTensor).nextLeg := by
  refine ⟨{ st.setOwner legs st.nextTensor with nextTensor := st.nextTensor + 1 },
    ⟨st.nextTensor, legs, some ⟨legs.map st.dim, d.data⟩, false, false, 0⟩, ?_, ?_, rfl, rfl, rfl⟩
  · unfold newTensor
    rw [if_neg (by simp)]
    simp only [NDArray.reshape, hp, if_true, Option.isNone_some]
  · exact sameNet_setOwner st legs _ _

theorem GoodTensor.congr {st st' : Store} {t : Tensor R} (h : SameNet st st') (g : GoodTensor st t) :
    GoodTensor st' t := by
  refine ⟨g.nodup, g.notLike, ?_⟩
  rw [h.dim]
  exact g.data

theorem toMatrix_cols [Zero R] {st : Store} {t : Tensor R} {arr : NDArray R} (nd : t.legs.Nodup)
    (nl : t.like = false) (ha : t.a = some arr) (hs : arr.shape = t.legs.map st.dim)
    (cols : List LegId) (hne : cols ≠ []) (ndc : cols.Nodup) (hsub : cols ⊆ t.legs) :
    ∃ m, t.toMatrix none (some cols) = .ok m ∧ m.WF ∧
      m.shape = [((t.legs.filter fun l => decide (l ∉ cols)).map st.dim).prod, (cols.map st.dim).prod] ∧
      ∀ σ : Assign, InRange st.dim t.legs σ →
        m.get [ravel ((t.legs.filter fun l => decide (l ∉ cols)).map st.dim)
            ((t.legs.filter fun l => decide (l ∉ cols)).map σ), ravel (cols.map st.dim) (cols.map σ)]
          = arr.get (t.legs.map σ) := by
  have hp := filter_append_perm t.legs cols nd ndc hsub
  obtain ⟨m, hm, hrest⟩ := toMatrix_core arr t.legs (t.legs.filter fun l => decide (l ∉ cols)) cols st.dim nd hp hs
  refine ⟨m, ?_, hrest⟩
  have hcl := (compareLists_iff_perm _ _).mpr hp
  have hml : t.matrixLegs none (some cols) = .ok ((t.legs.filter fun l => decide (l ∉ cols)), cols, (t.legs.filter fun l => decide (l ∉ cols)).map t.legs.idxOf, cols.map t.legs.idxOf) := by
    have hfs : (t.legs.filter fun l => decide (l ∉ cols)) ⊆ t.legs := fun x hx => List.mem_of_mem_filter hx
    unfold Tensor.matrixLegs Tensor.getLegIndices
    simp only [nl, Bool.false_eq_true, if_false, reduceCtorEq, and_false, false_and, or_false, false_or,
      Option.some.injEq, hne, Option.getD_some, nodup_diff t.legs cols nd ndc hsub, bind, Except.bind, pure,
      Except.pure, pyAssert, hcl, if_true, mapM_pyIndex t.legs cols hsub, mapM_pyIndex t.legs _ hfs]
  rw [← hm]
  unfold Tensor.toMatrix
  simp only [hml, ha, bind, Except.bind]

theorem toMatrix_rows [Zero R] {st : Store} {t : Tensor R} {arr : NDArray R} (nd : t.legs.Nodup)
    (nl : t.like = false) (ha : t.a = some arr) (hs : arr.shape = t.legs.map st.dim)
    (rows : List LegId) (hne : rows ≠ []) (ndc : rows.Nodup) (hsub : rows ⊆ t.legs) :
    ∃ m, t.toMatrix (some rows) none = .ok m ∧ m.WF ∧
      m.shape = [(rows.map st.dim).prod, ((t.legs.filter fun l => decide (l ∉ rows)).map st.dim).prod] ∧
      ∀ σ : Assign, InRange st.dim t.legs σ →
        m.get [ravel (rows.map st.dim) (rows.map σ),
            ravel ((t.legs.filter fun l => decide (l ∉ rows)).map st.dim)
              ((t.legs.filter fun l => decide (l ∉ rows)).map σ)]
          = arr.get (t.legs.map σ) := by
  have hp := List.perm_append_comm.trans (filter_append_perm t.legs rows nd ndc hsub)
  obtain ⟨m, hm, hrest⟩ := toMatrix_core arr t.legs rows (t.legs.filter fun l => decide (l ∉ rows)) st.dim nd hp hs
  refine ⟨m, ?_, hrest⟩
  have hcl := (compareLists_iff_perm _ _).mpr hp
  have hml : t.matrixLegs (some rows) none = .ok (rows, (t.legs.filter fun l => decide (l ∉ rows)), rows.map t.legs.idxOf, (t.legs.filter fun l => decide (l ∉ rows)).map t.legs.idxOf) := by
    have hfs : (t.legs.filter fun l => decide (l ∉ rows)) ⊆ t.legs := fun x hx => List.mem_of_mem_filter hx
    unfold Tensor.matrixLegs Tensor.getLegIndices
    simp only [nl, Bool.false_eq_true, if_false, reduceCtorEq, and_false, false_and, or_false, false_or,
      Option.some.injEq, hne, Option.getD_some, nodup_diff t.legs rows nd ndc hsub, bind, Except.bind, pure,
      Except.pure, pyAssert, hcl, if_true, mapM_pyIndex t.legs rows hsub, mapM_pyIndex t.legs _ hfs]
  rw [← hm]
  unfold Tensor.toMatrix
  simp only [hml, ha, bind, Except.bind]

theorem pairsOK_shared {st : Store} (inv : BondInv st) {la lb : List LegId} (na : la.Nodup)
    (nb : lb.Nodup) (hd : ∀ x ∈ la, x ∉ lb) : PairsOK st la lb (sharedPairs st la lb) := by
  refine ⟨sharedPairs_nodup inv na hd, ?_, ?_, ?_, na, nb, hd⟩
  · intro x hx
    rw [List.mem_map] at hx
    obtain ⟨p, hp, rfl⟩ := hx
    exact (mem_sharedPairs.mp hp).1
  · intro x hx
    rw [List.mem_map] at hx
    obtain ⟨p, hp, rfl⟩ := hx
    exact (mem_sharedPairs.mp hp).2.2
  · intro p hp
    exact partner_dim inv (mem_sharedPairs.mp hp).2.1

theorem PairsOK.nodupA {st la lb ps} (h : PairsOK st la lb ps) : (ps.map Prod.fst).Nodup :=
  (List.nodup_append.mp h.nodup).1

theorem PairsOK.nodupB {st la lb ps} (h : PairsOK st la lb ps) : (ps.map Prod.snd).Nodup :=
  (List.nodup_append.mp h.nodup).2.1

theorem PairsOK.assign_restA {st la lb ps} (h : PairsOK st la lb ps) (σ : Assign) (idx : List Nat) :
    (restA la ps).map (assign σ ps idx) = (restA la ps).map σ := by
  apply List.map_congr_left
  intro x hx
  simp only [restA, List.mem_filter, decide_eq_true_eq] at hx
  exact assign_other σ ps idx x hx.2 (fun hb => h.disj x hx.1 (h.subB hb))

theorem PairsOK.assign_restB {st la lb ps} (h : PairsOK st la lb ps) (σ : Assign) (idx : List Nat) :
    (restB lb ps).map (assign σ ps idx) = (restB lb ps).map σ := by
  apply List.map_congr_left
  intro x hx
  simp only [restB, List.mem_filter, decide_eq_true_eq] at hx
  exact assign_other σ ps idx x (fun ha => h.disj x (h.subA ha) hx.1) hx.2

theorem PairsOK.dimsB {st la lb ps} (h : PairsOK st la lb ps) :
    (ps.map Prod.snd).map st.dim = (ps.map Prod.fst).map st.dim := by
  rw [List.map_map, List.map_map]
  apply List.map_congr_left
  intro p hp
  exact h.dims p hp

theorem PairsOK.inRange {st la lb ps} (h : PairsOK st la lb ps) {σ : Assign}
    (hσ : InRange st.dim (restA la ps ++ restB lb ps) σ) {idx : List Nat}
    (hv : ValidIdx (ps.map fun p => st.dim p.1) idx) :
    InRange st.dim la (assign σ ps idx) ∧ InRange st.dim lb (assign σ ps idx) := by
  constructor
  · apply assign_inRange st.dim la σ ps idx hv h.dims
    intro l hl h1 _
    exact hσ l (by simp only [List.mem_append, restA, List.mem_filter, decide_eq_true_eq]; exact Or.inl ⟨hl, h1⟩)
  · apply assign_inRange st.dim lb σ ps idx hv h.dims
    intro l hl _ h2
    exact hσ l (by simp only [List.mem_append, restB, List.mem_filter, decide_eq_true_eq]; exact Or.inr ⟨hl, h2⟩)

theorem PairsOK.rest_nodup {st la lb ps} (h : PairsOK st la lb ps) :
    (restA la ps ++ restB lb ps).Nodup := by
  rw [List.nodup_append]
  refine ⟨h.na.filter _, h.nb.filter _, ?_⟩
  intro x hx y hy he
  subst he
  exact h.disj x (List.mem_of_mem_filter hx) (List.mem_of_mem_filter hy)

/-- The matrix product computed by the dense branch is the Einstein sum. -/
theorem dense_core [NonUnitalNonAssocSemiring R] {st : Store} {la lb : List LegId}
    {ps : List (LegId × LegId)} (h : PairsOK st la lb ps) (arrA arrB mA mB : NDArray R)
    (hA : mA.shape = [((restA la ps).map st.dim).prod, ((ps.map Prod.fst).map st.dim).prod])
    (hB : mB.shape = [((ps.map Prod.snd).map st.dim).prod, ((restB lb ps).map st.dim).prod])
    (gA : ∀ σ : Assign, InRange st.dim la σ →
      mA.get [ravel ((restA la ps).map st.dim) ((restA la ps).map σ),
        ravel ((ps.map Prod.fst).map st.dim) ((ps.map Prod.fst).map σ)] = arrA.get (la.map σ))
    (gB : ∀ σ : Assign, InRange st.dim lb σ →
      mB.get [ravel ((ps.map Prod.snd).map st.dim) ((ps.map Prod.snd).map σ),
        ravel ((restB lb ps).map st.dim) ((restB lb ps).map σ)] = arrB.get (lb.map σ)) :
    ∃ p, mA.matmul mB = .ok p ∧ p.WF ∧
      p.shape = [((restA la ps).map st.dim).prod, ((restB lb ps).map st.dim).prod] ∧
      ∀ σ : Assign, InRange st.dim (restA la ps ++ restB lb ps) σ →
        (⟨(restA la ps ++ restB lb ps).map st.dim, p.data⟩ : NDArray R).get
            ((restA la ps ++ restB lb ps).map σ)
          = sumBonds st.dim ps (fun τ => arrA.get (la.map τ) * arrB.get (lb.map τ)) σ := by
  have hk : ((ps.map Prod.snd).map st.dim) = ((ps.map Prod.fst).map st.dim) := h.dimsB
  refine ⟨_, by unfold NDArray.matmul; rw [hA, hB]; simp only [hk, if_true]; rfl, NDArray.build_wf _ _, rfl, ?_⟩
  intro σ hσ
  have hvA : ValidIdx ((restA la ps).map st.dim) ((restA la ps).map σ) :=
    validIdx_map _ σ st.dim (fun x hx => hσ x (by simp [hx]))
  have hvB : ValidIdx ((restB lb ps).map st.dim) ((restB lb ps).map σ) :=
    validIdx_map _ σ st.dim (fun x hx => hσ x (by simp [hx]))
  rw [List.map_append, List.map_append]
  rw [← get_matrix _ ((restA la ps).map st.dim) ((restB lb ps).map st.dim) _ _ rfl hvA]
  change (NDArray.build [((restA la ps).map st.dim).prod, ((restB lb ps).map st.dim).prod] _).get _ = _
  rw [NDArray.get_build]
  · simp only [List.getD_cons_zero, List.getD_cons_succ]
    rw [sum_range_prod, sumBonds_eq]
    have hdims : (ps.map Prod.fst).map st.dim = ps.map fun p => st.dim p.1 := by
      rw [List.map_map]; rfl
    rw [hdims]
    congr 1
    apply List.map_congr_left
    intro idx hidx
    have hv := mem_indices.mp hidx
    obtain ⟨r1, r2⟩ := h.inRange hσ hv
    obtain ⟨a1, a2⟩ := assign_pairs σ ps idx (by simpa using hv.length) h.nodup
    have eA := gA _ r1
    have eB := gB _ r2
    rw [h.assign_restA, a1, hdims] at eA
    rw [h.assign_restB, a2, hk, hdims] at eB
    rw [eA, eB]
  · simp only [validIdx_cons]
    exact ⟨ravel_lt hvA, ravel_lt hvB, validIdx_nil⟩

/-- The dense branch over a non-empty list of bonds leading from `ta` to `tb`. -/
theorem bondContract_dense [NonUnitalNonAssocSemiring R] {st1 : Store}
    {ta tb : Tensor R} (ga : GoodTensor st1 ta) (gb : GoodTensor st1 tb) (da : ta.diag = false)
    (db : tb.diag = false) {bs : List BondId} {ps : List (LegId × LegId)} (hpairs : bs.map st1.bond = ps)
    (ok : PairsOK st1 ta.legs tb.legs ps) (hne : ps ≠ []) :
    ∃ s t, bondContract st1 ta tb bs = .ok (s, t, tb) ∧ t.legs = restA ta.legs ps ++ restB tb.legs ps ∧
      t.diag = false ∧ Contracted st1 ta tb ps ⟨s, t, ta, tb⟩ := by
  obtain ⟨arrA, hA, wA, sA, _⟩ := ga.data
  obtain ⟨arrB, hB, wB, sB, _⟩ := gb.data
  have sA := sA da
  have sB := sB db
  have eA : ∀ τ, entry ta τ = arrA.get (ta.legs.map τ) := by intro τ; simp [entry, hA, da]
  have eB : ∀ τ, entry tb τ = arrB.get (tb.legs.map τ) := by intro τ; simp [entry, hB, db]
  have hbonds : bs.map (fun b => (st1.bond b).1) = ps.map Prod.fst := by
    rw [← hpairs, List.map_map]; rfl
  have hbonds2 : bs.map (fun b => (st1.bond b).2) = ps.map Prod.snd := by
    rw [← hpairs, List.map_map]; rfl
  obtain ⟨mA, hmA, _, smA, gmA⟩ := toMatrix_cols (st := st1) ga.nodup ga.notLike hA sA (ps.map Prod.fst)
    (by simpa using hne) ok.nodupA ok.subA
  obtain ⟨mB, hmB, _, smB, gmB⟩ := toMatrix_rows (st := st1) gb.nodup gb.notLike hB sB (ps.map Prod.snd)
    (by simpa using hne) ok.nodupB ok.subB
  obtain ⟨p, hp, wp, sp, gp⟩ := dense_core ok arrA arrB mA mB smA smB gmA gmB
  have hprod : p.shape.prod = ((restA ta.legs ps ++ restB tb.legs ps).map st1.dim).prod := by
    rw [sp]; simp
  obtain ⟨s, t, h1, h2, h3, _⟩ := newTensor_ok st1 (restA ta.legs ps ++ restB tb.legs ps)
    ⟨(restA ta.legs ps ++ restB tb.legs ps).map st1.dim, p.data⟩ (by simp)
  refine ⟨s, t, ?_, by rw [h3], by rw [h3], ?_⟩
  · unfold bondContract
    simp only [hbonds, hbonds2, Tensor.complementLegs,
      nodup_diff ta.legs _ ga.nodup ok.nodupA ok.subA, nodup_diff tb.legs _ gb.nodup ok.nodupB ok.subB,
      bind, Except.bind, da, db, Bool.and_self, Bool.false_eq_true, if_false, ga.notLike, hmA, hmB, hp]
    have hre : p.reshape ((restA ta.legs ps ++ restB tb.legs ps).map st1.dim)
        = .ok ⟨(restA ta.legs ps ++ restB tb.legs ps).map st1.dim, p.data⟩ := by
      simp only [NDArray.reshape, hprod, if_true]
    simp only [restA, restB] at hre h1
    simp only [hre, h1]
    rfl
  · subst h3
    refine ⟨.rfl, ⟨ok.rest_nodup, rfl, ?_⟩, h2, ?_, ⟨.rfl, ga.congr h2, fun _ _ => rfl⟩,
      ⟨.rfl, gb.congr h2, fun _ _ => rfl⟩⟩
    · refine ⟨_, rfl, ?_, fun _ => ?_, fun h => by simp at h⟩
      · simp only [NDArray.WF]; rw [← hprod]; exact wp
      · simp only [h2.dim]
    · intro σ hσ
      simp only [eA, eB]
      rw [← gp σ hσ]
      simp only [entry, Bool.false_eq_true, if_false]

/-- The dense branch without bonds. -/
theorem outerContract_dense [NonUnitalNonAssocSemiring R] (cast : R → R) {st1 : Store}
    {ta tb : Tensor R} (ga : GoodTensor st1 ta) (gb : GoodTensor st1 tb) (da : ta.diag = false)
    (db : tb.diag = false) (disj : ∀ x ∈ ta.legs, x ∉ tb.legs) :
    ∃ s t, outerContract cast st1 ta tb = .ok (s, t) ∧ t.legs = ta.legs ++ tb.legs ∧
      t.diag = false ∧ Contracted st1 ta tb [] ⟨s, t, ta, tb⟩ := by
  obtain ⟨arrA, hA, wA, sA, _⟩ := ga.data
  obtain ⟨arrB, hB, wB, sB, _⟩ := gb.data
  have sA := sA da
  have sB := sB db
  have eA : ∀ τ, entry ta τ = arrA.get (ta.legs.map τ) := by intro τ; simp [entry, hA, da]
  have eB : ∀ τ, entry tb τ = arrB.get (tb.legs.map τ) := by intro τ; simp [entry, hB, db]
  have hshape : ta.shape st1 ++ tb.shape st1 = (ta.legs ++ tb.legs).map st1.dim := by
    unfold Tensor.shape
    simp [da, db, hA, hB, sA, sB]
  obtain ⟨s, t, h1, h2, h3, _⟩ := newTensor_ok st1 (ta.legs ++ tb.legs) (arrA.outer arrB)
    (by simp [NDArray.outer, sA, sB])
  refine ⟨s, t, ?_, by rw [h3], by rw [h3], ?_⟩
  · simp only [outerContract, da, db, Bool.and_self, Bool.false_eq_true, if_false,
      ga.notLike, hA, hB, hshape, h1]
  · subst h3
    refine ⟨by simp [restA, restB], ⟨?_, rfl, ?_⟩, h2, ?_, ⟨.rfl, ga.congr h2, fun _ _ => rfl⟩,
      ⟨.rfl, gb.congr h2, fun _ _ => rfl⟩⟩
    · rw [List.nodup_append]
      exact ⟨ga.nodup, gb.nodup, fun x hx y hy he => disj x hx (he ▸ hy)⟩
    · refine ⟨_, rfl, ?_, fun _ => ?_, fun h => by simp at h⟩
      · simp only [NDArray.WF, NDArray.outer, NDArray.build, List.length_map, indices_length, sA, sB,
          List.map_append]
      · simp only [h2.dim]
    · intro σ hσ
      simp only [sumBonds, eA, eB]
      simp only [entry, Bool.false_eq_true, if_false]
      rw [NDArray.get_mk_reshape (arrA.outer arrB) _ _ ((ta.legs ++ tb.legs).map σ)
        (by simp [NDArray.outer, sA, sB])]
      unfold NDArray.outer
      rw [NDArray.get_build]
      · simp [sA]
      · rw [sA, sB, ← List.map_append]
        exact validIdx_map _ σ st1.dim hσ

theorem Contracted.congr [NonUnitalNonAssocSemiring R] {st st1 : Store} (h : SameNet st st1)
    {ta tb : Tensor R} {ps : List (LegId × LegId)} {o : ContractOut R} (c : Contracted st1 ta tb ps o) :
    Contracted st ta tb ps o := by
  refine ⟨c.legs, c.good, h.trans c.same, ?_, ?_, ?_⟩
  · rw [← h.dim]; exact c.entry
  · rw [← h.dim]; exact c.keepA
  · rw [← h.dim]; exact c.keepB

theorem contract_dense [NonUnitalNonAssocSemiring R] (cast : R → R) {st : Store} (inv : BondInv st)
    {ta tb : Tensor R} (ga : GoodTensor st ta) (gb : GoodTensor st tb) (da : ta.diag = false)
    (db : tb.diag = false) (disj : ∀ x ∈ ta.legs, x ∉ tb.legs) :
    ∃ o, contractTwoTensors cast st ta tb none = .ok o ∧
      o.result.legs = restA ta.legs (sharedPairs st ta.legs tb.legs)
        ++ restB tb.legs (sharedPairs st ta.legs tb.legs) ∧ o.result.diag = false ∧
      Contracted st ta tb (sharedPairs st ta.legs tb.legs) o := by
  obtain ⟨st1, bs, hsb, hso, hpairs, _, _⟩ := shareBondsLoop_spec tb.legs ta.legs st inv ga.nodup disj
  have ok : PairsOK st1 ta.legs tb.legs (sharedPairs st ta.legs tb.legs) := by
    have := pairsOK_shared (hso.inv inv) ga.nodup gb.nodup disj
    rwa [sharedPairs_congr (hso.partner inv)] at this
  have ga1 := ga.congr hso.sameNet
  have gb1 := gb.congr hso.sameNet
  unfold contractTwoTensors
  simp only [da, db, Bool.not_false, Bool.true_and, Bool.false_eq_true, if_false]
  unfold contractOrdered
  simp only [shareBonds, hsb, bind, Except.bind, ga.notLike, gb.notLike, ne_eq, not_true_eq_false,
    if_false, pure, Except.pure]
  by_cases hbs : bs = []
  · have hnil : sharedPairs st ta.legs tb.legs = [] := by rw [← hpairs, hbs]; rfl
    obtain ⟨s, t, h1, h2, h3, h4⟩ := outerContract_dense cast ga1 gb1 da db disj
    refine ⟨⟨s, t, ta, tb⟩, ?_, ?_, h3, ?_⟩
    · simp only [hbs, if_true, h1]
    · rw [hnil]; simp [restA, restB, h2]
    · rw [hnil]; exact h4.congr hso.sameNet
  · have hne : sharedPairs st ta.legs tb.legs ≠ [] := by
      intro h; rw [h] at hpairs; simp at hpairs; exact hbs hpairs
    obtain ⟨s, t, h1, h2, h3, h4⟩ := bondContract_dense ga1 gb1 da db hpairs ok hne
    refine ⟨⟨s, t, ta, tb⟩, ?_, h2, h3, h4.congr hso.sameNet⟩
    simp only [hbs, if_false, h1]

end CTL
