import Verif.Lemmas.MoveStep
import Verif.Model.ContractMPS

/-! `doubleMerge`: two bonds between two chains become one. -/

namespace CTL
variable {R : Type}

theorem filter_two {legs Q fs : List LegId} {u v : LegId} (p : legs.Perm (u :: v :: Q)) (nd : legs.Nodup) (f : fs.Perm [u, v]) :
    (legs.filter fun l => decide (l ∉ fs)).Perm Q := by
  have nd' := p.nodup_iff.mp nd
  rw [List.nodup_cons, List.nodup_cons] at nd'
  refine (p.filter _).trans ?_
  rw [List.filter_cons_of_neg (by simp [f.mem_iff]), List.filter_cons_of_neg (by simp [f.mem_iff]), List.filter_eq_self.mpr]
  intro a ha
  simp only [f.mem_iff, List.mem_cons, List.not_mem_nil, or_false, decide_eq_true_eq, not_or]
  exact ⟨fun e => nd'.1 (by rw [← e]; exact List.mem_cons_of_mem _ ha), fun e => nd'.2.1 (e ▸ ha)⟩

theorem filter_one {legs Q : List LegId} {u : LegId} (p : legs.Perm (u :: Q)) (nd : legs.Nodup) :
    (legs.filter fun l => decide (l ∉ [u])).Perm Q := by
  have nd' := p.nodup_iff.mp nd
  rw [List.nodup_cons] at nd'
  refine (p.filter _).trans ?_
  rw [List.filter_cons_of_neg (by simp), List.filter_eq_self.mpr]
  intro a ha
  simp only [List.mem_singleton, decide_eq_true_eq]
  exact fun e => nd'.1 (e ▸ ha)

namespace Duo
variable [CommSemiring R] {st st' : Store} {N A B A' B' : List (Tensor R)}

/-- A step on a part of the first group. -/
theorem partA (d : Duo st N A B) {K M M' : List (Tensor R)} (p : A.Perm (K ++ M)) (h : Step st M st' M') (q : A'.Perm (K ++ M')) :
    Step st A st' A' := by
  have P : (N ++ (A ++ B)).Perm ((N ++ B) ++ (K ++ M)) := by
    rw [List.append_assoc]
    exact List.Perm.append_left _ (List.perm_append_comm.trans (List.Perm.append_left _ p))
  have d' : Duo st (N ++ B) K M := ⟨d.sound.perm P, (SameValue.of_perm d.sound.goodNet P).live d.live⟩
  exact (d'.onB h).perm p.symm q.symm

/-- Two neighbours of the first chain contracted. -/
theorem foldA (cast : R → R) (d : Duo st N A B) {phys : List LegId} {lft rgt : Nat → LegId} (C : Chain st A phys lft rgt) {i : Nat}
    (hi : i + 1 < A.length) {a0 a1 : Tensor R} (h0 : A[i]? = some a0) (h1 : A[i + 1]? = some a1) :
    ∃ o, contractTwoTensors cast st a0 a1 none = .ok o ∧ SameNet st o.store ∧
      o.result.legs.Perm (phys.getD i 0 :: phys.getD (i + 1) 0 ::
        ((if i + 2 < A.length then [rgt (i + 1)] else []) ++ (if 0 < i then [lft i] else []))) ∧
      Step st A o.store (A.take i ++ o.result :: A.drop (i + 2)) := by
  have P := C.pair hi h0 h1
  obtain ⟨o, e, s, n, l⟩ := contract_step cast C.wf P.goodA P.goodB P.denseA P.denseB P.disj
  rw [P.shared] at l
  refine ⟨o, e, n, ?_, ?_⟩
  · rw [l]
    refine (P.rest_a.append P.rest_b).trans ?_
    rw [List.cons_append]
    refine List.Perm.cons _ (List.perm_middle.trans (List.Perm.cons _ ?_))
    exact List.perm_append_comm
  · refine d.partA (K := A.take i ++ A.drop (i + 2)) ((two_front h0 h1).trans ?_) s ?_
    · exact List.perm_append_comm (l₁ := [a0, a1])
    · refine List.perm_middle.trans ?_
      exact List.perm_append_comm (l₁ := [o.result])

end Duo

theorem glued_front {α : Type} (l : List α) (i : Nat) (w : α) :
    (l.take i ++ w :: l.drop (i + 2)).Perm ((l.take i ++ l.drop (i + 2)) ++ [w]) :=
  List.perm_middle.trans (List.perm_append_comm (l₁ := [w]))

/-- The partner of a leg between two sites of a chain is a leg of the chain. -/
theorem Chain.inner_partner [Zero R] {st : Store} {ts : List (Tensor R)} {phys : List LegId} {lft rgt : Nat → LegId}
    (C : Chain st ts phys lft rgt) {i : Nat} (hi : i < ts.length) {l m : LegId}
    (hl : l ∈ (if i + 1 < ts.length then [rgt i] else []) ++ (if 0 < i then [lft i] else [])) (hm : st.partner l = some m) :
    ∃ t ∈ ts, m ∈ t.legs := by
  rcases List.mem_append.mp hl with h | h
  · split at h
    · rename_i c
      rw [List.mem_singleton.mp h, C.joined i c] at hm
      obtain ⟨t, -, ht, hp⟩ := C.site c
      exact ⟨t, ht, hp.mem_iff.mpr (Chain.mem_siteLegs.mpr (.inr (.inr ⟨Nat.succ_pos _, (Option.some.inj hm).symm⟩)))⟩
    · cases h
  · split at h
    · rename_i c
      obtain ⟨i, rfl⟩ : ∃ c, i = c + 1 := ⟨i - 1, by omega⟩
      rw [List.mem_singleton.mp h, partner_symm C.wf.inv (C.joined i hi)] at hm
      obtain ⟨t, -, ht, hp⟩ := C.site (Nat.lt_of_succ_lt hi)
      exact ⟨t, ht, hp.mem_iff.mpr (Chain.mem_siteLegs.mpr (.inr (.inl ⟨hi, (Option.some.inj hm).symm⟩)))⟩
    · cases h

theorem Duo.disj [CommSemiring R] {st : Store} {N A B : List (Tensor R)} (d : Duo st N A B) {t u : Tensor R} (ht : t ∈ A) (hu : u ∈ B)
    {l : LegId} (h1 : l ∈ t.legs) : l ∉ u.legs := d.sound.owned.right.disj ht hu h1

theorem Chain.phys_mem [Zero R] {st : Store} {ts : List (Tensor R)} {phys : List LegId} {lft rgt : Nat → LegId}
    (C : Chain st ts phys lft rgt) {p : LegId} (hp : p ∈ phys) : ∃ t ∈ ts, p ∈ t.legs := by
  obtain ⟨j, hj, rfl⟩ := (Chain.mem_phys C.len).mp hp
  obtain ⟨t, -, ht, hl⟩ := C.site hj
  exact ⟨t, ht, hl.mem_iff.mpr (Chain.mem_siteLegs.mpr (.inl rfl))⟩

/-- The first half of `doubleMerge`: two neighbours of each chain are contracted, and the two bonds between them are
fused. -/
theorem fuse_chains [CommSemiring R] (la : LinAlg R) (cast castF : R → R) {st : Store} {N A B : List (Tensor R)} (d : Duo st N A B)
    {PA PB : List LegId} {lA rA lB rB : Nat → LegId} (CA : Chain st A PA lA rA) (CB : Chain st B PB lB rB) {i j : Nat}
    (hi : i + 1 < A.length) (hj : j + 1 < B.length) {a0 a1 b0 b1 : Tensor R} (ha0 : A[i]? = some a0) (ha1 : A[i + 1]? = some a1)
    (hb0 : B[j]? = some b0) (hb1 : B[j + 1]? = some b1) {w0 w1 : LegId} (k0 : st.partner (PA.getD i 0) = some w0)
    (k1 : st.partner (PA.getD (i + 1) 0) = some w1) (w : [w0, w1].Perm [PB.getD j 0, PB.getD (j + 1) 0]) {W : Nat}
    (wA : Within st A W) (wB : Within st B W) (big : st.dim (PA.getD i 0) * st.dim (PA.getD (i + 1) 0) ≤ W) :
    ∃ oa ob st' ta tb x y, contractTwoTensors cast st a0 a1 none = .ok oa ∧ contractTwoTensors cast oa.store b0 b1 none = .ok ob ∧
      merge la castF ob.store oa.result ob.result none (.one "o") = .ok (st', ta, tb) ∧
      Step st (A ++ B) st' ((A.take i ++ ta :: A.drop (i + 2)) ++ (B.take j ++ tb :: B.drop (j + 2))) ∧
      IsChain st' (A.take i ++ ta :: A.drop (i + 2)) (PA.take i ++ x :: PA.drop (i + 2)) ∧
      IsChain st' (B.take j ++ tb :: B.drop (j + 2)) (PB.take j ++ y :: PB.drop (j + 2)) ∧
      st'.partner x = some y ∧ st.nextLeg ≤ x ∧ st.nextLeg ≤ y ∧
      Within st' (A.take i ++ ta :: A.drop (i + 2)) W ∧ Within st' (B.take j ++ tb :: B.drop (j + 2)) W := by
  obtain ⟨oa, e1, n1, l1, s1⟩ := d.foldA cast CA hi ha0 ha1
  have f1 := d.onA s1
  have d1 := d.both f1
  have CB1 := d.carryB s1 CB
  obtain ⟨ob, e2, n2, l2, s2⟩ := d1.swap.foldA cast CB1 hj hb0 hb1
  have f2 := d1.onB s2
  have d2 := d1.both f2
  have wf := d.sound.wf
  have part : ∀ l, ob.store.partner l = st.partner l := fun l => by rw [n2.partner (n1.inv wf.inv), n1.partner wf.inv]
  have dims : ob.store.dim = st.dim := by rw [n2.dim, n1.dim]
  have nl : ob.store.nextLeg = st.nextLeg := by rw [n2.nextLeg, n1.nextLeg]
  have nm : ∀ l, ob.store.name l = st.name l := fun l => by rw [n2.name, n1.name]
  set A1 := A.take i ++ oa.result :: A.drop (i + 2) with hA1
  set B1 := B.take j ++ ob.result :: B.drop (j + 2) with hB1
  have mA : oa.result ∈ A1 := by rw [hA1]; simp
  have mB : ob.result ∈ B1 := by rw [hB1]; simp
  have T : Two ob.store (N ++ (A1 ++ B1)) (N ++ ((A.take i ++ A.drop (i + 2)) ++ (B.take j ++ B.drop (j + 2)))) oa.result ob.result := by
    refine ⟨d2.sound, ?_⟩
    rw [List.append_assoc N]
    refine List.Perm.append_left _ ?_
    refine ((glued_front A i _).append (glued_front B j _)).trans ?_
    generalize A.take i ++ A.drop (i + 2) = X
    generalize B.take j ++ B.drop (j + 2) = Y
    rw [List.append_assoc, List.append_assoc]
    refine List.Perm.append_left _ ?_
    rw [← List.append_assoc]
    exact (List.Perm.append_right _ List.perm_append_comm).trans (by rw [List.append_assoc]; rfl)
  have gA : oa.result.legs.Nodup := (d2.sound.good _ T.memA).nodup
  have gB : ob.result.legs.Nodup := (d2.sound.good _ T.memB).nodup
  have inA : ∀ l ∈ oa.result.legs, ∃ t ∈ A, l ∈ t.legs := by
    intro l hl
    rcases List.mem_cons.mp (l1.mem_iff.mp hl) with e | hl
    · exact e ▸ CA.phys_mem ((Chain.mem_phys CA.len).mpr ⟨i, by omega, rfl⟩)
    rcases List.mem_cons.mp hl with e | hl
    · exact e ▸ CA.phys_mem ((Chain.mem_phys CA.len).mpr ⟨i + 1, by omega, rfl⟩)
    rcases List.mem_append.mp hl with hl | hl
    · split at hl
      · rename_i c
        obtain ⟨t, -, ht, hp⟩ := CA.site hi
        exact ⟨t, ht, hp.mem_iff.mpr (Chain.mem_siteLegs.mpr (.inr (.inl ⟨c, List.mem_singleton.mp hl⟩)))⟩
      · cases hl
    · split at hl
      · rename_i c
        obtain ⟨t, -, ht, hp⟩ := CA.site (Nat.lt_of_succ_lt hi)
        exact ⟨t, ht, hp.mem_iff.mpr (Chain.mem_siteLegs.mpr (.inr (.inr ⟨c, List.mem_singleton.mp hl⟩)))⟩
      · cases hl
  have inB : ∀ l ∈ ob.result.legs, ∃ t ∈ B, l ∈ t.legs := by
    intro l hl
    rcases List.mem_cons.mp (l2.mem_iff.mp hl) with e | hl
    · exact e ▸ CB.phys_mem ((Chain.mem_phys CB.len).mpr ⟨j, by omega, rfl⟩)
    rcases List.mem_cons.mp hl with e | hl
    · exact e ▸ CB.phys_mem ((Chain.mem_phys CB.len).mpr ⟨j + 1, by omega, rfl⟩)
    rcases List.mem_append.mp hl with hl | hl
    · split at hl
      · rename_i c
        obtain ⟨t, -, ht, hp⟩ := CB.site hj
        exact ⟨t, ht, hp.mem_iff.mpr (Chain.mem_siteLegs.mpr (.inr (.inl ⟨c, List.mem_singleton.mp hl⟩)))⟩
      · cases hl
    · split at hl
      · rename_i c
        obtain ⟨t, -, ht, hp⟩ := CB.site (Nat.lt_of_succ_lt hj)
        exact ⟨t, ht, hp.mem_iff.mpr (Chain.mem_siteLegs.mpr (.inr (.inr ⟨c, List.mem_singleton.mp hl⟩)))⟩
      · cases hl
  have neU : PA.getD i 0 ≠ PA.getD (i + 1) 0 := by
    have := l1.nodup_iff.mp gA
    rw [List.nodup_cons] at this
    exact fun e => this.1 (by rw [e]; exact List.mem_cons_self)
  have sh : (sharedPairs ob.store oa.result.legs ob.result.legs).Perm [(PA.getD i 0, w0), (PA.getD (i + 1) 0, w1)] := by
    rw [List.perm_ext_iff_of_nodup (List.Nodup.of_map Prod.fst (by rw [sharedPairs_fst]; exact gA.filter _)) (by
      rw [List.nodup_cons, List.mem_singleton, Prod.mk.injEq]
      exact ⟨fun e => neU e.1, List.nodup_singleton _⟩)]
    rintro ⟨l, m⟩
    rw [mem_sharedPairs]
    simp only [part, List.mem_cons, Prod.mk.injEq, List.not_mem_nil, or_false]
    constructor
    · rintro ⟨hl, hm, hmb⟩
      rcases List.mem_cons.mp (l1.mem_iff.mp hl) with e | hl'
      · rw [e, k0] at hm; exact .inl ⟨e, (Option.some.inj hm).symm⟩
      rcases List.mem_cons.mp hl' with e | hl'
      · rw [e, k1] at hm; exact .inr ⟨e, (Option.some.inj hm).symm⟩
      exfalso
      obtain ⟨u, hu, hmu⟩ := inB m hmb
      have : ∃ t ∈ A, m ∈ t.legs := by
        rcases List.mem_append.mp hl' with h | h
        · exact CA.inner_partner hi (List.mem_append_left _ h) hm
        · exact CA.inner_partner (Nat.lt_of_succ_lt hi) (List.mem_append_right _ h) hm
      obtain ⟨t, ht, hmt⟩ := this
      exact d.disj ht hu hmt hmu
    · have wm : ∀ z ∈ [w0, w1], z ∈ ob.result.legs := by
        intro z hz
        have := w.mem_iff.mp hz
        simp only [List.mem_cons, List.not_mem_nil, or_false] at this
        exact l2.mem_iff.mpr (by rcases this with h | h <;> simp [h])
      rintro (⟨rfl, rfl⟩ | ⟨rfl, rfl⟩)
      · exact ⟨l1.mem_iff.mpr (by simp), k0, wm _ (by simp)⟩
      · exact ⟨l1.mem_iff.mpr (by simp), k1, wm _ (by simp)⟩
  obtain ⟨st', ta, tb, x, y, e3, s3, l3, l4, pxy, newx, newy, nx, ny, dx, rec⟩ := T.fuse la castF d2.pos (by rw [sh.length_eq]; simp)
  have l3' := l3.trans (List.Perm.cons x (filter_two l1 gA (sh.map Prod.fst)))
  have l4' := l4.trans (List.Perm.cons y (filter_two l2 gB ((sh.map Prod.snd).trans w)))
  have f3 := d2.onTwo s3 (glued_front A i _) (glued_front B j _) (glued_front A i ta) (glued_front B j tb)
  have f := (f1.trans f2).trans f3
  have d3 := d.both f
  have names : ∀ l < st.nextLeg, st'.name l = st.name l := by
    intro l hl
    rw [← nm l]
    unfold Store.name
    rw [rec l (by rw [nl]; exact hl)]
  rw [nl] at newx newy
  have oldA : ∀ q ∈ PA, q < st.nextLeg := by
    intro q hq
    obtain ⟨t, ht, h⟩ := CA.phys_mem hq
    exact CA.old t ht q h
  have oldB : ∀ q ∈ PB, q < st.nextLeg := by
    intro q hq
    obtain ⟨t, ht, h⟩ := CB.phys_mem hq
    exact CB.old t ht q h
  have mta : ta ∈ A.take i ++ ta :: A.drop (i + 2) := by simp
  have mtb : tb ∈ B.take j ++ tb :: B.drop (j + 2) := by simp
  have xta : x ∈ ta.legs := l3'.mem_iff.mpr List.mem_cons_self
  have ytb : y ∈ tb.legs := l4'.mem_iff.mpr List.mem_cons_self
  have nexy : x ≠ y := fun e => d3.disj mta mtb xta (e ▸ ytb)
  have pyx := partner_symm d3.sound.wf.inv pxy
  have C3A := CA.glue hi d3.kitA f.kept names l3' nx (by
    rintro q (rfl | hq) e
    · rw [pxy] at e; exact nexy (Option.some.inj e).symm
    · rw [pxy] at e; exact absurd (oldA q hq) (not_lt.mpr ((Option.some.inj e) ▸ newy)))
  have C3B := CB.glue hj d3.kitB f.kept names l4' ny (by
    rintro q (rfl | hq) e
    · rw [pyx] at e; exact nexy (Option.some.inj e)
    · rw [pyx] at e; exact absurd (oldB q hq) (not_lt.mpr ((Option.some.inj e) ▸ newx)))
  have dxW : st'.dim x ≤ W := by
    rw [dx, (sh.map fun p => ob.store.dim p.1).prod_eq]
    simpa [dims] using big
  refine ⟨oa, ob, st', ta, tb, x, y, e1, e2, e3, f, ⟨_, _, C3A⟩, ⟨_, _, C3B⟩, pxy, newx, newy, ?_, ?_⟩
  · intro t ht l hl
    rcases glued_mem ht with rfl | ht
    · rcases List.mem_cons.mp (l3'.mem_iff.mp hl) with rfl | hl
      · exact dxW
      · obtain ⟨t, ht, h⟩ := inA l (l1.mem_iff.mpr (List.mem_cons_of_mem _ (List.mem_cons_of_mem _ hl)))
        rw [(f.kept l (CA.old t ht l h)).1]
        exact wA t ht l h
    · rw [(f.kept l (CA.old t ht l hl)).1]
      exact wA t ht l hl
  · intro t ht l hl
    rcases glued_mem ht with rfl | ht
    · rcases List.mem_cons.mp (l4'.mem_iff.mp hl) with rfl | hl
      · rw [partner_dim d3.sound.wf.inv pxy]; exact dxW
      · obtain ⟨t, ht, h⟩ := inB l (l2.mem_iff.mpr (List.mem_cons_of_mem _ (List.mem_cons_of_mem _ hl)))
        rw [(f.kept l (CB.old t ht l h)).1]
        exact wB t ht l h
    · rw [(f.kept l (CB.old t ht l hl)).1]
      exact wB t ht l hl

/-- Only bonds have been turned round. -/
theorem SameUpToOrientation.step [CommSemiring R] {st st' : Store} {L : List (Tensor R)} (h : SameUpToOrientation st st')
    (wf : WFStore st) (dense : ∀ t ∈ L, t.diag = false) (g : GoodNet st L) (ne : L ≠ []) : Step st L st' L := by
  have sn := h.sameNet
  refine ⟨sn.wf wf, dense, ?_, ?_, sn.legsKept wf.inv⟩
  · have q : Quiet st st' [] := ⟨fun l => by rw [h.leg], fun l _ => by rw [h.leg], h.nextLeg, h.nextTensor⟩
    exact q.trail (by simp)
  · cases L with
    | nil => exact absurd rfl ne
    | cons c L =>
      exact SameValue.congr g (h.inv wf.inv) ((g.good c List.mem_cons_self).congr sn) (List.Perm.refl _)
        (fun t _ l _ => by rw [sn.dim]) (fun t _ l _ => sn.partner wf.inv l) fun _ _ => rfl

/-- Two sites whose physical legs are joined share exactly that bond. -/
theorem Duo.one_shared [CommSemiring R] {st : Store} {N A B : List (Tensor R)} (d : Duo st N A B) {PA PB : List LegId}
    {lA rA lB rB : Nat → LegId} (CA : Chain st A PA lA rA) (CB : Chain st B PB lB rB) {i j : Nat} {ta tb : Tensor R}
    (ha : A[i]? = some ta) (hb : B[j]? = some tb) (k : st.partner (PA.getD i 0) = some (PB.getD j 0)) :
    sharedPairs st ta.legs tb.legs = [(PA.getD i 0, PB.getD j 0)] := by
  have hi : i < A.length := (List.getElem?_eq_some_iff.mp ha).1
  have pa := CA.legs i ta ha
  have pb := CB.legs j tb hb
  have ma := List.mem_of_getElem? ha
  have mb := List.mem_of_getElem? hb
  rw [← List.perm_singleton, List.perm_ext_iff_of_nodup
    (List.Nodup.of_map Prod.fst (by rw [sharedPairs_fst]; exact (CA.good ta ma).1.nodup.filter _)) (List.nodup_singleton _)]
  rintro ⟨l, m⟩
  rw [mem_sharedPairs, List.mem_singleton, Prod.mk.injEq]
  constructor
  · rintro ⟨hl, hm, hmb⟩
    rcases List.mem_cons.mp (pa.mem_iff.mp hl) with e | hl'
    · dsimp only at hm e
      rw [e, k] at hm
      exact ⟨e, (Option.some.inj hm).symm⟩
    · obtain ⟨t, ht, hmt⟩ := CA.inner_partner hi hl' hm
      exact absurd hmb (d.disj ht mb hmt)
  · rintro ⟨rfl, rfl⟩
    exact ⟨pa.mem_iff.mpr List.mem_cons_self, k, pb.mem_iff.mpr List.mem_cons_self⟩

theorem GoodAlg.bounded [Field R] [StarRing R] {la : LinAlg R} (h : GoodAlg la) : RankBounded la :=
  rankBounded_of_unitary h.unitary h.rank h.nonzero

theorem glued_set {α : Type} {l : List α} {i : Nat} (hi : i + 1 < l.length) (v w : α) :
    (l.take i ++ v :: l.drop (i + 2)).set i w = l.take i ++ w :: l.drop (i + 2) := by
  rw [List.set_append_right _ _ (by rw [List.length_take]; omega), List.length_take, show i - min i l.length = 0 by omega]
  rfl

theorem set_front {α : Type} {l : List α} {i : Nat} (hi : i < l.length) (w : α) :
    (l.set i w).Perm (l.eraseIdx i ++ [w]) := by
  have h := List.getElem_cons_eraseIdx_perm (l := l.set i w) (n := i) (by rw [List.length_set]; exact hi)
  rw [List.getElem_set_self, List.eraseIdx_set_eq] at h
  exact h.symm.trans (List.perm_append_comm (l₁ := [w]))

theorem erase_front {α : Type} {l : List α} {i : Nat} {a : α} (ha : l[i]? = some a) : l.Perm (l.eraseIdx i ++ [a]) := by
  obtain ⟨hi, rfl⟩ := List.getElem?_eq_some_iff.mp ha
  exact (List.getElem_cons_eraseIdx_perm hi).symm.trans (List.perm_append_comm (l₁ := [_]))

/-- The second half of `doubleMerge`: the fused bond is cut down to what it carries. -/
theorem trim_chains [CommSemiring R] {la : LinAlg R} (hla : ExactLinAlg la) (hr : RankRevealing la) (hb : RankBounded la)
    (castF : R → R) {st : Store} {N A B : List (Tensor R)} (d : Duo st N A B)
    {PA PB : List LegId} {lA rA lB rB : Nat → LegId} (CA : Chain st A PA lA rA) (CB : Chain st B PB lB rB) {i j : Nat}
    {ta tb : Tensor R} (ha : A[i]? = some ta) (hb' : B[j]? = some tb) (k : st.partner (PA.getD i 0) = some (PB.getD j 0))
    {W chi : Nat} (wA : Within st A W) (wB : Within st B W) (big : st.dim (PA.getD i 0) ≤ chi) :
    ∃ st1 ta' tb' st' c x y, merge la castF st ta tb (some (chi : Int)) (.one "o") = .ok (st1, ta', tb') ∧
      shareBonds st1 ta' tb' = .ok (st', [c]) ∧
      Step st (A ++ B) st' (A.set i ta' ++ B.set j tb') ∧ IsChain st' (A.set i ta') (PA.set i x) ∧
      IsChain st' (B.set j tb') (PB.set j y) ∧ st'.partner x = some y ∧ (st'.leg x).bond = some c ∧
      st.nextLeg ≤ x ∧ st.nextLeg ≤ y ∧ Within st' (A.set i ta') W ∧ Within st' (B.set j tb') W := by
  have hi : i < A.length := (List.getElem?_eq_some_iff.mp ha).1
  have hj : j < B.length := (List.getElem?_eq_some_iff.mp hb').1
  have ma := List.mem_of_getElem? ha
  have mb := List.mem_of_getElem? hb'
  have sh := d.one_shared CA CB ha hb' k
  have T : Two st (N ++ (A ++ B)) (N ++ (A.eraseIdx i ++ B.eraseIdx j)) ta tb := by
    refine ⟨d.sound, ?_⟩
    rw [List.append_assoc N]
    refine List.Perm.append_left _ ?_
    refine ((erase_front ha).append (erase_front hb')).trans ?_
    generalize A.eraseIdx i = X
    generalize B.eraseIdx j = Y
    rw [List.append_assoc, List.append_assoc]
    refine List.Perm.append_left _ ?_
    rw [← List.append_assoc]
    exact (List.Perm.append_right _ List.perm_append_comm).trans (by rw [List.append_assoc]; rfl)
  obtain ⟨st1, ta', tb', x, y, e1, s1, l1, l2, pxy, newx, newy, nx, ny, dx, names⟩ := T.trim hla hr hb castF d.pos sh big
  have f1 := d.onTwo s1 (erase_front ha) (erase_front hb') (set_front hi ta') (set_front hj tb')
  have d1 := d.both f1
  have pa := CA.legs i ta ha
  have pb := CB.legs j tb hb'
  have l1' := l1.trans (List.Perm.cons x (filter_one pa (CA.good ta ma).1.nodup))
  have l2' := l2.trans (List.Perm.cons y (filter_one pb (CB.good tb mb).1.nodup))
  have mta : ta' ∈ A.set i ta' := List.mem_set hi ta'
  have mtb : tb' ∈ B.set j tb' := List.mem_set hj tb'
  have xta : x ∈ ta'.legs := l1'.mem_iff.mpr List.mem_cons_self
  have ytb : y ∈ tb'.legs := l2'.mem_iff.mpr List.mem_cons_self
  have nexy : x ≠ y := fun e => d1.disj mta mtb xta (e ▸ ytb)
  have pyx := partner_symm d1.sound.wf.inv pxy
  have iPA : PA.getD i 0 ∈ PA := (Chain.mem_phys CA.len).mpr ⟨i, hi, rfl⟩
  have iPB : PB.getD j 0 ∈ PB := (Chain.mem_phys CB.len).mpr ⟨j, hj, rfl⟩
  have oldA : ∀ q ∈ PA, q < st.nextLeg := by
    intro q hq
    obtain ⟨t, ht, h⟩ := CA.phys_mem hq
    exact CA.old t ht q h
  have oldB : ∀ q ∈ PB, q < st.nextLeg := by
    intro q hq
    obtain ⟨t, ht, h⟩ := CB.phys_mem hq
    exact CB.old t ht q h
  have C1A := CA.replace hi d1.kitA f1.kept (fun t ht l hl hne => names l (CA.old t ht l hl) hne (by
      rintro rfl
      obtain ⟨u, hu, h⟩ := CB.phys_mem iPB
      exact d.disj ht hu hl h)) l1' nx (by
    rintro q (rfl | hq) e
    · rw [pxy] at e; exact nexy (Option.some.inj e).symm
    · rw [pxy] at e; exact absurd (oldA q hq) (not_lt.mpr ((Option.some.inj e) ▸ newy)))
  have C1B := CB.replace hj d1.kitB f1.kept (fun t ht l hl hne => names l (CB.old t ht l hl) (by
      rintro rfl
      obtain ⟨u, hu, h⟩ := CA.phys_mem iPA
      exact d.disj hu ht h hl) hne) l2' ny (by
    rintro q (rfl | hq) e
    · rw [pyx] at e; exact nexy (Option.some.inj e)
    · rw [pyx] at e; exact absurd (oldB q hq) (not_lt.mpr ((Option.some.inj e) ▸ newx)))
  have getP : (PA.set i x).getD i 0 = x := by
    rw [List.getD_eq_getElem?_getD, List.getElem?_set_self (by rw [CA.len]; exact hi)]; rfl
  have getQ : (PB.set j y).getD j 0 = y := by
    rw [List.getD_eq_getElem?_getD, List.getElem?_set_self (by rw [CB.len]; exact hj)]; rfl
  have sh1 := d1.one_shared C1A C1B (List.getElem?_set_self hi) (List.getElem?_set_self hj) (by rw [getP, getQ]; exact pxy)
  rw [getP, getQ] at sh1
  obtain ⟨st', bs, e2, hso, hbs, hmem, -⟩ := shareBondsLoop_spec tb'.legs ta'.legs st1 d1.sound.wf.inv
    (C1A.good ta' mta).1.nodup fun _ h => d1.disj mta mtb h
  rw [sh1] at hbs
  obtain ⟨c, rfl⟩ : ∃ c, bs = [c] := by
    have := congrArg List.length hbs
    rw [List.length_map] at this
    exact List.length_eq_one_iff.mp this
  rw [List.map_singleton, List.cons.injEq] at hbs
  have f2 : Step st1 (A.set i ta' ++ B.set j tb') st' (A.set i ta' ++ B.set j tb') :=
    hso.step d1.sound.wf (fun t ht => d1.sound.dense t (List.mem_append_right _ ht)) d1.sound.goodNet.part.1
      (List.ne_nil_of_mem (List.mem_append_left _ mta))
  have d2 := d1.both f2
  have sn := hso.sameNet
  have bx : (st'.leg x).bond = some c := by
    obtain ⟨l, hl, hlc⟩ := hmem c (by simp)
    rw [← hso.leg] at hlc
    rcases (d2.sound.wf.inv l c hlc).1 with h | h
    · rw [hbs.1] at h; dsimp only at h; rw [h]; exact hlc
    · rw [hbs.1] at h; dsimp only at h
      exact absurd ytb (d1.disj mta mtb (h ▸ hl))
  have WA : Within st' (A.set i ta') W := by
    intro t ht l hl
    rw [sn.dim]
    rcases set_mem ht with rfl | ht
    · rcases List.mem_cons.mp (l1'.mem_iff.mp hl) with rfl | hl
      · exact dx.trans (wA ta ma _ (pa.mem_iff.mpr List.mem_cons_self))
      · have hl := pa.mem_iff.mpr (List.mem_cons_of_mem _ hl)
        rw [(f1.kept l (CA.old ta ma l hl)).1]
        exact wA ta ma l hl
    · rw [(f1.kept l (CA.old t ht l hl)).1]
      exact wA t ht l hl
  have WB : Within st' (B.set j tb') W := by
    intro t ht l hl
    rw [sn.dim]
    rcases set_mem ht with rfl | ht
    · rcases List.mem_cons.mp (l2'.mem_iff.mp hl) with rfl | hl
      · rw [partner_dim d1.sound.wf.inv pxy]
        exact dx.trans (wA ta ma _ (pa.mem_iff.mpr List.mem_cons_self))
      · have hl := pb.mem_iff.mpr (List.mem_cons_of_mem _ hl)
        rw [(f1.kept l (CB.old tb mb l hl)).1]
        exact wB tb mb l hl
    · rw [(f1.kept l (CB.old t ht l hl)).1]
      exact wB t ht l hl
  have cc : ∀ {ts : List (Tensor R)} {P : List LegId} {l r : Nat → LegId}, Chain st1 ts P l r → Chain st' ts P l r := fun C =>
    C.carry (sn.wf d1.sound.wf) (sn.legsKept d1.sound.wf.inv) sn.nextLeg.ge fun _ _ l _ => by rw [sn.name]
  exact ⟨st1, ta', tb', st', c, x, y, e1, e2, f1.trans f2, ⟨_, _, cc C1A⟩, ⟨_, _, cc C1B⟩,
    by rw [sn.partner d1.sound.wf.inv]; exact pxy, bx, newx, newy, WA, WB⟩

theorem Within.kept {st st' : Store} {ts : List (Tensor R)} {W : Nat} (h : Within st ts W) (k : LegsKept st st')
    (old : ∀ t ∈ ts, ∀ l ∈ t.legs, l < st.nextLeg) : Within st' ts W :=
  fun t ht l hl => by rw [(k l (old t ht l hl)).1]; exact h t ht l hl

theorem IsChain.length_eq [Zero R] {st : Store} {ts : List (Tensor R)} {phys : List LegId} (C : IsChain st ts phys) :
    phys.length = ts.length := by
  obtain ⟨_, _, C⟩ := C
  exact C.len

theorem doubleMerge_step [Field R] [StarRing R] {la : LinAlg R} (hla : GoodAlg la) (cast castF : R → R) {st : Store}
    {N : List (Tensor R)} {a b : MPS R} (d : Duo st N a.tensors b.tensors) {PA PB : List LegId}
    (CA : IsChain st a.tensors PA) (CB : IsChain st b.tensors PB) {chi : Nat} (ca : a.chi = chi) (cb : b.chi = chi) {i j : Nat}
    (hi : i + 1 < a.tensors.length) (hj : j + 1 < b.tensors.length) {w0 w1 : LegId} (k0 : st.partner (PA.getD i 0) = some w0)
    (k1 : st.partner (PA.getD (i + 1) 0) = some w1) (w : [w0, w1].Perm [PB.getD j 0, PB.getD (j + 1) 0]) {W : Nat}
    (wA : Within st a.tensors W) (wB : Within st b.tensors W)
    (big : st.dim (PA.getD i 0) * st.dim (PA.getD (i + 1) 0) ≤ W) (hW : W ≤ chi) :
    ∃ st' a' b' c x y, doubleMerge la cast castF st a b i j = .ok (st', a', b', c) ∧
      Step st (a.tensors ++ b.tensors) st' (a'.tensors ++ b'.tensors) ∧
      IsChain st' a'.tensors (PA.take i ++ x :: PA.drop (i + 2)) ∧ IsChain st' b'.tensors (PB.take j ++ y :: PB.drop (j + 2)) ∧
      st'.partner x = some y ∧ (st'.leg x).bond = some c ∧ st.nextLeg ≤ x ∧ st.nextLeg ≤ y ∧
      a'.chi = chi ∧ b'.chi = chi ∧ Within st' a'.tensors W ∧ Within st' b'.tensors W := by
  obtain ⟨lA, rA, CA⟩ := CA
  obtain ⟨lB, rB, CB⟩ := CB
  have pi : i + 1 < PA.length := by rw [CA.len]; exact hi
  have pj : j + 1 < PB.length := by rw [CB.len]; exact hj
  obtain ⟨a0, ha0⟩ : ∃ t, a.tensors[i]? = some t := ⟨_, List.getElem?_eq_getElem (by omega)⟩
  obtain ⟨a1, ha1⟩ : ∃ t, a.tensors[i + 1]? = some t := ⟨_, List.getElem?_eq_getElem hi⟩
  obtain ⟨b0, hb0⟩ : ∃ t, b.tensors[j]? = some t := ⟨_, List.getElem?_eq_getElem (by omega)⟩
  obtain ⟨b1, hb1⟩ : ∃ t, b.tensors[j + 1]? = some t := ⟨_, List.getElem?_eq_getElem hj⟩
  obtain ⟨oa, ob, st1, ta, tb, x0, y0, e1, e2, e3, f1, ⟨_, _, C1A⟩, ⟨_, _, C1B⟩, pxy, newx, newy, WA1, WB1⟩ :=
    fuse_chains la cast castF d CA CB hi hj ha0 ha1 hb0 hb1 k0 k1 w wA wB big
  have d1 := d.both f1
  have em1 : a.mergeTensor i ta = .ok { a with tensors := a.tensors.take i ++ ta :: a.tensors.drop (i + 2) } := by
    have h1 : a.isIndex i = true := by simp [MPS.isIndex]; omega
    have h2 : a.isIndex ((i : Int) + 1) = true := by simp [MPS.isIndex]; omega
    simp [MPS.mergeTensor, h1, h2, pyAssert, bind, Except.bind, pure, Except.pure]
  have em2 : b.mergeTensor j tb = .ok { b with tensors := b.tensors.take j ++ tb :: b.tensors.drop (j + 2) } := by
    have h1 : b.isIndex j = true := by simp [MPS.isIndex]; omega
    have h2 : b.isIndex ((j : Int) + 1) = true := by simp [MPS.isIndex]; omega
    simp [MPS.mergeTensor, h1, h2, pyAssert, bind, Except.bind, pure, Except.pure]
  obtain ⟨st2, ac, e4, s2, ⟨_, _, C2A⟩, chiA, WA2, lenA⟩ := canonicalize_step hla.exact hla.unitary hla.rank hla.nonzero cast castF
    (m := { a with tensors := a.tensors.take i ++ ta :: a.tensors.drop (i + 2) }) C1A ca (idx := i)
    (by dsimp only; rw [glued_length _ hi]; omega) WA1 hW
  have f2 := d1.onA s2
  have d2 := d1.both f2
  have C2B := d1.carryB s2 C1B
  have WB2 := WB1.kept s2.kept C1B.old
  obtain ⟨st3, bc, e5, s3, ⟨_, _, C3B⟩, chiB, WB3, lenB⟩ := canonicalize_step hla.exact hla.unitary hla.rank hla.nonzero cast castF
    (m := { b with tensors := b.tensors.take j ++ tb :: b.tensors.drop (j + 2) }) C2B cb (idx := j)
    (by dsimp only; rw [glued_length _ hj]; omega) WB2 hW
  have f3 := d2.onB s3
  have d3 := d2.both f3
  have C3A := d2.carryA s3 C2A
  have WA3 := WA2.kept s3.kept C2A.old
  rw [glued_length _ hi] at lenA
  rw [glued_length _ hj] at lenB
  have hi' : i < ac.tensors.length := by omega
  have hj' : j < bc.tensors.length := by omega
  obtain ⟨ta2, hta⟩ : ∃ t, ac.tensors[i]? = some t := ⟨_, List.getElem?_eq_getElem hi'⟩
  obtain ⟨tb2, htb⟩ : ∃ t, bc.tensors[j]? = some t := ⟨_, List.getElem?_eq_getElem hj'⟩
  have gx : (PA.take i ++ x0 :: PA.drop (i + 2)).getD i 0 = x0 := by rw [glued_getD pi]; simp
  have gy : (PB.take j ++ y0 :: PB.drop (j + 2)).getD j 0 = y0 := by rw [glued_getD pj]; simp
  have oldx : x0 < st1.nextLeg := by
    obtain ⟨t, ht, h⟩ := C1A.phys_mem (p := x0) (by simp)
    exact C1A.old t ht _ h
  have pxy3 : st3.partner x0 = some y0 := by
    rw [(s3.kept x0 (oldx.trans_le s2.trail.nextLeg)).2.2, (s2.kept x0 oldx).2.2, pxy]
  have dx3 : st3.dim x0 ≤ chi := by
    have := C3A.dimP WA3 hi'
    rw [gx] at this
    exact this.trans hW
  obtain ⟨st4, ta3, tb3, st5, c, x, y, e6, e7, f4, C4A, C4B, pxy4, bx, newx4, newy4, WA4, WB4⟩ :=
    trim_chains hla.exact hla.rank hla.bounded castF (chi := chi) d3 C3A C3B hta htb (by rw [gx, gy]; exact pxy3) WA3 WB3
      (by rw [gx]; exact dx3)
  rw [glued_set pi] at C4A
  rw [glued_set pj] at C4B
  have f := ((f1.trans f2).trans f3).trans f4
  have es1 : ac.setTensor i ta3 = .ok { ac with tensors := ac.tensors.set i ta3, activeIdx := none } := by
    simp [MPS.setTensor, hi', pyAssert, bind, Except.bind, pure, Except.pure]
  have es2 : bc.setTensor j tb3 = .ok { bc with tensors := bc.tensors.set j tb3, activeIdx := none } := by
    simp [MPS.setTensor, hj', pyAssert, bind, Except.bind, pure, Except.pure]
  have hle : st.nextLeg ≤ st3.nextLeg := ((f1.trans f2).trans f3).trail.nextLeg
  have hmin : min ac.chi bc.chi = (chi : Int) := by rw [chiA, chiB, min_self]
  refine ⟨st5, { ac with tensors := ac.tensors.set i ta3, activeIdx := none },
    { bc with tensors := bc.tensors.set j tb3, activeIdx := none }, c, x, y, ?_, f, C4A, C4B, pxy4, bx, hle.trans newx4, hle.trans newy4, chiA, chiB, WA4, WB4⟩
  unfold doubleMerge
  simp only [ha0, ha1, hb0, hb1, e1, e2, e3, em1, em2, e4, e5, hta, htb, hmin, e6, es1, es2, e7, bind, Except.bind, pure, Except.pure]

end CTL
