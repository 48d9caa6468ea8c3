import Verif.Lemmas.DoubleMerge

/-! `doubleMergeByBond` and `mergeMPS`. -/

namespace CTL
variable {R : Type}

theorem MPS.hasTensor_iff {L : List (Tensor R)} (ids : (L.map fun t => t.id).Nodup) {m : MPS R} (sub : ∀ t ∈ m.tensors, t ∈ L)
    {u : Tensor R} (hu : u ∈ L) : m.hasTensor (some u.id) = true ↔ u ∈ m.tensors := by
  unfold MPS.hasTensor
  rw [List.any_eq_true]
  constructor
  · rintro ⟨t, ht, e⟩
    have e : u.id = t.id := by simpa using e
    exact (List.inj_on_of_nodup_map ids hu (sub t ht) e) ▸ ht
  · intro h
    exact ⟨u, h, by simp⟩

theorem MPS.tensorIndex_eq {m : MPS R} (ids : (m.tensors.map fun t => t.id).Nodup) {i : Nat} {u : Tensor R}
    (hu : m.tensors[i]? = some u) : m.tensorIndex (some u.id) = .ok i := by
  have : m.tensors.findIdx? (fun t => some u.id == some t.id) = some i := by
    rw [List.findIdx?_eq_some_iff_getElem]
    obtain ⟨hi, e⟩ := List.getElem?_eq_some_iff.mp hu
    refine ⟨hi, by simp [e], ?_⟩
    intro j hj h
    have h : u.id = m.tensors[j].id := by simpa using h
    have := List.inj_on_of_nodup_map ids (List.getElem_mem hi) (List.getElem_mem (hj.trans hi)) (by rw [e]; exact h)
    have nd := List.Nodup.of_map _ ids
    have := (List.Nodup.getElem_inj_iff nd).mp this
    omega
  unfold MPS.tensorIndex
  rw [this]

theorem Chain.siteP [Zero R] {st : Store} {ts : List (Tensor R)} {phys : List LegId} {lft rgt : Nat → LegId}
    (C : Chain st ts phys lft rgt) {i : Nat} (hi : i < ts.length) : ∃ t, ts[i]? = some t ∧ t ∈ ts ∧ phys.getD i 0 ∈ t.legs := by
  obtain ⟨t, h, ht, hl⟩ := C.site hi
  exact ⟨t, h, ht, hl.mem_iff.mpr (Chain.mem_siteLegs.mpr (.inl rfl))⟩

namespace Duo
variable [CommSemiring R] {st : Store} {N : List (Tensor R)} {a b : MPS R}

theorem idsA {A B : List (Tensor R)} (d : Duo st N A B) : (A.map fun t => t.id).Nodup := d.sound.owned.right.left.ids
theorem idsB {A B : List (Tensor R)} (d : Duo st N A B) : (B.map fun t => t.id).Nodup := d.sound.owned.right.right.ids

/-- The sites a bond between two chains leads to. -/
theorem indices (d : Duo st N a.tensors b.tensors) {PA PB : List LegId} {lA rA lB rB : Nat → LegId}
    (CA : Chain st a.tensors PA lA rA) (CB : Chain st b.tensors PB lB rB) {i j : Nat} (hi : i < a.tensors.length)
    (hj : j < b.tensors.length) (k : st.partner (PA.getD i 0) = some (PB.getD j 0)) {c : BondId}
    (hc : (st.leg (PA.getD i 0)).bond = some c) : getBondTensorIndices st a b c = .ok (i, j) := by
  obtain ⟨t, ht, mt, lt⟩ := CA.siteP hi
  obtain ⟨u, hu, mu, lu⟩ := CB.siteP hj
  have o := d.sound.owned.right
  have ot := (o.legs t (List.mem_append_left _ mt) _ lt).2
  have ou := (o.legs u (List.mem_append_right _ mu) _ lu).2
  have neq : PA.getD i 0 ≠ PB.getD j 0 := fun e => d.disj mt mu lt (e ▸ lu)
  have hA : a.hasTensor (some t.id) = true :=
    (MPS.hasTensor_iff o.ids (fun _ h => List.mem_append_left _ h) (List.mem_append_left _ mt)).mpr mt
  have hB : b.hasTensor (some u.id) = true :=
    (MPS.hasTensor_iff o.ids (fun _ h => List.mem_append_right _ h) (List.mem_append_right _ mu)).mpr mu
  have hnA : a.hasTensor (some u.id) = false := by
    rw [Bool.eq_false_iff]
    intro h
    have := (MPS.hasTensor_iff o.ids (fun _ h => List.mem_append_left _ h) (List.mem_append_right _ mu)).mp h
    exact d.disj this mu lu lu
  have iA := MPS.tensorIndex_eq d.idsA ht
  have iB := MPS.tensorIndex_eq d.idsB hu
  unfold Store.partner at k
  rw [hc] at k
  dsimp only at k
  unfold getBondTensorIndices
  rcases (d.sound.wf.inv _ _ hc).1 with h | h
  · rw [if_pos h] at k
    have k := Option.some.inj k
    simp only [h, k, ot, ou, hA, hB, iA, iB, if_true, pyAssert, bind, Except.bind, pure, Except.pure]
  · have h1 : (st.bond c).1 ≠ PA.getD i 0 := by
      intro h1
      rw [if_pos h1, h] at k
      exact neq (Option.some.inj k)
    rw [if_neg h1] at k
    have k := Option.some.inj k
    simp only [h, k, ot, ou, hA, hB, hnA, iA, iB, if_true, pyAssert, bind, Except.bind, pure, Except.pure, Bool.false_eq_true, if_false]

end Duo

theorem pair_minmax {P : List LegId} {a b : Nat} :
    [P.getD (min a b) 0, P.getD (max a b) 0].Perm [P.getD a 0, P.getD b 0] := by
  rcases le_total a b with h | h
  · rw [min_eq_left h, max_eq_right h]
  · rw [min_eq_right h, max_eq_left h]
    exact List.Perm.swap _ _ _

/-- The front two of a list of physical legs replaced. -/
theorem two_front_getD {P : List LegId} {q : Nat} (hq : q + 1 < P.length) :
    P.Perm (P.getD q 0 :: P.getD (q + 1) 0 :: (P.take q ++ P.drop (q + 2))) :=
  two_front (by rw [List.getD_eq_getElem?_getD, List.getElem?_eq_getElem (by omega)]; rfl)
    (by rw [List.getD_eq_getElem?_getD, List.getElem?_eq_getElem hq]; rfl)

theorem doubleMergeByBond_step [Field R] [StarRing R] {la : LinAlg R} (hla : GoodAlg la) (cast castF : R → R) {st : Store}
    {N : List (Tensor R)} {a b : MPS R} (d : Duo st N a.tensors b.tensors) {PA PB : List LegId}
    (CA : IsChain st a.tensors PA) (CB : IsChain st b.tensors PB) {chi : Nat} (ca : a.chi = chi) (cb : b.chi = chi)
    {p1 p2 q1 q2 : LegId} (hp1 : p1 ∈ PA) (hp2 : p2 ∈ PA) (hne : p1 ≠ p2) (hq1 : q1 ∈ PB) (hq2 : q2 ∈ PB)
    (k1 : st.partner p1 = some q1) (k2 : st.partner p2 = some q2) {c1 c2 : BondId} (hc1 : (st.leg p1).bond = some c1)
    (hc2 : (st.leg p2).bond = some c2) {D : Nat} (wA : Within st a.tensors D) (wB : Within st b.tensors D) (h1 : 1 ≤ D)
    (big : D * D ≤ chi) :
    ∃ st' a' b' c x y PA' PB' RA RB, doubleMergeByBond la cast castF st a b c1 c2 = .ok (st', a', b', c) ∧
      Step st (a.tensors ++ b.tensors) st' (a'.tensors ++ b'.tensors) ∧
      IsChain st' a'.tensors PA' ∧ IsChain st' b'.tensors PB' ∧ PA.Perm (p1 :: p2 :: RA) ∧ PA'.Perm (x :: RA) ∧
      PB.Perm (q1 :: q2 :: RB) ∧ PB'.Perm (y :: RB) ∧
      st'.partner x = some y ∧ (st'.leg x).bond = some c ∧ st.nextLeg ≤ x ∧ st.nextLeg ≤ y ∧
      a'.chi = chi ∧ b'.chi = chi ∧ Within st' a'.tensors (D * D) ∧ Within st' b'.tensors (D * D) := by
  obtain ⟨lA, rA, CA⟩ := CA
  obtain ⟨lB, rB, CB⟩ := CB
  obtain ⟨i1, hi1, rfl⟩ := (Chain.mem_phys CA.len).mp hp1
  obtain ⟨i2, hi2, rfl⟩ := (Chain.mem_phys CA.len).mp hp2
  obtain ⟨j1, hj1, rfl⟩ := (Chain.mem_phys CB.len).mp hq1
  obtain ⟨j2, hj2, rfl⟩ := (Chain.mem_phys CB.len).mp hq2
  have wf := d.sound.wf
  have nei : i1 ≠ i2 := by rintro rfl; exact hne rfl
  have nej : j1 ≠ j2 := by
    rintro rfl
    have := (partner_symm wf.inv k1).symm.trans (partner_symm wf.inv k2)
    exact hne (Option.some.inj this)
  have x1 := d.indices CA CB hi1 hj1 k1 hc1
  have x2 := d.indices CA CB hi2 hj2 k2 hc2
  obtain ⟨st1, a1, i, PA1, e1, s1, ⟨_, _, C1A⟩, pm1, g1, g1', hi, chiA, WA1, len1⟩ :=
    makeAdjacent_step hla.exact hla.rank cast castF CA ca nei hi1 hi2 wA h1 big
  have f1 := d.onA s1
  have d1 := d.both f1
  have C1B := d.carryB s1 CB
  have WB1 := wB.kept s1.kept CB.old
  obtain ⟨st2, b1, j, PB1, e2, s2, ⟨_, _, C2B⟩, pm2, g2, g2', hj, chiB, WB2, len2⟩ :=
    makeAdjacent_step hla.exact hla.rank cast castF C1B cb nej hj1 hj2 WB1 h1 big
  have f2 := d1.onB s2
  have d2 := d1.both f2
  have C2A := d1.carryA s2 C1A
  have WA2 := WA1.kept s2.kept C1A.old
  have f12 := f1.trans f2
  have oldA : ∀ t < a.tensors.length, PA.getD t 0 < st.nextLeg := fun t ht => CA.oldP ht
  have part : ∀ t < a.tensors.length, st2.partner (PA.getD t 0) = st.partner (PA.getD t 0) := fun t ht => (f12.kept _ (oldA t ht)).2.2
  have dims : ∀ t < a.tensors.length, st2.dim (PA.getD t 0) ≤ D := fun t ht => by
    rw [(f12.kept _ (oldA t ht)).1]; exact CA.dimP wA ht
  have hmin : min i1 i2 < a.tensors.length := by omega
  have hmax : max i1 i2 < a.tensors.length := by omega
  obtain ⟨w0, w1, k0', k1', w⟩ : ∃ w0 w1, st2.partner (PA1.getD i 0) = some w0 ∧ st2.partner (PA1.getD (i + 1) 0) = some w1 ∧
      [w0, w1].Perm [PB1.getD j 0, PB1.getD (j + 1) 0] := by
    rw [g1, g1', g2, g2', part _ hmin, part _ hmax]
    rcases le_total i1 i2 with h | h
    · rw [min_eq_left h, max_eq_right h]
      exact ⟨_, _, k1, k2, pair_minmax.symm⟩
    · rw [min_eq_right h, max_eq_left h]
      exact ⟨_, _, k2, k1, (List.Perm.swap _ _ _).trans pair_minmax.symm⟩
  obtain ⟨st3, a', b', c, x, y, e3, f3, C3A, C3B, pxy, bx, newx, newy, chiA', chiB', WA3, WB3⟩ :=
    doubleMerge_step hla cast castF d2 ⟨_, _, C2A⟩ ⟨_, _, C2B⟩ chiA chiB hi hj k0' k1' w WA2 WB2
      (by rw [g1, g1']; exact Nat.mul_le_mul (dims _ hmin) (dims _ hmax)) big
  have hle := f12.trail.nextLeg
  refine ⟨st3, a', b', c, x, y, _, _, PA1.take i ++ PA1.drop (i + 2), PB1.take j ++ PB1.drop (j + 2), ?_, f12.trans f3, C3A, C3B, ?_,
    List.perm_middle, ?_, List.perm_middle, pxy, bx, hle.trans newx, hle.trans newy, chiA', chiB', WA3, WB3⟩
  · unfold doubleMergeByBond
    simp only [x1, x2, e1, e2, bind, Except.bind, pyAssert, Nat.cast_add, Nat.cast_one, decide_true, Bool.and_self, if_true,
      Int.toNat_natCast, e3]
  · refine pm1.symm.trans ((two_front_getD (by rw [C2A.len]; exact hi)).trans ?_)
    rw [g1, g1']
    exact pair_minmax.append_right _
  · refine pm2.symm.trans ((two_front_getD (by rw [C2B.len]; exact hj)).trans ?_)
    rw [g2, g2']
    exact pair_minmax.append_right _

end CTL
