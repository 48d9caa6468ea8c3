import Verif.Lemmas.Glue

/-! `moveTensor`, `makeAdjacent` and `canonicalize` as steps. -/

namespace CTL
variable {R : Type}

theorem moveTo_perm (l : List LegId) {b e : Nat} (hb : b < l.length) (he : e < l.length) : (moveTo l b e).Perm l := by
  unfold moveTo
  refine (List.perm_insertIdx _ _ (by rw [List.length_eraseIdx_of_lt hb]; omega)).trans ?_
  have := List.getElem_cons_eraseIdx_perm hb
  rw [List.getD_eq_getElem?_getD, List.getElem?_eq_getElem hb]
  exact this

theorem Within.mono {st : Store} {ts : List (Tensor R)} {D E : Nat} (h : Within st ts D) (hD : D ≤ E) : Within st ts E :=
  fun t ht l hl => (h t ht l hl).trans hD

theorem Chain.dimP [Zero R] {st : Store} {ts : List (Tensor R)} {phys : List LegId} {lft rgt : Nat → LegId}
    (C : Chain st ts phys lft rgt) {D : Nat} (h : Within st ts D) {i : Nat} (hi : i < ts.length) : st.dim (phys.getD i 0) ≤ D :=
  ((C.within_iff D).mp h).1 _ ((Chain.mem_phys C.len).mpr ⟨i, hi, rfl⟩)

theorem moveTensor_step [CommSemiring R] {la : LinAlg R} (hla : ExactLinAlg la) (hr : RankRevealing la) (cast castF : R → R)
    {st : Store} {m : MPS R} {phys : List LegId} {lft rgt : Nat → LegId} (C : Chain st m.tensors phys lft rgt) {chi : Nat}
    (hc : m.chi = chi) {b e : Nat} (hb : b < m.tensors.length) (he : e < m.tensors.length) {D : Nat}
    (hD : Within st m.tensors D) (h1 : 1 ≤ D) (big : D * D ≤ chi) :
    ∃ st' m', m.moveTensor la cast castF st b e = .ok (st', m') ∧ Step st m.tensors st' m'.tensors ∧
      IsChain st' m'.tensors (moveTo phys b e) ∧ m'.chi = chi ∧ Within st' m'.tensors (D * D) ∧
      m'.tensors.length = m.tensors.length := by
  have dp : st.dim (phys.getD b 0) ≤ D := C.dimP hD hb
  have le : D ≤ D * D := Nat.le_mul_of_pos_left _ h1
  have dR := ((C.within_iff D).mp hD).2
  obtain ⟨st', m', h, h4, sv⟩ := C41_moveTensor hla hr cast castF C hc hb he (dp.trans (le.trans big))
    (fun i hi => (Nat.mul_le_mul dp (dR i hi)).trans big)
  obtain ⟨st2, m2, h2, -, h5, -, kept⟩ := C33_moveTensor hla cast castF ⟨_, _, C⟩ hc hb he
  obtain ⟨rfl, rfl⟩ := Prod.mk.inj (Except.ok.inj (h.symm.trans h2))
  have C' := h4
  obtain ⟨l', r', C'⟩ := C'
  have hlen : m'.tensors.length = m.tensors.length := by
    rw [← C'.len, (moveTo_perm phys (by rw [C.len]; exact hb) (by rw [C.len]; exact he)).length_eq, C.len]
  refine ⟨st', m', h, ⟨C'.wf, fun t ht => (C'.good t ht).2, moveTensor_trail h, sv, kept⟩, h4, h5.trans hc, ?_, hlen⟩
  have ib : m.isIndex b = true := by simp [MPS.isIndex, hb]
  have ie : m.isIndex e = true := by simp [MPS.isIndex, he]
  unfold MPS.moveTensor at h
  simp only [ib, ie, Bool.and_self, pyAssert, if_true, bind, Except.bind] at h
  rcases lt_trichotomy b e with c | c | c
  · obtain ⟨st2, m2, h', -, -, v⟩ := loop_right hla cast castF (e - b) C hc (b := b) (by omega)
    rw [if_neg (by omega), if_pos (by omega), show ((e : Int) - b).toNat = e - b by omega] at h
    have := Except.ok.inj (h'.symm.trans h)
    rw [Prod.mk.injEq] at this
    rw [← this.1, ← this.2]
    exact v _ (hD.mono le) (dp.trans le) fun i _ hi => Nat.mul_le_mul dp (dR i hi)
  · subst c
    rw [if_pos rfl] at h
    have := Except.ok.inj h
    rw [Prod.mk.injEq] at this
    rw [← this.1, ← this.2]
    exact hD.mono le
  · obtain ⟨st2, m2, h', -, -, v⟩ := loop_left hla cast castF (b - e) C hc (b := b) hb (by omega)
    rw [if_neg (by omega), if_neg (by omega), show ((b : Int) - e).toNat = b - e by omega] at h
    have := Except.ok.inj (h'.symm.trans h)
    rw [Prod.mk.injEq] at this
    rw [← this.1, ← this.2]
    refine v _ (hD.mono le) (dp.trans le) fun i h0 hi => ?_
    obtain ⟨i, rfl⟩ : ∃ c, i = c + 1 := ⟨i - 1, by omega⟩
    have hi' : i + 1 < m.tensors.length := by omega
    rw [partner_dim C.wf.inv (C.joined i hi')]
    exact Nat.mul_le_mul dp (dR i hi')

theorem makeAdjacent_step [CommSemiring R] {la : LinAlg R} (hla : ExactLinAlg la) (hr : RankRevealing la) (cast castF : R → R)
    {st : Store} {m : MPS R} {phys : List LegId} {lft rgt : Nat → LegId} (C : Chain st m.tensors phys lft rgt) {chi : Nat}
    (hc : m.chi = chi) {a b : Nat} (hab : a ≠ b) (ha : a < m.tensors.length) (hb : b < m.tensors.length) {D : Nat}
    (hD : Within st m.tensors D) (h1 : 1 ≤ D) (big : D * D ≤ chi) :
    ∃ st' m' q phys', m.makeAdjacent la cast castF st a b = .ok (st', m', (q : Nat), ((q + 1 : Nat) : Int)) ∧
      Step st m.tensors st' m'.tensors ∧ IsChain st' m'.tensors phys' ∧ phys'.Perm phys ∧
      phys'.getD q 0 = phys.getD (min a b) 0 ∧ phys'.getD (q + 1) 0 = phys.getD (max a b) 0 ∧ q + 1 < m'.tensors.length ∧
      m'.chi = chi ∧ Within st' m'.tensors (D * D) ∧ m'.tensors.length = m.tensors.length := by
  have hmin : min a b < m.tensors.length := by omega
  have dp : st.dim (phys.getD (min a b) 0) ≤ D := C.dimP hD hmin
  have le : D ≤ D * D := Nat.le_mul_of_pos_left _ h1
  have dR := ((C.within_iff D).mp hD).2
  obtain ⟨st', m', q, h, ch, f1, f2, -, h5, -, kept⟩ := C33_makeAdjacent hla cast castF ⟨_, _, C⟩ hc hab ha hb
  obtain ⟨st2, m2, p2, q2, h2, sv⟩ := C41_makeAdjacent hla hr cast castF C hc hab ha hb (dp.trans (le.trans big))
    (fun i hi => (Nat.mul_le_mul dp (dR i hi)).trans big)
  have e := Except.ok.inj (h.symm.trans h2)
  simp only [Prod.mk.injEq] at e
  obtain ⟨rfl, rfl, -⟩ := e
  obtain ⟨l', r', C'⟩ := ch
  have ib : m.isIndex a = true := by simp [MPS.isIndex, ha]
  have ie : m.isIndex b = true := by simp [MPS.isIndex, hb]
  obtain ⟨st2, m2, h', s', -, v⟩ := loop_right hla cast castF (max a b - 1 - min a b) C hc (b := min a b) (by omega)
  have hh := h
  unfold MPS.makeAdjacent at hh
  have hne : ((a : Int) ≠ b) := by omega
  simp only [ib, ie, Bool.and_self, pyAssert, if_true, bind, Except.bind, hne, ne_eq, not_false_eq_true, decide_true] at hh
  rw [show (max (a : Int) b - 1 - min (a : Int) b).toNat = max a b - 1 - min a b by omega,
    show min (a : Int) b = ((min a b : Nat) : Int) by omega, h'] at hh
  have e := Except.ok.inj hh
  simp only [Prod.mk.injEq] at e
  obtain ⟨rfl, rfl, e3, -⟩ := e
  have hq : q = max a b - 1 := by omega
  have hl := C.len
  have hlen : m2.tensors.length = m.tensors.length := s'.len
  have pm := moveTo_perm phys (b := min a b) (e := q) (by omega) (by omega)
  refine ⟨st2, m2, q, _, h, ⟨C'.wf, fun t ht => (C'.good t ht).2, makeAdjacent_trail h, sv, kept⟩, ⟨_, _, C'⟩, pm, ?_, ?_, ?_,
    h5.trans hc, ?_, hlen⟩
  · rw [List.getD_eq_getElem?_getD, f1, List.getD_eq_getElem?_getD]
  · rw [List.getD_eq_getElem?_getD, f2, List.getD_eq_getElem?_getD]
  · omega
  · exact v _ (hD.mono le) (dp.trans le) fun i _ hi => Nat.mul_le_mul dp (dR i hi)

theorem canonicalize_step [Field R] [StarRing R] {la : LinAlg R} (hla : ExactLinAlg la) (hu : UnitaryLinAlg la)
    (hr : RankRevealing la) (hz : ∀ z, la.isNonZero z = true → z ≠ 0) (cast castF : R → R) {st : Store} {m : MPS R}
    {phys : List LegId} {lft rgt : Nat → LegId} (C : Chain st m.tensors phys lft rgt) {chi : Nat} (hc : m.chi = chi) {idx : Nat}
    (hi : idx < m.tensors.length) {D : Nat} (hD : Within st m.tensors D) (big : D ≤ chi) :
    ∃ st' m', m.canonicalize la cast castF st idx = .ok (st', m') ∧ Step st m.tensors st' m'.tensors ∧
      IsChain st' m'.tensors phys ∧ m'.chi = chi ∧ Within st' m'.tensors D ∧ m'.tensors.length = m.tensors.length := by
  have dR := ((C.within_iff D).mp hD).2
  obtain ⟨st', m', l1, r1, h, C1, h3, h4, -, kept, -, -⟩ := C46_canonicalize hla hu cast castF ⟨_, _, C⟩ hc hi
  obtain ⟨st2, m2, l2, r2, h', C2, -, sv, wid⟩ := C46_state_kept hla hu hr hz cast castF C hc hi fun j hj => (dR j hj).trans big
  obtain ⟨rfl, rfl⟩ := Prod.mk.inj (Except.ok.inj (h.symm.trans h'))
  refine ⟨st', m', h, ⟨C1.wf, fun t ht => (C1.good t ht).2, canonicalize_trail h, sv, kept⟩, ⟨_, _, C1⟩, h4.trans hc, ?_, h3⟩
  refine (C2.within_iff D).mpr ⟨?_, ?_⟩
  · intro p hp
    obtain ⟨j, hj, rfl⟩ := (Chain.mem_phys C.len).mp hp
    rw [(kept _ (C.oldP hj)).1]
    exact C.dimP hD hj
  · intro j hj
    rw [h3] at hj
    exact (wid j hj).trans (dR j hj)

end CTL
