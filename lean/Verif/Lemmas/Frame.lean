import Verif.Lemmas.Construct
import Verif.Lemmas.Valid
import Verif.Lemmas.Sequence

/-! What a contraction of dense tensors leaves alone: the legs of all other tensors. -/

namespace CTL
variable {R : Type}

theorem shareBondsLoop_leg (lb : List LegId) : ∀ (la : List LegId) (st st' : Store) (bs : List BondId),
    shareBondsLoop lb la st = .ok (st', bs) → st'.leg = st.leg
  | [], st, st', bs, h => by
    simp only [shareBondsLoop, Except.ok.injEq, Prod.mk.injEq] at h
    rw [h.1]
  | l :: la, st, st', bs, h => by
    unfold shareBondsLoop at h
    split at h
    · exact shareBondsLoop_leg lb la st st' bs h
    · rename_i b hb
      obtain ⟨o, _, h⟩ := except_bind_ok.mp h
      split at h
      · obtain ⟨r, h1, h2⟩ := except_bind_ok.mp h
        rw [except_pure_ok] at h2
        have e := shareBondsLoop_leg lb la _ r.1 r.2 h1
        simp only [Prod.mk.injEq] at h2
        rw [← h2.1, e]
        split <;> rfl
      · exact shareBondsLoop_leg lb la st st' bs h

theorem newTensor_frame {st st' : Store} {s : List Nat} {d : Option (NDArray R)} {legs : List LegId} {t : Tensor R}
    (h : newTensor st s d legs = .ok (st', t)) :
    t.legs = legs ∧ t.diag = false ∧ t.id = st.nextTensor ∧ ∀ l, l ∉ legs → st'.leg l = st.leg l := by
  have key : ∀ d' : Option (NDArray R), (({ st.setOwner legs st.nextTensor with nextTensor := st.nextTensor + 1 },
        ⟨st.nextTensor, legs, d', false, d'.isNone, 0⟩) : Store × Tensor R) = (st', t) →
      t.legs = legs ∧ t.diag = false ∧ t.id = st.nextTensor ∧ ∀ l, l ∉ legs → st'.leg l = st.leg l := by
    intro d' h
    obtain ⟨rfl, rfl⟩ := Prod.mk.inj h
    exact ⟨rfl, rfl, rfl, fun l hl => setOwner_other st _ legs hl⟩
  unfold newTensor at h
  split at h
  · cases h
  · split at h
    · exact key _ (Except.ok.inj h)
    · split at h
      · exact key _ (Except.ok.inj h)
      · cases h

theorem listDifference_subset {a b r : List LegId} (h : listDifference a b = .ok r) : r ⊆ a := by
  unfold listDifference at h
  induction b generalizing a with
  | nil =>
    rw [List.foldlM_nil, except_pure_ok] at h
    rw [h]
    exact List.Subset.refl _
  | cons x b ih =>
    rw [List.foldlM_cons] at h
    obtain ⟨c, h1, h2⟩ := except_bind_ok.mp h
    refine List.Subset.trans (ih h2) ?_
    unfold pyRemove at h1
    split at h1
    · rw [← Except.ok.inj h1]
      exact List.erase_subset
    · cases h1

theorem outerContract_frame [NonUnitalNonAssocSemiring R] (cast : R → R) {st st' : Store} {ta tb t : Tensor R}
    (da : ta.diag = false) (h : outerContract cast st ta tb = .ok (st', t)) :
    t.diag = false ∧ t.legs ⊆ ta.legs ++ tb.legs ∧ ∀ l, l ∉ ta.legs → l ∉ tb.legs → st'.leg l = st.leg l := by
  have key : ∀ {d : Option (NDArray R)} {s}, newTensor st s d (ta.legs ++ tb.legs) = .ok (st', t) →
      t.diag = false ∧ t.legs ⊆ ta.legs ++ tb.legs ∧ ∀ l, l ∉ ta.legs → l ∉ tb.legs → st'.leg l = st.leg l := by
    intro d s h
    obtain ⟨h1, h2, _, h3⟩ := newTensor_frame h
    exact ⟨h2, by rw [h1]; exact List.Subset.refl _, fun l ha hb => h3 l (by simp [ha, hb])⟩
  unfold outerContract at h
  simp only [da, Bool.false_and, Bool.false_eq_true, if_false] at h
  split at h
  · exact key h
  · split at h
    · exact key h
    · cases h

theorem bondContract_frame [NonUnitalNonAssocSemiring R] {st st' : Store} {ta tb t tb' : Tensor R} {bs : List BondId}
    (da : ta.diag = false) (h : bondContract st ta tb bs = .ok (st', t, tb')) :
    t.diag = false ∧ t.legs ⊆ ta.legs ++ tb.legs ∧ tb' = tb ∧ ∀ l, l ∉ ta.legs → l ∉ tb.legs → st'.leg l = st.leg l := by
  unfold bondContract at h
  simp only at h
  obtain ⟨ra, hra, h⟩ := except_bind_ok.mp h
  obtain ⟨rb, hrb, h⟩ := except_bind_ok.mp h
  have sa : ra ⊆ ta.legs := listDifference_subset hra
  have sb : rb ⊆ tb.legs := listDifference_subset hrb
  have key : ∀ {d : Option (NDArray R)} {s} {st2 : Store} {t2 : Tensor R}, newTensor st s d (ra ++ rb) = .ok (st2, t2) →
      t2.diag = false ∧ t2.legs ⊆ ta.legs ++ tb.legs ∧ ∀ l, l ∉ ta.legs → l ∉ tb.legs → st2.leg l = st.leg l := by
    intro d s st2 t2 h
    obtain ⟨h1, h2, _, h3⟩ := newTensor_frame h
    refine ⟨h2, ?_, fun l ha hb => h3 l ?_⟩
    · rw [h1]
      exact List.append_subset.mpr ⟨List.Subset.trans sa (List.subset_append_left _ _), List.Subset.trans sb (List.subset_append_right _ _)⟩
    · rw [List.mem_append]
      rintro (hl | hl)
      · exact ha (sa hl)
      · exact hb (sb hl)
  simp only [da, Bool.false_and, Bool.false_eq_true, if_false] at h
  split at h
  · obtain ⟨r, h1, h2⟩ := except_bind_ok.mp h
    rw [except_pure_ok] at h2
    obtain ⟨rfl, e⟩ := Prod.mk.inj h2
    obtain ⟨rfl, rfl⟩ := Prod.mk.inj e
    obtain ⟨k1, k2, k3⟩ := key h1
    exact ⟨k1, k2, rfl, k3⟩
  · obtain ⟨m1, _, h⟩ := except_bind_ok.mp h
    obtain ⟨m2, _, h⟩ := except_bind_ok.mp h
    obtain ⟨m3, _, h⟩ := except_bind_ok.mp h
    obtain ⟨m4, _, h⟩ := except_bind_ok.mp h
    obtain ⟨r, h1, h2⟩ := except_bind_ok.mp h
    rw [except_pure_ok] at h2
    obtain ⟨rfl, e⟩ := Prod.mk.inj h2
    obtain ⟨rfl, rfl⟩ := Prod.mk.inj e
    obtain ⟨k1, k2, k3⟩ := key h1
    exact ⟨k1, k2, rfl, k3⟩

/-- A contraction of dense tensors gives a dense tensor with legs of the operands, leaves the operands alone, and no
other leg changes. -/
theorem contract_frame [NonUnitalNonAssocSemiring R] (cast : R → R) {st : Store} {ta tb : Tensor R} {o : ContractOut R}
    (da : ta.diag = false) (db : tb.diag = false) (h : contractTwoTensors cast st ta tb none = .ok o) :
    o.result.diag = false ∧ o.result.legs ⊆ ta.legs ++ tb.legs ∧ o.ta = ta ∧ o.tb = tb ∧
      ∀ l, l ∉ ta.legs → l ∉ tb.legs → o.store.leg l = st.leg l := by
  unfold contractTwoTensors at h
  simp only [da, db, Bool.and_false, Bool.false_eq_true, if_false] at h
  unfold contractOrdered at h
  simp only at h
  obtain ⟨r, h1, h⟩ := except_bind_ok.mp h
  have hleg := shareBondsLoop_leg _ _ _ _ _ h1
  split at h
  · obtain ⟨_, e, _⟩ := except_bind_ok.mp h
    cases e
  split at h
  · obtain ⟨r2, h2, h⟩ := except_bind_ok.mp h
    rw [except_pure_ok] at h
    subst h
    obtain ⟨k1, k2, k3⟩ := outerContract_frame cast da h2
    exact ⟨k1, k2, rfl, rfl, fun l ha hb => by rw [k3 l ha hb, hleg]⟩
  · obtain ⟨r2, h2, h⟩ := except_bind_ok.mp h
    rw [except_pure_ok] at h
    subst h
    obtain ⟨k1, k2, k4, k3⟩ := bondContract_frame da h2
    exact ⟨k1, k2, rfl, k4, fun l ha hb => by rw [k3 l ha hb, hleg]⟩

theorem newDiagonal_frame [Zero R] {st st' : Store} {s : List Nat} {d : Option (NDArray R)} {legs : List LegId} {t : Tensor R}
    (h : newDiagonal st s d legs = .ok (st', t)) : t.diag = true ∧ ∀ l, l ∉ legs → st'.leg l = st.leg l := by
  have key : ∀ (d' : Option (NDArray R)) (n : Nat), (({ st.setOwner legs st.nextTensor with nextTensor := st.nextTensor + 1 },
        ⟨st.nextTensor, legs, d', true, d'.isNone, n⟩) : Store × Tensor R) = (st', t) →
      t.diag = true ∧ ∀ l, l ∉ legs → st'.leg l = st.leg l := by
    intro d' n h
    obtain ⟨rfl, rfl⟩ := Prod.mk.inj h
    exact ⟨rfl, fun l hl => setOwner_other st _ legs hl⟩
  unfold newDiagonal at h
  split at h
  · cases h
  · split at h
    · cases h
    · simp only at h
      split at h
      · exact key _ _ (Except.ok.inj h)
      · split at h
        · split at h
          · exact key _ _ (Except.ok.inj h)
          · split at h
            · cases h
            · exact key _ _ (Except.ok.inj h)
        · cases h

theorem outerContract_kind [NonUnitalNonAssocSemiring R] (cast : R → R) {st st' : Store} {ta tb t : Tensor R}
    (hab : ta.diag = false → tb.diag = false) (h : outerContract cast st ta tb = .ok (st', t)) :
    t.diag = (ta.diag && tb.diag) ∧ ∀ l, l ∉ ta.legs → l ∉ tb.legs → st'.leg l = st.leg l := by
  have key : ∀ {d : Option (NDArray R)} {s}, newTensor st s d (ta.legs ++ tb.legs) = .ok (st', t) →
      t.diag = false ∧ ∀ l, l ∉ ta.legs → l ∉ tb.legs → st'.leg l = st.leg l := by
    intro d s h
    obtain ⟨_, h2, _, h3⟩ := newTensor_frame h
    exact ⟨h2, fun l ha hb => h3 l (by simp [ha, hb])⟩
  have key' : ∀ {d : Option (NDArray R)} {s}, newDiagonal st s d (ta.legs ++ tb.legs) = .ok (st', t) →
      t.diag = true ∧ ∀ l, l ∉ ta.legs → l ∉ tb.legs → st'.leg l = st.leg l := by
    intro d s h
    obtain ⟨h2, h3⟩ := newDiagonal_frame h
    exact ⟨h2, fun l ha hb => h3 l (by simp [ha, hb])⟩
  unfold outerContract at h
  simp only at h
  cases da : ta.diag <;> cases db : tb.diag <;>
    simp only [da, db, Bool.and_self, Bool.and_false, Bool.false_and, Bool.false_eq_true, if_false, if_true] at h ⊢
  · split at h
    · exact key h
    · split at h
      · exact key h
      · cases h
  · exact absurd (hab da) (by simp [db])
  · split at h
    · exact key h
    · split at h
      · obtain ⟨_, _, h⟩ := except_bind_ok.mp h
        exact key h
      · cases h
  · split at h
    · exact key' h
    · split at h
      · obtain ⟨_, _, h⟩ := except_bind_ok.mp h
        exact key' h
      · cases h

theorem bondContract_kind [NonUnitalNonAssocSemiring R] {st st' : Store} {ta tb t tb' : Tensor R} {bs : List BondId}
    (hab : ta.diag = false → tb.diag = false) (h : bondContract st ta tb bs = .ok (st', t, tb')) :
    t.diag = (ta.diag && tb.diag) ∧ ∀ l, l ∉ ta.legs → l ∉ tb.legs → st'.leg l = st.leg l := by
  cases da : ta.diag with
  | false =>
    obtain ⟨h1, _, _, h2⟩ := bondContract_frame da h
    exact ⟨by simp [h1], h2⟩
  | true =>
    unfold bondContract at h
    simp only at h
    obtain ⟨ra, hra, h⟩ := except_bind_ok.mp h
    obtain ⟨rb, hrb, h⟩ := except_bind_ok.mp h
    have sa : ra ⊆ ta.legs := listDifference_subset hra
    have sb : rb ⊆ tb.legs := listDifference_subset hrb
    have sub : ∀ l, l ∉ ta.legs → l ∉ tb.legs → l ∉ ra ++ rb ∧ l ∉ rb ++ ra := fun l ha hb => by
      simp only [List.mem_append, not_or]
      exact ⟨⟨fun h => ha (sa h), fun h => hb (sb h)⟩, fun h => hb (sb h), fun h => ha (sa h)⟩
    have keyT : ∀ {d : Option (NDArray R)} {s} {st2 : Store} {t2 : Tensor R} {L : List LegId}, (L = ra ++ rb ∨ L = rb ++ ra) →
        newTensor st s d L = .ok (st2, t2) → t2.diag = false ∧ ∀ l, l ∉ ta.legs → l ∉ tb.legs → st2.leg l = st.leg l := by
      intro d s st2 t2 L hL h
      obtain ⟨_, h2, _, h3⟩ := newTensor_frame h
      refine ⟨h2, fun l ha hb => h3 l ?_⟩
      rcases hL with rfl | rfl
      · exact (sub l ha hb).1
      · exact (sub l ha hb).2
    have keyD : ∀ {d : Option (NDArray R)} {s} {st2 : Store} {t2 : Tensor R}, newDiagonal st s d (ra ++ rb) = .ok (st2, t2) →
        t2.diag = true ∧ ∀ l, l ∉ ta.legs → l ∉ tb.legs → st2.leg l = st.leg l := by
      intro d s st2 t2 h
      obtain ⟨h2, h3⟩ := newDiagonal_frame h
      exact ⟨h2, fun l ha hb => h3 l (sub l ha hb).1⟩
    have done : ∀ {r : Store × Tensor R} {u : Tensor R},
        (pure (r.1, r.2, u) : Except PyErr (Store × Tensor R × Tensor R)) = .ok (st', t, tb') → r = (st', t) := by
      intro r u h
      rw [except_pure_ok] at h
      obtain ⟨e1, e⟩ := Prod.mk.inj h
      exact Prod.ext e1 (Prod.mk.inj e).1
    cases db : tb.diag with
    | true =>
      simp only [da, db, Bool.and_self, if_true] at h ⊢
      split at h
      · obtain ⟨r, h1, h2⟩ := except_bind_ok.mp h
        exact keyD (done h2 ▸ h1)
      · split at h
        · obtain ⟨d, _, h⟩ := except_bind_ok.mp h
          split at h
          · obtain ⟨r, h1, h2⟩ := except_bind_ok.mp h
            exact keyD (done h2 ▸ h1)
          · rw [except_pure_ok] at h
            obtain ⟨rfl, e⟩ := Prod.mk.inj h
            obtain ⟨rfl, _⟩ := Prod.mk.inj e
            exact ⟨rfl, fun _ _ _ => rfl⟩
        · cases h
    | false =>
      simp only [da, db, Bool.and_false, Bool.false_eq_true, if_false, if_true] at h ⊢
      split at h
      · obtain ⟨r, h1, h2⟩ := except_bind_ok.mp h
        exact keyT (Or.inl rfl) (done h2 ▸ h1)
      · obtain ⟨_, _, h⟩ := except_bind_ok.mp h
        split at h
        · obtain ⟨_, _, h⟩ := except_bind_ok.mp h
          obtain ⟨_, _, h⟩ := except_bind_ok.mp h
          obtain ⟨_, _, h⟩ := except_bind_ok.mp h
          obtain ⟨r, h1, h2⟩ := except_bind_ok.mp h
          exact keyT (Or.inr rfl) (done h2 ▸ h1)
        · cases h

/-- The result of a contraction is diagonal when both operands are, and the legs of other tensors do not change. -/
theorem contract_kind [NonUnitalNonAssocSemiring R] (cast : R → R) {st : Store} {ta tb : Tensor R} {o : ContractOut R}
    (h : contractTwoTensors cast st ta tb none = .ok o) :
    o.result.diag = (ta.diag && tb.diag) ∧ ∀ l, l ∉ ta.legs → l ∉ tb.legs → o.store.leg l = st.leg l := by
  have key : ∀ {ta tb : Tensor R} {o : ContractOut R}, (ta.diag = false → tb.diag = false) →
      contractOrdered cast st ta tb none = .ok o →
      o.result.diag = (ta.diag && tb.diag) ∧ ∀ l, l ∉ ta.legs → l ∉ tb.legs → o.store.leg l = st.leg l := by
    intro ta tb o hab h
    unfold contractOrdered at h
    simp only at h
    obtain ⟨r, h1, h⟩ := except_bind_ok.mp h
    have hleg := shareBondsLoop_leg _ _ _ _ _ h1
    split at h
    · obtain ⟨_, e, _⟩ := except_bind_ok.mp h
      cases e
    split at h
    · obtain ⟨r2, h2, h⟩ := except_bind_ok.mp h
      rw [except_pure_ok] at h
      subst h
      obtain ⟨k1, k3⟩ := outerContract_kind cast hab h2
      exact ⟨k1, fun l ha hb => by rw [k3 l ha hb, hleg]⟩
    · obtain ⟨r2, h2, h⟩ := except_bind_ok.mp h
      rw [except_pure_ok] at h
      subst h
      obtain ⟨k1, k3⟩ := bondContract_kind hab h2
      exact ⟨k1, fun l ha hb => by rw [k3 l ha hb, hleg]⟩
  unfold contractTwoTensors at h
  split at h
  · rename_i hd
    rcases ho : contractOrdered cast st tb ta none with e | o'
    · rw [ho] at h; cases h
    · rw [ho] at h
      cases h
      simp only [Bool.and_eq_true, Bool.not_eq_true'] at hd
      obtain ⟨k1, k2⟩ := key (by simp [hd.2]) ho
      exact ⟨by simp only [k1, Bool.and_comm], fun l ha hb => k2 l hb ha⟩
  · rename_i hd
    simp only [Bool.and_eq_true, Bool.not_eq_true', not_and, Bool.not_eq_true] at hd
    exact key hd h

theorem contractCost_leg {st st' : Store} {ta tb : Tensor R} {c : Nat × Nat} (h : contractCost st ta tb = .ok (st', c)) :
    st'.leg = st.leg := by
  unfold contractCost at h
  split at h
  · rw [← (Prod.mk.inj (Except.ok.inj h)).1]
  · obtain ⟨r, h1, h⟩ := except_bind_ok.mp h
    have hleg := shareBondsLoop_leg _ _ _ _ _ h1
    simp only at h
    split at h
    · obtain ⟨_, e, _⟩ := except_bind_ok.mp h
      cases e
    split at h
    · rw [except_pure_ok] at h
      rw [← (Prod.mk.inj h).1, hleg]
    · rw [except_pure_ok] at h
      rw [← (Prod.mk.inj h).1, hleg]

/-- Contracting a sequence of dense tensors: all slots stay dense with legs of the tensors, and no other leg changes. -/
theorem seqLoop_frame [NonUnitalNonAssocSemiring R] (cast : R → R) (seq : List (Nat × Nat)) :
    ∀ (st st' : Store) (ts ts' : List (Tensor R)) (c c' : Nat), (∀ t ∈ ts, t.diag = false) →
      seqLoop cast st ts c seq = .ok (st', ts', c') →
      (∀ t ∈ ts', t.diag = false ∧ ∀ l ∈ t.legs, ∃ u ∈ ts, l ∈ u.legs) ∧
      ∀ l, (∀ u ∈ ts, l ∉ u.legs) → st'.leg l = st.leg l := by
  induction seq with
  | nil =>
    intro st st' ts ts' c c' hd h
    simp only [seqLoop, Except.ok.injEq, Prod.mk.injEq] at h
    obtain ⟨rfl, rfl, _⟩ := h
    exact ⟨fun t ht => ⟨hd t ht, fun l hl => ⟨t, ht, hl⟩⟩, fun _ _ => rfl⟩
  | cons p seq ih =>
    intro st st' ts ts' c c' hd h
    unfold seqLoop at h
    obtain ⟨r, h1, h2⟩ := except_bind_ok.mp h
    obtain ⟨st1, ts1, c1⟩ := r
    simp only at h2
    unfold seqStep at h1
    split at h1
    · rename_i ta tb ea eb
      obtain ⟨q, hq, h1⟩ := except_bind_ok.mp h1
      obtain ⟨st2, q2⟩ := q
      have hleg := contractCost_leg hq
      simp only at h1
      obtain ⟨o, ho, h1⟩ := except_bind_ok.mp h1
      rw [except_pure_ok] at h1
      obtain ⟨e1, e2⟩ := Prod.mk.inj h1
      obtain ⟨e2, _⟩ := Prod.mk.inj e2
      have ma := List.mem_of_getElem? ea
      have mb := List.mem_of_getElem? eb
      obtain ⟨f1, f2, f3, f4, f5⟩ := contract_frame cast (hd ta ma) (hd tb mb) ho
      have hts1 : ∀ t ∈ ts1, t.diag = false ∧ ∀ l ∈ t.legs, ∃ u ∈ ts, l ∈ u.legs := by
        intro t ht
        rw [← e2, f3, f4] at ht
        rcases List.mem_or_eq_of_mem_set ht with ht | rfl
        · rcases List.mem_or_eq_of_mem_set ht with ht | rfl
          · rcases List.mem_or_eq_of_mem_set ht with ht | rfl
            · exact ⟨hd t ht, fun l hl => ⟨t, ht, hl⟩⟩
            · exact ⟨hd _ ma, fun l hl => ⟨_, ma, hl⟩⟩
          · exact ⟨hd _ mb, fun l hl => ⟨_, mb, hl⟩⟩
        · refine ⟨f1, fun l hl => ?_⟩
          rcases List.mem_append.mp (f2 hl) with hl | hl
          · exact ⟨ta, ma, hl⟩
          · exact ⟨tb, mb, hl⟩
      obtain ⟨g1, g2⟩ := ih st1 st' ts1 ts' _ c' (fun t ht => (hts1 t ht).1) h2
      refine ⟨fun t ht => ⟨(g1 t ht).1, fun l hl => ?_⟩, fun l hl => ?_⟩
      · obtain ⟨u, hu, hlu⟩ := (g1 t ht).2 l hl
        exact (hts1 u hu).2 l hlu
      · rw [g2 l, ← e1, f5 l (hl ta ma) (hl tb mb), hleg]
        intro u hu hlu
        obtain ⟨v, hv, hlv⟩ := (hts1 u hu).2 l hlu
        exact hl v hv hlv
    · cases h1

theorem contractInPlace_frame [NonUnitalNonAssocSemiring R] (cast : R → R) {st st' : Store} {ts : List (Tensor R)}
    {t : Tensor R} {c : Nat} {seq : List (Nat × Nat)} (hd : ∀ t ∈ ts, t.diag = false)
    (h : contractInPlace cast st ts seq = .ok (st', t, c)) :
    t.diag = false ∧ ∀ l, (∀ u ∈ ts, l ∉ u.legs) → st'.leg l = st.leg l := by
  unfold contractInPlace at h
  obtain ⟨r, h1, h2⟩ := except_bind_ok.mp h
  obtain ⟨st1, ts1, c1⟩ := r
  simp only at h2
  split at h2
  · cases h2
  · rename_i t1 ts2
    rw [except_pure_ok] at h2
    obtain ⟨rfl, e⟩ := Prod.mk.inj h2
    obtain ⟨rfl, _⟩ := Prod.mk.inj e
    obtain ⟨g1, g2⟩ := seqLoop_frame cast seq st _ ts _ 0 c1 hd h1
    exact ⟨(g1 _ (by simp)).1, g2⟩

end CTL
