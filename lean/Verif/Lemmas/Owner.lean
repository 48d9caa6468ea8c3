import Verif.Spec.ContractMPS
import Verif.Lemmas.Frame
import Verif.Lemmas.MPS

/-! Which tensor a leg belongs to: what the operations on a part of a network do to the legs, their owners and the
identities of the tensors. -/

namespace CTL
variable {R : Type}

/-- The tensors `L` have been replaced by `L'`: legs outside are as they were, the new tensors have legs of the old ones
and new legs. -/
structure Trail (st : Store) (L : List (Tensor R)) (st' : Store) (L' : List (Tensor R)) : Prop where
  nextLeg : st.nextLeg ≤ st'.nextLeg
  nextTensor : st.nextTensor ≤ st'.nextTensor
  other : ∀ l < st.nextLeg, (∀ t ∈ L, l ∉ t.legs) → st'.leg l = st.leg l
  legs : ∀ t ∈ L', ∀ l ∈ t.legs, st.nextLeg ≤ l ∨ ∃ u ∈ L, l ∈ u.legs
  ids : ∀ t ∈ L', st.nextTensor ≤ t.id ∨ ∃ u ∈ L, u.id = t.id
  own : Owned st L → Owned st' L'

namespace Owned

theorem eq_of_mem {st : Store} {L : List (Tensor R)} (h : Owned st L) {t u : Tensor R} (ht : t ∈ L) (hu : u ∈ L) {l : LegId}
    (h1 : l ∈ t.legs) (h2 : l ∈ u.legs) : t = u := by
  have e := (h.legs t ht l h1).2.symm.trans (h.legs u hu l h2).2
  exact List.inj_on_of_nodup_map h.ids ht hu (Option.some.inj e)

theorem perm {st : Store} {L M : List (Tensor R)} (h : Owned st L) (p : L.Perm M) : Owned st M :=
  ⟨(p.map _).nodup_iff.mp h.ids, fun t ht => h.old t (p.mem_iff.mpr ht), fun t ht => h.legs t (p.mem_iff.mpr ht)⟩

theorem left {st : Store} {N L : List (Tensor R)} (h : Owned st (N ++ L)) : Owned st N := by
  refine ⟨?_, fun t ht => h.old t (List.mem_append_left _ ht), fun t ht => h.legs t (List.mem_append_left _ ht)⟩
  have := h.ids
  rw [List.map_append] at this
  exact (List.nodup_append.mp this).1

theorem right {st : Store} {N L : List (Tensor R)} (h : Owned st (N ++ L)) : Owned st L :=
  (h.perm List.perm_append_comm).left

theorem disj {st : Store} {N L : List (Tensor R)} (h : Owned st (N ++ L)) {t u : Tensor R} (ht : t ∈ N) (hu : u ∈ L) {l : LegId}
    (h1 : l ∈ t.legs) : l ∉ u.legs := by
  intro h2
  have e := h.eq_of_mem (List.mem_append_left _ ht) (List.mem_append_right _ hu) h1 h2
  have := h.ids
  rw [List.map_append, List.nodup_append] at this
  exact this.2.2 t.id (List.mem_map_of_mem ht) u.id (List.mem_map_of_mem hu) (by rw [e])

end Owned

namespace Trail
variable {a b c : Store} {L M N : List (Tensor R)}

theorem refl (a : Store) (L : List (Tensor R)) : Trail a L a L :=
  ⟨le_refl _, le_refl _, fun _ _ _ => rfl, fun t ht l hl => .inr ⟨t, ht, hl⟩, fun t ht => .inr ⟨t, ht, rfl⟩, id⟩

theorem trans (h1 : Trail a L b M) (h2 : Trail b M c N) : Trail a L c N := by
  refine ⟨h1.nextLeg.trans h2.nextLeg, h1.nextTensor.trans h2.nextTensor, ?_, ?_, ?_, fun h => h2.own (h1.own h)⟩
  · intro l hl no
    rw [h2.other l (hl.trans_le h1.nextLeg) ?_, h1.other l hl no]
    intro t ht hlt
    rcases h1.legs t ht l hlt with h | ⟨u, hu, h⟩
    · exact absurd h (not_le.mpr hl)
    · exact no u hu h
  · intro t ht l hl
    rcases h2.legs t ht l hl with h | ⟨u, hu, h⟩
    · exact .inl (h1.nextLeg.trans h)
    · exact h1.legs u hu l h
  · intro t ht
    rcases h2.ids t ht with h | ⟨u, hu, h⟩
    · exact .inl (h1.nextTensor.trans h)
    · rw [← h]; exact h1.ids u hu

theorem perm (h : Trail a L b M) {L' M' : List (Tensor R)} (p : L.Perm L') (q : M.Perm M') : Trail a L' b M' :=
  ⟨h.nextLeg, h.nextTensor, fun l hl no => h.other l hl fun t ht => no t (p.mem_iff.mp ht),
    fun t ht l hl => (h.legs t (q.mem_iff.mpr ht) l hl).imp id fun ⟨u, hu, k⟩ => ⟨u, p.mem_iff.mp hu, k⟩,
    fun t ht => (h.ids t (q.mem_iff.mpr ht)).imp id fun ⟨u, hu, k⟩ => ⟨u, p.mem_iff.mp hu, k⟩,
    fun o => (h.own (o.perm p.symm)).perm q⟩

theorem frame (h : Trail a L b M) (N : List (Tensor R)) : Trail a (N ++ L) b (N ++ M) := by
  refine ⟨h.nextLeg, h.nextTensor, fun l hl no => h.other l hl fun t ht => no t (List.mem_append_right _ ht), ?_, ?_, ?_⟩
  · intro t ht l hl
    rcases List.mem_append.mp ht with ht | ht
    · exact .inr ⟨t, List.mem_append_left _ ht, hl⟩
    · exact (h.legs t ht l hl).imp id fun ⟨u, hu, k⟩ => ⟨u, List.mem_append_right _ hu, k⟩
  · intro t ht
    rcases List.mem_append.mp ht with ht | ht
    · exact .inr ⟨t, List.mem_append_left _ ht, rfl⟩
    · exact (h.ids t ht).imp id fun ⟨u, hu, k⟩ => ⟨u, List.mem_append_right _ hu, k⟩
  · intro o
    have oM := h.own o.right
    refine ⟨?_, ?_, ?_⟩
    · rw [List.map_append, List.nodup_append]
      refine ⟨o.left.ids, oM.ids, ?_⟩
      intro i hi j hj e
      obtain ⟨t, ht, rfl⟩ := List.mem_map.mp hi
      obtain ⟨u, hu, rfl⟩ := List.mem_map.mp hj
      rcases h.ids u hu with k | ⟨v, hv, k⟩
      · have := o.old t (List.mem_append_left _ ht)
        rw [e] at this
        exact absurd k (not_le.mpr this)
      · have := o.ids
        rw [List.map_append, List.nodup_append] at this
        exact this.2.2 t.id (List.mem_map_of_mem ht) v.id (List.mem_map_of_mem hv) (by rw [k]; exact e)
    · intro t ht
      rcases List.mem_append.mp ht with ht | ht
      · exact (o.old t (List.mem_append_left _ ht)).trans_le h.nextTensor
      · exact oM.old t ht
    · intro t ht l hl
      rcases List.mem_append.mp ht with ht | ht
      · have k := o.legs t (List.mem_append_left _ ht) l hl
        exact ⟨k.1.trans_le h.nextLeg, by rw [h.other l k.1 fun u hu => o.disj ht hu hl]; exact k.2⟩
      · exact oM.legs t ht l hl

end Trail

/-- A tensor has been made on the legs `legs`, some of which are legs of other tensors. -/
structure MadeOn (st st' : Store) (t : Tensor R) : Prop where
  nextLeg : st'.nextLeg = st.nextLeg
  nextTensor : st'.nextTensor = st.nextTensor + 1
  id : t.id = st.nextTensor
  other : ∀ l, l ∉ t.legs → st'.leg l = st.leg l
  owner : ∀ l ∈ t.legs, (st'.leg l).tensor = some t.id

theorem setOwner_made (st : Store) (legs : List LegId) (d : Option (NDArray R)) (diag like : Bool) (n : Nat) :
    MadeOn st { st.setOwner legs st.nextTensor with nextTensor := st.nextTensor + 1 }
      (⟨st.nextTensor, legs, d, diag, like, n⟩ : Tensor R) := by
  refine ⟨?_, rfl, rfl, fun l hl => setOwner_other st _ legs hl, fun l hl => ?_⟩
  · exact (setOwner_next st legs st.nextTensor).1
  · have := setOwner_tensor st st.nextTensor legs l
    rw [if_pos hl] at this
    exact this

theorem newTensor_made {st st' : Store} {s : List Nat} {d : Option (NDArray R)} {legs : List LegId} {t : Tensor R}
    (h : newTensor st s d legs = .ok (st', t)) : t.legs = legs ∧ MadeOn st st' t := by
  unfold newTensor at h
  split at h
  · cases h
  · split at h
    · obtain ⟨rfl, rfl⟩ := Prod.mk.inj (Except.ok.inj h)
      exact ⟨rfl, setOwner_made ..⟩
    · split at h
      · obtain ⟨rfl, rfl⟩ := Prod.mk.inj (Except.ok.inj h)
        exact ⟨rfl, setOwner_made ..⟩
      · cases h

theorem newDiagonal_made [Zero R] {st st' : Store} {s : List Nat} {d : Option (NDArray R)} {legs : List LegId} {t : Tensor R}
    (h : newDiagonal st s d legs = .ok (st', t)) : t.legs = legs ∧ MadeOn st st' t := by
  unfold newDiagonal at h
  split at h
  · cases h
  split at h
  · cases h
  generalize (if s = [] then 1 else s.headD 0) = len at h
  simp only at h
  split at h
  · obtain ⟨rfl, rfl⟩ := Prod.mk.inj (Except.ok.inj h)
    exact ⟨rfl, setOwner_made ..⟩
  · split at h
    · split at h
      · obtain ⟨rfl, rfl⟩ := Prod.mk.inj (Except.ok.inj h)
        exact ⟨rfl, setOwner_made ..⟩
      · split at h
        · cases h
        · obtain ⟨rfl, rfl⟩ := Prod.mk.inj (Except.ok.inj h)
          exact ⟨rfl, setOwner_made ..⟩
    · cases h

theorem outerContract_made [NonUnitalNonAssocSemiring R] (cast : R → R) {st st' : Store} {ta tb t : Tensor R}
    (h : outerContract cast st ta tb = .ok (st', t)) : t.legs ⊆ ta.legs ++ tb.legs ∧ MadeOn st st' t := by
  have key : ∀ {s : List Nat} {d : Option (NDArray R)}, newTensor st s d (ta.legs ++ tb.legs) = .ok (st', t) →
      t.legs ⊆ ta.legs ++ tb.legs ∧ MadeOn st st' t := by
    intro s d h
    obtain ⟨e, k⟩ := newTensor_made h
    exact ⟨by rw [e]; exact List.Subset.refl _, k⟩
  have keyD : ∀ {s : List Nat} {d : Option (NDArray R)}, newDiagonal st s d (ta.legs ++ tb.legs) = .ok (st', t) →
      t.legs ⊆ ta.legs ++ tb.legs ∧ MadeOn st st' t := by
    intro s d h
    obtain ⟨e, k⟩ := newDiagonal_made h
    exact ⟨by rw [e]; exact List.Subset.refl _, k⟩
  unfold outerContract at h
  simp only at h
  split at h
  · split at h
    · exact keyD h
    · split at h
      · obtain ⟨d, _, h⟩ := except_bind_ok.mp h
        exact keyD h
      · cases h
  · split at h
    · split at h
      · exact key h
      · split at h
        · obtain ⟨d, _, h⟩ := except_bind_ok.mp h
          exact key h
        · cases h
    · split at h
      · exact key h
      · split at h
        · exact key h
        · cases h

theorem bondContract_made [NonUnitalNonAssocSemiring R] {st st' : Store} {ta tb t tb' : Tensor R} {bs : List BondId}
    (h : bondContract st ta tb bs = .ok (st', t, tb')) : t.legs ⊆ ta.legs ++ tb.legs ∧ MadeOn st st' t := by
  unfold bondContract at h
  simp only at h
  obtain ⟨ra, hra, h⟩ := except_bind_ok.mp h
  obtain ⟨rb, hrb, h⟩ := except_bind_ok.mp h
  have sa : ra ⊆ ta.legs := listDifference_subset hra
  have sb : rb ⊆ tb.legs := listDifference_subset hrb
  have sub : ra ++ rb ⊆ ta.legs ++ tb.legs := List.append_subset.mpr
    ⟨List.Subset.trans sa (List.subset_append_left _ _), List.Subset.trans sb (List.subset_append_right _ _)⟩
  have sub' : rb ++ ra ⊆ ta.legs ++ tb.legs := List.append_subset.mpr
    ⟨List.Subset.trans sb (List.subset_append_right _ _), List.Subset.trans sa (List.subset_append_left _ _)⟩
  have key : ∀ {legs : List LegId} {s : List Nat} {d : Option (NDArray R)} {r : Store × Tensor R} {w : Tensor R},
      legs ⊆ ta.legs ++ tb.legs → newTensor st s d legs = .ok r → (r.1, r.2, w) = (st', t, tb') →
      t.legs ⊆ ta.legs ++ tb.legs ∧ MadeOn st st' t := by
    intro legs s d r w hs hn e
    obtain ⟨r1, r2⟩ := r
    simp only [Prod.mk.injEq] at e
    obtain ⟨rfl, rfl, -⟩ := e
    obtain ⟨e, k⟩ := newTensor_made hn
    exact ⟨by rw [e]; exact hs, k⟩
  have keyD : ∀ {legs : List LegId} {s : List Nat} {d : Option (NDArray R)} {r : Store × Tensor R} {w : Tensor R},
      legs ⊆ ta.legs ++ tb.legs → newDiagonal st s d legs = .ok r → (r.1, r.2, w) = (st', t, tb') →
      t.legs ⊆ ta.legs ++ tb.legs ∧ MadeOn st st' t := by
    intro legs s d r w hs hn e
    obtain ⟨r1, r2⟩ := r
    simp only [Prod.mk.injEq] at e
    obtain ⟨rfl, rfl, -⟩ := e
    obtain ⟨e, k⟩ := newDiagonal_made hn
    exact ⟨by rw [e]; exact hs, k⟩
  split at h
  · split at h
    · obtain ⟨r, h1, h2⟩ := except_bind_ok.mp h
      exact keyD sub h1 (except_pure_ok.mp h2)
    · split at h
      · obtain ⟨d, _, h⟩ := except_bind_ok.mp h
        split at h
        · obtain ⟨r, h1, h2⟩ := except_bind_ok.mp h
          exact keyD sub h1 (except_pure_ok.mp h2)
        · have e := except_pure_ok.mp h
          simp only [newScalarDiagonal, Prod.mk.injEq] at e
          obtain ⟨rfl, rfl, -⟩ := e
          refine ⟨by simp [newScalarDiagonal], rfl, rfl, rfl, fun _ _ => rfl, ?_⟩
          simp [newScalarDiagonal]
      · cases h
  · split at h
    · split at h
      · obtain ⟨r, h1, h2⟩ := except_bind_ok.mp h
        exact key sub h1 (except_pure_ok.mp h2)
      · obtain ⟨_, _, h⟩ := except_bind_ok.mp h
        split at h
        · obtain ⟨_, _, h⟩ := except_bind_ok.mp h
          obtain ⟨_, _, h⟩ := except_bind_ok.mp h
          obtain ⟨_, _, h⟩ := except_bind_ok.mp h
          obtain ⟨r, h1, h2⟩ := except_bind_ok.mp h
          exact key sub' h1 (except_pure_ok.mp h2)
        · cases h
    · split at h
      · obtain ⟨r, h1, h2⟩ := except_bind_ok.mp h
        exact key sub h1 (except_pure_ok.mp h2)
      · obtain ⟨_, _, h⟩ := except_bind_ok.mp h
        obtain ⟨_, _, h⟩ := except_bind_ok.mp h
        obtain ⟨_, _, h⟩ := except_bind_ok.mp h
        obtain ⟨_, _, h⟩ := except_bind_ok.mp h
        obtain ⟨r, h1, h2⟩ := except_bind_ok.mp h
        exact key sub h1 (except_pure_ok.mp h2)

theorem shareBondsLoop_next (lb : List LegId) : ∀ (la : List LegId) (st st' : Store) (bs : List BondId),
    shareBondsLoop lb la st = .ok (st', bs) → st'.nextLeg = st.nextLeg ∧ st'.nextTensor = st.nextTensor
  | [], st, st', bs, h => by
    simp only [shareBondsLoop, Except.ok.injEq, Prod.mk.injEq] at h
    rw [h.1]
    exact ⟨rfl, rfl⟩
  | l :: la, st, st', bs, h => by
    unfold shareBondsLoop at h
    split at h
    · exact shareBondsLoop_next lb la st st' bs h
    · rename_i b hb
      obtain ⟨o, _, h⟩ := except_bind_ok.mp h
      split at h
      · obtain ⟨r, h1, h2⟩ := except_bind_ok.mp h
        rw [except_pure_ok] at h2
        have e := shareBondsLoop_next lb la _ r.1 r.2 h1
        simp only [Prod.mk.injEq] at h2
        rw [← h2.1, e.1, e.2]
        split <;> exact ⟨rfl, rfl⟩
      · exact shareBondsLoop_next lb la st st' bs h

/-- A store that differs in bonds only. -/
theorem MadeOn.of_leg {a b c : Store} {t : Tensor R} (e : b.leg = a.leg) (n : b.nextLeg = a.nextLeg ∧ b.nextTensor = a.nextTensor)
    (h : MadeOn b c t) : MadeOn a c t :=
  ⟨h.nextLeg.trans n.1, by rw [h.nextTensor, n.2], h.id.trans n.2, fun l hl => by rw [h.other l hl, e], h.owner⟩

theorem contract_made [NonUnitalNonAssocSemiring R] {cast : R → R} {st : Store} {ta tb : Tensor R} {o : ContractOut R}
    (h : contractTwoTensors cast st ta tb none = .ok o) :
    o.result.legs ⊆ ta.legs ++ tb.legs ∧ MadeOn st o.store o.result := by
  have key : ∀ {ta tb : Tensor R} {o : ContractOut R}, contractOrdered cast st ta tb none = .ok o →
      o.result.legs ⊆ ta.legs ++ tb.legs ∧ MadeOn st o.store o.result := by
    intro ta tb o h
    unfold contractOrdered at h
    simp only at h
    obtain ⟨r, h1, h⟩ := except_bind_ok.mp h
    have hleg := shareBondsLoop_leg _ _ _ _ _ h1
    have hn := shareBondsLoop_next _ _ _ _ _ h1
    split at h
    · obtain ⟨_, e, _⟩ := except_bind_ok.mp h
      cases e
    split at h
    · obtain ⟨r2, h2, h⟩ := except_bind_ok.mp h
      rw [except_pure_ok] at h
      subst h
      obtain ⟨k1, k2⟩ := outerContract_made cast h2
      exact ⟨k1, k2.of_leg hleg hn⟩
    · obtain ⟨r2, h2, h⟩ := except_bind_ok.mp h
      rw [except_pure_ok] at h
      subst h
      obtain ⟨k1, k2⟩ := bondContract_made h2
      exact ⟨k1, k2.of_leg hleg hn⟩
  unfold contractTwoTensors at h
  split at h
  · rcases e : contractOrdered cast st tb ta none with er | o'
    · rw [e] at h; cases h
    · rw [e] at h
      have := Except.ok.inj h
      subst this
      obtain ⟨k1, k2⟩ := key e
      refine ⟨fun l hl => ?_, k2⟩
      have := k1 hl
      rw [List.mem_append] at this ⊢
      exact this.symm
  · exact key h

/-- A contraction of two tensors. -/
theorem contract_trail [NonUnitalNonAssocSemiring R] {cast : R → R} {st : Store} {ta tb : Tensor R} {o : ContractOut R}
    (h : contractTwoTensors cast st ta tb none = .ok o) : Trail st [ta, tb] o.store [o.result] := by
  obtain ⟨sub, m⟩ := contract_made h
  have mem : ∀ l ∈ o.result.legs, ∃ u ∈ [ta, tb], l ∈ u.legs := by
    intro l hl
    rcases List.mem_append.mp (sub hl) with k | k
    · exact ⟨ta, by simp, k⟩
    · exact ⟨tb, by simp, k⟩
  refine ⟨m.nextLeg.ge, by rw [m.nextTensor]; exact Nat.le_succ _, ?_, ?_, ?_, ?_⟩
  · intro l _ no
    refine m.other l fun hl => ?_
    obtain ⟨u, hu, k⟩ := mem l hl
    exact no u hu k
  · intro t ht l hl
    rw [List.mem_singleton] at ht
    subst ht
    exact .inr (mem l hl)
  · intro t ht
    rw [List.mem_singleton] at ht
    subst ht
    exact .inl m.id.ge
  · intro ow
    refine ⟨by simp, ?_, ?_⟩
    · intro t ht
      rw [List.mem_singleton] at ht
      subst ht
      rw [m.id, m.nextTensor]
      exact Nat.lt_succ_self _
    · intro t ht l hl
      rw [List.mem_singleton] at ht
      subst ht
      obtain ⟨u, hu, k⟩ := mem l hl
      exact ⟨by rw [m.nextLeg]; exact (ow.legs u hu l k).1, m.owner l hl⟩

end CTL
