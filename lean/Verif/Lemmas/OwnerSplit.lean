import Verif.Lemmas.Owner
import Verif.Props.Canon
import Verif.Props.Ops

/-! What the decompositions do to the legs, their owners and the identities of the tensors. -/

namespace CTL
variable {R : Type}

/-- Neither an owner nor a leg outside `S` has changed, and nothing is new. -/
structure Quiet (a b : Store) (S : List LegId) : Prop where
  owner : ∀ l, (b.leg l).tensor = (a.leg l).tensor
  other : ∀ l, l ∉ S → b.leg l = a.leg l
  nextLeg : b.nextLeg = a.nextLeg
  nextTensor : b.nextTensor = a.nextTensor

namespace Quiet
variable {a b c : Store} {S T : List LegId}

theorem refl (a : Store) (S : List LegId) : Quiet a a S := ⟨fun _ => rfl, fun _ _ => rfl, rfl, rfl⟩

theorem trans (h : Quiet a b S) (k : Quiet b c S) : Quiet a c S :=
  ⟨fun l => (k.owner l).trans (h.owner l), fun l hl => (k.other l hl).trans (h.other l hl), k.nextLeg.trans h.nextLeg,
    k.nextTensor.trans h.nextTensor⟩

theorem mono (h : Quiet a b S) (hs : S ⊆ T) : Quiet a b T :=
  ⟨h.owner, fun l hl => h.other l fun k => hl (hs k), h.nextLeg, h.nextTensor⟩

theorem of_names (h : SameButNames a b S) : Quiet a b S :=
  ⟨fun l => by have := congrArg LegRec.tensor (h.1 l); exact this, h.2.1, h.2.2.2.1, h.2.2.2.2.2⟩

theorem rename (st : Store) {l : LegId} {legs : List LegId} (n : String) (hl : l ∈ legs) : Quiet st (st.rename l n) legs :=
  of_names (sameButNames_rename st n hl)

end Quiet

theorem addTagLoop_quiet (tag : String) (S : List LegId) : ∀ (legs : List LegId) (st : Store), legs ⊆ S →
    Quiet st (addTagLoop tag st legs).1 S
  | [], st, _ => Quiet.refl _ _
  | l :: legs, st, h => by
    unfold addTagLoop
    split
    · exact (Quiet.rename st _ (h (List.mem_cons_self ..))).trans
        (addTagLoop_quiet tag S legs _ fun x hx => h (List.mem_cons_of_mem _ hx))
    · exact Quiet.refl _ _

theorem raiseIf_ok {p : Store × Option PyErr} {s : Store} (h : raiseIf p = .ok s) : s = p.1 := by
  obtain ⟨a, _ | e⟩ := p
  · exact (Except.ok.inj h).symm
  · cases h

theorem retag_quiet (t : Tensor R) (f g : Char) : ∀ (labels : List String) (st : Store),
    Quiet st (retagLoop t f g labels st) t.legs
  | [], st => Quiet.refl _ _
  | lab :: labels, st => by
    have key : Quiet st (t.renameLabel st (String.ofList (f :: '-' :: lab.toList)) (String.ofList (g :: '-' :: lab.toList)))
        t.legs := by
      unfold Tensor.renameLabel
      split
      · exact Quiet.refl _ _
      · rename_i i hi
        have hl : i < t.legs.length := by
          have k := ((C21_indexOfLabel_forward st t _ i).mp hi).1
          obtain ⟨k, _⟩ := List.getElem?_eq_some_iff.mp k
          simpa [Tensor.labels] using k
        refine Quiet.rename st _ ?_
        rw [List.getD_eq_getElem _ _ hl]
        exact List.getElem_mem hl
    exact key.trans (retag_quiet t f g labels _)

theorem untag_quiet (c : Char) (S : List LegId) : ∀ (legs : List LegId) (st : Store), legs ⊆ S →
    Quiet st (untagLoop c legs st) S
  | [], st, _ => Quiet.refl _ _
  | l :: legs, st, h => by
    have key : Quiet st (if hasTag c (st.name l) then st.rename l (String.ofList ((st.name l).toList.drop 2)) else st) S := by
      split
      · exact Quiet.rename st _ (h (List.mem_cons_self ..))
      · exact Quiet.refl _ _
    exact key.trans (untag_quiet c S legs _ fun x hx => h (List.mem_cons_of_mem _ hx))

theorem shareBonds_quiet {st st' : Store} {ta tb : Tensor R} {bs : List BondId} (h : shareBonds st ta tb = .ok (st', bs)) :
    Quiet st st' [] := by
  have h1 := shareBondsLoop_leg _ _ _ _ _ h
  have h2 := shareBondsLoop_next _ _ _ _ _ h
  exact ⟨fun l => by rw [h1], fun l _ => by rw [h1], h2.1, h2.2⟩

theorem linkOr_quiet {s s' : Store} {x y : LegId} (h : linkOr (makeLinkLegs s [x] [y]) = .ok s') : Quiet s s' [x, y] := by
  by_cases hd : s.dim x = s.dim y
  · rw [linkOr_two s x y hd] at h
    have e := Except.ok.inj h
    subst e
    refine ⟨fun l => bonded_tensor s x y l, fun l hl => ?_, rfl, rfl⟩
    simp only [List.mem_cons, List.not_mem_nil, or_false, not_or] at hl
    exact bonded_other s x y l hl.1 hl.2
  · exfalso
    rw [makeLinkLegs_eq s [x] [y] rfl] at h
    simp only [List.zip_cons_cons, List.zip_nil_right, List.map_cons, List.map_nil, linkLoop, hd, if_false, linkOr] at h
    cases h

/-- What `schmidtPrep` leaves. -/
structure Prepped (st : Store) (L : List (Tensor R)) (p : SchmidtPrep R) : Prop where
  nextLeg : p.store.nextLeg = st.nextLeg
  nextTensor : st.nextTensor ≤ p.store.nextTensor
  other : ∀ l, (∀ t ∈ L, l ∉ t.legs) → p.store.leg l = st.leg l
  legA : ∀ l ∈ p.legA, ∃ u ∈ L, l ∈ u.legs
  legB : ∀ l ∈ p.legB, ∃ u ∈ L, l ∈ u.legs
  disj : ∀ l ∈ p.legA, l ∉ p.legB

theorem hasTag_ab {s : String} (h : hasTag 'a' s = true) : ¬ hasTag 'b' s = true := by
  unfold hasTag at *
  cases hs : s.toList with
  | nil => rw [hs] at h; simp at h
  | cons c cs =>
    rw [hs] at h
    intro k
    simp only [List.isPrefixOf, Bool.and_eq_true, beq_iff_eq] at h k
    have := h.1.trans k.1.symm
    exact absurd this (by decide)

theorem prepped [NonUnitalNonAssocSemiring R] {cast : R → R} {st : Store} {ta tb : Tensor R} {swapA swapB : List String}
    {p : SchmidtPrep R} (h : schmidtPrep cast st ta tb swapA swapB = .ok p) : Prepped st [ta, tb] p := by
  unfold schmidtPrep at h
  obtain ⟨⟨st1, sb⟩, h1, h⟩ := except_bind_ok.mp h
  simp only at h
  split at h
  · cases h
  obtain ⟨_, _, h⟩ := except_bind_ok.mp h
  obtain ⟨la, _, h⟩ := except_bind_ok.mp h
  obtain ⟨lb, _, h⟩ := except_bind_ok.mp h
  obtain ⟨_, _, h⟩ := except_bind_ok.mp h
  obtain ⟨_, _, h⟩ := except_bind_ok.mp h
  obtain ⟨_, _, h⟩ := except_bind_ok.mp h
  obtain ⟨st2, h2, h⟩ := except_bind_ok.mp h
  obtain ⟨st3, h3, h⟩ := except_bind_ok.mp h
  obtain ⟨o, h4, h⟩ := except_bind_ok.mp h
  have e := except_pure_ok.mp h
  subst e
  have q1 : Quiet st st1 (ta.legs ++ tb.legs) := (shareBonds_quiet h1).mono (List.nil_subset _)
  have q2 : Quiet st1 st2 (ta.legs ++ tb.legs) := by
    rw [raiseIf_ok h2]
    exact addTagLoop_quiet _ _ _ _ (List.subset_append_left _ _)
  have q3 : Quiet st2 st3 (ta.legs ++ tb.legs) := by
    rw [raiseIf_ok h3]
    exact addTagLoop_quiet _ _ _ _ (List.subset_append_right _ _)
  have q4 := (retag_quiet ta 'a' 'b' swapA st3).mono (List.subset_append_left ta.legs tb.legs)
  have q5 := (retag_quiet tb 'b' 'a' swapB (retagLoop ta 'a' 'b' swapA st3)).mono (List.subset_append_right ta.legs tb.legs)
  have q := q1.trans (q2.trans (q3.trans (q4.trans q5)))
  obtain ⟨sub, m⟩ := contract_made h4
  have mem : ∀ l ∈ o.result.legs, ∃ u ∈ [ta, tb], l ∈ u.legs := by
    intro l hl
    rcases List.mem_append.mp (sub hl) with k | k
    · exact ⟨ta, by simp, k⟩
    · exact ⟨tb, by simp, k⟩
  refine ⟨m.nextLeg.trans q.nextLeg, ?_, ?_, fun l hl => mem l (List.mem_filter.mp hl).1,
    fun l hl => mem l (List.mem_filter.mp hl).1, ?_⟩
  · show st.nextTensor ≤ o.store.nextTensor
    rw [m.nextTensor, q.nextTensor]
    exact Nat.le_succ _
  · intro l no
    show o.store.leg l = st.leg l
    have nl : l ∉ ta.legs ++ tb.legs := by
      rw [List.mem_append, not_or]
      exact ⟨no ta (by simp), no tb (by simp)⟩
    rw [m.other l fun k => nl (sub k), q.other l nl]
  · intro l h1 h2
    have a := (List.mem_filter.mp h1).2
    have b := (List.mem_filter.mp h2).2
    exact hasTag_ab a b

/-- Two tensors on old legs and two new legs, which are joined. -/
theorem pair_trail {st s s5 s6 s3 s4 : Store} {L : List (Tensor R)} {LA LB : List LegId} {k k' : Nat} {na nb : String} {u v : Tensor R}
    (hn : s.nextLeg = st.nextLeg) (ht : st.nextTensor ≤ s.nextTensor)
    (ho : ∀ l, (∀ t ∈ L, l ∉ t.legs) → s.leg l = st.leg l)
    (hA : ∀ l ∈ LA, ∃ u ∈ L, l ∈ u.legs) (hB : ∀ l ∈ LB, ∃ u ∈ L, l ∈ u.legs) (dj : Owned st L → ∀ l ∈ LA, l ∉ LB)
    (hu : u.legs = LA ++ [st.nextLeg]) (mu : MadeOn ((s.newLeg none k na).1.newLeg none k' nb).1 s3 u)
    (hv : v.legs = (st.nextLeg + 1) :: LB) (mv : MadeOn s3 s4 v) (q : Quiet s4 s5 (LA ++ LB))
    (hl : Quiet s5 s6 [st.nextLeg, st.nextLeg + 1]) : Trail st L s6 [u, v] := by
  set s2 := ((s.newLeg none k na).1.newLeg none k' nb).1 with hs2
  have n2 : s2.nextLeg = st.nextLeg + 2 := by rw [← hn]; rfl
  have t2 : s2.nextTensor = s.nextTensor := rfl
  have l2 : ∀ l < st.nextLeg, s2.leg l = s.leg l := by
    intro l hl
    have e1 : l ≠ s.nextLeg := by rw [hn]; exact Nat.ne_of_lt hl
    have e2 : l ≠ s.nextLeg + 1 := by rw [hn]; exact Nat.ne_of_lt (Nat.lt_succ_of_lt hl)
    simp [hs2, Store.newLeg, Store.setLeg, e1, e2]
  have n6 : s6.nextLeg = st.nextLeg + 2 := by
    rw [hl.nextLeg, q.nextLeg, mv.nextLeg, mu.nextLeg, n2]
  have t6 : s6.nextTensor = s.nextTensor + 2 := by
    rw [hl.nextTensor, q.nextTensor, mv.nextTensor, mu.nextTensor, t2]
  have iu : u.id = s.nextTensor := mu.id
  have iv : v.id = s.nextTensor + 1 := by rw [mv.id, mu.nextTensor, t2]
  have o6 : ∀ l, (s6.leg l).tensor = (s4.leg l).tensor := fun l => (hl.owner l).trans (q.owner l)
  refine ⟨by rw [n6]; exact Nat.le_add_right _ _, by rw [t6]; exact ht.trans (Nat.le_add_right _ _), ?_, ?_, ?_, ?_⟩
  · intro l hlt no
    have a : l ∉ LA := fun h => by obtain ⟨w, hw, k⟩ := hA l h; exact no w hw k
    have b : l ∉ LB := fun h => by obtain ⟨w, hw, k⟩ := hB l h; exact no w hw k
    have e1 : l ≠ st.nextLeg := Nat.ne_of_lt hlt
    have e2 : l ≠ st.nextLeg + 1 := Nat.ne_of_lt (Nat.lt_succ_of_lt hlt)
    rw [hl.other l (by simp [e1, e2]), q.other l (by simp [a, b]), mv.other l (by simp [hv, e2, b]),
      mu.other l (by simp [hu, e1, a]), l2 l hlt, ho l no]
  · intro t htm l hlm
    simp only [List.mem_cons, List.not_mem_nil, or_false] at htm
    rcases htm with rfl | rfl
    · rw [hu, List.mem_append, List.mem_singleton] at hlm
      rcases hlm with h | rfl
      · exact .inr (hA l h)
      · exact .inl le_rfl
    · rw [hv, List.mem_cons] at hlm
      rcases hlm with rfl | h
      · exact .inl (Nat.le_succ _)
      · exact .inr (hB l h)
  · intro t htm
    simp only [List.mem_cons, List.not_mem_nil, or_false] at htm
    rcases htm with rfl | rfl
    · rw [iu]; exact .inl ht
    · rw [iv]; exact .inl (ht.trans (Nat.le_succ _))
  · intro ow
    have old : ∀ l, (∃ u ∈ L, l ∈ u.legs) → l < st.nextLeg := fun l ⟨w, hw, k⟩ => (ow.legs w hw l k).1
    refine ⟨by simp [iu, iv], ?_, ?_⟩
    · intro t htm
      simp only [List.mem_cons, List.not_mem_nil, or_false] at htm
      rcases htm with rfl | rfl
      · rw [iu, t6]; exact Nat.lt_add_of_pos_right (by decide)
      · rw [iv, t6]; exact Nat.lt_succ_self _
    · intro t htm l hlm
      simp only [List.mem_cons, List.not_mem_nil, or_false] at htm
      rcases htm with rfl | rfl
      · have nv : l ∉ v.legs := by
          rw [hu, List.mem_append, List.mem_singleton] at hlm
          rw [hv, List.mem_cons, not_or]
          rcases hlm with h | rfl
          · exact ⟨Nat.ne_of_lt (Nat.lt_succ_of_lt (old l (hA l h))), dj ow l h⟩
          · exact ⟨Nat.ne_of_lt (Nat.lt_succ_self _), fun h => lt_irrefl _ (old _ (hB _ h))⟩
        refine ⟨?_, by rw [o6, mv.other l nv]; exact mu.owner l hlm⟩
        rw [n6]
        rw [hu, List.mem_append, List.mem_singleton] at hlm
        rcases hlm with h | rfl
        · exact (old l (hA l h)).trans (Nat.lt_add_of_pos_right (by decide))
        · exact Nat.lt_add_of_pos_right (by decide)
      · refine ⟨?_, by rw [o6]; exact mv.owner l hlm⟩
        rw [n6]
        rw [hv, List.mem_cons] at hlm
        rcases hlm with rfl | h
        · exact Nat.lt_succ_self _
        · exact (old l (hB l h)).trans (Nat.lt_add_of_pos_right (by decide))

/-- `SchimdtDecomposition` with `squareRootSeparation`. -/
theorem schmidt_trail [NonUnitalNonAssocSemiring R] {la : LinAlg R} {cast castF : R → R} {st : Store} {ta tb : Tensor R} {chi : Int}
    {swapA swapB : List String} {st' : Store} {u v : Tensor R} {s : Option (Tensor R)}
    (h : schmidt la cast castF st ta tb chi true swapA swapB = .ok (st', u, s, v)) : Trail st [ta, tb] st' [u, v] := by
  unfold schmidt at h
  obtain ⟨p, hp, h⟩ := except_bind_ok.mp h
  obtain ⟨d, hd, h⟩ := except_bind_ok.mp h
  have P := prepped hp
  rw [if_pos rfl] at h
  simp only at h
  obtain ⟨⟨s3, u'⟩, h3, h⟩ := except_bind_ok.mp h
  simp only at h
  obtain ⟨⟨s4, v'⟩, h4, h⟩ := except_bind_ok.mp h
  simp only at h
  obtain ⟨s6, h6, h⟩ := except_bind_ok.mp h
  have e := except_pure_ok.mp h
  simp only [Prod.mk.injEq] at e
  obtain ⟨rfl, rfl, -, rfl⟩ := e
  obtain ⟨lu, mu⟩ := newTensor_made h3
  obtain ⟨lv, mv⟩ := newTensor_made h4
  have x1 : (p.store.newLeg none d.k p.labelA).2 = st.nextLeg := P.nextLeg
  have y1 : ((p.store.newLeg none d.k p.labelA).1.newLeg none d.k p.labelB).2 = st.nextLeg + 1 :=
    congrArg (· + 1) P.nextLeg
  rw [x1] at lu h6
  rw [y1] at lv h6
  exact pair_trail P.nextLeg P.nextTensor P.other P.legA P.legB (fun _ => P.disj) lu mu lv mv
    ((untag_quiet 'a' _ _ _ (List.subset_append_left _ _)).trans (untag_quiet 'b' _ _ _ (List.subset_append_right _ _)))
    (linkOr_quiet h6)

/-- `SchimdtDecomposition` into three factors. -/
theorem schmidt_trail3 [NonUnitalNonAssocSemiring R] {la : LinAlg R} {cast castF : R → R} {st : Store} {ta tb : Tensor R} {chi : Int}
    {swapA swapB : List String} {st' : Store} {u v s : Tensor R}
    (h : schmidt la cast castF st ta tb chi false swapA swapB = .ok (st', u, some s, v)) :
    Trail st [ta, tb] st' [u, s, v] := by
  unfold schmidt at h
  obtain ⟨p, hp, h⟩ := except_bind_ok.mp h
  obtain ⟨d, hd, h⟩ := except_bind_ok.mp h
  have P := prepped hp
  rw [if_neg (by decide)] at h
  simp only at h
  obtain ⟨⟨s5, u'⟩, h5, h⟩ := except_bind_ok.mp h
  simp only at h
  obtain ⟨⟨s6, t'⟩, h6, h⟩ := except_bind_ok.mp h
  simp only at h
  obtain ⟨⟨s7, v'⟩, h7, h⟩ := except_bind_ok.mp h
  simp only at h
  obtain ⟨s9, h9, h⟩ := except_bind_ok.mp h
  obtain ⟨s10, h10, h⟩ := except_bind_ok.mp h
  have e := except_pure_ok.mp h
  simp only [Prod.mk.injEq, Option.some.injEq] at e
  obtain ⟨rfl, rfl, rfl, rfl⟩ := e
  obtain ⟨lu, mu⟩ := newTensor_made h5
  obtain ⟨ls, ms⟩ := newDiagonal_made h6
  obtain ⟨lv, mv⟩ := newTensor_made h7
  have q8 := (untag_quiet 'a' (p.legA ++ p.legB) p.legA s7 (List.subset_append_left _ _)).trans
    (untag_quiet 'b' _ _ _ (List.subset_append_right p.legA p.legB))
  have q9 := linkOr_quiet h9
  have q10 := linkOr_quiet h10
  set a1 := (p.store.newLeg none d.k p.labelA) with ha1
  set a2 := (a1.1.newLeg none d.k p.labelB) with ha2
  set a3 := (a2.1.newLeg none d.k p.labelA) with ha3
  set a4 := (a3.1.newLeg none d.k p.labelB) with ha4
  have x1 : a1.2 = st.nextLeg := P.nextLeg
  have x2 : a2.2 = st.nextLeg + 1 := congrArg (· + 1) P.nextLeg
  have x3 : a3.2 = st.nextLeg + 2 := congrArg (· + 2) P.nextLeg
  have x4 : a4.2 = st.nextLeg + 3 := congrArg (· + 3) P.nextLeg
  have n4 : a4.1.nextLeg = st.nextLeg + 4 := congrArg (· + 4) P.nextLeg
  have t4 : a4.1.nextTensor = p.store.nextTensor := rfl
  have l4 : ∀ l < st.nextLeg, a4.1.leg l = p.store.leg l := by
    intro l hl
    have hl' : l < p.store.nextLeg := by rw [P.nextLeg]; exact hl
    have e1 : l ≠ p.store.nextLeg := Nat.ne_of_lt hl'
    have e2 : l ≠ p.store.nextLeg + 1 := Nat.ne_of_lt (Nat.lt_succ_of_lt hl')
    have e3 : l ≠ p.store.nextLeg + 1 + 1 := Nat.ne_of_lt (Nat.lt_succ_of_lt (Nat.lt_succ_of_lt hl'))
    have e4 : l ≠ p.store.nextLeg + 1 + 1 + 1 := Nat.ne_of_lt (Nat.lt_succ_of_lt (Nat.lt_succ_of_lt (Nat.lt_succ_of_lt hl')))
    simp [ha1, ha2, ha3, ha4, Store.newLeg, Store.setLeg, e1, e2, e3, e4]
  clear_value a1 a2 a3 a4
  rw [x1] at lu q9
  rw [x2] at ls q9
  rw [x3] at ls q10
  rw [x4] at lv q10
  have n10 : s10.nextLeg = st.nextLeg + 4 := by
    rw [q10.nextLeg, q9.nextLeg, q8.nextLeg, mv.nextLeg, ms.nextLeg, mu.nextLeg, n4]
  have t10 : s10.nextTensor = p.store.nextTensor + 3 := by
    rw [q10.nextTensor, q9.nextTensor, q8.nextTensor, mv.nextTensor, ms.nextTensor, mu.nextTensor, t4]
  have iu : u'.id = p.store.nextTensor := mu.id.trans t4
  have is : t'.id = p.store.nextTensor + 1 := by rw [ms.id, mu.nextTensor, t4]
  have iv : v'.id = p.store.nextTensor + 2 := by rw [mv.id, ms.nextTensor, mu.nextTensor, t4]
  have o10 : ∀ l, (s10.leg l).tensor = (s7.leg l).tensor := fun l =>
    (q10.owner l).trans ((q9.owner l).trans (q8.owner l))
  refine ⟨by rw [n10]; exact Nat.le_add_right _ _, by rw [t10]; exact P.nextTensor.trans (Nat.le_add_right _ _), ?_, ?_, ?_, ?_⟩
  · intro l hlt no
    have a : l ∉ p.legA := fun h => by obtain ⟨w, hw, k⟩ := P.legA l h; exact no w hw k
    have b : l ∉ p.legB := fun h => by obtain ⟨w, hw, k⟩ := P.legB l h; exact no w hw k
    have e1 : l ≠ st.nextLeg := Nat.ne_of_lt hlt
    have e2 : l ≠ st.nextLeg + 1 := Nat.ne_of_lt (Nat.lt_add_right 1 hlt)
    have e3 : l ≠ st.nextLeg + 2 := Nat.ne_of_lt (Nat.lt_add_right 2 hlt)
    have e4 : l ≠ st.nextLeg + 3 := Nat.ne_of_lt (Nat.lt_add_right 3 hlt)
    rw [q10.other l (by simp [e3, e4]), q9.other l (by simp [e1, e2]), q8.other l (by simp [a, b]),
      mv.other l (by simp [lv, e4, b]), ms.other l (by simp [ls, e2, e3]), mu.other l (by simp [lu, e1, a]), l4 l hlt,
      P.other l no]
  · intro t htm l hlm
    simp only [List.mem_cons, List.not_mem_nil, or_false] at htm
    rcases htm with rfl | rfl | rfl
    · rw [lu, List.mem_append, List.mem_singleton] at hlm
      rcases hlm with h | rfl
      · exact .inr (P.legA l h)
      · exact .inl le_rfl
    · simp only [ls, List.mem_cons, List.not_mem_nil, or_false] at hlm
      rcases hlm with rfl | rfl
      · exact .inl (Nat.le_add_right _ _)
      · exact .inl (Nat.le_add_right _ _)
    · rw [lv, List.mem_cons] at hlm
      rcases hlm with rfl | h
      · exact .inl (Nat.le_add_right _ _)
      · exact .inr (P.legB l h)
  · intro t htm
    simp only [List.mem_cons, List.not_mem_nil, or_false] at htm
    rcases htm with rfl | rfl | rfl
    · rw [iu]; exact .inl P.nextTensor
    · rw [is]; exact .inl (P.nextTensor.trans (Nat.le_add_right _ _))
    · rw [iv]; exact .inl (P.nextTensor.trans (Nat.le_add_right _ _))
  · intro ow
    have old : ∀ l, (∃ u ∈ [ta, tb], l ∈ u.legs) → l < st.nextLeg := fun l ⟨w, hw, k⟩ => (ow.legs w hw l k).1
    have oldA : ∀ l ∈ p.legA, l < st.nextLeg := fun l h => old l (P.legA l h)
    have oldB : ∀ l ∈ p.legB, l < st.nextLeg := fun l h => old l (P.legB l h)
    refine ⟨by simp [iu, is, iv], ?_, ?_⟩
    · intro t htm
      simp only [List.mem_cons, List.not_mem_nil, or_false] at htm
      rcases htm with rfl | rfl | rfl
      · rw [iu, t10]; exact Nat.lt_add_of_pos_right (by decide)
      · rw [is, t10]; exact Nat.add_lt_add_left (by decide) _
      · rw [iv, t10]; exact Nat.add_lt_add_left (by decide) _
    · intro t htm l hlm
      simp only [List.mem_cons, List.not_mem_nil, or_false] at htm
      rcases htm with rfl | rfl | rfl
      · have nv : l ∉ v'.legs ∧ l ∉ t'.legs ∧ l < st.nextLeg + 4 := by
          rw [lu, List.mem_append, List.mem_singleton] at hlm
          rw [lv, ls, List.mem_cons, not_or]
          simp only [List.mem_cons, List.not_mem_nil, or_false, not_or]
          rcases hlm with h | rfl
          · have k := oldA l h
            exact ⟨⟨Nat.ne_of_lt (Nat.lt_add_right 3 k), P.disj l h⟩,
              ⟨Nat.ne_of_lt (Nat.lt_add_right 1 k), Nat.ne_of_lt (Nat.lt_add_right 2 k)⟩, Nat.lt_add_right 4 k⟩
          · exact ⟨⟨by simp, fun h => lt_irrefl _ (oldB _ h)⟩, ⟨by simp, by simp⟩, Nat.lt_add_of_pos_right (by decide)⟩
        exact ⟨by rw [n10]; exact nv.2.2, by rw [o10, mv.other l nv.1, ms.other l nv.2.1]; exact mu.owner l hlm⟩
      · have nv : l ∉ v'.legs ∧ l < st.nextLeg + 4 := by
          simp only [ls, List.mem_cons, List.not_mem_nil, or_false] at hlm
          rw [lv, List.mem_cons, not_or]
          rcases hlm with rfl | rfl
          · exact ⟨⟨by simp, fun h => absurd (oldB _ h) (by simp)⟩, by simp⟩
          · exact ⟨⟨by simp, fun h => absurd (oldB _ h) (by simp)⟩, by simp⟩
        exact ⟨by rw [n10]; exact nv.2, by rw [o10, mv.other l nv.1]; exact ms.owner l hlm⟩
      · refine ⟨?_, by rw [o10]; exact mv.owner l hlm⟩
        rw [n10]
        rw [lv, List.mem_cons] at hlm
        rcases hlm with rfl | h
        · simp
        · exact Nat.lt_add_right 4 (oldB l h)

/-! ## Chains -/

theorem perm_two {α : Type} {ts : List α} {i j : Nat} {a b : α} (hij : i ≠ j) (ha : ts[i]? = some a) (hb : ts[j]? = some b)
    (u v : α) : ∃ rest, ts.Perm (rest ++ [a, b]) ∧ ((ts.set i u).set j v).Perm (rest ++ [u, v]) := by
  have key : ∀ (ts : List α) (i : Nat) (a u : α), ts[i]? = some a →
      ts.Perm (ts.eraseIdx i ++ [a]) ∧ (ts.set i u).Perm (ts.eraseIdx i ++ [u]) := by
    intro ts
    induction ts with
    | nil => intro i a u h; simp at h
    | cons t ts ih =>
      intro i a u h
      cases i with
      | zero =>
        simp only [List.getElem?_cons_zero, Option.some.injEq] at h
        subst h
        simp only [List.eraseIdx_cons_zero, List.set_cons_zero]
        exact ⟨(List.perm_append_singleton _ _).symm, (List.perm_append_singleton _ _).symm⟩
      | succ i =>
        simp only [List.getElem?_cons_succ] at h
        obtain ⟨p, q⟩ := ih i a u h
        simp only [List.eraseIdx_cons_succ, List.set_cons_succ, List.cons_append]
        exact ⟨p.cons _, q.cons _⟩
  obtain ⟨p1, p2⟩ := key ts i a u ha
  have hb' : (ts.set i u)[j]? = some b := by rw [List.getElem?_set_ne hij]; exact hb
  obtain ⟨q1, q2⟩ := key (ts.set i u) j b v hb'
  -- remove position `i` from the rest
  have hi := (List.getElem?_eq_some_iff.mp ha).1
  have r1 : ((ts.eraseIdx i) ++ [u]).Perm ((ts.set i u).eraseIdx j ++ [b]) := p2.symm.trans q1
  have hm : u ∈ (ts.set i u).eraseIdx j := by
    have : ((ts.set i u).eraseIdx j)[if i < j then i else i - 1]? = some u := by
      by_cases c : i < j
      · rw [if_pos c, List.getElem?_eraseIdx, if_pos c, List.getElem?_set_self hi]
      · rw [if_neg c, List.getElem?_eraseIdx, if_neg (by omega), show i - 1 + 1 = i by omega, List.getElem?_set_self hi]
    exact List.mem_of_getElem? this
  obtain ⟨l1, l2, e⟩ := List.append_of_mem hm
  refine ⟨l1 ++ l2, ?_, ?_⟩
  · refine p1.trans ?_
    have : (ts.eraseIdx i).Perm (l1 ++ l2 ++ [b]) := by
      have r2 : (u :: ts.eraseIdx i).Perm (u :: (l1 ++ l2 ++ [b])) := by
        refine (List.perm_append_singleton u _).symm.trans (r1.trans ?_)
        rw [e]
        simp only [List.append_assoc, List.cons_append]
        exact List.perm_middle
      exact r2.cons_inv
    refine (this.append_right [a]).trans ?_
    simp only [List.append_assoc]
    refine List.Perm.append_left _ (List.Perm.append_left _ ?_)
    exact List.Perm.swap _ _ _
  · refine q2.trans ?_
    rw [e]
    simp only [List.append_assoc, List.cons_append, List.nil_append]
    refine List.Perm.append_left _ ?_
    have : (u :: (l2 ++ [v])).Perm (l2 ++ [u, v]) := by
      refine List.Perm.symm ?_
      exact List.perm_middle
    exact this

theorem Trail.set_two {a b : Store} {ts : List (Tensor R)} {i j : Nat} {ta tb u v : Tensor R} (hij : i ≠ j) (ha : ts[i]? = some ta)
    (hb : ts[j]? = some tb) (h : Trail a [ta, tb] b [u, v]) : Trail a ts b ((ts.set i u).set j v) := by
  obtain ⟨rest, p, q⟩ := perm_two hij ha hb u v
  exact (h.frame rest).perm p.symm q.symm

theorem swap_trail [NonUnitalNonAssocSemiring R] {la : LinAlg R} {cast castF : R → R} {st st' : Store} {m m' : MPS R} {a b : Int}
    (h : m.swap la cast castF st a b = .ok (st', m')) : Trail st m.tensors st' m'.tensors := by
  unfold MPS.swap at h
  split at h
  · rename_i c
    split at h
    · rename_i ta tb ha hb
      obtain ⟨⟨s1, u, s, v⟩, h1, h⟩ := except_bind_ok.mp h
      have e := except_pure_ok.mp h
      simp only [Prod.mk.injEq] at e
      obtain ⟨rfl, rfl⟩ := e
      exact Trail.set_two (by omega) ha hb (schmidt_trail h1)
    · cases h
  · cases h

theorem swapLoop_trail [NonUnitalNonAssocSemiring R] {la : LinAlg R} {cast castF : R → R} {step : Int} {st' : Store} {m' : MPS R} :
    ∀ {is : List Int} {st : Store} {m : MPS R}, MPS.swapLoop la cast castF step st m is = .ok (st', m') →
      Trail st m.tensors st' m'.tensors
  | [], st, m, h => by
    unfold MPS.swapLoop at h
    have e := Except.ok.inj h
    simp only [Prod.mk.injEq] at e
    obtain ⟨rfl, rfl⟩ := e
    exact Trail.refl _ _
  | i :: is, st, m, h => by
    unfold MPS.swapLoop at h
    obtain ⟨⟨s1, m1⟩, h1, h⟩ := except_bind_ok.mp h
    exact (swap_trail h1).trans (swapLoop_trail h)

theorem moveTensor_trail [NonUnitalNonAssocSemiring R] {la : LinAlg R} {cast castF : R → R} {st st' : Store} {m m' : MPS R} {a b : Int}
    (h : m.moveTensor la cast castF st a b = .ok (st', m')) : Trail st m.tensors st' m'.tensors := by
  unfold MPS.moveTensor at h
  obtain ⟨_, _, h⟩ := except_bind_ok.mp h
  split at h
  · have e := except_pure_ok.mp h
    simp only [Prod.mk.injEq] at e
    obtain ⟨rfl, rfl⟩ := e
    exact Trail.refl _ _
  · split at h
    · exact swapLoop_trail h
    · exact swapLoop_trail h

theorem makeAdjacent_trail [NonUnitalNonAssocSemiring R] {la : LinAlg R} {cast castF : R → R} {st st' : Store} {m m' : MPS R}
    {a b p q : Int} (h : m.makeAdjacent la cast castF st a b = .ok (st', m', p, q)) : Trail st m.tensors st' m'.tensors := by
  unfold MPS.makeAdjacent at h
  obtain ⟨_, _, h⟩ := except_bind_ok.mp h
  obtain ⟨_, _, h⟩ := except_bind_ok.mp h
  obtain ⟨⟨s1, m1⟩, h1, h⟩ := except_bind_ok.mp h
  have e := except_pure_ok.mp h
  simp only [Prod.mk.injEq] at e
  obtain ⟨rfl, rfl, -⟩ := e
  exact swapLoop_trail h1

theorem canonStep_trail [NonUnitalNonAssocSemiring R] {la : LinAlg R} {cast castF : R → R} {st st' : Store} {m m' : MPS R} {i j : Nat}
    (hij : i ≠ j) (h : m.canonStep la cast castF st i j = .ok (st', m')) : Trail st m.tensors st' m'.tensors := by
  unfold MPS.canonStep at h
  split at h
  · rename_i ta tb ha hb
    obtain ⟨⟨s1, u, s, v⟩, h1, h⟩ := except_bind_ok.mp h
    simp only at h
    split at h
    · cases h
    · rename_i s
      obtain ⟨o, h2, h⟩ := except_bind_ok.mp h
      have e := except_pure_ok.mp h
      simp only [Prod.mk.injEq] at e
      obtain ⟨rfl, rfl⟩ := e
      exact Trail.set_two hij ha hb ((schmidt_trail3 h1).trans ((contract_trail h2).frame [u]))
  · cases h

theorem sweep_trail [NonUnitalNonAssocSemiring R] {la : LinAlg R} {cast castF : R → R} (f : Nat → Nat) {st' : Store} {m' : MPS R} :
    ∀ {is : List Nat} {st : Store} {m : MPS R}, (∀ i ∈ is, i ≠ f i) →
      is.foldlM (fun (p : Store × MPS R) i => MPS.canonStep la cast castF p.1 p.2 i (f i)) (st, m) =
        (.ok (st', m') : Except PyErr _) → Trail st m.tensors st' m'.tensors
  | [], st, m, _, h => by
    have e := Except.ok.inj h
    simp only [Prod.mk.injEq] at e
    obtain ⟨rfl, rfl⟩ := e
    exact Trail.refl _ _
  | i :: is, st, m, hf, h => by
    rw [List.foldlM_cons] at h
    obtain ⟨⟨s1, m1⟩, h1, h⟩ := except_bind_ok.mp h
    exact (canonStep_trail (hf i (by simp)) h1).trans (sweep_trail f (fun i hi => hf i (by simp [hi])) h)

theorem canonicalize_trail [NonUnitalNonAssocSemiring R] {la : LinAlg R} {cast castF : R → R} {st st' : Store} {m m' : MPS R} {i : Int}
    (h : m.canonicalize la cast castF st i = .ok (st', m')) : Trail st m.tensors st' m'.tensors := by
  unfold MPS.canonicalize at h
  obtain ⟨_, hi, h⟩ := except_bind_ok.mp h
  obtain ⟨⟨s1, m1⟩, h1, h⟩ := except_bind_ok.mp h
  simp only at h
  obtain ⟨⟨s2, m2⟩, h2, h⟩ := except_bind_ok.mp h
  have e := except_pure_ok.mp h
  simp only [Prod.mk.injEq] at e
  obtain ⟨rfl, rfl⟩ := e
  have k2 : Trail s1 m1.tensors s2 m2.tensors := by
    refine sweep_trail (fun i => i - 1) ?_ h2
    intro i hi
    obtain ⟨k, hk, rfl⟩ := List.mem_map.mp hi
    rw [List.mem_range] at hk
    omega
  exact (sweep_trail (fun i => i + 1) (by simp) h1).trans k2

/-! ## `merge` -/

/-- Changes of legs of the tensors that are no changes of owners. -/
theorem Quiet.trail {a b : Store} {S : List LegId} {L : List (Tensor R)} (q : Quiet a b S) (hs : ∀ l ∈ S, ∃ t ∈ L, l ∈ t.legs) :
    Trail a L b L := by
  refine ⟨q.nextLeg.ge, q.nextTensor.ge, fun l _ no => q.other l fun h => ?_, fun t ht l hl => .inr ⟨t, ht, hl⟩,
    fun t ht => .inr ⟨t, ht, rfl⟩, fun o => ⟨o.ids, fun t ht => by rw [q.nextTensor]; exact o.old t ht, fun t ht l hl => ?_⟩⟩
  · obtain ⟨t, ht, k⟩ := hs l h
    exact no t ht k
  · rw [q.nextLeg, q.owner]
    exact o.legs t ht l hl

theorem removeLoop_subset : ∀ (xs ls : List LegId), (Tensor.removeLoop ls xs).1 ⊆ ls
  | [], ls => List.Subset.refl _
  | x :: xs, ls => by
    unfold Tensor.removeLoop
    split
    · rename_i ls' h
      refine List.Subset.trans (removeLoop_subset xs ls') ?_
      unfold pyRemove at h
      split at h
      · have e := Except.ok.inj h
        subst e
        exact List.erase_subset
      · cases h
    · exact List.Subset.refl _

theorem moveLegs_inv [Zero R] {t t1 : Tensor R} {legs : List LegId} (h : t.moveLegsToFront legs = (t1, .ok ())) :
    t1.id = t.id ∧ ∀ l ∈ t1.legs.drop legs.length, l ∈ t.legs := by
  have sub := removeLoop_subset legs t.legs
  unfold Tensor.moveLegsToFront at h
  simp only at h
  split at h
  · simp at h
  · rename_i ls hls
    rw [hls] at sub
    have key : ∀ l ∈ (legs ++ ls).drop legs.length, l ∈ t.legs := by
      intro l hl
      rw [List.drop_left] at hl
      exact sub hl
    split at h
    · simp only [Prod.mk.injEq] at h
      obtain ⟨rfl, -⟩ := h
      exact ⟨rfl, key⟩
    · split at h
      · simp at h
      · split at h
        · simp only [Prod.mk.injEq] at h
          obtain ⟨rfl, -⟩ := h
          exact ⟨rfl, key⟩
        · simp at h

theorem outProduct_trail [Zero R] {st st' : Store} {t t' : Tensor R} {legs : List LegId} {n : String} {l : LegId}
    (h : t.outProduct st legs n = (st', t', .ok l)) : Trail st [t] st' [t'] ∧ l ∈ t'.legs := by
  have key : ∀ (d : Nat) (t1 : Tensor R) (arr : Option (NDArray R)), t1.id = t.id → (∀ l ∈ t1.legs.drop legs.length, l ∈ t.legs) →
      Trail st [t] (st.newLeg (some t1.id) d n).1
        [{ t1 with a := arr, legs := (st.newLeg (some t1.id) d n).2 :: t1.legs.drop legs.length }] := by
    intro d t1 arr hid hsub
    refine ⟨Nat.le_succ _, le_rfl, ?_, ?_, ?_, ?_⟩
    · intro l hl _
      exact newLeg_leg_other st _ _ _ hl.ne
    · intro w hw l hl
      rw [List.mem_singleton] at hw
      subst hw
      simp only [List.mem_cons] at hl
      rcases hl with rfl | hl
      · exact .inl le_rfl
      · exact .inr ⟨t, by simp, hsub l hl⟩
    · intro w hw
      rw [List.mem_singleton] at hw
      subst hw
      exact .inr ⟨t, by simp, hid.symm⟩
    · intro ow
      refine ⟨by simp, ?_, ?_⟩
      · intro w hw
        rw [List.mem_singleton] at hw
        subst hw
        have := ow.old t (by simp)
        rw [← hid] at this
        exact this
      · intro w hw l hl
        rw [List.mem_singleton] at hw
        subst hw
        simp only [List.mem_cons] at hl
        rcases hl with rfl | hl
        · exact ⟨Nat.lt_succ_self _, by rw [show (st.newLeg (some t1.id) d n).2 = st.nextLeg from rfl, newLeg_new]⟩
        · have k := ow.legs t (by simp) l (hsub l hl)
          exact ⟨Nat.lt_succ_of_lt k.1, by rw [newLeg_leg_other st _ _ _ k.1.ne, k.2, hid]⟩
  unfold Tensor.outProduct at h
  split at h
  · simp at h
  split at h
  · simp at h
  split at h
  · simp at h
  rename_i t1 hm
  obtain ⟨hid, hsub⟩ := moveLegs_inv hm
  simp only at h
  split at h
  · simp only [Prod.mk.injEq, Except.ok.injEq] at h
    obtain ⟨rfl, rfl, rfl⟩ := h
    exact ⟨key _ t1 t1.a hid hsub, by simp⟩
  · split at h
    · simp at h
    · split at h
      · simp at h
      · simp only [Prod.mk.injEq, Except.ok.injEq] at h
        obtain ⟨rfl, rfl, rfl⟩ := h
        exact ⟨key _ t1 _ hid hsub, by simp⟩

theorem mergeLink_trail [Zero R] {st st' : Store} {ta tb ta' tb' : Tensor R} {name : BondName} (inv : BondInv st)
    (own : ∀ l ∈ ta.legs, ∀ m, st.partner l = some m → ((st.leg m).tensor = some tb.id ↔ m ∈ tb.legs))
    (h : mergeLink st ta tb name = (st', ta', tb', .ok ())) : Trail st [ta, tb] st' [ta', tb'] := by
  unfold mergeLink at h
  rw [mergeLegs_eq inv tb.id ta.legs tb.legs own] at h
  split at h
  · simp at h
  · simp only [Prod.mk.injEq] at h
    obtain ⟨rfl, rfl, rfl, -⟩ := h
    exact Trail.refl _ _
  · rename_i l m hsp
    have hsp := Except.ok.inj hsp
    have hm : (l, m) ∈ sharedPairs st ta.legs tb.legs := by rw [hsp]; simp
    rw [mem_sharedPairs] at hm
    split at h
    · rename_i s
      simp only [Prod.mk.injEq] at h
      obtain ⟨rfl, rfl, rfl, -⟩ := h
      have q : Quiet st ((st.rename l s).rename m s) [l, m] :=
        (Quiet.rename st s (by simp)).trans (Quiet.rename _ s (by simp))
      refine q.trail fun x hx => ?_
      simp only [List.mem_cons, List.not_mem_nil, or_false] at hx
      rcases hx with rfl | rfl
      · exact ⟨ta, by simp, hm.1⟩
      · exact ⟨tb, by simp, hm.2.2⟩
    · simp only [Prod.mk.injEq] at h
      obtain ⟨rfl, rfl, rfl, -⟩ := h
      exact Trail.refl _ _
  · simp only at h
    split at h
    · simp at h
    · rename_i st1 ta1 na h1
      split at h
      · simp at h
      · rename_i st2 tb1 nb h2
        obtain ⟨t1, m1⟩ := outProduct_trail h1
        obtain ⟨t2, m2⟩ := outProduct_trail h2
        split at h
        · rename_i st3 bs h3
          simp only [Prod.mk.injEq] at h
          obtain ⟨rfl, rfl, rfl, -⟩ := h
          have q : Quiet st2 st3 [na, nb] := linkOr_quiet (by rw [h3]; rfl)
          have k1 : Trail st [ta, tb] st1 [ta1, tb] := (t1.frame [tb]).perm (List.Perm.swap _ _ _) (List.Perm.swap _ _ _)
          have k2 : Trail st1 [ta1, tb] st2 [ta1, tb1] := t2.frame [ta1]
          refine (k1.trans k2).trans (q.trail fun x hx => ?_)
          simp only [List.mem_cons, List.not_mem_nil, or_false] at hx
          rcases hx with rfl | rfl
          · exact ⟨ta1, by simp, m1⟩
          · exact ⟨tb1, by simp, m2⟩
        · simp at h

theorem truncateBond_trail [NonUnitalNonAssocSemiring R] {la : LinAlg R} {castF : R → R} {st st' : Store} {ta tb u v : Tensor R}
    {chi : Int} {b : BondId} (h : truncateBond la castF st ta tb chi b = .ok (st', u, v)) : Trail st [ta, tb] st' [u, v] := by
  unfold truncateBond at h
  obtain ⟨legA, _, h⟩ := except_bind_ok.mp h
  obtain ⟨legB, _, h⟩ := except_bind_ok.mp h
  obtain ⟨remA, hA, h⟩ := except_bind_ok.mp h
  obtain ⟨remB, hB, h⟩ := except_bind_ok.mp h
  have sa : remA ⊆ ta.legs := listDifference_subset hA
  have sb : remB ⊆ tb.legs := listDifference_subset hB
  have key : ∀ (k : Nat) (s3 s4 s5 : Store) (sh sh' : List Nat) (d d' : Option (NDArray R)) (u v : Tensor R) (bs : List BondId),
      newTensor ((st.newLeg none k (st.name legA)).1.newLeg none k (st.name legB)).1 sh d (remA ++ [st.nextLeg]) = .ok (s3, u) →
      newTensor s3 sh' d' ((st.nextLeg + 1) :: remB) = .ok (s4, v) →
      makeLinkLegs s4 [st.nextLeg] [st.nextLeg + 1] = (s5, .ok bs) → Trail st [ta, tb] s5 [u, v] := by
    intro k s3 s4 s5 sh sh' d d' u v bs h3 h4 h5
    obtain ⟨lu, mu⟩ := newTensor_made h3
    obtain ⟨lv, mv⟩ := newTensor_made h4
    refine pair_trail rfl le_rfl (fun _ _ => rfl) (fun l hl => ⟨ta, by simp, sa hl⟩) (fun l hl => ⟨tb, by simp, sb hl⟩) ?_ lu mu lv mv
      (Quiet.refl _ _) (linkOr_quiet (by rw [h5]; rfl))
    intro ow l h1 h2
    exact Owned.disj (N := [ta]) (L := [tb]) ow (by simp) (by simp) (sa h1) (sb h2)
  split at h
  · split at h
    · obtain ⟨_, e, _⟩ := except_bind_ok.mp h
      cases e
    obtain ⟨k, _, h⟩ := except_bind_ok.mp h
    simp only at h
    obtain ⟨⟨s3, u'⟩, h3, h⟩ := except_bind_ok.mp h
    simp only at h
    obtain ⟨⟨s4, v'⟩, h4, h⟩ := except_bind_ok.mp h
    simp only at h
    split at h
    · cases h
    · rename_i s5 bs h5
      have e := except_pure_ok.mp h
      simp only [Prod.mk.injEq] at e
      obtain ⟨rfl, rfl, rfl⟩ := e
      exact key _ _ _ _ _ _ _ _ _ _ _ h3 h4 h5
  · obtain ⟨_, _, h⟩ := except_bind_ok.mp h
    obtain ⟨_, _, h⟩ := except_bind_ok.mp h
    obtain ⟨_, _, h⟩ := except_bind_ok.mp h
    obtain ⟨k, _, h⟩ := except_bind_ok.mp h
    simp only at h
    obtain ⟨⟨s3, u'⟩, h3, h⟩ := except_bind_ok.mp h
    simp only at h
    obtain ⟨⟨s4, v'⟩, h4, h⟩ := except_bind_ok.mp h
    simp only at h
    split at h
    · cases h
    · rename_i s5 bs h5
      have e := except_pure_ok.mp h
      simp only [Prod.mk.injEq] at e
      obtain ⟨rfl, rfl, rfl⟩ := e
      exact key _ _ _ _ _ _ _ _ _ _ _ h3 h4 h5

theorem merge_trail [NonUnitalNonAssocSemiring R] {la : LinAlg R} {castF : R → R} {st st' : Store} {ta tb u v : Tensor R}
    {chi : Option Int} {name : BondName} (inv : BondInv st)
    (own : ∀ l ∈ ta.legs, ∀ m, st.partner l = some m → ((st.leg m).tensor = some tb.id ↔ m ∈ tb.legs))
    (h : merge la castF st ta tb chi name = .ok (st', u, v)) : Trail st [ta, tb] st' [u, v] := by
  unfold merge at h
  by_cases hl : ta.like ≠ tb.like
  · rw [if_pos hl] at h
    obtain ⟨_, e, _⟩ := except_bind_ok.mp h
    cases e
  rw [if_neg hl] at h
  simp only at h
  split at h
  · cases h
  · rename_i st1 ta1 tb1 h1
    have k1 := mergeLink_trail inv own h1
    split at h
    · have e := except_pure_ok.mp h
      simp only [Prod.mk.injEq] at e
      obtain ⟨rfl, rfl, rfl⟩ := e
      exact k1
    · obtain ⟨⟨st2, sb⟩, h2, h⟩ := except_bind_ok.mp h
      have k2 := k1.trans ((shareBonds_quiet h2).trail (by simp))
      simp only at h
      split at h
      · have e := except_pure_ok.mp h
        simp only [Prod.mk.injEq] at e
        obtain ⟨rfl, rfl, rfl⟩ := e
        exact k2
      · exact k2.trans (truncateBond_trail h)
      · cases h

/-- Only names and orientations have changed. -/
theorem Relabelled.trail {a b : Store} {L : List (Tensor R)} (r : Relabelled a b)
    (other : ∀ l, (∀ t ∈ L, l ∉ t.legs) → b.leg l = a.leg l) : Trail a L b L :=
  ⟨r.nextLeg.ge, r.nextTensor.ge, fun l _ no => other l no, fun t ht l hl => .inr ⟨t, ht, hl⟩, fun t ht => .inr ⟨t, ht, rfl⟩,
    fun o => ⟨o.ids, fun t ht => by rw [r.nextTensor]; exact o.old t ht, fun t ht l hl => by
      rw [r.nextLeg, (r.leg l).2.2]; exact o.legs t ht l hl⟩⟩

end CTL
