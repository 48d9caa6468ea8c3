import Verif.Lemmas.LeftCut
import Verif.Lemmas.Rank

/-! `canonicalize` on chains. -/

namespace CTL
variable {R : Type}
open Finset

namespace Chain
variable [Zero R] {st : Store} {ts : List (Tensor R)} {phys : List LegId} {lft rgt : Nat → LegId}

/-- A chain with two neighbours replaced by others with the same physical legs is a chain. -/
theorem rebuildSame (C : Chain st ts phys lft rgt) {i : Nat} (hi : i + 1 < ts.length) {st' : Store} {u v : Tensor R} {x y : LegId}
    (wf : WFStore st') (kept : LegsKept st st') (grow : st.nextLeg ≤ st'.nextLeg)
    (gu : GoodTensor st' u) (gv : GoodTensor st' v) (du : u.diag = false) (dv : v.diag = false)
    (lu : u.legs.Perm (phys.getD i 0 :: x :: (if 0 < i then [lft i] else [])))
    (lv : v.legs.Perm (phys.getD (i + 1) 0 :: y :: (if i + 1 + 1 < ts.length then [rgt (i + 1)] else [])))
    (nx : st.nextLeg ≤ x ∧ x < st'.nextLeg) (ny : st.nextLeg ≤ y ∧ y < st'.nextLeg) (ne : x ≠ y)
    (joined : st'.partner x = some y) (nmx : st'.name x = "r") (nmy : st'.name y = "l")
    (names : ∀ l < st.nextLeg, l ≠ rgt i → l ≠ lft (i + 1) → st'.name l = st.name l) :
    Chain st' ((ts.set i u).set (i + 1) v) phys (fun j => if j = i + 1 then y else lft j)
      (fun j => if j = i then x else rgt j) := by
  have hn : ((ts.set i u).set (i + 1) v).length = ts.length := by simp
  generalize hlft : (fun j => if j = i + 1 then y else lft j) = lft'
  generalize hrgt : (fun j => if j = i then x else rgt j) = rgt'
  have eL : ∀ j, lft' j = if j = i + 1 then y else lft j := fun j => by rw [← hlft]
  have eR : ∀ j, rgt' j = if j = i then x else rgt j := fun j => by rw [← hrgt]
  have newx : ∀ l < st.nextLeg, l ≠ x := fun l h e => absurd h (Nat.not_lt.mpr (e ▸ nx.1))
  have newy : ∀ l < st.nextLeg, l ≠ y := fun l h e => absurd h (Nat.not_lt.mpr (e ▸ ny.1))
  have nPR : ∀ j < ts.length, ∀ k, k + 1 < ts.length → phys.getD j 0 ≠ rgt' k := by
    intro j hj k hk
    rw [eR]
    split
    · exact newx _ (C.oldP hj)
    · exact C.neqPR hj hk
  have nPL : ∀ j < ts.length, ∀ k, 0 < k → k < ts.length → phys.getD j 0 ≠ lft' k := by
    intro j hj k h0 hk
    rw [eL]
    split
    · exact newy _ (C.oldP hj)
    · exact C.neqPL hj h0 hk
  have nRL : ∀ j, j + 1 < ts.length → ∀ k, 0 < k → k < ts.length → rgt' j ≠ lft' k := by
    intro j hj k h0 hk
    rw [eR, eL]
    split
    · split
      · exact ne
      · exact (newx _ (C.oldL h0 hk)).symm
    · split
      · exact newy _ (C.oldR hj)
      · exact C.neqRL hj h0 hk
  have iR : ∀ j, j + 1 < ts.length → ∀ k, k + 1 < ts.length → rgt' j = rgt' k → j = k := by
    intro j hj k hk h
    rw [eR, eR] at h
    split at h <;> split at h
    · omega
    · exact absurd h.symm (newx _ (C.oldR hk))
    · exact absurd h (newx _ (C.oldR hj))
    · exact C.injR hj hk h
  have iL : ∀ j, 0 < j → j < ts.length → ∀ k, 0 < k → k < ts.length → lft' j = lft' k → j = k := by
    intro j h0 hj k h0' hk h
    rw [eL, eL] at h
    split at h <;> split at h
    · omega
    · exact absurd h.symm (newy _ (C.oldL h0' hk))
    · exact absurd h (newy _ (C.oldL h0 hj))
    · exact C.injL h0 h0' hj hk h
  have physOld : ∀ p ∈ phys, ∃ k < ts.length, p = phys.getD k 0 := fun p hp => (mem_phys C.len).mp hp
  have inPhys : ∀ k < ts.length, phys.getD k 0 ∈ phys := fun k hk => (mem_phys C.len).mpr ⟨k, hk, rfl⟩
  refine ⟨⟨wf, by rw [C.len, hn], ?_, ?_, ?_, ?_, ?_, ?_⟩, ?_, ?_, ?_⟩
  · intro t ht
    rcases List.mem_or_eq_of_mem_set ht with ht | rfl
    · rcases List.mem_or_eq_of_mem_set ht with ht | rfl
      · obtain ⟨g, d⟩ := C.good t ht
        exact ⟨g.congr_dim (fun l hl => (kept l (C.old t ht l hl)).1), d⟩
      · exact ⟨gu, du⟩
    · exact ⟨gv, dv⟩
  · intro j t ht
    rw [hn]
    rw [List.getElem?_set, List.getElem?_set, List.length_set] at ht
    unfold siteLegs
    rw [eL, eR]
    by_cases c2 : i + 1 = j
    · rw [if_pos c2, if_pos hi] at ht
      have := Option.some.inj ht
      subst this
      subst c2
      have c : ¬ (i + 1 = i) := by omega
      rw [if_pos rfl, if_neg c, if_pos (Nat.succ_pos i)]
      refine lv.trans (List.Perm.cons _ ?_)
      exact List.perm_append_comm (l₁ := [y])
    · rw [if_neg c2] at ht
      by_cases c1 : i = j
      · rw [if_pos c1, if_pos (by omega)] at ht
        have := Option.some.inj ht
        subst this
        subst c1
        rw [if_pos rfl, if_pos hi, if_neg (show ¬ i = i + 1 by omega)]
        exact lu
      · rw [if_neg c1] at ht
        rw [if_neg (Ne.symm c1), if_neg (Ne.symm c2)]
        exact C.legs j t ht
  · intro t ht l hl
    rcases List.mem_or_eq_of_mem_set ht with ht | rfl
    · rcases List.mem_or_eq_of_mem_set ht with ht | rfl
      · exact Nat.lt_of_lt_of_le (C.old t ht l hl) grow
      · rcases List.mem_cons.mp (lu.mem_iff.mp hl) with e | hl
        · rw [e]; exact Nat.lt_of_lt_of_le (C.oldP (by omega)) grow
        · rcases List.mem_cons.mp hl with e | hl
          · rw [e]; exact nx.2
          · split at hl
            · rename_i c
              rw [List.mem_singleton.mp hl]
              exact Nat.lt_of_lt_of_le (C.oldL c (by omega)) grow
            · cases hl
    · rcases List.mem_cons.mp (lv.mem_iff.mp hl) with e | hl
      · rw [e]; exact Nat.lt_of_lt_of_le (C.oldP (by omega)) grow
      · rcases List.mem_cons.mp hl with e | hl
        · rw [e]; exact ny.2
        · split at hl
          · rename_i c
            rw [List.mem_singleton.mp hl]
            exact Nat.lt_of_lt_of_le (C.oldR c) grow
          · cases hl
  · rw [hn]
    intro j hj k hk hne z hz hz'
    rw [mem_siteLegs] at hz hz'
    rcases hz with e | ⟨c, e⟩ | ⟨c, e⟩ <;> rcases hz' with e' | ⟨c', e'⟩ | ⟨c', e'⟩ <;> rw [e] at e'
    · exact hne (C.injP hj hk e')
    · exact nPR j hj k c' e'
    · exact nPL j hj k c' hk e'
    · exact nPR k hk j c e'.symm
    · exact hne (iR j c k c' e')
    · exact nRL j c k c' hk e'
    · exact nPL k hk j c hj e'.symm
    · exact nRL k c' j c hj e'.symm
    · exact hne (iL j c hj k c' hk e')
  · rw [hn]
    intro j hj
    rw [eR, eL]
    by_cases c : j = i
    · rw [if_pos c, if_pos (by omega)]; exact joined
    · rw [if_neg c, if_neg (by omega), (kept _ (C.oldR hj)).2.2]
      exact C.joined j hj
  · intro p hp q hq
    obtain ⟨k, hk, rfl⟩ := physOld p hp
    obtain ⟨k', hk', rfl⟩ := physOld q hq
    rw [(kept _ (C.oldP hk)).2.2]
    exact C.apart _ (inPhys k hk) _ (inPhys k' hk')
  · intro p hp
    obtain ⟨k, hk, rfl⟩ := physOld p hp
    rw [names _ (C.oldP hk) (C.neqPR hk hi) (C.neqPL hk (Nat.succ_pos _) hi)]
    exact C.nameP _ (inPhys k hk)
  · rw [hn]
    intro j hj
    rw [eR]
    by_cases c : j = i
    · rw [if_pos c]; exact nmx
    · rw [if_neg c, names _ (C.oldR hj) (fun e => c (C.injR hj hi e)) (C.neqRL hj (Nat.succ_pos _) hi)]
      exact C.nameR j hj
  · rw [hn]
    intro j hj
    rw [eL]
    by_cases c : j = i
    · rw [if_pos (by omega)]; exact nmy
    · rw [if_neg (by omega), names _ (C.oldL (Nat.succ_pos _) hj) (fun e => C.neqRL hi (Nat.succ_pos _) hj e.symm)
        (fun e => c (by have := C.injL (Nat.succ_pos _) (Nat.succ_pos _) hj hi e; omega))]
      exact C.nameL j hj

end Chain

/-! ### One step -/

theorem not_shared_fst {st : Store} {la lb : List LegId} {l : LegId} (hl : l ∈ la) :
    (∀ m ∈ lb, st.partner l ≠ some m) ↔ l ∉ (sharedPairs st la lb).map Prod.fst := by
  constructor
  · rintro h hm
    rw [List.mem_map] at hm
    obtain ⟨⟨a, b⟩, hab, rfl⟩ := hm
    obtain ⟨_, h2, h3⟩ := mem_sharedPairs.mp hab
    exact h b h3 h2
  · intro h m hm hp
    exact h (List.mem_map.mpr ⟨(l, m), mem_sharedPairs.mpr ⟨hl, hp, hm⟩, rfl⟩)

theorem not_shared_snd {st : Store} (inv : BondInv st) {la lb : List LegId} {l : LegId} (hl : l ∈ lb) :
    (∀ m ∈ la, st.partner l ≠ some m) ↔ l ∉ (sharedPairs st la lb).map Prod.snd := by
  constructor
  · rintro h hm
    rw [List.mem_map] at hm
    obtain ⟨⟨a, b⟩, hab, rfl⟩ := hm
    obtain ⟨h1, h2, _⟩ := mem_sharedPairs.mp hab
    exact h a h1 (partner_symm inv h2)
  · intro h m hm hp
    exact h (List.mem_map.mpr ⟨(m, l), mem_sharedPairs.mpr ⟨hm, partner_symm inv hp, hl⟩, rfl⟩)

theorem sideA_none {st : Store} (ta tb : Tensor R) :
    sideA st ta tb [] [] = restA ta.legs (sharedPairs st ta.legs tb.legs) := by
  unfold sideA restA
  rw [Pair.filterDrop (l := tb.legs) (fun x _ => by simp), List.append_nil]
  apply List.filter_congr
  intro l hl
  simp only [List.not_mem_nil, not_false_eq_true, and_true]
  rw [decide_eq_decide]
  exact not_shared_fst hl

theorem sideB_none {st : Store} (inv : BondInv st) (ta tb : Tensor R) :
    sideB st ta tb [] [] = restB tb.legs (sharedPairs st ta.legs tb.legs) := by
  unfold sideB restB
  rw [Pair.filterDrop (l := ta.legs) (fun x _ => by simp), List.nil_append]
  apply List.filter_congr
  intro l hl
  simp only [List.not_mem_nil, not_false_eq_true, and_true]
  rw [decide_eq_decide]
  exact not_shared_snd inv hl

namespace Pair
variable [Zero R] {st : Store} {ta tb : Tensor R} {pa pb ra lb : LegId} {qa qb : List LegId}

theorem rest_a (h : Pair st ta tb pa pb ra lb qa qb) : (restA ta.legs [(ra, lb)]).Perm (pa :: qa) := by
  have nA := h.nodupA
  rw [List.nodup_cons, List.nodup_cons] at nA
  unfold restA
  refine (h.legsA.filter _).trans ?_
  rw [List.filter_cons_of_pos, List.filter_cons_of_neg, filterKeep]
  · intro x hx
    simp
    rintro rfl
    exact nA.2.1 hx
  · simp
  · simp
    rintro rfl
    exact nA.1 List.mem_cons_self

theorem rest_b (h : Pair st ta tb pa pb ra lb qa qb) : (restB tb.legs [(ra, lb)]).Perm (pb :: qb) := by
  have nB := h.nodupB
  rw [List.nodup_cons, List.nodup_cons] at nB
  unfold restB
  refine (h.legsB.filter _).trans ?_
  rw [List.filter_cons_of_pos, List.filter_cons_of_neg, filterKeep]
  · intro x hx
    simp
    rintro rfl
    exact nB.2.1 hx
  · simp
  · simp
    rintro rfl
    exact nB.1 List.mem_cons_self

theorem plain (h : Pair st ta tb pa pb ra lb qa qb) : SchmidtInput st ta tb [] [] where
  wf := h.wf
  goodA := h.goodA
  goodB := h.goodB
  denseA := h.denseA
  denseB := h.denseB
  disj := h.disj
  oldA := h.oldA
  oldB := h.oldB
  namesA := h.input.namesA
  namesB := h.input.namesB
  dashA := h.input.dashA
  dashB := h.input.dashB
  share := h.input.share
  swapLen := rfl
  swapInA := by simp
  swapInB := by simp
  namesU := by
    rw [sideA_none]
    exact (h.input.namesA).sublist (List.Sublist.map _ List.filter_sublist)
  namesV := by
    rw [sideB_none h.wf.inv]
    exact (h.input.namesB).sublist (List.Sublist.map _ List.filter_sublist)
  neA := by
    intro e
    rw [sideA_none, h.shared] at e
    have := h.rest_a.length_eq
    rw [e] at this
    simp at this
  neB := by
    intro e
    rw [sideB_none h.wf.inv, h.shared] at e
    have := h.rest_b.length_eq
    rw [e] at this
    simp at this

end Pair

/-- `SchimdtDecomposition` of two neighbours and the contraction of `s` and `v`. -/
theorem Pair.leftCut [CommSemiring R] {la : LinAlg R} (hla : ExactLinAlg la) (cast castF : R → R) {st : Store}
    {ta tb : Tensor R} {pa pb ra lb : LegId} {qa qb : List LegId} (h : Pair st ta tb pa pb ra lb qa qb) (chi : Nat) :
    ∃ mat st1 u s v o x y, CTL.schmidt la cast castF st ta tb chi false [] [] = .ok (st1, u, some s, v) ∧
      contractTwoTensors cast st1 s v none = .ok o ∧
      u.legs.Perm (pa :: x :: qa) ∧ o.result.legs.Perm (pb :: y :: qb) ∧
      LeftCut la st o.store [ra, lb] (restA ta.legs [(ra, lb)]) (restB tb.legs [(ra, lb)])
        (sumBonds st.dim [(ra, lb)] fun τ => entry ta τ * entry tb τ) chi (st.name ra) (st.name lb) mat u o.result x y := by
  obtain ⟨mat, st1, u, s, v, na, nb, x, x', y', y, h1, h2, h3⟩ := schmidt_three hla cast castF h.plain chi
  rw [sideA_none, sideB_none h.wf.inv] at h3
  rw [h.shared] at h1 h3
  have e := Option.some.inj h1
  rw [Prod.mk.injEq] at e
  rw [← e.1, ← e.2] at h3
  have oA : ∀ l ∈ restA ta.legs [(ra, lb)], l < st.nextLeg := fun l hl => h.oldA l (List.mem_of_mem_filter hl)
  have oB : ∀ l ∈ restB tb.legs [(ra, lb)], l < st.nextLeg := fun l hl => h.oldB l (List.mem_of_mem_filter hl)
  obtain ⟨o, h4, h5⟩ := h3.absorb hla cast h.wf oA oB
  refine ⟨mat, st1, u, s, v, o, x, x', h2, h4, ?_, ?_, h5⟩
  · exact h5.split.legsU.trans ((h.rest_a.cons x).trans (List.Perm.swap _ _ _))
  · exact h5.split.legsV.trans ((h.rest_b.cons x').trans (List.Perm.swap _ _ _))

/-- Two tensors are joined by a bond of dimension `d`: their product has at most `d` non-zero singular values. -/
theorem rank_of_bond [CommSemiring R] {la : LinAlg R} (hb : RankBounded la) {st : Store} {ta tb : Tensor R} {ra lb : LegId}
    (nda : ta.legs.Nodup) (ndb : tb.legs.Nodup) (disj : ∀ x ∈ ta.legs, x ∉ tb.legs) (hra : ra ∈ ta.legs) (hlb : lb ∈ tb.legs)
    {mat : NDArray R}
    (hm : IsMatrixOf st.dim (restA ta.legs [(ra, lb)]) (restB tb.legs [(ra, lb)])
      (sumBonds st.dim [(ra, lb)] fun τ => entry ta τ * entry tb τ) mat) :
    (la.svd mat).2.1.countP la.isNonZero ≤ st.dim ra := by
  have memA : ∀ l, l ∈ restA ta.legs [(ra, lb)] ↔ l ∈ ta.legs ∧ l ≠ ra := by
    intro l; unfold restA; rw [List.mem_filter]; simp
  have memB : ∀ l, l ∈ restB tb.legs [(ra, lb)] ↔ l ∈ tb.legs ∧ l ≠ lb := by
    intro l; unfold restB; rw [List.mem_filter]; simp
  have nA : (restA ta.legs [(ra, lb)]).Nodup := nda.filter _
  have nB : (restB tb.legs [(ra, lb)]).Nodup := ndb.filter _
  generalize restA ta.legs [(ra, lb)] = LA at *
  generalize restB tb.legs [(ra, lb)] = LB at *
  have ea : ∀ i, ∃ τ : Assign, i < (LA.map st.dim).prod → InRange st.dim LA τ ∧ ravel (LA.map st.dim) (LA.map τ) = i := by
    intro i
    by_cases c : i < (LA.map st.dim).prod
    · obtain ⟨τ, a1, _, a3⟩ := exists_assign st.dim LA nA (fun _ => 0) c
      exact ⟨τ, fun _ => ⟨a1, a3⟩⟩
    · exact ⟨fun _ => 0, fun h => absurd h c⟩
  have eb : ∀ j, ∃ τ : Assign, j < (LB.map st.dim).prod → InRange st.dim LB τ ∧ ravel (LB.map st.dim) (LB.map τ) = j := by
    intro i
    by_cases c : i < (LB.map st.dim).prod
    · obtain ⟨τ, a1, _, a3⟩ := exists_assign st.dim LB nB (fun _ => 0) c
      exact ⟨τ, fun _ => ⟨a1, a3⟩⟩
    · exact ⟨fun _ => 0, fun h => absurd h c⟩
  choose α hα using ea
  choose β hβ using eb
  refine hb mat _ _ hm.1 hm.2.1 _ (fun i d => entry ta ((α i).set ra d)) (fun d j => entry tb ((β j).set lb d)) ?_
  · intro i hi j hj
    obtain ⟨a1, a2⟩ := hα i hi
    obtain ⟨b1, b2⟩ := hβ j hj
    have dis : ∀ l ∈ LB, l ∉ LA := fun l hl hl' => disj l ((memA l).mp hl').1 ((memB l).mp hl).1
    let τ : Assign := fun l => if l ∈ LA then α i l else β j l
    have tA : ∀ l ∈ LA, τ l = α i l := fun l hl => by simp [τ, hl]
    have tB : ∀ l ∈ LB, τ l = β j l := fun l hl => by simp [τ, dis l hl]
    have eA : LA.map τ = LA.map (α i) := List.map_congr_left tA
    have eB : LB.map τ = LB.map (β j) := List.map_congr_left tB
    have hin : InRange st.dim (LA ++ LB) τ := by
      intro l hl
      rcases List.mem_append.mp hl with hl | hl
      · rw [tA l hl]; exact a1 l hl
      · rw [tB l hl]; exact b1 l hl
    have := hm.2.2 τ hin
    rw [eA, eB, a2, b2] at this
    rw [this]
    simp only [sumBonds]
    rw [sum_range_list]
    refine Finset.sum_congr rfl fun d _ => ?_
    congr 1
    · apply entry_congr
      intro l hl
      have n1 : l ≠ lb := fun e => disj l hl (e ▸ hlb)
      by_cases c : l = ra
      · simp [Assign.set, c]
      · simp only [Assign.set, n1, c, if_false]
        exact tA l ((memA l).mpr ⟨hl, c⟩)
    · apply entry_congr
      intro l hl
      have n1 : l ≠ ra := fun e => disj l (e ▸ hra) hl
      by_cases c : l = lb
      · simp [Assign.set, c]
      · simp only [Assign.set, n1, c, if_false]
        exact tB l ((memB l).mpr ⟨hl, c⟩)

/-- The two neighbours are joined by a bond of dimension `d`: their product has at most `d` non-zero singular values. -/
theorem Pair.rank_bond [CommSemiring R] {la : LinAlg R} (hb : RankBounded la) {st : Store}
    {ta tb : Tensor R} {pa pb ra lb : LegId} {qa qb : List LegId} (h : Pair st ta tb pa pb ra lb qa qb) {mat : NDArray R}
    (hm : IsMatrixOf st.dim (restA ta.legs [(ra, lb)]) (restB tb.legs [(ra, lb)])
      (sumBonds st.dim [(ra, lb)] fun τ => entry ta τ * entry tb τ) mat) :
    (la.svd mat).2.1.countP la.isNonZero ≤ st.dim ra :=
  rank_of_bond hb h.goodA.nodup h.goodB.nodup h.disj (h.legsA.mem_iff.mpr (by simp)) (h.legsB.mem_iff.mpr (by simp)) hm

theorem sumLegs_perm [AddCommMonoid R] (dim : LegId → Nat) {L L' : List LegId} (p : L.Perm L') (nd : L.Nodup) (f : Assign → R) :
    ∀ σ, sumLegs dim L f σ = sumLegs dim L' f σ := by
  induction p with
  | nil => intro σ; rfl
  | cons x _ ih =>
    intro σ
    simp only [sumLegs]
    rw [List.nodup_cons] at nd
    congr 1
    exact List.map_congr_left fun k _ => ih nd.2 _
  | swap x y l =>
    intro σ
    simp only [sumLegs]
    have ne : y ≠ x := fun e => by simp [e] at nd
    simp only [sum_range_list]
    rw [Finset.sum_comm]
    refine Finset.sum_congr rfl fun i _ => Finset.sum_congr rfl fun j _ => ?_
    congr 1
    funext l
    simp only [Assign.set]
    by_cases c1 : l = x
    · have : l ≠ y := fun e => ne (e.symm.trans c1)
      simp [c1, Ne.symm ne]
    · simp [c1]
  | trans p1 _ ih1 ih2 =>
    intro σ
    rw [ih1 nd, ih2 (p1.nodup_iff.mp nd)]

theorem sumLegs_dim [AddMonoid R] {dim dim' : LegId → Nat} {L : List LegId} (h : ∀ l ∈ L, dim' l = dim l) (f : Assign → R) :
    ∀ σ, sumLegs dim' L f σ = sumLegs dim L f σ := by
  induction L with
  | nil => intro σ; rfl
  | cons x L ih =>
    intro σ
    simp only [sumLegs]
    rw [h x (by simp)]
    congr 1
    exact List.map_congr_left fun k _ => ih (fun l hl => h l (by simp [hl])) _

theorem IsometryAt.perm [Semiring R] [StarRing R] {st : Store} {t : Tensor R} {L L' : List LegId} {x : LegId}
    (h : IsometryAt st t L x) (p : L.Perm L') (nd : L.Nodup) : IsometryAt st t L' x := by
  intro σ a b ha hb
  rw [← sumLegs_perm st.dim p nd]
  exact h σ a b ha hb

theorem IsometryAt.congr [Semiring R] [StarRing R] {st st' : Store} {t : Tensor R} {L : List LegId} {x : LegId}
    (h : IsometryAt st t L x) (hd : ∀ l ∈ x :: L, st'.dim l = st.dim l) : IsometryAt st' t L x := by
  intro σ a b ha hb
  rw [hd x (by simp)] at ha hb
  rw [sumLegs_dim (fun l hl => hd l (by simp [hl]))]
  exact h σ a b ha hb

/-- What a step of `canonicalize` on the sites `i` and `i + 1` leaves behind. -/
structure Stepped [Zero R] (st st' : Store) (m m' : MPS R) (phys : List LegId) (lft rgt : Nat → LegId) (i : Nat)
    (x y : LegId) : Prop where
  chain : Chain st' m'.tensors phys (fun j => if j = i + 1 then y else lft j) (fun j => if j = i then x else rgt j)
  len : m'.tensors.length = m.tensors.length
  others : ∀ j : Nat, j ≠ i → j ≠ i + 1 → m'.tensors[j]? = m.tensors[j]?
  chi : m'.chi = m.chi
  kept : LegsKept st st'
  grow : st.nextLeg ≤ st'.nextLeg
  dimX : st'.dim x = st'.dim y

theorem SplitP.kept {st st' : Store} {gone LA LB : List LegId} {k : Nat} {na nb : String} {u v : Tensor R} {x y : LegId}
    (s : SplitP st st' gone LA LB k na nb u v x y) : LegsKept st st' :=
  fun l hl => ⟨s.oldDim l hl, s.oldBond l hl, s.oldPartner l hl⟩

theorem canon_right [CommRing R] [StarRing R] {la : LinAlg R} (hla : ExactLinAlg la) (cast castF : R → R) {st : Store} {m : MPS R}
    {phys : List LegId} {lft rgt : Nat → LegId} (C : Chain st m.tensors phys lft rgt) {chi : Nat} (hc : m.chi = chi) {i : Nat}
    (hi : i + 1 < m.tensors.length) :
    ∃ st' m' x y, m.canonStep la cast castF st i (i + 1) = .ok (st', m') ∧ Stepped st st' m m' phys lft rgt i x y ∧
      st'.dim x ≤ chi ∧ (RankBounded la → st'.dim x ≤ st.dim (rgt i)) ∧
      (UnitaryLinAlg la → ∀ t, m'.tensors[i]? = some t →
        IsometryAt st' t (phys.getD i 0 :: if 0 < i then [lft i] else []) x) ∧
      (RankBounded la → RankRevealing la → st.dim (rgt i) ≤ chi → SameValue st m.tensors st' m'.tensors) := by
  have hi0 : i < m.tensors.length := by omega
  have ha : m.tensors[i]? = some m.tensors[i] := List.getElem?_eq_getElem hi0
  have hb : m.tensors[i + 1]? = some m.tensors[i + 1] := List.getElem?_eq_getElem hi
  have P := C.pair hi ha hb
  obtain ⟨mat, st1, u, s, v, o, x, y, h1, h2, h3, h4, cut⟩ := P.leftCut hla cast castF chi
  have sp := cut.split
  have C' := C.rebuildSame hi sp.wf sp.kept sp.grow sp.goodU sp.goodV sp.denseU sp.denseV h3 h4 sp.newX sp.newY sp.ne sp.joined.1
    (by rw [sp.nameX, C.nameR i hi]) (by rw [sp.nameY, C.nameL i hi]) (fun l hl n1 n2 => sp.oldName l hl (by simp [n1, n2]))
  have ha' : ((m.tensors.set i u).set (i + 1) o.result)[i]? = some u := by
    rw [List.getElem?_set_ne (by omega), List.getElem?_set_self hi0]
  have hb' : ((m.tensors.set i u).set (i + 1) o.result)[i + 1]? = some o.result := by
    rw [List.getElem?_set_self (by simpa using hi)]
  have oA : ∀ l ∈ restA m.tensors[i].legs [(rgt i, lft (i + 1))], l < st.nextLeg := fun l hl => P.oldA l (List.mem_of_mem_filter hl)
  have oB : ∀ l ∈ restB m.tensors[i + 1].legs [(rgt i, lft (i + 1))], l < st.nextLeg :=
    fun l hl => P.oldB l (List.mem_of_mem_filter hl)
  refine ⟨o.store, { m with tensors := (m.tensors.set i u).set (i + 1) o.result }, x, y, ?_,
    ⟨C', by simp, fun j h1 h2 => set_others h1 h2, rfl, sp.kept, sp.grow, by rw [sp.dimX, sp.dimY]⟩, ?_, ?_, ?_, ?_⟩
  · unfold MPS.canonStep
    rw [ha, hb, hc]
    simp only [h1, h2, bind, Except.bind, pure, Except.pure]
  · rw [sp.dimX]; exact min_le_left _ _
  · intro hbd
    rw [sp.dimX]
    exact (min_le_right _ _).trans (P.rank_bond hbd cut.isMat)
  · intro hu t ht
    rw [ha'] at ht
    rw [← Option.some.inj ht]
    have nd : (restA m.tensors[i].legs [(rgt i, lft (i + 1))]).Nodup := P.goodA.nodup.filter _
    exact (cut.isometry oA nd (hu mat _ _ cut.isMat.1 cut.isMat.2.1)).perm P.rest_a nd
  · intro hbd hr hbig
    have P' := C'.pair (by simpa using hi) ha' hb'
    have sh := P'.shared
    simp only [if_true] at sh
    have drop := rank_drop (chi := chi) hr cut.isMat.1 cut.isMat.2.1 ((P.rank_bond hbd cut.isMat).trans hbig)
    have val := cut.exact hla oA oB drop
    have g := C.goodNet.perm (two_front ha hb)
    have sv := SplitP.sameValue g P.denseA P.denseB sp (by rw [P.shared]) sh
      (fun t ht => C.old t ((two_front ha hb).mem_iff.mpr ht)) (by rw [P.shared]; exact val)
    refine (SameValue.of_perm C.goodNet (two_front ha hb)).trans (sv.trans ?_)
    have q := two_front ha' hb'
    rw [set_two_rest] at q
    exact SameValue.of_perm sv.good' q.symm

theorem canon_left [CommRing R] [StarRing R] {la : LinAlg R} (hla : ExactLinAlg la) (cast castF : R → R) {st : Store} {m : MPS R}
    {phys : List LegId} {lft rgt : Nat → LegId} (C : Chain st m.tensors phys lft rgt) {chi : Nat} (hc : m.chi = chi) {i : Nat}
    (hi : i + 1 < m.tensors.length) :
    ∃ st' m' x y, m.canonStep la cast castF st (i + 1) i = .ok (st', m') ∧ Stepped st st' m m' phys lft rgt i x y ∧
      st'.dim x ≤ chi ∧ (RankBounded la → st'.dim x ≤ st.dim (rgt i)) ∧
      (UnitaryLinAlg la → ∀ t, m'.tensors[i + 1]? = some t →
        IsometryAt st' t (phys.getD (i + 1) 0 :: if i + 1 + 1 < m.tensors.length then [rgt (i + 1)] else []) y) ∧
      (RankBounded la → RankRevealing la → st.dim (rgt i) ≤ chi → SameValue st m.tensors st' m'.tensors) := by
  have hi0 : i < m.tensors.length := by omega
  have ha : m.tensors[i]? = some m.tensors[i] := List.getElem?_eq_getElem hi0
  have hb : m.tensors[i + 1]? = some m.tensors[i + 1] := List.getElem?_eq_getElem hi
  have P := (C.pair hi ha hb).symm
  have ed : st.dim (lft (i + 1)) = st.dim (rgt i) := partner_dim C.wf.inv (C.joined i hi)
  obtain ⟨mat, st1, u, s, v, o, x, y, h1, h2, h3, h4, cut⟩ := P.leftCut hla cast castF chi
  have sp := cut.split
  have C' := C.rebuildSame hi sp.wf sp.kept sp.grow sp.goodV sp.goodU sp.denseV sp.denseU h4 h3 sp.newY sp.newX sp.ne.symm sp.joined.2
    (by rw [sp.nameY, C.nameR i hi]) (by rw [sp.nameX, C.nameL i hi]) (fun l hl n1 n2 => sp.oldName l hl (by simp [n1, n2]))
  have ha' : ((m.tensors.set i o.result).set (i + 1) u)[i]? = some o.result := by
    rw [List.getElem?_set_ne (by omega), List.getElem?_set_self hi0]
  have hb' : ((m.tensors.set i o.result).set (i + 1) u)[i + 1]? = some u := by
    rw [List.getElem?_set_self (by simpa using hi)]
  have oA : ∀ l ∈ restA m.tensors[i + 1].legs [(lft (i + 1), rgt i)], l < st.nextLeg := fun l hl => P.oldA l (List.mem_of_mem_filter hl)
  have oB : ∀ l ∈ restB m.tensors[i].legs [(lft (i + 1), rgt i)], l < st.nextLeg :=
    fun l hl => P.oldB l (List.mem_of_mem_filter hl)
  refine ⟨o.store, { m with tensors := (m.tensors.set i o.result).set (i + 1) u }, y, x, ?_,
    ⟨C', by simp, fun j h1 h2 => set_others h1 h2, rfl, sp.kept, sp.grow, by rw [sp.dimX, sp.dimY]⟩, ?_, ?_, ?_, ?_⟩
  · unfold MPS.canonStep
    rw [ha, hb, hc]
    simp only [h1, h2, bind, Except.bind, pure, Except.pure]
    rw [List.set_comm _ _ (by omega)]
  · rw [sp.dimY]; exact min_le_left _ _
  · intro hbd
    rw [sp.dimY, ← ed]
    exact (min_le_right _ _).trans (P.rank_bond hbd cut.isMat)
  · intro hu t ht
    rw [hb'] at ht
    rw [← Option.some.inj ht]
    have nd : (restA m.tensors[i + 1].legs [(lft (i + 1), rgt i)]).Nodup := P.goodA.nodup.filter _
    exact (cut.isometry oA nd (hu mat _ _ cut.isMat.1 cut.isMat.2.1)).perm P.rest_a nd
  · intro hbd hr hbig
    have P' := (C'.pair (by simpa using hi) ha' hb').symm
    have sh := P'.shared
    simp only [if_true] at sh
    have drop := rank_drop (chi := chi) hr cut.isMat.1 cut.isMat.2.1 ((P.rank_bond hbd cut.isMat).trans (ed.le.trans hbig))
    have val := cut.exact hla oA oB drop
    have tf := (two_front ha hb).trans (List.Perm.swap _ _ _)
    have g := C.goodNet.perm tf
    have sv := SplitP.sameValue g P.denseA P.denseB sp (by rw [P.shared]) sh
      (fun t ht => C.old t (tf.mem_iff.mpr ht)) (by rw [P.shared]; exact val)
    refine (SameValue.of_perm C.goodNet tf).trans (sv.trans ?_)
    have q := (two_front ha' hb').trans (List.Perm.swap _ _ _)
    rw [set_two_rest] at q
    exact SameValue.of_perm sv.good' q.symm

/-- The state after the bonds from `lo` to `hi` have been treated. -/
structure Swept [Zero R] (st st' : Store) (m m' : MPS R) (phys : List LegId) (lft rgt lft' rgt' : Nat → LegId)
    (chi : Nat) (lo hi : Nat) : Prop where
  chain : Chain st' m'.tensors phys lft' rgt'
  len : m'.tensors.length = m.tensors.length
  others : ∀ j : Nat, j < lo ∨ hi < j → m'.tensors[j]? = m.tensors[j]?
  chiKept : m'.chi = m.chi
  kept : LegsKept st st'
  grow : st.nextLeg ≤ st'.nextLeg
  lftKept : ∀ j, j ≤ lo ∨ hi < j → lft' j = lft j
  rgtKept : ∀ j, j < lo ∨ hi ≤ j → rgt' j = rgt j
  bound : ∀ j, lo ≤ j → j < hi → st'.dim (rgt' j) ≤ chi

theorem sweep_right [CommRing R] [StarRing R] {la : LinAlg R} (hla : ExactLinAlg la) (cast castF : R → R) {st : Store} {m : MPS R}
    {phys : List LegId} {lft rgt : Nat → LegId} (C : Chain st m.tensors phys lft rgt) {chi : Nat} (hc : m.chi = chi) (k : Nat) :
    k < m.tensors.length →
    ∃ st' m' lft' rgt', (List.range k).foldlM (fun (p : Store × MPS R) i => p.2.canonStep la cast castF p.1 i (i + 1)) (st, m) =
        (.ok (st', m') : Except PyErr _) ∧ Swept st st' m m' phys lft rgt lft' rgt' chi 0 k ∧
      (RankBounded la → ∀ j, j < k → st'.dim (rgt' j) ≤ st.dim (rgt j)) ∧
      (UnitaryLinAlg la → ∀ j < k, ∀ t, m'.tensors[j]? = some t →
        IsometryAt st' t (phys.getD j 0 :: if 0 < j then [lft' j] else []) (rgt' j)) ∧
      (RankBounded la → RankRevealing la → (∀ j, j < k → st.dim (rgt j) ≤ chi) →
        SameValue st m.tensors st' m'.tensors) := by
  induction k with
  | zero =>
    intro _
    refine ⟨st, m, lft, rgt, rfl, ⟨C, rfl, fun _ _ => rfl, rfl, .refl _, le_refl _, fun _ _ => rfl, fun _ _ => rfl, ?_⟩, ?_, ?_, ?_⟩
    · intro j _ h; omega
    · intro _ j h; omega
    · intro _ j h; omega
    · intro _ _ _; exact .refl C.goodNet
  | succ k ih =>
    intro hk
    obtain ⟨st1, m1, lft1, rgt1, e1, s1, r1, i1, v1⟩ := ih (by omega)
    obtain ⟨st2, m2, x, y, e2, s2, d2, r2, i2, v2⟩ := canon_right hla cast castF s1.chain (s1.chiKept.trans hc) (i := k) (by rw [s1.len]; omega)
    have dR : ∀ j, j + 1 < m.tensors.length → st2.dim (rgt1 j) = st1.dim (rgt1 j) := fun j hj =>
      (s2.kept _ (s1.chain.oldR (by rw [s1.len]; omega))).1
    refine ⟨st2, m2, _, _, ?_, ⟨s2.chain, s2.len.trans s1.len, ?_, s2.chi.trans s1.chiKept, s1.kept.trans s1.grow s2.kept,
      s1.grow.trans s2.grow, ?_, ?_, ?_⟩, ?_, ?_, ?_⟩
    · rw [List.range_succ, List.foldlM_append, e1]
      simp only [List.foldlM_cons, List.foldlM_nil, bind, Except.bind, e2, pure, Except.pure]
    · intro j hj
      rw [s2.others j (by omega) (by omega), s1.others j (by omega)]
    · intro j hj
      have := s1.lftKept j (by omega)
      rw [if_neg (by omega)]; exact this
    · intro j hj
      rw [if_neg (by omega)]; exact s1.rgtKept j (by omega)
    · intro j h0 hj
      by_cases c : j = k
      · rw [if_pos c]; exact d2
      · rw [if_neg c, dR j (by omega)]; exact s1.bound j (by omega) (by omega)
    · intro hb j hj
      by_cases c : j = k
      · rw [if_pos c, c]
        refine (r2 hb).trans ?_
        rw [s1.rgtKept k (by omega), (s1.kept _ (C.oldR (by omega))).1]
      · rw [if_neg c, dR j (by omega)]; exact r1 hb j (by omega)
    · intro hu j hj t ht
      by_cases c : j = k
      · subst c
        have := i2 hu t ht
        simpa using this
      · rw [s2.others j c (by omega)] at ht
        have h := i1 hu j (by omega) t ht
        rw [if_neg c, if_neg (show j ≠ k + 1 by omega)]
        refine h.congr fun l hl => ?_
        have hj : j < m1.tensors.length := (List.getElem?_eq_some_iff.mp ht).1
        have : l ∈ t.legs := (s1.chain.legs j t ht).mem_iff.mpr (by
          unfold siteLegs
          have : j + 1 < m1.tensors.length := by rw [s1.len]; omega
          rcases List.mem_cons.mp hl with rfl | hl
          · simp [this]
          · rcases List.mem_cons.mp hl with rfl | hl
            · simp
            · simp [hl])
        exact (s2.kept l (s1.chain.old t (List.mem_of_getElem? ht) l this)).1
    · intro hb hr hbig
      refine (v1 hb hr fun j hj => hbig j (by omega)).trans (v2 hb hr ?_)
      rw [s1.rgtKept k (by omega), (s1.kept _ (C.oldR (by omega))).1]
      exact hbig k (by omega)

theorem sweep_left [CommRing R] [StarRing R] {la : LinAlg R} (hla : ExactLinAlg la) (cast castF : R → R) {st : Store} {m : MPS R}
    {phys : List LegId} {lft rgt : Nat → LegId} (C : Chain st m.tensors phys lft rgt) {n : Nat} (hn : n = m.tensors.length) {chi : Nat} (hc : m.chi = chi) (k : Nat) :
    k < n →
    ∃ st' m' lft' rgt', ((List.range k).map fun k => n - 1 - k).foldlM
        (fun (p : Store × MPS R) i => p.2.canonStep la cast castF p.1 i (i - 1)) (st, m) =
        (.ok (st', m') : Except PyErr _) ∧ Swept st st' m m' phys lft rgt lft' rgt' chi (n - 1 - k) (n - 1) ∧
      (RankBounded la → ∀ j, n - 1 - k ≤ j → j < n - 1 → st'.dim (rgt' j) ≤ st.dim (rgt j)) ∧
      (UnitaryLinAlg la → ∀ j, n - 1 - k < j → j < n → ∀ t, m'.tensors[j]? = some t →
        IsometryAt st' t (phys.getD j 0 :: if j + 1 < n then [rgt' j] else []) (lft' j)) ∧
      (RankBounded la → RankRevealing la → (∀ j, n - 1 - k ≤ j → j < n - 1 → st.dim (rgt j) ≤ chi) →
        SameValue st m.tensors st' m'.tensors) := by
  induction k with
  | zero =>
    intro _
    refine ⟨st, m, lft, rgt, rfl, ⟨C, rfl, fun _ _ => rfl, rfl, .refl _, le_refl _, fun _ _ => rfl, fun _ _ => rfl, ?_⟩, ?_, ?_, ?_⟩
    · intro j _ h; omega
    · intro _ j h; omega
    · intro _ j h; omega
    · intro _ _ _; exact .refl C.goodNet
  | succ k ih =>
    intro hk
    obtain ⟨st1, m1, lft1, rgt1, e1, s1, r1, i1, v1⟩ := ih (by omega)
    obtain ⟨i, hi⟩ : ∃ i, n - 1 - k = i + 1 := ⟨n - 1 - k - 1, by omega⟩
    have hi' : n - 1 - (k + 1) = i := by omega
    rw [hi] at s1 r1 i1 v1
    rw [hi']
    obtain ⟨st2, m2, x, y, e2, s2, d2, r2, i2, v2⟩ := canon_left hla cast castF s1.chain (s1.chiKept.trans hc) (i := i) (by rw [s1.len]; omega)
    have dR : ∀ j, j + 1 < m.tensors.length → st2.dim (rgt1 j) = st1.dim (rgt1 j) := fun j hj =>
      (s2.kept _ (s1.chain.oldR (by rw [s1.len]; omega))).1
    refine ⟨st2, m2, _, _, ?_, ⟨s2.chain, s2.len.trans s1.len, ?_, s2.chi.trans s1.chiKept, s1.kept.trans s1.grow s2.kept,
      s1.grow.trans s2.grow, ?_, ?_, ?_⟩, ?_, ?_, ?_⟩
    · rw [List.range_succ, List.map_append, List.foldlM_append, e1]
      simp only [List.map_cons, List.map_nil, List.foldlM_cons, List.foldlM_nil, bind, Except.bind, hi, Nat.add_sub_cancel, e2,
        pure, Except.pure]
    · intro j hj
      rw [s2.others j (by omega) (by omega), s1.others j (by omega)]
    · intro j hj
      rw [if_neg (by omega)]; exact s1.lftKept j (by omega)
    · intro j hj
      rw [if_neg (by omega)]; exact s1.rgtKept j (by omega)
    · intro j h0 hj
      by_cases c : j = i
      · rw [if_pos c]; exact d2
      · rw [if_neg c, dR j (by omega)]; exact s1.bound j (by omega) (by omega)
    · intro hb j h0 hj
      by_cases c : j = i
      · rw [if_pos c, c]
        refine (r2 hb).trans ?_
        rw [s1.rgtKept i (by omega), (s1.kept _ (C.oldR (by omega))).1]
      · rw [if_neg c, dR j (by omega)]; exact r1 hb j (by omega) (by omega)
    · intro hu j h0 hj t ht
      by_cases c : j = i + 1
      · subst c
        have := i2 hu t ht
        rw [s1.len, ← hn] at this
        simpa using this
      · rw [s2.others j (by omega) (by omega)] at ht
        have h := i1 hu j (by omega) hj t ht
        rw [if_neg c, if_neg (show j ≠ i by omega)]
        refine h.congr fun l hl => ?_
        have : l ∈ t.legs := (s1.chain.legs j t ht).mem_iff.mpr (by
          unfold siteLegs
          rw [s1.len, ← hn]
          have : 0 < j := by omega
          rcases List.mem_cons.mp hl with rfl | hl
          · simp [this]
          · rcases List.mem_cons.mp hl with rfl | hl
            · simp
            · simp [hl])
        exact (s2.kept l (s1.chain.old t (List.mem_of_getElem? ht) l this)).1
    · intro hb hr hbig
      refine (v1 hb hr fun j h0 hj => hbig j (by omega) hj).trans (v2 hb hr ?_)
      rw [s1.rgtKept i (by omega), (s1.kept _ (C.oldR (by omega))).1]
      exact hbig i (by omega) (by omega)

/-- A tensor whose entries form a matrix with orthonormal columns is an isometry. -/
theorem isometry_of_entries [CommRing R] [StarRing R] {st : Store} {t : Tensor R} {L : List LegId} {x : LegId} (nd : L.Nodup)
    (hx : x ∉ L) (F : Nat → Nat → R)
    (ent : ∀ σ, InRange st.dim L σ → σ x < st.dim x → entry t σ = F (ravel (L.map st.dim) (L.map σ)) (σ x))
    (ortho : ∀ a < st.dim x, ∀ b < st.dim x, ∑ i ∈ range (L.map st.dim).prod, star (F i a) * F i b = if a = b then 1 else 0) :
    IsometryAt st t L x := by
  intro σ a b ha hb
  rw [← ortho a ha b hb, ← sumLegs_ravel st.dim L nd (fun i => star (F i a) * F i b) σ]
  apply sumLegs_congr _ _ _ _ _ _ nd
  intro τ _ hτ
  have hin : ∀ k, InRange st.dim L (τ.set x k) := by
    intro k l hl
    have h2 : l ≠ x := fun e => hx (e ▸ hl)
    simp only [Assign.set, h2, if_false]
    exact hτ l hl
  rw [ent _ (hin a) (by simpa [Assign.set] using ha), ent _ (hin b) (by simpa [Assign.set] using hb),
    setRavel _ _ _ hx, setRavel _ _ _ hx]
  simp [Assign.set]

section cut3
variable {la : LinAlg R} {st st' : Store} {gone LA LB : List LegId} {f : Assign → R} {chi : Nat} {na nb : String}
  {mat : NDArray R} {u s v : Tensor R} {x x' y' y : LegId}

/-- What the three factors multiply to. -/
theorem Cut3.value [CommSemiring R] (oldA : ∀ l ∈ LA, l < st.nextLeg) (oldB : ∀ l ∈ LB, l < st.nextLeg)
    (c : Cut3 la st st' gone LA LB f chi na nb mat u s v x x' y' y) (σ : Assign) (hσ : InRange st.dim (LA ++ LB) σ) :
    sumBonds st'.dim [(x, x'), (y', y)] (fun τ => entry u τ * entry s τ * entry v τ) σ =
    partialSVD (la.svd mat).1 (la.svd mat).2.1 (la.svd mat).2.2 (range (min chi ((la.svd mat).2.1.countP la.isNonZero)))
      (ravel (LA.map st.dim) (LA.map σ)) (ravel (LB.map st.dim) (LB.map σ)) := by
  have p := c.split
  have iA : InRange st.dim LA σ := fun l hl => hσ l (List.mem_append_left _ hl)
  have iB : InRange st.dim LB σ := fun l hl => hσ l (List.mem_append_right _ hl)
  have nA : ∀ z ∈ [x, x', y', y], z ∉ LA := fun z hz h => absurd (oldA z h) (Nat.not_lt.mpr (p.isNew z hz).1)
  have nB : ∀ z ∈ [x, x', y', y], z ∉ LB := fun z hz h => absurd (oldB z h) (Nat.not_lt.mpr (p.isNew z hz).1)
  have nd := p.nodup
  simp only [List.nodup_cons, List.mem_cons, List.not_mem_nil, or_false, not_or, not_false_eq_true, List.nodup_nil, and_true] at nd
  obtain ⟨⟨xx', xy', xy⟩, ⟨x'y', x'y⟩, y'y⟩ := nd
  simp only [sumBonds]
  rw [p.dims x (by simp), p.dims y' (by simp), sum_range_list]
  simp only [sum_range_list]
  unfold partialSVD
  refine Finset.sum_congr rfl fun t ht => ?_
  rw [Finset.mem_range] at ht
  have inA : ∀ a b, InRange st.dim LA ((((σ.set x a).set x' a).set y' b).set y b) := by
    intro a b l hl
    have h1 : l ≠ x := fun e => nA x (by simp) (e ▸ hl)
    have h2 : l ≠ x' := fun e => nA x' (by simp) (e ▸ hl)
    have h3 : l ≠ y' := fun e => nA y' (by simp) (e ▸ hl)
    have h4 : l ≠ y := fun e => nA y (by simp) (e ▸ hl)
    simp only [Assign.set, h1, h2, h3, h4, if_false]
    exact iA l hl
  have inB : ∀ a b, InRange st.dim LB ((((σ.set x a).set x' a).set y' b).set y b) := by
    intro a b l hl
    have h1 : l ≠ x := fun e => nB x (by simp) (e ▸ hl)
    have h2 : l ≠ x' := fun e => nB x' (by simp) (e ▸ hl)
    have h3 : l ≠ y' := fun e => nB y' (by simp) (e ▸ hl)
    have h4 : l ≠ y := fun e => nB y (by simp) (e ▸ hl)
    simp only [Assign.set, h1, h2, h3, h4, if_false]
    exact iB l hl
  rw [Finset.sum_eq_single_of_mem t (Finset.mem_range.mpr ht)]
  · rw [c.entU _ (inA t t), c.entS, c.entV _ (inB t t)]
    · rw [setRavel _ _ _ (nA y (by simp)), setRavel _ _ _ (nA y' (by simp)), setRavel _ _ _ (nA x' (by simp)),
        setRavel _ _ _ (nA x (by simp)), setRavel _ _ _ (nB y (by simp)), setRavel _ _ _ (nB y' (by simp)),
        setRavel _ _ _ (nB x' (by simp)), setRavel _ _ _ (nB x (by simp))]
      simp [Assign.set, xx', xy', xy, x'y', x'y, y'y]
    · simpa [Assign.set] using ht
    · simpa [Assign.set, x'y', x'y] using ht
    · simpa [Assign.set, xx', xy', xy] using ht
  · intro r hr hne
    rw [c.entS]
    · simp [Assign.set, x'y', x'y, y'y, hne]
    · simpa [Assign.set, x'y', x'y] using ht

/-- Nothing is lost when no non-zero value is cut. -/
theorem Cut3.exact [CommSemiring R] (hla : ExactLinAlg la) (oldA : ∀ l ∈ LA, l < st.nextLeg) (oldB : ∀ l ∈ LB, l < st.nextLeg)
    (c : Cut3 la st st' gone LA LB f chi na nb mat u s v x x' y' y)
    (h0 : ∀ z ∈ (la.svd mat).2.1.drop (min chi ((la.svd mat).2.1.countP la.isNonZero)), z = 0)
    (σ : Assign) (hσ : InRange st.dim (LA ++ LB) σ) :
    sumBonds st'.dim [(x, x'), (y', y)] (fun τ => entry u τ * entry s τ * entry v τ) σ = f σ := by
  have iA : InRange st.dim LA σ := fun l hl => hσ l (List.mem_append_left _ hl)
  have iB : InRange st.dim LB σ := fun l hl => hσ l (List.mem_append_right _ hl)
  have S := hla.svd mat _ _ c.isMat.1 c.isMat.2.1
  rw [c.value oldA oldB σ hσ, cut_exact S _ h0 (ravel_lt' iA) (ravel_lt' iB), c.isMat.2.2 σ hσ]
  rw [← S.sLen]
  exact (min_le_right _ _).trans List.countP_le_length

/-- The outer factors of a unitary decomposition are isometries. -/
theorem Cut3.isometries [CommRing R] [StarRing R] (hu : UnitaryLinAlg la) (oldA : ∀ l ∈ LA, l < st.nextLeg)
    (oldB : ∀ l ∈ LB, l < st.nextLeg) (ndA : LA.Nodup) (ndB : LB.Nodup)
    (c : Cut3 la st st' gone LA LB f chi na nb mat u s v x x' y' y) : IsometryAt st' u LA x ∧ IsometryAt st' v LB y := by
  have p := c.split
  have S := hu mat _ _ c.isMat.1 c.isMat.2.1
  have hk : min chi ((la.svd mat).2.1.countP la.isNonZero) ≤ min (LA.map st.dim).prod (LB.map st.dim).prod := by
    have := List.countP_le_length (p := la.isNonZero) (l := (la.svd mat).2.1)
    rw [S.sLen] at this
    exact (min_le_right _ _).trans this
  have eA : LA.map st'.dim = LA.map st.dim := List.map_congr_left fun l hl => p.oldDim l (oldA l hl)
  have eB : LB.map st'.dim = LB.map st.dim := List.map_congr_left fun l hl => p.oldDim l (oldB l hl)
  have rA : ∀ {σ}, InRange st'.dim LA σ → InRange st.dim LA σ := fun h l hl => by
    have := h l hl
    rwa [p.oldDim l (oldA l hl)] at this
  have rB : ∀ {σ}, InRange st'.dim LB σ → InRange st.dim LB σ := fun h l hl => by
    have := h l hl
    rwa [p.oldDim l (oldB l hl)] at this
  constructor
  · refine isometry_of_entries ndA (fun h => absurd (oldA x h) (Nat.not_lt.mpr (p.isNew x (by simp)).1))
      (fun i k => (la.svd mat).1.get [i, k]) ?_ ?_
    · intro σ hσ hx
      rw [p.dims x (by simp)] at hx
      rw [eA]
      exact c.entU σ (rA hσ) hx
    · intro a ha b hb
      rw [p.dims x (by simp)] at ha hb
      rw [eA]
      exact S.uOrtho a (by omega) b (by omega)
  · refine isometry_of_entries ndB (fun h => absurd (oldB y h) (Nat.not_lt.mpr (p.isNew y (by simp)).1))
      (fun i k => (la.svd mat).2.2.get [k, i]) ?_ ?_
    · intro σ hσ hy
      rw [p.dims y (by simp)] at hy
      rw [eB]
      exact c.entV σ (rB hσ) hy
    · intro a ha b hb
      rw [p.dims y (by simp)] at ha hb
      rw [eB]
      exact S.vOrtho a (by omega) b (by omega)

end cut3

end CTL
