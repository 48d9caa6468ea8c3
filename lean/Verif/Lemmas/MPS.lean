import Verif.Spec.MPS
import Verif.Lemmas.Merge

/-! Chains and swaps. -/

namespace CTL
variable {R : Type}

/-- Two neighbours: `ta` with the physical leg `pa`, the leg `ra` to `tb`, and the legs `qa`; `tb` likewise. -/
structure Pair [Zero R] (st : Store) (ta tb : Tensor R) (pa pb ra lb : LegId) (qa qb : List LegId) : Prop where
  wf : WFStore st
  goodA : GoodTensor st ta
  goodB : GoodTensor st tb
  denseA : ta.diag = false
  denseB : tb.diag = false
  disj : ∀ x ∈ ta.legs, x ∉ tb.legs
  oldA : ∀ l ∈ ta.legs, l < st.nextLeg
  oldB : ∀ l ∈ tb.legs, l < st.nextLeg
  legsA : ta.legs.Perm (pa :: ra :: qa)
  legsB : tb.legs.Perm (pb :: lb :: qb)
  joined : st.partner ra = some lb
  apart : ∀ l ∈ pa :: qa, ∀ m ∈ tb.legs, st.partner l ≠ some m
  nameA : st.name pa = "o"
  nameB : st.name pb = "o"
  namesA : ("o" :: st.name ra :: qa.map st.name).Nodup
  namesB : ("o" :: st.name lb :: qb.map st.name).Nodup
  dashA : ∀ l ∈ ra :: qa, '-' ∉ (st.name l).toList
  dashB : ∀ l ∈ lb :: qb, '-' ∉ (st.name l).toList

namespace Pair
variable [Zero R] {st : Store} {ta tb : Tensor R} {pa pb ra lb : LegId} {qa qb : List LegId}

theorem nodupA (h : Pair st ta tb pa pb ra lb qa qb) : (pa :: ra :: qa).Nodup := h.legsA.nodup_iff.mp h.goodA.nodup
theorem nodupB (h : Pair st ta tb pa pb ra lb qa qb) : (pb :: lb :: qb).Nodup := h.legsB.nodup_iff.mp h.goodB.nodup

theorem apart' (h : Pair st ta tb pa pb ra lb qa qb) : ∀ l ∈ pb :: qb, ∀ m ∈ ta.legs, st.partner l ≠ some m := by
  intro l hl m hm he
  have hm' := h.legsA.mem_iff.mp hm
  have hs := partner_symm h.wf.inv he
  have hlt : l ∈ tb.legs := h.legsB.mem_iff.mpr (by
    rcases List.mem_cons.mp hl with rfl | hl
    · exact List.mem_cons_self
    · exact List.mem_cons_of_mem _ (List.mem_cons_of_mem _ hl))
  by_cases hr : m = ra
  · rw [hr, h.joined] at hs
    have hlb : lb = l := Option.some.inj hs
    have nd := h.nodupB
    rw [List.nodup_cons, List.nodup_cons] at nd
    rcases List.mem_cons.mp hl with e | hl
    · exact nd.1 (by rw [← e, ← hlb]; exact List.mem_cons_self)
    · exact nd.2.1 (hlb ▸ hl)
  · refine h.apart m ?_ l hlt hs
    rcases List.mem_cons.mp hm' with e | hm'
    · rw [e]; exact List.mem_cons_self
    · rcases List.mem_cons.mp hm' with e | hm'
      · exact absurd e hr
      · exact List.mem_cons_of_mem _ hm'

theorem shared (h : Pair st ta tb pa pb ra lb qa qb) : sharedPairs st ta.legs tb.legs = [(ra, lb)] := by
  have nd : (sharedPairs st ta.legs tb.legs).Nodup := by
    apply List.Nodup.of_map Prod.fst
    rw [sharedPairs_fst]; exact h.goodA.nodup.filter _
  rw [← List.perm_singleton, List.perm_ext_iff_of_nodup nd (List.nodup_singleton _)]
  rintro ⟨l, m⟩
  rw [mem_sharedPairs, List.mem_singleton]
  constructor
  · rintro ⟨h1, h2, h3⟩
    simp only at h1 h2 h3
    have hr : l = ra := by
      by_contra hr
      refine h.apart l ?_ m h3 h2
      rcases List.mem_cons.mp (h.legsA.mem_iff.mp h1) with e | h1
      · rw [e]; exact List.mem_cons_self
      · rcases List.mem_cons.mp h1 with e | h1
        · exact absurd e hr
        · exact List.mem_cons_of_mem _ h1
    subst hr
    rw [h.joined] at h2
    rw [Option.some.inj h2]
  · intro he
    rw [Prod.mk.injEq] at he
    rw [he.1, he.2]
    exact ⟨h.legsA.mem_iff.mpr (by simp), h.joined, h.legsB.mem_iff.mpr (by simp)⟩

theorem filterKeep {p : LegId → Bool} {l : List LegId} (h : ∀ x ∈ l, p x = true) : l.filter p = l :=
  List.filter_eq_self.mpr h

theorem filterDrop {p : LegId → Bool} {l : List LegId} (h : ∀ x ∈ l, p x = false) : l.filter p = [] := by
  rw [List.filter_eq_nil_iff]
  intro x hx hp
  rw [h x hx] at hp
  cases hp

theorem side_a (h : Pair st ta tb pa pb ra lb qa qb) : (sideA st ta tb ["o"] ["o"]).Perm (pb :: qa) := by
  have hra : ra ∈ ta.legs := h.legsA.mem_iff.mpr (by simp)
  have hlb : lb ∈ tb.legs := h.legsB.mem_iff.mpr (by simp)
  have hsym := partner_symm h.wf.inv h.joined
  have nA := h.namesA
  have nB := h.namesB
  rw [List.nodup_cons] at nA nB
  unfold sideA
  have e1 : ((pa :: ra :: qa).filter fun l => decide ((∀ m ∈ tb.legs, st.partner l ≠ some m) ∧ st.name l ∉ ["o"])) = qa := by
    rw [List.filter_cons_of_neg, List.filter_cons_of_neg, filterKeep]
    · intro x hx
      simp only [decide_eq_true_eq]
      refine ⟨h.apart x (List.mem_cons_of_mem _ hx), ?_⟩
      rw [List.mem_singleton]
      intro e
      exact nA.1 (e ▸ List.mem_cons_of_mem _ (List.mem_map_of_mem hx))
    · simp only [decide_eq_true_eq, not_and]
      intro hh
      exact absurd h.joined (hh lb hlb)
    · simp [h.nameA]
  have e2 : ((pb :: lb :: qb).filter fun l => decide ((∀ m ∈ ta.legs, st.partner l ≠ some m) ∧ st.name l ∈ ["o"])) = [pb] := by
    rw [List.filter_cons_of_pos, List.filter_cons_of_neg, filterDrop]
    · intro x hx
      rw [decide_eq_false_iff_not]
      rintro ⟨_, hn⟩
      rw [List.mem_singleton] at hn
      exact nB.1 (hn ▸ List.mem_cons_of_mem _ (List.mem_map_of_mem hx))
    · simp only [decide_eq_true_eq, not_and]
      intro hh
      exact absurd hsym (hh ra hra)
    · simp only [decide_eq_true_eq]
      exact ⟨h.apart' pb List.mem_cons_self, by rw [h.nameB]; simp⟩
  refine ((h.legsA.filter _).append (h.legsB.filter _)).trans ?_
  rw [e1, e2]
  exact (List.perm_append_comm (l₁ := qa) (l₂ := [pb]))

theorem side_b (h : Pair st ta tb pa pb ra lb qa qb) : (sideB st ta tb ["o"] ["o"]).Perm (pa :: qb) := by
  have hra : ra ∈ ta.legs := h.legsA.mem_iff.mpr (by simp)
  have hlb : lb ∈ tb.legs := h.legsB.mem_iff.mpr (by simp)
  have hsym := partner_symm h.wf.inv h.joined
  have nA := h.namesA
  have nB := h.namesB
  rw [List.nodup_cons] at nA nB
  unfold sideB
  have e1 : ((pa :: ra :: qa).filter fun l => decide ((∀ m ∈ tb.legs, st.partner l ≠ some m) ∧ st.name l ∈ ["o"])) = [pa] := by
    rw [List.filter_cons_of_pos, List.filter_cons_of_neg, filterDrop]
    · intro x hx
      rw [decide_eq_false_iff_not]
      rintro ⟨_, hn⟩
      rw [List.mem_singleton] at hn
      exact nA.1 (hn ▸ List.mem_cons_of_mem _ (List.mem_map_of_mem hx))
    · simp only [decide_eq_true_eq, not_and]
      intro hh
      exact absurd h.joined (hh lb hlb)
    · simp only [decide_eq_true_eq]
      exact ⟨h.apart pa List.mem_cons_self, by rw [h.nameA]; simp⟩
  have e2 : ((pb :: lb :: qb).filter fun l => decide ((∀ m ∈ ta.legs, st.partner l ≠ some m) ∧ st.name l ∉ ["o"])) = qb := by
    rw [List.filter_cons_of_neg, List.filter_cons_of_neg, filterKeep]
    · intro x hx
      simp only [decide_eq_true_eq]
      refine ⟨h.apart' x (List.mem_cons_of_mem _ hx), ?_⟩
      rw [List.mem_singleton]
      intro e
      exact nB.1 (e ▸ List.mem_cons_of_mem _ (List.mem_map_of_mem hx))
    · simp only [decide_eq_true_eq, not_and]
      intro hh
      exact absurd hsym (hh ra hra)
    · simp [h.nameB]
  refine ((h.legsA.filter _).append (h.legsB.filter _)).trans ?_
  rw [e1, e2]
  rfl

theorem input (h : Pair st ta tb pa pb ra lb qa qb) : SchmidtInput st ta tb ["o"] ["o"] where
  wf := h.wf
  goodA := h.goodA
  goodB := h.goodB
  denseA := h.denseA
  denseB := h.denseB
  disj := h.disj
  oldA := h.oldA
  oldB := h.oldB
  namesA := by
    rw [(h.legsA.map st.name).nodup_iff]
    simpa [h.nameA] using h.namesA
  namesB := by
    rw [(h.legsB.map st.name).nodup_iff]
    simpa [h.nameB] using h.namesB
  dashA := by
    intro l hl
    rcases List.mem_cons.mp (h.legsA.mem_iff.mp hl) with e | hl
    · rw [e, h.nameA]; decide
    · exact h.dashA l hl
  dashB := by
    intro l hl
    rcases List.mem_cons.mp (h.legsB.mem_iff.mp hl) with e | hl
    · rw [e, h.nameB]; decide
    · exact h.dashB l hl
  share := ⟨ra, h.legsA.mem_iff.mpr (by simp), lb, h.legsB.mem_iff.mpr (by simp), h.joined⟩
  swapLen := rfl
  swapInA := by
    intro n hn
    rw [List.mem_singleton] at hn
    rw [hn, ← h.nameA]
    exact List.mem_map_of_mem (h.legsA.mem_iff.mpr (by simp))
  swapInB := by
    intro n hn
    rw [List.mem_singleton] at hn
    rw [hn, ← h.nameB]
    exact List.mem_map_of_mem (h.legsB.mem_iff.mpr (by simp))
  namesU := by
    rw [(h.side_a.map st.name).nodup_iff]
    have := h.namesA
    rw [List.nodup_cons, List.nodup_cons] at this
    rw [List.map_cons, List.nodup_cons, h.nameB]
    exact ⟨fun hx => this.1 (List.mem_cons_of_mem _ hx), this.2.2⟩
  namesV := by
    rw [(h.side_b.map st.name).nodup_iff]
    have := h.namesB
    rw [List.nodup_cons, List.nodup_cons] at this
    rw [List.map_cons, List.nodup_cons, h.nameA]
    exact ⟨fun hx => this.1 (List.mem_cons_of_mem _ hx), this.2.2⟩
  neA := by
    intro e
    have := h.side_a.length_eq
    rw [e] at this
    simp at this
  neB := by
    intro e
    have := h.side_b.length_eq
    rw [e] at this
    simp at this

theorem symm (h : Pair st ta tb pa pb ra lb qa qb) : Pair st tb ta pb pa lb ra qb qa where
  wf := h.wf
  goodA := h.goodB
  goodB := h.goodA
  denseA := h.denseB
  denseB := h.denseA
  disj := fun x hx hx' => h.disj x hx' hx
  oldA := h.oldB
  oldB := h.oldA
  legsA := h.legsB
  legsB := h.legsA
  joined := partner_symm h.wf.inv h.joined
  apart := h.apart'
  nameA := h.nameB
  nameB := h.nameA
  namesA := h.namesB
  namesB := h.namesA
  dashA := h.dashB
  dashB := h.dashA

end Pair

/-- `SchimdtDecomposition` with the physical legs exchanged, on two neighbours. -/
theorem Pair.schmidt [CommSemiring R] {la : LinAlg R} (hla : ExactLinAlg la) (cast castF : R → R) {st : Store}
    {ta tb : Tensor R} {pa pb ra lb : LegId} {qa qb : List LegId} (h : Pair st ta tb pa pb ra lb qa qb) (chi : Nat) :
    ∃ mat st' u v x y, CTL.schmidt la cast castF st ta tb chi true ["o"] ["o"] = .ok (st', u, none, v) ∧
      u.legs.Perm (pb :: x :: qa) ∧ v.legs.Perm (pa :: y :: qb) ∧
      Cut la st st' [ra, lb] (sideA st ta tb ["o"] ["o"]) (sideB st ta tb ["o"] ["o"])
        (sumBonds st.dim [(ra, lb)] fun τ => entry ta τ * entry tb τ) chi (st.name ra) (st.name lb) mat u v x y := by
  obtain ⟨mat, st', u, v, na, nb, x, y, h1, h2, h3, h4, h5⟩ := schmidt_sqrt hla cast castF h.input chi
  have S := hla.svd mat _ _ h2.1 h2.2.1
  rw [keptN_eq la chi _ _ S.sLen] at h4 h5
  rw [h.shared] at h1 h2 h4
  have e := Option.some.inj h1
  rw [Prod.mk.injEq] at e
  rw [← e.1, ← e.2] at h4
  refine ⟨mat, st', u, v, x, y, h3, ?_, ?_, ⟨h2, h4, h5⟩⟩
  · rw [h4.legsU]
    refine ((h.side_a.append_right [x])).trans (List.Perm.cons _ ?_)
    exact List.perm_append_comm (l₁ := qa) (l₂ := [x])
  · rw [h4.legsV]
    exact (h.side_b.cons y).trans (List.Perm.swap _ _ _)

namespace Chain
variable [Zero R] {st : Store} {ts : List (Tensor R)} {phys : List LegId} {lft rgt : Nat → LegId}

theorem mem_siteLegs {n : Nat} {i : Nat} {x : LegId} : x ∈ siteLegs n phys lft rgt i ↔
    x = phys.getD i 0 ∨ (i + 1 < n ∧ x = rgt i) ∨ (0 < i ∧ x = lft i) := by
  unfold siteLegs
  rw [List.mem_cons, List.mem_append]
  constructor
  · rintro (h | h | h)
    · exact .inl h
    · split at h
      · rename_i c; exact .inr (.inl ⟨c, List.mem_singleton.mp h⟩)
      · cases h
    · split at h
      · rename_i c; exact .inr (.inr ⟨c, List.mem_singleton.mp h⟩)
      · cases h
  · rintro (h | ⟨c, h⟩ | ⟨c, h⟩)
    · exact .inl h
    · right; left; rw [if_pos c]; exact List.mem_singleton.mpr h
    · right; right; rw [if_pos c]; exact List.mem_singleton.mpr h

theorem mem_phys {n : Nat} {p : LegId} (h : phys.length = n) : p ∈ phys ↔ ∃ j < n, p = phys.getD j 0 := by
  rw [List.mem_iff_getElem]
  constructor
  · rintro ⟨j, hj, rfl⟩
    exact ⟨j, h ▸ hj, by simp [List.getD_eq_getElem?_getD, hj]⟩
  · rintro ⟨j, hj, rfl⟩
    exact ⟨j, h ▸ hj, by simp [List.getD_eq_getElem?_getD, h, hj]⟩

end Chain

namespace ChainLinks
variable [Zero R] {st : Store} {ts : List (Tensor R)} {phys : List LegId} {lft rgt : Nat → LegId}

theorem site (C : ChainLinks st ts phys lft rgt) {i : Nat} (hi : i < ts.length) : ∃ t, ts[i]? = some t ∧ t ∈ ts ∧
    t.legs.Perm (siteLegs ts.length phys lft rgt i) :=
  ⟨ts[i], List.getElem?_eq_getElem hi, List.getElem_mem hi, C.legs i _ (List.getElem?_eq_getElem hi)⟩

theorem nodup (C : ChainLinks st ts phys lft rgt) {i : Nat} (hi : i < ts.length) : (siteLegs ts.length phys lft rgt i).Nodup := by
  obtain ⟨t, _, h2, h3⟩ := C.site hi
  exact h3.nodup_iff.mp (C.good t h2).1.nodup

theorem oldP (C : ChainLinks st ts phys lft rgt) {i : Nat} (hi : i < ts.length) : phys.getD i 0 < st.nextLeg := by
  obtain ⟨t, _, h2, h3⟩ := C.site hi
  exact C.old t h2 _ (h3.mem_iff.mpr (Chain.mem_siteLegs.mpr (.inl rfl)))

theorem oldR (C : ChainLinks st ts phys lft rgt) {i : Nat} (hi : i + 1 < ts.length) : rgt i < st.nextLeg := by
  obtain ⟨t, _, h2, h3⟩ := C.site (Nat.lt_of_succ_lt hi)
  exact C.old t h2 _ (h3.mem_iff.mpr (Chain.mem_siteLegs.mpr (.inr (.inl ⟨hi, rfl⟩))))

theorem oldL (C : ChainLinks st ts phys lft rgt) {i : Nat} (h0 : 0 < i) (hi : i < ts.length) : lft i < st.nextLeg := by
  obtain ⟨t, _, h2, h3⟩ := C.site hi
  exact C.old t h2 _ (h3.mem_iff.mpr (Chain.mem_siteLegs.mpr (.inr (.inr ⟨h0, rfl⟩))))

theorem injP (C : ChainLinks st ts phys lft rgt) {i j : Nat} (hi : i < ts.length) (hj : j < ts.length)
    (h : phys.getD i 0 = phys.getD j 0) : i = j := by
  by_contra c
  exact C.disj i hi j hj c _ (Chain.mem_siteLegs.mpr (.inl rfl)) (Chain.mem_siteLegs.mpr (.inl h))

theorem injR (C : ChainLinks st ts phys lft rgt) {i j : Nat} (hi : i + 1 < ts.length) (hj : j + 1 < ts.length)
    (h : rgt i = rgt j) : i = j := by
  by_contra c
  exact C.disj i (by omega) j (by omega) c _ (Chain.mem_siteLegs.mpr (.inr (.inl ⟨hi, rfl⟩))) (Chain.mem_siteLegs.mpr (.inr (.inl ⟨hj, h⟩)))

theorem injL (C : ChainLinks st ts phys lft rgt) {i j : Nat} (h0 : 0 < i) (h0' : 0 < j) (hi : i < ts.length) (hj : j < ts.length)
    (h : lft i = lft j) : i = j := by
  by_contra c
  exact C.disj i hi j hj c _ (Chain.mem_siteLegs.mpr (.inr (.inr ⟨h0, rfl⟩))) (Chain.mem_siteLegs.mpr (.inr (.inr ⟨h0', h⟩)))

theorem neqPR (C : ChainLinks st ts phys lft rgt) {i j : Nat} (hi : i < ts.length) (hj : j + 1 < ts.length) :
    phys.getD i 0 ≠ rgt j := by
  intro h
  by_cases c : i = j
  · subst c
    have := C.nodup hi
    unfold siteLegs at this
    rw [if_pos hj] at this
    simp at this
    exact this.1.1 (by simpa [List.getD_eq_getElem?_getD] using h)
  · exact C.disj i hi j (by omega) c _ (Chain.mem_siteLegs.mpr (.inl rfl)) (Chain.mem_siteLegs.mpr (.inr (.inl ⟨hj, h⟩)))

theorem neqPL (C : ChainLinks st ts phys lft rgt) {i j : Nat} (hi : i < ts.length) (h0 : 0 < j) (hj : j < ts.length) :
    phys.getD i 0 ≠ lft j := by
  intro h
  by_cases c : i = j
  · subst c
    have := C.nodup hi
    unfold siteLegs at this
    rw [if_pos h0, List.nodup_cons] at this
    exact this.1 (List.mem_append_right _ (by rw [h]; exact List.mem_singleton.mpr rfl))
  · exact C.disj i hi j hj c _ (Chain.mem_siteLegs.mpr (.inl rfl)) (Chain.mem_siteLegs.mpr (.inr (.inr ⟨h0, h⟩)))

theorem neqRL (C : ChainLinks st ts phys lft rgt) {i j : Nat} (hi : i + 1 < ts.length) (h0 : 0 < j) (hj : j < ts.length) :
    rgt i ≠ lft j := by
  intro h
  by_cases c : i = j
  · subst c
    have := C.nodup hj
    unfold siteLegs at this
    rw [if_pos h0, if_pos hi, List.nodup_cons] at this
    simp [h] at this
  · exact C.disj i (by omega) j hj c _ (Chain.mem_siteLegs.mpr (.inr (.inl ⟨hi, rfl⟩))) (Chain.mem_siteLegs.mpr (.inr (.inr ⟨h0, h⟩)))

end ChainLinks

namespace Chain
variable [Zero R] {st : Store} {ts : List (Tensor R)} {phys : List LegId} {lft rgt : Nat → LegId}

theorem swapAt_length (i : Nat) : (swapAt phys i).length = phys.length := by simp [swapAt]

theorem swapAt_getD {i : Nat} (h : i + 1 < phys.length) (j : Nat) :
    (swapAt phys i).getD j 0 = if j = i then phys.getD (i + 1) 0 else if j = i + 1 then phys.getD i 0 else phys.getD j 0 := by
  unfold swapAt
  simp only [List.getD_eq_getElem?_getD, List.getElem?_set]
  by_cases c1 : j = i
  · subst c1
    have : ¬ (j + 1 = j) := by omega
    simp [this, Nat.lt_of_succ_lt h]
  · by_cases c2 : j = i + 1
    · subst c2
      simp [h]
    · simp [c1, c2, Ne.symm c1, Ne.symm c2]

/-- A chain with two neighbours replaced by others that carry each other's physical leg is a chain. -/
theorem rebuild (C : Chain st ts phys lft rgt) {i : Nat} (hi : i + 1 < ts.length) {st' : Store} {u v : Tensor R} {x y : LegId}
    (wf : WFStore st') (kept : LegsKept st st') (grow : st.nextLeg ≤ st'.nextLeg)
    (gu : GoodTensor st' u) (gv : GoodTensor st' v) (du : u.diag = false) (dv : v.diag = false)
    (lu : u.legs.Perm (phys.getD (i + 1) 0 :: x :: (if 0 < i then [lft i] else [])))
    (lv : v.legs.Perm (phys.getD i 0 :: y :: (if i + 1 + 1 < ts.length then [rgt (i + 1)] else [])))
    (nx : st.nextLeg ≤ x ∧ x < st'.nextLeg) (ny : st.nextLeg ≤ y ∧ y < st'.nextLeg) (ne : x ≠ y)
    (joined : st'.partner x = some y) (nmx : st'.name x = "r") (nmy : st'.name y = "l")
    (names : ∀ l < st.nextLeg, l ≠ rgt i → l ≠ lft (i + 1) → st'.name l = st.name l) :
    Chain st' ((ts.set i u).set (i + 1) v) (swapAt phys i) (fun j => if j = i + 1 then y else lft j)
      (fun j => if j = i then x else rgt j) := by
  have hn : ((ts.set i u).set (i + 1) v).length = ts.length := by simp
  have hi' : i + 1 < phys.length := by rw [C.len]; exact hi
  have hP := swapAt_getD hi'
  generalize hlft : (fun j => if j = i + 1 then y else lft j) = lft'
  generalize hrgt : (fun j => if j = i then x else rgt j) = rgt'
  have eL : ∀ j, lft' j = if j = i + 1 then y else lft j := fun j => by rw [← hlft]
  have eR : ∀ j, rgt' j = if j = i then x else rgt j := fun j => by rw [← hrgt]
  have newx : ∀ l < st.nextLeg, l ≠ x := fun l h e => absurd h (Nat.not_lt.mpr (e ▸ nx.1))
  have newy : ∀ l < st.nextLeg, l ≠ y := fun l h e => absurd h (Nat.not_lt.mpr (e ▸ ny.1))
  have pj : ∀ j < ts.length, ∃ k < ts.length, (swapAt phys i).getD j 0 = phys.getD k 0 ∧
      k = if j = i then i + 1 else if j = i + 1 then i else j := by
    intro j hj
    rw [hP]
    by_cases c1 : j = i
    · exact ⟨i + 1, hi, by simp [c1], by simp [c1]⟩
    · by_cases c2 : j = i + 1
      · exact ⟨i, by omega, by simp [c2], by simp [c2]⟩
      · exact ⟨j, hj, by simp [c1, c2], by simp [c1, c2]⟩
  have iP : ∀ j < ts.length, ∀ k < ts.length, (swapAt phys i).getD j 0 = (swapAt phys i).getD k 0 → j = k := by
    intro j hj k hk h
    obtain ⟨j', hj', e1, f1⟩ := pj j hj
    obtain ⟨k', hk', e2, f2⟩ := pj k hk
    rw [e1, e2] at h
    have := C.injP hj' hk' h
    split at f1 <;> split at f2 <;> (try split at f1) <;> (try split at f2) <;> omega
  have nPR : ∀ j < ts.length, ∀ k, k + 1 < ts.length → (swapAt phys i).getD j 0 ≠ rgt' k := by
    intro j hj k hk
    obtain ⟨j', hj', e1, _⟩ := pj j hj
    rw [e1, eR]
    split
    · exact newx _ (C.oldP hj')
    · exact C.neqPR hj' hk
  have nPL : ∀ j < ts.length, ∀ k, 0 < k → k < ts.length → (swapAt phys i).getD j 0 ≠ lft' k := by
    intro j hj k h0 hk
    obtain ⟨j', hj', e1, _⟩ := pj j hj
    rw [e1, eL]
    split
    · exact newy _ (C.oldP hj')
    · exact C.neqPL hj' h0 hk
  have nRL : ∀ j, j + 1 < ts.length → ∀ k, 0 < k → k < ts.length → rgt' j ≠ lft' k := by
    intro j hj k h0 hk
    rw [eR, eL]
    split
    · split
      · exact ne
      · exact (newx _ (C.oldL h0 hk)).symm
    · split
      · exact newy _ (C.oldR hj)
      · exact C.neqRL hj h0 hk
  have iR : ∀ j, j + 1 < ts.length → ∀ k, k + 1 < ts.length → rgt' j = rgt' k → j = k := by
    intro j hj k hk h
    rw [eR, eR] at h
    split at h <;> split at h
    · omega
    · exact absurd h.symm (newx _ (C.oldR hk))
    · exact absurd h (newx _ (C.oldR hj))
    · exact C.injR hj hk h
  have iL : ∀ j, 0 < j → j < ts.length → ∀ k, 0 < k → k < ts.length → lft' j = lft' k → j = k := by
    intro j h0 hj k h0' hk h
    rw [eL, eL] at h
    split at h <;> split at h
    · omega
    · exact absurd h.symm (newy _ (C.oldL h0' hk))
    · exact absurd h (newy _ (C.oldL h0 hj))
    · exact C.injL h0 h0' hj hk h
  have physOld : ∀ p ∈ swapAt phys i, ∃ k < ts.length, p = phys.getD k 0 := by
    intro p hp
    obtain ⟨j, hj, rfl⟩ := (mem_phys (n := ts.length) (by rw [swapAt_length, C.len])).mp hp
    obtain ⟨k, hk, e, _⟩ := pj j hj
    exact ⟨k, hk, e⟩
  have inPhys : ∀ k < ts.length, phys.getD k 0 ∈ phys := fun k hk => (mem_phys C.len).mpr ⟨k, hk, rfl⟩
  refine ⟨⟨wf, by rw [swapAt_length, C.len, hn], ?_, ?_, ?_, ?_, ?_, ?_⟩, ?_, ?_, ?_⟩
  · intro t ht
    rcases List.mem_or_eq_of_mem_set ht with ht | rfl
    · rcases List.mem_or_eq_of_mem_set ht with ht | rfl
      · obtain ⟨g, d⟩ := C.good t ht
        exact ⟨g.congr_dim (fun l hl => (kept l (C.old t ht l hl)).1), d⟩
      · exact ⟨gu, du⟩
    · exact ⟨gv, dv⟩
  · intro j t ht
    rw [hn]
    rw [List.getElem?_set, List.getElem?_set, List.length_set] at ht
    unfold siteLegs
    rw [hP, eL, eR]
    by_cases c2 : i + 1 = j
    · rw [if_pos c2, if_pos hi] at ht
      have := Option.some.inj ht
      subst this
      subst c2
      have c : ¬ (i + 1 = i) := by omega
      rw [if_neg c, if_pos rfl, if_pos rfl, if_neg c, if_pos (Nat.succ_pos i)]
      refine lv.trans (List.Perm.cons _ ?_)
      exact List.perm_append_comm (l₁ := [y])
    · rw [if_neg c2] at ht
      by_cases c1 : i = j
      · rw [if_pos c1, if_pos (by omega)] at ht
        have := Option.some.inj ht
        subst this
        subst c1
        rw [if_pos rfl, if_pos rfl, if_pos hi, if_neg (show ¬ i = i + 1 by omega)]
        exact lu
      · rw [if_neg c1] at ht
        rw [if_neg (Ne.symm c1), if_neg (Ne.symm c2), if_neg (Ne.symm c1), if_neg (Ne.symm c2)]
        exact C.legs j t ht
  · intro t ht l hl
    rcases List.mem_or_eq_of_mem_set ht with ht | rfl
    · rcases List.mem_or_eq_of_mem_set ht with ht | rfl
      · exact Nat.lt_of_lt_of_le (C.old t ht l hl) grow
      · rcases List.mem_cons.mp (lu.mem_iff.mp hl) with e | hl
        · rw [e]; exact Nat.lt_of_lt_of_le (C.oldP hi) grow
        · rcases List.mem_cons.mp hl with e | hl
          · rw [e]; exact nx.2
          · split at hl
            · rename_i c
              rw [List.mem_singleton.mp hl]
              exact Nat.lt_of_lt_of_le (C.oldL c (by omega)) grow
            · cases hl
    · rcases List.mem_cons.mp (lv.mem_iff.mp hl) with e | hl
      · rw [e]; exact Nat.lt_of_lt_of_le (C.oldP (by omega)) grow
      · rcases List.mem_cons.mp hl with e | hl
        · rw [e]; exact ny.2
        · split at hl
          · rename_i c
            rw [List.mem_singleton.mp hl]
            exact Nat.lt_of_lt_of_le (C.oldR c) grow
          · cases hl
  · rw [hn]
    intro j hj k hk hne z hz hz'
    rw [mem_siteLegs] at hz hz'
    rcases hz with e | ⟨c, e⟩ | ⟨c, e⟩ <;> rcases hz' with e' | ⟨c', e'⟩ | ⟨c', e'⟩ <;> rw [e] at e'
    · exact hne (iP j hj k hk e')
    · exact nPR j hj k c' e'
    · exact nPL j hj k c' hk e'
    · exact nPR k hk j c e'.symm
    · exact hne (iR j c k c' e')
    · exact nRL j c k c' hk e'
    · exact nPL k hk j c hj e'.symm
    · exact nRL k c' j c hj e'.symm
    · exact hne (iL j c hj k c' hk e')
  · rw [hn]
    intro j hj
    rw [eR, eL]
    by_cases c : j = i
    · rw [if_pos c, if_pos (by omega)]; exact joined
    · rw [if_neg c, if_neg (by omega), (kept _ (C.oldR hj)).2.2]
      exact C.joined j hj
  · intro p hp q hq
    obtain ⟨k, hk, rfl⟩ := physOld p hp
    obtain ⟨k', hk', rfl⟩ := physOld q hq
    rw [(kept _ (C.oldP hk)).2.2]
    exact C.apart _ (inPhys k hk) _ (inPhys k' hk')
  · intro p hp
    obtain ⟨k, hk, rfl⟩ := physOld p hp
    rw [names _ (C.oldP hk) (C.neqPR hk hi) (C.neqPL hk (Nat.succ_pos _) hi)]
    exact C.nameP _ (inPhys k hk)
  · rw [hn]
    intro j hj
    rw [eR]
    by_cases c : j = i
    · rw [if_pos c]; exact nmx
    · rw [if_neg c, names _ (C.oldR hj) (fun e => c (C.injR hj hi e)) (C.neqRL hj (Nat.succ_pos _) hi)]
      exact C.nameR j hj
  · rw [hn]
    intro j hj
    rw [eL]
    by_cases c : j = i
    · rw [if_pos (by omega)]; exact nmy
    · rw [if_neg (by omega), names _ (C.oldL (Nat.succ_pos _) hj) (fun e => C.neqRL hi (Nat.succ_pos _) hj e.symm)
        (fun e => c (by have := C.injL (Nat.succ_pos _) (Nat.succ_pos _) hj hi e; omega))]
      exact C.nameL j hj

end Chain

namespace Chain

/-- Two neighbours of a chain. -/
theorem pair [Zero R] {st : Store} {ts : List (Tensor R)} {phys : List LegId} {lft rgt : Nat → LegId}
    (C : Chain st ts phys lft rgt) {i : Nat} (hi : i + 1 < ts.length) {ta tb : Tensor R} (ha : ts[i]? = some ta)
    (hb : ts[i + 1]? = some tb) :
    Pair st ta tb (phys.getD i 0) (phys.getD (i + 1) 0) (rgt i) (lft (i + 1)) (if 0 < i then [lft i] else [])
      (if i + 1 + 1 < ts.length then [rgt (i + 1)] else []) := by
  have hi0 : i < ts.length := by omega
  have ma : ta ∈ ts := List.mem_of_getElem? ha
  have mb : tb ∈ ts := List.mem_of_getElem? hb
  have pA := C.legs i ta ha
  have pB := C.legs (i + 1) tb hb
  have lA : ta.legs.Perm (phys.getD i 0 :: rgt i :: (if 0 < i then [lft i] else [])) := by
    refine pA.trans ?_
    unfold siteLegs
    rw [if_pos hi]
    rfl
  have lB : tb.legs.Perm (phys.getD (i + 1) 0 :: lft (i + 1) :: (if i + 1 + 1 < ts.length then [rgt (i + 1)] else [])) := by
    refine pB.trans ?_
    unfold siteLegs
    rw [if_pos (Nat.succ_pos i)]
    refine List.Perm.cons _ ?_
    exact List.perm_append_comm (l₂ := [lft (i + 1)])
  have inP : ∀ k < ts.length, phys.getD k 0 ∈ phys := fun k hk => (mem_phys C.len).mpr ⟨k, hk, rfl⟩
  have nL : ∀ k, 0 < k → k < ts.length → st.name (lft k) = "l" := by
    intro k h0 hk
    obtain ⟨k, rfl⟩ : ∃ m, k = m + 1 := ⟨k - 1, by omega⟩
    exact C.nameL k hk
  have pl : ∀ k, 0 < k → k < ts.length → st.partner (lft k) = some (rgt (k - 1)) := by
    intro k h0 hk
    obtain ⟨k, rfl⟩ : ∃ m, k = m + 1 := ⟨k - 1, by omega⟩
    exact partner_symm C.wf.inv (C.joined k hk)
  refine ⟨C.wf, (C.good ta ma).1, (C.good tb mb).1, (C.good ta ma).2, (C.good tb mb).2, ?_, C.old ta ma, C.old tb mb, lA, lB,
    C.joined i hi, ?_, C.nameP _ (inP i hi0), C.nameP _ (inP _ hi), ?_, ?_, ?_, ?_⟩
  · intro x hx hx'
    exact C.disj i hi0 (i + 1) hi (by omega) x (pA.mem_iff.mp hx) (pB.mem_iff.mp hx')
  · intro l hl m hm he
    have hm' := mem_siteLegs.mp (pB.mem_iff.mp hm)
    rcases List.mem_cons.mp hl with e | hl
    · rw [e] at he
      rcases hm' with e' | ⟨c, e'⟩ | ⟨c, e'⟩
      · exact C.apart _ (inP i hi0) _ (inP _ hi) (by rw [he, e'])
      · rw [e'] at he
        have := partner_symm C.wf.inv he
        rw [C.joined _ c] at this
        exact C.neqPL hi0 (Nat.succ_pos _) c (Option.some.inj this).symm
      · rw [e'] at he
        have := partner_symm C.wf.inv he
        rw [pl _ c hi] at this
        exact C.neqPR hi0 hi (Option.some.inj this).symm
    · split at hl
      · rename_i c0
        rw [List.mem_singleton.mp hl, pl i c0 hi0] at he
        have he := Option.some.inj he
        rcases hm' with e' | ⟨c, e'⟩ | ⟨c, e'⟩
        · exact C.neqPR hi (by omega) (e'.symm.trans he.symm)
        · have := C.injR (by omega) c (he.trans e')
          omega
        · exact C.neqRL (by omega) c hi (he.trans e')
      · cases hl
  · rw [C.nameR i hi]
    split
    · rename_i c
      rw [List.map_singleton, nL i c hi0]; decide
    · rw [List.map_nil]; decide
  · rw [C.nameL i hi]
    split
    · rename_i c
      rw [List.map_singleton, C.nameR _ c]; decide
    · rw [List.map_nil]; decide
  · intro l hl
    rcases List.mem_cons.mp hl with e | hl
    · rw [e, C.nameR i hi]; decide
    · split at hl
      · rename_i c
        rw [List.mem_singleton.mp hl, nL i c hi0]; decide
      · cases hl
  · intro l hl
    rcases List.mem_cons.mp hl with e | hl
    · rw [e, C.nameL i hi]; decide
    · split at hl
      · rename_i c
        rw [List.mem_singleton.mp hl, C.nameR _ c]; decide
      · cases hl

end Chain

theorem Split.kept {st st' : Store} {gone LA LB : List LegId} {k : Nat} {na nb : String} {u v : Tensor R} {x y : LegId}
    (s : Split st st' gone LA LB k na nb u v x y) : LegsKept st st' :=
  fun l hl => ⟨s.oldDim l hl, s.oldBond l hl, s.oldPartner l hl⟩

theorem set_others {ts : List (Tensor R)} {a b : Nat} {u v : Tensor R} {j : Nat} (h1 : j ≠ a) (h2 : j ≠ b) :
    ((ts.set a u).set b v)[j]? = ts[j]? := by
  rw [List.getElem?_set_ne (Ne.symm h2), List.getElem?_set_ne (Ne.symm h1)]

theorem swapAt_getElem? {l : List LegId} {i : Nat} (h : i + 1 < l.length) (j : Nat) :
    (swapAt l i)[j]? = if j = i then l[i + 1]? else if j = i + 1 then l[i]? else l[j]? := by
  unfold swapAt
  simp only [List.getD_eq_getElem?_getD, List.getElem?_set]
  by_cases c1 : j = i
  · subst c1
    have : ¬ (j + 1 = j) := by omega
    simp [this, h, Nat.lt_of_succ_lt h]
  · by_cases c2 : j = i + 1
    · subst c2
      simp [h, Nat.lt_of_succ_lt h]
    · simp [c1, c2, Ne.symm c1, Ne.symm c2]

theorem moveTo_getElem? {l : List LegId} {b e : Nat} (hb : b < l.length) (he : e < l.length) (j : Nat) :
    (moveTo l b e)[j]? = if j = e then l[b]? else if b ≤ j ∧ j < e then l[j + 1]?
      else if e < j ∧ j ≤ b then l[j - 1]? else l[j]? := by
  unfold moveTo
  have hl : (l.eraseIdx b).length = l.length - 1 := List.length_eraseIdx_of_lt hb
  rw [List.getElem?_insertIdx, List.getElem?_eraseIdx, List.getElem?_eraseIdx, hl]
  have hd : some (l.getD b 0) = l[b]? := by simp [List.getD_eq_getElem?_getD, hb]
  rw [hd]
  by_cases c0 : j = e
  · subst c0
    simp only [lt_irrefl, if_false, if_true]
    rw [if_pos (by omega)]
  · rw [if_neg c0, if_neg c0]
    by_cases c1 : j < e
    · rw [if_pos c1]
      by_cases c2 : j < b
      · rw [if_pos c2, if_neg (by omega), if_neg (by omega)]
      · rw [if_neg c2, if_pos (by omega)]
    · rw [if_neg c1]
      by_cases c2 : j - 1 < b
      · rw [if_pos c2, if_neg (by omega), if_pos (by omega)]
      · rw [if_neg c2, if_neg (by omega), if_neg (by omega)]
        congr 1
        omega

theorem moveTo_length {l : List LegId} {b e : Nat} (hb : b < l.length) (he : e < l.length) :
    (moveTo l b e).length = l.length := by
  unfold moveTo
  rw [List.length_insertIdx_of_le_length, List.length_eraseIdx_of_lt hb]
  · omega
  · rw [List.length_eraseIdx_of_lt hb]; omega

theorem moveTo_self {l : List LegId} {b : Nat} (hb : b < l.length) : moveTo l b b = l := by
  apply List.ext_getElem?
  intro j
  rw [moveTo_getElem? hb hb]
  split
  · rename_i h; rw [h]
  · rw [if_neg (by omega), if_neg (by omega)]

theorem moveTo_right {l : List LegId} {b k : Nat} (h : b + (k + 1) < l.length) :
    moveTo (swapAt l b) (b + 1) (b + 1 + k) = moveTo l b (b + (k + 1)) := by
  have hs : (swapAt l b).length = l.length := Chain.swapAt_length b
  apply List.ext_getElem?
  intro j
  rw [moveTo_getElem? (by omega) (by omega), moveTo_getElem? (by omega) (by omega)]
  have key := swapAt_getElem? (l := l) (i := b) (by omega)
  rw [key, key, key, key, show b + 1 + k = b + (k + 1) by omega]
  split
  · rw [if_neg (by omega), if_pos rfl]
  · by_cases c : b ≤ j ∧ j < b + (k + 1)
    · rw [if_pos c]
      by_cases c' : b + 1 ≤ j ∧ j < b + (k + 1)
      · rw [if_pos c', if_neg (by omega), if_neg (by omega)]
      · have : j = b := by omega
        subst this
        rw [if_neg c', if_neg (by omega), if_pos rfl]
    · rw [if_neg c, if_neg (by omega), if_neg (by omega), if_neg (by omega), if_neg (by omega), if_neg (by omega)]

theorem moveTo_left {l : List LegId} {b k : Nat} (h : b + 1 < l.length) (hk : k ≤ b) :
    moveTo (swapAt l b) b (b - k) = moveTo l (b + 1) (b - k) := by
  have hs : (swapAt l b).length = l.length := Chain.swapAt_length b
  apply List.ext_getElem?
  intro j
  rw [moveTo_getElem? (by omega) (by omega), moveTo_getElem? (by omega) (by omega)]
  have key := swapAt_getElem? (l := l) (i := b) (by omega)
  rw [key, key, key, key]
  split
  · rw [if_pos rfl]
  · rw [if_neg (show ¬ (b ≤ j ∧ j < b - k) by omega), if_neg (show ¬ (b + 1 ≤ j ∧ j < b - k) by omega)]
    by_cases c : b - k < j ∧ j ≤ b
    · rw [if_pos c, if_neg (by omega), if_neg (by omega), if_pos (by omega)]
    · rw [if_neg c]
      by_cases c' : j = b + 1
      · rw [if_neg (by omega), if_pos c', if_pos (by omega), c']
        congr 1
      · by_cases c'' : j = b
        · rw [if_pos c'', if_neg (by omega)]
          omega
        · rw [if_neg c'', if_neg c', if_neg (by omega)]

theorem LegsKept.refl (st : Store) : LegsKept st st := fun _ _ => ⟨rfl, rfl, rfl⟩

theorem LegsKept.trans {a b c : Store} (h : LegsKept a b) (g : a.nextLeg ≤ b.nextLeg) (h' : LegsKept b c) : LegsKept a c :=
  fun l hl => by
    obtain ⟨x1, x2, x3⟩ := h l hl
    obtain ⟨y1, y2, y3⟩ := h' l (Nat.lt_of_lt_of_le hl g)
    exact ⟨y1.trans x1, y2.trans x2, y3.trans x3⟩

end CTL
