import Verif.Lemmas.Step

/-! `merge` as a step; networks whose value is not zero everywhere. -/

namespace CTL
variable {R : Type}

theorem SameValue.live [CommSemiring R] {a b : Store} {L M : List (Tensor R)} (h : SameValue a L b M) (v : Live a L) : Live b M := by
  obtain ⟨ps, σ, h1, h2, h3⟩ := v
  obtain ⟨ps', h4⟩ := exists_bondList h.good'
  refine ⟨ps', σ, h4, fun l hl => ?_, ?_⟩
  · have hl' := (h.free l).mp hl
    rw [h.dims l hl']
    exact h2 l hl'
  · rw [h.value ps ps' h1 h4 σ h2]
    exact h3

theorem sumBonds_point [AddMonoid R] {dim : LegId → Nat} {f : Assign → R} : ∀ {ps : List (LegId × LegId)} {σ : Assign},
    (ps.flatMap fun p => [p.1, p.2]).Nodup → sumBonds dim ps f σ ≠ 0 →
    ∃ τ, f τ ≠ 0 ∧ (∀ l, l ∉ ps.flatMap (fun p => [p.1, p.2]) → τ l = σ l) ∧ ∀ p ∈ ps, τ p.1 < dim p.1 ∧ τ p.2 < dim p.1
  | [], σ, _, h => ⟨σ, h, fun _ _ => rfl, by simp⟩
  | (l, m) :: ps, σ, nd, h => by
    simp only [sumBonds] at h
    have : ∃ k < dim l, sumBonds dim ps f ((Assign.set σ l k).set m k) ≠ 0 := by
      by_contra c
      push_neg at c
      apply h
      apply List.sum_eq_zero
      intro x hx
      obtain ⟨k, hk, rfl⟩ := List.mem_map.mp hx
      exact c k (List.mem_range.mp hk)
    obtain ⟨k, hk, h⟩ := this
    rw [List.flatMap_cons, List.nodup_append] at nd
    obtain ⟨τ, h1, h2, h3⟩ := sumBonds_point nd.2.1 h
    have nl : l ∉ ps.flatMap fun p => [p.1, p.2] := fun c => nd.2.2 l (by simp) l c rfl
    have nm : m ∉ ps.flatMap fun p => [p.1, p.2] := fun c => nd.2.2 m (by simp) m c rfl
    refine ⟨τ, h1, ?_, ?_⟩
    · intro x hx
      rw [List.flatMap_cons, List.mem_append, not_or] at hx
      rw [h2 x hx.2]
      have n1 : x ≠ l := fun e => hx.1 (by simp [e])
      have n2 : x ≠ m := fun e => hx.1 (by simp [e])
      simp [Assign.set, n1, n2]
    · intro p hp
      rcases List.mem_cons.mp hp with rfl | hp
      · refine ⟨?_, ?_⟩
        · rw [h2 _ nl]
          by_cases c : l = m
          · simp only [Assign.set, c, if_true]
            rw [← c]; exact hk
          · simp only [Assign.set, c, if_false, if_true]; exact hk
        · rw [h2 _ nm]
          simp only [Assign.set, if_true]
          exact hk
      · exact h3 p hp

/-- Somewhere all entries of a network with a non-zero value are not zero. -/
theorem Live.point [CommSemiring R] {st : Store} {L : List (Tensor R)} (g : GoodNet st L) (v : Live st L) :
    ∃ τ, (∀ t ∈ L, InRange st.dim t.legs τ) ∧ ∀ t ∈ L, entry t τ ≠ 0 := by
  obtain ⟨ps, σ, h1, h2, h3⟩ := v
  obtain ⟨τ, e1, e2, e3⟩ := sumBonds_point h1.once h3
  refine ⟨τ, ?_, ?_⟩
  · intro t ht l hl
    by_cases f : FreeLeg st L l
    · rw [e2]
      · exact h2 l f
      · intro c
        obtain ⟨p, hp, hpl⟩ := List.mem_flatMap.mp c
        have : ∃ m, (l, m) ∈ ps ∨ (m, l) ∈ ps := by
          simp only [List.mem_cons, List.not_mem_nil, or_false] at hpl
          rcases hpl with rfl | rfl
          · exact ⟨p.2, .inl hp⟩
          · exact ⟨p.1, .inr hp⟩
        obtain ⟨m, hm⟩ := this
        obtain ⟨a1, a2⟩ := (h1.exact l m).mp hm
        exact f.2 m a1 a2
    · have : ∃ m, st.partner l = some m ∧ Cross L l m := by
        by_contra c
        push_neg at c
        exact f ⟨⟨t, ht, hl⟩, fun m hm => c m hm⟩
      obtain ⟨m, a1, a2⟩ := this
      rcases (h1.exact l m).mpr ⟨a1, a2⟩ with hp | hp
      · exact (e3 _ hp).1
      · have := (e3 _ hp).2
        simp only at this
        rwa [← partner_dim g.inv a1]
  · intro t ht h0
    apply e1
    apply List.prod_eq_zero
    rw [← h0]
    exact List.mem_map_of_mem ht

theorem Live.pos [CommSemiring R] {st : Store} {L : List (Tensor R)} (g : GoodNet st L) (v : Live st L) :
    ∀ t ∈ L, ∀ l ∈ t.legs, 0 < st.dim l := by
  obtain ⟨τ, h, -⟩ := v.point g
  exact fun t ht l hl => Nat.lt_of_le_of_lt (Nat.zero_le _) (h t ht l hl)

/-- In a network of tensors that own their legs the owner of the other end of a bond tells where it leads. -/
theorem Sound.own {st : Store} {L : List (Tensor R)} (s : Sound st L) {ta tb : Tensor R} (ha : ta ∈ L) (hb : tb ∈ L) :
    ∀ l ∈ ta.legs, ∀ m, st.partner l = some m → ((st.leg m).tensor = some tb.id ↔ m ∈ tb.legs) := by
  intro l hl m hm
  constructor
  · intro e
    obtain ⟨-, u, hu, hmu⟩ := s.inside ta ha l hl m hm
    have := (s.owned.legs u hu m hmu).2.symm.trans e
    have := List.inj_on_of_nodup_map s.owned.ids hu hb (Option.some.inj this)
    rwa [← this]
  · intro h
    exact (s.owned.legs tb hb m h).2

/-- The two tensors of a sound network that are worked on. -/
structure Two (st : Store) (L N : List (Tensor R)) (ta tb : Tensor R) : Prop where
  sound : Sound st L
  perm : L.Perm (N ++ [ta, tb])

namespace Two
variable {st : Store} {L N : List (Tensor R)} {ta tb : Tensor R}

theorem memA (h : Two st L N ta tb) : ta ∈ L := h.perm.mem_iff.mpr (by simp)
theorem memB (h : Two st L N ta tb) : tb ∈ L := h.perm.mem_iff.mpr (by simp)
theorem own (h : Two st L N ta tb) : ∀ l ∈ ta.legs, ∀ m, st.partner l = some m →
    ((st.leg m).tensor = some tb.id ↔ m ∈ tb.legs) := h.sound.own h.memA h.memB
theorem owned (h : Two st L N ta tb) : Owned st [ta, tb] := (h.sound.owned.perm h.perm).right
theorem disj (h : Two st L N ta tb) : ∀ x ∈ ta.legs, x ∉ tb.legs :=
  fun _ hx => Owned.disj (N := [ta]) (L := [tb]) h.owned (by simp) (by simp) hx
theorem oldA (h : Two st L N ta tb) : ∀ l ∈ ta.legs, l < st.nextLeg := fun l hl => (h.owned.legs ta (by simp) l hl).1
theorem oldB (h : Two st L N ta tb) : ∀ l ∈ tb.legs, l < st.nextLeg := fun l hl => (h.owned.legs tb (by simp) l hl).1
theorem goodNet (h : Two st L N ta tb) : GoodNet st [ta, tb] := (h.sound.goodNet.perm h.perm).part.1

theorem contract [CommSemiring R] (cast : R → R) (h : Two st L N ta tb) :
    ∃ o, contractTwoTensors cast st ta tb none = .ok o ∧ Step st [ta, tb] o.store [o.result] ∧ SameNet st o.store ∧
      o.result.legs = restA ta.legs (sharedPairs st ta.legs tb.legs) ++ restB tb.legs (sharedPairs st ta.legs tb.legs) :=
  contract_step cast h.sound.wf (h.sound.good _ h.memA) (h.sound.good _ h.memB) (h.sound.dense _ h.memA)
    (h.sound.dense _ h.memB) h.disj

/-- `merge` of two or more bonds without a cut. -/
theorem fuse [CommSemiring R] (la : LinAlg R) (castF : R → R) (h : Two st L N ta tb)
    (pos : ∀ t ∈ L, ∀ l ∈ t.legs, 0 < st.dim l) (many : 2 ≤ (sharedPairs st ta.legs tb.legs).length) :
    ∃ st' ta' tb' x y, merge la castF st ta tb none (.one "o") = .ok (st', ta', tb') ∧ Step st [ta, tb] st' [ta', tb'] ∧
      ta'.legs.Perm (x :: restA ta.legs (sharedPairs st ta.legs tb.legs)) ∧
      tb'.legs.Perm (y :: restB tb.legs (sharedPairs st ta.legs tb.legs)) ∧
      st'.partner x = some y ∧ st.nextLeg ≤ x ∧ st.nextLeg ≤ y ∧ st'.name x = "o" ∧ st'.name y = "o" ∧
      st'.dim x = ((sharedPairs st ta.legs tb.legs).map fun p => st.dim p.1).prod ∧
      (∀ l < st.nextLeg, st'.leg l = st.leg l) := by
  have ga := h.sound.good _ h.memA
  have gb := h.sound.good _ h.memB
  have da := h.sound.dense _ h.memA
  have db := h.sound.dense _ h.memB
  have wf := h.sound.wf
  obtain ⟨st', ta', tb', na, nb, e1, wf', ga', gb', sh, dna, nm, rec, ⟨la', lb', da', db', xna, xnb, nl, part⟩, o, o', eo, eo', lo, ent⟩ :=
    C18_mergeLink id wf ga gb da db h.disj h.oldA h.oldB h.own many
      (fun l hl _ => (pos ta h.memA l hl).ne') (fun l hl _ => (pos tb h.memB l hl).ne') (.one "o")
  have em : merge la castF st ta tb none (.one "o") = .ok (st', ta', tb') := by
    unfold merge
    have : ¬ (ta.like ≠ tb.like) := by rw [ga.notLike, gb.notLike]; simp
    simp only [this, if_false, e1, bind, Except.bind, pure, Except.pure]
  have tr : Trail st [ta, tb] st' [ta', tb'] := merge_trail wf.inv h.own em
  have own' := tr.own h.owned
  have disj' : ∀ x ∈ ta'.legs, x ∉ tb'.legs :=
    fun _ hx => Owned.disj (N := [ta']) (L := [tb']) own' (by simp) (by simp) hx
  have ex : st'.partner na = some nb := by
    have : (na, nb) ∈ sharedPairs st' ta'.legs tb'.legs := by rw [sh]; simp
    exact (mem_sharedPairs.mp this).2.1
  have kept : LegsKept st st' := fun l hl => ⟨by unfold Store.dim; rw [rec l hl], by rw [rec l hl], part l hl⟩
  refine ⟨st', ta', tb', na, nb, em, ⟨wf', by simp [da', db'], tr, ?_, kept⟩, ?_, ?_, ex, xna.ge, ?_, ?_, ?_, dna, rec⟩
  · obtain ⟨o1, f1, l1, d1, c1⟩ := contract_dense id wf.inv ga gb da db h.disj
    obtain ⟨o2, f2, l2, d2, c2⟩ := contract_dense id wf'.inv ga' gb' da' db' disj'
    obtain rfl := Except.ok.inj (eo.symm.trans f1)
    obtain rfl := Except.ok.inj (eo'.symm.trans f2)
    have g' : GoodNet st' [ta', tb'] := by
      refine ⟨wf'.inv, by simp [ga', gb'], ?_⟩
      simp only [List.flatMap_cons, List.flatMap_nil, List.append_nil]
      exact List.nodup_append.mpr ⟨ga'.nodup, gb'.nodup, fun x hx y hy e => disj' x hx (e ▸ hy)⟩
    have s1 := SameValue.step (L := []) h.goodNet c1
    have s2 := SameValue.step (L := []) g' c2
    refine s1.trans (SameValue.trans ?_ s2.symm)
    have old : ∀ l ∈ o.result.legs, l < st.nextLeg := by
      intro l hl
      rw [l1, List.mem_append] at hl
      rcases hl with hl | hl
      · exact h.oldA l (List.mem_filter.mp hl).1
      · exact h.oldB l (List.mem_filter.mp hl).1
    refine SameValue.congr s1.good' s2.good'.inv (s2.good'.good _ (by simp)) (by rw [lo]) ?_ ?_ ?_
    · simp only [List.mem_singleton]
      rintro t rfl l hl
      rw [c1.same.dim, c2.same.dim]
      exact (kept l (old l hl)).1
    · simp only [List.mem_singleton]
      rintro t rfl l hl
      rw [c1.same.partner wf.inv, c2.same.partner wf'.inv]
      exact (kept l (old l hl)).2.2
    · intro σ hσ
      rw [c1.same.dim] at hσ
      exact ent σ hσ
  · rw [la']; rfl
  · rw [lb']; rfl
  · rw [xnb]; exact Nat.le_succ _
  · exact (Prod.mk.inj nm).1
  · exact (Prod.mk.inj nm).2

/-- `merge` of a single bond with a cut that loses nothing. -/
theorem trim [CommSemiring R] {la : LinAlg R} (hla : ExactLinAlg la) (hr : RankRevealing la) (hb : RankBounded la) (castF : R → R)
    (h : Two st L N ta tb) (pos : ∀ t ∈ L, ∀ l ∈ t.legs, 0 < st.dim l) {p q : LegId}
    (one : sharedPairs st ta.legs tb.legs = [(p, q)]) {chi : Nat} (big : st.dim p ≤ chi) :
    ∃ st' ta' tb' x y, merge la castF st ta tb (some (chi : Int)) (.one "o") = .ok (st', ta', tb') ∧
      Step st [ta, tb] st' [ta', tb'] ∧
      ta'.legs.Perm (x :: restA ta.legs [(p, q)]) ∧ tb'.legs.Perm (y :: restB tb.legs [(p, q)]) ∧
      st'.partner x = some y ∧ st.nextLeg ≤ x ∧ st.nextLeg ≤ y ∧ st'.name x = "o" ∧ st'.name y = "o" ∧
      st'.dim x ≤ st.dim p ∧ (∀ l < st.nextLeg, l ≠ p → l ≠ q → st'.name l = st.name l) := by
  have ga := h.sound.good _ h.memA
  have gb := h.sound.good _ h.memB
  have da := h.sound.dense _ h.memA
  have db := h.sound.dense _ h.memB
  have wf := h.sound.wf
  obtain ⟨st1, ta1, tb1, l, m, mat, st', u, v, x, y, e1, sh, e3, cut⟩ :=
    merge_ok hla castF wf ga gb da db h.disj h.oldA h.oldB h.own (by rw [one]; simp)
      (fun l hl _ => (pos ta h.memA l hl).ne') (fun l hl _ => (pos tb h.memB l hl).ne') (.one "o") chi
  obtain ⟨st2, e2, -, eb, er, en, -⟩ := (C18_mergeLink_few wf.inv h.own (.one "o")).2 p q one
  rw [e2] at e1
  simp only [Prod.mk.injEq, and_true] at e1
  obtain ⟨rfl, rfl, rfl⟩ := e1
  have pq : (p, q) ∈ sharedPairs st ta.legs tb.legs := by rw [one]; simp
  obtain ⟨hp, hpq, hq⟩ := mem_sharedPairs.mp pq
  have elm : l = p ∧ m = q := by
    have : (l, m) ∈ sharedPairs st2 ta.legs tb.legs := by rw [sh]; simp
    obtain ⟨a1, a2, a3⟩ := mem_sharedPairs.mp this
    have a2' : st.partner l = some m := by
      rw [← a2]
      unfold Store.partner
      rw [(er l).2.1, eb]
    have : (l, m) ∈ sharedPairs st ta.legs tb.legs := mem_sharedPairs.mpr ⟨a1, a2', a3⟩
    rw [one, List.mem_singleton, Prod.mk.injEq] at this
    exact this
  obtain ⟨rfl, rfl⟩ := elm
  have tr : Trail st [ta, tb] st' [u, v] := merge_trail wf.inv h.own e3
  rw [one] at cut
  have s := cut.split
  have old : ∀ x ∈ restA ta.legs [(l, m)] ++ restB tb.legs [(l, m)], x < st.nextLeg := by
    intro x hx
    rcases List.mem_append.mp hx with hx | hx
    · exact h.oldA x (List.mem_filter.mp hx).1
    · exact h.oldB x (List.mem_filter.mp hx).1
  have rk := rank_of_bond hb ga.nodup gb.nodup h.disj hp hq cut.isMat
  have shared : sharedPairs st' u.legs v.legs = [(x, y)] := by
    have ndu := s.goodU.nodup
    have nd : (sharedPairs st' u.legs v.legs).Nodup := by
      apply List.Nodup.of_map Prod.fst
      rw [sharedPairs_fst]; exact ndu.filter _
    rw [← List.perm_singleton, List.perm_ext_iff_of_nodup nd (List.nodup_singleton _)]
    rintro ⟨a, b⟩
    rw [mem_sharedPairs, List.mem_singleton]
    constructor
    · rintro ⟨a1, a2, a3⟩
      simp only at a1 a2 a3
      rw [s.legsU, List.mem_append, List.mem_singleton] at a1
      rcases a1 with a1 | rfl
      · exfalso
        have ha : a < st.nextLeg := old a (List.mem_append_left _ a1)
        rw [s.oldPartner a ha] at a2
        rw [s.legsV, List.mem_cons] at a3
        obtain ⟨a1, a4⟩ := List.mem_filter.mp a1
        rcases a3 with rfl | a3
        · have hbb := wf.freshLeg b
          have := partner_symm wf.inv a2
          have hold : b < st.nextLeg := by
            obtain ⟨c, hc⟩ : ∃ c, (st.leg b).bond = some c := by
              unfold Store.partner at this
              split at this
              · cases this
              · rename_i c hc; exact ⟨c, hc⟩
            exact hbb c hc
          exact absurd s.newY.1 (not_le.mpr hold)
        · obtain ⟨a3, a5⟩ := List.mem_filter.mp a3
          have : (a, b) ∈ sharedPairs st ta.legs tb.legs := mem_sharedPairs.mpr ⟨a1, a2, a3⟩
          rw [one, List.mem_singleton, Prod.mk.injEq] at this
          simp [this.1] at a4
      · rw [s.joined.1] at a2
        rw [Option.some.inj a2]
    · intro e
      obtain ⟨rfl, rfl⟩ := Prod.mk.inj e
      exact ⟨by rw [s.legsU]; simp, s.joined.1, by rw [s.legsV]; simp⟩
  have drop := rank_drop (chi := chi) hr cut.isMat.1 cut.isMat.2.1 (rk.trans big)
  have val := cut.exact hla drop
  rw [← one] at val
  have sv := Split.sameValue (L := []) h.goodNet da db s (by rw [one]) shared
    (by intro t ht l hl; exact (h.owned.legs t (by simpa using ht) l hl).1) (by rw [← one] ; exact val)
  refine ⟨st', u, v, x, y, e3, ⟨s.wf, by simp [s.denseU, s.denseV], tr, sv, s.kept⟩, ?_, ?_, s.joined.1, s.newX.1, s.newY.1,
    ?_, ?_, ?_, ?_⟩
  · rw [s.legsU]; exact List.perm_append_singleton _ _
  · rw [s.legsV]
  · rw [s.nameX]; exact (en "o" rfl).1
  · rw [s.nameY]; exact (en "o" rfl).2
  · rw [s.dimX]; exact (min_le_right _ _).trans rk
  · intro z hz n1 n2
    exact s.oldName z hz (by simp [n1, n2])

end Two
end CTL
