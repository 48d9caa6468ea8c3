import Verif.Lemmas.Net
import Verif.Props.Contract

/-! Helper lemmas about the execution of contraction sequences. -/

namespace CTL
variable {R : Type}

theorem shape_good {st : Store} {t : Tensor R} (g : GoodTensor st t) : t.shape st = t.legs.map st.dim := by
  obtain ⟨arr, h1, h2, h3, h4⟩ := g.data
  unfold Tensor.shape
  cases hd : t.diag with
  | false => simp [h1, h3 hd]
  | true =>
    rcases h4 hd with ⟨h5, _⟩ | ⟨_, _, h7⟩
    · simp [h5]
    · simp only [if_true]
      symm
      rw [List.eq_replicate_iff]
      refine ⟨by simp, ?_⟩
      intro b hb
      rw [List.mem_map] at hb
      obtain ⟨l, hl, rfl⟩ := hb
      exact h7 l hl

theorem prod_filter_split (ls : List LegId) (f : LegId → Nat) (p : LegId → Bool) :
    (ls.map f).prod = ((ls.filter p).map f).prod * ((ls.filter fun l => !p l).map f).prod := by
  rw [← List.prod_append, ← List.map_append]
  exact (((List.filter_append_perm p ls).symm).map f).prod_eq

theorem restA_eq (st : Store) (la lb : List LegId) :
    restA la (sharedPairs st la lb) = la.filter fun l => decide (∀ m ∈ lb, st.partner l ≠ some m) := by
  unfold restA
  apply List.filter_congr
  intro l hl
  simp only [decide_eq_decide, List.mem_map, not_exists, not_and]
  constructor
  · intro h m hm hp
    exact h (l, m) ((mem_sharedPairs (p := (l, m))).mpr ⟨hl, hp, hm⟩) rfl
  · rintro h p hp rfl
    rw [mem_sharedPairs] at hp
    exact h _ hp.2.2 hp.2.1

theorem restB_eq {st : Store} (inv : BondInv st) (la lb : List LegId) :
    restB lb (sharedPairs st la lb) = lb.filter fun m => decide (∀ l ∈ la, st.partner m ≠ some l) := by
  unfold restB
  apply List.filter_congr
  intro m hm
  simp only [decide_eq_decide, List.mem_map, not_exists, not_and]
  constructor
  · intro h l hl hp
    exact h (l, m) ((mem_sharedPairs (p := (l, m))).mpr ⟨hl, partner_symm inv hp, hm⟩) rfl
  · rintro h p hp rfl
    rw [mem_sharedPairs] at hp
    exact h _ hp.1 (partner_symm inv hp.2.1)

theorem prod_legs_splitA (st : Store) (la lb : List LegId) :
    (la.map st.dim).prod = ((sharedPairs st la lb).map fun p => st.dim p.1).prod *
      ((restA la (sharedPairs st la lb)).map st.dim).prod := by
  rw [prod_filter_split la st.dim (fun l => decide (∃ m, st.partner l = some m ∧ m ∈ lb)), ← sharedPairs_fst,
    List.map_map]
  congr 3
  unfold restA
  apply List.filter_congr
  intro l hl
  rw [sharedPairs_fst]
  simp only [List.mem_filter, hl, true_and, decide_not, decide_eq_true_eq]

theorem prod_legs_splitB {st : Store} (inv : BondInv st) {la lb : List LegId} (na : la.Nodup) (nb : lb.Nodup) :
    (lb.map st.dim).prod = ((sharedPairs st la lb).map fun p => st.dim p.1).prod *
      ((restB lb (sharedPairs st la lb)).map st.dim).prod := by
  rw [prod_legs_splitA st lb la]
  congr 1
  · rw [((sharedPairs_swap inv na nb).map _).prod_eq, List.map_map]
    congr 1
    apply List.map_congr_left
    intro p hp
    rw [mem_sharedPairs] at hp
    exact partner_dim inv hp.2.1
  · rw [restA_eq, restB_eq inv]

/-- What `contractCost` computes. -/
theorem contractCost_ok {st : Store} (inv : BondInv st) {ta tb : Tensor R} (ga : GoodTensor st ta)
    (gb : GoodTensor st tb) (disj : ∀ x ∈ ta.legs, x ∉ tb.legs)
    (pos : ∀ p ∈ sharedPairs st ta.legs tb.legs, st.dim p.1 ≠ 0) :
    ∃ st1 lvl, contractCost st ta tb = .ok (st1,
      (if ta.diag && tb.diag then ta.length
       else if ta.diag || tb.diag then ((mergeLegLists st ta.legs tb.legs).map st.dim).prod
       else pairCost st ta.legs tb.legs), lvl) ∧ SameUpToOrientation st st1 := by
  unfold contractCost
  by_cases hdd : (ta.diag && tb.diag) = true
  · simp only [hdd, if_true]
    exact ⟨st, 1, rfl, .refl st⟩
  · obtain ⟨st1, bs, hsb, hso, hpairs, _, _⟩ := shareBondsLoop_spec tb.legs ta.legs st inv ga.nodup disj
    have hd := hso.dim
    have hinter : (bs.map fun b => st1.dim (st1.bond b).1)
        = (sharedPairs st ta.legs tb.legs).map fun p => st.dim p.1 := by
      rw [← hpairs, List.map_map, hd]; rfl
    have hne : ((sharedPairs st ta.legs tb.legs).map fun p => st.dim p.1).prod ≠ 0 := by
      rw [ne_eq, List.prod_eq_zero_iff]
      intro h
      rw [List.mem_map] at h
      obtain ⟨p, hp, h0⟩ := h
      exact pos p hp h0
    have sa : ta.shape st1 = ta.legs.map st.dim := by rw [shape_good (ga.congr hso.sameNet), hd]
    have sb : tb.shape st1 = tb.legs.map st.dim := by rw [shape_good (gb.congr hso.sameNet), hd]
    simp only [hdd, if_false, shareBonds, hsb, bind, Except.bind, hinter, tupleProduct_eq, hne, sa, sb,
      pure, Except.pure, Bool.false_eq_true]
    have pa := prod_legs_splitA st ta.legs tb.legs
    have pb := prod_legs_splitB inv ga.nodup gb.nodup
    set s := ((sharedPairs st ta.legs tb.legs).map fun p => st.dim p.1).prod
    by_cases hor : (ta.diag || tb.diag) = true
    · simp only [hor, if_true]
      refine ⟨st1, (ta.legs.map st.dim).length + (tb.legs.map st.dim).length -
            2 * ((sharedPairs st ta.legs tb.legs).map fun p => st.dim p.1).length, ?_, hso⟩
      simp only [Except.ok.injEq, Prod.mk.injEq, true_and, and_true]
      rw [pa, pb]
      unfold mergeLegLists
      rw [← restA_eq, ← restB_eq inv, List.map_append, List.prod_append]
      apply Nat.div_eq_of_eq_mul_right (by positivity)
      ring
    · simp only [hor, if_false, Bool.false_eq_true]
      refine ⟨st1, (ta.legs.map st.dim).length + (tb.legs.map st.dim).length -
            ((sharedPairs st ta.legs tb.legs).map fun p => st.dim p.1).length, ?_, hso⟩
      simp only [Except.ok.injEq, Prod.mk.injEq, true_and, and_true]
      unfold pairCost
      rw [pb, ← restB_eq inv]
      apply Nat.div_eq_of_eq_mul_right (Nat.pos_of_ne_zero hne)
      ring

/-- The operands of a step for which `contractTwoTensors` computes the Einstein sum: two dense tensors, or a
bond between the two, or one of the outer products with a diagonal tensor that the code gets right. -/
def SafeStep [CommSemiring R] (cast : R → R) (st : Store) (ta tb : Tensor R) : Prop :=
  (ta.diag = false ∧ tb.diag = false) ∨ (∃ l ∈ ta.legs, ∃ m ∈ tb.legs, st.partner l = some m) ∨
  (ta.diag = true ∧ tb.diag = true ∧ ((ta.legs = []) ≠ (tb.legs = []))) ∨
  (((ta.diag = true ∧ tb.diag = false ∧ ta.legs ≠ []) ∨ (ta.diag = false ∧ tb.diag = true ∧ tb.legs ≠ [])) ∧
    ∀ σ τ, cast (entry ta σ * entry tb τ) = entry ta σ * entry tb τ)

theorem safe_contract [CommSemiring R] (cast : R → R) {st : Store} (inv : BondInv st) {ta tb : Tensor R}
    (ga : GoodTensor st ta) (gb : GoodTensor st tb) (disj : ∀ x ∈ ta.legs, x ∉ tb.legs)
    (hs : SafeStep cast st ta tb) :
    ∃ o, contractTwoTensors cast st ta tb none = .ok o ∧
      Contracted st ta tb (sharedPairs st ta.legs tb.legs) o := by
  rcases hs with ⟨da, db⟩ | hs | hs
  · obtain ⟨o, h1, _, _, h4⟩ := contract_dense cast inv ga gb da db disj
    exact ⟨o, h1, h4⟩
  · cases da : ta.diag with
    | true => exact C02_contract_diagonal_shared cast inv ga gb (Or.inl da) disj hs
    | false =>
      cases db : tb.diag with
      | true => exact C02_contract_diagonal_shared cast inv ga gb (Or.inr db) disj hs
      | false =>
        obtain ⟨o, h1, _, _, h4⟩ := contract_dense cast inv ga gb da db disj
        exact ⟨o, h1, h4⟩
  · by_cases hsh : ∃ l ∈ ta.legs, ∃ m ∈ tb.legs, st.partner l = some m
    · rcases hs with hs | ⟨hs, _⟩
      · exact C02_contract_diagonal_shared cast inv ga gb (Or.inl hs.1) disj hsh
      · rcases hs with hs | hs
        · exact C02_contract_diagonal_shared cast inv ga gb (Or.inl hs.1) disj hsh
        · exact C02_contract_diagonal_shared cast inv ga gb (Or.inr hs.2.1) disj hsh
    · refine C02_outer_diagonal_partial cast inv ga gb disj ?_ hs
      intro l hl m hm hp
      exact hsh ⟨l, hl, m, hm, hp⟩

theorem SafeStep.congr [CommSemiring R] {cast : R → R} {st st' : Store} {ta tb : Tensor R}
    (hs : SafeStep cast st ta tb) (hp : ∀ l, st'.partner l = st.partner l) : SafeStep cast st' ta tb := by
  unfold SafeStep at hs ⊢
  simp only [hp]
  exact hs

/-- Every step of the sequence is safe when its turn comes. -/
def SafeSeq [CommSemiring R] (cast : R → R) : Store → List (Tensor R) → List (Nat × Nat) → Prop
  | _, _, [] => True
  | st, ts, p :: seq => ∀ ta tb, ts[p.1]? = some ta → ts[p.2]? = some tb →
    SafeStep cast st ta tb ∧ ∀ st' ts' c, seqStep cast st ts p = .ok (st', ts', c) → SafeSeq cast st' ts' seq

/-- The tensors in the live slots. -/
def pick (ts : List (Tensor R)) (live : List Nat) : List (Tensor R) := live.filterMap fun i => ts[i]?

theorem pick_range (ts : List (Tensor R)) : pick ts (List.range ts.length) = ts := by
  unfold pick
  apply List.ext_getElem?
  intro i
  have : ∀ (l : List Nat), (∀ i ∈ l, i < ts.length) →
      (l.filterMap fun i => ts[i]?) = l.attach.map fun x => ts.getD x.1 (ts.getD 0 ⟨0, [], none, false, false, 0⟩) := by
    intro l
    induction l with
    | nil => simp
    | cons x l ih =>
      intro h
      have hx := h x (by simp)
      rw [List.filterMap_cons, List.getElem?_eq_getElem hx]
      simp only [ih (fun i hi => h i (by simp [hi])), List.attach_cons, List.map_cons, List.map_map]
      congr 1
      simp [List.getD_eq_getElem?_getD, List.getElem?_eq_getElem hx]
  rw [this _ (fun i hi => by simpa using hi)]
  rw [List.getElem?_map]
  by_cases hi : i < ts.length
  · rw [List.getElem?_eq_getElem (by simpa using hi), List.getElem?_eq_getElem hi]
    simp [List.getElem?_eq_getElem hi]
  · rw [List.getElem?_eq_none (by simpa using hi), List.getElem?_eq_none (by simpa using hi)]
    rfl

theorem pick_perm (ts : List (Tensor R)) {l l' : List Nat} (h : l.Perm l') : (pick ts l).Perm (pick ts l') :=
  h.filterMap _

theorem pick_congr {ts ts' : List (Tensor R)} {l : List Nat} (h : ∀ i ∈ l, ts'[i]? = ts[i]?) :
    pick ts' l = pick ts l := by
  unfold pick
  apply List.filterMap_congr
  exact h

theorem live_perm {live : List Nat} (nd : live.Nodup) {s t : Nat} (hs : s ∈ live) (ht : t ∈ live) (hne : s ≠ t) :
    live.Perm (s :: t :: (live.erase s).erase t) ∧
      (live.erase (max s t)).Perm (min s t :: (live.erase s).erase t) := by
  have h1 : live.Perm (s :: live.erase s) := List.perm_cons_erase hs
  have ht' : t ∈ live.erase s := (List.mem_erase_of_ne hne.symm).mpr ht
  have h2 : (live.erase s).Perm (t :: (live.erase s).erase t) := List.perm_cons_erase ht'
  refine ⟨h1.trans (h2.cons s), ?_⟩
  rcases Nat.lt_or_gt_of_ne hne with h | h
  · rw [max_eq_right h.le, min_eq_left h.le]
    have hs' : s ∈ live.erase t := (List.mem_erase_of_ne hne).mpr hs
    have := List.perm_cons_erase hs'
    rw [List.erase_comm] at this
    exact this
  · rw [max_eq_left h.le, min_eq_right h.le]
    exact h2


/-- One step of the loop. -/
theorem seqStep_spec [CommSemiring R] (cast : R → R) {st : Store} {ts : List (Tensor R)} {live : List Nat}
    (nd : live.Nodup) (hlt : ∀ i ∈ live, i < ts.length) (g : GoodNet st (pick ts live))
    (hpos : ∀ l m, st.partner l = some m → Cross (pick ts live) l m → st.dim l ≠ 0)
    {s t : Nat} (hs : s ∈ live) (ht : t ∈ live) (hne : s ≠ t)
    (safe : ∀ ta tb, ts[s]? = some ta → ts[t]? = some tb → SafeStep cast st ta tb) :
    ∃ a b o st1, ts[s]? = some a ∧ ts[t]? = some b ∧
      (pick ts live).Perm (a :: b :: pick ts ((live.erase s).erase t)) ∧
      SameUpToOrientation st st1 ∧ contractTwoTensors cast st1 a b none = .ok o ∧
      Contracted st a b (sharedPairs st a.legs b.legs) o ∧
      seqStep cast st ts (s, t) = .ok (o.store, ((ts.set s o.ta).set t o.tb).set (min s t) o.result,
        (if a.diag && b.diag then a.length
         else if a.diag || b.diag then ((mergeLegLists st a.legs b.legs).map st.dim).prod
         else pairCost st a.legs b.legs)) ∧
      (((ts.set s o.ta).set t o.tb).set (min s t) o.result)[min s t]? = some o.result ∧
      (∀ i ∈ (live.erase s).erase t, (((ts.set s o.ta).set t o.tb).set (min s t) o.result)[i]? = ts[i]?) ∧
      (pick (((ts.set s o.ta).set t o.tb).set (min s t) o.result) (live.erase (max s t))).Perm
        (o.result :: pick ts ((live.erase s).erase t)) := by
  obtain ⟨hp1, hp2⟩ := live_perm nd hs ht hne
  have ls := hlt s hs
  have lt := hlt t ht
  obtain ⟨a, ea⟩ : ∃ a, ts[s]? = some a := ⟨_, List.getElem?_eq_getElem ls⟩
  obtain ⟨b, eb⟩ : ∃ b, ts[t]? = some b := ⟨_, List.getElem?_eq_getElem lt⟩
  have hperm : (pick ts live).Perm (a :: b :: pick ts ((live.erase s).erase t)) := by
    have := pick_perm ts hp1
    unfold pick at this ⊢
    rw [List.filterMap_cons, List.filterMap_cons, ea, eb] at this
    exact this
  have g' := g.perm hperm
  have ga := g'.good a (by simp)
  have gb := g'.good b (by simp)
  have dab := g'.split.1
  have ss := safe a b ea eb
  obtain ⟨st1, lvl, hc, hso⟩ := contractCost_ok g.inv ga gb dab (by
    intro p hp
    rw [mem_sharedPairs] at hp
    refine hpos _ _ hp.2.1 ⟨⟨a, hperm.mem_iff.mpr (by simp), hp.1, ?_⟩, b, hperm.mem_iff.mpr (by simp), hp.2.2⟩
    intro h
    exact dab _ h hp.2.2)
  have hn := hso.sameNet
  obtain ⟨o, ho, hcon⟩ := safe_contract cast (hso.inv g.inv) (ga.congr hn) (gb.congr hn) dab
    (ss.congr (hso.partner g.inv))
  have hcon' := hcon.congr hn
  rw [sharedPairs_congr (hso.partner g.inv)] at hcon'
  have hmin : (((ts.set s o.ta).set t o.tb).set (min s t) o.result)[min s t]? = some o.result := by
    rw [List.getElem?_set_self]
    simp only [List.length_set]
    omega
  have hrest : ∀ i ∈ (live.erase s).erase t,
      (((ts.set s o.ta).set t o.tb).set (min s t) o.result)[i]? = ts[i]? := by
    intro i hi
    have h1 := (nd.erase s).mem_erase_iff.mp hi
    have h2 := nd.mem_erase_iff.mp h1.2
    have h3 : min s t ≠ i := by
      rcases Nat.le_total s t with h | h
      · rw [min_eq_left h]; exact h2.1.symm
      · rw [min_eq_right h]; exact h1.1.symm
    rw [List.getElem?_set_ne h3, List.getElem?_set_ne h1.1.symm, List.getElem?_set_ne h2.1.symm]
  refine ⟨a, b, o, st1, ea, eb, hperm, hso, ho, hcon', ?_, hmin, hrest, ?_⟩
  · unfold seqStep
    simp only [ea, eb, hc, ho, bind, Except.bind, pure, Except.pure]
  · refine (pick_perm _ hp2).trans ?_
    have : pick (((ts.set s o.ta).set t o.tb).set (min s t) o.result) (min s t :: (live.erase s).erase t)
        = o.result :: pick ts ((live.erase s).erase t) := by
      rw [← pick_congr hrest]
      unfold pick
      rw [List.filterMap_cons, hmin]
    rw [this]

theorem cross_perm {L L' : List (Tensor R)} (h : L.Perm L') (l m : LegId) : Cross L l m ↔ Cross L' l m := by
  simp only [Cross, h.mem_iff]

theorem freeLeg_perm {st : Store} {L L' : List (Tensor R)} (h : L.Perm L') (l : LegId) :
    FreeLeg st L l ↔ FreeLeg st L' l := by
  simp only [FreeLeg, cross_perm h, h.mem_iff]

theorem mergeLegLists_congr {st st' : Store} (h : ∀ l, st'.partner l = st.partner l) (la lb : List LegId) :
    mergeLegLists st' la lb = mergeLegLists st la lb := by
  unfold mergeLegLists; simp only [h]

theorem seqCost_congr {st st' : Store} (hd : st'.dim = st.dim) (h : ∀ l, st'.partner l = st.partner l)
    (ls : List (List LegId)) (seq : List (Nat × Nat)) : seqCost st' ls seq = seqCost st ls seq := by
  induction seq generalizing ls with
  | nil => rfl
  | cons p seq ih =>
    unfold seqCost
    rw [ih, mergeLegLists_congr h]
    unfold pairCost
    simp only [hd, h]

theorem not_cross_singleton (t : Tensor R) (l m : LegId) : ¬ Cross [t] l m := by
  rintro ⟨⟨x, hx, h1, h2⟩, y, hy, h3⟩
  simp only [List.mem_singleton] at hx hy
  subst hx; subst hy
  exact h2 h3

/-- The loop of `contractAndCostWithSequence`. -/
theorem seqLoop_spec [CommSemiring R] (cast : R → R) (seq : List (Nat × Nat)) :
    ∀ (st : Store) (ts : List (Tensor R)) (total : Nat) (live : List Nat), live.Nodup →
    (∀ i ∈ live, i < ts.length) → 0 ∈ live → GoodNet st (pick ts live) →
    (∀ l m, st.partner l = some m → Cross (pick ts live) l m → st.dim l ≠ 0) → validFrom live seq →
    ((∀ t ∈ pick ts live, t.diag = false) ∨ SafeSeq cast st ts seq) →
    ∃ st' ts' total' t, seqLoop cast st ts total seq = .ok (st', ts', total') ∧ ts'[0]? = some t ∧
      SameNet st st' ∧ GoodTensor st' t ∧ (∀ l, l ∈ t.legs ↔ FreeLeg st (pick ts live) l) ∧
      (∀ ps, IsBondList st (pick ts live) ps → ∀ σ, (∀ l, FreeLeg st (pick ts live) l → σ l < st.dim l) →
        entry t σ = netSum st (pick ts live) ps σ) ∧
      ((∀ t ∈ pick ts live, t.diag = false) → ∀ ls : List (List LegId), ls.length = ts.length →
        (∀ i ∈ live, ∀ x, ts[i]? = some x → ls.getD i [] = x.legs) → total' = total + seqCost st ls seq) := by
  induction seq with
  | nil =>
    intro st ts total live nd hlt h0 g hpos hv _
    have hlive : live = [0] := by
      unfold validFrom at hv
      rw [List.length_eq_one_iff] at hv
      obtain ⟨x, rfl⟩ := hv
      simp only [List.mem_singleton] at h0
      rw [h0]
    subst hlive
    obtain ⟨t, e0⟩ : ∃ t, ts[0]? = some t := ⟨_, List.getElem?_eq_getElem (hlt 0 (by simp))⟩
    have hpick : pick ts [0] = [t] := by unfold pick; simp [e0]
    rw [hpick] at g ⊢
    refine ⟨st, ts, total, t, rfl, e0, ⟨rfl, rfl, fun _ => rfl, fun _ _ => rfl, id, rfl, rfl⟩,
      g.good t (by simp), ?_, ?_, ?_⟩
    · intro l
      unfold FreeLeg
      simp [not_cross_singleton]
    · intro ps hps σ _
      have : ps = [] := by
        cases ps with
        | nil => rfl
        | cons p ps =>
          exact absurd ((hps.exact p.1 p.2).mp (Or.inl (by simp))).2 (not_cross_singleton t _ _)
      subst this
      simp [netSum, sumBonds]
    · intro _ ls _ _
      simp [seqCost]
  | cons p seq ih =>
    obtain ⟨s, t⟩ := p
    intro st ts total live nd hlt h0 g hpos hv hsafe
    obtain ⟨hs, ht, hne, hv'⟩ := hv
    have hmem : ∀ i ∈ live, ∀ x, ts[i]? = some x → x ∈ pick ts live := by
      intro i hi x hx
      exact List.mem_filterMap.mpr ⟨i, hi, hx⟩
    obtain ⟨a, b, o, st1, ea, eb, hperm, hso, ho, hcon, hstep, hmin, hrest, hperm'⟩ :=
      seqStep_spec cast nd hlt g hpos hs ht hne (by
        intro ta tb h1 h2
        rcases hsafe with hd | hd
        · exact Or.inl ⟨hd ta (hmem s hs ta h1), hd tb (hmem t ht tb h2)⟩
        · exact (hd ta tb h1 h2).1)
    generalize hts' : ((ts.set s o.ta).set t o.tb).set (min s t) o.result = ts' at *
    have hlen : ts'.length = ts.length := by rw [← hts']; simp
    have g' := g.perm hperm
    have hsame := hcon.same
    have hpart := hsame.partner g.inv
    have gn := step_goodNet g' hcon
    have dense_step : (∀ t ∈ pick ts live, t.diag = false) →
        o.result.legs = mergeLegLists st a.legs b.legs ∧ o.result.diag = false := by
      intro hd
      have hn := hso.sameNet
      have ga := (g'.good a (by simp)).congr hn
      have gb := (g'.good b (by simp)).congr hn
      obtain ⟨o2, ho2, hl2, hd2, _⟩ := contract_dense cast (hso.inv g.inv) ga gb
        (hd a (hmem s hs a ea)) (hd b (hmem t ht b eb)) g'.split.1
      rw [ho] at ho2
      cases ho2
      refine ⟨?_, hd2⟩
      rw [hl2, restA_eq, restB_eq (hso.inv g.inv)]
      exact mergeLegLists_congr (hso.partner g.inv) _ _
    have dense' : (∀ t ∈ pick ts live, t.diag = false) →
        ∀ x ∈ pick ts' (live.erase (max s t)), x.diag = false := by
      intro hd x hx
      rw [hperm'.mem_iff, List.mem_cons] at hx
      rcases hx with rfl | hx
      · exact (dense_step hd).2
      · exact hd x (hperm.mem_iff.mpr (by simp [hx]))
    have h0' : 0 ∈ live.erase (max s t) := by
      apply (List.mem_erase_of_ne _).mpr h0
      omega
    obtain ⟨st', ts2, total', r, hl, hr, hsn, gr, hfree, hval, hcost⟩ := ih o.store ts'
      (total + (if a.diag && b.diag then a.length
         else if a.diag || b.diag then ((mergeLegLists st a.legs b.legs).map st.dim).prod
         else pairCost st a.legs b.legs)) (live.erase (max s t))
      (nd.erase _) (by intro i hi; rw [hlen]; exact hlt i (List.mem_of_mem_erase hi)) h0'
      (gn.perm hperm'.symm) (by
        intro l m hp hc
        rw [hpart] at hp
        rw [cross_perm hperm'] at hc
        rw [hsame.dim]
        exact hpos l m hp ((cross_perm hperm l m).mpr ((cross_step g' hcon hp).mpr (Or.inr hc))))
      hv' (by
        rcases hsafe with hd | hd
        · exact Or.inl (dense' hd)
        · exact Or.inr ((hd a b ea eb).2 _ _ _ hstep))
    have hfe : ∀ l, FreeLeg o.store (pick ts' (live.erase (max s t))) l ↔ FreeLeg st (pick ts live) l := by
      intro l
      rw [freeLeg_perm hperm', freeLeg_perm hperm, step_free g' hcon]
    refine ⟨st', ts2, total', r, ?_, hr, hsame.trans hsn, gr, ?_, ?_, ?_⟩
    · unfold seqLoop
      rw [hstep]
      exact hl
    · intro l
      rw [hfree, hfe]
    · intro ps hps σ hσ
      obtain ⟨qs, hqs⟩ := exists_bondList gn
      rw [hval qs (hqs.perm hperm'.symm) σ (by intro l hl; rw [hsame.dim]; exact hσ l ((hfe l).mp hl)),
        netSum_perm _ hperm', ← step_value g' hcon hqs σ (by
          intro l hl; exact hσ l ((freeLeg_perm hperm l).mpr hl)),
        netSum_unique g'.inv (step_bondList g' hcon hqs) (hps.perm hperm), netSum_perm _ hperm]
    · intro hd ls hls hleg
      have da := hd a (hmem s hs a ea)
      have db := hd b (hmem t ht b eb)
      have la := hleg s hs a ea
      have lb := hleg t ht b eb
      have hmt : min s t < ts.length := by have := hlt s hs; omega
      rw [hcost (dense' hd) (ls.set (min s t) (mergeLegLists st a.legs b.legs)) (by simp [hls, hlen]) ?_]
      · rw [seqCost_congr hsame.dim hpart]
        simp only [da, db, Bool.and_self, Bool.or_self, Bool.false_eq_true, if_false, seqCost, la, lb]
        omega
      · intro i hi x hx
        have hi1 := nd.mem_erase_iff.mp hi
        by_cases him : i = min s t
        · subst him
          rw [hmin] at hx
          cases hx
          rw [List.getD_eq_getElem?_getD, List.getElem?_set_self (by omega)]
          exact (dense_step hd).1.symm
        · have hi2 : i ≠ s ∧ i ≠ t := by omega
          have hi3 : i ∈ (live.erase s).erase t :=
            (List.mem_erase_of_ne hi2.2).mpr ((List.mem_erase_of_ne hi2.1).mpr hi1.2)
          rw [hrest i hi3] at hx
          rw [List.getD_eq_getElem?_getD, List.getElem?_set_ne (fun e => him e.symm), ← List.getD_eq_getElem?_getD]
          exact hleg i hi1.2 x hx

end CTL
