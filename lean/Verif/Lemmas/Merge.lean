import Verif.Lemmas.SumLegs

/-! `merge` as a whole. -/

namespace CTL
variable {R : Type}
open Finset

theorem Split.rebase {st st1 st' : Store} {gone LA LB : List LegId} {k : Nat} {na nb : String} {u v : Tensor R} {x y : LegId}
    (e : Grows st st1) (w : WFStore st) (names : ∀ l < st.nextLeg, l ∉ gone → st1.name l = st.name l)
    (h : Split st1 st' [] LA LB k na nb u v x y) : Split st st' gone LA LB k na nb u v x y :=
  { h with
    newX := ⟨e.le.trans h.newX.1, h.newX.2⟩
    newY := ⟨e.le.trans h.newY.1, h.newY.2⟩
    grow := e.le.trans h.grow
    oldDim := fun l hl => (h.oldDim l (hl.trans_le e.le)).trans (e.dim l hl)
    oldName := fun l hl hg => (h.oldName l (hl.trans_le e.le) (by simp)).trans (names l hl hg)
    oldBond := fun l hl => (h.oldBond l (hl.trans_le e.le)).trans (e.bond l hl)
    oldPartner := fun l hl => (h.oldPartner l (hl.trans_le e.le)).trans (e.partner w l hl) }

/-- The bond after `mergeLink` is cut. -/
theorem mergeTail_ok [CommSemiring R] {la : LinAlg R} (hla : ExactLinAlg la) (castF : R → R) {st : Store} (w : WFStore st)
    {ta tb : Tensor R} (ga : GoodTensor st ta) (gb : GoodTensor st tb) (da : ta.diag = false) (db : tb.diag = false)
    (disj : ∀ x ∈ ta.legs, x ∉ tb.legs) (oldA : ∀ l ∈ ta.legs, l < st.nextLeg) (oldB : ∀ l ∈ tb.legs, l < st.nextLeg)
    {l m : LegId} (hsp : sharedPairs st ta.legs tb.legs = [(l, m)]) (chi : Nat) :
    ∃ st2 b mat st' u v x y, shareBonds st ta tb = .ok (st2, [b]) ∧ truncateBond la castF st2 ta tb chi b = .ok (st', u, v) ∧
      Cut la st st' [] (ta.legs.filter fun x => decide (x ∉ [l])) (tb.legs.filter fun x => decide (x ∉ [m]))
        (sumBonds st.dim [(l, m)] fun τ => entry ta τ * entry tb τ) chi (st.name l) (st.name m) mat u v x y := by
  obtain ⟨st2, bs, hsb, hso, hpairs, -, -⟩ := shareBondsLoop_spec tb.legs ta.legs st w.inv ga.nodup disj
  rw [hsp] at hpairs
  have sn := hso.sameNet
  obtain ⟨b, rfl⟩ : ∃ b, bs = [b] := by
    rw [← List.length_eq_one_iff, ← List.length_map (f := st2.bond), hpairs]; rfl
  have hb : st2.bond b = (l, m) := by simpa using hpairs
  obtain ⟨hl, hp, hm⟩ := mem_sharedPairs (p := (l, m)) (st := st) (la := ta.legs) (lb := tb.legs) |>.mp (by rw [hsp]; simp)
  simp only at hl hp hm
  obtain ⟨LA, LB, mat, st', u, v, x, y, hLA, hLB, h1, h2, h3, h4⟩ := truncateBond_ok hla castF (sn.ext.wf w) (ga.congr sn) (gb.congr sn)
    da db disj (by rw [sn.nextLeg]; exact oldA) (by rw [sn.nextLeg]; exact oldB) hl hm
    (by rw [sn.partner w.inv]; exact hp) hb chi
  rw [sn.dim] at h1 h3 h4
  have S := hla.svd mat _ _ h1.1 h1.2.1
  rw [keptN_eq la chi _ _ S.sLen] at h3 h4
  rw [sn.name] at h3
  subst hLA hLB
  exact ⟨st2, b, mat, st', u, v, x, y, hsb, h2, h1, h3.rebase sn.ext w (fun l _ _ => by rw [sn.name]), h4⟩

theorem IsMatrixOf.congr [Zero R] {dim dim' : LegId → Nat} {LA LB : List LegId} {f g : Assign → R} {mat : NDArray R}
    (h : IsMatrixOf dim' LA LB f mat) (hd : ∀ l ∈ LA ++ LB, dim' l = dim l)
    (hf : ∀ σ, InRange dim (LA ++ LB) σ → f σ = g σ) : IsMatrixOf dim LA LB g mat := by
  have a : LA.map dim' = LA.map dim := List.map_congr_left fun l hl => hd l (List.mem_append_left _ hl)
  have b : LB.map dim' = LB.map dim := List.map_congr_left fun l hl => hd l (List.mem_append_right _ hl)
  refine ⟨h.1, by rw [h.2.1, a, b], ?_⟩
  intro σ hσ
  rw [← hf σ hσ, ← h.2.2 σ, a, b]
  intro l hl
  rw [hd l hl]; exact hσ l hl

theorem Cut.rebase [CommSemiring R] {la : LinAlg R} {st st1 st' : Store} {gone LA LB : List LegId} {f g : Assign → R} {chi : Nat}
    {na nb : String} {mat : NDArray R} {u v : Tensor R} {x y : LegId} (e : Grows st st1) (w : WFStore st)
    (names : ∀ l < st.nextLeg, l ∉ gone → st1.name l = st.name l) (old : ∀ l ∈ LA ++ LB, l < st.nextLeg)
    (hf : ∀ σ, InRange st.dim (LA ++ LB) σ → f σ = g σ)
    (h : Cut la st1 st' [] LA LB f chi na nb mat u v x y) : Cut la st st' gone LA LB g chi na nb mat u v x y := by
  have hd : ∀ l ∈ LA ++ LB, st1.dim l = st.dim l := fun l hl => e.dim l (old l hl)
  have a : LA.map st1.dim = LA.map st.dim := List.map_congr_left fun l hl => hd l (List.mem_append_left _ hl)
  have b : LB.map st1.dim = LB.map st.dim := List.map_congr_left fun l hl => hd l (List.mem_append_right _ hl)
  refine ⟨h.isMat.congr hd hf, h.split.rebase e w names, ?_⟩
  intro σ hσ
  rw [← a, ← b]
  apply h.value
  intro l hl
  rw [hd l hl]; exact hσ l hl

/-- The tensors that `merge` accepts: well-formed, dense, linked, legs know their tensors. -/
theorem merge_ok [CommSemiring R] {la : LinAlg R} (hla : ExactLinAlg la) (castF : R → R) {st : Store} (w : WFStore st)
    {ta tb : Tensor R} (ga : GoodTensor st ta) (gb : GoodTensor st tb) (da : ta.diag = false) (db : tb.diag = false)
    (disj : ∀ x ∈ ta.legs, x ∉ tb.legs) (oldA : ∀ l ∈ ta.legs, l < st.nextLeg) (oldB : ∀ l ∈ tb.legs, l < st.nextLeg)
    (own : ∀ l ∈ ta.legs, ∀ m, st.partner l = some m → ((st.leg m).tensor = some tb.id ↔ m ∈ tb.legs))
    (share : sharedPairs st ta.legs tb.legs ≠ [])
    (posA : ∀ l ∈ ta.legs, l ∉ (sharedPairs st ta.legs tb.legs).map Prod.fst → st.dim l ≠ 0)
    (posB : ∀ l ∈ tb.legs, l ∉ (sharedPairs st ta.legs tb.legs).map Prod.snd → st.dim l ≠ 0)
    (name : BondName) (chi : Nat) :
    ∃ st1 ta1 tb1 l m mat st' u v x y, mergeLink st ta tb name = (st1, ta1, tb1, .ok ()) ∧
      sharedPairs st1 ta1.legs tb1.legs = [(l, m)] ∧
      merge la castF st ta tb (some chi) name = .ok (st', u, v) ∧
      Cut la st st' ((sharedPairs st ta.legs tb.legs).flatMap fun q => [q.1, q.2])
        (restA ta.legs (sharedPairs st ta.legs tb.legs)) (restB tb.legs (sharedPairs st ta.legs tb.legs))
        (sumBonds st.dim (sharedPairs st ta.legs tb.legs) fun τ => entry ta τ * entry tb τ) chi
        (st1.name l) (st1.name m) mat u v x y := by
  have oldR : ∀ l ∈ restA ta.legs (sharedPairs st ta.legs tb.legs) ++ restB tb.legs (sharedPairs st ta.legs tb.legs),
      l < st.nextLeg := by
    intro l hl
    unfold restA restB at hl
    rcases List.mem_append.mp hl with h | h <;> rw [List.mem_filter] at h
    · exact oldA l h.1
    · exact oldB l h.1
  by_cases many : 2 ≤ (sharedPairs st ta.legs tb.legs).length
  · obtain ⟨st1, ta1, tb1, na, nb, h1, w1, ga1, gb1, hsp, hdim, -, hleg, ⟨la1, lb1, da1, db1, ena, enb, nl, par⟩, o, o', ho, ho', hlegs, hent⟩ :=
      C18_mergeLink id w ga gb da db disj oldA oldB own many posA posB name
    have e1 : Grows st st1 := by
      refine ⟨by rw [nl]; exact Nat.le_add_right _ _, ?_, ?_, fun _ => par, fun _ => w1⟩
      · intro l hl; unfold Store.dim; rw [hleg l hl]
      · intro l hl; rw [hleg l hl]
    have fa : ∀ l ∈ restA ta.legs (sharedPairs st ta.legs tb.legs), l < st.nextLeg := fun l hl => oldR l (List.mem_append_left _ hl)
    have fb : ∀ l ∈ restB tb.legs (sharedPairs st ta.legs tb.legs), l < st.nextLeg := fun l hl => oldR l (List.mem_append_right _ hl)
    have la1' : ta1.legs = na :: restA ta.legs (sharedPairs st ta.legs tb.legs) := la1
    have lb1' : tb1.legs = nb :: restB tb.legs (sharedPairs st ta.legs tb.legs) := lb1
    have nb_ne : ∀ l : Nat, l < st.nextLeg → l ≠ st.nextLeg + 1 := fun l hl => (Nat.lt_succ_of_lt hl).ne
    have disj1 : ∀ x ∈ ta1.legs, x ∉ tb1.legs := by
      intro x hx hx'
      rw [la1', List.mem_cons] at hx
      rw [lb1', List.mem_cons] at hx'
      rcases hx with hx | hx
      · rcases hx' with h | h
        · rw [hx, ena, enb] at h; exact absurd h (Nat.lt_succ_self _).ne
        · have := fb x h; rw [hx, ena] at this; exact lt_irrefl _ this
      · rcases hx' with h | h
        · rw [enb] at h; exact nb_ne x (fa x hx) h
        · unfold restA at hx; unfold restB at h
          rw [List.mem_filter] at hx h
          exact disj x hx.1 h.1
    have old1 : ∀ l ∈ ta1.legs, l < st1.nextLeg := by
      intro l hl
      rw [la1', List.mem_cons] at hl
      rw [nl]
      rcases hl with h | h
      · rw [h, ena]; exact Nat.lt_succ_of_lt (Nat.lt_succ_self _)
      · exact (fa l h).trans_le (Nat.le_add_right _ _)
    have old2 : ∀ l ∈ tb1.legs, l < st1.nextLeg := by
      intro l hl
      rw [lb1', List.mem_cons] at hl
      rw [nl]
      rcases hl with h | h
      · rw [h, enb]; exact Nat.lt_succ_self _
      · exact (fb l h).trans_le (Nat.le_add_right _ _)
    obtain ⟨st2, b, mat, st', u, v, x, y, k1, k2, k3⟩ := mergeTail_ok hla castF w1 ga1 gb1 da1 db1 disj1 old1 old2 hsp chi
    have eA : (ta1.legs.filter fun x => decide (x ∉ [na])) = restA ta.legs (sharedPairs st ta.legs tb.legs) := by
      rw [la1', List.filter_cons_of_neg (by simp), List.filter_eq_self]
      intro l hl
      have := (fa l hl).ne
      rw [ena]; simpa using this
    have eB : (tb1.legs.filter fun x => decide (x ∉ [nb])) = restB tb.legs (sharedPairs st ta.legs tb.legs) := by
      rw [lb1', List.filter_cons_of_neg (by simp), List.filter_eq_self]
      intro l hl
      have := nb_ne l (fb l hl)
      rw [enb]; simpa using this
    rw [eA, eB] at k3
    refine ⟨st1, ta1, tb1, na, nb, mat, st', u, v, x, y, h1, hsp, ?_, ?_⟩
    · unfold merge
      have nl1 : ta.like = tb.like := by rw [ga.notLike, gb.notLike]
      simp only [bind, Except.bind, nl1, ne_eq, not_true_eq_false, if_false, h1, k1, k2, pure, Except.pure]
    · apply k3.rebase e1 w (fun l hl _ => by unfold Store.name; rw [hleg l hl]) oldR
      intro σ hσ
      obtain ⟨o2, q1, q2, _, q4⟩ := contract_dense id w.inv ga gb da db disj
      rw [ho] at q1
      obtain rfl := Except.ok.inj q1
      obtain ⟨o3, r1, r2, _, r4⟩ := contract_dense id w1.inv ga1 gb1 da1 db1 disj1
      rw [ho'] at r1
      obtain rfl := Except.ok.inj r1
      have hσ0 : InRange st.dim o.result.legs σ := by
        intro l hl; rw [q2] at hl; exact hσ l hl
      have := hent σ hσ0
      rw [q4.entry σ hσ0, r4.entry σ (by
        intro l hl
        rw [hlegs] at hl
        have hl' := hl
        rw [q2] at hl'
        rw [e1.dim l (oldR l hl')]
        exact hσ0 l hl), hsp] at this
      exact this
  · have one : ∃ l m, sharedPairs st ta.legs tb.legs = [(l, m)] := by
      cases hq : sharedPairs st ta.legs tb.legs with
      | nil => exact absurd hq share
      | cons p ps =>
        cases ps with
        | nil => exact ⟨p.1, p.2, rfl⟩
        | cons q qs => rw [hq] at many; simp at many
    obtain ⟨l, m, hsp⟩ := one
    obtain ⟨st1, h1, h2, h3, h4, -, -⟩ := (C18_mergeLink_few w.inv own name).2 l m hsp
    have nl : st1.nextLeg = st.nextLeg ∧ st1.nextBond = st.nextBond := by
      have hml := mergeLegs_eq w.inv tb.id ta.legs tb.legs own
      unfold mergeLink at h1
      rw [hml, hsp] at h1
      cases name <;> simp only [Prod.mk.injEq, and_true] at h1 <;> subst h1 <;> exact ⟨rfl, rfl⟩
    have e1 : Grows st st1 := by
      refine ⟨nl.1.ge, fun l _ => (h4 l).1, fun l _ => (h4 l).2.1, ?_, ?_⟩
      · intro _ l _
        unfold Store.partner
        rw [(h4 l).2.1, h3]
      · intro w
        exact w.congr (fun l => ⟨(h4 l).1, (h4 l).2.1⟩) h3 nl.1.ge nl.2.ge
    have par : ∀ l, st1.partner l = st.partner l := by
      intro l; unfold Store.partner; rw [(h4 l).2.1, h3]
    have hsp1 : sharedPairs st1 ta.legs tb.legs = [(l, m)] := by rw [sharedPairs_congr par, hsp]
    obtain ⟨st2, b, mat, st', u, v, x, y, k1, k2, k3⟩ := mergeTail_ok hla castF (e1.wf w) (ga.congr_dim fun l _ => (h4 l).1)
      (gb.congr_dim fun l _ => (h4 l).1) da db disj (by rw [nl.1]; exact oldA) (by rw [nl.1]; exact oldB) hsp1 chi
    refine ⟨st1, ta, tb, l, m, mat, st', u, v, x, y, h1, hsp1, ?_, ?_⟩
    · unfold merge
      have nl1 : ta.like = tb.like := by rw [ga.notLike, gb.notLike]
      simp only [bind, Except.bind, nl1, ne_eq, not_true_eq_false, if_false, h1, k1, k2, pure, Except.pure]
    · rw [hsp] at oldR ⊢
      refine k3.rebase e1 w ?_ oldR ?_
      · intro k _ hg
        simp only [List.flatMap_cons, List.flatMap_nil, List.append_nil, List.mem_cons, List.not_mem_nil, or_false, not_or] at hg
        unfold Store.name
        rw [h2 k hg.1 hg.2]
      · intro σ _
        have : st1.dim = st.dim := funext fun l => (h4 l).1
        rw [this]

/-- Nothing non-zero was cut off: the factors multiply to the original. -/
theorem Cut.exact [CommSemiring R] {la : LinAlg R} (hla : ExactLinAlg la) {st st' : Store} {gone LA LB : List LegId}
    {f : Assign → R} {chi : Nat} {na nb : String} {mat : NDArray R} {u v : Tensor R} {x y : LegId}
    (h : Cut la st st' gone LA LB f chi na nb mat u v x y)
    (h0 : ∀ z ∈ (la.svd mat).2.1.drop (min chi ((la.svd mat).2.1.countP la.isNonZero)), z = 0)
    (σ : Assign) (hσ : InRange st.dim (LA ++ LB) σ) :
    sumBonds st'.dim [(x, y)] (fun τ => entry u τ * entry v τ) σ = f σ := by
  have iA : InRange st.dim LA σ := fun l hl => hσ l (List.mem_append_left _ hl)
  have iB : InRange st.dim LB σ := fun l hl => hσ l (List.mem_append_right _ hl)
  have S := hla.svd mat _ _ h.isMat.1 h.isMat.2.1
  rw [h.value σ hσ, cut_exact S _ h0 (ravel_lt' iA) (ravel_lt' iB), h.isMat.2.2 σ hσ]
  rw [← S.sLen]
  exact (min_le_right _ _).trans List.countP_le_length

theorem Cut.error [CommRing R] [StarRing R] {la : LinAlg R} {st st' : Store} {gone LA LB : List LegId}
    {f : Assign → R} {chi : Nat} {na nb : String} {mat : NDArray R} {u v : Tensor R} {x y : LegId}
    (h : Cut la st st' gone LA LB f chi na nb mat u v x y) (nd : (LA ++ LB).Nodup)
    (hu : IsUnitarySVD mat (LA.map st.dim).prod (LB.map st.dim).prod (la.svd mat)) (σ : Assign) :
    sumLegs st.dim (LA ++ LB) (fun τ =>
        star (f τ - sumBonds st'.dim [(x, y)] (fun τ => entry u τ * entry v τ) τ) *
          (f τ - sumBonds st'.dim [(x, y)] (fun τ => entry u τ * entry v τ) τ)) σ =
      (((la.svd mat).2.1.drop (min chi ((la.svd mat).2.1.countP la.isNonZero))).map fun z => star z * z).sum :=
  frobenius_legs hu nd h.isMat (by
    rw [← hu.sLen]
    exact (min_le_right _ _).trans List.countP_le_length) h.value σ

end CTL
