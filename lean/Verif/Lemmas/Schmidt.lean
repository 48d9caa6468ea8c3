import Verif.Lemmas.Split
import Verif.Props.Contract

/-! `SchimdtDecomposition`: preparation. -/

namespace CTL
variable {R : Type}
open Finset

theorem mem_of_map_ne {st : Store} {ls : List LegId} (h : (ls.map st.name).Nodup) :
    ∀ k ∈ ls, ∀ l ∈ ls, (st.name k).toList = (st.name l).toList → k = l := by
  intro k hk l hl e
  rw [String.toList_inj] at e
  exact List.inj_on_of_nodup_map h hk hl e

theorem getLeg_unique {st : Store} {t : Tensor R} (nd : (t.legs.map st.name).Nodup) {l : LegId} (hl : l ∈ t.legs) :
    t.getLeg st (st.name l) = some l := by
  have hm : st.name l ∈ t.labels st := List.mem_map_of_mem hl
  unfold Tensor.getLeg Tensor.indexOfLabel
  simp only [hm, if_true, Bool.false_eq_true, if_false]
  have hlt : (t.labels st).idxOf (st.name l) < t.legs.length := by
    have := List.idxOf_lt_length_of_mem hm
    simpa [Tensor.labels] using this
  rw [List.getElem?_eq_getElem hlt]
  congr 1
  have h2 : (t.labels st)[(t.labels st).idxOf (st.name l)]'(List.idxOf_lt_length_of_mem hm) = st.name l :=
    List.getElem_idxOf _
  have h3 : (t.labels st)[(t.labels st).idxOf (st.name l)]'(List.idxOf_lt_length_of_mem hm) =
      st.name (t.legs[(t.labels st).idxOf (st.name l)]'hlt) := List.getElem_map _
  exact List.inj_on_of_nodup_map nd (List.getElem_mem hlt) hl (h3.symm.trans h2)

theorem legsOfLabels_names {st : Store} {t : Tensor R} (nd : (t.legs.map st.name).Nodup) {ls : List LegId}
    (h : ls ⊆ t.legs) : t.legsOfLabels st (ls.map st.name) = ls := by
  unfold Tensor.legsOfLabels
  rw [List.map_map]
  conv_rhs => rw [← List.map_id ls]
  apply List.map_congr_left
  intro l hl
  simp only [Function.comp, getLeg_unique nd (h hl), Option.getD_some, id]

/-- The names of the product tensor tell the two sides apart, and are all different. -/
structure Prepared [NonUnitalNonAssocSemiring R] (st : Store) (ta tb : Tensor R) (swapA swapB : List String) (p : SchmidtPrep R) : Prop where
  legA : p.legA = sideA st ta tb swapA swapB
  legB : p.legB = sideB st ta tb swapA swapB
  labels : ∃ x y, (sharedPairs st ta.legs tb.legs).head? = some (x, y) ∧ p.labelA = st.name x ∧ p.labelB = st.name y
  sbDim : p.sbDim = ((sharedPairs st ta.legs tb.legs).map fun q => st.dim q.1).prod
  ext : Grows st p.store
  nextLeg : p.store.nextLeg = st.nextLeg
  nextBond : p.store.nextBond = st.nextBond
  perm : (p.legA ++ p.legB).Perm p.tot.legs
  names : (p.tot.legs.map p.store.name).Nodup
  nameA : ∀ l ∈ p.legA, (p.store.name l).toList = 'a' :: '-' :: (st.name l).toList
  nameB : ∀ l ∈ p.legB, (p.store.name l).toList = 'b' :: '-' :: (st.name l).toList
  nameO : ∀ l, l ∉ ta.legs → l ∉ tb.legs → p.store.name l = st.name l
  good : GoodTensor p.store p.tot
  dense : p.tot.diag = false
  entry : ∀ σ, InRange st.dim p.tot.legs σ → entry p.tot σ =
    sumBonds st.dim (sharedPairs st ta.legs tb.legs) (fun τ => CTL.entry ta τ * CTL.entry tb τ) σ


theorem sideLegs_perm {st : Store} (ta tb : Tensor R) (swapA swapB : List String) :
    (sideA st ta tb swapA swapB ++ sideB st ta tb swapA swapB).Perm
      ((ta.legs.filter fun l => decide (∀ m ∈ tb.legs, st.partner l ≠ some m)) ++
        tb.legs.filter fun l => decide (∀ m ∈ ta.legs, st.partner l ≠ some m)) := by
  have key : ∀ (ls : List LegId) (p q : LegId → Prop) [DecidablePred p] [DecidablePred q],
      ((ls.filter fun l => decide (p l ∧ ¬ q l)) ++ ls.filter fun l => decide (p l ∧ q l)).Perm
        (ls.filter fun l => decide (p l)) := by
    intro ls p q _ _
    have := List.filter_append_perm (fun l => decide (¬ q l)) (ls.filter fun l => decide (p l))
    rw [List.filter_filter, List.filter_filter] at this
    refine List.Perm.trans (List.Perm.of_eq ?_) this
    congr 1
    · congr 1; funext l; by_cases h1 : p l <;> by_cases h2 : q l <;> simp [h1, h2]
    · congr 1; funext l; by_cases h1 : p l <;> by_cases h2 : q l <;> simp [h1, h2]
  have k1 := key ta.legs (fun l => ∀ m ∈ tb.legs, st.partner l ≠ some m) (fun l => st.name l ∈ swapA)
  have k2 := key tb.legs (fun l => ∀ m ∈ ta.legs, st.partner l ≠ some m) (fun l => st.name l ∉ swapB)
  simp only [not_not] at k2
  unfold sideA sideB
  refine List.Perm.trans ?_ (k1.append k2)
  simp only [List.append_assoc]
  refine List.Perm.append_left _ ?_
  rw [← List.append_assoc, ← List.append_assoc]
  exact List.Perm.append_right _ List.perm_append_comm

theorem schmidtPrep_ok [NonUnitalNonAssocSemiring R] (cast : R → R) {st : Store} {ta tb : Tensor R}
    {swapA swapB : List String} (h : SchmidtInput st ta tb swapA swapB) :
    ∃ p, schmidtPrep cast st ta tb swapA swapB = .ok p ∧ Prepared st ta tb swapA swapB p := by
  obtain ⟨st1, bs, hsb, hso, hpairs, -, -⟩ := shareBondsLoop_spec tb.legs ta.legs st h.wf.inv h.goodA.nodup h.disj
  have sn1 := hso.sameNet
  obtain ⟨l0, hl0, m0, hm0, hlm⟩ := h.share
  have hne : sharedPairs st ta.legs tb.legs ≠ [] :=
    List.ne_nil_of_mem (mem_sharedPairs (p := (l0, m0)).mpr ⟨hl0, hlm, hm0⟩)
  cases bs with
  | nil => rw [← hpairs] at hne; exact absurd rfl hne
  | cons b bs =>
  obtain ⟨x, y, hxy⟩ : ∃ x y, st1.bond b = (x, y) := ⟨_, _, rfl⟩
  have hhead : (sharedPairs st ta.legs tb.legs).head? = some (x, y) := by rw [← hpairs, ← hxy]; rfl
  have hxym : (x, y) ∈ sharedPairs st ta.legs tb.legs := by rw [← hpairs, ← hxy]; simp
  obtain ⟨hx, hp, hy⟩ := mem_sharedPairs.mp hxym
  simp only at hx hp hy
  have sA : sideLeg st1 ta b = .ok x := by unfold sideLeg; rw [hxy]; simp [hx]
  have sB : sideLeg st1 tb b = .ok y := by
    unfold sideLeg; rw [hxy]; simp [h.disj x hx, hy]
  have nm1 : ∀ l, st1.name l = st.name l := fun l => by rw [sn1.name]
  -- tags
  obtain ⟨st2, t2, sb2, n2⟩ := addTagLoop_spec "a" ta.legs st1 h.goodA.nodup (fun l hl => by rw [nm1]; exact h.dashA l hl)
  have hdisj' : ∀ l ∈ tb.legs, l ∉ ta.legs := fun l hl hl' => h.disj l hl' hl
  obtain ⟨st3, t3, sb3, n3⟩ := addTagLoop_spec "b" tb.legs st2 h.goodB.nodup
    (fun l hl => by rw [sb2.name (hdisj' l hl), nm1]; exact h.dashB l hl)
  have na3 : ∀ l ∈ ta.legs, (st3.name l).toList = 'a' :: '-' :: (st.name l).toList := by
    intro l hl
    rw [sb3.name (h.disj l hl), n2 l hl, nm1]; rfl
  have nb3 : ∀ l ∈ tb.legs, (st3.name l).toList = 'b' :: '-' :: (st.name l).toList := by
    intro l hl
    rw [n3 l hl, sb2.name (hdisj' l hl), nm1]; rfl
  obtain ⟨sb4, n4⟩ := retagLoop_spec ta (f := 'a') (g := 'b') (by decide) (fun l => (st.name l).toList)
    (mem_of_map_ne h.namesA) swapA st3 [] (fun l hl => by simpa using na3 l hl)
  generalize hst4 : retagLoop ta 'a' 'b' swapA st3 = st4 at sb4 n4
  have nb4 : ∀ l ∈ tb.legs, (st4.name l).toList = 'b' :: '-' :: (st.name l).toList := by
    intro l hl
    rw [sb4.name (hdisj' l hl), nb3 l hl]
  obtain ⟨sb5, n5⟩ := retagLoop_spec tb (f := 'b') (g := 'a') (by decide) (fun l => (st.name l).toList)
    (mem_of_map_ne h.namesB) swapB st4 [] (fun l hl => by simpa using nb4 l hl)
  generalize hst5 : retagLoop tb 'b' 'a' swapB st4 = st5 at sb5 n5
  have memS : ∀ (s : String) (L : List String), s.toList ∈ L.map String.toList ↔ s ∈ L := by
    intro s L
    rw [List.mem_map]
    constructor
    · rintro ⟨r, hr, e⟩
      rw [String.toList_inj] at e
      exact e ▸ hr
    · intro hs; exact ⟨s, hs, rfl⟩
  have nameA5 : ∀ l ∈ ta.legs, (st5.name l).toList = (if st.name l ∈ swapA then 'b' else 'a') :: '-' :: (st.name l).toList := by
    intro l hl
    rw [sb5.name (h.disj l hl), n4 l hl]
    simp only [List.not_mem_nil, false_or, memS]
  have nameB5 : ∀ l ∈ tb.legs, (st5.name l).toList = (if st.name l ∈ swapB then 'a' else 'b') :: '-' :: (st.name l).toList := by
    intro l hl
    rw [n5 l hl]
    simp only [List.not_mem_nil, false_or, memS]
  have e5 : Grows st st5 := sn1.ext.trans (sb2.ext.trans (sb3.ext.trans (sb4.ext.trans sb5.ext)))
  have nl5 : st5.nextLeg = st.nextLeg := by
    rw [sb5.2.2.2.1, sb4.2.2.2.1, sb3.2.2.2.1, sb2.2.2.2.1, sn1.nextLeg]
  have nbd5 : st5.nextBond = st.nextBond := by
    rw [sb5.2.2.2.2.1, sb4.2.2.2.2.1, sb3.2.2.2.2.1, sb2.2.2.2.2.1, sn1.nextBond]
  have dim5 : ∀ l, st5.dim l = st.dim l := fun l => by rw [sb5.dim, sb4.dim, sb3.dim, sb2.dim, sn1.dim]
  have par5 : ∀ l, st5.partner l = st.partner l := fun l => by
    rw [sb5.partner, sb4.partner, sb3.partner, sb2.partner, sn1.partner h.wf.inv]
  have inv5 : BondInv st5 := (e5.wf h.wf).inv
  obtain ⟨o, ho, hlegs, hdg, hC⟩ := contract_dense cast inv5 (h.goodA.congr_dim fun l _ => dim5 l)
    (h.goodB.congr_dim fun l _ => dim5 l) h.denseA h.denseB h.disj
  rw [sharedPairs_congr par5] at hlegs hC
  have hA0 : restA ta.legs (sharedPairs st ta.legs tb.legs) =
      ta.legs.filter fun l => decide (∀ m ∈ tb.legs, st.partner l ≠ some m) := by
    unfold restA
    apply List.filter_congr
    intro l hl
    rw [Bool.eq_iff_iff]
    simp only [decide_eq_true_eq, List.mem_map, not_exists, not_and]
    constructor
    · intro h' m hm hp'
      exact h' (l, m) (mem_sharedPairs.mpr ⟨hl, hp', hm⟩) rfl
    · rintro h' ⟨x, y⟩ hp' rfl
      rw [mem_sharedPairs] at hp'
      exact h' y hp'.2.2 hp'.2.1
  have hB0 : restB tb.legs (sharedPairs st ta.legs tb.legs) =
      tb.legs.filter fun l => decide (∀ m ∈ ta.legs, st.partner l ≠ some m) := by
    unfold restB
    apply List.filter_congr
    intro m hm
    rw [Bool.eq_iff_iff]
    simp only [decide_eq_true_eq, List.mem_map, not_exists, not_and]
    constructor
    · intro h' l hl hp'
      exact h' (l, m) (mem_sharedPairs.mpr ⟨hl, partner_symm h.wf.inv hp', hm⟩) rfl
    · rintro h' ⟨x, y⟩ hp' rfl
      rw [mem_sharedPairs] at hp'
      exact h' x hp'.1 (partner_symm h.wf.inv hp'.2.1)
  rw [hA0, hB0] at hlegs
  have nm6 : ∀ l, o.store.name l = st5.name l := fun l => by rw [hC.same.name]
  have tagA : ∀ l ∈ ta.legs, hasTag 'a' (o.store.name l) = decide (st.name l ∉ swapA) ∧
      hasTag 'b' (o.store.name l) = decide (st.name l ∈ swapA) := by
    intro l hl
    rw [nm6]
    constructor <;> rw [Bool.eq_iff_iff, hasTag_iff, nameA5 l hl] <;>
      by_cases hs : st.name l ∈ swapA <;> simp [hs]
  have tagB : ∀ l ∈ tb.legs, hasTag 'a' (o.store.name l) = decide (st.name l ∈ swapB) ∧
      hasTag 'b' (o.store.name l) = decide (st.name l ∉ swapB) := by
    intro l hl
    rw [nm6]
    constructor <;> rw [Bool.eq_iff_iff, hasTag_iff, nameB5 l hl] <;>
      by_cases hs : st.name l ∈ swapB <;> simp [hs]
  have fA : (o.result.legs.filter fun l => hasTag 'a' (o.store.name l)) = sideA st ta tb swapA swapB := by
    rw [hlegs, List.filter_append, List.filter_filter, List.filter_filter]
    unfold sideA
    congr 1
    · apply List.filter_congr
      intro l hl
      rw [(tagA l hl).1, Bool.eq_iff_iff]
      simp [and_comm]
    · apply List.filter_congr
      intro l hl
      rw [(tagB l hl).1, Bool.eq_iff_iff]
      simp [and_comm]
  have fB : (o.result.legs.filter fun l => hasTag 'b' (o.store.name l)) = sideB st ta tb swapA swapB := by
    rw [hlegs, List.filter_append, List.filter_filter, List.filter_filter]
    unfold sideB
    congr 1
    · apply List.filter_congr
      intro l hl
      rw [(tagA l hl).2, Bool.eq_iff_iff]
      simp [and_comm]
    · apply List.filter_congr
      intro l hl
      rw [(tagB l hl).2, Bool.eq_iff_iff]
      simp [and_comm]
  have nmA : ∀ l ∈ sideA st ta tb swapA swapB, (o.store.name l).toList = 'a' :: '-' :: (st.name l).toList := by
    intro l hl
    unfold sideA at hl
    rw [nm6]
    rcases List.mem_append.mp hl with hl | hl <;> rw [List.mem_filter] at hl <;> simp only [decide_eq_true_eq] at hl
    · rw [nameA5 l hl.1, if_neg hl.2.2]
    · rw [nameB5 l hl.1, if_pos hl.2.2]
  have nmB : ∀ l ∈ sideB st ta tb swapA swapB, (o.store.name l).toList = 'b' :: '-' :: (st.name l).toList := by
    intro l hl
    unfold sideB at hl
    rw [nm6]
    rcases List.mem_append.mp hl with hl | hl <;> rw [List.mem_filter] at hl <;> simp only [decide_eq_true_eq] at hl
    · rw [nameA5 l hl.1, if_pos hl.2.2]
    · rw [nameB5 l hl.1, if_neg hl.2.2]
  have permL : (sideA st ta tb swapA swapB ++ sideB st ta tb swapA swapB).Perm o.result.legs := by
    rw [hlegs]; exact sideLegs_perm ta tb swapA swapB
  refine ⟨⟨o.store, o.result, o.result.legs.filter fun l => hasTag 'a' (o.store.name l),
      o.result.legs.filter fun l => hasTag 'b' (o.store.name l), st1.name x, st1.name y,
      tupleProduct ((b :: bs).map fun b => st1.dim (st1.bond b).1)⟩, ?_, ?_⟩
  · unfold schmidtPrep
    have a1 : swapA.length = swapB.length := h.swapLen
    have a2 : ∀ x ∈ swapA, x ∈ ta.labels st1 := by
      intro n hn
      have := h.swapInA n hn
      unfold Tensor.labels
      rw [sn1.name]
      exact this
    have a3 : ∀ x ∈ swapB, x ∈ tb.labels st1 := by
      intro n hn
      have := h.swapInB n hn
      unfold Tensor.labels
      rw [sn1.name]
      exact this
    simp only [shareBonds, hsb, bind, Except.bind, pyAssert, h.goodA.notLike, h.goodB.notLike, decide_true, if_true, sA, sB,
      decide_eq_true a1, decide_eq_true a2, decide_eq_true a3, Tensor.addTensorTag, t2, t3, raiseIf, hst4, hst5, ho, pure, Except.pure]
  · refine ⟨fA, fB, ⟨x, y, hhead, nm1 x, nm1 y⟩, ?_, e5.trans hC.same.ext, by rw [hC.same.nextLeg, nl5],
      by rw [hC.same.nextBond, nbd5], ?_, ?_, ?_, ?_, ?_, hC.good, hdg, ?_⟩
    · show tupleProduct _ = _
      rw [tupleProduct_eq, ← hpairs, List.map_map, sn1.dim]
      rfl
    · show ((o.result.legs.filter _) ++ (o.result.legs.filter _)).Perm _
      rw [fA, fB]; exact permL
    · show (o.result.legs.map o.store.name).Nodup
      rw [← (permL.map _).nodup_iff, List.map_append, List.nodup_append]
      refine ⟨?_, ?_, ?_⟩
      · rw [List.nodup_map_iff_inj_on (List.Nodup.of_map _ h.namesU)]
        intro k hk l hl e
        have e' := congrArg String.toList e
        rw [nmA k hk, nmA l hl] at e'
        simp only [List.cons.injEq, true_and] at e'
        exact mem_of_map_ne h.namesU k hk l hl e'
      · rw [List.nodup_map_iff_inj_on (List.Nodup.of_map _ h.namesV)]
        intro k hk l hl e
        have e' := congrArg String.toList e
        rw [nmB k hk, nmB l hl] at e'
        simp only [List.cons.injEq, true_and] at e'
        exact mem_of_map_ne h.namesV k hk l hl e'
      · intro a ha b hb e
        rw [List.mem_map] at ha hb
        obtain ⟨k, hk, rfl⟩ := ha
        obtain ⟨l, hl, rfl⟩ := hb
        have e' := congrArg String.toList e
        rw [nmA k hk, nmB l hl] at e'
        simp at e'
    · show ∀ l ∈ (o.result.legs.filter _), _
      rw [fA]; exact nmA
    · show ∀ l ∈ (o.result.legs.filter _), _
      rw [fB]; exact nmB
    · intro l h1 h2
      show o.store.name l = _
      rw [nm6, sb5.name h2, sb4.name h1, sb3.name h2, sb2.name h1, nm1]
    · intro σ hσ
      have hdimeq : st5.dim = st.dim := funext dim5
      have := hC.entry σ (by rw [hdimeq]; exact hσ)
      rw [hdimeq] at this
      exact this

/-- The number of values kept. -/
def keptN (la : LinAlg R) (chi n m : Nat) (s : List R) : Nat := min (min (min chi n) m) (nonZeroElementN la s)

theorem keptN_le (la : LinAlg R) (chi n m : Nat) (s : List R) : keptN la chi n m s ≤ min n m := by
  unfold keptN; omega

theorem schmidtData_ok [NonUnitalNonAssocSemiring R] (la : LinAlg R) (castF : R → R) {st : Store} {ta tb : Tensor R}
    {swapA swapB : List String} {p : SchmidtPrep R} (h : Prepared st ta tb swapA swapB p)
    (old : ∀ l ∈ p.tot.legs, l < st.nextLeg)
    (neA : p.legA ≠ []) (neB : p.legB ≠ []) (chi : Nat) :
    ∃ mat, IsMatrixOf st.dim p.legA p.legB (entry p.tot) mat ∧
      schmidtData la castF p false chi = .ok
        ⟨keptN la chi (p.legA.map st.dim).prod (p.legB.map st.dim).prod (la.svd mat).2.1,
          some ((la.svd mat).1.takeCols (keptN la chi (p.legA.map st.dim).prod (p.legB.map st.dim).prod (la.svd mat).2.1)),
          some ((la.svd mat).2.1.take (keptN la chi (p.legA.map st.dim).prod (p.legB.map st.dim).prod (la.svd mat).2.1)),
          some ((la.svd mat).2.2.takeRows (keptN la chi (p.legA.map st.dim).prod (p.legB.map st.dim).prod (la.svd mat).2.1))⟩ := by
  have hd : ∀ l ∈ p.tot.legs, p.store.dim l = st.dim l := fun l hl => h.ext.dim l (old l hl)
  have subA : p.legA ⊆ p.tot.legs := fun l hl => h.perm.mem_iff.mp (List.mem_append_left _ hl)
  have subB : p.legB ⊆ p.tot.legs := fun l hl => h.perm.mem_iff.mp (List.mem_append_right _ hl)
  have dA : p.legA.map p.store.dim = p.legA.map st.dim := List.map_congr_left fun l hl => hd l (subA hl)
  have dB : p.legB.map p.store.dim = p.legB.map st.dim := List.map_congr_left fun l hl => hd l (subB hl)
  obtain ⟨mat, h1, h2, h3, h4⟩ := C16_toMatrix_both h.good h.dense p.legA p.legB neA neB h.perm
  rw [dA, dB] at h3
  refine ⟨mat, ⟨h2, h3, ?_⟩, ?_⟩
  · intro σ hσ
    rw [← h4 σ, dA, dB]
    intro l hl
    rw [hd l hl]
    exact hσ l (h.perm.mem_iff.mpr hl)
  · unfold schmidtData
    simp only [Bool.false_eq_true, if_false, legsOfLabels_names h.names subA, legsOfLabels_names h.names subB,
      Tensor.toMatrixAny, h.dense, h1, bind, Except.bind, keptValues, tupleProduct_eq, dA, dB, pure, Except.pure]
    have : ¬ ((chi : Int) < 0) := by omega
    simp only [this, if_false, List.foldl_cons, List.foldl_nil, Int.toNat_natCast]
    rfl

/-- The old names come back. -/
theorem untag_names [NonUnitalNonAssocSemiring R] {st : Store} {ta tb : Tensor R} {swapA swapB : List String} {p : SchmidtPrep R}
    (h : Prepared st ta tb swapA swapB p) (i : SchmidtInput st ta tb swapA swapB) {s4 : Store}
    (hn : ∀ l < st.nextLeg, s4.name l = p.store.name l) :
    SameButNames s4 (untagLoop 'b' p.legB (untagLoop 'a' p.legA s4)) (p.legA ++ p.legB) ∧
    ∀ l < st.nextLeg, l ∉ ((sharedPairs st ta.legs tb.legs).flatMap fun q => [q.1, q.2]) →
      (untagLoop 'b' p.legB (untagLoop 'a' p.legA s4)).name l = st.name l := by
  have old : ∀ l ∈ p.legA ++ p.legB, l < st.nextLeg := by
    intro l hl
    rw [h.legA, h.legB, (sideLegs_perm ta tb swapA swapB).mem_iff, List.mem_append, List.mem_filter, List.mem_filter] at hl
    rcases hl with hl | hl
    · exact i.oldA l hl.1
    · exact i.oldB l hl.1
  have nd : (p.legA ++ p.legB).Nodup := h.perm.nodup_iff.mpr h.good.nodup
  rw [List.nodup_append] at nd
  have dAB : ∀ l ∈ p.legA, l ∉ p.legB := fun l hl hl' => nd.2.2 l hl l hl' rfl
  obtain ⟨a1, a2⟩ := untagLoop_spec 'a' p.legA s4 nd.1
  generalize untagLoop 'a' p.legA s4 = s5 at a1 a2
  obtain ⟨b1, b2⟩ := untagLoop_spec 'b' p.legB s5 nd.2.1
  refine ⟨sameButNames_trans (sameButNames_mono a1 (by simp +contextual)) (sameButNames_mono b1 (by simp +contextual)), ?_⟩
  intro l hl hg
  by_cases hA : l ∈ p.legA
  · rw [b1.name (dAB l hA), ← String.toList_inj]
    exact a2 l hA _ (by rw [hn l hl]; exact h.nameA l hA)
  · by_cases hB : l ∈ p.legB
    · rw [← String.toList_inj]
      exact b2 l hB _ (by rw [a1.name hA, hn l hl]; exact h.nameB l hB)
    · rw [b1.name hB, a1.name hA, hn l hl]
      apply h.nameO
      · intro hta
        apply hA
        by_contra hA'
        have : l ∈ p.legA ++ p.legB := by
          rw [h.legA, h.legB, (sideLegs_perm ta tb swapA swapB).mem_iff, List.mem_append]
          left
          rw [List.mem_filter]
          refine ⟨hta, ?_⟩
          simp only [decide_eq_true_eq]
          intro m hm hp
          apply hg
          rw [List.mem_flatMap]
          exact ⟨(l, m), mem_sharedPairs.mpr ⟨hta, hp, hm⟩, by simp⟩
        rcases List.mem_append.mp this with h' | h'
        · exact hA' h'
        · exact hB h'
      · intro htb
        have : l ∈ p.legA ++ p.legB := by
          rw [h.legA, h.legB, (sideLegs_perm ta tb swapA swapB).mem_iff, List.mem_append]
          right
          rw [List.mem_filter]
          refine ⟨htb, ?_⟩
          simp only [decide_eq_true_eq]
          intro m hm hp
          apply hg
          rw [List.mem_flatMap]
          exact ⟨(m, l), mem_sharedPairs.mpr ⟨hm, partner_symm i.wf.inv hp, htb⟩, by simp⟩
        rcases List.mem_append.mp this with h' | h'
        · exact hA h'
        · exact hB h'

theorem ravel_lt' {dim : LegId → Nat} {legs : List LegId} {σ : Assign} (h : InRange dim legs σ) :
    ravel (legs.map dim) (legs.map σ) < (legs.map dim).prod := ravel_lt (validIdx_legs h)

theorem setRavel (dim : LegId → Nat) (legs : List LegId) (σ : Assign) {x : LegId} (hx : x ∉ legs) (k : Nat) :
    ravel (legs.map dim) (legs.map (σ.set x k)) = ravel (legs.map dim) (legs.map σ) := by
  congr 1
  apply List.map_congr_left
  intro l hl
  unfold Assign.set
  rw [if_neg]
  rintro rfl
  exact hx hl

/-- `SchimdtDecomposition` with shared square roots, in full. -/
theorem schmidt_sqrt [CommSemiring R] {la : LinAlg R} (hla : ExactLinAlg la) (cast castF : R → R) {st : Store}
    {ta tb : Tensor R} {swapA swapB : List String} (i : SchmidtInput st ta tb swapA swapB) (chi : Nat) :
    ∃ mat st' u v na nb x y, (sharedPairs st ta.legs tb.legs).head? = some (na, nb) ∧
      IsMatrixOf st.dim (sideA st ta tb swapA swapB) (sideB st ta tb swapA swapB)
        (sumBonds st.dim (sharedPairs st ta.legs tb.legs) fun τ => entry ta τ * entry tb τ) mat ∧
      schmidt la cast castF st ta tb chi true swapA swapB = .ok (st', u, none, v) ∧
      Split st st' ((sharedPairs st ta.legs tb.legs).flatMap fun q => [q.1, q.2])
        (sideA st ta tb swapA swapB) (sideB st ta tb swapA swapB)
        (keptN la chi ((sideA st ta tb swapA swapB).map st.dim).prod ((sideB st ta tb swapA swapB).map st.dim).prod (la.svd mat).2.1)
        (st.name na) (st.name nb) u v x y ∧
      (∀ σ, InRange st.dim (sideA st ta tb swapA swapB ++ sideB st ta tb swapA swapB) σ →
        sumBonds st'.dim [(x, y)] (fun τ => entry u τ * entry v τ) σ =
          partialSVD (la.svd mat).1 (la.svd mat).2.1 (la.svd mat).2.2 (range (keptN la chi
            ((sideA st ta tb swapA swapB).map st.dim).prod ((sideB st ta tb swapA swapB).map st.dim).prod (la.svd mat).2.1))
            (ravel ((sideA st ta tb swapA swapB).map st.dim) ((sideA st ta tb swapA swapB).map σ))
            (ravel ((sideB st ta tb swapA swapB).map st.dim) ((sideB st ta tb swapA swapB).map σ))) := by
  obtain ⟨p, hp, P⟩ := schmidtPrep_ok cast i
  have old : ∀ l ∈ p.tot.legs, l < st.nextLeg := by
    intro l hl
    rw [← P.perm.mem_iff, P.legA, P.legB, (sideLegs_perm ta tb swapA swapB).mem_iff, List.mem_append, List.mem_filter,
      List.mem_filter] at hl
    rcases hl with hl | hl
    · exact i.oldA l hl.1
    · exact i.oldB l hl.1
  obtain ⟨mat, hmat, hdata⟩ := schmidtData_ok la castF P old (by rw [P.legA]; exact i.neA) (by rw [P.legB]; exact i.neB) chi
  obtain ⟨na, nb, hhead, hlabA, hlabB⟩ := P.labels
  rw [P.legA, P.legB] at hmat hdata
  generalize hLA : sideA st ta tb swapA swapB = LA at *
  generalize hLB : sideB st ta tb swapA swapB = LB at *
  have oldA : ∀ l ∈ LA, l < st.nextLeg := fun l hl => old l (P.perm.mem_iff.mp (by rw [P.legA, hLA]; exact List.mem_append_left _ hl))
  have oldB : ∀ l ∈ LB, l < st.nextLeg := fun l hl => old l (P.perm.mem_iff.mp (by rw [P.legB, hLB]; exact List.mem_append_right _ hl))
  have nd : (LA ++ LB).Nodup := by
    have := P.perm.nodup_iff.mpr P.good.nodup
    rwa [P.legA, P.legB, hLA, hLB] at this
  rw [List.nodup_append] at nd
  have S := hla.svd mat _ _ hmat.1 hmat.2.1
  have Q := hla.sqrt mat _ _ hmat.1 hmat.2.1
  have hk := keptN_le la chi (LA.map st.dim).prod (LB.map st.dim).prod (la.svd mat).2.1
  generalize hkd : keptN la chi (LA.map st.dim).prod (LB.map st.dim).prod (la.svd mat).2.1 = k at *
  rcases hsvd : la.svd mat with ⟨um, s, vm⟩
  rw [hsvd] at S Q hdata
  simp only at S Q hdata
  have pA : LA.map p.store.dim = LA.map st.dim := List.map_congr_left fun l hl => P.ext.dim l (oldA l hl)
  have pB : LB.map p.store.dim = LB.map st.dim := List.map_congr_left fun l hl => P.ext.dim l (oldB l hl)
  obtain ⟨a1, a2, a3⟩ := takeCols_spec (k := k) S.uShape (by omega)
  obtain ⟨b1, b2, b3⟩ := takeRows_spec (k := k) S.vShape (by omega)
  obtain ⟨c1, c2, c3⟩ := rightDiag_spec a1 ((s.take k).map la.sqrt)
  obtain ⟨d1, d2, d3⟩ := leftDiag_spec b1 ((s.take k).map la.sqrt)
  obtain ⟨s2, s3, u, s4, v, e2, f1, -, f2, -, ext4, nl4, -, nm4, nx, ny, dx, dy, bx, by', gu, gv, lu, lv, du, dv, eu, ev, ids⟩ :=
    split_core (P.ext.wf i.wf) (LA := LA) (LB := LB) (by rw [P.nextLeg]; exact oldA) (by rw [P.nextLeg]; exact oldB)
      nd.1 nd.2.1 k p.labelA p.labelB _ _ c2 d2 (by rw [c1, pA]) (by rw [d1, pB])
  rw [P.nextLeg] at f1 f2 nl4 nm4 nx ny dx dy bx by' lu lv eu ev
  rw [pA] at eu
  rw [pB] at ev
  obtain ⟨n1, n2⟩ := untag_names P i (s4 := s4) nm4
  rw [P.legA, P.legB, hLA, hLB] at n1 n2
  obtain ⟨k1, k2⟩ := split_link i.wf (P.ext.trans ext4) nl4 (LA := LA) (LB := LB) lu lv nx ny dx dy bx by' gu gv du dv n1
    (by
      intro l hl
      rcases List.mem_append.mp hl with h | h
      · exact oldA l h
      · exact oldB l h) _ n2
  have hxA : st.nextLeg ∉ LA := fun h => lt_irrefl _ (oldA _ h)
  have hyA : st.nextLeg + 1 ∉ LA := fun h => absurd (oldA _ h) (Nat.not_lt.mpr (Nat.le_succ _))
  have hxB : st.nextLeg ∉ LB := fun h => lt_irrefl _ (oldB _ h)
  have hyB : st.nextLeg + 1 ∉ LB := fun h => absurd (oldB _ h) (Nat.not_lt.mpr (Nat.le_succ _))
  refine ⟨mat, bonded (untagLoop 'b' LB (untagLoop 'a' LA s4)) st.nextLeg (st.nextLeg + 1), u, v, na, nb, st.nextLeg, st.nextLeg + 1, hhead, ?_, ?_, ?_, ?_⟩
  · refine ⟨hmat.1, hmat.2.1, ?_⟩
    intro σ hσ
    rw [hmat.2.2 σ hσ, P.entry]
    intro l hl
    apply hσ
    rw [← P.perm.mem_iff, P.legA, P.legB, hLA, hLB] at hl
    exact hl
  · unfold schmidt
    have lk : ta.like = false := i.goodA.notLike
    have g1 : (p.store.newLeg none k p.labelA).2 = st.nextLeg := P.nextLeg
    have g2 : ((p.store.newLeg none k p.labelA).1.newLeg none k p.labelB).2 = st.nextLeg + 1 := by
      show p.store.nextLeg + 1 = _
      rw [P.nextLeg]
    simp only [hp, bind, Except.bind, lk, hdata, if_true, Option.map_some, P.legA, P.legB, hLA, hLB, g1, g2, e2, f1, f2, k1, pure,
      Except.pure]
  · rw [hkd, ← hlabA, ← hlabB]
    exact k2
  · intro σ hσ
    have iA : InRange st.dim LA σ := fun l hl => hσ l (List.mem_append_left _ hl)
    have iB : InRange st.dim LB σ := fun l hl => hσ l (List.mem_append_right _ hl)
    rw [hkd, hsvd]
    simp only [sumBonds]
    rw [k2.dimX, sum_range_list]
    rw [← split_entries (la := la) S.uShape S.vShape S.sLen hk Q (ravel_lt' iA) (ravel_lt' iB)]
    refine Finset.sum_congr rfl fun t _ => ?_
    rw [eu, ev]
    · rw [setRavel _ _ _ hyA, setRavel _ _ _ hxA, setRavel _ _ _ hyB, setRavel _ _ _ hxB]
      simp [Assign.set]
    · intro l hl
      have h1 : l ≠ st.nextLeg + 1 := fun e => hyA (e ▸ hl)
      have h2 : l ≠ st.nextLeg := fun e => hxA (e ▸ hl)
      have h3 : p.store.dim l = st.dim l := P.ext.dim l (oldA l hl)
      simp only [Assign.set, h1, h2, if_false, h3]
      exact iA l hl

end CTL
