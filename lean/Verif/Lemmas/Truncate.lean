import Verif.Lemmas.Schmidt
import Verif.Props.Link

/-! `merge` with a bound: the shared bond is cut. -/

namespace CTL
variable {R : Type}
open Finset

theorem keptValues_nat (chi : Nat) (a b c : Nat) : keptValues chi [a, b, c] = .ok (min (min (min chi b) c) a) := by
  unfold keptValues
  have : ¬ ((chi : Int) < 0) := by omega
  simp only [this, if_false, List.foldl_cons, List.foldl_nil, Int.toNat_natCast]
  congr 1
  omega

theorem ravel_one (d t : Nat) : ravel [d] [t] = t := by simp [ravel]

theorem truncateBond_ok [CommSemiring R] {la : LinAlg R} (hla : ExactLinAlg la) (castF : R → R) {st : Store} (w : WFStore st)
    {ta tb : Tensor R} (ga : GoodTensor st ta) (gb : GoodTensor st tb) (da : ta.diag = false) (db : tb.diag = false)
    (disj : ∀ x ∈ ta.legs, x ∉ tb.legs) (oldA : ∀ l ∈ ta.legs, l < st.nextLeg) (oldB : ∀ l ∈ tb.legs, l < st.nextLeg)
    {l m : LegId} (hl : l ∈ ta.legs) (hm : m ∈ tb.legs) (hp : st.partner l = some m) {b : BondId} (hb : st.bond b = (l, m))
    (chi : Nat) :
    ∃ LA LB mat st' u v x y, LA = (ta.legs.filter fun x => decide (x ∉ [l])) ∧ LB = (tb.legs.filter fun x => decide (x ∉ [m])) ∧
      IsMatrixOf st.dim LA LB (sumBonds st.dim [(l, m)] fun τ => entry ta τ * entry tb τ) mat ∧
      truncateBond la castF st ta tb chi b = .ok (st', u, v) ∧
      Split st st' [] LA LB (keptN la chi (LA.map st.dim).prod (LB.map st.dim).prod (la.svd mat).2.1)
        (st.name l) (st.name m) u v x y ∧
      (∀ σ, InRange st.dim (LA ++ LB) σ → sumBonds st'.dim [(x, y)] (fun τ => entry u τ * entry v τ) σ =
          partialSVD (la.svd mat).1 (la.svd mat).2.1 (la.svd mat).2.2 (range (keptN la chi
            (LA.map st.dim).prod (LB.map st.dim).prod (la.svd mat).2.1))
            (ravel (LA.map st.dim) (LA.map σ)) (ravel (LB.map st.dim) (LB.map σ))) := by
  have hdim : st.dim m = st.dim l := partner_dim w.inv hp
  obtain ⟨matA, A1, A2, A3, A4⟩ := C16_toMatrix_cols ga da [l] (by simp) (by simp) (by simpa using hl)
  obtain ⟨matB, B1, B2, B3, B4⟩ := C16_toMatrix_rows gb db [m] (by simp) (by simp) (by simpa using hm)
  generalize hLA : (ta.legs.filter fun x => decide (x ∉ [l])) = LA at *
  generalize hLB : (tb.legs.filter fun x => decide (x ∉ [m])) = LB at *
  have memA : ∀ x, x ∈ LA ↔ x ∈ ta.legs ∧ x ≠ l := by intro x; rw [← hLA, List.mem_filter]; simp
  have memB : ∀ x, x ∈ LB ↔ x ∈ tb.legs ∧ x ≠ m := by intro x; rw [← hLB, List.mem_filter]; simp
  have cA : ta.complementLegs [l] = .ok LA := by
    unfold Tensor.complementLegs
    rw [listDifference_cons, if_pos hl, listDifference_nil, ← hLA, ga.nodup.erase_eq_filter]
    congr 1
    apply List.filter_congr
    intro x _
    rw [Bool.eq_iff_iff]; simp
  have cB : tb.complementLegs [m] = .ok LB := by
    unfold Tensor.complementLegs
    rw [listDifference_cons, if_pos hm, listDifference_nil, ← hLB, gb.nodup.erase_eq_filter]
    congr 1
    apply List.filter_congr
    intro x _
    rw [Bool.eq_iff_iff]; simp
  simp only [List.map_cons, List.map_nil, List.prod_cons, List.prod_nil, mul_one] at A3 B3
  rw [hdim] at B3
  obtain ⟨mat, M1, M2, M3, M4⟩ := matmul_get A3 B3
  have hlA : l ∉ LA := fun h => ((memA l).mp h).2 rfl
  have hmA : m ∉ LA := fun h => disj m ((memA m).mp h).1 hm
  have hlB : l ∉ LB := fun h => disj l hl ((memB l).mp h).1
  have hmB : m ∉ LB := fun h => ((memB m).mp h).2 rfl
  have hlm : l ≠ m := fun e => disj l hl (e ▸ hm)
  have hmat : IsMatrixOf st.dim LA LB (sumBonds st.dim [(l, m)] fun τ => entry ta τ * entry tb τ) mat := by
    refine ⟨M3, M2, ?_⟩
    intro σ hσ
    have iA : InRange st.dim LA σ := fun x hx => hσ x (List.mem_append_left _ hx)
    have iB : InRange st.dim LB σ := fun x hx => hσ x (List.mem_append_right _ hx)
    rw [M4 _ (ravel_lt' iA) _ (ravel_lt' iB)]
    simp only [sumBonds]
    rw [sum_range_list]
    refine Finset.sum_congr rfl fun t ht => ?_
    rw [Finset.mem_range] at ht
    have va : ((σ.set l t).set m t) l = t := by simp [Assign.set]
    have vb : ((σ.set l t).set m t) m = t := by simp [Assign.set]
    have vo : ∀ x, x ≠ l → x ≠ m → ((σ.set l t).set m t) x = σ x := by
      intro x h1 h2; simp [Assign.set, h1, h2]
    have rA : InRange st.dim ta.legs ((σ.set l t).set m t) := by
      intro x hx
      by_cases e : x = l
      · subst e; rw [va]; exact ht
      · rw [vo x e (fun e2 => disj x hx (e2 ▸ hm))]
        exact iA x ((memA x).mpr ⟨hx, e⟩)
    have rB : InRange st.dim tb.legs ((σ.set l t).set m t) := by
      intro x hx
      by_cases e : x = m
      · subst e; rw [vb, hdim]; exact ht
      · rw [vo x (fun e2 => disj x (e2 ▸ hl) hx) e]
        exact iB x ((memB x).mpr ⟨hx, e⟩)
    have h1 := A4 _ rA
    have h2 := B4 _ rB
    simp only [List.map_cons, List.map_nil, ravel_one, va, vb] at h1 h2
    rw [← h1, ← h2, setRavel _ _ _ hmA, setRavel _ _ _ hlA, setRavel _ _ _ hmB, setRavel _ _ _ hlB]
  have S := hla.svd mat _ _ hmat.1 hmat.2.1
  have Q := hla.sqrt mat _ _ hmat.1 hmat.2.1
  have hk := keptN_le la chi (LA.map st.dim).prod (LB.map st.dim).prod (la.svd mat).2.1
  refine ⟨LA, LB, mat, ?_⟩
  generalize hkd : keptN la chi (LA.map st.dim).prod (LB.map st.dim).prod (la.svd mat).2.1 = k at *
  rcases hsvd : la.svd mat with ⟨um, s, vm⟩
  rw [hsvd] at S Q hkd
  simp only at S Q hkd
  have ndA : LA.Nodup := hLA ▸ ga.nodup.filter _
  have ndB : LB.Nodup := hLB ▸ gb.nodup.filter _
  have oA : ∀ x ∈ LA, x < st.nextLeg := fun x hx => oldA x ((memA x).mp hx).1
  have oB : ∀ x ∈ LB, x < st.nextLeg := fun x hx => oldB x ((memB x).mp hx).1
  obtain ⟨a1, a2, a3⟩ := takeCols_spec (k := k) S.uShape (by omega)
  obtain ⟨b1, b2, b3⟩ := takeRows_spec (k := k) S.vShape (by omega)
  obtain ⟨c1, c2, c3⟩ := rightDiag_spec a1 ((s.take k).map la.sqrt)
  obtain ⟨d1, d2, d3⟩ := leftDiag_spec b1 ((s.take k).map la.sqrt)
  obtain ⟨s2, s3, u, s4, v, e2, -, f1, -, f2, ext4, nl4, -, nm4, nx, ny, dx, dy, bx, by', gu, gv, lu, lv, du, dv, eu, ev, ids⟩ :=
    split_core w (LA := LA) (LB := LB) oA oB ndA ndB k (st.name l) (st.name m) _ _ c2 d2 c1 d1
  obtain ⟨k1, k2⟩ := split_link w ext4 nl4 (LA := LA) (LB := LB) lu lv nx ny dx dy bx by' gu gv du dv
    (sameButNames_refl s4 []) (by simp) [] (fun x hx _ => nm4 x hx)
  have hxA : st.nextLeg ∉ LA := fun h => lt_irrefl _ (oA _ h)
  have hyA : st.nextLeg + 1 ∉ LA := fun h => absurd (oA _ h) (Nat.not_lt.mpr (Nat.le_succ _))
  have hxB : st.nextLeg ∉ LB := fun h => lt_irrefl _ (oB _ h)
  have hyB : st.nextLeg + 1 ∉ LB := fun h => absurd (oB _ h) (Nat.not_lt.mpr (Nat.le_succ _))
  refine ⟨bonded s4 st.nextLeg (st.nextLeg + 1), u, v, st.nextLeg, st.nextLeg + 1, rfl, rfl, hmat, ?_, k2, ?_⟩
  · have sA : sideLeg st ta b = .ok l := by unfold sideLeg; rw [hb]; simp [hl]
    have sB : sideLeg st tb b = .ok m := by unfold sideLeg; rw [hb]; simp [disj l hl, hm]
    have g2 : ((st.newLeg none k (st.name l)).1.newLeg none k (st.name m)).2 = st.nextLeg + 1 := rfl
    have g1 : (st.newLeg none k (st.name l)).2 = st.nextLeg := rfl
    have sh1 : matA.shape.getD 0 0 = (LA.map st.dim).prod := by rw [A3]; rfl
    have sh2 : matB.shape.getD 1 0 = (LB.map st.dim).prod := by rw [B3]; rfl
    have kk : keptValues chi [nonZeroElementN la s, (LA.map st.dim).prod, (LB.map st.dim).prod] = .ok k := by
      rw [keptValues_nat]
      exact congrArg _ hkd
    have lk : makeLinkLegs s4 [st.nextLeg] [st.nextLeg + 1] =
        (bonded s4 st.nextLeg (st.nextLeg + 1), .ok [s4.nextBond]) := linkOr_two s4 _ _ (by rw [dx, dy])
    unfold truncateBond
    simp only [sA, sB, cA, cB, bind, Except.bind, ga.notLike, Bool.false_eq_true, if_false, Tensor.toMatrixAny, da, db,
      A1, B1, M1, hsvd, sh1, sh2, kk, g1, g2, e2, f1, f2, lk, pure, Except.pure]
  · intro σ hσ
    have iA : InRange st.dim LA σ := fun l hl => hσ l (List.mem_append_left _ hl)
    have iB : InRange st.dim LB σ := fun l hl => hσ l (List.mem_append_right _ hl)
    simp only [sumBonds]
    rw [k2.dimX, sum_range_list]
    rw [← split_entries (la := la) S.uShape S.vShape S.sLen hk Q (ravel_lt' iA) (ravel_lt' iB)]
    refine Finset.sum_congr rfl fun t _ => ?_
    rw [eu, ev]
    · rw [setRavel _ _ _ hyA, setRavel _ _ _ hxA, setRavel _ _ _ hyB, setRavel _ _ _ hxB]
      simp [Assign.set]
    · intro l hl
      have h1 : l ≠ st.nextLeg + 1 := fun e => hyA (e ▸ hl)
      have h2 : l ≠ st.nextLeg := fun e => hxA (e ▸ hl)
      simp only [Assign.set, h1, h2, if_false]
      exact iA l hl

end CTL
