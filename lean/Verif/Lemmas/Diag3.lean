import Verif.Lemmas.Diag2

/-! Helper lemmas: a diagonal operand joined to a dense one. -/

namespace CTL
variable {R : Type}

theorem insertIdx_length_append {α} (l : List α) (x : α) : l.insertIdx l.length x = l ++ [x] := by
  induction l with
  | nil => rfl
  | cons a l ih => simp

theorem eraseIdx_append_singleton {α} (l : List α) (x : α) : (l ++ [x]).eraseIdx l.length = l := by
  induction l with
  | nil => rfl
  | cons a l ih => simp [ih]

theorem bondContract_diag_dense [NonUnitalNonAssocCommSemiring R] {st st1 : Store} (hsn : SameNet st st1)
    {ta tb : Tensor R} (ga : GoodTensor st ta) (gb : GoodTensor st tb) (da : ta.diag = true)
    (db : tb.diag = false) {bs : List BondId} {ps : List (LegId × LegId)} (hpairs : bs.map st1.bond = ps)
    (ok : PairsOK st ta.legs tb.legs ps) (hshare : ps ≠ []) :
    ∃ o : ContractOut R, (bondContract st1 ta tb bs).map (fun p => ⟨p.1, p.2.1, ta, p.2.2⟩) = .ok o ∧
      Contracted st ta tb ps o := by
  have hdim : st1.dim = st.dim := hsn.dim
  obtain ⟨arrA, hA, wA, _, sA⟩ := ga.data
  obtain ⟨p0, qs, hp0⟩ : ∃ p qs, ps = p :: qs := by
    cases h : ps with
    | nil => exact absurd h hshare
    | cons p ps => exact ⟨p, ps, rfl⟩
  have hpm : p0 ∈ ps := by rw [hp0]; simp
  have h0A : p0.1 ∈ ta.legs := ok.subA (List.mem_map_of_mem hpm)
  obtain ⟨neA, sA, dA⟩ : ta.legs ≠ [] ∧ arrA.shape = [ta.length] ∧ ∀ l ∈ ta.legs, st.dim l = ta.length := by
    rcases sA da with h | h
    · rw [h.1] at h0A; cases h0A
    · exact h
  have hbs : bs ≠ [] := by intro h; rw [h] at hpairs; exact hshare hpairs.symm
  obtain ⟨hb1, hb2⟩ := bondContract_legs hpairs
  set n := ta.length with hn
  set rb := restB tb.legs ps with hrb
  set ra := restA ta.legs ps with hra
  have rbsub : rb ⊆ tb.legs := fun x hx => List.mem_of_mem_filter hx
  obtain ⟨tb', y, hmv, htb', gtb', ptb', etb'⟩ := moveLegsToFront_dense gb db rb (gb.nodup.filter _) rbsub
  set cB := tb.legs.filter (fun l => decide (l ∉ rb)) with hcB
  have cBmem : ∀ l, l ∈ cB ↔ l ∈ ps.map Prod.snd := by
    intro l
    simp only [hcB, hrb, restB, List.mem_filter, decide_eq_true_eq]
    constructor
    · rintro ⟨h1, h2⟩
      by_contra hc; exact h2 ⟨h1, hc⟩
    · intro h; exact ⟨ok.subB h, fun hh => hh.2 h⟩
  have cBlen : cB.length = ps.length := by
    have hperm : cB.Perm (ps.map Prod.snd) :=
      (List.perm_ext_iff_of_nodup (gb.nodup.filter _) ok.nodupB).mpr cBmem
    rw [hperm.length_eq]; simp
  have cBdim : ∀ l ∈ cB, st.dim l = n := by
    intro l hl
    have := (cBmem l).mp hl
    rw [List.mem_map] at this
    obtain ⟨p, hp, rfl⟩ := this
    rw [ok.dims p hp]; exact dA _ (ok.subA (List.mem_map_of_mem hp))
  -- the moved data
  obtain ⟨y', hy', wy, sy, _⟩ := gtb'.data
  have hyy : y' = y := by rw [htb'] at hy'; simpa using hy'.symm
  subst hyy
  have dtb' : tb'.diag = false := by rw [htb']; exact db
  have ltb' : tb'.legs = rb ++ cB := by rw [htb']
  have sy : y'.shape = (rb ++ cB).map st.dim := by rw [← ltb']; exact sy dtb'
  have hcbrep : cB.map st.dim = List.replicate ps.length n := by
    rw [List.eq_replicate_iff]
    refine ⟨by simp [cBlen], ?_⟩
    intro b hb
    rw [List.mem_map] at hb
    obtain ⟨l, hl, rfl⟩ := hb
    exact cBdim l hl
  have hplen : ps.length ≠ 0 := by simpa using hshare
  have sylen : y'.shape.length = rb.length + ps.length := by rw [sy]; simp [cBlen]
  have hdrop : y'.shape.drop rb.length = List.replicate ps.length n := by
    rw [sy, List.map_append, ← hcbrep]
    have : rb.length = (rb.map st.dim).length := by simp
    rw [this, List.drop_left]
  have htake : y'.shape.take rb.length = rb.map st.dim := by
    rw [sy, List.map_append]
    have : rb.length = (rb.map st.dim).length := by simp
    rw [this, List.take_left]
  have hhead : (List.replicate ps.length n).headD 0 = n := by
    cases h : ps.length with
    | zero => exact absurd h hplen
    | succ k => simp [List.replicate_succ]
  have hsub : y'.shape.length - ps.length = rb.length := by rw [sylen]; omega
  have hdl : y'.diagLast ps.length = .ok (NDArray.build (rb.map st.dim ++ [n]) fun idx =>
      y'.get (idx.take rb.length ++ List.replicate ps.length (idx.getD rb.length 0))) := by
    unfold NDArray.diagLast
    simp only [hsub, hdrop, htake, hhead]
    rw [if_neg]
    rintro (h | h | h)
    · exact hplen h
    · rw [sylen] at h; omega
    · apply h; intro d hd; exact (List.mem_replicate.mp hd).2
  set d0 := NDArray.build (rb.map st.dim ++ [n]) fun idx =>
      y'.get (idx.take rb.length ++ List.replicate ps.length (idx.getD rb.length 0)) with hd0
  have hml : d0.mulLast arrA = .ok (NDArray.build (rb.map st.dim ++ [n]) fun idx =>
      d0.get idx * arrA.get [idx.getLastD 0]) := by
    unfold NDArray.mulLast
    rw [if_pos]
    · rfl
    · rw [sA, hd0]; simp
  set d := NDArray.build (rb.map st.dim ++ [n]) fun idx => d0.get idx * arrA.get [idx.getLastD 0] with hd
  -- entries of d
  have hdget : ∀ σ k, InRange st.dim (ra ++ rb) σ → k < n →
      d.get (rb.map σ ++ [k]) = entry tb (assign σ ps (List.replicate ps.length k)) * arrA.get [k] := by
    intro σ k hσ hk
    have hvrb : ValidIdx (rb.map st.dim) (rb.map σ) :=
      validIdx_map rb σ st.dim (fun x hx => hσ x (by simp [hx]))
    have hv : ValidIdx (rb.map st.dim ++ [n]) (rb.map σ ++ [k]) :=
      hvrb.append (by rw [validIdx_cons]; exact ⟨hk, validIdx_nil⟩)
    rw [hd, NDArray.get_build _ hv, hd0, NDArray.get_build _ hv]
    have hvps : ValidIdx (ps.map fun p => st.dim p.1) (List.replicate ps.length k) := by
      have : (ps.map fun p => st.dim p.1) = List.replicate ps.length n := by
        rw [List.eq_replicate_iff]
        refine ⟨by simp, ?_⟩
        intro b hb
        rw [List.mem_map] at hb
        obtain ⟨p, hp, rfl⟩ := hb
        exact dA _ (ok.subA (List.mem_map_of_mem hp))
      rw [this]; exact validIdx_replicate _ _ _ hk
    obtain ⟨_, r2⟩ := ok.inRange hσ hvps
    rw [← etb' _ r2]
    obtain ⟨a1, a2⟩ := assign_pairs σ ps (List.replicate ps.length k) (by simp) ok.nodup
    have hcbmap : cB.map (assign σ ps (List.replicate ps.length k)) = List.replicate ps.length k := by
      rw [List.eq_replicate_iff]
      refine ⟨by simp [cBlen], ?_⟩
      intro b hb
      rw [List.mem_map] at hb
      obtain ⟨l, hl, rfl⟩ := hb
      exact map_eq_replicate_mem a2 ((cBmem l).mp hl)
    simp only [entry, hy', dtb', Bool.false_eq_true, if_false, ltb', List.map_append, hcbmap]
    rw [ok.assign_restB]
    have hlen : rb.length = (rb.map σ).length := by simp
    congr 1
    · congr 1
      rw [hlen, List.take_left]
      congr 1
      simp [List.getElem?_append]
    · simp
  have hra' : listDifference ta.legs (ps.map Prod.fst) = .ok ra :=
    nodup_diff ta.legs _ ga.nodup ok.nodupA ok.subA
  have hrb' : listDifference tb.legs (ps.map Prod.snd) = .ok rb :=
    nodup_diff tb.legs _ gb.nodup ok.nodupB ok.subB
  have hbl : (ps.map Prod.snd).length = ps.length := by simp
  have nodup' : (rb ++ ra).Nodup := List.perm_append_comm.nodup_iff.mpr ok.rest_nodup
  -- the data handed to the constructor
  have hfin : ∃ nd : NDArray R, (if ra.length = 0 then d.sumAxis (d.shape.length - 1)
          else pure (d.embedDiagLast ra.length)) = .ok nd ∧ nd.WF ∧ nd.shape = (rb ++ ra).map st.dim ∧
        ∀ σ, InRange st.dim (ra ++ rb) σ → nd.get ((rb ++ ra).map σ)
          = sumBonds st.dim ps (fun τ => entry ta τ * entry tb τ) σ := by
    have hdshape : d.shape = rb.map st.dim ++ [n] := rfl
    by_cases h0 : ra.length = 0
    · have hra0 : ra = [] := List.eq_nil_of_length_eq_zero h0
      have hax : d.shape.length - 1 = (rb.map st.dim).length := by rw [hdshape]; simp
      rw [if_pos h0]
      unfold NDArray.sumAxis
      rw [if_pos (by rw [hax, hdshape]; simp), hax, hdshape, eraseIdx_append_singleton]
      refine ⟨_, rfl, NDArray.build_wf _ _, by rw [hra0]; simp, ?_⟩
      intro σ hσ
      rw [hra0, List.append_nil, NDArray.get_build]
      · rw [diag_sum ok hshare hA da dA]
        have : (rb.map st.dim ++ [n]).getD (rb.map st.dim).length 0 = n := by simp [List.getElem?_append]
        rw [this]
        congr 1
        apply List.map_congr_left
        intro k hk
        rw [List.mem_range] at hk
        have hl : (rb.map st.dim).length = (rb.map σ).length := by simp
        rw [hl, insertIdx_length_append, hdget σ k hσ hk, mul_comm]
        congr 1
        rw [if_pos]
        intro l hl
        rw [← hra, hra0] at hl; cases hl
      · exact validIdx_map rb σ st.dim (fun x hx => hσ x (by simp [hx]))
    · rw [if_neg h0]
      have hrane : ra ≠ [] := by intro h; apply h0; rw [h]; rfl
      have hradim : ra.map st.dim = List.replicate ra.length n := by
        rw [List.eq_replicate_iff]
        refine ⟨by simp, ?_⟩
        intro b hb
        rw [List.mem_map] at hb
        obtain ⟨l, hl, rfl⟩ := hb
        exact dA l (List.mem_of_mem_filter hl)
      have hn1 : d.shape.length - 1 = rb.length := by rw [hdshape]; simp
      have hl1 : d.shape.getLastD 0 = n := by rw [hdshape]; simp
      have ht1 : d.shape.take rb.length = rb.map st.dim := by
        rw [hdshape]
        have : rb.length = (rb.map st.dim).length := by simp
        rw [this, List.take_left]
      refine ⟨_, rfl, NDArray.build_wf _ _, ?_, ?_⟩
      · simp only [NDArray.embedDiagLast, NDArray.build_shape, hn1, hl1, ht1, List.map_append, hradim]
      · intro σ hσ
        unfold NDArray.embedDiagLast
        simp only [hn1, hl1, ht1]
        rw [NDArray.get_build]
        · have hlen : rb.length = (rb.map σ).length := by simp
          rw [List.map_append]
          have hd1 : (rb.map σ ++ ra.map σ).drop rb.length = ra.map σ := by rw [hlen, List.drop_left]
          have ht2 : (rb.map σ ++ ra.map σ).take rb.length = rb.map σ := by rw [hlen, List.take_left]
          rw [hd1, ht2]
          obtain ⟨l0, ls, hl0⟩ : ∃ l0 ls, ra = l0 :: ls := by
            cases h : ra with
            | nil => exact absurd h hrane
            | cons a l => exact ⟨a, l, rfl⟩
          have hhd : (ra.map σ).headD 0 = σ l0 := by rw [hl0]; simp
          have hl0m : l0 ∈ ra := by rw [hl0]; simp
          have hk0 : σ l0 < n := by
            have := hσ l0 (by simp [hl0m])
            rwa [dA l0 (List.mem_of_mem_filter hl0m)] at this
          rw [hhd, diag_sum ok hshare hA da dA]
          by_cases hall : ∀ l ∈ ra, σ l = σ l0
          · rw [if_pos]
            · rw [hdget σ _ hσ hk0]
              rw [list_sum_single _ _ (σ l0) List.nodup_range (List.mem_range.mpr hk0)]
              · rw [if_pos (by rw [← hra]; exact hall), mul_comm]
              · intro k _ hk
                rw [if_neg (by rw [← hra]; exact fun hh => hk (hh l0 hl0m).symm), zero_mul]
            · intro j hj
              rw [List.mem_map] at hj
              obtain ⟨l, hl, rfl⟩ := hj
              exact hall l hl
          · rw [if_neg, list_sum_zero]
            · intro k _
              rw [if_neg, zero_mul]
              rw [← hra]
              intro hh
              apply hall
              intro l hl
              rw [hh l hl, hh l0 hl0m]
            · intro hh
              apply hall
              intro l hl
              exact hh _ (List.mem_map_of_mem hl)
        · rw [← hradim, ← List.map_append]
          exact validIdx_map _ σ st.dim (fun x hx => hσ x (by
            rw [List.mem_append] at hx ⊢; exact hx.symm))
  obtain ⟨nd, hnd, wnd, snd, gnd⟩ := hfin
  obtain ⟨s, t, h1, h2, h3, _⟩ := newTensor_ok st1 (rb ++ ra) nd (by rw [snd, hdim])
  have hsame : SameNet st s := hsn.trans h2
  have hbc : bondContract st1 ta tb bs = .ok (s, t, tb') := by
    unfold bondContract
    simp only [hb1, hb2, Tensor.complementLegs, hra', hrb', bind, Except.bind, da, db, Bool.and_false,
      Bool.false_eq_true, if_false, if_true, ga.notLike, hmv, hA, hy', hbl, hdl, hml]
    simp only [hnd, h1]
    rfl
  rw [hbc]
  refine ⟨_, rfl, ?_, ?_, hsame, ?_, ⟨.rfl, ga.congr hsame, fun _ _ => rfl⟩, ⟨ptb', gtb'.congr hsame, etb'⟩⟩
  · rw [h3]
    exact List.perm_append_comm
  · rw [h3]
    refine ⟨nodup', rfl, ⟨_, rfl, ?_, fun _ => ?_, fun h => by simp at h⟩⟩
    · simp only [NDArray.WF] at wnd ⊢; rw [wnd, snd, hdim]
    · simp only [h2.dim]
  · rw [h3]
    intro σ hσ
    have hσ' : InRange st.dim (ra ++ rb) σ := fun l hl => hσ l (by
      rw [List.mem_append] at hl ⊢; exact hl.symm)
    rw [← gnd σ hσ']
    simp only [entry, Bool.false_eq_true, if_false]
    congr 1
    rw [hdim, ← snd]

theorem contract_diag_dense [NonUnitalNonAssocCommSemiring R] (cast : R → R) {st : Store} (inv : BondInv st)
    {ta tb : Tensor R} (ga : GoodTensor st ta) (gb : GoodTensor st tb) (da : ta.diag = true)
    (db : tb.diag = false) (disj : ∀ x ∈ ta.legs, x ∉ tb.legs)
    (hshare : sharedPairs st ta.legs tb.legs ≠ []) :
    ∃ o, contractOrdered cast st ta tb none = .ok o ∧ Contracted st ta tb (sharedPairs st ta.legs tb.legs) o := by
  have ok := pairsOK_shared inv ga.nodup gb.nodup disj
  obtain ⟨st1, bs, hsn, hdim, hpairs, hco⟩ := contractOrdered_shared cast inv ga gb disj
  have hbs : bs ≠ [] := by intro h; rw [h] at hpairs; exact hshare hpairs.symm
  rw [hco, if_neg hbs]
  exact bondContract_diag_dense hsn ga gb da db hpairs ok hshare

end CTL
