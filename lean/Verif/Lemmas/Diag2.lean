import Verif.Lemmas.Diag

/-! Helper lemmas: the diagonal branches of `contractTwoTensors`. -/

namespace CTL
variable {R : Type}

theorem newDiagonal_ok [Zero R] (st : Store) (legs : List LegId) (d : NDArray R) (n : Nat) (hne : legs ≠ [])
    (hn : ∀ l ∈ legs, st.dim l = n) (hd : d.shape = [n]) :
    ∃ s, newDiagonal st (legs.map st.dim) (some d) legs
        = .ok (s, ⟨st.nextTensor, legs, some d, true, false, n⟩) ∧ SameNet st s := by
  obtain ⟨x, xs, rfl⟩ : ∃ x xs, legs = x :: xs := by
    cases legs with
    | nil => exact absurd rfl hne
    | cons x xs => exact ⟨x, xs, rfl⟩
  have hx : st.dim x = n := hn x (by simp)
  refine ⟨{ st.setOwner (x :: xs) st.nextTensor with nextTensor := st.nextTensor + 1 }, ?_,
    sameNet_setOwner st _ _ _⟩
  unfold newDiagonal
  have h1 : ∀ l ∈ x :: xs, st.dim l = ((x :: xs).map st.dim).headD 0 := by
    intro l hl; rw [hn l hl]; simp [hx]
  simp only [List.map_cons, List.headD_cons] at h1 ⊢
  rw [if_neg (not_not.mpr h1)]
  simp [hd, hx]

/-- The common part of all branches of `contractOrdered` with `bonds = None`. -/
theorem contractOrdered_shared [NonUnitalNonAssocSemiring R] (cast : R → R) {st : Store} (inv : BondInv st)
    {ta tb : Tensor R} (ga : GoodTensor st ta) (gb : GoodTensor st tb)
    (disj : ∀ x ∈ ta.legs, x ∉ tb.legs) :
    ∃ st1 bs, SameNet st st1 ∧ st1.dim = st.dim ∧
      bs.map st1.bond = sharedPairs st ta.legs tb.legs ∧
      contractOrdered cast st ta tb none =
        (if bs = [] then (outerContract cast st1 ta tb).map (fun p => ⟨p.1, p.2, ta, tb⟩)
         else (bondContract st1 ta tb bs).map (fun p => ⟨p.1, p.2.1, ta, p.2.2⟩)) := by
  obtain ⟨st1, bs, hsb, hso, hpairs, _, _⟩ := shareBondsLoop_spec tb.legs ta.legs st inv ga.nodup disj
  refine ⟨st1, bs, hso.sameNet, hso.dim, hpairs, ?_⟩
  unfold contractOrdered
  simp only [shareBonds, hsb, bind, Except.bind, ga.notLike, gb.notLike, ne_eq, not_true_eq_false,
    if_false, pure, Except.pure]
  by_cases hbs : bs = []
  · simp only [hbs, if_true]
    cases outerContract cast st1 ta tb <;> rfl
  · simp only [hbs, if_false]
    cases bondContract st1 ta tb bs <;> rfl

theorem bondContract_legs {st1 : Store} {bs : List BondId} {ps : List (LegId × LegId)}
    (hpairs : bs.map st1.bond = ps) :
    bs.map (fun b => (st1.bond b).1) = ps.map Prod.fst ∧ bs.map (fun b => (st1.bond b).2) = ps.map Prod.snd := by
  constructor <;> rw [← hpairs, List.map_map] <;> rfl

theorem headD_mem_of_ne {α} {l : List α} (d : α) (h : l ≠ []) : l.headD d ∈ l := by
  cases l with
  | nil => exact absurd rfl h
  | cons a l => simp

/-- Both operands diagonal, joined by at least one bond. -/
theorem bondContract_diag_diag [NonUnitalNonAssocSemiring R] {st st1 : Store} (hsn : SameNet st st1)
    {ta tb : Tensor R} (ga : GoodTensor st ta) (gb : GoodTensor st tb) (da : ta.diag = true)
    (db : tb.diag = true) {bs : List BondId} {ps : List (LegId × LegId)} (hpairs : bs.map st1.bond = ps)
    (ok : PairsOK st ta.legs tb.legs ps) (hshare : ps ≠ []) :
    ∃ o : ContractOut R, (bondContract st1 ta tb bs).map (fun p => ⟨p.1, p.2.1, ta, p.2.2⟩) = .ok o ∧
      Contracted st ta tb ps o := by
  have hdim : st1.dim = st.dim := hsn.dim
  obtain ⟨arrA, hA, wA, _, sA⟩ := ga.data
  obtain ⟨arrB, hB, wB, _, sB⟩ := gb.data
  obtain ⟨p0, qs, hp0⟩ : ∃ p qs, ps = p :: qs := by
    cases h : ps with
    | nil => exact absurd h hshare
    | cons p ps => exact ⟨p, ps, rfl⟩
  have hpm : p0 ∈ ps := by rw [hp0]; simp
  have h0A : p0.1 ∈ ta.legs := ok.subA (List.mem_map_of_mem hpm)
  have h0B : p0.2 ∈ tb.legs := ok.subB (List.mem_map_of_mem hpm)
  obtain ⟨neA, sA, dA⟩ : ta.legs ≠ [] ∧ arrA.shape = [ta.length] ∧ ∀ l ∈ ta.legs, st.dim l = ta.length := by
    rcases sA da with h | h
    · rw [h.1] at h0A; cases h0A
    · exact h
  obtain ⟨neB, sB, dB⟩ : tb.legs ≠ [] ∧ arrB.shape = [tb.length] ∧ ∀ l ∈ tb.legs, st.dim l = tb.length := by
    rcases sB db with h | h
    · rw [h.1] at h0B; cases h0B
    · exact h
  have hlen : tb.length = ta.length := by
    rw [← dA _ h0A, ← dB _ h0B]; exact ok.dims p0 hpm
  have hbs : bs ≠ [] := by intro h; rw [h] at hpairs; exact hshare hpairs.symm
  obtain ⟨hb1, hb2⟩ := bondContract_legs hpairs
  -- the product array
  set n := ta.length with hn
  have hmul : arrA.mulBroadcast arrB = .ok (NDArray.build [n] fun idx => arrA.get idx * arrB.get idx) := by
    unfold NDArray.mulBroadcast
    rw [if_pos (by rw [sA, sB, hlen]), sA]
  -- the Einstein sum, reduced to one index
  have hspec : ∀ σ, sumBonds st.dim ps (fun τ => entry ta τ * entry tb τ) σ
      = ((List.range n).map fun k =>
          (if ∀ l ∈ restA ta.legs ps, σ l = k then arrA.get [k] else 0)
            * (if ∀ l ∈ restB tb.legs ps, σ l = k then arrB.get [k] else 0)).sum := by
    intro σ
    rw [diag_sum ok hshare hA da dA]
    congr 1
    apply List.map_congr_left
    intro k _
    congr 1
    obtain ⟨a1, a2⟩ := assign_pairs σ ps (List.replicate ps.length k) (by simp) ok.nodup
    have hk0 : assign σ ps (List.replicate ps.length k) p0.2 = k :=
      map_eq_replicate_mem a2 (List.mem_map_of_mem hpm)
    rw [entry_diag hB db h0B, hk0]
    have hcond : (∀ l ∈ tb.legs, assign σ ps (List.replicate ps.length k) l = k) ↔
        (∀ l ∈ restB tb.legs ps, σ l = k) := by
      constructor
      · intro hh l hl
        have e := hh l (List.mem_of_mem_filter hl)
        have := List.map_inj_left.mp (ok.assign_restB σ (List.replicate ps.length k)) l hl
        rw [← this]; exact e
      · intro hh l hl
        rcases ok.mem_splitB hl with h1 | h1
        · exact map_eq_replicate_mem a2 h1
        · have := List.map_inj_left.mp (ok.assign_restB σ (List.replicate ps.length k)) l h1
          rw [this]; exact hh l h1
    simp only [hcond]
  by_cases hnew : restA ta.legs ps ++ restB tb.legs ps = []
  · -- everything is summed
    have hbc : bondContract st1 ta tb bs = .ok
        ({ st1 with nextTensor := st1.nextTensor + 1 },
          ⟨st1.nextTensor, [], some (NDArray.scalar
            (NDArray.build [n] fun idx => arrA.get idx * arrB.get idx).sumAll), true, false, 1⟩, tb) := by
      unfold bondContract
      simp only [restA, restB] at hnew
      simp only [hb1, hb2, Tensor.complementLegs, nodup_diff ta.legs _ ga.nodup ok.nodupA ok.subA,
        nodup_diff tb.legs _ gb.nodup ok.nodupB ok.subB, bind, Except.bind, da, db, Bool.and_self, if_true,
        ga.notLike, Bool.false_eq_true, if_false, hA, hB, hmul, hnew, ne_eq, not_true_eq_false]
      rfl
    rw [hbc]
    have hsame : SameNet st { st1 with nextTensor := st1.nextTensor + 1 } :=
      hsn.trans (sameNet_of_owner (fun l => ⟨rfl, rfl, rfl⟩) rfl rfl rfl)
    refine ⟨_, rfl, ?_, ⟨by simp, rfl, ⟨_, rfl, by simp [NDArray.WF, NDArray.scalar], fun h => by simp at h,
      fun _ => Or.inl ⟨rfl, rfl, rfl⟩⟩⟩, hsame, ?_, ⟨.rfl, ga.congr hsame, fun _ _ => rfl⟩,
      ⟨.rfl, gb.congr hsame, fun _ _ => rfl⟩⟩
    · change List.Perm [] (restA ta.legs ps ++ restB tb.legs ps)
      rw [hnew]
    · intro σ _
      rw [hspec]
      rw [List.append_eq_nil_iff] at hnew
      simp only [hnew.1, hnew.2, List.not_mem_nil, false_implies, implies_true, if_true]
      simp only [entry, if_true, NDArray.get, NDArray.scalar, ravel, List.getD_cons_zero,
        NDArray.sumAll, NDArray.build, indices, List.map_cons, List.map_nil]
      rw [sum_flatMap']
      simp
  · have hdn : ∀ l ∈ restA ta.legs ps ++ restB tb.legs ps, st1.dim l = n := by
      intro l hl
      rw [hdim]
      rw [List.mem_append] at hl
      rcases hl with h | h
      · exact dA l (List.mem_of_mem_filter h)
      · rw [dB l (List.mem_of_mem_filter h), hlen]
    obtain ⟨s, hnd, hss⟩ := newDiagonal_ok st1 (restA ta.legs ps ++ restB tb.legs ps)
      (NDArray.build [n] fun idx => arrA.get idx * arrB.get idx) n hnew hdn rfl
    have hbc : bondContract st1 ta tb bs = .ok (s, ⟨st1.nextTensor, restA ta.legs ps ++ restB tb.legs ps,
        some (NDArray.build [n] fun idx => arrA.get idx * arrB.get idx), true, false, n⟩, tb) := by
      unfold bondContract
      simp only [restA, restB] at hnew hnd ⊢
      simp only [hb1, hb2, Tensor.complementLegs, nodup_diff ta.legs _ ga.nodup ok.nodupA ok.subA,
        nodup_diff tb.legs _ gb.nodup ok.nodupB ok.subB, bind, Except.bind, da, db, Bool.and_self, if_true,
        ga.notLike, Bool.false_eq_true, if_false, hA, hB, hmul, hnew, ne_eq, not_false_eq_true, hnd]
      rfl
    rw [hbc]
    have hsame : SameNet st s := hsn.trans hss
    refine ⟨_, rfl, .rfl, ⟨ok.rest_nodup, rfl, ⟨_, rfl, NDArray.build_wf _ _, fun h => by simp at h,
      fun _ => Or.inr ⟨hnew, rfl, ?_⟩⟩⟩, hsame, ?_, ⟨.rfl, ga.congr hsame, fun _ _ => rfl⟩,
      ⟨.rfl, gb.congr hsame, fun _ _ => rfl⟩⟩
    · intro l hl; rw [hss.dim]; exact hdn l hl
    · intro σ hσ
      rw [hspec]
      set L := restA ta.legs ps ++ restB tb.legs ps with hL
      have hl0 := headD_mem_of_ne 0 hnew
      set l0 := L.headD 0 with hl0d
      rw [entry_diag (l0 := l0) rfl rfl hl0]
      have hk0 : σ l0 < n := by
        have := hσ l0 hl0
        rw [← hdim, hdn l0 hl0] at this; exact this
      simp only
      by_cases hall : ∀ l ∈ L, σ l = σ l0
      · rw [if_pos hall]
        rw [NDArray.get_build _ (by rw [validIdx_cons]; exact ⟨hk0, validIdx_nil⟩)]
        rw [list_sum_single _ _ (σ l0) List.nodup_range (List.mem_range.mpr hk0)]
        · rw [if_pos (fun l hl => hall l (by rw [hL]; simp [hl])),
            if_pos (fun l hl => hall l (by rw [hL]; simp [hl]))]
        · intro k _ hk
          rw [hL, List.mem_append] at hl0
          rcases hl0 with h | h
          · rw [if_neg (fun hh => hk (hh l0 h).symm), zero_mul]
          · rw [if_neg (fun hh => hk (hh l0 h).symm) (c := ∀ l ∈ restB tb.legs ps, σ l = k), mul_zero]
      · rw [if_neg hall, list_sum_zero]
        intro k _
        by_cases h1 : ∀ l ∈ restA ta.legs ps, σ l = k
        · by_cases h2 : ∀ l ∈ restB tb.legs ps, σ l = k
          · exfalso
            apply hall
            have hh : ∀ l ∈ L, σ l = k := by
              intro l hl
              rw [hL, List.mem_append] at hl
              rcases hl with h | h
              · exact h1 l h
              · exact h2 l h
            intro l hl
            rw [hh l hl, hh l0 hl0]
          · rw [if_neg h2, mul_zero]
        · rw [if_neg h1, zero_mul]

theorem contract_diag_diag [NonUnitalNonAssocSemiring R] (cast : R → R) {st : Store} (inv : BondInv st)
    {ta tb : Tensor R} (ga : GoodTensor st ta) (gb : GoodTensor st tb) (da : ta.diag = true)
    (db : tb.diag = true) (disj : ∀ x ∈ ta.legs, x ∉ tb.legs)
    (hshare : sharedPairs st ta.legs tb.legs ≠ []) :
    ∃ o, contractOrdered cast st ta tb none = .ok o ∧ Contracted st ta tb (sharedPairs st ta.legs tb.legs) o := by
  have ok := pairsOK_shared inv ga.nodup gb.nodup disj
  obtain ⟨st1, bs, hsn, hdim, hpairs, hco⟩ := contractOrdered_shared cast inv ga gb disj
  have hbs : bs ≠ [] := by intro h; rw [h] at hpairs; exact hshare hpairs.symm
  rw [hco, if_neg hbs]
  exact bondContract_diag_diag hsn ga gb da db hpairs ok hshare

end CTL
