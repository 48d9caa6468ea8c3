import Verif.Lemmas.SumBonds

/-! Helper lemmas: outer products with diagonal operands, and the expansion of a diagonal tensor. -/

namespace CTL
variable {R : Type}

/-- Outer product of a diagonal tensor with legs and a scalar diagonal tensor. -/
theorem outer_diag_scalar [NonUnitalNonAssocCommSemiring R] (cast : R → R) {st : Store} (inv : BondInv st)
    {ta tb : Tensor R} (ga : GoodTensor st ta) (gb : GoodTensor st tb) (da : ta.diag = true)
    (db : tb.diag = true) (hla : ta.legs ≠ []) (hlb : tb.legs = []) :
    ∃ o, contractOrdered cast st ta tb none = .ok o ∧ Contracted st ta tb (sharedPairs st ta.legs tb.legs) o := by
  obtain ⟨arrA, hA, wA, _, sA0⟩ := ga.data
  obtain ⟨arrB, hB, wB, _, sB0⟩ := gb.data
  obtain ⟨sA, dA⟩ : arrA.shape = [ta.length] ∧ ∀ l ∈ ta.legs, st.dim l = ta.length := by
    rcases sA0 da with h | h
    · exact absurd h.1 hla
    · exact h.2
  obtain ⟨sB, lB⟩ : arrB.shape = [] ∧ tb.length = 1 := by
    rcases sB0 db with h | h
    · exact h.2
    · exact absurd hlb h.1
  have disj : ∀ x ∈ ta.legs, x ∉ tb.legs := by rw [hlb]; simp
  have hshare : sharedPairs st ta.legs tb.legs = [] := by
    rw [hlb, List.eq_nil_iff_forall_not_mem]
    intro p hp
    exact absurd (mem_sharedPairs.mp hp).2.2 (by simp)
  obtain ⟨st1, bs, hsn, hdim, hpairs, hco⟩ := contractOrdered_shared cast inv ga gb disj
  have hbs : bs = [] := by rw [hshare] at hpairs; simpa using hpairs
  set n := ta.length with hn
  set la := ta.legs with hlad
  have hmul : arrA.mulBroadcast arrB = .ok (NDArray.build [n] fun idx => arrA.get idx * arrB.get []) := by
    unfold NDArray.mulBroadcast
    rw [if_neg (by rw [sA, sB]; simp), if_neg (by rw [sA]; simp), if_pos sB, sA]
  obtain ⟨s, hnd, hss⟩ := newDiagonal_ok st1 la (NDArray.build [n] fun idx => arrA.get idx * arrB.get []) n hla
    (fun l hl => by rw [hdim]; exact dA l hl) rfl
  have hsame : SameNet st s := hsn.trans hss
  have hladim : la.map st.dim = List.replicate la.length n := by
    rw [List.eq_replicate_iff]
    refine ⟨by simp, ?_⟩
    intro b hb
    rw [List.mem_map] at hb
    obtain ⟨l, hl, rfl⟩ := hb
    exact dA l hl
  have hoc : outerContract cast st1 ta tb = .ok (s, ⟨st1.nextTensor, la,
      some (NDArray.build [n] fun idx => arrA.get idx * arrB.get []), true, false, n⟩) := by
    unfold outerContract
    simp only [da, db, Bool.and_self, if_true, ga.notLike, Bool.false_eq_true, if_false, hA, hB, hmul,
      bind, Except.bind, Tensor.shape, hlb, List.length_nil, List.replicate_zero, List.append_nil]
    rw [← hlad, ← hn, ← hladim, ← hdim, hnd]
  rw [hco, if_pos hbs, hoc]
  refine ⟨_, rfl, ?_, ⟨ga.nodup, rfl, ⟨_, rfl, NDArray.build_wf _ _, fun h => by simp at h,
    fun _ => Or.inr ⟨hla, rfl, ?_⟩⟩⟩, hsame, ?_, ⟨.rfl, ga.congr hsame, fun _ _ => rfl⟩,
    ⟨.rfl, gb.congr hsame, fun _ _ => rfl⟩⟩
  · rw [hshare]; simp [restA, restB, hlb, ← hlad]
  · intro l hl; rw [hss.dim, hdim]; exact dA l hl
  · intro σ hσ
    rw [hshare]
    simp only [sumBonds]
    have hl0 := headD_mem_of_ne 0 hla
    set l0 := la.headD 0
    rw [entry_diag (t := ta) hA da hl0, entry_diag (t := ⟨st1.nextTensor, la,
      some (NDArray.build [n] fun idx => arrA.get idx * arrB.get []), true, false, n⟩) (l0 := l0) rfl rfl hl0]
    have hk0 : σ l0 < n := by
      have := hσ l0 hl0
      rwa [dA l0 hl0] at this
    have eB : entry tb σ = arrB.get [] := by simp [entry, hB, db, hlb]
    rw [eB]
    simp only [← hlad]
    by_cases hall : ∀ l ∈ la, σ l = σ l0
    · rw [if_pos hall, if_pos hall, NDArray.get_build _ (by rw [validIdx_cons]; exact ⟨hk0, validIdx_nil⟩)]
    · rw [if_neg hall, if_neg hall, zero_mul]

/-- What the code returns for the outer product of two diagonal tensors with legs: the lengths must
agree, and the result is one diagonal tensor over all legs. -/
theorem outer_diag_diag [NonUnitalNonAssocCommSemiring R] (cast : R → R) {st : Store} (inv : BondInv st)
    {ta tb : Tensor R} (ga : GoodTensor st ta) (gb : GoodTensor st tb) (da : ta.diag = true)
    (db : tb.diag = true) (disj : ∀ x ∈ ta.legs, x ∉ tb.legs) (hla : ta.legs ≠ []) (hlb : tb.legs ≠ [])
    (hshare : sharedPairs st ta.legs tb.legs = []) :
    (ta.length ≠ tb.length → contractOrdered cast st ta tb none = .error .valueError) ∧
    (ta.length = tb.length → ∃ o, contractOrdered cast st ta tb none = .ok o ∧
      o.result.legs = ta.legs ++ tb.legs ∧ o.result.diag = true ∧ GoodTensor o.store o.result ∧
      ∀ σ, InRange st.dim o.result.legs σ → entry o.result σ =
        if ∀ l ∈ ta.legs, ∀ m ∈ tb.legs, σ l = σ m then entry ta σ * entry tb σ else 0) := by
  obtain ⟨arrA, hA, wA, _, sA0⟩ := ga.data
  obtain ⟨arrB, hB, wB, _, sB0⟩ := gb.data
  obtain ⟨sA, dA⟩ : arrA.shape = [ta.length] ∧ ∀ l ∈ ta.legs, st.dim l = ta.length := by
    rcases sA0 da with h | h
    · exact absurd h.1 hla
    · exact h.2
  obtain ⟨sB, dB⟩ : arrB.shape = [tb.length] ∧ ∀ l ∈ tb.legs, st.dim l = tb.length := by
    rcases sB0 db with h | h
    · exact absurd h.1 hlb
    · exact h.2
  obtain ⟨st1, bs, hsn, hdim, hpairs, hco⟩ := contractOrdered_shared cast inv ga gb disj
  have hbs : bs = [] := by rw [hshare] at hpairs; simpa using hpairs
  rw [hco, if_pos hbs]
  obtain ⟨x, xs, hx⟩ : ∃ x xs, ta.legs = x :: xs := by
    cases h : ta.legs with
    | nil => exact absurd h hla
    | cons x xs => exact ⟨x, xs, rfl⟩
  obtain ⟨y, ys, hy⟩ : ∃ y ys, tb.legs = y :: ys := by
    cases h : tb.legs with
    | nil => exact absurd h hlb
    | cons x xs => exact ⟨x, xs, rfl⟩
  constructor
  · intro hne
    have hbad : ∀ sh d, newDiagonal (R := R) st1 sh d (ta.legs ++ tb.legs) = .error .valueError := by
      intro sh d
      unfold newDiagonal
      rw [if_pos]
      intro hall
      have h1 := hall y (by simp [hy])
      have h2 : ((ta.legs ++ tb.legs).map st1.dim).headD 0 = st1.dim x := by simp [hx]
      rw [h2, hdim, dA x (by simp [hx]), dB y (by simp [hy])] at h1
      exact hne h1.symm
    have hoc : outerContract cast st1 ta tb = .error .valueError := by
      unfold outerContract
      simp only [da, db, Bool.and_self, if_true, ga.notLike, Bool.false_eq_true, if_false, hA, hB,
        bind, Except.bind, hbad]
      cases hm : arrA.mulBroadcast arrB with
      | error e =>
        unfold NDArray.mulBroadcast at hm
        split at hm
        · simp at hm
        · split at hm
          · simp at hm
          · split at hm
            · simp at hm
            · split at hm
              · simp at hm
              · simp at hm
              · simp only [Except.error.injEq] at hm; rw [← hm]
      | ok d => rfl
    rw [hoc]; rfl
  · intro heq
    set n := ta.length with hn
    have hmul : arrA.mulBroadcast arrB = .ok (NDArray.build [n] fun idx => arrA.get idx * arrB.get idx) := by
      unfold NDArray.mulBroadcast
      rw [if_pos (by rw [sA, sB, heq]), sA]
    have hdn : ∀ l ∈ ta.legs ++ tb.legs, st1.dim l = n := by
      intro l hl
      rw [hdim]
      rw [List.mem_append] at hl
      rcases hl with h | h
      · exact dA l h
      · rw [dB l h, heq]
    obtain ⟨s, hnd, hss⟩ := newDiagonal_ok st1 (ta.legs ++ tb.legs)
      (NDArray.build [n] fun idx => arrA.get idx * arrB.get idx) n (by simp [hla]) hdn rfl
    have hshape : ta.shape st1 ++ tb.shape st1 = (ta.legs ++ tb.legs).map st1.dim := by
      have : (ta.legs ++ tb.legs).map st1.dim = List.replicate (ta.legs.length + tb.legs.length) n := by
        rw [List.eq_replicate_iff]
        refine ⟨by simp, ?_⟩
        intro b hb
        rw [List.mem_map] at hb
        obtain ⟨l, hl, rfl⟩ := hb
        exact hdn l hl
      rw [this]
      simp only [Tensor.shape, da, db, if_true, ← heq, List.replicate_add, ← hn]
    have hoc : outerContract cast st1 ta tb = .ok (s, ⟨st1.nextTensor, ta.legs ++ tb.legs,
        some (NDArray.build [n] fun idx => arrA.get idx * arrB.get idx), true, false, n⟩) := by
      unfold outerContract
      simp only [da, db, Bool.and_self, if_true, ga.notLike, Bool.false_eq_true, if_false, hA, hB, hmul,
        bind, Except.bind]
      rw [hshape, hnd]
    have hsame : SameNet st s := hsn.trans hss
    rw [hoc]
    refine ⟨_, rfl, rfl, rfl, ⟨?_, rfl, ⟨_, rfl, NDArray.build_wf _ _, fun h => by simp at h,
      fun _ => Or.inr ⟨by simp [hla], rfl, ?_⟩⟩⟩, ?_⟩
    · rw [List.nodup_append]
      exact ⟨ga.nodup, gb.nodup, fun a ha b hb he => disj a ha (he ▸ hb)⟩
    · intro l hl; rw [hss.dim]; exact hdn l hl
    · intro σ hσ
      have hxl : x ∈ ta.legs := by simp [hx]
      have hyl : y ∈ tb.legs := by simp [hy]
      have hxr : x ∈ ta.legs ++ tb.legs := by simp [hx]
      have hk0 : σ x < n := by
        have := hσ x hxr
        rwa [dA x hxl] at this
      rw [entry_diag (t := ta) hA da hxl, entry_diag (t := tb) hB db hyl,
        entry_diag (t := ⟨st1.nextTensor, ta.legs ++ tb.legs,
        some (NDArray.build [n] fun idx => arrA.get idx * arrB.get idx), true, false, n⟩) rfl rfl hxr]
      simp only
      by_cases hc : ∀ l ∈ ta.legs, ∀ m ∈ tb.legs, σ l = σ m
      · rw [if_pos hc]
        have h1 : ∀ l ∈ ta.legs ++ tb.legs, σ l = σ x := by
          intro l hl
          rw [List.mem_append] at hl
          rcases hl with h | h
          · rw [hc l h y hyl, hc x hxl y hyl]
          · exact (hc x hxl l h).symm
        rw [if_pos h1, if_pos (fun l hl => h1 l (by simp [hl])),
          if_pos (fun l hl => by rw [h1 l (by simp [hl]), h1 y (by simp [hyl])]),
          NDArray.get_build _ (by rw [validIdx_cons]; exact ⟨hk0, validIdx_nil⟩), hc x hxl y hyl]
      · rw [if_neg hc, if_neg]
        intro h1
        apply hc
        intro l hl m hm
        rw [h1 l (by simp [hl]), h1 m (by simp [hm])]

/-- The dense tensor with the same legs and the same entries. -/
def Tensor.expand [Zero R] (st : Store) (t : Tensor R) : Tensor R :=
  { t with diag := false, length := 0, a := some (NDArray.build (t.legs.map st.dim) fun idx =>
      entry t fun l => idx.getD (t.legs.idxOf l) 0) }

theorem expand_entry [Zero R] {st : Store} {t : Tensor R} (g : GoodTensor st t) {σ : Assign}
    (hσ : InRange st.dim t.legs σ) : entry (t.expand st) σ = entry t σ := by
  have hv := validIdx_map t.legs σ st.dim hσ
  have h0 : entry (t.expand st) σ
      = entry t fun l => (t.legs.map σ).getD (t.legs.idxOf l) 0 := by
    have : entry (t.expand st) σ = (NDArray.build (t.legs.map st.dim) fun idx =>
      entry t fun l => idx.getD (t.legs.idxOf l) 0).get (t.legs.map σ) := by
      simp [entry, Tensor.expand]
    rw [this, NDArray.get_build _ hv]
  rw [h0]
  have hag : ∀ l ∈ t.legs, (t.legs.map σ).getD (t.legs.idxOf l) 0 = σ l := by
    intro l hl
    have hlt := List.idxOf_lt_length_of_mem hl
    rw [List.getD_eq_getElem?_getD, List.getElem?_map, List.getElem?_eq_getElem hlt]
    simp [List.getElem_idxOf]
  obtain ⟨arr, ha, _⟩ := g.data
  unfold entry
  rw [ha]
  simp only
  cases hd : t.diag
  · simp only [Bool.false_eq_true, if_false]
    congr 1
    apply List.map_congr_left
    exact hag
  · simp only [if_true]
    cases hl : t.legs with
    | nil => rfl
    | cons x xs =>
      rw [hl] at hag
      simp only
      rw [hag x (by simp)]
      have : (∀ m ∈ xs, ((x :: xs).map σ).getD ((x :: xs).idxOf m) 0 = σ x) ↔ ∀ m ∈ xs, σ m = σ x := by
        constructor
        · intro h m hm; rw [← hag m (by simp [hm])]; exact h m hm
        · intro h m hm; rw [hag m (by simp [hm])]; exact h m hm
      simp only [this]

theorem expand_good [Zero R] {st : Store} {t : Tensor R} (g : GoodTensor st t) :
    GoodTensor st (t.expand st) :=
  ⟨g.nodup, g.notLike, ⟨_, rfl, NDArray.build_wf _ _, fun _ => rfl, fun h => by simp [Tensor.expand] at h⟩⟩

theorem expand_sum [NonUnitalNonAssocSemiring R] {st : Store} {ta tb : Tensor R} (ga : GoodTensor st ta)
    (gb : GoodTensor st tb) {ps : List (LegId × LegId)} (ok : PairsOK st ta.legs tb.legs ps) {σ : Assign}
    (hσ : InRange st.dim (restA ta.legs ps ++ restB tb.legs ps) σ) :
    sumBonds st.dim ps (fun τ => entry (ta.expand st) τ * entry (tb.expand st) τ) σ
      = sumBonds st.dim ps (fun τ => entry ta τ * entry tb τ) σ := by
  apply sumBonds_congr
  intro idx hidx
  obtain ⟨r1, r2⟩ := ok.inRange hσ hidx
  simp only [expand_entry ga r1, expand_entry gb r2]

end CTL
