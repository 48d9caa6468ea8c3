import Verif.Lemmas.Diag3

/-! Helper lemmas: Einstein sums do not depend on the order or orientation of the pairs. -/

namespace CTL
variable {R : Type}

theorem sum_map_add' [AddCommMonoid R] {α} (l : List α) (f g : α → R) :
    (l.map fun a => f a + g a).sum = (l.map f).sum + (l.map g).sum := by
  induction l with
  | nil => simp
  | cons a l ih => simp only [List.map_cons, List.sum_cons, ih]; exact add_add_add_comm _ _ _ _

theorem sum_comm' [AddCommMonoid R] {α β} (l : List α) (m : List β) (f : α → β → R) :
    (l.map fun a => (m.map fun b => f a b).sum).sum = (m.map fun b => (l.map fun a => f a b).sum).sum := by
  induction l with
  | nil => simp [List.sum_eq_zero]
  | cons a l ih => simp only [List.map_cons, List.sum_cons, ih, sum_map_add']

theorem set_comm (σ : Assign) {l m : LegId} (k k' : Nat) (h : l ≠ m) :
    (σ.set l k).set m k' = (σ.set m k').set l k := by
  funext x
  unfold Assign.set
  by_cases h1 : x = m
  · by_cases h2 : x = l
    · exact absurd (h2.symm.trans h1) h
    · subst h1; simp [h2]
  · simp [h1]

theorem set_comm_same (σ : Assign) (l m : LegId) (k : Nat) :
    (σ.set l k).set m k = (σ.set m k).set l k := by
  funext x
  unfold Assign.set
  by_cases h1 : x = m <;> by_cases h2 : x = l <;> simp [h1, h2]

/-- All legs of a list of pairs. -/
def pairLegs (ps : List (LegId × LegId)) : List LegId := ps.flatMap fun p => [p.1, p.2]

theorem pairLegs_perm (ps : List (LegId × LegId)) :
    (pairLegs ps).Perm (ps.map Prod.fst ++ ps.map Prod.snd) := by
  induction ps with
  | nil => exact .rfl
  | cons p ps ih =>
    simp only [pairLegs, List.flatMap_cons, List.map_cons, List.cons_append, List.nil_append] at ih ⊢
    refine List.Perm.cons _ ?_
    refine (List.Perm.cons _ ih).trans ?_
    exact List.perm_middle.symm

theorem sumBonds_perm [AddCommMonoid R] (dim : LegId → Nat) {ps qs : List (LegId × LegId)}
    (hp : ps.Perm qs) (nd : (pairLegs ps).Nodup) (f : Assign → R) (σ : Assign) :
    sumBonds dim ps f σ = sumBonds dim qs f σ := by
  induction hp generalizing σ with
  | nil => rfl
  | cons p _ ih =>
    obtain ⟨l, m⟩ := p
    simp only [sumBonds]
    congr 1
    apply List.map_congr_left
    intro k _
    apply ih
    simp only [pairLegs, List.flatMap_cons] at nd
    exact (List.nodup_append.mp nd).2.1
  | swap p q ps =>
    obtain ⟨a, b⟩ := p
    obtain ⟨c, d⟩ := q
    simp only [pairLegs, List.flatMap_cons, List.cons_append, List.nil_append, List.nodup_cons,
      List.mem_cons, not_or] at nd
    obtain ⟨⟨_, h1, h2, _⟩, ⟨h3, h4, _⟩, _⟩ := nd
    simp only [sumBonds]
    rw [sum_comm']
    congr 1
    apply List.map_congr_left
    intro k _
    congr 1
    apply List.map_congr_left
    intro k' _
    congr 1
    -- move the two assignments of the first pair past the second pair
    funext x
    unfold Assign.set
    by_cases hb : x = b <;> by_cases ha : x = a <;> by_cases hd : x = d <;> by_cases hc : x = c <;>
      simp_all
  | trans h1 _ ih1 ih2 =>
    rw [ih1 nd]
    apply ih2
    exact (h1.flatMap_right _).nodup_iff.mp nd

theorem sumBonds_swap [AddMonoid R] (dim : LegId → Nat) (ps : List (LegId × LegId))
    (hd : ∀ p ∈ ps, dim p.2 = dim p.1) (f : Assign → R) (σ : Assign) :
    sumBonds dim (ps.map Prod.swap) f σ = sumBonds dim ps f σ := by
  induction ps generalizing σ with
  | nil => rfl
  | cons p ps ih =>
    obtain ⟨l, m⟩ := p
    simp only [List.map_cons, Prod.swap, sumBonds]
    have h0 : dim m = dim l := hd (l, m) (by simp)
    rw [h0]
    congr 1
    apply List.map_congr_left
    intro k _
    rw [set_comm_same]
    exact ih (fun p hp => hd p (by simp [hp])) _

theorem sumBonds_congr [AddMonoid R] (dim : LegId → Nat) (ps : List (LegId × LegId)) (f g : Assign → R)
    (σ : Assign)
    (h : ∀ idx, ValidIdx (ps.map fun p => dim p.1) idx → f (assign σ ps idx) = g (assign σ ps idx)) :
    sumBonds dim ps f σ = sumBonds dim ps g σ := by
  rw [sumBonds_eq, sumBonds_eq]
  congr 1
  apply List.map_congr_left
  intro idx hidx
  exact h idx (mem_indices.mp hidx)

theorem sumBonds_append [AddMonoid R] (dim : LegId → Nat) (ps qs : List (LegId × LegId)) (f : Assign → R)
    (σ : Assign) : sumBonds dim (ps ++ qs) f σ = sumBonds dim ps (sumBonds dim qs f) σ := by
  induction ps generalizing σ with
  | nil => rfl
  | cons p ps ih =>
    obtain ⟨l, m⟩ := p
    simp only [List.cons_append, sumBonds, ih]

theorem sum_map_mul_left' [NonUnitalNonAssocSemiring R] {α} (l : List α) (c : R) (f : α → R) :
    (l.map fun a => c * f a).sum = c * (l.map f).sum := by
  induction l with
  | nil => simp
  | cons a l ih => simp [ih, mul_add]

theorem sum_map_mul_right' [NonUnitalNonAssocSemiring R] {α} (l : List α) (c : R) (f : α → R) :
    (l.map fun a => f a * c).sum = (l.map f).sum * c := by
  induction l with
  | nil => simp
  | cons a l ih => simp [ih, add_mul]

/-- A factor that does not depend on the summed legs can be taken out. -/
theorem sumBonds_mul_left [NonUnitalNonAssocSemiring R] (dim : LegId → Nat) (ps : List (LegId × LegId))
    (g f : Assign → R) (σ : Assign)
    (hg : ∀ idx, ValidIdx (ps.map fun p => dim p.1) idx → g (assign σ ps idx) = g σ) :
    sumBonds dim ps (fun τ => g τ * f τ) σ = g σ * sumBonds dim ps f σ := by
  rw [sumBonds_eq, sumBonds_eq, ← sum_map_mul_left']
  congr 1
  apply List.map_congr_left
  intro idx hidx
  rw [hg idx (mem_indices.mp hidx)]

theorem sharedPairs_swap {st : Store} (inv : BondInv st) {la lb : List LegId} (na : la.Nodup)
    (nb : lb.Nodup) : (sharedPairs st lb la).Perm ((sharedPairs st la lb).map Prod.swap) := by
  have n1 : ∀ x y : List LegId, x.Nodup → (sharedPairs st x y).Nodup := by
    intro x y hx
    apply List.Nodup.of_map Prod.fst
    rw [sharedPairs_fst]; exact hx.filter _
  rw [List.perm_ext_iff_of_nodup (n1 lb la nb)]
  · rintro ⟨x, y⟩
    rw [List.mem_map, mem_sharedPairs]
    constructor
    · rintro ⟨h1, h2, h3⟩
      exact ⟨(y, x), mem_sharedPairs.mpr ⟨h3, partner_symm inv h2, h1⟩, rfl⟩
    · rintro ⟨⟨a, b⟩, h, he⟩
      rw [mem_sharedPairs] at h
      simp only [Prod.swap, Prod.mk.injEq] at he
      obtain ⟨rfl, rfl⟩ := he
      exact ⟨h.2.2, partner_symm inv h.2.1, h.1⟩
  · exact (n1 la lb na).map Prod.swap_injective

theorem mem_shared_fst_iff_snd {st : Store} (inv : BondInv st) {la lb : List LegId} {l : LegId} :
    l ∈ (sharedPairs st la lb).map Prod.fst ↔ l ∈ (sharedPairs st lb la).map Prod.snd := by
  simp only [List.mem_map]
  constructor
  · rintro ⟨p, hp, rfl⟩
    rw [mem_sharedPairs] at hp
    exact ⟨(p.2, p.1), mem_sharedPairs.mpr ⟨hp.2.2, partner_symm inv hp.2.1, hp.1⟩, rfl⟩
  · rintro ⟨p, hp, rfl⟩
    rw [mem_sharedPairs] at hp
    exact ⟨(p.2, p.1), mem_sharedPairs.mpr ⟨hp.2.2, partner_symm inv hp.2.1, hp.1⟩, rfl⟩

/-- The specification of a contraction is symmetric in the operands. -/
theorem Contracted.swap [NonUnitalNonAssocCommSemiring R] {st : Store} (inv : BondInv st) {ta tb : Tensor R}
    (na : ta.legs.Nodup) (nb : tb.legs.Nodup) (disj : ∀ x ∈ ta.legs, x ∉ tb.legs)
    {o : ContractOut R} (h : Contracted st tb ta (sharedPairs st tb.legs ta.legs) o) :
    Contracted st ta tb (sharedPairs st ta.legs tb.legs) ⟨o.store, o.result, o.tb, o.ta⟩ := by
  refine ⟨?_, h.good, h.same, ?_, h.keepB, h.keepA⟩
  · refine h.legs.trans (List.perm_append_comm.trans ?_)
    simp only [restA, restB, mem_shared_fst_iff_snd inv (la := ta.legs), mem_shared_fst_iff_snd inv (la := tb.legs)]
    exact .rfl
  · intro σ hσ
    rw [h.entry σ hσ]
    have hd : ∀ x ∈ tb.legs, x ∉ ta.legs := fun x hx hx' => disj x hx' hx
    have nd := sharedPairs_nodup inv nb hd
    have nd' : (pairLegs (sharedPairs st tb.legs ta.legs)).Nodup := (pairLegs_perm _).nodup_iff.mpr nd
    rw [sumBonds_perm st.dim (sharedPairs_swap inv na nb) nd', sumBonds_swap]
    · congr 1
      funext τ
      exact mul_comm _ _
    · exact (pairsOK_shared inv na nb disj).dims

/-- Outer product of a diagonal tensor (with legs) and a dense one. -/
theorem outer_diag_dense [NonUnitalNonAssocCommSemiring R] (cast : R → R) {st : Store} (inv : BondInv st)
    {ta tb : Tensor R} (ga : GoodTensor st ta) (gb : GoodTensor st tb) (da : ta.diag = true)
    (db : tb.diag = false) (disj : ∀ x ∈ ta.legs, x ∉ tb.legs)
    (hshare : sharedPairs st ta.legs tb.legs = []) (hne : ta.legs ≠ [])
    (hcast : ∀ σ τ, cast (entry ta σ * entry tb τ) = entry ta σ * entry tb τ) :
    ∃ o, contractOrdered cast st ta tb none = .ok o ∧ Contracted st ta tb (sharedPairs st ta.legs tb.legs) o := by
  obtain ⟨arrA, hA, wA, _, sA0⟩ := ga.data
  obtain ⟨arrB, hB, wB, sB, _⟩ := gb.data
  have sB := sB db
  obtain ⟨sA, dA⟩ : arrA.shape = [ta.length] ∧ ∀ l ∈ ta.legs, st.dim l = ta.length := by
    rcases sA0 da with h | h
    · exact absurd h.1 hne
    · exact h.2
  obtain ⟨st1, bs, hsn, hdim, hpairs, hco⟩ := contractOrdered_shared cast inv ga gb disj
  have hbs : bs = [] := by rw [hshare] at hpairs; simpa using hpairs
  set n := ta.length with hn
  set la := ta.legs with hla
  set lb := tb.legs with hlb
  have hladim : la.map st.dim = List.replicate la.length n := by
    rw [List.eq_replicate_iff]
    refine ⟨by simp, ?_⟩
    intro b hb
    rw [List.mem_map] at hb
    obtain ⟨l, hl, rfl⟩ := hb
    exact dA l hl
  have hlen : la.length ≠ 0 := by simpa using hne
  set o := NDArray.build (arrA.outer arrB).shape fun i => cast ((arrA.outer arrB).get i) with ho
  have hosh : o.shape = n :: lb.map st.dim := by rw [ho]; simp [NDArray.outer, sA, sB]
  have hemb : o.embedDiagFirst la.length = .ok (NDArray.build (la.map st.dim ++ lb.map st.dim) fun idx =>
      if ∀ j ∈ idx.take la.length, j = (idx.take la.length).headD 0 then
        o.get ((idx.take la.length).headD 0 :: idx.drop la.length) else 0) := by
    unfold NDArray.embedDiagFirst
    rw [if_neg (by rw [hosh]; simp [hlen])]
    simp only [hosh, List.headD_cons, List.tail_cons, hladim]
  set d := (NDArray.build (la.map st.dim ++ lb.map st.dim) fun idx =>
      if ∀ j ∈ idx.take la.length, j = (idx.take la.length).headD 0 then
        o.get ((idx.take la.length).headD 0 :: idx.drop la.length) else 0) with hd
  obtain ⟨s, t, h1, h2, h3, _⟩ := newTensor_ok st1 (la ++ lb) d (by rw [hd, hdim]; simp)
  have hsame : SameNet st s := hsn.trans h2
  have hshape : ta.shape st1 ++ tb.shape st1 = (la ++ lb).map st1.dim := by
    unfold Tensor.shape
    simp only [da, if_true, db, Bool.false_eq_true, if_false, hB, sB, hdim, List.map_append, hladim]
    rfl
  have hoc : outerContract cast st1 ta tb = .ok (s, t) := by
    unfold outerContract
    simp only [da, db, Bool.and_false, Bool.false_eq_true, if_false, if_true, ga.notLike, hA, hB, ← hla,
      ← ho, hemb, bind, Except.bind]
    rw [hshape, h1]
  rw [hco, if_pos hbs, hoc]
  have rA : la.filter (fun l => decide (l ∉ (sharedPairs st la lb).map Prod.fst)) = la := by
    rw [hshare]; simp
  have rB : lb.filter (fun l => decide (l ∉ (sharedPairs st la lb).map Prod.snd)) = lb := by
    rw [hshare]; simp
  refine ⟨_, rfl, ?_, ?_, hsame, ?_, ⟨.rfl, ga.congr hsame, fun _ _ => rfl⟩, ⟨.rfl, gb.congr hsame, fun _ _ => rfl⟩⟩
  · rw [h3]; unfold restA restB; rw [← hla, ← hlb, rA, rB]
  · rw [h3]
    refine ⟨?_, rfl, ⟨_, rfl, ?_, fun _ => by simp only [h2.dim], fun h => by simp at h⟩⟩
    · have := (pairsOK_shared inv ga.nodup gb.nodup disj).rest_nodup
      unfold restA restB at this
      rw [← hla, ← hlb, rA, rB] at this
      exact this
    · have := NDArray.build_wf (la.map st.dim ++ lb.map st.dim) (fun idx =>
        if ∀ j ∈ idx.take la.length, j = (idx.take la.length).headD 0 then
          o.get ((idx.take la.length).headD 0 :: idx.drop la.length) else 0)
      simp only [NDArray.WF] at this ⊢
      rw [hd, this, hdim]; simp
  · rw [h3]
    intro σ hσ
    rw [hshare]
    simp only [sumBonds]
    obtain ⟨l0, ls, hl0⟩ : ∃ l0 ls, la = l0 :: ls := by
      cases h : la with
      | nil => exact absurd h hne
      | cons a l => exact ⟨a, l, rfl⟩
    have hl0m : l0 ∈ ta.legs := by rw [← hla, hl0]; simp
    have hk0 : σ l0 < n := by
      have := hσ l0 (by simp [hl0])
      rwa [dA l0 hl0m] at this
    have hvB : ValidIdx (lb.map st.dim) (lb.map σ) :=
      validIdx_map lb σ st.dim (fun x hx => hσ x (by simp [hx]))
    have hvA : ValidIdx (la.map st.dim) (la.map σ) :=
      validIdx_map la σ st.dim (fun x hx => hσ x (by simp [hx]))
    have hc := hcast σ σ
    rw [entry_diag hA da hl0m] at hc ⊢
    simp only [entry, Bool.false_eq_true, if_false, hB, db, ← hlb, ← hla] at hc ⊢
    have hdd : (⟨(la ++ lb).map st1.dim, d.data⟩ : NDArray R) = d := by
      rw [hdim, hd]; simp only [NDArray.build, List.map_append]
    rw [hdd, hd, List.map_append, NDArray.get_build _ (hvA.append hvB)]
    have hlen' : la.length = (la.map σ).length := by simp
    have ht : (la.map σ ++ lb.map σ).take la.length = la.map σ := by rw [hlen', List.take_left]
    have hdr : (la.map σ ++ lb.map σ).drop la.length = lb.map σ := by rw [hlen', List.drop_left]
    rw [ht, hdr]
    have hhd : (la.map σ).headD 0 = σ l0 := by rw [hl0]; simp
    rw [hhd]
    have hcond : (∀ j ∈ la.map σ, j = σ l0) ↔ (∀ l ∈ la, σ l = σ l0) := by
      simp [List.mem_map]
    by_cases hall : ∀ l ∈ la, σ l = σ l0
    · rw [if_pos (hcond.mpr hall), if_pos hall]
      rw [if_pos hall] at hc
      have hv : ValidIdx (n :: lb.map st.dim) (σ l0 :: lb.map σ) := by
        rw [validIdx_cons]; exact ⟨hk0, hvB⟩
      have hos2 : (arrA.outer arrB).shape = n :: lb.map st.dim := by simp [NDArray.outer, sA, sB]
      rw [ho, NDArray.get_build _ (by rw [hos2]; exact hv)]
      have : (arrA.outer arrB).get (σ l0 :: lb.map σ) = arrA.get [σ l0] * arrB.get (lb.map σ) := by
        unfold NDArray.outer
        rw [NDArray.get_build _ (by rw [sA, sB]; exact hv)]
        simp [sA]
      rw [this, hc]
    · rw [if_neg (fun h => hall (hcond.mp h)), if_neg hall, zero_mul]

/-- Outer product of a scalar diagonal tensor and a diagonal tensor with legs. -/
theorem outer_scalar_diag [NonUnitalNonAssocCommSemiring R] (cast : R → R) {st : Store} (inv : BondInv st)
    {ta tb : Tensor R} (ga : GoodTensor st ta) (gb : GoodTensor st tb) (da : ta.diag = true)
    (db : tb.diag = true) (hla : ta.legs = []) (hlb : tb.legs ≠ []) :
    ∃ o, contractOrdered cast st ta tb none = .ok o ∧ Contracted st ta tb (sharedPairs st ta.legs tb.legs) o := by
  obtain ⟨arrA, hA, wA, _, sA0⟩ := ga.data
  obtain ⟨arrB, hB, wB, _, sB0⟩ := gb.data
  obtain ⟨sB, dB⟩ : arrB.shape = [tb.length] ∧ ∀ l ∈ tb.legs, st.dim l = tb.length := by
    rcases sB0 db with h | h
    · exact absurd h.1 hlb
    · exact h.2
  obtain ⟨sA, lA⟩ : arrA.shape = [] ∧ ta.length = 1 := by
    rcases sA0 da with h | h
    · exact h.2
    · exact absurd hla h.1
  have disj : ∀ x ∈ ta.legs, x ∉ tb.legs := by rw [hla]; simp
  have hshare : sharedPairs st ta.legs tb.legs = [] := by rw [hla]; rfl
  obtain ⟨st1, bs, hsn, hdim, hpairs, hco⟩ := contractOrdered_shared cast inv ga gb disj
  have hbs : bs = [] := by rw [hshare] at hpairs; simpa using hpairs
  set n := tb.length with hn
  set lb := tb.legs with hlbd
  have hmul : arrA.mulBroadcast arrB = .ok (NDArray.build [n] fun idx => arrA.get [] * arrB.get idx) := by
    unfold NDArray.mulBroadcast
    rw [if_neg (by rw [sA, sB]; simp), if_pos sA, sB]
  obtain ⟨s, hnd, hss⟩ := newDiagonal_ok st1 lb (NDArray.build [n] fun idx => arrA.get [] * arrB.get idx) n hlb
    (fun l hl => by rw [hdim]; exact dB l hl) rfl
  have hsame : SameNet st s := hsn.trans hss
  have hlbdim : lb.map st.dim = List.replicate lb.length n := by
    rw [List.eq_replicate_iff]
    refine ⟨by simp, ?_⟩
    intro b hb
    rw [List.mem_map] at hb
    obtain ⟨l, hl, rfl⟩ := hb
    exact dB l hl
  have hoc : outerContract cast st1 ta tb = .ok (s, ⟨st1.nextTensor, lb,
      some (NDArray.build [n] fun idx => arrA.get [] * arrB.get idx), true, false, n⟩) := by
    unfold outerContract
    simp only [da, db, Bool.and_self, if_true, ga.notLike, Bool.false_eq_true, if_false, hA, hB, hmul,
      bind, Except.bind, Tensor.shape, hla, List.length_nil, List.replicate_zero, List.nil_append]
    rw [← hlbd, ← hn, ← hlbdim, ← hdim, hnd]
  rw [hco, if_pos hbs, hoc]
  refine ⟨_, rfl, ?_, ⟨gb.nodup, rfl, ⟨_, rfl, NDArray.build_wf _ _, fun h => by simp at h,
    fun _ => Or.inr ⟨hlb, rfl, ?_⟩⟩⟩, hsame, ?_, ⟨.rfl, ga.congr hsame, fun _ _ => rfl⟩,
    ⟨.rfl, gb.congr hsame, fun _ _ => rfl⟩⟩
  · rw [hla]; simp [restA, restB, sharedPairs, ← hlbd]
  · intro l hl; rw [hss.dim, hdim]; exact dB l hl
  · intro σ hσ
    rw [hshare]
    simp only [sumBonds]
    have hl0 := headD_mem_of_ne 0 hlb
    set l0 := lb.headD 0
    rw [entry_diag (t := tb) hB db hl0, entry_diag (t := ⟨st1.nextTensor, lb,
      some (NDArray.build [n] fun idx => arrA.get [] * arrB.get idx), true, false, n⟩) (l0 := l0) rfl rfl hl0]
    have hk0 : σ l0 < n := by
      have := hσ l0 hl0
      rwa [dB l0 hl0] at this
    have eA : entry ta σ = arrA.get [] := by simp [entry, hA, da, hla]
    rw [eA]
    simp only [← hlbd]
    by_cases hall : ∀ l ∈ lb, σ l = σ l0
    · rw [if_pos hall, if_pos hall, NDArray.get_build _ (by rw [validIdx_cons]; exact ⟨hk0, validIdx_nil⟩)]
    · rw [if_neg hall, if_neg hall, mul_zero]

end CTL
