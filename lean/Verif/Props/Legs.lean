import Verif.Lemmas.Legs
import Verif.Props.Contract

/-!
# C15, C16, C17 – reordering, matricising and fusing legs
-/

namespace CTL
variable {R : Type}

/-! ## C15 -/

/-- `moveLegsToFront`: the given legs come first in the given order, the others keep their order, and every
entry stays where it was as a function of the legs. -/
theorem C15_moveLegsToFront [Zero R] {st : Store} {t : Tensor R} (g : GoodTensor st t)
    (front : List LegId) (ndf : front.Nodup) (hsub : front ⊆ t.legs) :
    ∃ t', t.moveLegsToFront front = (t', .ok ()) ∧
      t'.legs = front ++ t.legs.filter (fun l => decide (l ∉ front)) ∧ GoodTensor st t' ∧
      ∀ σ, InRange st.dim t.legs σ → entry t' σ = entry t σ := by
  obtain ⟨t', h1, h2, _, _, _, h3, _, h4⟩ := moveLegsToFront_ok g front ndf hsub
  exact ⟨t', h1, h2, h3, h4⟩

/-- `moveLabelsToFront`, for labels that the tensor has often enough (labels need not be distinct). -/
theorem C15_moveLabelsToFront [Zero R] {st : Store} {t : Tensor R} (g : GoodTensor st t)
    (labs : List String) (h : ∀ x, labs.count x ≤ (t.labels st).count x) :
    ∃ t' front, t.moveLabelsToFront st labs = (t', .ok ()) ∧ front.map st.name = labs ∧
      t'.legs = front ++ t.legs.filter (fun l => decide (l ∉ front)) ∧ GoodTensor st t' ∧
      t'.legs.Perm t.legs ∧
      ∀ σ, InRange st.dim t.legs σ → entry t' σ = entry t σ := by
  obtain ⟨front, h1, h2, h3, h4⟩ := getLegsByLabel_ok st t g.nodup labs h
  obtain ⟨t', k1, k2, _, _, _, k3, k4, k5⟩ := moveLegsToFront_ok g front h2 h3
  refine ⟨t', front, ?_, h4, k2, k3, k4, k5⟩
  unfold Tensor.moveLabelsToFront
  rw [h1]
  exact k1

/-- ... and it raises ValueError, changing nothing, when a label is missing. -/
theorem C15_moveLabelsToFront_missing [Zero R] (st : Store) (t : Tensor R) (labs : List String)
    (h : ∃ x, (t.labels st).count x < labs.count x) :
    t.moveLabelsToFront st labs = (t, .error .valueError) := by
  unfold Tensor.moveLabelsToFront
  rw [getLegsByLabel_error st t labs h]

/-- `reArrange` puts the labels in the requested order exactly when they are a permutation of the labels
of the tensor; the entries stay where they were. -/
theorem C15_reArrange [Zero R] {st : Store} {t : Tensor R} (g : GoodTensor st t) (labs : List String) :
    ((t.labels st).Perm labs → ∃ t', t.reArrange st labs = (t', .ok ()) ∧ t'.labels st = labs ∧
      t'.legs.Perm t.legs ∧ GoodTensor st t' ∧
      ∀ σ, InRange st.dim t.legs σ → entry t' σ = entry t σ) ∧
    (¬ (t.labels st).Perm labs → t.reArrange st labs = (t, .error .assertionError)) := by
  constructor
  · intro hp
    obtain ⟨t', front, h1, h2, h3, h4, h5, h6⟩ := C15_moveLabelsToFront g labs
      (fun x => le_of_eq (hp.count_eq x).symm)
    refine ⟨t', ?_, ?_, h5, h4, h6⟩
    · unfold Tensor.reArrange
      rw [if_pos ((C37_compareLists _ _).mpr hp)]
      exact h1
    · have hlen : t'.legs.length = front.length := by
        rw [h5.length_eq, ← List.length_map st.name (as := front), h2, ← hp.length_eq]
        simp [Tensor.labels]
      rw [h3, List.length_append] at hlen
      have : t.legs.filter (fun l => decide (l ∉ front)) = [] := List.length_eq_zero_iff.mp (by omega)
      unfold Tensor.labels
      rw [h3, this, List.append_nil, h2]
  · intro hp
    unfold Tensor.reArrange
    rw [if_neg]
    intro h
    exact hp ((C37_compareLists _ _).mp h)

/-- The array returned by `toTensor(labels)` lists the entries of the tensor with the axes in the requested
order, for every tensor with legs or dense (a diagonal tensor is expanded; `castF` is the conversion to the
float dtype, assumed to lose nothing). -/
theorem C15_toTensor [Zero R] (castF : R → R) {st : Store} {t : Tensor R} (g : GoodTensor st t)
    (hd : t.diag = false ∨ t.legs ≠ []) (hc : t.diag = true → ∀ x, castF x = x)
    (labels : Option (List String)) (hl : ∀ ls, labels = some ls → (t.labels st).Perm ls) :
    ∃ t' arr, t.toTensor castF st labels = (t', .ok arr) ∧
      (t'.labels st = labels.getD (t.labels st)) ∧ t'.legs.Perm t.legs ∧ arr.WF ∧
      arr.shape = t'.legs.map st.dim ∧
      ∀ σ, InRange st.dim t.legs σ → arr.get (t'.legs.map σ) = entry t σ := by
  have key : ∃ t', t.reArrangeOpt st labels = (t', .ok ()) ∧
      t'.labels st = labels.getD (t.labels st) ∧ t'.legs.Perm t.legs ∧ GoodTensor st t' ∧ t'.diag = t.diag ∧
      ∀ σ, InRange st.dim t.legs σ → entry t' σ = entry t σ := by
    cases labels with
    | none => exact ⟨t, rfl, rfl, List.Perm.refl _, g, rfl, fun _ _ => rfl⟩
    | some ls =>
      obtain ⟨t', h1, h2, h3, h4, h5⟩ := (C15_reArrange g ls).1 (hl ls rfl)
      refine ⟨t', h1, h2, h3, h4, ?_, h5⟩
      have hp := hl ls rfl
      obtain ⟨front, f1, f2, f3, f4⟩ := getLegsByLabel_ok st t g.nodup ls
        (fun x => le_of_eq (hp.count_eq x).symm)
      obtain ⟨t'', k1, _, _, k2, _⟩ := moveLegsToFront_ok g front f2 f3
      unfold Tensor.reArrange at h1
      rw [if_pos ((C37_compareLists _ _).mpr hp)] at h1
      unfold Tensor.moveLabelsToFront at h1
      rw [f1] at h1
      simp only [k1, Prod.mk.injEq, and_true] at h1
      rw [← h1, k2]
  obtain ⟨t', h1, h2, h3, h4, h5, h6⟩ := key
  obtain ⟨arr, ha, w, s1, s2⟩ := h4.data
  unfold Tensor.toTensor
  simp only [g.notLike, Bool.false_eq_true, if_false]
  rw [h1]
  simp only [ha]
  have hr : ∀ σ, InRange st.dim t.legs σ → InRange st.dim t'.legs σ :=
    fun σ hσ l hl => hσ l (h3.mem_iff.mp hl)
  cases dg : t'.diag
  · simp only [Bool.false_eq_true, if_false]
    refine ⟨t', arr, rfl, h2, h3, w, s1 dg, ?_⟩
    intro σ hσ
    rw [← h6 σ hσ]
    simp [entry, ha, dg]
  · simp only [if_true]
    have hne : t'.legs ≠ [] := by
      rcases hd with hd | hd
      · rw [← h5, dg] at hd; cases hd
      · intro h; apply hd; rw [h] at h3; exact h3.symm.eq_nil
    rcases s2 dg with ⟨e, _⟩ | ⟨_, hs, hdim⟩
    · exact absurd e hne
    · have hrep : t'.legs.map st.dim = List.replicate t'.legs.length t'.length := by
        rw [List.eq_replicate_iff]
        refine ⟨by simp, ?_⟩
        intro b hb
        rw [List.mem_map] at hb
        obtain ⟨l, hl, rfl⟩ := hb
        exact hdim l hl
      have hl0 : t'.legs.length ≠ 0 := by
        intro h; exact hne (List.length_eq_zero_iff.mp h)
      refine ⟨t', NDArray.build (List.replicate t'.legs.length t'.length) fun idx =>
        if ∀ j ∈ idx, j = idx.headD 0 then castF (arr.get [idx.headD 0]) else 0,
        ?_, h2, h3, NDArray.build_wf _ _, ?_, ?_⟩
      · unfold Tensor.diagonalNDTensor
        simp only [hs, hl0, if_false]
      · rw [hrep]; rfl
      · intro σ hσ
        rw [← h6 σ hσ]
        rw [NDArray.get_build]
        · obtain ⟨l0, ls, hls⟩ := List.exists_cons_of_ne_nil hne
          rw [entry_diag (l0 := l0) ha dg (by simp [hls])]
          have e1 : (t'.legs.map σ).headD 0 = σ l0 := by simp [hls]
          rw [e1]
          have e2 : (∀ j ∈ t'.legs.map σ, j = σ l0) ↔ (∀ l ∈ t'.legs, σ l = σ l0) := by simp
          simp only [e2, hc (h5 ▸ dg)]
        · rw [← hrep]
          exact validIdx_map _ _ _ (hr σ hσ)

/-- Called with the list object `t.legs` itself (an obvious way to say "keep this order"),
`moveLegsToFront` loses a leg and doubles another. -/
theorem C15_moveLegsToFront_own_list_wrong :
    exA.legs = [0, 1] ∧ exA.moveLegsToFrontAliased.legs = [1, 1] := by decide

/-- C15 applies: two legs of which the second is moved to the front. -/
example : GoodTensor exStore exA ∧ [1].Nodup ∧ [1] ⊆ exA.legs ∧
    (∀ x, ["b"].count x ≤ (exA.labels exStore).count x) ∧ (exA.labels exStore).Perm ["b", "a"] := by
  refine ⟨exA_good, by decide, by decide, ?_, by decide⟩
  intro x
  rw [show exA.labels exStore = ["a", "b"] by rfl]
  exact List.Sublist.count_le x (by decide)

example : (exA.moveLegsToFront [1]).1.a = some ⟨[3, 2], [1, 4, 2, 5, 3, 6]⟩ := by decide
example : (exA.toTensor id exStore (some ["b", "a"])).2 = .ok ⟨[3, 2], [1, 4, 2, 5, 3, 6]⟩ := by rfl

/-! ## C16 -/

/-- `toMatrix(rows, cols)` with both lists given. -/
theorem C16_toMatrix_both [Zero R] {st : Store} {t : Tensor R} (g : GoodTensor st t) (dg : t.diag = false)
    (rows cols : List LegId) (hr : rows ≠ []) (hc : cols ≠ []) (hp : (rows ++ cols).Perm t.legs) :
    ∃ m, t.toMatrix (some rows) (some cols) = .ok m ∧ m.WF ∧
      m.shape = [(rows.map st.dim).prod, (cols.map st.dim).prod] ∧
      ∀ σ, InRange st.dim t.legs σ →
        m.get [ravel (rows.map st.dim) (rows.map σ), ravel (cols.map st.dim) (cols.map σ)] = entry t σ := by
  obtain ⟨arr, ha, w, s, _⟩ := g.data
  obtain ⟨m, h1, h2, h3, h4⟩ := toMatrix_core arr t.legs rows cols st.dim g.nodup hp (s dg)
  refine ⟨m, ?_, h2, h3, ?_⟩
  · have hrs : rows ⊆ t.legs := fun x hx => hp.mem_iff.mp (by simp [hx])
    have hcs : cols ⊆ t.legs := fun x hx => hp.mem_iff.mp (by simp [hx])
    unfold Tensor.toMatrix Tensor.matrixLegs
    simp only [g.notLike, Bool.false_eq_true, if_false, reduceCtorEq, and_self, Option.some.injEq, hr, hc,
      or_self, bind, Except.bind, pure, Except.pure, pyAssert, (C37_compareLists _ _).mpr hp, if_true,
      Tensor.getLegIndices, mapM_pyIndex _ _ hrs, mapM_pyIndex _ _ hcs, ha]
    exact h1
  · intro σ hσ
    rw [h4 σ hσ]
    simp [entry, ha, dg]

/-- With one list given, the other one defaults to the remaining legs in their order. -/
theorem C16_toMatrix_rows [Zero R] {st : Store} {t : Tensor R} (g : GoodTensor st t) (dg : t.diag = false)
    (rows : List LegId) (hr : rows ≠ []) (nd : rows.Nodup) (hsub : rows ⊆ t.legs) :
    ∃ m, t.toMatrix (some rows) none = .ok m ∧ m.WF ∧
      m.shape = [(rows.map st.dim).prod, ((t.legs.filter fun l => decide (l ∉ rows)).map st.dim).prod] ∧
      ∀ σ, InRange st.dim t.legs σ →
        m.get [ravel (rows.map st.dim) (rows.map σ),
          ravel ((t.legs.filter fun l => decide (l ∉ rows)).map st.dim)
            ((t.legs.filter fun l => decide (l ∉ rows)).map σ)] = entry t σ := by
  obtain ⟨arr, ha, w, s, _⟩ := g.data
  obtain ⟨m, h1, h2, h3, h4⟩ := toMatrix_rows g.nodup g.notLike ha (s dg) rows hr nd hsub
  refine ⟨m, h1, h2, h3, ?_⟩
  intro σ hσ
  rw [h4 σ hσ]
  simp [entry, ha, dg]

theorem C16_toMatrix_cols [Zero R] {st : Store} {t : Tensor R} (g : GoodTensor st t) (dg : t.diag = false)
    (cols : List LegId) (hc : cols ≠ []) (nd : cols.Nodup) (hsub : cols ⊆ t.legs) :
    ∃ m, t.toMatrix none (some cols) = .ok m ∧ m.WF ∧
      m.shape = [((t.legs.filter fun l => decide (l ∉ cols)).map st.dim).prod, (cols.map st.dim).prod] ∧
      ∀ σ, InRange st.dim t.legs σ →
        m.get [ravel ((t.legs.filter fun l => decide (l ∉ cols)).map st.dim)
            ((t.legs.filter fun l => decide (l ∉ cols)).map σ),
          ravel (cols.map st.dim) (cols.map σ)] = entry t σ := by
  obtain ⟨arr, ha, w, s, _⟩ := g.data
  obtain ⟨m, h1, h2, h3, h4⟩ := toMatrix_cols g.nodup g.notLike ha (s dg) cols hc nd hsub
  refine ⟨m, h1, h2, h3, ?_⟩
  intro σ hσ
  rw [h4 σ hσ]
  simp [entry, ha, dg]

/-- Lists that do not partition the legs are refused. -/
theorem C16_toMatrix_not_partition [Zero R] {t : Tensor R} (nl : t.like = false) (rows cols : List LegId)
    (hr : rows ≠ []) (hc : cols ≠ []) (hp : ¬ (rows ++ cols).Perm t.legs) :
    t.toMatrix (some rows) (some cols) = .error .assertionError := by
  have : compareLists (rows ++ cols) t.legs = false := by
    rw [← Bool.not_eq_true]
    intro h; exact hp ((C37_compareLists _ _).mp h)
  unfold Tensor.toMatrix Tensor.matrixLegs
  simp [nl, hr, hc, bind, Except.bind, pure, Except.pure, pyAssert, this]

/-- `toMatrix` of a diagonal tensor with both lists given. -/
theorem C16_toMatrix_diagonal [Zero R] (castF : R → R) (hcast : ∀ x, castF x = x) {st : Store} {t : Tensor R}
    (g : GoodTensor st t) (dg : t.diag = true)
    (rows cols : List LegId) (hr : rows ≠ []) (hc : cols ≠ []) (hp : (rows ++ cols).Perm t.legs) :
    ∃ m, t.toMatrixAny castF (some rows) (some cols) = .ok m ∧
      m.shape = [(rows.map st.dim).prod, (cols.map st.dim).prod] ∧
      ∀ σ, InRange st.dim t.legs σ →
        m.get [ravel (rows.map st.dim) (rows.map σ), ravel (cols.map st.dim) (cols.map σ)] = entry t σ := by
  obtain ⟨arr, ha, w, _, s⟩ := g.data
  have hne : t.legs ≠ [] := by
    intro h; rw [h] at hp; have := hp.eq_nil; simp [hr] at this
  rcases s dg with ⟨e, _⟩ | ⟨_, hs, hdim⟩
  · exact absurd e hne
  have hrs : rows ⊆ t.legs := fun x hx => hp.mem_iff.mp (by simp [hx])
  have hcs : cols ⊆ t.legs := fun x hx => hp.mem_iff.mp (by simp [hx])
  have hl0 : t.legs.length ≠ 0 := fun h => hne (List.length_eq_zero_iff.mp h)
  have hdr : ∀ xs : List LegId, xs ⊆ t.legs → xs.map st.dim = List.replicate xs.length t.length := by
    intro xs hx
    rw [List.eq_replicate_iff]
    refine ⟨by simp, ?_⟩
    intro b hb
    rw [List.mem_map] at hb
    obtain ⟨l, hl, rfl⟩ := hb
    exact hdim l (hx hl)
  have hrep : List.replicate t.legs.length t.length = (rows ++ cols).map st.dim := by
    rw [hdr _ (fun x hx => hp.mem_iff.mp hx), hp.length_eq]
  have hcr : ∀ xs : List LegId, (xs.map t.legs.idxOf).map (fun _ => t.length) = List.replicate xs.length t.length := by
    intro xs
    rw [List.eq_replicate_iff]
    simp
  refine ⟨⟨[(rows.map st.dim).prod, (cols.map st.dim).prod],
    (NDArray.build (List.replicate t.legs.length t.length) fun idx =>
      if ∀ j ∈ idx, j = idx.headD 0 then castF (arr.get [idx.headD 0]) else 0).data⟩, ?_, rfl, ?_⟩
  · unfold Tensor.toMatrixAny Tensor.matrixLegs
    simp only [dg, if_true, g.notLike, Bool.false_eq_true, if_false, reduceCtorEq, and_self,
      Option.some.injEq, hr, hc, or_self, bind, Except.bind, pure, Except.pure, pyAssert,
      (C37_compareLists _ _).mpr hp,
      Tensor.getLegIndices, mapM_pyIndex _ _ hrs, mapM_pyIndex _ _ hcs, ha, Tensor.diagonalNDTensor, hs, hl0]
    unfold NDArray.reshape
    rw [hcr, hcr, tupleProduct_eq, tupleProduct_eq, ← hdr rows hrs, ← hdr cols hcs]
    rw [if_pos]
    change (List.replicate t.legs.length t.length).prod = _
    rw [hrep]
    simp
  · intro σ hσ
    have hv : ∀ xs : List LegId, xs ⊆ t.legs → ValidIdx (xs.map st.dim) (xs.map σ) :=
      fun xs hx => validIdx_map _ _ _ (fun l hl => hσ l (hx hl))
    rw [get_matrix _ (rows.map st.dim) (cols.map st.dim) _ _ (by rw [← List.map_append, ← hrep]; rfl) (hv rows hrs)]
    rw [NDArray.get_build]
    · obtain ⟨l0, ls, hls⟩ := List.exists_cons_of_ne_nil hr
      have h0 : l0 ∈ t.legs := hrs (by simp [hls])
      rw [entry_diag (l0 := l0) ha dg h0]
      have e1 : (rows.map σ ++ cols.map σ).headD 0 = σ l0 := by simp [hls]
      rw [e1]
      have e2 : (∀ j ∈ rows.map σ ++ cols.map σ, j = σ l0) ↔ (∀ l ∈ t.legs, σ l = σ l0) := by
        rw [← List.map_append]
        simp only [List.mem_map, forall_exists_index, and_imp, forall_apply_eq_imp_iff₂]
        exact ⟨fun h l hl => h l (hp.mem_iff.mpr hl), fun h l hl => h l (hp.mem_iff.mp hl)⟩
      simp only [e2, hcast]
    · rw [hrep, ← List.map_append]
      exact hv _ (fun x hx => hp.mem_iff.mp hx)

example : GoodTensor exStore exA ∧ exA.diag = false ∧ ([1] ++ [0]).Perm exA.legs :=
  ⟨exA_good, rfl, by decide⟩
example : exA.toMatrix (some [1]) (some [0]) = .ok ⟨[3, 2], [1, 4, 2, 5, 3, 6]⟩ := by rfl
example : GoodTensor exStore exD ∧ exD.diag = true ∧ ([4, 2] ++ [5]).Perm exD.legs :=
  ⟨exD_good, rfl, by decide⟩

/-! ## C17 -/

/-- `outProduct` on a dense tensor: the given legs are replaced by one new leg at the front, its dimension
is the product of theirs, the other legs keep their order, and the entry at the row-major fused index is the
old entry.  Here the dimensions of the remaining legs must be positive, see `C17_empty_rest_raises`. -/
theorem C17_outProduct [Zero R] {st : Store} {t : Tensor R} (g : GoodTensor st t) (dg : t.diag = false)
    (front : List LegId) (newLabel : String) (hne : front ≠ []) (ndf : front.Nodup) (hsub : front ⊆ t.legs)
    (hfresh : ∀ l ∈ t.legs, l < st.nextLeg) (hpos : ∀ l ∈ t.legs, l ∉ front → st.dim l ≠ 0) :
    ∃ st' t', t.outProduct st front newLabel = (st', t', .ok st.nextLeg) ∧
      t'.legs = st.nextLeg :: t.legs.filter (fun l => decide (l ∉ front)) ∧
      st'.dim st.nextLeg = (front.map st.dim).prod ∧ st'.name st.nextLeg = newLabel ∧
      (st'.leg st.nextLeg).bond = none ∧ (st'.leg st.nextLeg).tensor = some t.id ∧
      (∀ l ≠ st.nextLeg, st'.leg l = st.leg l) ∧ st'.bond = st.bond ∧ st'.nextLeg = st.nextLeg + 1 ∧
      st'.nextBond = st.nextBond ∧ t'.id = t.id ∧
      GoodTensor st' t' ∧ t'.diag = false ∧
      (∀ σ, InRange st.dim t.legs σ →
        entry t' (σ.set st.nextLeg (ravel (front.map st.dim) (front.map σ))) = entry t σ) ∧
      (t'.shape st').prod = (t.shape st).prod := by
  obtain ⟨t1, arr1, h1, h2, h3, h4, h5⟩ := moveLegsToFront_dense g dg front ndf hsub
  set rest := t.legs.filter (fun l => decide (l ∉ front)) with hrest
  obtain ⟨arr1', ha1, w1, s1, _⟩ := h3.data
  have e1 : arr1' = arr1 := by rw [h2] at ha1; simpa using ha1.symm
  subst e1
  have dg1 : t1.diag = false := by rw [h2]; exact dg
  have s1 := s1 dg1
  have hl1 : t1.legs = front ++ rest := by rw [h2]
  have hshape1 : t1.shape st = (front ++ rest).map st.dim := by
    unfold Tensor.shape
    rw [ha1]
    simp [dg1, s1, hl1]
  have hdrop : (t1.shape st).drop front.length = rest.map st.dim := by
    rw [hshape1, List.map_append, List.drop_left' (by simp)]
  have hprest : (rest.map st.dim).prod ≠ 0 := by
    rw [ne_eq, List.prod_eq_zero_iff]
    intro h
    rw [List.mem_map] at h
    obtain ⟨l, hl, h0⟩ := h
    rw [hrest, List.mem_filter] at hl
    exact hpos l hl.1 (by simpa using hl.2) h0
  have hsp : arr1'.shape.prod = (front.map st.dim).prod * (rest.map st.dim).prod := by
    rw [s1, hl1]; simp
  have hdiv : arr1'.shape.prod / (rest.map st.dim).prod = (front.map st.dim).prod := by
    rw [hsp]; exact Nat.mul_div_cancel _ (Nat.pos_of_ne_zero hprest)
  have hmod : arr1'.shape.prod % (rest.map st.dim).prod = 0 := by
    rw [hsp]; exact Nat.mul_mod_left _ _
  have hre : arr1'.reshapeInfer (rest.map st.dim)
      = .ok ⟨(front.map st.dim).prod :: rest.map st.dim, arr1'.data⟩ := by
    unfold NDArray.reshapeInfer
    rw [if_neg hprest, if_pos hmod, hdiv]
  have hn : st.nextLeg ∉ rest := by
    intro h
    rw [hrest, List.mem_filter] at h
    exact absurd (hfresh _ h.1) (lt_irrefl _)
  have hnf : st.nextLeg ∉ front := fun h => absurd (hfresh _ (hsub h)) (lt_irrefl _)
  set st' := (st.newLeg (some t1.id) (front.map st.dim).prod newLabel).1 with hst'
  have hleg : ∀ l ≠ st.nextLeg, st'.leg l = st.leg l := by
    intro l hl
    simp [hst', Store.newLeg, Store.setLeg, hl]
  have hlegn : st'.leg st.nextLeg = ⟨(front.map st.dim).prod, newLabel, none, some t1.id⟩ := by
    simp [hst', Store.newLeg, Store.setLeg]
  have hdimr : rest.map st'.dim = rest.map st.dim := by
    apply List.map_congr_left
    intro l hl
    unfold Store.dim
    rw [hleg l (fun e => hn (e ▸ hl))]
  have hid : t1.id = t.id := by rw [h2]
  have hrun : t.outProduct st front newLabel = (st', { t1 with
      a := some ⟨(front.map st.dim).prod :: rest.map st.dim, arr1'.data⟩,
      legs := st.nextLeg :: rest }, .ok st.nextLeg) := by
    unfold Tensor.outProduct
    simp only [dg, Bool.false_eq_true, if_false, hne, h1, h3.notLike, ha1, hdrop, hre]
    rw [hl1, List.drop_left]
    rfl
  refine ⟨st', _, hrun, rfl, ?_, ?_, ?_, ?_, hleg, rfl, rfl, rfl, hid, ⟨?_, h3.notLike, _, rfl, ?_, fun _ => ?_, ?_⟩, dg1, ?_, ?_⟩
  · change (st'.leg st.nextLeg).dim = _; rw [hlegn]
  · unfold Store.name; rw [hlegn]
  · rw [hlegn]
  · rw [hlegn, hid]
  · simp only [List.nodup_cons]
    exact ⟨hn, g.nodup.filter _⟩
  · unfold NDArray.WF
    rw [show arr1'.data.length = arr1'.shape.prod from w1, hsp]
    simp
  · simp only [List.map_cons]
    rw [hdimr, show st'.dim st.nextLeg = (front.map st.dim).prod by
      change (st'.leg st.nextLeg).dim = _; rw [hlegn]]
  · intro h; rw [show t1.diag = false from dg1] at h; cases h
  · intro σ hσ
    rw [← h5 σ hσ]
    unfold entry
    simp only [ha1, dg1, Bool.false_eq_true, if_false, List.map_cons]
    apply NDArray.get_mk_reshape
    rw [s1, hl1, List.map_append, List.map_append]
    have hv : ValidIdx (front.map st.dim) (front.map σ) := validIdx_map _ _ _ (fun l hl => hσ l (hsub hl))
    rw [ravel_append hv]
    have : rest.map (σ.set st.nextLeg (ravel (front.map st.dim) (front.map σ))) = rest.map σ := by
      apply List.map_congr_left
      intro l hl
      unfold Assign.set
      rw [if_neg (fun e : l = st.nextLeg => hn (e ▸ hl))]
    rw [this]
    simp [ravel, Assign.set]
  · have hsh : t.shape st = t.legs.map st.dim := by
      obtain ⟨arr, ha, _, s, _⟩ := g.data
      unfold Tensor.shape
      simp [dg, ha, s dg]
    unfold Tensor.shape
    simp only [dg1, Bool.false_eq_true, if_false, List.prod_cons]
    have hperm : (t1.legs.map st.dim).prod = (t.legs.map st.dim).prod := (h4.map st.dim).prod_eq
    rw [Tensor.shape] at hsh
    rw [hsh, ← hperm, hl1]
    simp

/-- When a remaining leg has dimension 0, NumPy cannot infer the fused dimension: the call raises ValueError
and leaves the legs reordered. -/
theorem C17_empty_rest_raises [Zero R] {st : Store} {t : Tensor R} (g : GoodTensor st t) (dg : t.diag = false)
    (front : List LegId) (newLabel : String) (hne : front ≠ []) (ndf : front.Nodup) (hsub : front ⊆ t.legs)
    (hzero : ∃ l ∈ t.legs, l ∉ front ∧ st.dim l = 0) :
    ∃ t', t.outProduct st front newLabel = (st, t', .error .valueError) ∧
      t'.legs = front ++ t.legs.filter (fun l => decide (l ∉ front)) := by
  obtain ⟨t1, arr1, h1, h2, h3, h4, h5⟩ := moveLegsToFront_dense g dg front ndf hsub
  have ha1 : t1.a = some arr1 := by rw [h2]
  obtain ⟨arr1', ha1', w1, s1, _⟩ := h3.data
  have e1 : arr1' = arr1 := by rw [ha1] at ha1'; simpa using ha1'.symm
  subst e1
  have dg1 : t1.diag = false := by rw [h2]; exact dg
  have hl1 : t1.legs = front ++ t.legs.filter (fun l => decide (l ∉ front)) := by rw [h2]
  refine ⟨t1, ?_, hl1⟩
  unfold Tensor.outProduct
  have hshape1 : (t1.shape st).drop front.length = (t.legs.filter (fun l => decide (l ∉ front))).map st.dim := by
    unfold Tensor.shape
    rw [ha1]
    simp only [dg1, Bool.false_eq_true, if_false, s1 dg1, hl1]
    rw [List.map_append, List.drop_left' (by simp)]
  have hz : ((t.legs.filter (fun l => decide (l ∉ front))).map st.dim).prod = 0 := by
    rw [List.prod_eq_zero_iff, List.mem_map]
    obtain ⟨l, hl, hf, h0⟩ := hzero
    exact ⟨l, List.mem_filter.mpr ⟨hl, by simpa using hf⟩, h0⟩
  simp only [dg, Bool.false_eq_true, if_false, hne, h1, h3.notLike, ha1, hshape1]
  unfold NDArray.reshapeInfer
  simp only [hz, if_true]

/-- C17 applies to fusing the legs of a matrix in reversed order. -/
example : GoodTensor exStore exA ∧ exA.diag = false ∧ [1, 0] ≠ [] ∧ [1, 0].Nodup ∧ [1, 0] ⊆ exA.legs ∧
    (∀ l ∈ exA.legs, l < exStore.nextLeg) ∧ (∀ l ∈ exA.legs, l ∉ [1, 0] → exStore.dim l ≠ 0) :=
  ⟨exA_good, rfl, by decide, by decide, by decide, by decide, by decide⟩
example : (exA.outProduct exStore [1, 0] "f").2.1.a = some ⟨[6], [1, 4, 2, 5, 3, 6]⟩ := by decide

/-- A tensor with a leg of dimension 0. -/
example : let t : Tensor Int := ⟨0, [0, 9], some ⟨[2, 0], []⟩, false, false, 0⟩
    GoodTensor exStore t ∧ ∃ l ∈ t.legs, l ∉ [0] ∧ exStore.dim l = 0 :=
  ⟨⟨by decide, rfl, _, rfl, rfl, fun _ => rfl, fun h => by simp at h⟩, 9, by decide, by decide, rfl⟩

end CTL
