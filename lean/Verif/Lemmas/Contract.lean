import Verif.Model.Contract
import Verif.Spec.Network
import Verif.Lemmas.NDArray
import Verif.Lemmas.Funcs

/-! Helper lemmas for contraction. -/

namespace CTL
variable {R : Type}

/-! ### transposition in terms of legs -/

theorem idxOf_map_idxOf (legs legs' : List LegId) (hsub : legs' ⊆ legs) (x : LegId)
    (hx : x ∈ legs) : (legs'.map legs.idxOf).idxOf (legs.idxOf x) = legs'.idxOf x := by
  induction legs' with
  | nil => rfl
  | cons y ys ih =>
    simp only [List.map_cons, List.idxOf_cons]
    have hy : y ∈ legs := hsub (by simp)
    by_cases h : y = x
    · subst h; simp
    · have : legs.idxOf y ≠ legs.idxOf x := by
        intro he
        exact h ((List.idxOf_inj hy).mp he)
      rw [show (y == x) = false by simpa using h,
        show (legs.idxOf y == legs.idxOf x) = false by simpa using this]
      simp only [cond_false]
      rw [ih (fun z hz => hsub (by simp [hz]))]

theorem getD_map_idxOf {α} (legs : List LegId) (f : LegId → α) (d : α) (x : LegId) (hx : x ∈ legs) :
    (legs.map f).getD (legs.idxOf x) d = f x := by
  have hlt := List.idxOf_lt_length_of_mem hx
  rw [List.getD_eq_getElem?_getD, List.getElem?_map, List.getElem?_eq_getElem hlt]
  simp

theorem range_eq_map_idxOf (legs : List LegId) (nd : legs.Nodup) :
    List.range legs.length = legs.map legs.idxOf := by
  apply List.ext_getElem (by simp)
  intro i h1 h2
  simp [nd.idxOf_getElem]

theorem transpose_legs [Zero R] (arr : NDArray R) (legs legs' : List LegId) (dim : LegId → Nat)
    (nd : legs.Nodup) (perm : legs'.Perm legs) (hs : arr.shape = legs.map dim) :
    (arr.transpose (legs'.map legs.idxOf)).shape = legs'.map dim ∧
    ∀ σ : Assign, InRange dim legs σ →
      (arr.transpose (legs'.map legs.idxOf)).get (legs'.map σ) = arr.get (legs.map σ) := by
  have hshape : (legs'.map legs.idxOf).map (fun ax => arr.shape.getD ax 0) = legs'.map dim := by
    rw [List.map_map]
    apply List.map_congr_left
    intro x hx
    simp only [Function.comp, hs]
    exact getD_map_idxOf legs dim 0 x (perm.subset hx)
  refine ⟨hshape, ?_⟩
  intro σ hσ
  unfold NDArray.transpose
  rw [hshape, NDArray.get_build]
  · congr 1
    rw [hs, List.length_map, range_eq_map_idxOf legs nd, List.map_map]
    apply List.map_congr_left
    intro x hx
    simp only [Function.comp]
    rw [idxOf_map_idxOf legs legs' perm.subset x hx]
    exact getD_map_idxOf legs' σ 0 x (perm.symm.subset hx)
  · exact validIdx_map legs' σ dim (fun x hx => hσ x (perm.subset hx))

theorem map_idxOf_nodup (legs xs : List LegId) (hsub : xs ⊆ legs) (nd : xs.Nodup) :
    (xs.map legs.idxOf).Nodup := by
  rw [List.nodup_map_iff_inj_on nd]
  intro x hx y hy h
  exact (List.idxOf_inj (hsub hx)).mp h

/-- `moveaxis` of the axes of `front` to the front. -/
theorem moveaxisFront_legs [Zero R] (arr : NDArray R) (legs front : List LegId) (dim : LegId → Nat)
    (nd : legs.Nodup) (ndf : front.Nodup) (hsub : front ⊆ legs) (hs : arr.shape = legs.map dim) :
    ∃ arr', arr.moveaxisFront (front.map legs.idxOf) = .ok arr' ∧ arr'.WF ∧
      arr'.shape = (front ++ legs.filter (fun l => decide (l ∉ front))).map dim ∧
      ∀ σ : Assign, InRange dim legs σ →
        arr'.get ((front ++ legs.filter (fun l => decide (l ∉ front))).map σ) = arr.get (legs.map σ) := by
  have hcond : (front.map legs.idxOf).Nodup ∧ ∀ s ∈ front.map legs.idxOf, s < arr.shape.length := by
    refine ⟨map_idxOf_nodup legs front hsub ndf, ?_⟩
    intro s hs'
    rw [List.mem_map] at hs'
    obtain ⟨x, hx, rfl⟩ := hs'
    rw [hs, List.length_map]
    exact List.idxOf_lt_length_of_mem (hsub hx)
  have horder : front.map legs.idxOf ++ (List.range arr.shape.length).filter
      (fun n => !(front.map legs.idxOf).contains n)
      = (front ++ legs.filter (fun l => decide (l ∉ front))).map legs.idxOf := by
    rw [List.map_append]
    congr 1
    rw [hs, List.length_map, range_eq_map_idxOf legs nd, List.filter_map]
    congr 1
    apply List.filter_congr
    intro x hx
    simp only [Function.comp, List.contains_eq_mem]
    have : legs.idxOf x ∈ front.map legs.idxOf ↔ x ∈ front := by
      constructor
      · intro h
        rw [List.mem_map] at h
        obtain ⟨y, hy, he⟩ := h
        have := (List.idxOf_inj (hsub hy)).mp he
        exact this ▸ hy
      · intro h; exact List.mem_map_of_mem h
    simp only [this, decide_not]
  have hperm : (front ++ legs.filter (fun l => decide (l ∉ front))).Perm legs := by
    rw [List.perm_ext_iff_of_nodup]
    · intro x
      simp only [List.mem_append, List.mem_filter, decide_eq_true_eq]
      constructor
      · rintro (h | h)
        · exact hsub h
        · exact h.1
      · intro h
        by_cases hf : x ∈ front
        · exact Or.inl hf
        · exact Or.inr ⟨h, hf⟩
    · rw [List.nodup_append]
      refine ⟨ndf, nd.filter _, ?_⟩
      intro x hx y hy he
      simp only [List.mem_filter, decide_eq_true_eq] at hy
      exact hy.2 (he ▸ hx)
    · exact nd
  refine ⟨arr.transpose ((front ++ legs.filter (fun l => decide (l ∉ front))).map legs.idxOf),
    by unfold NDArray.moveaxisFront; rw [if_pos hcond, horder], NDArray.build_wf _ _, ?_⟩
  exact transpose_legs arr legs _ dim nd hperm hs

theorem mapM_pyIndex (legs xs : List LegId) (h : xs ⊆ legs) :
    xs.mapM (pyIndex legs) = .ok (xs.map legs.idxOf) := by
  induction xs with
  | nil => rfl
  | cons x xs ih =>
    rw [List.mapM_cons, ih (fun z hz => h (by simp [hz]))]
    have hx : x ∈ legs := h (by simp)
    simp [pyIndex, hx]; rfl

theorem tupleProduct_eq (s : List Nat) : tupleProduct s = s.prod := by
  unfold tupleProduct
  have : ∀ (l : List Nat) (x : Nat), l.foldl (fun res x => res * x) x = x * l.prod := by
    intro l
    induction l with
    | nil => simp
    | cons a l ih => intro x; simp [ih, Nat.mul_assoc]
  rw [this]; simp

/-! ### matrices -/

theorem get_matrix [Zero R] (arr : NDArray R) (s1 s2 i1 i2 : List Nat) (hs : arr.shape = s1 ++ s2)
    (h1 : ValidIdx s1 i1) :
    (⟨[s1.prod, s2.prod], arr.data⟩ : NDArray R).get [ravel s1 i1, ravel s2 i2]
      = arr.get (i1 ++ i2) := by
  apply NDArray.get_mk_reshape
  rw [hs, ravel_append h1]
  simp [ravel]

/-- The body of `toMatrix` once rows and columns are known. -/
theorem toMatrix_core [Zero R] (arr : NDArray R) (legs rows cols : List LegId) (dim : LegId → Nat)
    (nd : legs.Nodup) (hp : (rows ++ cols).Perm legs) (hs : arr.shape = legs.map dim) :
    ∃ m, (do
        let d ← arr.moveaxisFront (rows.map legs.idxOf ++ cols.map legs.idxOf)
        d.reshape [tupleProduct ((rows.map legs.idxOf).map fun x => arr.shape.getD x 0),
          tupleProduct ((cols.map legs.idxOf).map fun x => arr.shape.getD x 0)]) = Except.ok m ∧ m.WF ∧
      m.shape = [(rows.map dim).prod, (cols.map dim).prod] ∧
      ∀ σ : Assign, InRange dim legs σ →
        m.get [ravel (rows.map dim) (rows.map σ), ravel (cols.map dim) (cols.map σ)]
          = arr.get (legs.map σ) := by
  have ndrc : (rows ++ cols).Nodup := hp.nodup_iff.mpr nd
  obtain ⟨d, hd, hdwf, hdshape, hdget⟩ := moveaxisFront_legs arr legs (rows ++ cols) dim nd ndrc hp.subset hs
  have hfil : legs.filter (fun l => decide (l ∉ rows ++ cols)) = [] := by
    rw [List.filter_eq_nil_iff]
    intro x hx
    have := hp.symm.subset hx
    simp only [decide_eq_true_eq, not_not]
    exact this
  rw [hfil, List.append_nil] at hdshape hdget
  have hm : ∀ xs : List LegId, xs ⊆ legs →
      (xs.map legs.idxOf).map (fun x => arr.shape.getD x 0) = xs.map dim := by
    intro xs hx
    rw [List.map_map]
    apply List.map_congr_left
    intro x hxx
    simp only [Function.comp, hs]
    exact getD_map_idxOf legs dim 0 x (hx hxx)
  have hr : rows ⊆ legs := fun x hx => hp.subset (by simp [hx])
  have hc : cols ⊆ legs := fun x hx => hp.subset (by simp [hx])
  have hprod : d.shape.prod = [(rows.map dim).prod, (cols.map dim).prod].prod := by
    rw [hdshape]; simp
  refine ⟨⟨[(rows.map dim).prod, (cols.map dim).prod], d.data⟩, ?_, ?_, rfl, ?_⟩
  · rw [← List.map_append, hd, hm rows hr, hm cols hc, tupleProduct_eq, tupleProduct_eq]
    show d.reshape _ = _
    unfold NDArray.reshape
    rw [if_pos hprod]
  · unfold NDArray.WF at hdwf ⊢
    rw [hdwf, hprod]
  · intro σ hσ
    rw [get_matrix d (rows.map dim) (cols.map dim) _ _ (by rw [hdshape, List.map_append])]
    · rw [← List.map_append]; exact hdget σ hσ
    · exact validIdx_map rows σ dim (fun x hx => hσ x (hr hx))

theorem nodup_diff (legs xs : List LegId) (nd : legs.Nodup) (ndx : xs.Nodup) (h : xs ⊆ legs) :
    listDifference legs xs = .ok (legs.filter fun l => decide (l ∉ xs)) := by
  rw [listDifference_eq, if_pos (List.subperm_of_subset ndx h), nd.sdiff_eq_filter]

theorem filter_append_perm (legs xs : List LegId) (nd : legs.Nodup) (ndx : xs.Nodup) (h : xs ⊆ legs) :
    ((legs.filter fun l => decide (l ∉ xs)) ++ xs).Perm legs := by
  rw [List.perm_ext_iff_of_nodup]
  · intro x
    simp only [List.mem_append, List.mem_filter, decide_eq_true_eq]
    constructor
    · rintro (h' | h')
      · exact h'.1
      · exact h h'
    · intro h'
      by_cases hf : x ∈ xs
      · exact Or.inr hf
      · exact Or.inl ⟨h', hf⟩
  · rw [List.nodup_append]
    refine ⟨nd.filter _, ndx, ?_⟩
    intro x hx y hy he
    simp only [List.mem_filter, decide_eq_true_eq] at hx
    exact hx.2 (he ▸ hy)
  · exact nd

/-! ### sums over index tuples -/

theorem indices_map_ravel (s : List Nat) : (indices s).map (ravel s) = List.range s.prod := by
  apply List.ext_getElem (by simp [indices_length])
  intro n h1 h2
  simp only [List.getElem_map, List.getElem_range]
  have hn : n < (indices s).length := by simpa using h1
  -- indices are pairwise distinct positions: use the inverse
  have hv : ValidIdx s (indices s)[n] := mem_indices.mp (List.getElem_mem hn)
  have hlt := ravel_lt hv
  have h3 : (indices s)[ravel s (indices s)[n]]? = some (indices s)[n] := indices_getElem? hv
  have nd : (indices s).Nodup := by
    clear h3 hlt hv hn h2 h1
    induction s with
    | nil => simp [indices]
    | cons d ds ih =>
      unfold indices
      rw [List.nodup_flatMap]
      refine ⟨fun i _ => ih.map (fun a b h => by simpa using h), ?_⟩
      apply List.Pairwise.imp_of_mem _ List.nodup_range
      intro i j _ _ hij x hx hy
      simp only [List.mem_map] at hx hy
      obtain ⟨u, _, rfl⟩ := hx
      obtain ⟨v, _, hv⟩ := hy
      simp only [List.cons.injEq] at hv
      exact hij hv.1.symm
  have h4 : ravel s (indices s)[n] < (indices s).length := by rw [indices_length]; exact hlt
  rw [List.getElem?_eq_getElem h4, Option.some.injEq] at h3
  exact (nd.getElem_inj_iff).mp h3

theorem sum_range_prod [AddMonoid R] (s : List Nat) (g : Nat → R) :
    ((List.range s.prod).map g).sum = ((indices s).map fun idx => g (ravel s idx)).sum := by
  rw [← indices_map_ravel, List.map_map]
  rfl

/-- Simultaneous assignment of the indices `idx` to the pairs `ps`. -/
def assign (σ : Assign) : List (LegId × LegId) → List Nat → Assign
  | (l, m) :: ps, k :: ks => assign ((σ.set l k).set m k) ps ks
  | _, _ => σ

theorem sum_flatMap' [AddMonoid R] {α β} (l : List α) (g : α → List β) (f : β → R) :
    ((l.flatMap g).map f).sum = (l.map fun x => ((g x).map f).sum).sum := by
  induction l with
  | nil => rfl
  | cons a l ih => simp [List.flatMap_cons, ih]

theorem sumBonds_eq [AddMonoid R] (dim : LegId → Nat) (ps : List (LegId × LegId)) (f : Assign → R)
    (σ : Assign) :
    sumBonds dim ps f σ = ((indices (ps.map fun p => dim p.1)).map fun idx => f (assign σ ps idx)).sum := by
  induction ps generalizing σ with
  | nil => simp [sumBonds, indices, assign]
  | cons p ps ih =>
    obtain ⟨l, m⟩ := p
    simp only [sumBonds, List.map_cons, indices, sum_flatMap', List.map_map]
    congr 1
    apply List.map_congr_left
    intro k _
    rw [ih]
    rfl

theorem assign_other (σ : Assign) (ps : List (LegId × LegId)) (idx : List Nat) (x : LegId)
    (h1 : x ∉ ps.map Prod.fst) (h2 : x ∉ ps.map Prod.snd) : assign σ ps idx x = σ x := by
  induction ps generalizing σ idx with
  | nil => rfl
  | cons p ps ih =>
    obtain ⟨l, m⟩ := p
    cases idx with
    | nil => rfl
    | cons k ks =>
      simp only [List.map_cons, List.mem_cons, not_or] at h1 h2
      simp only [assign]
      rw [ih _ _ h1.2 h2.2]
      simp [Assign.set, h1.1, h2.1]

theorem assign_pairs (σ : Assign) (ps : List (LegId × LegId)) (idx : List Nat)
    (hlen : idx.length = ps.length) (nd : (ps.map Prod.fst ++ ps.map Prod.snd).Nodup) :
    (ps.map Prod.fst).map (assign σ ps idx) = idx ∧ (ps.map Prod.snd).map (assign σ ps idx) = idx := by
  induction ps generalizing σ idx with
  | nil => cases idx with
    | nil => simp
    | cons _ _ => simp at hlen
  | cons p ps ih =>
    obtain ⟨l, m⟩ := p
    cases idx with
    | nil => simp at hlen
    | cons k ks =>
      simp only [List.map_cons, List.cons_append, List.nodup_cons, List.mem_append, List.mem_cons,
        not_or] at nd
      obtain ⟨⟨hl1, hlm, hl2⟩, hrest⟩ := nd
      rw [List.nodup_append] at hrest
      obtain ⟨n1, n2, n3⟩ := hrest
      rw [List.nodup_cons] at n2
      have hm1 : m ∉ ps.map Prod.fst := fun hm => n3 m hm m (by simp) rfl
      have nd' : (ps.map Prod.fst ++ ps.map Prod.snd).Nodup := by
        rw [List.nodup_append]
        exact ⟨n1, n2.2, fun a ha b hb => n3 a ha b (by simp [hb])⟩
      obtain ⟨i1, i2⟩ := ih ((σ.set l k).set m k) ks (by simpa using hlen) nd'
      simp only [List.map_cons, assign]
      rw [i1, i2, assign_other _ _ _ l hl1 hl2, assign_other _ _ _ m hm1 n2.1]
      constructor <;> simp [Assign.set]

theorem assign_inRange (dim : LegId → Nat) (legs : List LegId) (σ : Assign)
    (ps : List (LegId × LegId)) (idx : List Nat) (hv : ValidIdx (ps.map fun p => dim p.1) idx)
    (hd : ∀ p ∈ ps, dim p.2 = dim p.1)
    (hσ : ∀ l ∈ legs, l ∉ ps.map Prod.fst → l ∉ ps.map Prod.snd → σ l < dim l) :
    InRange dim legs (assign σ ps idx) := by
  induction ps generalizing σ idx with
  | nil => intro l hl; exact hσ l hl (by simp) (by simp)
  | cons p ps ih =>
    obtain ⟨a, b⟩ := p
    cases idx with
    | nil => cases hv
    | cons k ks =>
      simp only [List.map_cons] at hv
      rw [validIdx_cons] at hv
      simp only [assign]
      apply ih _ _ hv.2 (fun p hp => hd p (by simp [hp]))
      intro l hl h1 h2
      unfold Assign.set
      by_cases hb : l = b
      · subst hb
        have := hd (a, l) (by simp)
        simp only at this
        simpa [this] using hv.1
      · by_cases ha : l = a
        · subst ha; simpa [hb] using hv.1
        · simp only [hb, ha, if_false]
          exact hσ l hl (by simp [ha, h1]) (by simp [hb, h2])

end CTL
