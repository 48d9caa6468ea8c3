import Verif.Lemmas.Dense

/-! Helper lemmas: contraction with diagonal tensors. -/

namespace CTL
variable {R : Type}

theorem list_sum_single [AddMonoid R] {α : Type} (l : List α) (f : α → R) (a : α) (nd : l.Nodup)
    (ha : a ∈ l) (h : ∀ b ∈ l, b ≠ a → f b = 0) : (l.map f).sum = f a := by
  induction l with
  | nil => cases ha
  | cons x xs ih =>
    rw [List.nodup_cons] at nd
    rw [List.map_cons, List.sum_cons]
    by_cases hx : x = a
    · subst hx
      have : (xs.map f).sum = 0 := by
        apply List.sum_eq_zero
        intro y hy
        rw [List.mem_map] at hy
        obtain ⟨z, hz, rfl⟩ := hy
        exact h z (by simp [hz]) (fun e => nd.1 (e ▸ hz))
      rw [this, add_zero]
    · rw [h x (by simp) hx, zero_add]
      have ha' : a ∈ xs := by
        rw [List.mem_cons] at ha
        rcases ha with e | e
        · exact absurd e.symm hx
        · exact e
      exact ih nd.2 ha' (fun b hb => h b (by simp [hb]))

theorem list_sum_zero [AddMonoid R] {α : Type} (l : List α) (f : α → R) (h : ∀ b ∈ l, f b = 0) :
    (l.map f).sum = 0 := by
  apply List.sum_eq_zero
  intro y hy
  rw [List.mem_map] at hy
  obtain ⟨z, hz, rfl⟩ := hy
  exact h z hz

theorem indices_nodup (s : List Nat) : (indices s).Nodup := by
  induction s with
  | nil => simp [indices]
  | cons d ds ih =>
    unfold indices
    rw [List.nodup_flatMap]
    refine ⟨fun i _ => ih.map (fun a b h => by simpa using h), ?_⟩
    apply List.Pairwise.imp_of_mem _ List.nodup_range
    intro i j _ _ hij x hx hy
    simp only [List.mem_map] at hx hy
    obtain ⟨u, _, rfl⟩ := hx
    obtain ⟨v, _, hv⟩ := hy
    simp only [List.cons.injEq] at hv
    exact hij hv.1.symm

theorem validIdx_replicate (m n k : Nat) (h : k < n) :
    ValidIdx (List.replicate m n) (List.replicate m k) := by
  induction m with
  | zero => exact validIdx_nil
  | succ m ih => simp only [List.replicate_succ, validIdx_cons]; exact ⟨h, ih⟩

/-- A sum over all index tuples of a function that vanishes off the diagonal. -/
theorem sum_indices_diag [AddMonoid R] (m n : Nat) (F : List Nat → R)
    (h : ∀ k idx, k :: idx ∈ indices (List.replicate (m+1) n) → idx ≠ List.replicate m k →
      F (k :: idx) = 0) :
    ((indices (List.replicate (m+1) n)).map F).sum
      = ((List.range n).map fun k => F (List.replicate (m+1) k)).sum := by
  rw [List.replicate_succ] at h ⊢
  simp only [indices] at h ⊢
  rw [sum_flatMap']
  congr 1
  apply List.map_congr_left
  intro k hk
  rw [List.mem_range] at hk
  rw [List.map_map]
  rw [list_sum_single _ _ (List.replicate m k) (indices_nodup _)
    (mem_indices.mpr (validIdx_replicate m n k hk))]
  · simp [List.replicate_succ]
  · intro b hb hne
    apply h k b _ hne
    simp only [List.mem_flatMap, List.mem_range, List.mem_map]
    exact ⟨k, hk, b, hb, rfl⟩

theorem entry_diag [Zero R] {t : Tensor R} {arr : NDArray R} (ha : t.a = some arr) (hd : t.diag = true)
    {l0 : LegId} (h0 : l0 ∈ t.legs) (σ : Assign) :
    entry t σ = if ∀ l ∈ t.legs, σ l = σ l0 then arr.get [σ l0] else 0 := by
  unfold entry
  rw [ha]
  simp only [hd, if_true]
  cases hl : t.legs with
  | nil => rw [hl] at h0; cases h0
  | cons x xs =>
    simp only
    rw [hl] at h0
    by_cases h : ∀ m ∈ xs, σ m = σ x
    · have hx : σ l0 = σ x := by
        rw [List.mem_cons] at h0
        rcases h0 with e | e
        · rw [e]
        · exact h _ e
      rw [if_pos h, if_pos]
      · rw [hx]
      · intro l hl'
        rw [List.mem_cons] at hl'
        rcases hl' with e | e
        · rw [e, hx]
        · rw [h l e, hx]
    · rw [if_neg h, if_neg]
      intro h'
      apply h
      intro m hm
      rw [h' m (by simp [hm]), h' x (by simp)]

theorem PairsOK.mem_split {st la lb ps} (_h : PairsOK st la lb ps) {l : LegId} (hl : l ∈ la) :
    l ∈ ps.map Prod.fst ∨ l ∈ restA la ps := by
  by_cases h1 : l ∈ ps.map Prod.fst
  · exact Or.inl h1
  · right; simp only [restA, List.mem_filter, decide_eq_true_eq]; exact ⟨hl, h1⟩

theorem PairsOK.mem_splitB {st la lb ps} (_h : PairsOK st la lb ps) {l : LegId} (hl : l ∈ lb) :
    l ∈ ps.map Prod.snd ∨ l ∈ restB lb ps := by
  by_cases h1 : l ∈ ps.map Prod.snd
  · exact Or.inl h1
  · right; simp only [restB, List.mem_filter, decide_eq_true_eq]; exact ⟨hl, h1⟩

theorem map_eq_replicate_mem {α β} {l : List α} {f : α → β} {m : Nat} {k : β}
    (h : l.map f = List.replicate m k) {x : α} (hx : x ∈ l) : f x = k := by
  have : f x ∈ List.replicate m k := h ▸ List.mem_map_of_mem hx
  exact (List.mem_replicate.mp this).2

/-- Einstein sums with a diagonal left factor collapse to one index. -/
theorem diag_sum [NonUnitalNonAssocSemiring R] {st : Store} {ta : Tensor R} {lb : List LegId}
    {ps : List (LegId × LegId)} (h : PairsOK st ta.legs lb ps) (hne : ps ≠ []) {x : NDArray R} {n : Nat}
    (ha : ta.a = some x) (hd : ta.diag = true) (hn : ∀ l ∈ ta.legs, st.dim l = n)
    (G : Assign → R) (σ : Assign) :
    sumBonds st.dim ps (fun τ => entry ta τ * G τ) σ
      = ((List.range n).map fun k =>
          (if ∀ l ∈ restA ta.legs ps, σ l = k then x.get [k] else 0)
            * G (assign σ ps (List.replicate ps.length k))).sum := by
  rw [sumBonds_eq]
  have hdims : (ps.map fun p => st.dim p.1) = List.replicate ps.length n := by
    rw [List.eq_replicate_iff]
    refine ⟨by simp, ?_⟩
    intro b hb
    rw [List.mem_map] at hb
    obtain ⟨p, hp, rfl⟩ := hb
    exact hn _ (h.subA (List.mem_map_of_mem hp))
  rw [hdims]
  obtain ⟨m, hm⟩ : ∃ m, ps.length = m + 1 := by
    cases ps with
    | nil => exact absurd rfl hne
    | cons p ps => exact ⟨ps.length, rfl⟩
  obtain ⟨p0, qs, hp0⟩ : ∃ p qs, ps = p :: qs := by
    cases ps with
    | nil => exact absurd rfl hne
    | cons p ps => exact ⟨p, ps, rfl⟩
  have h0A : p0.1 ∈ ps.map Prod.fst := by rw [hp0]; simp
  have h0 : p0.1 ∈ ta.legs := h.subA h0A
  rw [hm]
  rw [sum_indices_diag]
  · congr 1
    apply List.map_congr_left
    intro k _
    congr 1
    obtain ⟨a1, a2⟩ := assign_pairs σ ps (List.replicate (m+1) k) (by simp [hm]) h.nodup
    have hk0 : assign σ ps (List.replicate (m+1) k) p0.1 = k := map_eq_replicate_mem a1 h0A
    rw [entry_diag ha hd h0, hk0]
    have hcond : (∀ l ∈ ta.legs, assign σ ps (List.replicate (m+1) k) l = k) ↔
        (∀ l ∈ restA ta.legs ps, σ l = k) := by
      constructor
      · intro hh l hl
        have e := hh l (List.mem_of_mem_filter hl)
        have := List.map_inj_left.mp (h.assign_restA σ (List.replicate (m+1) k)) l hl
        rw [← this]; exact e
      · intro hh l hl
        rcases h.mem_split hl with h1 | h1
        · exact map_eq_replicate_mem a1 h1
        · have := List.map_inj_left.mp (h.assign_restA σ (List.replicate (m+1) k)) l h1
          rw [this]; exact hh l h1
    simp only [hcond]
  · intro k idx hidx hne'
    have hv := mem_indices.mp hidx
    obtain ⟨a1, a2⟩ := assign_pairs σ ps (k :: idx) (by rw [hv.length]; simp [hm]) h.nodup
    have hk0 : assign σ ps (k :: idx) p0.1 = k := by
      rw [hp0] at a1 ⊢
      simp only [List.map_cons, List.cons.injEq] at a1
      exact a1.1
    rw [entry_diag ha hd h0, hk0, if_neg, zero_mul]
    intro hh
    apply hne'
    have hlen : idx.length = m := by have := hv.length; simpa using this
    rw [List.eq_replicate_iff]
    refine ⟨hlen, ?_⟩
    intro b hb
    have hb' : b ∈ (ps.map Prod.fst).map (assign σ ps (k :: idx)) := by rw [a1]; simp [hb]
    rw [List.mem_map] at hb'
    obtain ⟨l, hl, rfl⟩ := hb'
    exact hh l (h.subA hl)

theorem removeLoop_eq (ls xs : List LegId) (nd : ls.Nodup) (ndx : xs.Nodup) (h : xs ⊆ ls) :
    Tensor.removeLoop ls xs = (ls.filter (fun l => decide (l ∉ xs)), none) := by
  induction xs generalizing ls with
  | nil => simp [Tensor.removeLoop]
  | cons x xs ih =>
    rw [List.nodup_cons] at ndx
    have hx : x ∈ ls := h (by simp)
    simp only [Tensor.removeLoop, pyRemove, hx, if_true]
    rw [ih (ls.erase x) (nd.erase x) ndx.2]
    · congr 1
      rw [nd.erase_eq_filter, List.filter_filter]
      apply List.filter_congr
      intro y _
      simp [List.mem_cons, not_or, and_comm]
      by_cases hyx : y = x
      · simp [hyx]
      · simp [hyx]
    · intro y hy
      rw [nd.mem_erase_iff]
      exact ⟨fun e => ndx.1 (e ▸ hy), h (by simp [hy])⟩

/-- `moveLegsToFront` on a dense tensor: the given legs come first, the others keep their order, and every
entry stays where it was (as a function of the legs). -/
theorem moveLegsToFront_dense [Zero R] {st : Store} {t : Tensor R} (g : GoodTensor st t)
    (dg : t.diag = false) (front : List LegId) (ndf : front.Nodup) (hsub : front ⊆ t.legs) :
    ∃ t' arr', t.moveLegsToFront front = (t', .ok ()) ∧
      t' = { t with legs := front ++ t.legs.filter (fun l => decide (l ∉ front)), a := some arr' } ∧
      GoodTensor st t' ∧ t'.legs.Perm t.legs ∧
      ∀ σ, InRange st.dim t.legs σ → entry t' σ = entry t σ := by
  obtain ⟨arr, ha, w, s, _⟩ := g.data
  have s := s dg
  obtain ⟨arr', h1, h2, h3, h4⟩ := moveaxisFront_legs arr t.legs front st.dim g.nodup ndf hsub s
  have hp := List.perm_append_comm.trans (filter_append_perm t.legs front g.nodup ndf hsub)
  refine ⟨_, arr', ?_, rfl, ⟨?_, g.notLike, ⟨arr', rfl, h2, fun _ => h3, fun h => ?_⟩⟩, hp, ?_⟩
  · unfold Tensor.moveLegsToFront
    rw [removeLoop_eq t.legs front g.nodup ndf hsub]
    have hf : front.filter (fun l => decide (l ∈ t.legs)) = front := by
      rw [List.filter_eq_self]
      intro x hx
      simpa using hsub hx
    simp only [dg, g.notLike, Bool.or_self, Bool.false_eq_true, if_false, ha, hf, h1]
  · exact hp.nodup_iff.mpr g.nodup
  · simp [dg] at h
  · intro σ hσ
    simp only [entry, dg, ha, Bool.false_eq_true, if_false]
    exact h4 σ hσ

/-- ... and on a diagonal tensor. -/
theorem moveLegsToFront_diag [Zero R] {st : Store} {t : Tensor R} (g : GoodTensor st t)
    (dg : t.diag = true) (front : List LegId) (ndf : front.Nodup) (hsub : front ⊆ t.legs) :
    ∃ t', t.moveLegsToFront front = (t', .ok ()) ∧
      t' = { t with legs := front ++ t.legs.filter (fun l => decide (l ∉ front)) } ∧
      GoodTensor st t' ∧ t'.legs.Perm t.legs ∧
      ∀ σ, entry t' σ = entry t σ := by
  obtain ⟨arr, ha, w, _, s⟩ := g.data
  have s := s dg
  have hp := List.perm_append_comm.trans (filter_append_perm t.legs front g.nodup ndf hsub)
  refine ⟨_, ?_, rfl, ⟨?_, g.notLike, ⟨arr, ha, w, fun h => ?_, fun _ => ?_⟩⟩, hp, ?_⟩
  · unfold Tensor.moveLegsToFront
    rw [removeLoop_eq t.legs front g.nodup ndf hsub]
    simp only [dg, Bool.true_or, if_true]
  · exact hp.nodup_iff.mpr g.nodup
  · simp [dg] at h
  · rcases s with ⟨h1, h2⟩ | ⟨h1, h2, h3⟩
    · left
      refine ⟨?_, h2⟩
      apply List.Perm.eq_nil
      rw [← h1]; exact hp
    · right
      refine ⟨?_, h2, ?_⟩
      · intro h; apply h1; apply List.Perm.eq_nil; rw [← h]; exact hp.symm
      · intro l hl; exact h3 l (hp.subset hl)
  · intro σ
    cases hl : t.legs with
    | nil =>
      have hfr : front = [] := by
        apply List.eq_nil_of_subset_nil; rw [← hl]; exact hsub
      simp [entry, ha, dg, hl, hfr]
    | cons x xs =>
      have hx : x ∈ t.legs := by rw [hl]; simp
      rw [entry_diag (t := t) ha dg hx]
      rw [entry_diag (t := { t with legs := front ++ (x::xs).filter (fun l => decide (l ∉ front)) }) ha dg
        (l0 := x) (by rw [hl] at hp; exact hp.symm.subset (by simp))]
      have hc : (∀ l ∈ front ++ (x::xs).filter (fun l => decide (l ∉ front)), σ l = σ x) ↔
          (∀ l ∈ t.legs, σ l = σ x) := by
        rw [← hl]
        constructor
        · intro h l hl'; exact h l (hp.symm.subset hl')
        · intro h l hl'; exact h l (hp.subset hl')
      simp only [hc]

end CTL
