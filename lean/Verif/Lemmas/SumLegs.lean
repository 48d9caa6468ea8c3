import Verif.Lemmas.Truncate

/-! Sums over all values of a list of legs. -/

namespace CTL
variable {R : Type}
open Finset

theorem sumLegs_congr [AddMonoid R] (dim : LegId → Nat) (legs : List LegId) (f g : Assign → R) (σ : Assign)
    (h : ∀ τ, (∀ l, l ∉ legs → τ l = σ l) → InRange dim legs τ → f τ = g τ) (nd : legs.Nodup) :
    sumLegs dim legs f σ = sumLegs dim legs g σ := by
  induction legs generalizing σ with
  | nil => exact h σ (fun _ _ => rfl) (by intro l hl; cases hl)
  | cons l ls ih =>
    rw [List.nodup_cons] at nd
    unfold sumLegs
    congr 1
    apply List.map_congr_left
    intro k hk
    rw [List.mem_range] at hk
    apply ih _ _ nd.2
    intro τ h1 h2
    apply h τ
    · intro m hm
      rw [List.mem_cons, not_or] at hm
      rw [h1 m hm.2]
      simp [Assign.set, hm.1]
    · intro m hm
      rcases List.mem_cons.mp hm with e | hm'
      · subst e
        rw [h1 m nd.1]
        simpa [Assign.set] using hk
      · exact h2 m hm'

theorem sumLegs_append [AddMonoid R] (dim : LegId → Nat) (xs ys : List LegId) (f : Assign → R) (σ : Assign) :
    sumLegs dim (xs ++ ys) f σ = sumLegs dim xs (sumLegs dim ys f) σ := by
  induction xs generalizing σ with
  | nil => rfl
  | cons x xs ih =>
    rw [List.cons_append]
    unfold sumLegs
    simp only [ih]

theorem sum_range_mul' [AddCommMonoid R] (d P : Nat) (g : Nat → R) :
    ∑ i ∈ range (d * P), g i = ∑ k ∈ range d, ∑ i ∈ range P, g (k * P + i) := by
  induction d with
  | zero => simp
  | succ d ih =>
    rw [Nat.succ_mul, Finset.sum_range_add, ih, Finset.sum_range_succ]

theorem sumLegs_ravel [AddCommMonoid R] (dim : LegId → Nat) (legs : List LegId) (nd : legs.Nodup) (g : Nat → R) (σ : Assign) :
    sumLegs dim legs (fun τ => g (ravel (legs.map dim) (legs.map τ))) σ = ∑ i ∈ range (legs.map dim).prod, g i := by
  induction legs generalizing g σ with
  | nil => simp [sumLegs, ravel]
  | cons l ls ih =>
    have nd' := nd
    rw [List.nodup_cons] at nd
    rw [List.map_cons, List.prod_cons, sum_range_mul', ← sum_range_list]
    unfold sumLegs
    congr 1
    apply List.map_congr_left
    intro k hk
    rw [← ih nd.2 (fun i => g (k * (ls.map dim).prod + i)) (σ.set l k)]
    apply sumLegs_congr _ _ _ _ _ _ nd.2
    intro τ h1 _
    have e : τ l = k := by rw [h1 l nd.1]; simp [Assign.set]
    simp only [List.map_cons, ravel, e]

/-- A sum over all legs of a matrix. -/
theorem sumLegs_matrix [AddCommMonoid R] (dim : LegId → Nat) (LA LB : List LegId) (nd : (LA ++ LB).Nodup)
    (g : Nat → Nat → R) (f : Assign → R) (σ : Assign)
    (h : ∀ τ, InRange dim (LA ++ LB) τ → f τ = g (ravel (LA.map dim) (LA.map τ)) (ravel (LB.map dim) (LB.map τ))) :
    sumLegs dim (LA ++ LB) f σ = ∑ i ∈ range (LA.map dim).prod, ∑ j ∈ range (LB.map dim).prod, g i j := by
  have nd' := nd
  rw [List.nodup_append] at nd'
  rw [sumLegs_congr dim (LA ++ LB) f _ σ (fun τ _ hτ => h τ hτ) nd, sumLegs_append]
  rw [← sumLegs_ravel dim LA nd'.1 (fun i => ∑ j ∈ range (LB.map dim).prod, g i j) σ]
  apply sumLegs_congr _ _ _ _ _ _ nd'.1
  intro τ _ hτ
  rw [← sumLegs_ravel dim LB nd'.2.1 (fun j => g (ravel (LA.map dim) (LA.map τ)) j) τ]
  apply sumLegs_congr _ _ _ _ _ _ nd'.2.1
  intro τ' h1 _
  have : LA.map τ' = LA.map τ := List.map_congr_left fun l hl => h1 l (fun hl' => nd'.2.2 l hl l hl' rfl)
  simp only [this]

/-- The squared error of cutting a tensor that was written as a matrix. -/
theorem frobenius_legs [CommRing R] [StarRing R] {mat : NDArray R} {dim : LegId → Nat} {LA LB : List LegId}
    {o : NDArray R × List R × NDArray R}
    (S : IsUnitarySVD mat (LA.map dim).prod (LB.map dim).prod o) (nd : (LA ++ LB).Nodup) {f : Assign → R}
    (hm : IsMatrixOf dim LA LB f mat) {k : Nat} (hk : k ≤ min (LA.map dim).prod (LB.map dim).prod) {g : Assign → R}
    (hg : ∀ σ, InRange dim (LA ++ LB) σ → g σ = partialSVD o.1 o.2.1 o.2.2 (range k)
      (ravel (LA.map dim) (LA.map σ)) (ravel (LB.map dim) (LB.map σ))) (σ : Assign) :
    sumLegs dim (LA ++ LB) (fun τ => star (f τ - g τ) * (f τ - g τ)) σ =
      ((o.2.1.drop k).map fun z => star z * z).sum := by
  rw [sumLegs_matrix dim LA LB nd (fun i j => star (partialSVD o.1 o.2.1 o.2.2 (Ico k (min (LA.map dim).prod (LB.map dim).prod)) i j) *
    partialSVD o.1 o.2.1 o.2.2 (Ico k (min (LA.map dim).prod (LB.map dim).prod)) i j)]
  · rw [frobenius_tail S _ (fun l hl => (Finset.mem_Ico.mp hl).2), ← S.sLen]
    have : ∀ (s : List R) (k : Nat), k ≤ s.length → ∑ l ∈ Ico k s.length, star (s.getD l 0) * s.getD l 0 =
        ((s.drop k).map fun z => star z * z).sum := by
      intro s
      induction s with
      | nil => intro k hk; simp
      | cons z s ih =>
        intro k hk
        cases k with
        | zero =>
          have := ih 0 (Nat.zero_le _)
          simp only [List.drop_zero, ← Finset.range_eq_Ico] at this ⊢
          rw [List.length_cons, Finset.sum_range_succ', List.map_cons, List.sum_cons, ← this, add_comm]
          simp
        | succ k =>
          have := ih k (Nat.le_of_succ_le_succ hk)
          rw [List.drop_succ_cons, ← this, List.length_cons, ← Finset.sum_Ico_add' _ k s.length 1]
          simp
    exact this _ _ (by rw [S.sLen]; exact hk)
  · intro τ hτ
    rw [hg τ hτ, ← hm.2.2 τ hτ]
    have iA : InRange dim LA τ := fun x hx => hτ x (List.mem_append_left _ hx)
    have iB : InRange dim LB τ := fun x hx => hτ x (List.mem_append_right _ hx)
    rw [S.exact _ (ravel_lt' iA) _ (ravel_lt' iB), partialSVD_sub _ _ _ hk]

theorem keptN_eq (la : LinAlg R) (chi n m : Nat) {s : List R} (h : s.length = min n m) :
    keptN la chi n m s = min chi (s.countP la.isNonZero) := by
  have : s.countP la.isNonZero ≤ s.length := List.countP_le_length
  unfold keptN nonZeroElementN
  omega

theorem cut_exact [CommSemiring R] {mat : NDArray R} {n m : Nat} {o : NDArray R × List R × NDArray R} (S : IsSVD mat n m o)
    {k : Nat} (hk : k ≤ min n m) (h0 : ∀ z ∈ o.2.1.drop k, z = 0) {i j : Nat} (hi : i < n) (hj : j < m) :
    partialSVD o.1 o.2.1 o.2.2 (range k) i j = mat.get [i, j] := by
  rw [S.exact i hi j hj]
  apply partialSVD_cut _ _ _ hk
  intro l h1 h2
  have hl : l < o.2.1.length := by rw [S.sLen]; exact h2
  have e : o.2.1.getD l 0 = o.2.1[l] := by simp [List.getD_eq_getElem?_getD, hl]
  rw [e]
  apply h0
  rw [List.mem_drop_iff_getElem]
  exact ⟨l - k, by omega, by congr 1; omega⟩

theorem rank_drop [CommSemiring R] {la : LinAlg R} (hr : RankRevealing la) {a : NDArray R} {n m : Nat} (w : a.WF)
    (hs : a.shape = [n, m]) {chi : Nat} (h : (la.svd a).2.1.countP la.isNonZero ≤ chi) :
    ∀ z ∈ (la.svd a).2.1.drop (min chi ((la.svd a).2.1.countP la.isNonZero)), z = 0 := by
  obtain ⟨pre, post, e, h1, h2⟩ := hr a n m w hs
  have c : (la.svd a).2.1.countP la.isNonZero = pre.length := by
    rw [e, List.countP_append]
    have a1 : pre.countP la.isNonZero = pre.length := List.countP_eq_length.mpr h1
    have a2 : post.countP la.isNonZero = 0 := by
      rw [List.countP_eq_zero]
      intro x hx; simp [(h2 x hx).2]
    omega
  rw [min_eq_right h, c, e, List.drop_left]
  intro z hz
  exact (h2 z hz).1

/-- Every position is the position of some assignment. -/
theorem exists_assign (dim : LegId → Nat) (legs : List LegId) (nd : legs.Nodup) (σ : Assign) {i : Nat}
    (h : i < (legs.map dim).prod) : ∃ τ : Assign, InRange dim legs τ ∧ (∀ l, l ∉ legs → τ l = σ l) ∧
      ravel (legs.map dim) (legs.map τ) = i := by
  induction legs generalizing σ i with
  | nil =>
    refine ⟨σ, by simp [InRange], fun _ _ => rfl, ?_⟩
    simp at h
    simp [ravel, h]
  | cons l ls ih =>
    rw [List.nodup_cons] at nd
    rw [List.map_cons, List.prod_cons] at h
    have hp : 0 < (ls.map dim).prod := by
      rcases Nat.eq_zero_or_pos (ls.map dim).prod with h0 | h0
      · rw [h0] at h; simp at h
      · exact h0
    obtain ⟨τ, h1, h2, h3⟩ := ih nd.2 (σ.set l (i / (ls.map dim).prod)) (Nat.mod_lt i hp)
    have hl : τ l = i / (ls.map dim).prod := by rw [h2 l nd.1]; simp [Assign.set]
    refine ⟨τ, ?_, ?_, ?_⟩
    · intro k hk
      rcases List.mem_cons.mp hk with rfl | hk
      · rw [hl]; exact Nat.div_lt_of_lt_mul (by rw [Nat.mul_comm]; exact h)
      · exact h1 k hk
    · intro k hk
      rw [List.mem_cons, not_or] at hk
      rw [h2 k hk.2]
      simp [Assign.set, hk.1]
    · simp only [List.map_cons, ravel]
      rw [h3, hl]
      exact Nat.div_add_mod' i _

theorem IsMatrixOf.unique [Zero R] {dim : LegId → Nat} {LA LB : List LegId} {f : Assign → R} {m m' : NDArray R}
    (h : IsMatrixOf dim LA LB f m) (nd : (LA ++ LB).Nodup) (h' : IsMatrixOf dim LA LB f m') : m = m' := by
  rw [List.nodup_append] at nd
  apply NDArray.ext_get h.1 h'.1 (by rw [h.2.1, h'.2.1])
  intro idx hidx
  rw [h.2.1] at hidx
  obtain ⟨i, j, rfl, hi, hj⟩ : ∃ i j, idx = [i, j] ∧ i < (LA.map dim).prod ∧ j < (LB.map dim).prod := by
    rcases idx with _ | ⟨i, _ | ⟨j, _ | ⟨k, r⟩⟩⟩ <;> simp [ValidIdx] at hidx
    exact ⟨i, j, rfl, hidx.1, hidx.2⟩
  obtain ⟨σ, a1, _, a3⟩ := exists_assign dim LA nd.1 (fun _ => 0) hi
  obtain ⟨τ, b1, b2, b3⟩ := exists_assign dim LB nd.2.1 σ hj
  have e : LA.map τ = LA.map σ := List.map_congr_left fun l hl => b2 l (fun hl' => nd.2.2 l hl l hl' rfl)
  have r : InRange dim (LA ++ LB) τ := by
    intro l hl
    rcases List.mem_append.mp hl with hl | hl
    · rw [b2 l (fun hl' => nd.2.2 l hl l hl' rfl)]; exact a1 l hl
    · exact b1 l hl
  have x := h.2.2 τ r
  rw [e, a3, b3] at x
  have y := h'.2.2 τ r
  rw [e, a3, b3] at y
  rw [x, y]

end CTL
