import Verif.Lemmas.HOTRGExact

/-! C50: HOTRG computes the partition function of a torus. -/

namespace CTL
variable {K : Type}

open Finset (range)

/-! ### `solveEnv` -/

section
variable [Field K] [LinearOrder K] {p : RGParams K} {m : NDArray K} {n : Nat}

/-- C50: the columns of the projector are the eigenvectors of the largest eigenvalues, the largest one first. -/
theorem C50_solveEnv (h : IsEigh m n (p.eigh m)) (chi : Nat) :
    ∃ k, k ≤ n ∧ k = (if envKept p m chi = 0 then n else envKept p m chi) ∧ (solveEnv p m chi).1.WF ∧ (solveEnv p m chi).1.shape = [n, k] ∧
      (∀ i < k, ∀ j < k, ∑ x ∈ range n, (solveEnv p m chi).1.get [x, i] * (solveEnv p m chi).1.get [x, j] = if i = j then 1 else 0) ∧
      ∀ x < n, ∀ o < k, ∑ y ∈ range n, m.get [x, y] * (solveEnv p m chi).1.get [y, o] =
        (p.eigh m).1.getD (n - 1 - o) 0 * (solveEnv p m chi).1.get [x, o] := by
  obtain ⟨w, sh, v⟩ := solveEnv_prj h chi
  have hle := prjCols_le h chi
  refine ⟨prjCols p m chi n, hle, rfl, w, sh, fun i hi j hj => ?_, fun x hx o ho => ?_⟩
  · have := h.orth (n - 1 - i) (by omega) (n - 1 - j) (by omega)
    have e : (n - 1 - i = n - 1 - j) ↔ i = j := by omega
    simp only [e] at this
    rw [← this]
    refine Finset.sum_congr rfl fun x hx => ?_
    rw [v x (Finset.mem_range.mp hx) i hi, v x (Finset.mem_range.mp hx) j hj]
  · have := h.eig x hx (n - 1 - o) (by omega)
    rw [v x hx o ho, ← this]
    refine Finset.sum_congr rfl fun y hy => ?_
    rw [v y (Finset.mem_range.mp hy) o ho]

/-- C50: the error is the share of the sum of the eigenvalues that is cut off, if as many eigenvalues as asked for are above
the threshold. -/
theorem C50_solveEnv_error (chi : Nat) (h0 : chi ≠ 0) (h : chi ≤ (p.eigh m).1.countP fun x => decide (p.threshold < x))
    (hs : (p.eigh m).1.sum ≠ 0) :
    (solveEnv p m chi).2 = ((p.eigh m).1.take ((p.eigh m).1.length - chi)).sum / (p.eigh m).1.sum := by
  unfold solveEnv
  simp only
  rw [if_neg (Nat.not_lt.mpr h)]
  have e : ((p.eigh m).1.take ((p.eigh m).1.length - chi)).sum + (lastN (p.eigh m).1 chi).sum = (p.eigh m).1.sum := by
    unfold lastN
    rw [if_neg h0, ← List.sum_append, List.take_append_drop]
  rw [eq_div_iff hs, sub_mul, one_mul, div_mul_cancel₀ _ hs, ← e]
  ring

/-- C50, a deviation: with `chi = 0`, or with no eigenvalue above the threshold, nothing is cut off. -/
theorem C50_solveEnv_zero (h : IsEigh m n (p.eigh m)) {chi : Nat} (h0 : chi = 0 ∨ ∀ x ∈ (p.eigh m).1, x ≤ p.threshold) :
    (solveEnv p m chi).1.shape = [n, n] := by
  obtain ⟨_, sh, _⟩ := solveEnv_prj h chi
  rw [sh, prjCols, if_pos]
  unfold envKept
  rcases h0 with rfl | h0
  · simp
  · rw [List.countP_eq_zero.mpr fun x hx => by simpa using h0 x hx, Nat.min_zero]

/-- C50, a deviation: the reported error is 0 whenever fewer eigenvalues than asked for are above the threshold, whatever is cut
off. -/
theorem C50_solveEnv_silent (chi : Nat) (h : ((p.eigh m).1.countP fun x => decide (p.threshold < x)) < chi) :
    (solveEnv p m chi).2 = 0 := by
  unfold solveEnv
  simp only
  rw [if_pos h]

variable [IsStrictOrderedRing K]

theorem sorted_above {l : List K} (hs : l.Pairwise (· ≤ ·)) (thr : K) {i : Nat}
    (hi : i < l.length - l.countP fun x => decide (thr < x)) : l.getD i 0 ≤ thr := by
  by_contra hc
  have hc := not_le.mp hc
  have hlen : i < l.length := by omega
  have hall : ∀ x ∈ l.drop i, thr < x := by
    intro x hx
    obtain ⟨j, hj, rfl⟩ := List.mem_iff_getElem.mp hx
    rw [List.getElem_drop]
    rw [List.getD_eq_getElem?_getD, List.getElem?_eq_getElem hlen, Option.getD_some] at hc
    rcases Nat.eq_zero_or_pos j with rfl | hj0
    · exact hc
    · refine hc.trans_le (List.pairwise_iff_getElem.mp hs i (i + j) hlen ?_ (by omega))
      rw [List.length_drop] at hj
      omega
  have h1 : (l.drop i).countP (fun x => decide (thr < x)) = (l.drop i).length := by
    rw [List.countP_eq_length]
    exact fun x hx => by simpa using hall x hx
  have h2 : (l.drop i).countP (fun x => decide (thr < x)) ≤ l.countP fun x => decide (thr < x) :=
    (List.drop_sublist i l).countP_le
  rw [h1, List.length_drop] at h2
  omega

theorem lossless_of_count (h : IsEigh m n (p.eigh m)) (pos : ∀ x ∈ (p.eigh m).1, 0 ≤ x) (ht : p.threshold ≤ 0) {chi : Nat}
    (hc : ((p.eigh m).1.countP fun x => decide (p.threshold < x)) ≤ chi) : Lossless p m chi := by
  intro _ i hi
  rw [envKept, Nat.min_eq_right hc] at hi
  refine le_antisymm ((sorted_above h.sorted p.threshold hi).trans ht) ?_
  have hlen : i < (p.eigh m).1.length := by omega
  rw [List.getD_eq_getElem?_getD, List.getElem?_eq_getElem hlen, Option.getD_some]
  exact pos _ (List.getElem_mem hlen)

theorem sum_zero_all {l : List K} (pos : ∀ x ∈ l, 0 ≤ x) (h : l.sum = 0) : ∀ x ∈ l, x = 0 := by
  induction l with
  | nil => simp
  | cons y l ih =>
    rw [List.sum_cons] at h
    have h1 := pos y (by simp)
    have h2 : 0 ≤ l.sum := List.sum_nonneg fun x hx => pos x (by simp [hx])
    have h3 : y = 0 := by linarith
    intro x hx
    rcases List.mem_cons.mp hx with rfl | hx
    · exact h3
    · exact ih (fun z hz => pos z (by simp [hz])) (by linarith) x hx

theorem lossless_of_error (h : IsEigh m n (p.eigh m)) (pos : ∀ x ∈ (p.eigh m).1, 0 ≤ x) (ht : p.threshold ≤ 0) {chi : Nat}
    (h0 : (solveEnv p m chi).2 = 0) : Lossless p m chi := by
  rcases le_total ((p.eigh m).1.countP fun x => decide (p.threshold < x)) chi with hc | hc
  · exact lossless_of_count h pos ht hc
  · intro hk i hi
    rw [envKept, Nat.min_eq_left hc] at hk hi
    by_cases hs : (p.eigh m).1.sum = 0
    · have hlen : i < (p.eigh m).1.length := by omega
      rw [List.getD_eq_getElem?_getD, List.getElem?_eq_getElem hlen, Option.getD_some]
      exact sum_zero_all pos hs _ (List.getElem_mem hlen)
    · rw [C50_solveEnv_error chi hk hc hs, div_eq_zero_iff] at h0
      have h0 := h0.resolve_right hs
      have hlen : i < ((p.eigh m).1.take ((p.eigh m).1.length - chi)).length := by
        rw [List.length_take]
        omega
      have := sum_zero_all (fun x hx => pos x (List.mem_of_mem_take hx)) h0 _ (List.getElem_mem hlen)
      rw [List.getElem_take] at this
      rw [List.getD_eq_getElem?_getD, List.getElem?_eq_getElem (by omega), Option.getD_some]
      exact this

end

/-! ### Construction and single steps -/

section
variable [Field K] [LinearOrder K] [Star K] {p : RGParams K}

/-- C50: the constructor takes a tensor of the square lattice or an array, divides by the norm and archives the result. -/
theorem C50_new {st : Store} (wf : WFStore st) {V H : Nat} {A : Nat → Nat → Nat → Nat → K} {x : Tensor K ⊕ NDArray K}
    (hx : InitialSite st V H A x) (dof : Option Nat) (chiH : Nat) (chiV : Option Nat) :
    ∃ s, HOTRGState.new p st x dof chiH chiV = .ok s ∧ HGood p s ∧ Started p st V H A dof chiH chiV s :=
  new_ok wf hx dof chiH chiV

variable [TrivialStar K]

/-- C50: `directedIterate` on any two tensors of the square lattice that fit the projector: what `impurityIterate` calls. -/
theorem C50_directed {s : HOTRGState K} (g : HGood p s) (d : RGDir) {P : NDArray K} {k V H : Nat} {i1 i2 : Option (Tensor K)}
    (h1 : SquareSite s.st (i1.getD s.a)) (h2 : SquareSite s.st (i2.getD s.a))
    (v1 : (i1.getD s.a).dimOf s.st "u" = V) (v2 : (i2.getD s.a).dimOf s.st "u" = V)
    (l1 : (i1.getD s.a).dimOf s.st "l" = H) (l2 : (i2.getD s.a).dimOf s.st "l" = H)
    (wp : P.WF) (sp : P.shape = [envSize V H d, k]) (hk : k ≠ 0) :
    ∃ s' t, Settles (fun fuel => s.directed p fuel d P i1 i2) (s', t) ∧
      HGood p s' ∧ s'.a = s.a ∧ LegsUnchanged s.st s'.st ∧ SquareSite s'.st t ∧ t.dimOf s'.st "u" = mergedV V k d ∧
      t.dimOf s'.st "l" = mergedH H k d ∧
      ∀ u < mergedV V k d, ∀ l < mergedH H k d, ∀ d' < mergedV V k d, ∀ r < mergedH H k d,
        t.site s'.st u l d' r = mergedSite V H ((i1.getD s.a).site s.st) ((i2.getD s.a).site s.st) P d u l d' r := by
  obtain ⟨s', t, e, ⟨st', h, v, rfl, hk', w, nh, nv⟩, q, dv, dh, val⟩ := directed_settles g d h1 h2 v1 v2 l1 l2 wp sp hk
  exact ⟨_, t, e, ⟨w, g.a.kept hk', nh, nv, g.project⟩, rfl, hk', q, dv, dh, val⟩

variable [IsStrictOrderedRing K]

/-- C50: every call of `iterate` succeeds, and does what `Iterated` says: the direction with the smallest error, the two tensors
merged with its projector, divided by the norm, and everything recorded. -/
theorem C50_iterate (he : ExactEigh p.eigh) {s : HOTRGState K} (g : HGood p s) :
    ∃ s' d, Settles (fun fuel => s.iterate p fuel) s' ∧ HGood p s' ∧ Iterated p s s' d :=
  iterate_settles he g

/-- C50: any number of calls succeeds. -/
theorem C50_run (he : ExactEigh p.eigh) {s0 : HOTRGState K} (g : HGood p s0) (n : Nat) : ∃ s, Run p s0 n s ∧ HGood p s :=
  run_exists he g n

omit [Field K] [LinearOrder K] [Star K] [TrivialStar K] [IsStrictOrderedRing K] in
theorem pyGet_of_getElem? {α : Type} {l : List α} {i : Nat} {x : α} (h : l[i]? = some x) : pyGet l (i : Int) = .ok x := by
  unfold pyGet
  have h0 : ¬ ((i : Int) < 0) := Int.not_lt.mpr (Int.natCast_nonneg i)
  simp only [if_neg h0, Int.toNat_natCast, h, if_pos (Int.natCast_nonneg i)]

theorem run_record (he : ExactEigh p.eigh) {s0 : HOTRGState K} (g : HGood p s0)
    (h0 : s0.directChoices = [] ∧ s0.projectors = [] ∧ s0.errors = []) : ∀ {n : Nat} {s : HOTRGState K}, Run p s0 n s →
    (s.directChoices.length = n ∧ s.projectors.length = n ∧ s.errors.length = n) ∧ ∀ i < n, ∃ s1 d, Run p s0 i s1 ∧ HGood p s1 ∧
      s.directChoices[i]? = some d ∧ s.projectors[i]? = some (s1.projectorOf p d) ∧ s.errors[i]? = some (s1.errorOf p d)
  | 0, s, h => by
    obtain rfl := Run.zero.mp h
    rw [h0.1, h0.2.1, h0.2.2]
    exact ⟨⟨rfl, rfl, rfl⟩, fun i hi => absurd hi (Nat.not_lt_zero i)⟩
  | n + 1, s, h => by
    obtain ⟨s1, d, r1, g1, -, -, I⟩ := h.succ he g
    obtain ⟨⟨l1, l2, l3⟩, ih⟩ := run_record he g h0 r1
    rw [I.choice, I.projector, I.error]
    refine ⟨by simp [l1, l2, l3], fun i hi => ?_⟩
    rcases Nat.lt_succ_iff_lt_or_eq.mp hi with hi | rfl
    · obtain ⟨s2, d2, r2, g2, e1, e2, e3⟩ := ih i hi
      refine ⟨s2, d2, r2, g2, ?_, ?_, ?_⟩
      · rw [List.getElem?_append_left (by omega), e1]
      · rw [List.getElem?_append_left (by omega), e2]
      · rw [List.getElem?_append_left (by omega), e3]
    · refine ⟨s1, d, r1, g1, ?_, ?_, ?_⟩
      · rw [List.getElem?_append_right (by omega), l1, Nat.sub_self]
        rfl
      · rw [List.getElem?_append_right (by omega), l2, Nat.sub_self]
        rfl
      · rw [List.getElem?_append_right (by omega), l3, Nat.sub_self]
        rfl

/-- C50: `impurityIterate` with the number `i` of an earlier step merges two tensors in the direction and with the projector of
that step. -/
theorem C50_impurity (he : ExactEigh p.eigh) {s0 : HOTRGState K} (g : HGood p s0)
    (h0 : s0.directChoices = [] ∧ s0.projectors = [] ∧ s0.errors = []) {n : Nat} {s : HOTRGState K} (h : Run p s0 n s) {i : Nat} (hi : i < n) :
    ∃ s1 d, Run p s0 i s1 ∧ s.directChoices[i]? = some d ∧
      ∀ x y : Tensor K, SquareSite s.st x → SquareSite s.st y →
        x.dimOf s.st "u" = s1.a.dimOf s1.st "u" → y.dimOf s.st "u" = s1.a.dimOf s1.st "u" →
        x.dimOf s.st "l" = s1.a.dimOf s1.st "l" → y.dimOf s.st "l" = s1.a.dimOf s1.st "l" →
        ∃ s' t, Settles (fun fuel => s.impurityIterate p fuel [x, y] i) (s', t) ∧
          HGood p s' ∧ s'.a = s.a ∧ LegsUnchanged s.st s'.st ∧ SquareSite s'.st t ∧
          t.dimOf s'.st "u" = mergedV (s1.a.dimOf s1.st "u") ((s1.projectorOf p d).shape.getD 1 0) d ∧
          t.dimOf s'.st "l" = mergedH (s1.a.dimOf s1.st "l") ((s1.projectorOf p d).shape.getD 1 0) d ∧
          ∀ u < t.dimOf s'.st "u", ∀ l < t.dimOf s'.st "l", ∀ d' < t.dimOf s'.st "u", ∀ r < t.dimOf s'.st "l",
            t.site s'.st u l d' r =
              mergedSite (s1.a.dimOf s1.st "u") (s1.a.dimOf s1.st "l") (x.site s.st) (y.site s.st) (s1.projectorOf p d) d u l d' r := by
  obtain ⟨⟨len, -, -⟩, hr⟩ := run_record he g h0 h
  obtain ⟨s1, d, r1, g1, e1, e2, -⟩ := hr i hi
  refine ⟨s1, d, r1, e1, fun x y hx hy v1 v2 l1 l2 => ?_⟩
  have gs := h.good he g
  have hV : s1.a.dimOf s1.st "u" ≠ 0 := dimOf_pos g1.a.labels (by decide) (by decide)
  have hH : s1.a.dimOf s1.st "l" ≠ 0 := dimOf_pos g1.a.labels (by decide) (by decide)
  obtain ⟨wp, sp, -⟩ := solveEnv_prj (envMatrix_eigh he (s1.a.dimOf s1.st "u") (s1.a.dimOf s1.st "l") (s1.a.site s1.st) d) (s1.chi d)
  change (s1.projectorOf p d).WF at wp
  change (s1.projectorOf p d).shape = [_, prjCols p (s1.env d) (s1.chi d) _] at sp
  have hn : envSize (s1.a.dimOf s1.st "u") (s1.a.dimOf s1.st "l") d ≠ 0 := by
    unfold envSize
    split
    · exact Nat.mul_ne_zero hH hH
    · exact Nat.mul_ne_zero hV hV
  obtain ⟨s', t, e, g', ea, hk, q, dv, dh, val⟩ := C50_directed gs d (i1 := some x) (i2 := some y) hx hy v1 v2 l1 l2 wp sp (prjCols_pos hn _)
  have hsh : (s1.projectorOf p d).shape.getD 1 0 = prjCols p (s1.env d) (s1.chi d) (envSize (s1.a.dimOf s1.st "u") (s1.a.dimOf s1.st "l") d) := by
    rw [sp]
    rfl
  refine ⟨s', t, ?_, g', ea, hk, q, by rw [dv, hsh], by rw [dh, hsh], ?_⟩
  · have p1 : pyGet s.directChoices i = .ok d := pyGet_of_getElem? e1
    have p2 : pyGet s.projectors i = .ok (s1.projectorOf p d) := pyGet_of_getElem? e2
    unfold HOTRGState.impurityIterate
    simp only [if_pos (len.symm ▸ hi : i < s.directChoices.length), p1, p2, bind, Except.bind]
    exact e
  · rw [dv, dh]
    exact val

/-! ### The partition function -/

/-- C50: the trace of the archived tensor number `i`, times the factor taken out by the normalizations, is the partition function of
the torus with `2 ^ rows` rows and `2 ^ columns` columns, if no step has cut off more than a null space. -/
theorem C50_exact (he : ExactEigh p.eigh) {st : Store} {V H : Nat} {A : Nat → Nat → Nat → Nat → K} {dof : Option Nat} {chiH : Nat}
    {chiV : Option Nat} {s0 : HOTRGState K} (g : HGood p s0) (S : Started p st V H A dof chiH chiV s0) {n : Nat} {s : HOTRGState K}
    (h : Run p s0 n s) (hl : ∀ i s1 d, Run p s0 i s1 → s.directChoices[i]? = some d → Lossless p (s1.env d) (s1.chi d))
    (h0 : ∀ c ∈ s.aNorms, c ≠ 0) :
    s.aArchive.length = n + 1 ∧ s.aNorms.length = n + 1 ∧ s.directChoices.length = n ∧
      ∀ i ≤ n, ∃ x, s.pureTensorTrace i = .ok x ∧
        totalScale (s.aNorms.take (i + 1)) * x =
          torus (2 ^ rowSteps (s.directChoices.take i)) (2 ^ colSteps (s.directChoices.take i)) V H A := by
  have C := Run.coarse he g S.coarse h hl h0
  refine ⟨C.archive, C.norms, C.choices, fun i hi => ?_⟩
  obtain ⟨⟨t, k⟩, e⟩ : ∃ y, s.aArchive[i]? = some y := ⟨_, List.getElem?_eq_getElem (by rw [C.archive]; omega)⟩
  obtain ⟨q, -, E⟩ := C.all i t k e
  refine ⟨∑ i ∈ range (t.dimOf s.st "u"), ∑ j ∈ range (t.dimOf s.st "l"), t.site s.st i j i j, ?_, ?_⟩
  · unfold HOTRGState.pureTensorTrace
    have : pyGet s.aArchive i = .ok (t, k) := pyGet_of_getElem? e
    simp only [this, bind, Except.bind]
    exact C49_squareTrace q.labels q.v q.h
  · have := E 1 1
    rw [torus_one, mul_one, pow_one, mul_one, mul_one] at this
    exact this

/-- C50: the same when all reported errors are 0 and the threshold of `solveEnv` is not positive. -/
theorem C50_exact_errors (he : ExactEigh p.eigh) (ht : p.threshold ≤ 0) {st : Store} {V H : Nat} {A : Nat → Nat → Nat → Nat → K}
    {dof : Option Nat} {chiH : Nat} {chiV : Option Nat} {s0 : HOTRGState K} (g : HGood p s0) (S : Started p st V H A dof chiH chiV s0)
    {n : Nat} {s : HOTRGState K} (h : Run p s0 n s) (herr : ∀ e ∈ s.errors, e = 0) (h0 : ∀ c ∈ s.aNorms, c ≠ 0) :
    ∀ i ≤ n, ∃ x, s.pureTensorTrace i = .ok x ∧
      totalScale (s.aNorms.take (i + 1)) * x =
        torus (2 ^ rowSteps (s.directChoices.take i)) (2 ^ colSteps (s.directChoices.take i)) V H A := by
  refine (C50_exact he g S h (fun i s1 d r1 hi => ?_) h0).2.2.2
  obtain ⟨⟨len, -, -⟩, hr⟩ := run_record he g ⟨S.empty.2.1, S.empty.2.2, S.empty.1⟩ h
  obtain ⟨s2, d2, r2, g2, e1, -, e3⟩ := hr i (len ▸ (List.getElem?_eq_some_iff.mp hi).1)
  rw [hi] at e1
  obtain rfl := Option.some.inj e1
  obtain rfl := Settles.unique r1 r2
  obtain ⟨Sg, N, hN⟩ := env_gram (s1.a.dimOf s1.st "u") (s1.a.dimOf s1.st "l") (s1.a.site s1.st) d
  have hE := envMatrix_eigh he (s1.a.dimOf s1.st "u") (s1.a.dimOf s1.st "l") (s1.a.site s1.st) d
  exact lossless_of_error hE (eig_nonneg hE Sg N hN) ht (herr _ (List.mem_of_getElem? e3))

/-! ### `logZDensity` -/

omit [Star K] [TrivialStar K] [IsStrictOrderedRing K] in
theorem logLoop_ok (log : K → K) (st : Store) (tr : Tensor K → K) : ∀ (acc : K) (l : List (K × (Tensor K × Nat))),
    (∀ x ∈ l, squareTrace st x.2.1 = .ok (tr x.2.1)) →
    ∃ res, HOTRGState.logLoop log st acc l = .ok res ∧ res.length = l.length ∧ ∀ i x, l[i]? = some x →
      res[i]? = some (acc + ((l.take (i + 1)).map fun y => log y.1 / (y.2.2 : K)).sum + log (tr x.2.1) / (x.2.2 : K))
  | acc, [], _ => ⟨[], rfl, rfl, by simp⟩
  | acc, (c, (t, k)) :: l, h => by
    obtain ⟨res, e, len, hv⟩ := logLoop_ok log st tr (acc + log c / (k : K)) l fun x hx => h x (List.mem_cons_of_mem _ hx)
    have ht := h (c, (t, k)) List.mem_cons_self
    simp only at ht
    refine ⟨_, by simp only [HOTRGState.logLoop, ht, e, bind, Except.bind, pure, Except.pure]; rfl, by simp [len], fun i x hx => ?_⟩
    cases i with
    | zero =>
      obtain rfl := Option.some.inj hx
      simp
    | succ i =>
      rw [List.getElem?_cons_succ] at hx ⊢
      rw [hv i x hx, List.take_succ_cons, List.map_cons, List.sum_cons]
      congr 1
      ring

omit [Star K] [TrivialStar K] in
theorem log_totalScale {log : K → K} (hlog : ∀ x y, 0 < x → 0 < y → log (x * y) = log x + log y) {k0 : Nat} :
    ∀ (norms : List K), norms ≠ [] → (∀ c ∈ norms, 0 < c) → 0 < totalScale norms ∧
      log (totalScale norms) / ((k0 * 2 ^ (norms.length - 1) : Nat) : K) =
        ((norms.zipIdx).map fun y => log y.1 / ((k0 * 2 ^ y.2 : Nat) : K)).sum := by
  intro norms
  induction norms using List.reverseRecOn with
  | nil => intro h; exact absurd rfl h
  | append_singleton l c ih =>
    intro _ hp
    have hc : 0 < c := hp c (by simp)
    rcases List.eq_nil_or_concat l with rfl | ⟨l', x, hx⟩
    · simp [totalScale, hc]
    · have hne : l ≠ [] := by rw [hx]; simp
      obtain ⟨h1, h2⟩ := ih hne fun y hy => hp y (by simp [hy])
      have hlen : 0 < l.length := List.length_pos_iff.mpr hne
      rw [totalScale_append]
      refine ⟨by positivity, ?_⟩
      rw [List.zipIdx_append, List.map_append, List.sum_append, ← h2, hlog _ _ (by positivity) hc, pow_two, hlog _ _ h1 h1]
      simp only [List.length_append, List.length_singleton, Nat.add_sub_cancel, List.zipIdx_singleton, List.map_cons, List.map_nil,
        List.sum_cons, List.sum_nil, add_zero, Nat.zero_add]
      obtain ⟨m, hm⟩ : ∃ m, l.length = m + 1 := ⟨l.length - 1, by omega⟩
      rw [hm, Nat.add_sub_cancel, add_div]
      congr 1
      push_cast
      rw [pow_succ, ← mul_assoc, ← mul_two]
      rcases Nat.eq_zero_or_pos k0 with rfl | hk0
      · simp
      · have : (k0 : K) ≠ 0 := Nat.cast_ne_zero.mpr (by omega)
        field_simp

/-- C50: entry `i` of `logZDensity` is the logarithm of the partition function of the torus per degree of freedom. -/
theorem C50_logZ (he : ExactEigh p.eigh) {log : K → K} (hlog : ∀ x y, 0 < x → 0 < y → log (x * y) = log x + log y)
    {st : Store} {V H : Nat} {A : Nat → Nat → Nat → Nat → K} {dof : Option Nat} {chiH : Nat}
    {chiV : Option Nat} {s0 : HOTRGState K} (g : HGood p s0) (S : Started p st V H A dof chiH chiV s0) {n : Nat} {s : HOTRGState K}
    (h : Run p s0 n s) (hl : ∀ i s1 d, Run p s0 i s1 → s.directChoices[i]? = some d → Lossless p (s1.env d) (s1.chi d))
    (h0 : ∀ c ∈ s.aNorms, 0 < c)
    (hZ : ∀ i ≤ n, 0 < torus (2 ^ rowSteps (s.directChoices.take i)) (2 ^ colSteps (s.directChoices.take i)) V H A) :
    ∃ res, s.logZDensity log = .ok res ∧ res.length = n + 1 ∧
      ∀ i ≤ n, res[i]? = some (log (torus (2 ^ rowSteps (s.directChoices.take i)) (2 ^ colSteps (s.directChoices.take i)) V H A) /
        ((dof.getD 1 * 2 ^ i : Nat) : K)) := by
  have C := Run.coarse he g S.coarse h hl fun c hc => (h0 c hc).ne'
  let tr : Tensor K → K := fun t => ∑ i ∈ range (t.dimOf s.st "u"), ∑ j ∈ range (t.dimOf s.st "l"), t.site s.st i j i j
  have htr : ∀ x ∈ s.aNorms.zip s.aArchive, squareTrace s.st x.2.1 = .ok (tr x.2.1) := by
    intro x hx
    obtain ⟨i, hi⟩ := List.mem_iff_getElem?.mp (List.of_mem_zip hx).2
    have q := (C.all i x.2.1 x.2.2 hi).1
    exact C49_squareTrace q.labels q.v q.h
  obtain ⟨res, e, len, hv⟩ := logLoop_ok log s.st tr 0 _ htr
  refine ⟨res, e, ?_, fun i hi => ?_⟩
  · rw [len, List.length_zip, C.norms, C.archive, Nat.min_self]
  · obtain ⟨⟨t, k⟩, ea⟩ : ∃ y, s.aArchive[i]? = some y := ⟨_, List.getElem?_eq_getElem (by rw [C.archive]; omega)⟩
    obtain ⟨c, ec⟩ : ∃ y, s.aNorms[i]? = some y := ⟨_, List.getElem?_eq_getElem (by rw [C.norms]; omega)⟩
    obtain ⟨q, hk, E⟩ := C.all i t k ea
    have hE := E 1 1
    rw [torus_one, mul_one, pow_one, mul_one, mul_one] at hE
    have hE : totalScale (s.aNorms.take (i + 1)) * tr t = _ := hE
    have hlen : (s.aNorms.take (i + 1)).length = i + 1 := by rw [List.length_take, C.norms]; omega
    obtain ⟨sp, sl⟩ := log_totalScale hlog (k0 := dof.getD 1) (s.aNorms.take (i + 1)) (by rw [← List.length_pos_iff]; omega)
      fun x hx => h0 x (List.mem_of_mem_take hx)
    rw [hlen, Nat.add_sub_cancel] at sl
    have tp : 0 < tr t := by
      have := hZ i hi
      rw [← hE] at this
      exact (pos_iff_pos_of_mul_pos this).mp sp
    rw [hv i (c, (t, k)) (by rw [List.getElem?_zip_eq_some]; exact ⟨ec, ea⟩), ← hE, hlog _ _ sp tp, add_div, sl, zero_add, hk]
    congr 2
    congr 1
    refine List.ext_getElem? fun j => ?_
    rw [List.getElem?_map, List.getElem?_map]
    by_cases hj : j < i + 1
    · obtain ⟨⟨t', k'⟩, ea'⟩ : ∃ y, s.aArchive[j]? = some y := ⟨_, List.getElem?_eq_getElem (by rw [C.archive]; omega)⟩
      obtain ⟨c', ec'⟩ : ∃ y, s.aNorms[j]? = some y := ⟨_, List.getElem?_eq_getElem (by rw [C.norms]; omega)⟩
      have ez : ((s.aNorms.zip s.aArchive).take (i + 1))[j]? = some (c', (t', k')) := by
        rw [List.getElem?_take_of_lt hj, List.getElem?_zip_eq_some]
        exact ⟨ec', ea'⟩
      rw [ez, List.getElem?_zipIdx, List.getElem?_take_of_lt hj, ec']
      simp only [Option.map_some, Nat.zero_add]
      rw [(C.all j t' k' ea').2.1]
    · rw [List.getElem?_eq_none (by simp; omega), List.getElem?_eq_none (by simp; omega)]
      rfl

end

end CTL
