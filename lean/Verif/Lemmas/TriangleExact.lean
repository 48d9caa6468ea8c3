import Verif.Lemmas.TriangleStep
import Verif.Lemmas.TriangleLattice
import Verif.Props.ContractNets

/-! The partition function over the steps of `TriangleTRG`. -/

namespace CTL
variable {K : Type}

open Finset (range)

theorem triScale_append [CommSemiring K] (c : K) : ∀ cs : List K, triScale (cs ++ [c]) = triScale cs ^ 3 * c
  | [] => by simp [triScale]
  | d :: cs => by
    rw [List.cons_append, triScale, triScale, triScale_append c cs, List.length_append, List.length_singleton, mul_pow, ← pow_mul, pow_succ, mul_assoc]

namespace TriangleTRGState

/-! ### Runs -/

section
variable [Field K] [LinearOrder K] [Star K] {p : RGParams K} {la : LinAlg K} {s0 s : TriangleTRGState K}

theorem Ran.zero : Ran p la s0 0 s ↔ s = s0 :=
  ⟨fun h => h.unique (Settles.const rfl), fun h => h ▸ Settles.const rfl⟩

variable [TrivialStar K]

theorem run_exists (hla : ExactLinAlg la) (g : Good p s0) (hchi : 0 < s0.chi) : ∀ n, ∃ s, Ran p la s0 n s ∧ Good p s ∧ s.chi = s0.chi
  | 0 => ⟨s0, Settles.const rfl, g, rfl⟩
  | n + 1 => by
    obtain ⟨s, r, g1, c1⟩ := run_exists hla g hchi n
    obtain ⟨s', h, g2, I⟩ := iterate_settles hla g1 (c1 ▸ hchi)
    exact ⟨s', r.bind h, g2, I.chi.trans c1⟩

theorem Ran.succ (hla : ExactLinAlg la) (g : Good p s0) (hchi : 0 < s0.chi) {n : Nat} (h : Ran p la s0 (n + 1) s) :
    ∃ s1, Ran p la s0 n s1 ∧ Good p s1 ∧ s1.chi = s0.chi ∧ Good p s ∧ Iterated p la s1 s := by
  obtain ⟨s1, r1, g1, c1⟩ := run_exists hla g hchi n
  obtain ⟨s', h', g2, I⟩ := iterate_settles hla g1 (c1 ▸ hchi)
  have e : s = s' := Settles.unique h (r1.bind h')
  subst e
  exact ⟨s1, r1, g1, c1, g2, I⟩

end

/-! ### One step -/

section
variable [Field K] {p : RGParams K} {la : LinAlg K} {s s' : TriangleTRGState K}

/-- On every lattice the two tensors stand for the dimers on the lattice with a pair of sites for every bond, `i` times over. -/
def StandsFor (alpha : K) (D : Nat) (a b : Nat → Nat → Nat → K) (norms : List K) (i : Nat) : Prop :=
  ∀ G : Honey, triScale norms ^ Fintype.card G.S * G.Z D a b = (Honey.refine^[i] G).Z 2 (Honey.dimerSite alpha) (Honey.dimerSite alpha)

theorem StandsFor.step {alpha : K} (hla : ExactLinAlg la) (I : Iterated p la s s') {i : Nat} (hlen : s.aNorms.length = s.bNorms.length)
    (h : StandsFor alpha s.dim (s.a.tri s.st) (s.b.tri s.st) s.norms i) (hl : LosslessSVD la s.mat s.chi)
    (h0 : ∀ c ∈ s'.aNorms ++ s'.bNorms, c ≠ 0) : StandsFor alpha s'.dim (s'.a.tri s'.st) (s'.b.tri s'.st) s'.norms (i + 1) := by
  obtain ⟨a, b, u, v, Na, Nb, F, ha, hb⟩ := I.tensors
  obtain ⟨x, -, nx, -, vx⟩ := Na.a
  obtain ⟨y, -, ny, -, vy⟩ := Nb.a
  have cx : p.norm x ≠ 0 := h0 _ (by rw [nx]; simp)
  have cy : p.norm y ≠ 0 := h0 _ (by rw [ny]; simp)
  have hn : s'.norms = s.norms ++ [p.norm x * p.norm y] := by
    unfold norms
    rw [nx, ny, List.zipWith_append hlen]
    rfl
  intro G
  have key := Honey.Z_refine G (F.site hla hl)
  have hm : (p.norm x * p.norm y) ^ Fintype.card G.S * G.Z s'.dim (s'.a.tri s'.st) (s'.b.tri s'.st) =
      G.refine.Z s.dim (s.a.tri s.st) (s.b.tri s.st) := by
    rw [← Honey.Z_scale, ← key, ← I.dim]
    refine Honey.Z_congr _ _ (fun i hi j hj k hk => ?_) fun i hi j hj k hk => ?_
    · rw [vx, mul_div_cancel₀ _ cx]
      exact ha i hi j hj k hk
    · rw [vy, mul_div_cancel₀ _ cy]
      exact hb i hi j hj k hk
  rw [hn, triScale_append, mul_pow, mul_assoc, hm, ← pow_mul, ← Honey.card_refine, h, Function.iterate_succ_apply]

end

/-! ### Many steps -/

section
variable [Field K] [LinearOrder K] {p : RGParams K} {la : LinAlg K} {s0 s : TriangleTRGState K}

/-- What is known after some steps of every pair of archived tensors. -/
structure Coarse (alpha : K) (n : Nat) (s : TriangleTRGState K) : Prop where
  errors : s.errors.length = n
  aNorms : s.aNorms.length = n + 1
  bNorms : s.bNorms.length = n + 1
  aArchive : s.aArchive.length = n + 1
  bArchive : s.bArchive.length = n + 1
  dof : s.dof = 3 ^ n
  last : StandsFor alpha s.dim (s.a.tri s.st) (s.b.tri s.st) s.norms n
  all : ∀ i c k d m, s.aArchive[i]? = some (c, k) → s.bArchive[i]? = some (d, m) → k = 3 ^ i ∧ m = 3 ^ i ∧
    ∃ D, TriSite s.st c D ∧ TriSite s.st d D ∧ StandsFor alpha D (c.tri s.st) (d.tri s.st) (s.norms.take (i + 1)) i

theorem Started.coarse {st : Store} {alpha : K} {chi : Nat}
    (S : Started p st alpha chi s) (h0 : ∀ c ∈ s.aNorms ++ s.bNorms, c ≠ 0) : Coarse alpha 0 s := by
  obtain ⟨a, b, Na, Nb, ha, hb⟩ := S.tensors
  obtain ⟨x, -, nx, -, vx⟩ := Na.a
  obtain ⟨y, -, ny, -, vy⟩ := Nb.a
  have nx : s.aNorms = [p.norm x] := nx
  have ny : s.bNorms = [p.norm y] := ny
  have cx : p.norm x ≠ 0 := h0 _ (by rw [nx]; simp)
  have cy : p.norm y ≠ 0 := h0 _ (by rw [ny]; simp)
  have hn : s.norms = [p.norm x * p.norm y] := by
    unfold norms
    rw [nx, ny]
    rfl
  obtain ⟨c, ec, qc, vc⟩ := Na.archive
  obtain ⟨d, ed, qd, vd⟩ := Nb.archive
  have ec : s.aArchive = [(c, 1)] := ec
  have ed : s.bArchive = [(d, 1)] := ed
  have hE : StandsFor alpha s.dim (s.a.tri s.st) (s.b.tri s.st) s.norms 0 := by
    intro G
    rw [hn, S.dim]
    have : triScale [p.norm x * p.norm y] = p.norm x * p.norm y := by simp [triScale]
    rw [this, ← Honey.Z_scale]
    refine Honey.Z_congr _ _ (fun i hi j hj k hk => ?_) fun i hi j hj k hk => ?_
    · rw [vx, mul_div_cancel₀ _ cx]
      exact ha i hi j hj k hk
    · rw [vy, mul_div_cancel₀ _ cy]
      exact hb i hi j hj k hk
  refine ⟨by rw [S.empty]; rfl, by rw [nx]; rfl, by rw [ny]; rfl, by rw [ec]; rfl, by rw [ed]; rfl, by rw [S.dof]; simp, hE, ?_⟩
  intro i t k t' m h1 h2
  rw [ec] at h1
  rw [ed] at h2
  cases i with
  | succ i => simp at h1
  | zero =>
    obtain ⟨rfl, rfl⟩ := Prod.mk.inj (Option.some.inj h1)
    obtain ⟨rfl, rfl⟩ := Prod.mk.inj (Option.some.inj h2)
    refine ⟨rfl, rfl, s.dim, qc, qd, ?_⟩
    have e1 : c.tri s.st = s.a.tri s.st := by funext x y z; exact vc x y z
    have e2 : d.tri s.st = s.b.tri s.st := by funext x y z; exact vd x y z
    rw [e1, e2, List.take_of_length_le (by rw [hn]; simp)]
    exact hE

theorem Coarse.step {alpha : K} {n : Nat} (hla : ExactLinAlg la) (g : Good p s)
    (C : Coarse alpha n s) {s' : TriangleTRGState K} (I : Iterated p la s s') (hl : LosslessSVD la s.mat s.chi)
    (h0 : ∀ c ∈ s'.aNorms ++ s'.bNorms, c ≠ 0) : Coarse alpha (n + 1) s' := by
  have hE := C.last.step hla I (C.aNorms.trans C.bNorms.symm) hl h0
  obtain ⟨a, b, u, v, Na, Nb, -, -, -⟩ := I.tensors
  obtain ⟨x, -, nx, -, vx⟩ := Na.a
  obtain ⟨y, -, ny, -, vy⟩ := Nb.a
  obtain ⟨c, ec, qc, vc⟩ := Na.archive
  obtain ⟨d, ed, qd, vd⟩ := Nb.archive
  have hn : s'.norms = s.norms ++ [p.norm x * p.norm y] := by
    unfold norms
    rw [nx, ny, List.zipWith_append (C.aNorms.trans C.bNorms.symm)]
    rfl
  have ln : s.norms.length = n + 1 := by
    unfold norms
    rw [List.length_zipWith, C.aNorms, C.bNorms, Nat.min_self]
  have hd : s'.dof = 3 ^ (n + 1) := by rw [I.dof, C.dof, pow_succ]
  refine ⟨by rw [I.errors]; simp [C.errors], by rw [nx]; simp [C.aNorms], by rw [ny]; simp [C.bNorms], by rw [ec]; simp [C.aArchive],
    by rw [ed]; simp [C.bArchive], hd, hE, ?_⟩
  intro i t k t' m h1 h2
  rw [ec] at h1
  rw [ed] at h2
  rcases Nat.lt_trichotomy i (n + 1) with h | h | h
  · rw [List.getElem?_append_left (by rw [C.aArchive]; exact h)] at h1
    rw [List.getElem?_append_left (by rw [C.bArchive]; exact h)] at h2
    obtain ⟨k1, k2, D, q1, q2, E⟩ := C.all i t k t' m h1 h2
    have l1 : ∀ l ∈ t.legs, s'.st.leg l = s.st.leg l := fun l hl => by
      obtain ⟨g1, g2, g3⟩ := g.archived _ (List.mem_append_left _ (List.mem_of_getElem? h1)) l hl
      exact I.kept l g1 g2 g3
    have l2 : ∀ l ∈ t'.legs, s'.st.leg l = s.st.leg l := fun l hl => by
      obtain ⟨g1, g2, g3⟩ := g.archived _ (List.mem_append_right _ (List.mem_of_getElem? h2)) l hl
      exact I.kept l g1 g2 g3
    have e1 : t.tri s'.st = t.tri s.st := by funext x y z; exact q1.triOn l1 x y z
    have e2 : t'.tri s'.st = t'.tri s.st := by funext x y z; exact q2.triOn l2 x y z
    refine ⟨k1, k2, D, q1.keptOn I.le l1, q2.keptOn I.le l2, ?_⟩
    rw [e1, e2, hn, List.take_append_of_le_length (by rw [ln]; omega)]
    exact E
  · subst h
    rw [List.getElem?_append_right (by rw [C.aArchive]), C.aArchive, Nat.sub_self] at h1
    rw [List.getElem?_append_right (by rw [C.bArchive]), C.bArchive, Nat.sub_self] at h2
    obtain ⟨rfl, rfl⟩ := Prod.mk.inj (Option.some.inj h1)
    obtain ⟨rfl, rfl⟩ := Prod.mk.inj (Option.some.inj h2)
    refine ⟨hd, hd, s'.dim, qc, qd, ?_⟩
    have e1 : c.tri s'.st = s'.a.tri s'.st := by funext x y z; exact vc x y z
    have e2 : d.tri s'.st = s'.b.tri s'.st := by funext x y z; exact vd x y z
    rw [e1, e2, List.take_of_length_le (by rw [hn]; simp [ln])]
    exact hE
  · rw [List.getElem?_eq_none (by simp [C.aArchive]; omega)] at h1
    cases h1

variable [Star K] [TrivialStar K]

theorem Ran.coarse {alpha : K} (hla : ExactLinAlg la) (g : Good p s0) (hchi : 0 < s0.chi)
    (C : (∀ c ∈ s0.aNorms ++ s0.bNorms, c ≠ 0) → Coarse alpha 0 s0) : ∀ {n : Nat} {s : TriangleTRGState K}, Ran p la s0 n s →
    (∀ i < n, ∀ s1, Ran p la s0 i s1 → LosslessSVD la s1.mat s1.chi) →
    (∀ c ∈ s.aNorms ++ s.bNorms, c ≠ 0) → Coarse alpha n s
  | 0, s, h, _, h0 => by
    obtain rfl := Ran.zero.mp h
    exact C h0
  | n + 1, s, h, hl, h0 => by
    obtain ⟨s1, r1, g1, -, -, I⟩ := h.succ hla g hchi
    obtain ⟨a, b, u, v, Na, Nb, -⟩ := I.tensors
    obtain ⟨x, -, nx, -⟩ := Na.a
    obtain ⟨y, -, ny, -⟩ := Nb.a
    have C1 := Ran.coarse hla g hchi C r1 (fun i hi => hl i (by omega)) fun c hc => by
      refine h0 c ?_
      rw [nx, ny]
      rcases List.mem_append.mp hc with h | h
      · simp [h]
      · simp [h]
    exact C1.step hla g1 I (hl n (by omega) s1 r1) h0

theorem Ran.errors (hla : ExactLinAlg la) (g : Good p s0) (hchi : 0 < s0.chi) (he : s0.errors = []) : ∀ {n : Nat} {s : TriangleTRGState K},
    Ran p la s0 n s → s.errors.length = n ∧ ∀ i < n, ∃ s1, Ran p la s0 i s1 ∧ Good p s1 ∧ s.errors[i]? = some (cutShare la s1.mat s1.chi)
  | 0, s, h => by
    obtain rfl := Ran.zero.mp h
    exact ⟨by rw [he]; rfl, fun i hi => absurd hi (Nat.not_lt_zero i)⟩
  | n + 1, s, h => by
    obtain ⟨s1, r1, g1, -, -, I⟩ := h.succ hla g hchi
    obtain ⟨len, ih⟩ := Ran.errors hla g hchi he r1
    rw [I.errors]
    refine ⟨by simp [len], fun i hi => ?_⟩
    rcases Nat.lt_succ_iff_lt_or_eq.mp hi with hi | rfl
    · obtain ⟨s2, r2, g2, e⟩ := ih i hi
      exact ⟨s2, r2, g2, by rw [List.getElem?_append_left (by omega), e]⟩
    · exact ⟨s1, r1, g1, by rw [List.getElem?_append_right (by omega), len, Nat.sub_self]; rfl⟩

theorem Ran.size (hla : ExactLinAlg la) (g : Good p s0) (hchi : 0 < s0.chi) : ∀ {n : Nat} {s : TriangleTRGState K},
    Ran p la s0 n s → s.chi = s0.chi ∧ s.dim * s.dim ≤ (s0.dim * s0.dim) ^ 2 ^ n
  | 0, s, h => by
    obtain rfl := Ran.zero.mp h
    simp
  | n + 1, s, h => by
    obtain ⟨s1, r1, g1, c1, -, I⟩ := h.succ hla g hchi
    obtain ⟨c, ih⟩ := Ran.size hla g hchi r1
    refine ⟨I.chi.trans c, ?_⟩
    rw [I.dim, pow_succ 2 n, pow_mul, pow_two]
    exact Nat.mul_le_mul ((Nat.min_le_right _ _).trans ih) ((Nat.min_le_right _ _).trans ih)

theorem Ran.norms_of (hla : ExactLinAlg la) (g : Good p s0) (hchi : 0 < s0.chi)
    (h0 : ∀ c ∈ s0.aNorms ++ s0.bNorms, ∃ b, c = p.norm b) : ∀ {n : Nat} {s : TriangleTRGState K}, Ran p la s0 n s →
    ∀ c ∈ s.aNorms ++ s.bNorms, ∃ b, c = p.norm b
  | 0, s, h => by
    obtain rfl := Ran.zero.mp h
    exact h0
  | n + 1, s, h => by
    obtain ⟨s1, r1, -, -, -, I⟩ := h.succ hla g hchi
    obtain ⟨a, b, u, v, Na, Nb, -⟩ := I.tensors
    obtain ⟨x, -, nx, -⟩ := Na.a
    obtain ⟨y, -, ny, -⟩ := Nb.a
    have ih := Ran.norms_of hla g hchi h0 r1
    intro c hc
    rw [nx, ny] at hc
    simp only [List.mem_append, List.mem_singleton] at hc
    rcases hc with (hc | rfl) | (hc | rfl)
    · exact ih c (List.mem_append_left _ hc)
    · exact ⟨x, rfl⟩
    · exact ih c (List.mem_append_right _ hc)
    · exact ⟨y, rfl⟩

end

/-! ### `logZDensity` -/

section
variable [Field K] [LinearOrder K] [Star K] {p : RGParams K}

/-- The number a pair of archived tensors stands for. -/
def traceOf (st : Store) (c d : Tensor K) : K :=
  ∑ i ∈ range (c.dimOf st "1"), ∑ j ∈ range (c.dimOf st "2"), ∑ k ∈ range (c.dimOf st "3"), c.tri st i j k * d.tri st i j k

theorem trace_ok {st : Store} (wf : WFStore st) {c d : Tensor K} {D : Nat} (hc : TriSite st c D) (hd : TriSite st d D) :
    ∃ st' r, triangleTensorTrace p.rand p.cast st c d = .ok (st', r) ∧ r.single st' = .ok (Honey.point.Z D (c.tri st) (d.tri st)) ∧
      WFStore st' ∧ LegsUnchanged st st' := by
  obtain ⟨st', r, e, hl, hg, ik, w, le, hv⟩ := C49_triangleTrace p.rand p.cast wf hc.labels hd.labels (by rw [hc.d1, hd.d1])
    (by rw [hc.d2, hd.d2]) (by rw [hc.d3, hd.d3])
  refine ⟨st', r, e, ?_, w, ⟨le, ik.leg⟩⟩
  have := single_of_represents (A := ⟨[], fun _ => 0, fun _ => entry r fun _ => 0⟩) (st := st') (t := r)
    ⟨List.nodup_nil, by simp [hl], by simp [hl], fun τ _ => entry_congr r (by simp [hl])⟩ hg rfl fun _ => 0
  rw [this]
  show Except.ok (entry r fun _ => 0) = _
  rw [hv, hc.d1, hc.d2, hc.d3, Honey.Z_point]
  rfl

/-- The loop of `logZDensity`. -/
theorem logLoop_values (log : K → K) : ∀ (l : List (Step K)) (st : Store) (acc : K), WFStore st →
    (∀ x ∈ l, ∃ D, TriSite st x.a.1 D ∧ TriSite st x.b.1 D) →
    ∃ res, logLoop p log st acc l = .ok res ∧ res.length = l.length ∧ ∀ i x, l[i]? = some x →
      ∃ D, TriSite st x.a.1 D ∧ TriSite st x.b.1 D ∧
      res[i]? = some (acc + ((l.take (i + 1)).map fun y => log (y.aNorm * y.bNorm) / ((y.a.2 * y.b.2 : Nat) : K)).sum +
        log (Honey.point.Z D (x.a.1.tri st) (x.b.1.tri st)) / ((x.a.2 * x.b.2 : Nat) : K))
  | [], st, acc, _, _ => ⟨[], rfl, rfl, fun i x h => by simp at h⟩
  | x :: l, st, acc, wf, h => by
    obtain ⟨D, q1, q2⟩ := h x (List.mem_cons_self ..)
    obtain ⟨st1, r, e1, e2, w1, k1⟩ := trace_ok (p := p) wf q1 q2
    obtain ⟨res, e3, len, hv⟩ := logLoop_values log l st1 (acc + log (x.aNorm * x.bNorm) / ((x.a.2 * x.b.2 : Nat) : K)) w1 fun y hy => by
      obtain ⟨D', p1, p2⟩ := h y (List.mem_cons_of_mem _ hy)
      exact ⟨D', p1.kept k1, p2.kept k1⟩
    refine ⟨(acc + log (x.aNorm * x.bNorm) / ((x.a.2 * x.b.2 : Nat) : K) + log (Honey.point.Z D (x.a.1.tri st) (x.b.1.tri st)) / ((x.a.2 * x.b.2 : Nat) : K)) :: res, ?_, by simp [len], fun i y hi => ?_⟩
    · unfold logLoop
      simp only [e1, e2, e3, bind, Except.bind, pure, Except.pure]
    · cases i with
      | zero =>
        obtain rfl : x = y := by simpa using hi
        exact ⟨D, q1, q2, by simp⟩
      | succ i =>
        have hi : l[i]? = some y := by simpa using hi
        obtain ⟨D1, p1, p2⟩ := h y (List.mem_cons_of_mem _ (List.mem_of_getElem? hi))
        obtain ⟨D2, -, p3, hr⟩ := hv i y hi
        have p4 := p2.kept k1
        obtain rfl : D2 = D1 := by rw [← p3.d1, ← p4.d1]
        refine ⟨D2, p1, p2, ?_⟩
        rw [List.getElem?_cons_succ, hr, List.take_succ_cons, List.map_cons, List.sum_cons]
        have e1 : y.a.1.tri st1 = y.a.1.tri st := by funext i j k; exact p1.tri_kept k1 i j k
        have e2 : y.b.1.tri st1 = y.b.1.tri st := by funext i j k; exact p2.tri_kept k1 i j k
        rw [e1, e2, add_assoc acc]

end

/-! ### Norms are not 0 -/

section
variable [Field K] [LinearOrder K] [IsStrictOrderedRing K] {p : RGParams K} {la : LinAlg K} {s0 s : TriangleTRGState K}

theorem tri_zero {t : Tensor K} {st : Store} {b : NDArray K} (e : t.a = some b) (h : ∀ x ∈ b.data, x = 0) (x y z : Nat) : t.tri st x y z = 0 := by
  have g : ∀ i, b.get i = 0 := by
    intro i
    unfold NDArray.get
    rw [List.getD_eq_getElem?_getD]
    cases e : b.data[ravel b.shape i]? with
    | none => rfl
    | some v => exact h v (List.mem_of_getElem? e)
  unfold Tensor.tri Tensor.at entry
  simp only [e, g]
  split
  · split
    · rfl
    · split <;> rfl
  · rfl

theorem norm_pos (hn : TrueNorm p.norm) {t : Tensor K} {st : Store} {b : NDArray K} (e : t.a = some b)
    (h : ¬ ∀ x y z, t.tri st x y z = 0) : 0 < p.norm b :=
  lt_of_le_of_ne (hn b).1 fun e0 => h (tri_zero e ((hn b).2 e0.symm))

theorem Started.norms_pos (hn : TrueNorm p.norm) {st : Store} {alpha : K} {chi : Nat} (S : Started p st alpha chi s) :
    ∀ c ∈ s.aNorms ++ s.bNorms, 0 < c := by
  obtain ⟨a, b, Na, Nb, ha, hb⟩ := S.tensors
  obtain ⟨x, ex, nx, -⟩ := Na.a
  obtain ⟨y, ey, ny, -⟩ := Nb.a
  have d1 : Honey.dimerSite alpha 0 0 0 = 1 := by simp [Honey.dimerSite]
  have px : 0 < p.norm x := norm_pos (st := s.st) hn ex fun h => one_ne_zero (d1.symm.trans ((ha 0 (by decide) 0 (by decide) 0 (by decide)).symm.trans (h 0 0 0)))
  have py : 0 < p.norm y := norm_pos (st := s.st) hn ey fun h => one_ne_zero (d1.symm.trans ((hb 0 (by decide) 0 (by decide) 0 (by decide)).symm.trans (h 0 0 0)))
  intro c hc
  rw [nx, ny] at hc
  simp only [List.nil_append, List.mem_append, List.mem_singleton] at hc
  rcases hc with rfl | rfl
  · exact px
  · exact py

/-- The partition function would be 0. -/
theorem Iterated.norms_pos (hla : ExactLinAlg la) (hn : TrueNorm p.norm) {alpha : K} {n : Nat} (C : Coarse alpha n s) {s' : TriangleTRGState K}
    (I : Iterated p la s s') (hl : LosslessSVD la s.mat s.chi) (h0 : ∀ c ∈ s.aNorms ++ s.bNorms, 0 < c) :
    ∀ c ∈ s'.aNorms ++ s'.bNorms, 0 < c := by
  obtain ⟨a, b, u, v, Na, Nb, F, ha, hb⟩ := I.tensors
  obtain ⟨x, ex, nx, -⟩ := Na.a
  obtain ⟨y, ey, ny, -⟩ := Nb.a
  have key := Honey.Z_refine Honey.point (F.site hla hl)
  have hZ : Honey.point.refine.Z s.dim (s.a.tri s.st) (s.b.tri s.st) ≠ 0 := by
    intro e
    have := C.last Honey.point.refine
    rw [e, mul_zero, Honey.Z_dimers] at this
    exact (Honey.dimers_pos _ alpha).ne this
  have zero : ∀ D : Nat, ∀ f g : Nat → Nat → Nat → K, ((∀ i < D, ∀ j < D, ∀ k < D, f i j k = 0) ∨ ∀ i < D, ∀ j < D, ∀ k < D, g i j k = 0) →
      Honey.point.Z D f g = 0 := by
    intro D f g h
    rw [Honey.Z_point]
    refine Finset.sum_eq_zero fun i hi => Finset.sum_eq_zero fun j hj => Finset.sum_eq_zero fun k hk => ?_
    rw [Finset.mem_range] at hi hj hk
    rcases h with h | h
    · rw [h i hi j hj k hk, zero_mul]
    · rw [h i hi j hj k hk, mul_zero]
  have px : 0 < p.norm x := norm_pos (st := s'.st) hn ex fun h => hZ (by
    rw [← key, ← I.dim]
    exact zero _ _ _ (Or.inl fun i hi j hj k hk => (ha i hi j hj k hk).symm.trans (h i j k)))
  have py : 0 < p.norm y := norm_pos (st := s'.st) hn ey fun h => hZ (by
    rw [← key, ← I.dim]
    exact zero _ _ _ (Or.inr fun i hi j hj k hk => (hb i hi j hj k hk).symm.trans (h i j k)))
  intro c hc
  rw [nx, ny] at hc
  simp only [List.mem_append, List.mem_singleton] at hc
  rcases hc with (hc | rfl) | (hc | rfl)
  · exact h0 c (List.mem_append_left _ hc)
  · exact px
  · exact h0 c (List.mem_append_right _ hc)
  · exact py

variable [Star K] [TrivialStar K]

theorem Ran.coarse_pos {alpha : K} (hla : ExactLinAlg la) (hn : TrueNorm p.norm) (g : Good p s0) (hchi : 0 < s0.chi)
    (C : Coarse alpha 0 s0) (h0 : ∀ c ∈ s0.aNorms ++ s0.bNorms, 0 < c) : ∀ {n : Nat} {s : TriangleTRGState K}, Ran p la s0 n s →
    (∀ i < n, ∀ s1, Ran p la s0 i s1 → LosslessSVD la s1.mat s1.chi) →
    Coarse alpha n s ∧ ∀ c ∈ s.aNorms ++ s.bNorms, 0 < c
  | 0, s, h, _ => by
    obtain rfl := Ran.zero.mp h
    exact ⟨C, h0⟩
  | n + 1, s, h, hl => by
    obtain ⟨s1, r1, g1, -, -, I⟩ := h.succ hla g hchi
    obtain ⟨C1, p1⟩ := Ran.coarse_pos hla hn g hchi C h0 r1 fun i hi => hl i (by omega)
    have p2 := I.norms_pos hla hn C1 (hl n (by omega) s1 r1) p1
    exact ⟨C1.step hla g1 I (hl n (by omega) s1 r1) fun c hc => (p2 c hc).ne', p2⟩

omit [Star K] [TrivialStar K] in
theorem norms_all_pos (h : ∀ c ∈ s.aNorms ++ s.bNorms, 0 < c) : ∀ c ∈ s.norms, 0 < c := by
  intro c hc
  unfold norms at hc
  rw [← List.map_uncurry_zip_eq_zipWith] at hc
  obtain ⟨⟨x, y⟩, hxy, rfl⟩ := List.mem_map.mp hc
  obtain ⟨hx, hy⟩ := List.of_mem_zip hxy
  exact mul_pos (h x (List.mem_append_left _ hx)) (h y (List.mem_append_right _ hy))

end

end TriangleTRGState

section
variable [Field K] [LinearOrder K] [IsStrictOrderedRing K] {log : K → K}

theorem log_triScale (hlog : ∀ x y, 0 < x → 0 < y → log (x * y) = log x + log y) (cs : List K) (h : ∀ c ∈ cs, 0 < c) :
    0 < triScale cs ∧ log (triScale cs) = ∑ j ∈ range cs.length, (3 : K) ^ (cs.length - 1 - j) * log (cs.getD j 1) := by
  induction cs using List.reverseRecOn with
  | nil =>
    have := hlog 1 1 one_pos one_pos
    rw [mul_one, left_eq_add] at this
    simp [triScale, this]
  | append_singleton cs c ih =>
    obtain ⟨h1, h2⟩ := ih fun x hx => h x (List.mem_append_left _ hx)
    have hc : 0 < c := h c (by simp)
    rw [triScale_append]
    refine ⟨mul_pos (pow_pos h1 3) hc, ?_⟩
    have h3 : log (triScale cs ^ 3) = 3 * log (triScale cs) := by
      rw [pow_succ, pow_two, hlog _ _ (mul_pos h1 h1) h1, hlog _ _ h1 h1]
      ring
    rw [hlog _ _ (pow_pos h1 3) hc, h3, h2, List.length_append, List.length_singleton, Finset.sum_range_succ, Finset.mul_sum]
    refine congrArg₂ _ (Finset.sum_congr rfl fun j hj => ?_) ?_
    · rw [Finset.mem_range] at hj
      have e : (cs ++ [c]).getD j 1 = cs.getD j 1 := by
        rw [List.getD_eq_getElem?_getD, List.getD_eq_getElem?_getD, List.getElem?_append_left hj]
      rw [e, ← mul_assoc, ← pow_succ', show cs.length - 1 - j + 1 = cs.length + 1 - 1 - j by omega]
    · simp [List.getD_eq_getElem?_getD]

theorem sum_take {α : Type} (f : α → K) (g : Nat → K) (l : List α) : ∀ i, (∀ j < i, ∃ x, l[j]? = some x ∧ f x = g j) →
    ((l.take i).map f).sum = ∑ j ∈ range i, g j
  | 0, _ => by simp
  | i + 1, h => by
    obtain ⟨x, e, hx⟩ := h i (Nat.lt_succ_self i)
    rw [List.take_add_one, e, List.map_append, List.sum_append, sum_take f g l i fun j hj => h j (Nat.lt_succ_of_lt hj), Finset.sum_range_succ, ← hx]
    simp

end

end CTL
