import Verif.Model.TNRStep
import Verif.Spec.TNRStep
import Verif.Lemmas.Svd
import Verif.Lemmas.TNRSum
import Mathlib.Tactic.FieldSimp
import Mathlib.Tactic.Ring
import Mathlib.Tactic.LinearCombination

/-! C67: the updates of `sM` in `doTNR` never raise the truncation error. -/

namespace CTL

open Finset (range)
variable {K : Type}

/-- Entries of a matrix and of an array with four axes. -/
def NDArray.m2 [Zero K] (a : NDArray K) (i j : Nat) : K := a.get [i, j]
def NDArray.m4 [Zero K] (a : NDArray K) (i j k l : Nat) : K := a.get [i, j, k, l]

theorem valid4 {n m p q i j k l : Nat} (hi : i < n) (hj : j < m) (hk : k < p) (hl : l < q) : ValidIdx [n, m, p, q] [i, j, k, l] :=
  .cons hi (.cons hj (.cons hk (.cons hl .nil)))

theorem transpose_two [Zero K] {a : NDArray K} {n m : Nat} (hs : a.shape = [n, m]) :
    (a.transpose [1, 0]).shape = [m, n] ∧ ∀ i < m, ∀ j < n, (a.transpose [1, 0]).get [i, j] = a.get [j, i] := by
  refine ⟨by simp [NDArray.transpose, hs], fun i hi j hj => ?_⟩
  unfold NDArray.transpose
  rw [NDArray.get_build]
  · rw [hs]
    rfl
  · rw [hs]
    exact valid2 hi hj

theorem mtrace_square [AddCommMonoid K] {a : NDArray K} {n : Nat} (hs : a.shape = [n, n]) : a.mtrace = ∑ i ∈ range n, a.get [i, i] := by
  unfold NDArray.mtrace
  rw [hs]
  simp only [List.getD_cons_zero, List.getD_cons_succ, Nat.min_self]
  rfl

theorem indices_sum_cons [AddCommMonoid K] (d : Nat) (ds : List Nat) (f : List Nat → K) :
    ((indices (d :: ds)).map f).sum = ∑ i ∈ range d, ((indices ds).map fun r => f (i :: r)).sum := by
  have h : ∀ l : List Nat, ((l.flatMap fun i => (indices ds).map (i :: ·)).map f).sum =
      (l.map fun i => ((indices ds).map fun r => f (i :: r)).sum).sum := by
    intro l
    induction l with
    | nil => rfl
    | cons x l ih =>
      rw [List.flatMap_cons, List.map_append, List.sum_append, ih, List.map_cons, List.sum_cons, List.map_map]
      rfl
  exact h (List.range d)

theorem squares_two [CommSemiring K] {a : NDArray K} {n m : Nat} (hs : a.shape = [n, m]) :
    a.squares = ∑ i ∈ range n, ∑ j ∈ range m, a.get [i, j] ^ 2 := by
  unfold NDArray.squares
  rw [hs, indices_sum_cons]
  refine Finset.sum_congr rfl fun i _ => ?_
  rw [indices_sum_cons]
  refine Finset.sum_congr rfl fun j _ => ?_
  simp [indices, sq]

theorem squares_four [CommSemiring K] {a : NDArray K} {n m p q : Nat} (hs : a.shape = [n, m, p, q]) :
    a.squares = ∑ i ∈ range n, ∑ j ∈ range m, ∑ k ∈ range p, ∑ l ∈ range q, a.get [i, j, k, l] ^ 2 := by
  unfold NDArray.squares
  rw [hs, indices_sum_cons]
  refine Finset.sum_congr rfl fun i _ => ?_
  rw [indices_sum_cons]
  refine Finset.sum_congr rfl fun j _ => ?_
  rw [indices_sum_cons]
  refine Finset.sum_congr rfl fun k _ => ?_
  rw [indices_sum_cons]
  refine Finset.sum_congr rfl fun l _ => ?_
  simp [indices, sq]

/-- The denominator as the code computes it. -/
def sDen [CommSemiring K] (D : Nat → Nat → Nat → Nat → K) (n m : Nat) (s : Nat → Nat → K) : K :=
  ∑ a ∈ range n, ∑ b ∈ range n, ∑ c ∈ range n, ∑ d ∈ range n,
    D a b c d * (∑ x ∈ range m, s a x * s b x) * (∑ y ∈ range m, s c y * s d y)

section
variable [Field K] [LinearOrder K]

theorem sErrNew_eq {S D s : NDArray K} {n m : Nat} (hS : S.shape = [n, m, n, m]) (hD : D.shape = [n, n, n, n]) (hs : s.shape = [n, m])
    (sp2 : K) : sErrNew S D s sp2 = .ok (npErr (sOverlap S.m4 n m s.m2 ^ 2) (sDen D.m4 n m s.m2 * sp2)) := by
  obtain ⟨ht, vt⟩ := transpose_two hs
  obtain ⟨w, hw, sw, _, vw⟩ := matmul_get hs ht
  have e1 : nconFull S s s = .ok (sOverlap S.m4 n m s.m2) := by
    unfold nconFull
    rw [hS, hs]
    simp only [and_self, if_true]
    rfl
  have e2 : nconFull D w w = .ok (sDen D.m4 n m s.m2) := by
    unfold nconFull
    rw [hD, sw]
    simp only [and_self, if_true]
    congr 1
    change ∑ a ∈ range n, ∑ b ∈ range n, ∑ c ∈ range n, ∑ d ∈ range n, D.get [a, b, c, d] * w.get [a, b] * w.get [c, d] = _
    refine Finset.sum_congr rfl fun a ha => Finset.sum_congr rfl fun b hb => Finset.sum_congr rfl fun c hc =>
      Finset.sum_congr rfl fun d hd => ?_
    rw [vw a (Finset.mem_range.mp ha) b (Finset.mem_range.mp hb), vw c (Finset.mem_range.mp hc) d (Finset.mem_range.mp hd)]
    congr 1
    · congr 1
      exact Finset.sum_congr rfl fun x hx => by rw [vt x (Finset.mem_range.mp hx) b (Finset.mem_range.mp hb)]; rfl
    · exact Finset.sum_congr rfl fun x hx => by rw [vt x (Finset.mem_range.mp hx) d (Finset.mem_range.mp hd)]; rfl
  unfold sErrNew
  rw [e1]
  simp only [bind, Except.bind, hw, e2]

omit [LinearOrder K] in
theorem nconPair_get {t s : NDArray K} {n m p q : Nat} (ht : t.shape = [n, m, p, q]) (hs : s.shape = [p, q]) :
    ∃ c, nconPair t s = .ok c ∧ c.shape = [n, m] ∧ c.WF ∧
      ∀ i < n, ∀ j < m, c.get [i, j] = ∑ k ∈ range p, ∑ l ∈ range q, t.get [i, j, k, l] * s.get [k, l] := by
  unfold nconPair
  rw [ht, hs]
  simp only [and_self, if_true]
  exact ⟨_, rfl, rfl, NDArray.build_wf _ _, fun i hi j hj => by rw [NDArray.get_build _ (valid2 hi hj)]; rfl⟩

/-- Both forms of the error are the same. -/
theorem sErrOld_eq {S D s : NDArray K} {n m : Nat} (hS : S.shape = [n, m, n, m]) (hD : D.shape = [n, n, n, n]) (hs : s.shape = [n, m])
    (sp2 : K) : ∃ envS w envD, nconPair S s = .ok envS ∧ s.matmul (s.transpose [1, 0]) = .ok w ∧ nconPair D w = .ok envD ∧
      envS.shape = [n, m] ∧ envD.shape = [n, n] ∧
      (∀ i < n, ∀ j < m, envS.get [i, j] = ∑ c ∈ range n, ∑ d ∈ range m, S.m4 i j c d * s.m2 c d) ∧
      (∀ i < n, ∀ j < n, envD.get [i, j] = ∑ c ∈ range n, ∑ d ∈ range n, D.m4 i j c d * ∑ y ∈ range m, s.m2 c y * s.m2 d y) ∧
      (envD.mtrace = ∑ a ∈ range n, ∑ c ∈ range n, ∑ d ∈ range n, D.m4 a a c d * ∑ y ∈ range m, s.m2 c y * s.m2 d y) ∧
      sErrOld envS envD s sp2 = .ok (npErr (sOverlap S.m4 n m s.m2 ^ 2) (sDen D.m4 n m s.m2 * sp2)) := by
  obtain ⟨ht, vt⟩ := transpose_two hs
  obtain ⟨w, hw, sw, _, vw⟩ := matmul_get hs ht
  obtain ⟨eS, h1, s1, _, v1⟩ := nconPair_get hS hs
  obtain ⟨eD, h2, s2, _, v2⟩ := nconPair_get hD sw
  have vw' : ∀ a < n, ∀ b < n, w.get [a, b] = ∑ x ∈ range m, s.m2 a x * s.m2 b x := by
    intro a ha b hb
    rw [vw a ha b hb]
    exact Finset.sum_congr rfl fun x hx => by rw [vt x (Finset.mem_range.mp hx) b hb]; rfl
  have v2' : ∀ i < n, ∀ j < n, eD.get [i, j] = ∑ c ∈ range n, ∑ d ∈ range n, D.m4 i j c d * ∑ y ∈ range m, s.m2 c y * s.m2 d y := by
    intro a ha b hb
    rw [v2 a ha b hb]
    refine Finset.sum_congr rfl fun c hc => Finset.sum_congr rfl fun d hd => ?_
    rw [vw' c (Finset.mem_range.mp hc) d (Finset.mem_range.mp hd)]
    rfl
  refine ⟨eS, w, eD, h1, hw, h2, s1, s2, v1, v2', ?_, ?_⟩
  · rw [mtrace_square s2]
    exact Finset.sum_congr rfl fun a ha => v2' a (Finset.mem_range.mp ha) a (Finset.mem_range.mp ha)
  · obtain ⟨x, hx, sx, _, vx⟩ := matmul_get s1 ht
    obtain ⟨y, hy, sy, _, vy⟩ := matmul_get ht s2
    obtain ⟨z, hz, sz, _, vz⟩ := matmul_get sy hs
    have tx : x.mtrace = sOverlap S.m4 n m s.m2 := by
      rw [mtrace_square sx]
      refine Finset.sum_congr rfl fun a ha => ?_
      have ha := Finset.mem_range.mp ha
      rw [vx a ha a ha]
      refine Finset.sum_congr rfl fun b hb => ?_
      have hb := Finset.mem_range.mp hb
      rw [v1 a ha b hb, vt b hb a ha, Finset.sum_mul]
      refine Finset.sum_congr rfl fun c hc => ?_
      rw [Finset.sum_mul]
      refine Finset.sum_congr rfl fun d hd => ?_
      show S.get _ * s.get _ * s.get _ = S.get _ * s.get _ * s.get _
      ring
    have tz : z.mtrace = sDen D.m4 n m s.m2 := by
      rw [mtrace_square sz]
      have : ∀ q ∈ range m, z.get [q, q] = ∑ b ∈ range n, ∑ a ∈ range n, s.m2 a q * eD.get [a, b] * s.m2 b q := by
        intro q hq
        have hq := Finset.mem_range.mp hq
        rw [vz q hq q hq]
        refine Finset.sum_congr rfl fun b hb => ?_
        have hb := Finset.mem_range.mp hb
        rw [vy q hq b hb, Finset.sum_mul]
        exact Finset.sum_congr rfl fun a ha => by rw [vt q hq a (Finset.mem_range.mp ha)]; rfl
      rw [Finset.sum_congr rfl this, Finset.sum_comm]
      simp only [Finset.sum_comm (s := range m)]
      rw [Finset.sum_comm]
      refine Finset.sum_congr rfl fun a ha => Finset.sum_congr rfl fun b hb => ?_
      have ha := Finset.mem_range.mp ha
      have hb := Finset.mem_range.mp hb
      have e : ∑ q ∈ range m, s.m2 a q * eD.get [a, b] * s.m2 b q = eD.get [a, b] * ∑ q ∈ range m, s.m2 a q * s.m2 b q := by
        rw [Finset.mul_sum]
        exact Finset.sum_congr rfl fun q _ => by ring
      rw [e, v2 a ha b hb, Finset.sum_mul]
      refine Finset.sum_congr rfl fun c hc => ?_
      rw [Finset.sum_mul]
      refine Finset.sum_congr rfl fun d hd => ?_
      rw [vw' c (Finset.mem_range.mp hc) d (Finset.mem_range.mp hd)]
      show D.get _ * _ * _ = D.get _ * _ * _
      ring
    unfold sErrOld
    simp only [bind, Except.bind, hx, hy, hz, tx, tz]

end

/-- The double of the ring, transposed. -/
def IsDouble [Field K] (D : NDArray K) (C : Nat → Nat → Nat → Nat → K) (n : Nat) : Prop :=
  ∀ a < n, ∀ b < n, ∀ c < n, ∀ d < n, D.m4 a b c d = ∑ i ∈ range n, ∑ j ∈ range n, C a c i j * C b d i j

theorem sDen_double [Field K] {D : NDArray K} {C : Nat → Nat → Nat → Nat → K} {n : Nat} (h : IsDouble D C n) (m : Nat) (s : Nat → Nat → K) :
    sDen D.m4 n m s = sNorm C n m s := by
  rw [← sNorm_double]
  refine Finset.sum_congr rfl fun a ha => Finset.sum_congr rfl fun b hb => Finset.sum_congr rfl fun c hc =>
    Finset.sum_congr rfl fun d hd => ?_
  simp only [Finset.mem_range] at ha hb hc hd
  rw [h a ha b hb c hc d hd]

section
variable [Field K] [LinearOrder K]

/-- The environment that is inverted in the update of `sM`, divided by its trace. -/
def sEnvMat (D : NDArray K) (n m : Nat) (s : Nat → Nat → K) : NDArray K :=
  .build [n, n] fun idx => (∑ c ∈ range n, ∑ d ∈ range n, D.m4 (idx.getD 0 0) (idx.getD 1 0) c d * ∑ y ∈ range m, s c y * s d y) /
    ∑ a ∈ range n, ∑ c ∈ range n, ∑ d ∈ range n, D.m4 a a c d * ∑ y ∈ range m, s c y * s d y

/-- The matrix the update of `sM` aims at. -/
def sTarget (pinv : NDArray K → NDArray K) (S D : NDArray K) (n m : Nat) (s : Nat → Nat → K) (i j : Nat) : K :=
  ∑ l ∈ range n, (pinv (sEnvMat D n m s)).get [i, l] * ∑ c ∈ range n, ∑ d ∈ range m, S.m4 l j c d * s c d

/-- The candidate number `p` on the way from the normalized target `T` back to `s`. -/
def sCand (sqrt : K → K) (n m : Nat) (T s : Nat → Nat → K) (p i j : Nat) : K :=
  (1 - (p : K) / 10) * (T i j / sqrt (sSquares n m T)) + (p : K) / 10 * s i j

/-- A matrix is as good as `s`: its error exists and is not larger. -/
def AsGood (S C : Nat → Nat → Nat → Nat → K) (n m : Nat) (sp2 : K) (s t : Nat → Nat → K) : Prop :=
  sNorm C n m t * sp2 ≠ 0 ∧ sError S C n m sp2 t ≤ sError S C n m sp2 s

variable {S D s : NDArray K} {C : Nat → Nat → Nat → Nat → K} {n m : Nat} {sp2 : K}

theorem le_iff (hs : sNorm C n m s.m2 * sp2 ≠ 0) (t : Nat → Nat → K) :
    (npErr (sOverlap S.m4 n m t ^ 2) (sNorm C n m t * sp2)).le (npErr (sOverlap S.m4 n m s.m2 ^ 2) (sNorm C n m s.m2 * sp2)) = true ↔
    AsGood S.m4 C n m sp2 s.m2 t := by
  unfold AsGood sError
  rw [show npErr (sOverlap S.m4 n m s.m2 ^ 2) (sNorm C n m s.m2 * sp2) = .fin _ from if_neg hs]
  unfold npErr
  by_cases h : sNorm C n m t * sp2 = 0
  · rw [if_pos h]
    split <;> simp [NPFloat.le, h]
  · rw [if_neg h]
    simp [NPFloat.le, h]

/-- The loop takes the first candidate that is as good. -/
theorem sSearch_spec (sqrt : K → K) (hS : S.shape = [n, m, n, m]) (hD : D.shape = [n, n, n, n]) (hC : IsDouble D C n)
    (hs : sNorm C n m s.m2 * sp2 ≠ 0) {t : NDArray K} (ht : t.shape = [n, m]) (cnt : Nat) : ∀ a : Nat,
    ∃ r, sSearch sqrt S D sp2 (npErr (sOverlap S.m4 n m s.m2 ^ 2) (sNorm C n m s.m2 * sp2)) s t (List.range' a cnt) = .ok r ∧
      ((r = s ∧ ∀ p, a ≤ p → p < a + cnt → ¬ AsGood S.m4 C n m sp2 s.m2 (NDArray.combine (1 - 1 / 10 * (p : K)) (1 / 10 * (p : K)) t s).m2) ∨
      ∃ p, a ≤ p ∧ p < a + cnt ∧ AsGood S.m4 C n m sp2 s.m2 (NDArray.combine (1 - 1 / 10 * (p : K)) (1 / 10 * (p : K)) t s).m2 ∧
        (∀ q, a ≤ q → q < p → ¬ AsGood S.m4 C n m sp2 s.m2 (NDArray.combine (1 - 1 / 10 * (q : K)) (1 / 10 * (q : K)) t s).m2) ∧
        r = (NDArray.combine (1 - 1 / 10 * (p : K)) (1 / 10 * (p : K)) t s).over
          (sqrt (NDArray.combine (1 - 1 / 10 * (p : K)) (1 / 10 * (p : K)) t s).squares)) := by
  induction cnt with
  | zero => exact fun a => ⟨s, rfl, .inl ⟨rfl, fun p h1 h2 => absurd h2 (by omega)⟩⟩
  | succ cnt ih =>
    intro a
    have hc : (NDArray.combine (1 - 1 / 10 * (a : K)) (1 / 10 * (a : K)) t s).shape = [n, m] := ht
    rw [List.range'_succ]
    unfold sSearch
    simp only [sErrNew_eq hS hD hc, sDen_double hC, bind, Except.bind]
    by_cases h : AsGood S.m4 C n m sp2 s.m2 (NDArray.combine (1 - 1 / 10 * (a : K)) (1 / 10 * (a : K)) t s).m2
    · rw [if_pos ((le_iff hs _).mpr h)]
      exact ⟨_, rfl, .inr ⟨a, le_rfl, by omega, h, fun q h1 h2 => absurd h2 (by omega), rfl⟩⟩
    · rw [if_neg fun h' => h ((le_iff hs _).mp h')]
      obtain ⟨r, e, hr⟩ := ih (a + 1)
      refine ⟨r, e, ?_⟩
      rcases hr with ⟨h1, h2⟩ | ⟨p, h1, h2, h3, h4, h5⟩
      · refine .inl ⟨h1, fun p hp hp' => ?_⟩
        rcases Nat.eq_or_lt_of_le hp with rfl | hp
        · exact h
        · exact h2 p hp (by omega)
      · refine .inr ⟨p, by omega, by omega, h3, fun q hq hq' => ?_, h5⟩
        rcases Nat.eq_or_lt_of_le hq with rfl | hq
        · exact h
        · exact h4 q hq hq'

variable [IsStrictOrderedRing K]

omit [IsStrictOrderedRing K] in
theorem AsGood.congr {S C : Nat → Nat → Nat → Nat → K} {s t u : Nat → Nat → K} (h : ∀ i < n, ∀ j < m, t i j = u i j) :
    AsGood S C n m sp2 s t ↔ AsGood S C n m sp2 s u := by
  unfold AsGood sError
  rw [sNorm_congr C h, sOverlap_congr S h]

omit [LinearOrder K] [IsStrictOrderedRing K] in
theorem over_get {a : NDArray K} (hs : a.shape = [n, m]) (x : K) {i j : Nat} (hi : i < n) (hj : j < m) :
    (a.over x).get [i, j] = a.get [i, j] / x := by
  unfold NDArray.over
  rw [NDArray.get_build _ (by rw [hs]; exact valid2 hi hj)]

/-- C67: one update of `sM` succeeds if the ring truncated with `sM` is not 0; the result has sum of squares 1 or is `sM` itself,
and its truncation error is not larger.  It is the first of the eleven candidates with this property, scaled. -/
theorem C67_step {pinv : NDArray K → NDArray K} {sqrt : K → K} (hp : ∀ a : NDArray K, a.shape = [n, n] → (pinv a).shape = [n, n])
    (hq : ∀ x, 0 ≤ x → sqrt x * sqrt x = x) (hS : S.shape = [n, m, n, m]) (hD : D.shape = [n, n, n, n]) (hC : IsDouble D C n)
    (h2 : sp2 = ∑ a ∈ range n, ∑ b ∈ range n, ∑ i ∈ range n, ∑ j ∈ range n, C a b i j ^ 2)
    (ws : s.WF) (hs : s.shape = [n, m]) (h0 : sNorm C n m s.m2 ≠ 0) :
    ∃ r, sStep pinv sqrt S D sp2 s = .ok r ∧ r.WF ∧ r.shape = [n, m] ∧ sNorm C n m r.m2 ≠ 0 ∧
      sError S.m4 C n m sp2 r.m2 ≤ sError S.m4 C n m sp2 s.m2 ∧
      ((r = s ∧ ∀ i < n, ∀ j < m, sTarget pinv S D n m s.m2 i j = 0) ∨
        sSquares n m r.m2 = 1 ∧ ∃ p ≤ 10, ∃ c, c ≠ 0 ∧
          (∀ i < n, ∀ j < m, r.m2 i j * c = sCand sqrt n m (sTarget pinv S D n m s.m2) s.m2 p i j) ∧
          AsGood S.m4 C n m sp2 s.m2 (sCand sqrt n m (sTarget pinv S D n m s.m2) s.m2 p) ∧
          ∀ q < p, ¬ AsGood S.m4 C n m sp2 s.m2 (sCand sqrt n m (sTarget pinv S D n m s.m2) s.m2 q)) := by
  have h00 : sNorm C n m s.m2 * sp2 ≠ 0 := mul_ne_zero h0 (by rw [h2]; exact sRing_ne h0)
  have q0 : ∀ x, 0 ≤ x → (sqrt x = 0 ↔ x = 0) := fun x hx =>
    ⟨fun h => by rw [← hq x hx, h, mul_zero], fun h => by
      have := hq x hx
      rw [h] at this ⊢
      exact mul_self_eq_zero.mp this⟩
  obtain ⟨eS, w, eD, a1, a2, a3, sS, sD, vS, vD, tr, old⟩ := sErrOld_eq hS hD hs sp2
  rw [sDen_double hC] at old
  have htr : eD.mtrace ≠ 0 := by
    rw [tr]
    have := sTrace_ne h0
    rw [← sTrace_double] at this
    intro h
    refine this (Eq.trans ?_ h)
    refine Finset.sum_congr rfl fun a ha => Finset.sum_congr rfl fun c hc => Finset.sum_congr rfl fun d hd => ?_
    simp only [Finset.mem_range] at ha hc hd
    rw [hC a ha a ha c hc d hd]
  have hov : eD.over eD.mtrace = sEnvMat D n m s.m2 := by
    unfold NDArray.over sEnvMat NDArray.build
    rw [sD]
    congr 1
    refine List.map_congr_left fun idx hi => ?_
    rw [mem_indices] at hi
    obtain ⟨i, j, rfl⟩ : ∃ i j, idx = [i, j] := by
      match idx, hi.length with
      | [i, j], _ => exact ⟨i, j, rfl⟩
    obtain ⟨hi, hj⟩ := validIdx_cons.mp hi
    obtain ⟨hj, _⟩ := validIdx_cons.mp hj
    rw [vD i hi j hj, tr]
    rfl
  obtain ⟨T, hT, sT, _, vT⟩ := matmul_get (hp (sEnvMat D n m s.m2) rfl) sS
  have vT' : ∀ i < n, ∀ j < m, T.m2 i j = sTarget pinv S D n m s.m2 i j := by
    intro i hi j hj
    show T.get [i, j] = _
    rw [vT i hi j hj]
    exact Finset.sum_congr rfl fun l hl => by rw [vS l (Finset.mem_range.mp hl) j hj]
  have sqT : T.squares = sSquares n m (sTarget pinv S D n m s.m2) := by
    rw [squares_two sT]
    exact Finset.sum_congr rfl fun i hi => Finset.sum_congr rfl fun j hj => by
      rw [← vT' i (Finset.mem_range.mp hi) j (Finset.mem_range.mp hj)]; rfl
  have nn := sSquares_nonneg n m (sTarget pinv S D n m s.m2)
  have run : sStep pinv sqrt S D sp2 s = if sqrt T.squares = 0 then .ok s else
      sSearch sqrt S D sp2 (npErr (sOverlap S.m4 n m s.m2 ^ 2) (sNorm C n m s.m2 * sp2)) s (T.over (sqrt T.squares)) (List.range 11) := by
    unfold sStep
    simp only [bind, Except.bind, a1, a2, a3, if_neg htr, hov, hT, old]
  by_cases hz : sqrt T.squares = 0
  · rw [if_pos hz] at run
    rw [sqT, q0 _ nn] at hz
    exact ⟨s, run, ws, hs, h0, le_rfl, .inl ⟨rfl, sSquares_zero hz⟩⟩
  · rw [if_neg hz] at run
    have st : (T.over (sqrt T.squares)).shape = [n, m] := sT
    have cand : ∀ p : Nat, ∀ i < n, ∀ j < m,
        (NDArray.combine (1 - 1 / 10 * (p : K)) (1 / 10 * (p : K)) (T.over (sqrt T.squares)) s).m2 i j =
        sCand sqrt n m (sTarget pinv S D n m s.m2) s.m2 p i j := by
      intro p i hi j hj
      unfold sCand
      rw [← vT' i hi j hj, ← sqT]
      unfold NDArray.m2 NDArray.combine
      rw [NDArray.get_build _ (by rw [st]; exact valid2 hi hj), over_get sT _ hi hj]
      ring
    obtain ⟨r, er, hr⟩ := sSearch_spec sqrt hS hD hC h00 st 11 0
    rw [List.range_eq_range'] at run
    rw [er] at run
    rcases hr with ⟨_, hr⟩ | ⟨p, _, hp10, good, first, hr⟩
    · refine absurd ?_ (hr 10 (by omega) (by omega))
      refine (AsGood.congr (u := s.m2) fun i hi j hj => ?_).mpr ⟨h00, le_rfl⟩
      rw [cand 10 i hi j hj]
      unfold sCand
      norm_num
    · set c := NDArray.combine (1 - 1 / 10 * (p : K)) (1 / 10 * (p : K)) (T.over (sqrt T.squares)) s with hc
      have sc : c.shape = [n, m] := st
      have nc : sNorm C n m c.m2 ≠ 0 := left_ne_zero_of_mul good.1
      have sqc : c.squares = sSquares n m c.m2 := squares_two sc
      have hcn := sSquares_nonneg n m c.m2
      have root : sqrt c.squares ≠ 0 := by
        rw [sqc]
        exact fun h => sSquares_ne nc ((q0 _ hcn).mp h)
      have vr : ∀ i < n, ∀ j < m, r.m2 i j = c.m2 i j / sqrt c.squares := by
        intro i hi j hj
        rw [hr]
        exact over_get sc _ hi hj
      have nr : sNorm C n m r.m2 = sNorm C n m c.m2 / sqrt c.squares ^ 4 := by
        rw [sNorm_congr C vr, sNorm_div C n m c.m2]
      have er : sError S.m4 C n m sp2 r.m2 = sError S.m4 C n m sp2 c.m2 := by
        unfold sError
        rw [nr, sOverlap_congr S.m4 vr, sOverlap_div S.m4 n m c.m2]
        have : sp2 ≠ 0 := right_ne_zero_of_mul good.1
        congr 2
        field_simp
      refine ⟨r, run, ?_, ?_, ?_, ?_, .inr ⟨?_, p, by omega, sqrt c.squares, root, ?_, ?_, ?_⟩⟩
      · rw [hr]; exact NDArray.build_wf _ _
      · rw [hr]; exact sc
      · rw [nr]; exact div_ne_zero nc (pow_ne_zero _ root)
      · rw [er]; exact good.2
      · have : sSquares n m r.m2 = sSquares n m c.m2 / (sqrt c.squares * sqrt c.squares) := by
          unfold sSquares
          simp only [Finset.sum_div]
          refine Finset.sum_congr rfl fun i hi => Finset.sum_congr rfl fun j hj => ?_
          rw [vr i (Finset.mem_range.mp hi) j (Finset.mem_range.mp hj)]
          ring
        rw [this, sqc, hq _ hcn]
        exact div_self (sSquares_ne nc)
      · intro i hi j hj
        rw [vr i hi j hj, div_mul_cancel₀ _ root, cand p i hi j hj]
      · exact (AsGood.congr (cand p)).mp good
      · exact fun q hq hg => first q (by omega) hq ((AsGood.congr (cand q)).mpr hg)

omit [IsStrictOrderedRing K] in
theorem sRounds_succ (pinv : NDArray K → NDArray K) (sqrt : K → K) (k : Nat) :
    ∀ s, sRounds pinv sqrt S D sp2 (k + 1) s = (do sStep pinv sqrt S D sp2 (← sRounds pinv sqrt S D sp2 k s)) := by
  induction k with
  | zero =>
    intro s
    unfold sRounds
    simp only [bind, Except.bind, sRounds]
    cases sStep pinv sqrt S D sp2 s <;> rfl
  | succ k ih =>
    intro s
    rw [sRounds]
    conv_rhs => rw [sRounds]
    simp only [bind, Except.bind]
    cases sStep pinv sqrt S D sp2 s with
    | error e => rfl
    | ok t => exact ih t

/-- C67: any number of updates succeeds, each starts from the result of the one before, none raises the truncation error, and so
it is never larger than at the start. -/
theorem C67_rounds {pinv : NDArray K → NDArray K} {sqrt : K → K} (hp : ∀ a : NDArray K, a.shape = [n, n] → (pinv a).shape = [n, n])
    (hq : ∀ x, 0 ≤ x → sqrt x * sqrt x = x) (hS : S.shape = [n, m, n, m]) (hD : D.shape = [n, n, n, n]) (hC : IsDouble D C n)
    (h2 : sp2 = ∑ a ∈ range n, ∑ b ∈ range n, ∑ i ∈ range n, ∑ j ∈ range n, C a b i j ^ 2) (ws : s.WF) (hs : s.shape = [n, m])
    (h0 : sNorm C n m s.m2 ≠ 0) (rounds : Nat) :
    ∃ r, sRounds pinv sqrt S D sp2 rounds s = .ok r ∧ r.WF ∧ r.shape = [n, m] ∧ sNorm C n m r.m2 ≠ 0 ∧
      sError S.m4 C n m sp2 r.m2 ≤ sError S.m4 C n m sp2 s.m2 ∧
      ∀ k < rounds, ∃ t u, sRounds pinv sqrt S D sp2 k s = .ok t ∧ sStep pinv sqrt S D sp2 t = .ok u ∧
        sRounds pinv sqrt S D sp2 (k + 1) s = .ok u ∧ sError S.m4 C n m sp2 u.m2 ≤ sError S.m4 C n m sp2 t.m2 := by
  induction rounds with
  | zero => exact ⟨s, rfl, ws, hs, h0, le_rfl, fun k hk => absurd hk (by omega)⟩
  | succ rounds ih =>
    obtain ⟨r, e, wr, hr, h, le, mono⟩ := ih
    obtain ⟨u, e1, w1, hs1, h1, le1, _⟩ := C67_step hp hq hS hD hC h2 wr hr h
    have e' : sRounds pinv sqrt S D sp2 (rounds + 1) s = .ok u := by
      rw [sRounds_succ, e]
      exact e1
    refine ⟨u, e', w1, hs1, h1, le1.trans le, fun k hk => ?_⟩
    rcases Nat.lt_succ_iff_lt_or_eq.mp hk with hk | rfl
    · exact mono k hk
    · exact ⟨r, u, e, e1, e', le1⟩

/-- The ring with `s` attached to its four corners. -/
def sAllFour (C : Nat → Nat → Nat → Nat → K) (n : Nat) (s : Nat → Nat → K) (x y z w : Nat) : K :=
  ∑ i ∈ range n, ∑ j ∈ range n, ∑ k ∈ range n, ∑ l ∈ range n, C i j k l * s i x * s j y * s k z * s l w

/-- C67: after the rescaling the ring with `sM` at its corners has the same sum of squares as the ring, if neither is 0. -/
theorem C67_rescale {root8 : K → K} (hr : ∀ x, 0 ≤ x → root8 x ^ 8 = x) {C : NDArray K} (hC : C.shape = [n, n, n, n])
    (hs : s.shape = [n, m]) (h0 : ∑ x ∈ range m, ∑ y ∈ range m, ∑ z ∈ range m, ∑ w ∈ range m, sAllFour C.m4 n s.m2 x y z w ^ 2 ≠ 0)
    (h1 : ∑ a ∈ range n, ∑ b ∈ range n, ∑ i ∈ range n, ∑ j ∈ range n, C.m4 a b i j ^ 2 ≠ 0) :
    ∃ t c, sRescale root8 C s = .ok t ∧ t.shape = [n, m] ∧ (∀ i < n, ∀ j < m, t.m2 i j = s.m2 i j / c) ∧
      ∑ x ∈ range m, ∑ y ∈ range m, ∑ z ∈ range m, ∑ w ∈ range m, sAllFour C.m4 n t.m2 x y z w ^ 2 =
        ∑ a ∈ range n, ∑ b ∈ range n, ∑ i ∈ range n, ∑ j ∈ range n, C.m4 a b i j ^ 2 := by
  obtain ⟨M, eM, sM, vM⟩ : ∃ M, nconFour C s = .ok M ∧ M.shape = [m, m, m, m] ∧
      ∀ x < m, ∀ y < m, ∀ z < m, ∀ w < m, M.get [x, y, z, w] = sAllFour C.m4 n s.m2 x y z w := by
    unfold nconFour
    rw [hC, hs]
    simp only [and_self, if_true]
    exact ⟨_, rfl, rfl, fun x hx y hy z hz w hw => by rw [NDArray.get_build _ (valid4 hx hy hz hw)]; rfl⟩
  have sqM : M.squares = ∑ x ∈ range m, ∑ y ∈ range m, ∑ z ∈ range m, ∑ w ∈ range m, sAllFour C.m4 n s.m2 x y z w ^ 2 := by
    rw [squares_four sM]
    refine Finset.sum_congr rfl fun x hx => Finset.sum_congr rfl fun y hy => Finset.sum_congr rfl fun z hz =>
      Finset.sum_congr rfl fun w hw => ?_
    simp only [Finset.mem_range] at hx hy hz hw
    rw [vM x hx y hy z hz w hw]
  have sqC : C.squares = ∑ a ∈ range n, ∑ b ∈ range n, ∑ i ∈ range n, ∑ j ∈ range n, C.m4 a b i j ^ 2 := squares_four hC
  set c := root8 (M.squares / C.squares) with hc
  have c8 : c ^ 8 = M.squares / C.squares := by
    refine hr _ (div_nonneg ?_ ?_)
    · rw [sqM]
      exact Finset.sum_nonneg fun _ _ => Finset.sum_nonneg fun _ _ => Finset.sum_nonneg fun _ _ => Finset.sum_nonneg fun _ _ => sq_nonneg _
    · rw [sqC]
      exact Finset.sum_nonneg fun _ _ => Finset.sum_nonneg fun _ _ => Finset.sum_nonneg fun _ _ => Finset.sum_nonneg fun _ _ => sq_nonneg _
  have vt : ∀ i < n, ∀ j < m, (s.over c).m2 i j = s.m2 i j / c := fun i hi j hj => over_get hs c hi hj
  refine ⟨s.over c, c, by unfold sRescale; simp only [bind, Except.bind, eM, ← hc], hs, vt, ?_⟩
  have key : ∀ x ∈ range m, ∀ y ∈ range m, ∀ z ∈ range m, ∀ w ∈ range m,
      sAllFour C.m4 n (s.over c).m2 x y z w ^ 2 = sAllFour C.m4 n s.m2 x y z w ^ 2 / c ^ 8 := by
    intro x hx y hy z hz w hw
    simp only [Finset.mem_range] at hx hy hz hw
    have : sAllFour C.m4 n (s.over c).m2 x y z w = sAllFour C.m4 n s.m2 x y z w / c ^ 4 := by
      unfold sAllFour
      simp only [Finset.sum_div]
      refine Finset.sum_congr rfl fun i hi => Finset.sum_congr rfl fun j hj => Finset.sum_congr rfl fun k hk =>
        Finset.sum_congr rfl fun l hl => ?_
      simp only [Finset.mem_range] at hi hj hk hl
      rw [vt i hi x hx, vt j hj y hy, vt k hk z hz, vt l hl w hw]
      ring
    rw [this]
    ring
  rw [Finset.sum_congr rfl fun x hx => Finset.sum_congr rfl fun y hy => Finset.sum_congr rfl fun z hz =>
    Finset.sum_congr rfl fun w hw => key x hx y hy z hz w hw]
  simp only [← Finset.sum_div]
  rw [← sqM, ← sqC, c8]
  rw [← sqM] at h0
  rw [← sqC] at h1
  field_simp

end

end CTL
