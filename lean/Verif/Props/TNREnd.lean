import Verif.Spec.TNREnd
import Verif.Lemmas.TNREnd
import Verif.Props.TNRDis

/-! C69: the isometries `vM` and `wM` of `doTNR`. -/

namespace CTL

open Finset (range)
variable {K : Type} [Field K] [LinearOrder K] [IsStrictOrderedRing K]

/-- What is claimed of an isometry from the environment `e` with the dimension `n` of its legs: the symmetrised environment `m` is a
symmetric matrix without negative eigenvalues, the columns of the isometry are orthonormal eigenvectors of it for the largest
eigenvalues, the largest first, and the error is the share of the eigenvalues cut off. -/
def EndClaim (p : RGParams K) (e : NDArray K) (n chi : Nat) : Prop :=
  ∃ m iso err k, endEnv e n = .ok m ∧ endIso p e n chi = .ok (iso, err) ∧ m.shape = [n * n, n * n] ∧
    (∀ a < n, ∀ b < n, ∀ c < n, ∀ d < n,
      m.get [a * n + b, c * n + d] = (e.get [a, b, c, d] + e.get [b, a, d, c]) / 2) ∧
    (∀ i < n * n, ∀ j < n * n, m.get [i, j] = m.get [j, i]) ∧ (∀ x ∈ (p.eigh m).1, 0 ≤ x) ∧ k ≤ n * n ∧
    k = (if envKept p m chi = 0 then n * n else envKept p m chi) ∧
    iso.shape = [n, n, k] ∧
    (∀ i < k, ∀ j < k, ∑ a ∈ range n, ∑ b ∈ range n, iso.get [a, b, i] * iso.get [a, b, j] = if i = j then 1 else 0) ∧
    (∀ a < n, ∀ b < n, ∀ o < k, ∑ c ∈ range n, ∑ d ∈ range n, m.get [a * n + b, c * n + d] * iso.get [c, d, o] =
      (p.eigh m).1.getD (n * n - 1 - o) 0 * iso.get [a, b, o]) ∧
    err = ((p.eigh m).1.take (n * n - k)).sum / (p.eigh m).1.sum

theorem endClaim_of_gram {p : RGParams K} (he : ExactEigh p.eigh) (chi : Nat) {e : NDArray K} {n : Nat} (hs : e.shape = [n, n, n, n])
    (ps : List (Nat × Nat)) (t : Nat → Nat) (G : (Nat → Nat) → Nat → Nat → K)
    (hg : ∀ a < n, ∀ b < n, ∀ c < n, ∀ d < n, e.get [a, b, c, d] = sumOver ps (fun t => G t a b * G t c d) t) : EndClaim p e n chi := by
  obtain ⟨s1, s2, s3⟩ := uSym_ok hs
  have hre : (e.plus (e.transpose [1, 0, 3, 2])).reshape [n * n, n * n] =
      .ok ⟨[n * n, n * n], (e.plus (e.transpose [1, 0, 3, 2])).data⟩ := by
    unfold NDArray.reshape
    rw [s1, if_pos (by simp; ring)]
  obtain ⟨m, hm⟩ : ∃ m, m = NDArray.build [n * n, n * n] fun idx =>
      1 / 2 * (⟨[n * n, n * n], (e.plus (e.transpose [1, 0, 3, 2])).data⟩ : NDArray K).get idx := ⟨_, rfl⟩
  have hend : endEnv e n = .ok m := by
    unfold endEnv
    rw [hre, hm]
    rfl
  have ms : m.shape = [n * n, n * n] := by rw [hm, NDArray.build_shape]
  have mw : m.WF := by rw [hm]; exact NDArray.build_wf _ _
  have lt : ∀ {x y : Nat}, x < n → y < n → x * n + y < n * n := fun h1 h2 => by nlinarith
  have mv : ∀ a < n, ∀ b < n, ∀ c < n, ∀ d < n,
      m.get [a * n + b, c * n + d] = (e.get [a, b, c, d] + e.get [b, a, d, c]) / 2 := by
    intro a ha b hb c hc d hd
    rw [hm, NDArray.get_build _ (valid2 (lt ha hb) (lt hc hd))]
    have := asMat_pair s1 a b c d
    rw [s3 a ha b hb c hc d hd] at this
    refine (congrArg (1 / 2 * ·) this).trans ?_
    ring
  have me : ∀ i < n * n, ∀ j < n * n, m.get [i, j] = 1 / 2 * (sumOver ps (fun t => G t (i / n) (i % n) * G t (j / n) (j % n)) t +
      sumOver ps (fun t => G t (i % n) (i / n) * G t (j % n) (j / n)) t) := by
    intro i hi j hj
    have hn : 0 < n := Nat.pos_of_ne_zero fun h => by subst h; simp at hi
    have i1 : i / n < n := (Nat.div_lt_iff_lt_mul hn).mpr hi
    have j1 : j / n < n := (Nat.div_lt_iff_lt_mul hn).mpr hj
    have i2 := Nat.mod_lt i hn
    have j2 := Nat.mod_lt j hn
    rw [← hg _ i1 _ i2 _ j1 _ j2, ← hg _ i2 _ i1 _ j2 _ j1]
    have := mv _ i1 _ i2 _ j1 _ j2
    rw [Nat.mul_comm (i / n), Nat.mul_comm (j / n), Nat.div_add_mod, Nat.div_add_mod] at this
    rw [this]
    ring
  have sym : ∀ i < n * n, ∀ j < n * n, m.get [i, j] = m.get [j, i] := by
    intro i hi j hj
    rw [me i hi j hj, me j hj i hi]
    simp only [mul_comm (G _ (i / n) _), mul_comm (G _ (i % n) _)]
  have psd : ∀ c : Nat → K, 0 ≤ ∑ i ∈ range (n * n), ∑ j ∈ range (n * n), c i * c j * m.get [i, j] := by
    intro c
    have g1 := sumOver_gram (N := n * n) c ps (fun t i => G t (i / n) (i % n)) t
    have g2 := sumOver_gram (N := n * n) c ps (fun t i => G t (i % n) (i / n)) t
    have e1 : ∑ i ∈ range (n * n), ∑ j ∈ range (n * n), c i * c j * m.get [i, j] = 1 / 2 *
        (∑ i ∈ range (n * n), ∑ j ∈ range (n * n), c i * c j * sumOver ps (fun t => G t (i / n) (i % n) * G t (j / n) (j % n)) t +
        ∑ i ∈ range (n * n), ∑ j ∈ range (n * n), c i * c j * sumOver ps (fun t => G t (i % n) (i / n) * G t (j % n) (j / n)) t) := by
      rw [← Finset.sum_add_distrib, Finset.mul_sum]
      refine Finset.sum_congr rfl fun i hi => ?_
      rw [← Finset.sum_add_distrib, Finset.mul_sum]
      refine Finset.sum_congr rfl fun j hj => ?_
      rw [me i (Finset.mem_range.mp hi) j (Finset.mem_range.mp hj)]
      ring
    rw [e1]
    exact mul_nonneg (by positivity) (add_nonneg g1 g2)
  obtain ⟨pos, k, hk, hv, eig, qw, qs, orth, herr⟩ := projector_of_psd he chi mw ms sym psd
  have hq : (solveEnv p m chi).1.reshape [n, n, k] = .ok ⟨[n, n, k], (solveEnv p m chi).1.data⟩ := by
    unfold NDArray.reshape
    rw [qs, if_pos (by simp; ring)]
  have ent : ∀ a b x, (⟨[n, n, k], (solveEnv p m chi).1.data⟩ : NDArray K).get [a, b, x] = (solveEnv p m chi).1.get [a * n + b, x] := by
    intro a b x
    unfold NDArray.get
    rw [qs]
    simp only [ravel, List.prod_cons, List.prod_nil, mul_one, Nat.add_zero]
    congr 1
    ring
  refine ⟨m, ⟨[n, n, k], (solveEnv p m chi).1.data⟩, _, k, hend, ?_, ms, mv, sym, pos, hk, hv, rfl, ?_, ?_, rfl⟩
  · unfold endIso
    rw [hend]
    simp only [bind, Except.bind]
    rw [qs]
    simp only [List.getD_cons_succ, List.getD_cons_zero]
    rw [hq]
    simp only
    rw [herr]
  · intro i hi j hj
    rw [← orth i hi j hj, sum_pair]
    refine Finset.sum_congr rfl fun a _ => Finset.sum_congr rfl fun b _ => ?_
    rw [ent, ent]
  · intro a ha b hb o ho
    rw [ent, ← eig _ (lt ha hb) o ho, sum_pair]
    refine Finset.sum_congr rfl fun c _ => Finset.sum_congr rfl fun d _ => ?_
    rw [ent]

/-- C69: the environment of `vM` is the product of its half with itself, summed over the six legs on which the halves meet; and
what follows for `vM` and `SP3err`. -/
theorem C69_v {p : RGParams K} (he : ExactEigh p.eigh) (chi : Nat) {y s qA : NDArray K} {H U S M V W : Nat}
    (hy : y.shape = [H, U, S]) (hs : s.shape = [M, S]) (hq : qA.shape = [V, W, M]) :
    ∃ e, nconV y s qA = .ok e ∧ e.shape = [W, W, W, W] ∧
      (∀ a < W, ∀ b < W, ∀ c < W, ∀ d < W, e.get [a, b, c, d] =
        ∑ x1 ∈ range U, ∑ x2 ∈ range U, ∑ x3 ∈ range W, ∑ x4 ∈ range W, ∑ x5 ∈ range U, ∑ x6 ∈ range U,
          vHalf H S M V y.at3 s.at2 qA.at3 x1 x2 x3 x4 x5 x6 a b * vHalf H S M V y.at3 s.at2 qA.at3 x1 x2 x3 x4 x5 x6 c d) ∧
      EndClaim p e W chi := by
  unfold nconV
  rw [hy, hs, hq]
  simp only [and_self, if_true]
  have key : ∀ a b c d : Nat, ∀ t : Nat → Nat,
      sumOver [(1, H), (17, S), (24, S), (5, M), (7, V), (6, M), (19, S), (13, H), (25, S), (21, M), (23, V), (22, M)] (fun t =>
        sumOver [(2, H), (18, S), (29, S), (8, M), (10, V), (9, M), (20, S), (14, H), (30, S), (26, M), (28, V), (27, M)] (fun t =>
          y.get [t 1, t 3, t 17] * y.get [t 1, t 4, t 24] * y.get [t 2, t 3, t 18] * y.get [t 2, t 4, t 29] * s.get [t 5, t 17] *
          qA.get [t 7, t 11, t 5] * qA.get [t 7, t 12, t 6] * s.get [t 6, t 19] * s.get [t 8, t 18] * qA.get [t 10, t 11, t 8] *
          qA.get [t 10, t 12, t 9] * s.get [t 9, t 20] * y.get [t 13, t 15, t 19] * y.get [t 13, t 16, t 25] *
          y.get [t 14, t 15, t 20] * y.get [t 14, t 16, t 30] * s.get [t 21, t 24] * qA.get [t 23, a, t 21] *
          qA.get [t 23, b, t 22] * s.get [t 22, t 25] * s.get [t 26, t 29] * qA.get [t 28, c, t 26] *
          qA.get [t 28, d, t 27] * s.get [t 27, t 30]) t) t =
      vHalf H S M V y.at3 s.at2 qA.at3 (t 3) (t 4) (t 11) (t 12) (t 15) (t 16) a b *
      vHalf H S M V y.at3 s.at2 qA.at3 (t 3) (t 4) (t 11) (t 12) (t 15) (t 16) c d := by
    intro a b c d t
    refine Eq.trans ?_ (sumOver_mul
      [(1, H), (17, S), (24, S), (5, M), (7, V), (6, M), (19, S), (13, H), (25, S), (21, M), (23, V), (22, M)]
      [(2, H), (18, S), (29, S), (8, M), (10, V), (9, M), (20, S), (14, H), (30, S), (26, M), (28, V), (27, M)]
      (fun t => (y.get [t 1, t 3, t 17] * y.get [t 1, t 4, t 24]) *
        (s.get [t 5, t 17] * qA.get [t 7, t 11, t 5] * qA.get [t 7, t 12, t 6] * s.get [t 6, t 19]) *
        (y.get [t 13, t 15, t 19] * y.get [t 13, t 16, t 25]) *
        (s.get [t 21, t 24] * qA.get [t 23, a, t 21] * qA.get [t 23, b, t 22] * s.get [t 22, t 25]))
      (fun t => (y.get [t 2, t 3, t 18] * y.get [t 2, t 4, t 29]) *
        (s.get [t 8, t 18] * qA.get [t 10, t 11, t 8] * qA.get [t 10, t 12, t 9] * s.get [t 9, t 20]) *
        (y.get [t 14, t 15, t 20] * y.get [t 14, t 16, t 30]) *
        (s.get [t 26, t 29] * qA.get [t 28, c, t 26] * qA.get [t 28, d, t 27] * s.get [t 27, t 30]))
      ?_ ?_ ?_ t)
    · refine sumOver_congr _ (fun t => sumOver_congr _ (fun t => ?_) t) t
      ring
    · simp only [List.forall_mem_cons]
      exact ⟨fun _ _ => rfl, fun _ _ => rfl, fun _ _ => rfl, fun _ _ => rfl, fun _ _ => rfl, fun _ _ => rfl, fun _ _ => rfl,
        fun _ _ => rfl, fun _ _ => rfl, fun _ _ => rfl, fun _ _ => rfl, fun _ _ => rfl, fun _ h => by cases h⟩
    · simp only [List.forall_mem_cons]
      exact ⟨fun _ _ => rfl, fun _ _ => rfl, fun _ _ => rfl, fun _ _ => rfl, fun _ _ => rfl, fun _ _ => rfl, fun _ _ => rfl,
        fun _ _ => rfl, fun _ _ => rfl, fun _ _ => rfl, fun _ _ => rfl, fun _ _ => rfl, fun _ h => by cases h⟩
    · simp
  have val : ∀ a < W, ∀ b < W, ∀ c < W, ∀ d < W, (NDArray.build [W, W, W, W] fun idx =>
        sumOver [(3, U), (4, U), (11, W), (12, W), (15, U), (16, U)] (fun t =>
        sumOver [(1, H), (17, S), (24, S), (5, M), (7, V), (6, M), (19, S), (13, H), (25, S), (21, M), (23, V), (22, M)] (fun t =>
        sumOver [(2, H), (18, S), (29, S), (8, M), (10, V), (9, M), (20, S), (14, H), (30, S), (26, M), (28, V), (27, M)] (fun t =>
          y.get [t 1, t 3, t 17] * y.get [t 1, t 4, t 24] * y.get [t 2, t 3, t 18] * y.get [t 2, t 4, t 29] * s.get [t 5, t 17] *
          qA.get [t 7, t 11, t 5] * qA.get [t 7, t 12, t 6] * s.get [t 6, t 19] * s.get [t 8, t 18] * qA.get [t 10, t 11, t 8] *
          qA.get [t 10, t 12, t 9] * s.get [t 9, t 20] * y.get [t 13, t 15, t 19] * y.get [t 13, t 16, t 25] *
          y.get [t 14, t 15, t 20] * y.get [t 14, t 16, t 30] * s.get [t 21, t 24] * qA.get [t 23, idx.getD 0 0, t 21] *
          qA.get [t 23, idx.getD 1 0, t 22] * s.get [t 22, t 25] * s.get [t 26, t 29] * qA.get [t 28, idx.getD 2 0, t 26] *
          qA.get [t 28, idx.getD 3 0, t 27] * s.get [t 27, t 30]) t) t) fun _ => 0).get [a, b, c, d] =
      sumOver [(3, U), (4, U), (11, W), (12, W), (15, U), (16, U)] (fun t =>
        vHalf H S M V y.at3 s.at2 qA.at3 (t 3) (t 4) (t 11) (t 12) (t 15) (t 16) a b *
        vHalf H S M V y.at3 s.at2 qA.at3 (t 3) (t 4) (t 11) (t 12) (t 15) (t 16) c d) fun _ => 0 := by
    intro a ha b hb c hc d hd
    rw [NDArray.get_build _ (valid4 ha hb hc hd)]
    exact sumOver_congr _ (key a b c d) _
  refine ⟨_, rfl, rfl, fun a ha b hb c hc d hd => ?_, endClaim_of_gram he chi rfl _ _
    (fun t a b => vHalf H S M V y.at3 s.at2 qA.at3 (t 3) (t 4) (t 11) (t 12) (t 15) (t 16) a b) val⟩
  rw [val a ha b hb c hc d hd]
  rfl

/-- C69: the same for the environment of `wM`, `wM` and `SP4err`. -/
theorem C69_w {p : RGParams K} (he : ExactEigh p.eigh) (chi : Nat) {y s qA : NDArray K} {H U S M V W : Nat}
    (hy : y.shape = [H, U, S]) (hs : s.shape = [M, S]) (hq : qA.shape = [V, W, M]) :
    ∃ e, nconW y s qA = .ok e ∧ e.shape = [U, U, U, U] ∧
      (∀ a < U, ∀ b < U, ∀ c < U, ∀ d < U, e.get [a, b, c, d] =
        ∑ x1 ∈ range W, ∑ x2 ∈ range W, ∑ x3 ∈ range U, ∑ x4 ∈ range U, ∑ x5 ∈ range W, ∑ x6 ∈ range W,
          wHalf H S M V y.at3 s.at2 qA.at3 x1 x2 x3 x4 x5 x6 a b * wHalf H S M V y.at3 s.at2 qA.at3 x1 x2 x3 x4 x5 x6 c d) ∧
      EndClaim p e U chi := by
  unfold nconW
  rw [hy, hs, hq]
  simp only [and_self, if_true]
  have key : ∀ a b c d : Nat, ∀ t : Nat → Nat,
      sumOver [(25, H), (26, S), (27, S), (1, M), (3, V), (2, M), (13, S), (9, H), (23, S), (15, M), (17, V), (16, M)] (fun t =>
        sumOver [(28, H), (29, S), (30, S), (4, M), (6, V), (5, M), (14, S), (10, H), (24, S), (18, M), (20, V), (19, M)] (fun t =>
          y.get [t 25, a, t 26] * y.get [t 25, b, t 27] * y.get [t 28, c, t 29] *
          y.get [t 28, d, t 30] * s.get [t 1, t 26] * qA.get [t 3, t 7, t 1] * qA.get [t 3, t 8, t 2] * s.get [t 2, t 13] *
          s.get [t 4, t 29] * qA.get [t 6, t 7, t 4] * qA.get [t 6, t 8, t 5] * s.get [t 5, t 14] * y.get [t 9, t 11, t 13] *
          y.get [t 9, t 12, t 23] * y.get [t 10, t 11, t 14] * y.get [t 10, t 12, t 24] * s.get [t 15, t 27] *
          qA.get [t 17, t 21, t 15] * qA.get [t 17, t 22, t 16] * s.get [t 16, t 23] * s.get [t 18, t 30] *
          qA.get [t 20, t 21, t 18] * qA.get [t 20, t 22, t 19] * s.get [t 19, t 24]) t) t =
      wHalf H S M V y.at3 s.at2 qA.at3 (t 7) (t 8) (t 11) (t 12) (t 21) (t 22) a b *
      wHalf H S M V y.at3 s.at2 qA.at3 (t 7) (t 8) (t 11) (t 12) (t 21) (t 22) c d := by
    intro a b c d t
    refine Eq.trans ?_ (sumOver_mul
      [(25, H), (26, S), (27, S), (1, M), (3, V), (2, M), (13, S), (9, H), (23, S), (15, M), (17, V), (16, M)]
      [(28, H), (29, S), (30, S), (4, M), (6, V), (5, M), (14, S), (10, H), (24, S), (18, M), (20, V), (19, M)]
      (fun t => (y.get [t 25, a, t 26] * y.get [t 25, b, t 27]) *
        (s.get [t 1, t 26] * qA.get [t 3, t 7, t 1] * qA.get [t 3, t 8, t 2] * s.get [t 2, t 13]) *
        (y.get [t 9, t 11, t 13] * y.get [t 9, t 12, t 23]) *
        (s.get [t 15, t 27] * qA.get [t 17, t 21, t 15] * qA.get [t 17, t 22, t 16] * s.get [t 16, t 23]))
      (fun t => (y.get [t 28, c, t 29] * y.get [t 28, d, t 30]) *
        (s.get [t 4, t 29] * qA.get [t 6, t 7, t 4] * qA.get [t 6, t 8, t 5] * s.get [t 5, t 14]) *
        (y.get [t 10, t 11, t 14] * y.get [t 10, t 12, t 24]) *
        (s.get [t 18, t 30] * qA.get [t 20, t 21, t 18] * qA.get [t 20, t 22, t 19] * s.get [t 19, t 24]))
      ?_ ?_ ?_ t)
    · refine sumOver_congr _ (fun t => sumOver_congr _ (fun t => ?_) t) t
      ring
    · simp only [List.forall_mem_cons]
      exact ⟨fun _ _ => rfl, fun _ _ => rfl, fun _ _ => rfl, fun _ _ => rfl, fun _ _ => rfl, fun _ _ => rfl, fun _ _ => rfl,
        fun _ _ => rfl, fun _ _ => rfl, fun _ _ => rfl, fun _ _ => rfl, fun _ _ => rfl, fun _ h => by cases h⟩
    · simp only [List.forall_mem_cons]
      exact ⟨fun _ _ => rfl, fun _ _ => rfl, fun _ _ => rfl, fun _ _ => rfl, fun _ _ => rfl, fun _ _ => rfl, fun _ _ => rfl,
        fun _ _ => rfl, fun _ _ => rfl, fun _ _ => rfl, fun _ _ => rfl, fun _ _ => rfl, fun _ h => by cases h⟩
    · simp
  have val : ∀ a < U, ∀ b < U, ∀ c < U, ∀ d < U, (NDArray.build [U, U, U, U] fun idx =>
        sumOver [(7, W), (8, W), (11, U), (12, U), (21, W), (22, W)] (fun t =>
        sumOver [(25, H), (26, S), (27, S), (1, M), (3, V), (2, M), (13, S), (9, H), (23, S), (15, M), (17, V), (16, M)] (fun t =>
        sumOver [(28, H), (29, S), (30, S), (4, M), (6, V), (5, M), (14, S), (10, H), (24, S), (18, M), (20, V), (19, M)] (fun t =>
          y.get [t 25, idx.getD 0 0, t 26] * y.get [t 25, idx.getD 1 0, t 27] * y.get [t 28, idx.getD 2 0, t 29] *
          y.get [t 28, idx.getD 3 0, t 30] * s.get [t 1, t 26] * qA.get [t 3, t 7, t 1] * qA.get [t 3, t 8, t 2] * s.get [t 2, t 13] *
          s.get [t 4, t 29] * qA.get [t 6, t 7, t 4] * qA.get [t 6, t 8, t 5] * s.get [t 5, t 14] * y.get [t 9, t 11, t 13] *
          y.get [t 9, t 12, t 23] * y.get [t 10, t 11, t 14] * y.get [t 10, t 12, t 24] * s.get [t 15, t 27] *
          qA.get [t 17, t 21, t 15] * qA.get [t 17, t 22, t 16] * s.get [t 16, t 23] * s.get [t 18, t 30] *
          qA.get [t 20, t 21, t 18] * qA.get [t 20, t 22, t 19] * s.get [t 19, t 24]) t) t) fun _ => 0).get [a, b, c, d] =
      sumOver [(7, W), (8, W), (11, U), (12, U), (21, W), (22, W)] (fun t =>
        wHalf H S M V y.at3 s.at2 qA.at3 (t 7) (t 8) (t 11) (t 12) (t 21) (t 22) a b *
        wHalf H S M V y.at3 s.at2 qA.at3 (t 7) (t 8) (t 11) (t 12) (t 21) (t 22) c d) fun _ => 0 := by
    intro a ha b hb c hc d hd
    rw [NDArray.get_build _ (valid4 ha hb hc hd)]
    exact sumOver_congr _ (key a b c d) _
  refine ⟨_, rfl, rfl, fun a ha b hb c hc d hd => ?_, endClaim_of_gram he chi rfl _ _
    (fun t a b => wHalf H S M V y.at3 s.at2 qA.at3 (t 7) (t 8) (t 11) (t 12) (t 21) (t 22) a b) val⟩
  rw [val a ha b hb c hc d hd]
  rfl

end CTL
