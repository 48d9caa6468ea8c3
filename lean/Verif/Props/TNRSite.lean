import Verif.Model.TNRSite
import Verif.Spec.TNRSite
import Verif.Lemmas.TNREnd
import Verif.Props.TNRDis

/-! C70: the scaling of `sM` and the new site of `doTNR`. -/

namespace CTL

open Finset (range)
variable {K : Type}

section
variable [Field K]

theorem nconMod_ok {C s : NDArray K} {M N : Nat} (hC : C.shape = [M, M, M, M]) (hs : s.shape = [M, N]) :
    ∃ e, nconMod C s = .ok e ∧ e.shape = [N, N, N, N] ∧
      ∀ a < N, ∀ b < N, ∀ c < N, ∀ d < N, e.at4 a b c d = onLegs M C.at4 s.at2 a b c d := by
  unfold nconMod
  rw [hC, hs]
  simp only [and_self, if_true]
  refine ⟨_, rfl, rfl, fun a ha b hb c hc d hd => ?_⟩
  unfold NDArray.at4
  rw [NDArray.get_build _ (valid4 ha hb hc hd)]
  rfl

theorem nconSq_ok {a : NDArray K} {i j k l : Nat} (h : a.shape = [i, j, k, l]) : nconSq a = .ok (sumSq i j k l a.at4) := by
  unfold nconSq sumSq
  rw [h]
  simp only [pow_two]
  rfl

theorem sumSq_congr {i j k l : Nat} {f g : Nat → Nat → Nat → Nat → K}
    (h : ∀ a < i, ∀ b < j, ∀ c < k, ∀ d < l, f a b c d = g a b c d) : sumSq i j k l f = sumSq i j k l g := by
  unfold sumSq
  refine Finset.sum_congr rfl fun a ha => Finset.sum_congr rfl fun b hb => Finset.sum_congr rfl fun c hc => Finset.sum_congr rfl fun d hd => ?_
  rw [h a (Finset.mem_range.mp ha) b (Finset.mem_range.mp hb) c (Finset.mem_range.mp hc) d (Finset.mem_range.mp hd)]

theorem sumSq_scale (i j k l : Nat) (f : Nat → Nat → Nat → Nat → K) (r : K) :
    sumSq i j k l (fun a b c d => f a b c d / r) = sumSq i j k l f / r ^ 2 := by
  unfold sumSq
  simp only [Finset.sum_div, div_pow]

theorem onLegs_scale (M : Nat) (C : Nat → Nat → Nat → Nat → K) (s : Nat → Nat → K) (r : K) (a b c d : Nat) :
    onLegs M C (fun i j => s i j / r) a b c d = onLegs M C s a b c d / r ^ 4 := by
  unfold onLegs
  simp only [Finset.sum_div]
  refine Finset.sum_congr rfl fun _ _ => Finset.sum_congr rfl fun _ _ => Finset.sum_congr rfl fun _ _ => Finset.sum_congr rfl fun _ _ => ?_
  rw [div_eq_mul_inv, div_eq_mul_inv, div_eq_mul_inv, div_eq_mul_inv, div_eq_mul_inv, ← inv_pow]
  ring

/-- C70: after the scaling the ring with `sM` on its legs has the norm of the ring. -/
theorem C70_norm {root : K → K} {C s : NDArray K} {M N : Nat} (hC : C.shape = [M, M, M, M]) (hs : s.shape = [M, N])
    (h1 : sumSq M M M M C.at4 ≠ 0) (h2 : sumSq N N N N (onLegs M C.at4 s.at2) ≠ 0)
    (hr : root (sumSq N N N N (onLegs M C.at4 s.at2) / sumSq M M M M C.at4) ^ 8 =
      sumSq N N N N (onLegs M C.at4 s.at2) / sumSq M M M M C.at4) :
    ∃ s', normS root C s = .ok s' ∧ s'.shape = [M, N] ∧
      (∃ r ≠ 0, ∀ i < M, ∀ j < N, s.get [i, j] = r * s'.get [i, j]) ∧
      sumSq N N N N (onLegs M C.at4 s'.at2) = sumSq M M M M C.at4 := by
  obtain ⟨e, he, es, ev⟩ := nconMod_ok hC hs
  have sq : sumSq N N N N e.at4 = sumSq N N N N (onLegs M C.at4 s.at2) := sumSq_congr ev
  set r := root (sumSq N N N N (onLegs M C.at4 s.at2) / sumSq M M M M C.at4) with hrr
  have r0 : r ≠ 0 := by
    intro h
    rw [h] at hr
    exact div_ne_zero h2 h1 (by rw [← hr]; norm_num)
  have val : ∀ i < M, ∀ j < N, (NDArray.build [M, N] fun idx => s.get idx / r).get [i, j] = s.get [i, j] / r := fun i hi j hj =>
    NDArray.get_build _ (valid2 hi hj)
  refine ⟨.build [M, N] fun idx => s.get idx / r, ?_, rfl, ⟨r, r0, fun i hi j hj => ?_⟩, ?_⟩
  · unfold normS
    rw [he]
    simp only [bind, Except.bind]
    rw [nconSq_ok es, nconSq_ok hC]
    simp only
    rw [sq, hs]
  · rw [val i hi j hj, mul_div_cancel₀ _ r0]
  · have : ∀ a < N, ∀ b < N, ∀ c < N, ∀ d < N, onLegs M C.at4 (NDArray.build [M, N] fun idx => s.get idx / r).at2 a b c d =
        onLegs M C.at4 s.at2 a b c d / r ^ 4 := by
      intro a ha b hb c hc d hd
      rw [← onLegs_scale]
      unfold onLegs
      refine Finset.sum_congr rfl fun i hi => Finset.sum_congr rfl fun j hj => Finset.sum_congr rfl fun k hk =>
        Finset.sum_congr rfl fun l hl => ?_
      have f := fun {i : Nat} (hi : i ∈ range M) => val i (Finset.mem_range.mp hi)
      unfold NDArray.at2
      rw [f hi a ha, f hj b hb, f hk c hc, f hl d hd]
    rw [sumSq_congr this, sumSq_scale, ← pow_mul, hr, div_div_cancel₀ h2]

end

section
variable [CommSemiring K]

theorem sum_swap22 (n m : Nat) (F : Nat → Nat → Nat → Nat → K) :
    ∑ a ∈ range n, ∑ b ∈ range n, ∑ c ∈ range m, ∑ d ∈ range m, F a b c d =
      ∑ c ∈ range m, ∑ d ∈ range m, ∑ a ∈ range n, ∑ b ∈ range n, F a b c d := by
  rw [Finset.sum_congr rfl fun a _ => Finset.sum_comm, Finset.sum_comm]
  refine Finset.sum_congr rfl fun c _ => ?_
  rw [Finset.sum_congr rfl fun a _ => Finset.sum_comm, Finset.sum_comm]

theorem ringOf_turn (S : Nat) (P Q : Nat → Nat → Nat → K) (a b c d : Nat) : ringOf S P Q c d a b = ringOf S P Q a b c d := by
  unfold ringOf
  rw [sum_swap22]
  refine Finset.sum_congr rfl fun g1 _ => Finset.sum_congr rfl fun g2 _ => Finset.sum_congr rfl fun g3 _ => Finset.sum_congr rfl fun g4 _ => ?_
  ring

theorem ringOf_flip (S : Nat) {P Q : Nat → Nat → Nat → K} {σ τ : Nat → K} {a b c d : Nat}
    (hP : ∀ x, x = a ∨ x = c → ∀ g g', P x g' g = σ x * P x g g') (hQ : ∀ x, x = b ∨ x = d → ∀ g g', Q x g' g = τ x * Q x g g') :
    ringOf S P Q a d c b = σ a * τ b * σ c * τ d * ringOf S P Q a b c d := by
  have e : ringOf S P Q a d c b = ∑ g1 ∈ range S, ∑ g2 ∈ range S, ∑ g3 ∈ range S, ∑ g4 ∈ range S,
      σ a * τ b * σ c * τ d * (P a g2 g1 * Q b g1 g4 * P c g4 g3 * Q d g3 g2) := by
    unfold ringOf
    refine Finset.sum_congr rfl fun g1 _ => Finset.sum_congr rfl fun g2 _ => Finset.sum_congr rfl fun g3 _ => Finset.sum_congr rfl fun g4 _ => ?_
    rw [hP a (.inl rfl) g2 g1, hP c (.inr rfl) g4 g3, hQ b (.inl rfl) g1 g4, hQ d (.inr rfl) g3 g2]
    ring
  rw [e]
  unfold ringOf
  simp only [Finset.mul_sum]
  refine Finset.sum_comm.trans (Finset.sum_congr rfl fun g1 _ => Finset.sum_congr rfl fun g2 _ => Finset.sum_comm.trans ?_)
  exact Finset.sum_congr rfl fun g3 _ => Finset.sum_congr rfl fun g4 _ => rfl

/-- With an isometry `v` that takes a sign when its two legs are exchanged, so does the pair of corners. -/
theorem cornerPair_flip {V W M : Nat} {v q : Nat → Nat → Nat → K} {s : Nat → Nat → K} {σ : K} {a : Nat}
    (h : ∀ x < W, ∀ x' < W, v x' x a = σ * v x x' a) (g g' : Nat) :
    cornerPair V W M v s q a g' g = σ * cornerPair V W M v s q a g g' := by
  unfold cornerPair
  rw [Finset.sum_comm]
  simp only [Finset.mul_sum]
  refine Finset.sum_congr rfl fun x hx => Finset.sum_congr rfl fun x' hx' => Finset.sum_congr rfl fun c _ => ?_
  rw [Finset.sum_comm]
  refine Finset.sum_congr rfl fun m _ => Finset.sum_congr rfl fun m' _ => ?_
  rw [h x (Finset.mem_range.mp hx) x' (Finset.mem_range.mp hx')]
  ring

theorem yPair_flip {H U : Nat} {w y : Nat → Nat → Nat → K} {σ : K} {b : Nat} (h : ∀ x < U, ∀ x' < U, w x' x b = σ * w x x' b) (g g' : Nat) :
    yPair H U w y b g' g = σ * yPair H U w y b g g' := by
  unfold yPair
  rw [Finset.sum_comm]
  simp only [Finset.mul_sum]
  refine Finset.sum_congr rfl fun x hx => Finset.sum_congr rfl fun x' hx' => Finset.sum_congr rfl fun c _ => ?_
  rw [h x (Finset.mem_range.mp hx) x' (Finset.mem_range.mp hx')]
  ring

/-- The contraction of the new site is a ring of two pairs of corners and two pairs of isometries `yM`. -/
theorem nconSite_ok {v w y s qA : NDArray K} {H U S M V W D1 D2 : Nat} (hv : v.shape = [W, W, D1]) (hw : w.shape = [U, U, D2])
    (hy : y.shape = [H, U, S]) (hs : s.shape = [M, S]) (hq : qA.shape = [V, W, M]) :
    ∃ e, nconSite v w y s qA = .ok e ∧ e.shape = [D1, D2, D1, D2] ∧
      ∀ a < D1, ∀ b < D2, ∀ c < D1, ∀ d < D2, e.get [a, b, c, d] =
        ringOf S (cornerPair V W M v.at3 s.at2 qA.at3) (yPair H U w.at3 y.at3) a b c d := by
  unfold nconSite
  rw [hv, hw, hy, hs, hq]
  simp only [and_self, if_true]
  refine ⟨_, rfl, rfl, fun a ha b hb c hc d hd => ?_⟩
  rw [NDArray.get_build _ (valid4 ha hb hc hd)]
  simp only [List.getD_cons_zero, List.getD_cons_succ]
  have half1 : ∀ t : Nat → Nat, sumOver [(10, W), (9, W), (6, V), (7, M), (8, M), (17, U), (18, U), (16, H)] (fun t =>
        (v.get [t 10, t 9, a] * (qA.get [t 6, t 10, t 8] * s.get [t 8, t 14]) * (qA.get [t 6, t 9, t 7] * s.get [t 7, t 19])) *
        (w.get [t 17, t 18, b] * y.get [t 16, t 17, t 19] * y.get [t 16, t 18, t 20])) t =
      cornerPair V W M v.at3 s.at2 qA.at3 a (t 14) (t 19) * yPair H U w.at3 y.at3 b (t 19) (t 20) := by
    intro t
    refine (sumOver_mul [(10, W), (9, W), (6, V), (7, M), (8, M)] [(17, U), (18, U), (16, H)]
      (fun t => v.get [t 10, t 9, a] * (qA.get [t 6, t 10, t 8] * s.get [t 8, t 14]) * (qA.get [t 6, t 9, t 7] * s.get [t 7, t 19]))
      (fun t => w.get [t 17, t 18, b] * y.get [t 16, t 17, t 19] * y.get [t 16, t 18, t 20]) ?_ ?_ ?_ t).trans rfl
    · simp only [List.forall_mem_cons]
      exact ⟨fun _ _ => rfl, fun _ _ => rfl, fun _ _ => rfl, fun _ h => by cases h⟩
    · simp only [List.forall_mem_cons]
      exact ⟨fun _ _ => rfl, fun _ _ => rfl, fun _ _ => rfl, fun _ _ => rfl, fun _ _ => rfl, fun _ h => by cases h⟩
    · simp
  have half2 : ∀ t : Nat → Nat, sumOver [(4, W), (5, W), (3, V), (2, M), (1, M), (13, U), (12, U), (11, H)] (fun t =>
        (v.get [t 4, t 5, c] * (qA.get [t 3, t 4, t 1] * s.get [t 1, t 20]) * (qA.get [t 3, t 5, t 2] * s.get [t 2, t 15])) *
        (w.get [t 13, t 12, d] * y.get [t 11, t 13, t 15] * y.get [t 11, t 12, t 14])) t =
      cornerPair V W M v.at3 s.at2 qA.at3 c (t 20) (t 15) * yPair H U w.at3 y.at3 d (t 15) (t 14) := by
    intro t
    refine (sumOver_mul [(4, W), (5, W), (3, V), (2, M), (1, M)] [(13, U), (12, U), (11, H)]
      (fun t => v.get [t 4, t 5, c] * (qA.get [t 3, t 4, t 1] * s.get [t 1, t 20]) * (qA.get [t 3, t 5, t 2] * s.get [t 2, t 15]))
      (fun t => w.get [t 13, t 12, d] * y.get [t 11, t 13, t 15] * y.get [t 11, t 12, t 14]) ?_ ?_ ?_ t).trans rfl
    · simp only [List.forall_mem_cons]
      exact ⟨fun _ _ => rfl, fun _ _ => rfl, fun _ _ => rfl, fun _ h => by cases h⟩
    · simp only [List.forall_mem_cons]
      exact ⟨fun _ _ => rfl, fun _ _ => rfl, fun _ _ => rfl, fun _ _ => rfl, fun _ _ => rfl, fun _ h => by cases h⟩
    · simp
  have both : ∀ t : Nat → Nat,
      sumOver [(10, W), (9, W), (6, V), (7, M), (8, M), (17, U), (18, U), (16, H)] (fun t =>
        sumOver [(4, W), (5, W), (3, V), (2, M), (1, M), (13, U), (12, U), (11, H)] (fun t =>
          v.get [t 10, t 9, a] * s.get [t 7, t 19] * qA.get [t 6, t 9, t 7] * qA.get [t 6, t 10, t 8] * s.get [t 8, t 14] *
          w.get [t 17, t 18, b] * y.get [t 16, t 17, t 19] * y.get [t 16, t 18, t 20] *
          v.get [t 4, t 5, c] * s.get [t 1, t 20] * qA.get [t 3, t 4, t 1] * qA.get [t 3, t 5, t 2] * s.get [t 2, t 15] *
          w.get [t 13, t 12, d] * y.get [t 11, t 12, t 14] * y.get [t 11, t 13, t 15]) t) t =
      cornerPair V W M v.at3 s.at2 qA.at3 a (t 14) (t 19) * yPair H U w.at3 y.at3 b (t 19) (t 20) *
      cornerPair V W M v.at3 s.at2 qA.at3 c (t 20) (t 15) * yPair H U w.at3 y.at3 d (t 15) (t 14) := by
    intro t
    rw [mul_assoc (_ * _), ← half1 t, ← half2 t]
    refine Eq.trans ?_ (sumOver_mul [(10, W), (9, W), (6, V), (7, M), (8, M), (17, U), (18, U), (16, H)]
      [(4, W), (5, W), (3, V), (2, M), (1, M), (13, U), (12, U), (11, H)]
      (fun t => (v.get [t 10, t 9, a] * (qA.get [t 6, t 10, t 8] * s.get [t 8, t 14]) * (qA.get [t 6, t 9, t 7] * s.get [t 7, t 19])) *
        (w.get [t 17, t 18, b] * y.get [t 16, t 17, t 19] * y.get [t 16, t 18, t 20]))
      (fun t => (v.get [t 4, t 5, c] * (qA.get [t 3, t 4, t 1] * s.get [t 1, t 20]) * (qA.get [t 3, t 5, t 2] * s.get [t 2, t 15])) *
        (w.get [t 13, t 12, d] * y.get [t 11, t 13, t 15] * y.get [t 11, t 12, t 14])) ?_ ?_ ?_ t)
    · refine sumOver_congr _ (fun t => sumOver_congr _ (fun t => ?_) t) t
      ring
    · simp only [List.forall_mem_cons]
      exact ⟨fun _ _ => rfl, fun _ _ => rfl, fun _ _ => rfl, fun _ _ => rfl, fun _ _ => rfl, fun _ _ => rfl, fun _ _ => rfl,
        fun _ _ => rfl, fun _ h => by cases h⟩
    · simp only [List.forall_mem_cons]
      exact ⟨fun _ _ => rfl, fun _ _ => rfl, fun _ _ => rfl, fun _ _ => rfl, fun _ _ => rfl, fun _ _ => rfl, fun _ _ => rfl,
        fun _ _ => rfl, fun _ h => by cases h⟩
    · simp
  rw [sumOver_congr _ both]
  rfl

end

section
variable [Field K]

/-- C70: the new site is the normalised ring; it has norm 1, a half turn leaves it as it is, and exchanging left and right (or up
and down) only changes signs if `vM` and `wM` take signs when their legs are exchanged. -/
theorem C70_site {norm : NDArray K → K} {v w y s qA : NDArray K} {H U S M V W D1 D2 : Nat} (hv : v.shape = [W, W, D1])
    (hw : w.shape = [U, U, D2]) (hy : y.shape = [H, U, S]) (hs : s.shape = [M, S]) (hq : qA.shape = [V, W, M])
    (hn : ∀ a : NDArray K, a.shape = [D1, D2, D1, D2] → norm a ^ 2 = sumSq D1 D2 D1 D2 a.at4)
    (h0 : sumSq D1 D2 D1 D2 (ringOf S (cornerPair V W M v.at3 s.at2 qA.at3) (yPair H U w.at3 y.at3)) ≠ 0) :
    ∃ a n, newSite norm v w y s qA = .ok (a, n) ∧ a.shape = [D1, D2, D1, D2] ∧
      n ^ 2 = sumSq D1 D2 D1 D2 (ringOf S (cornerPair V W M v.at3 s.at2 qA.at3) (yPair H U w.at3 y.at3)) ∧
      (∀ i < D1, ∀ j < D2, ∀ k < D1, ∀ l < D2,
        n * a.get [i, j, k, l] = ringOf S (cornerPair V W M v.at3 s.at2 qA.at3) (yPair H U w.at3 y.at3) i j k l) ∧
      sumSq D1 D2 D1 D2 a.at4 = 1 ∧
      (∀ i < D1, ∀ j < D2, ∀ k < D1, ∀ l < D2, a.get [k, l, i, j] = a.get [i, j, k, l]) ∧
      ∀ σ τ : Nat → K, (∀ i < D1, ∀ x < W, ∀ x' < W, v.get [x', x, i] = σ i * v.get [x, x', i]) →
        (∀ j < D2, ∀ x < U, ∀ x' < U, w.get [x', x, j] = τ j * w.get [x, x', j]) →
        ∀ i < D1, ∀ j < D2, ∀ k < D1, ∀ l < D2,
          a.get [i, l, k, j] = σ i * τ j * σ k * τ l * a.get [i, j, k, l] ∧
          a.get [k, j, i, l] = σ i * τ j * σ k * τ l * a.get [i, j, k, l] := by
  obtain ⟨e, he, es, ev⟩ := nconSite_ok hv hw hy hs hq
  set A := ringOf S (cornerPair V W M v.at3 s.at2 qA.at3) (yPair H U w.at3 y.at3) with hA
  have sq : norm e ^ 2 = sumSq D1 D2 D1 D2 A := (hn e es).trans (sumSq_congr ev)
  have n0 : norm e ≠ 0 := fun h => h0 (by rw [← sq, h]; norm_num)
  have val : ∀ i < D1, ∀ j < D2, ∀ k < D1, ∀ l < D2,
      (NDArray.build [D1, D2, D1, D2] fun idx => e.get idx / norm e).get [i, j, k, l] = A i j k l / norm e := by
    intro i hi j hj k hk l hl
    rw [NDArray.get_build _ (valid4 hi hj hk hl), ev i hi j hj k hk l hl]
  have turn : ∀ i j k l, A k l i j = A i j k l := fun i j k l => ringOf_turn _ _ _ _ _ _ _
  refine ⟨.build [D1, D2, D1, D2] fun idx => e.get idx / norm e, norm e, ?_, rfl, sq, fun i hi j hj k hk l hl => ?_, ?_, fun i hi j hj k hk l hl => ?_, fun σ τ hσ hτ i hi j hj k hk l hl => ?_⟩
  · unfold newSite
    rw [he]
    simp only [bind, Except.bind]
    rw [es]
  · rw [val i hi j hj k hk l hl, mul_div_cancel₀ _ n0]
  · refine (sumSq_congr val).trans ?_
    rw [sumSq_scale, sq, div_self h0]
  · rw [val i hi j hj k hk l hl, val k hk l hl i hi j hj, turn]
  · have flip : A i l k j = σ i * τ j * σ k * τ l * A i j k l := by
      refine ringOf_flip _ (fun x hx g g' => cornerPair_flip (fun x1 h1 x2 h2 => ?_) g g') (fun x hx g g' => yPair_flip (fun x1 h1 x2 h2 => ?_) g g')
      · exact hσ x (by rcases hx with rfl | rfl <;> assumption) x1 h1 x2 h2
      · exact hτ x (by rcases hx with rfl | rfl <;> assumption) x1 h1 x2 h2
    rw [val i hi l hl k hk j hj, val k hk j hj i hi l hl, val i hi j hj k hk l hl, turn i l k j, flip]
    exact ⟨mul_div_assoc _ _ _, mul_div_assoc _ _ _⟩

end

end CTL
