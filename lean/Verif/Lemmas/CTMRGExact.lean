import Verif.Lemmas.CTMRGRun
import Verif.Lemmas.OpenGauge

/-! `CTMRG` without loss: the numbers that are kept are the quadrant and the edges in a rotated basis. -/

namespace CTL
namespace Open
open Matrix
open Finset (range)
variable {K : Type}

/-! ### Sums over pairs -/

theorem sum_pair [AddCommMonoid K] (n D : Nat) (f : Nat → K) : ∑ p : Fin n × Fin D, f (p.1 * D + p.2) = ∑ i ∈ range (n * D), f i := by
  rw [← Fin.sum_univ_eq_sum_range, ← finProdFinEquiv.sum_comp]
  refine Finset.sum_congr rfl fun p _ => ?_
  rw [finProdFinEquiv_apply_val, Nat.add_comm, Nat.mul_comm]

theorem pair_lt {n D : Nat} (p : Fin n × Fin D) : p.1.val * D + p.2.val < n * D := by
  have h1 := p.1.isLt
  have h2 := p.2.isLt
  calc p.1.val * D + p.2.val < p.1.val * D + D := by omega
    _ = (p.1.val + 1) * D := by ring
    _ ≤ n * D := Nat.mul_le_mul_right _ h1

theorem pair_div {n D : Nat} (p : Fin n × Fin D) : (p.1.val * D + p.2.val) / D = p.1 := by
  have h2 := p.2.isLt
  rw [Nat.add_comm, Nat.add_mul_div_right _ _ (by omega), Nat.div_eq_of_lt h2, Nat.zero_add]

theorem pair_mod {n D : Nat} (p : Fin n × Fin D) : (p.1.val * D + p.2.val) % D = p.2 := by
  have h2 := p.2.isLt
  rw [Nat.add_comm, Nat.add_mul_mod_self_right, Nat.mod_eq_of_lt h2]

section
variable [Field K] {n D k : Nat}

/-- A square array with its rows counted in pairs. -/
def paired (n D k : Nat) (U : Nat → Nat → K) : Matrix (Fin n × Fin D) (Fin k) K := fun p i => U (p.1 * D + p.2) i

theorem paired_ortho (hk : k = n * D) {U : Nat → Nat → K}
    (h : ∀ a < n * D, ∀ b < n * D, ∑ i ∈ range (n * D), U i a * U i b = if a = b then 1 else 0) : Ortho (paired n D k U) := by
  have cols : (paired n D k U)ᵀ * paired n D k U = 1 := by
    ext a b
    have := h a (hk ▸ a.isLt) b (hk ▸ b.isLt)
    rw [← sum_pair n D fun i => U i a * U i b] at this
    simp only [Matrix.mul_apply, Matrix.transpose_apply, paired]
    rw [this, Matrix.one_apply]
    simp only [Fin.ext_iff]
  refine ⟨?_, cols⟩
  refine (Matrix.mul_eq_one_comm_of_card_eq _ _ _ ?_).mp cols
  simp [hk]

theorem paired_cut (U X : Nat → Nat → K) (Y : Matrix (Fin n × Fin D) (Fin n × Fin D) K) (h : ∀ p q, Y p q = X (p.1 * D + p.2) (q.1 * D + q.2)) (i j : Fin k) :
    ∑ a ∈ range (n * D), ∑ b ∈ range (n * D), X a b * U a i * U b j = ((paired n D k U)ᵀ * Y * paired n D k U) i j := by
  have e := sum_pair n D fun a => ∑ b ∈ range (n * D), X a b * U a i * U b j
  rw [← e, Matrix.mul_apply]
  simp only [Matrix.mul_apply, Matrix.transpose_apply, Finset.sum_mul]
  refine Eq.trans ?_ Finset.sum_comm
  refine Finset.sum_congr rfl fun p _ => ?_
  have e : _ = (_ : K) := sum_pair n D fun b => X (p.1 * D + p.2) b * U (p.1 * D + p.2) i * U b j
  rw [← e]
  refine Finset.sum_congr rfl fun q _ => ?_
  rw [h, paired, paired]
  ring

end

/-! ### One step -/

/-- The numbers are those of blocks of `n` sites, up to factors. -/
def Stands [Field K] (w : Nat → Nat → Nat → Nat → K) (D n : Nat) (sc sv sh : K) (N : Numbers K) : Prop :=
  N.n = D ^ n ∧ ∃ A B, Level (onFin D D w) n sc sv sh (fun i : Fin (D ^ n) => N.c i) (fun k => Matrix.of fun a b : Fin (D ^ n) => N.v k a b)
    (fun k => Matrix.of fun a b : Fin (D ^ n) => N.h k a b) A B

section
variable [Field K] [StarRing K] [TrivialStar K] {la : LinAlg K} {D n : Nat} {w : Nat → Nat → Nat → Nat → K} {sc sv sh : K}

omit [StarRing K] [TrivialStar K] in
theorem stands_start : Stands w D 0 1 1 1 (Numbers.start : Numbers K) := by
  refine ⟨rfl, onlyOne _, onlyOne _, ?_⟩
  have e : (Matrix.of fun _ _ : Fin (D ^ 0) => (1 : K)) = 1 := by
    ext i j
    have : i = j := Subsingleton.elim (α := Fin 1) i j
    rw [this, Matrix.one_apply_eq, Matrix.of_apply]
  have := level_zero (onFin D D w : Fin D → Fin D → Fin D → Fin D → K)
  show Level _ 0 1 1 1 (fun _ : Fin (D ^ 0) => 1) (fun _ => Matrix.of fun _ _ : Fin (D ^ 0) => (1 : K)) (fun _ => Matrix.of fun _ _ : Fin (D ^ 0) => (1 : K)) _ _
  rw [e]
  exact this

theorem Stands.next (hla : UnitaryLinAlg la) {chi : Nat} (hchi : D ^ (n + 1) ≤ chi) {N : Numbers K} (S : Stands w D n sc sv sh N) :
    Stands w D (n + 1) (sc * sv * sh) sv sh (N.step la chi w D D) := by
  obtain ⟨hn, A, B, L⟩ := S
  have hk : D ^ (n + 1) = D ^ n * D := pow_succ D n
  have hk' : N.n * D = D ^ n * D := by rw [hn]
  obtain ⟨svd, uo, vo⟩ := hla (N.wide w D D) (N.n * D) (N.n * D) (matOf_wf _ _ _) rfl
  rw [hk'] at uo vo
  simp only [star_trivial] at uo vo
  obtain ⟨-, -, -, -, -, ex⟩ := svd
  rw [Nat.min_self, hk'] at ex
  refine ⟨?_, ?_⟩
  · show min chi (min (N.n * D) (N.n * D)) = _
    rw [Nat.min_self, hk', ← hk, Nat.min_eq_right hchi]
  set U := (la.svd (N.wide w D D)).1 with hU
  set W := (la.svd (N.wide w D D)).2.2 with hW
  set s := (la.svd (N.wide w D D)).2.1 with hs
  have hP : Ortho (paired (D ^ n) D (D ^ (n + 1)) fun i j => U.get [i, j]) := paired_ortho hk uo
  have hQ : Ortho (paired (D ^ n) D (D ^ (n + 1)) fun i j => W.get [j, i]) := paired_ortho hk vo
  have hc : quadExt (onFin D D w) (fun i : Fin (D ^ n) => N.c i) (fun k => Matrix.of fun a b : Fin (D ^ n) => N.v k a b)
      (fun k => Matrix.of fun a b : Fin (D ^ n) => N.h k a b) =
      paired (D ^ n) D (D ^ (n + 1)) (fun i j => U.get [i, j]) * diagonal (fun i : Fin (D ^ (n + 1)) => s.getD i 0) *
        (paired (D ^ n) D (D ^ (n + 1)) fun i j => W.get [j, i])ᵀ := by
    ext p q
    have := ex _ (pair_lt p) _ (pair_lt q)
    unfold Numbers.wide at this
    rw [matOf_get _ (hk' ▸ pair_lt p) (hk' ▸ pair_lt q)] at this
    unfold wideCorner partialSVD at this
    rw [pair_div, pair_mod, pair_div, pair_mod, hn, ← hk] at this
    rw [Matrix.mul_apply]
    simp only [Matrix.mul_diagonal, Matrix.transpose_apply, paired]
    rw [Fin.sum_univ_eq_sum_range (fun k => U.get [p.1 * D + p.2, k] * s.getD k 0 * W.get [k, q.1 * D + q.2])]
    refine Eq.trans ?_ this
    rw [Finset.sum_comm]
    unfold quadExt
    rw [← Fin.sum_univ_eq_sum_range]
    refine Finset.sum_congr rfl fun j _ => ?_
    rw [← Fin.sum_univ_eq_sum_range]
    refine Finset.sum_congr rfl fun k _ => ?_
    rw [Matrix.mul_apply, Finset.sum_mul, ← Fin.sum_univ_eq_sum_range]
    refine Finset.sum_congr rfl fun i _ => ?_
    rw [Matrix.mul_diagonal]
    rfl
  refine ⟨lift A * paired (D ^ n) D (D ^ (n + 1)) (fun i j => U.get [i, j]), lift B * paired (D ^ n) D (D ^ (n + 1)) (fun i j => W.get [j, i]), ?_⟩
  have := L.next hP hQ hc
  convert this using 1
  · rfl
  · funext r
    ext a b
    show cutV U (N.n * D) (wideV w D D N.v) r a b = _
    unfold cutV
    rw [hk']
    refine paired_cut (fun i j => U.get [i, j]) (wideV w D D N.v r) _ (fun p q => ?_) a b
    unfold wideV rowExt
    rw [pair_div, pair_mod, pair_div, pair_mod, ← Fin.sum_univ_eq_sum_range]
    rfl
  · funext r
    ext a b
    show cutH W (N.n * D) (wideH w D D N.h) r a b = _
    unfold cutH
    rw [hk']
    refine paired_cut (fun i j => W.get [j, i]) (wideH w D D N.h r) _ (fun p q => ?_) a b
    unfold wideH colExt
    rw [pair_div, pair_mod, pair_div, pair_mod, ← Fin.sum_univ_eq_sum_range]
    rfl

omit [StarRing K] [TrivialStar K] in
theorem Stands.over {N : Numbers K} (S : Stands w D n sc sv sh N) {x y z : K} (hx : x ≠ 0) (hy : y ≠ 0) (hz : z ≠ 0) :
    Stands w D n (sc * x) (sv * z) (sh * y) (N.over x y z) := by
  obtain ⟨hn, A, B, L⟩ := S
  refine ⟨hn, A, B, L.a, L.b, L.corner.trans ?_, fun j => (L.row j).trans ?_, fun j => (L.column j).trans ?_⟩
  · ext a b
    by_cases e : a = b
    · subst e
      simp only [Matrix.smul_apply, Matrix.diagonal_apply_eq, smul_eq_mul, Numbers.over]
      field_simp
    · simp only [Matrix.smul_apply, Matrix.diagonal_apply_ne _ e, smul_zero]
  · ext a b
    simp only [Matrix.smul_apply, Matrix.of_apply, smul_eq_mul, Numbers.over]
    field_simp
  · ext a b
    simp only [Matrix.smul_apply, Matrix.of_apply, smul_eq_mul, Numbers.over]
    field_simp

end

section
variable [Field K] [LinearOrder K] {D n : Nat} {w : Nat → Nat → Nat → Nat → K} {sc sv sh : K}

theorem Stands.pos {N : Numbers K} (S : Stands w D n sc sv sh N) (hA : Alive (onFin D D w) n) {x y z : K} (h : N.Norms D D x y z) :
    0 < x ∧ 0 < y ∧ 0 < z := by
  obtain ⟨hn, A, B, L⟩ := S
  refine ⟨lt_of_le_of_ne h.x0 fun e => ?_, lt_of_le_of_ne h.y0 fun e => ?_, lt_of_le_of_ne h.z0 fun e => ?_⟩
  · obtain ⟨p, q, ne⟩ := hA.quad
    have hc : (fun i : Fin (D ^ n) => N.c i) = 0 := funext fun i => h.corner e.symm i (by rw [hn]; exact i.isLt)
    have := L.quad_eq
    rw [hc, Matrix.diagonal_zero', Matrix.mul_zero, Matrix.zero_mul, smul_zero] at this
    exact ne (congrFun (congrFun this p) q)
  · obtain ⟨p, q, j, ne⟩ := hA.column
    have hc : (Matrix.of fun a b : Fin (D ^ n) => N.h j a b) = 0 := by
      ext a b
      exact h.hEdge e.symm j j.isLt a (by rw [hn]; exact a.isLt) b (by rw [hn]; exact b.isLt)
    have := L.column_eq j
    rw [hc, Matrix.mul_zero, Matrix.zero_mul, smul_zero] at this
    exact ne (congrFun (congrFun this p) q)
  · obtain ⟨p, q, j, ne⟩ := hA.row
    have hc : (Matrix.of fun a b : Fin (D ^ n) => N.v j a b) = 0 := by
      ext a b
      exact h.vEdge e.symm j j.isLt a (by rw [hn]; exact a.isLt) b (by rw [hn]; exact b.isLt)
    have := L.row_eq j
    rw [hc, Matrix.mul_zero, Matrix.zero_mul, smul_zero] at this
    exact ne (congrFun (congrFun this p) q)

omit [LinearOrder K] in
theorem Stands.even {N : Numbers K} (S : Stands w D n sc sv sh N) : partition (n + n) (onFin D D w) = sc ^ 4 * N.even := by
  obtain ⟨hn, A, B, L⟩ := S
  rw [L.even, Numbers.even, hn, Fin.sum_univ_eq_sum_range (fun i => N.c i ^ 4)]

omit [LinearOrder K] in
theorem trace_eight {m : Nat} (v1 v2 h1 h2 : Matrix (Fin m) (Fin m) K) (c : Fin m → K) :
    (v1 * diagonal c * h1 * diagonal c * v2ᵀ * diagonal c * h2ᵀ * diagonal c).trace =
      ∑ a, ∑ k, ∑ j, ∑ i, c i * c k * c j * c a * h2 i j * h1 k a * v1 i k * v2 j a := by
  simp only [Matrix.trace, Matrix.diag, ↓Matrix.mul_diagonal, Matrix.mul_apply, Matrix.transpose_apply, Finset.sum_mul]
  simp only [← Fintype.sum_prod_type']
  refine Fintype.sum_equiv ⟨fun x => (x.2.2.1, x.2.2.2, x.2.1, x.1), fun x => (x.2.2.2, x.2.2.1, x.1, x.2.1), fun _ => rfl, fun _ => rfl⟩ _ _ fun p => ?_
  simp only [Equiv.coe_fn_mk]
  ring

omit [LinearOrder K] in
theorem Stands.odd {N : Numbers K} (S : Stands w D n sc sv sh N) :
    partition (n + 1 + n) (onFin D D w) = sc ^ 4 * sh ^ 2 * sv ^ 2 * N.odd w D D := by
  obtain ⟨hn, A, B, L⟩ := S
  rw [L.odd]
  congr 1
  unfold Numbers.odd
  rw [hn]
  simp only [trace_eight, Finset.mul_sum, ← Fin.sum_univ_eq_sum_range, Matrix.of_apply]
  simp only [← Fintype.sum_prod_type']
  refine Fintype.sum_equiv ⟨fun x => (x.2.2.2.1, x.2.1, x.2.2.1, x.1, x.2.2.2.2), fun x => (x.2.2.2.1, x.2.1, x.2.2.1, x.1, x.2.2.2.2), fun _ => rfl, fun _ => rfl⟩ _ _ fun p => ?_
  simp only [Equiv.coe_fn_mk, onFin]
  ring

end

/-! ### Positive weights, symmetric weights -/

section
variable {α β : Type} [Fintype α] [Fintype β] [Nonempty α] [Nonempty β] [Field K] [LinearOrder K] [IsStrictOrderedRing K] {w : α → α → β → β → K}

theorem rowOf_pos (h : ∀ l r u d, 0 < w l r u d) : ∀ (n : Nat) (b a : Fin n → β) (r : α), 0 < rowOf w n b a r
  | 0, _, _, _ => one_pos
  | n + 1, _, _, _ => Finset.sum_pos (fun _ _ => mul_pos (rowOf_pos h n _ _ _) (h _ _ _ _)) Finset.univ_nonempty

theorem columnOf_pos (h : ∀ l r u d, 0 < w l r u d) : ∀ (n : Nat) (b a : Fin n → α) (r : β), 0 < columnOf w n b a r
  | 0, _, _, _ => one_pos
  | n + 1, _, _, _ => Finset.sum_pos (fun _ _ => mul_pos (columnOf_pos h n _ _ _) (h _ _ _ _)) Finset.univ_nonempty

theorem block_pos (h : ∀ l r u d, 0 < w l r u d) (m : Nat) : ∀ (k : Nat) (x : Fin m → β) (y : Fin k → α), 0 < block w m k x y
  | 0, _, _ => one_pos
  | k + 1, _, _ => Finset.sum_pos (fun _ _ => mul_pos (block_pos h m k _ _) (rowOf_pos h m _ _ _)) Finset.univ_nonempty

theorem alive_pos (h : ∀ l r u d, 0 < w l r u d) (n : Nat) : Alive w n := by
  obtain ⟨a⟩ := ‹Nonempty α›
  obtain ⟨b⟩ := ‹Nonempty β›
  exact ⟨⟨fun _ => b, fun _ => a, (block_pos h n n _ _).ne'⟩, ⟨fun _ => b, fun _ => b, a, (rowOf_pos h n _ _ _).ne'⟩,
    ⟨fun _ => a, fun _ => a, b, (columnOf_pos h n _ _ _).ne'⟩⟩

end

theorem partition_uniform {α β : Type} [Fintype α] [Fintype β] [CommSemiring K] {w : α → α → β → β → K} (hx : ∀ l r u d, w l r u d = w r l u d)
    (hy : ∀ l r u d, w l r u d = w l r d u) (L : Nat) : partition L w = uniform L w := by
  unfold partition uniform
  refine Finset.sum_congr rfl fun v _ => Finset.sum_congr rfl fun h _ => Finset.prod_congr rfl fun y _ => Finset.prod_congr rfl fun x _ => ?_
  unfold weight
  split_ifs
  · rfl
  · exact hy _ _ _ _
  · exact hx _ _ _ _
  · exact (hx _ _ _ _).trans (hy _ _ _ _)

end Open

/-! ### The whole run -/

section
open Open
variable [Field K] [LinearOrder K] [StarRing K] [TrivialStar K] {p : RGParams K} {la : LinAlg K} {D chi : Nat} {w : Nat → Nat → Nat → Nat → K} {log exp : K → K}

/-- What is known of the tensors number `i` as long as nothing had to be discarded. -/
def ExactAt (exp : K → K) (w : Nat → Nat → Nat → Nat → K) (D chi i : Nat) (N : Numbers K) (S : Trio K) : Prop :=
  D ^ (i + 1) ≤ chi → (∀ n, 2 ≤ n → n ≤ i + 1 → Alive (onFin D D w) n) → Stands w D (i + 1) (exp S.corner) (exp S.vEdge) (exp S.hEdge) N

theorem exact_closed (hla : UnitaryLinAlg la) (E : LogExp log exp) (hD : D ≠ 0) : StepClosed la chi w D D log (ExactAt exp w D chi) := by
  intro i N S x y z hN hx hchi hA
  have h := (hN (le_trans (Nat.pow_le_pow_right (Nat.pos_of_ne_zero hD) (Nat.le_succ _)) hchi) fun n h2 hn => hA n h2 (by omega)).next hla hchi
  obtain ⟨px, py, pz⟩ := h.pos (hA _ (by omega) le_rfl) hx
  have := h.over px.ne' py.ne' pz.ne'
  show Stands w D (i + 1 + 1) (exp (log x + S.corner + S.hEdge + S.vEdge)) (exp (log z + S.vEdge)) (exp (log y + S.hEdge)) _
  rw [E.add, E.add, E.add, E.add, E.add, E.log x px, E.log y py, E.log z pz]
  convert this using 1 <;> ring

theorem exact_start (hla : UnitaryLinAlg la) (E : LogExp log exp) : ExactAt exp w D chi 0 (Numbers.start.step la chi w D D) ⟨0, 0, 0⟩ := by
  intro hchi _
  have := (stands_start (w := w) (D := D)).next hla hchi
  show Stands w D (0 + 1) (exp 0) (exp 0) (exp 0) _
  rw [E.zero]
  simpa using this

omit [LinearOrder K] [StarRing K] [TrivialStar K] in
theorem value_exact [LinearOrder K] (E : LogExp log exp) {L : Nat} (hL : 2 ≤ L) {N : Numbers K} {S : Trio K}
    (h : Stands w D (L / 2 - 1 + 1) (exp S.corner) (exp S.vEdge) (exp S.hEdge) N) :
    valueOf exp w D D L N S = Open.partition L (onFin D D w) := by
  have e4 : exp (4 * S.corner) = exp S.corner ^ 4 := by
    rw [show (4 : K) * S.corner = S.corner + S.corner + S.corner + S.corner by ring, E.add, E.add, E.add]
    ring
  have e2 : ∀ a, exp (2 * a) = exp a ^ 2 := fun a => by
    rw [two_mul, E.add, sq]
  unfold valueOf
  split_ifs with ho
  · have hl : L = (L / 2 - 1 + 1) + 1 + (L / 2 - 1 + 1) := by omega
    have := h.odd
    rw [← hl] at this
    rw [this, E.add, E.add, e4, e2, e2]
    ring
  · have hl : L = (L / 2 - 1 + 1) + (L / 2 - 1 + 1) := by omega
    have := h.even
    rw [← hl] at this
    rw [this, e4]
    ring

omit [LinearOrder K] [StarRing K] [TrivialStar K] in
theorem sumOf_partition : sumOf w D D = Open.partition 1 (onFin D D w) := by
  rw [partition_one]
  unfold sumOf
  simp only [← Fin.sum_univ_eq_sum_range]
  rfl

end

end CTL
