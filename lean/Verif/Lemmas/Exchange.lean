import Verif.Lemmas.Isometry

/-! The polar factor is the only isometry with the largest overlap; exchanging the two parts of a combined index. -/

namespace CTL

open Finset (range)
variable {K : Type} [Field K] [LinearOrder K] [IsStrictOrderedRing K]

theorem polar_unique {n m : Nat} {u vh e : Nat → Nat → K} {s : Nat → K} (hmn : m ≤ n)
    (hu : ∀ k < n, ∀ l < n, ∑ i ∈ range n, u i k * u i l = if k = l then 1 else 0)
    (hv : ∀ k < m, ∀ l < m, ∑ j ∈ range m, vh k j * vh l j = if k = l then 1 else 0)
    (he : ∀ i < n, ∀ j < m, e i j = ∑ k ∈ range (min n m), u i k * s k * vh k j)
    (hs : ∀ k < m, 0 < s k) {x : Nat → Nat → K} (hx : IsIsometry n m x)
    (ho : ∑ i ∈ range n, ∑ j ∈ range m, x i j * e i j = ∑ k ∈ range m, s k) :
    ∀ i < n, ∀ j < m, x i j = polar m u vh i j := by
  have hmin : min n m = m := Nat.min_eq_right hmn
  set g : Nat → Nat → K := fun i k => ∑ j ∈ range m, x i j * vh k j with hg
  have o1 := overlap_eq (x := x) he
  rw [ho, hmin] at o1
  have o2 : ∀ k, ∑ i ∈ range n, ∑ j ∈ range m, u i k * x i j * vh k j = ∑ i ∈ range n, u i k * g i k := by
    intro k
    refine Finset.sum_congr rfl fun i _ => ?_
    rw [hg, Finset.mul_sum]
    exact Finset.sum_congr rfl fun j _ => by ring
  simp only [o2] at o1
  have gg : ∀ k < m, ∑ i ∈ range n, g i k * g i k = 1 := by
    intro k hk
    have : ∀ i, g i k * g i k = ∑ j ∈ range m, ∑ l ∈ range m, (vh k j * vh k l) * (x i j * x i l) := by
      intro i
      rw [hg, Finset.sum_mul_sum]
      exact Finset.sum_congr rfl fun j _ => Finset.sum_congr rfl fun l _ => by ring
    simp only [this]
    rw [Finset.sum_comm]
    have h1 := hv k hk k hk
    rw [if_pos rfl] at h1
    rw [← h1]
    refine Finset.sum_congr rfl fun j hj => ?_
    rw [Finset.sum_comm, Finset.sum_eq_single j]
    · rw [← Finset.mul_sum, hx.1 hmn j (Finset.mem_range.mp hj) j (Finset.mem_range.mp hj), if_pos rfl, mul_one]
    · intro l hl hne
      rw [← Finset.mul_sum, hx.1 hmn j (Finset.mem_range.mp hj) l (Finset.mem_range.mp hl), if_neg (Ne.symm hne), mul_zero]
    · exact fun h => absurd hj h
  have dist : ∀ k < m, ∑ i ∈ range n, (g i k - u i k) ^ 2 = 2 - 2 * ∑ i ∈ range n, u i k * g i k := by
    intro k hk
    have h1 := hu k (by omega) k (by omega)
    rw [if_pos rfl] at h1
    have : ∀ i, (g i k - u i k) ^ 2 = g i k * g i k + u i k * u i k - 2 * (u i k * g i k) := fun i => by ring
    simp only [this, Finset.sum_sub_distrib, Finset.sum_add_distrib, ← Finset.mul_sum]
    rw [gg k hk, h1]
    ring
  have zero : ∑ k ∈ range m, s k * ∑ i ∈ range n, (g i k - u i k) ^ 2 = 0 := by
    have : ∀ k ∈ range m, s k * ∑ i ∈ range n, (g i k - u i k) ^ 2 = 2 * s k - 2 * (s k * ∑ i ∈ range n, u i k * g i k) := by
      intro k hk
      rw [dist k (Finset.mem_range.mp hk)]
      ring
    rw [Finset.sum_congr rfl this, Finset.sum_sub_distrib, ← Finset.mul_sum, ← Finset.mul_sum, ← o1]
    ring
  have eq : ∀ k < m, ∀ i < n, g i k = u i k := by
    intro k hk i hi
    have h1 := (Finset.sum_eq_zero_iff_of_nonneg (fun k hk => mul_nonneg (hs k (Finset.mem_range.mp hk)).le
      (Finset.sum_nonneg fun i _ => sq_nonneg (g i k - u i k)))).mp zero k (Finset.mem_range.mpr hk)
    have h2 := (mul_eq_zero.mp h1).resolve_left (hs k hk).ne'
    have h3 := (Finset.sum_eq_zero_iff_of_nonneg (fun i _ => sq_nonneg (g i k - u i k))).mp h2 i (Finset.mem_range.mpr hi)
    exact sub_eq_zero.mp (pow_eq_zero_iff two_ne_zero |>.mp h3)
  intro i hi j hj
  have hc := orth_cols hv
  unfold polar
  have : ∑ t ∈ range m, u i t * vh t j = ∑ t ∈ range m, ∑ l ∈ range m, x i l * (vh t l * vh t j) := by
    refine Finset.sum_congr rfl fun t ht => ?_
    rw [← eq t (Finset.mem_range.mp ht) i hi, hg, Finset.sum_mul]
    exact Finset.sum_congr rfl fun l _ => by ring
  rw [this, Finset.sum_comm, Finset.sum_eq_single j]
  · rw [← Finset.mul_sum, hc j hj j hj, if_pos rfl, mul_one]
  · intro l hl hne
    rw [← Finset.mul_sum, hc l (Finset.mem_range.mp hl) j hj, if_neg hne, mul_zero]
  · exact fun h => absurd (Finset.mem_range.mpr hj) h

/-- The combined index with its parts exchanged. -/
def flipIdx (v i : Nat) : Nat := (i % v) * v + i / v

theorem flipIdx_lt {v i : Nat} (hi : i < v * v) : flipIdx v i < v * v := by
  have hv : 0 < v := Nat.pos_of_ne_zero fun h => by subst h; simp at hi
  have h1 : i % v < v := Nat.mod_lt _ hv
  have h2 : i / v < v := (Nat.div_lt_iff_lt_mul hv).mpr hi
  unfold flipIdx
  nlinarith

theorem flipIdx_pair {v a b : Nat} (hb : b < v) : flipIdx v (a * v + b) = b * v + a := by
  have hv : 0 < v := by omega
  unfold flipIdx
  rw [Nat.add_comm (a * v), Nat.add_mul_mod_self_right, Nat.mod_eq_of_lt hb, Nat.add_mul_div_right _ _ hv, Nat.div_eq_of_lt hb, Nat.zero_add]

theorem flipIdx_flip {v i : Nat} (hi : i < v * v) : flipIdx v (flipIdx v i) = i := by
  have hv : 0 < v := Nat.pos_of_ne_zero fun h => by subst h; simp at hi
  have h2 : i / v < v := (Nat.div_lt_iff_lt_mul hv).mpr hi
  conv_lhs => rw [show flipIdx v i = (i % v) * v + i / v from rfl]
  rw [flipIdx_pair h2, Nat.mul_comm, Nat.div_add_mod]

theorem sum_flip {R : Type} [AddCommMonoid R] (v : Nat) (f : Nat → R) : ∑ i ∈ range (v * v), f (flipIdx v i) = ∑ i ∈ range (v * v), f i := by
  refine Finset.sum_nbij' (flipIdx v) (flipIdx v) ?_ ?_ ?_ ?_ ?_
  · exact fun i hi => Finset.mem_range.mpr (flipIdx_lt (Finset.mem_range.mp hi))
  · exact fun i hi => Finset.mem_range.mpr (flipIdx_lt (Finset.mem_range.mp hi))
  · exact fun i hi => flipIdx_flip (Finset.mem_range.mp hi)
  · exact fun i hi => flipIdx_flip (Finset.mem_range.mp hi)
  · exact fun i _ => rfl

theorem sum_pair {R : Type} [AddCommMonoid R] (w v : Nat) (f : Nat → R) :
    ∑ i ∈ range (w * v), f i = ∑ a ∈ range w, ∑ b ∈ range v, f (a * v + b) := by
  induction w with
  | zero => simp
  | succ w ih => rw [Nat.succ_mul, Finset.sum_range_add, ih, Finset.sum_range_succ]

/-- Exchanging the parts of both combined indices gives an isometry again. -/
theorem isometry_flip {v w : Nat} {x : Nat → Nat → K} (hx : IsIsometry (v * v) (w * w) x) :
    IsIsometry (v * v) (w * w) fun i j => x (flipIdx v i) (flipIdx w j) := by
  have inj : ∀ {v j l : Nat}, j < v * v → l < v * v → (flipIdx v j = flipIdx v l ↔ j = l) := fun hj hl =>
    ⟨fun h => by rw [← flipIdx_flip hj, h, flipIdx_flip hl], fun h => by rw [h]⟩
  constructor
  · intro h j hj l hl
    rw [sum_flip v fun i => x i (flipIdx w j) * x i (flipIdx w l), hx.1 h _ (flipIdx_lt hj) _ (flipIdx_lt hl)]
    simp only [inj hj hl]
  · intro h j hj l hl
    rw [sum_flip w fun i => x (flipIdx v j) i * x (flipIdx v l) i, hx.2 h _ (flipIdx_lt hj) _ (flipIdx_lt hl)]
    simp only [inj hj hl]

/-! Bringing an inner sum to the front. -/

theorem pull1 {R : Type} [AddCommMonoid R] {s0 t : Finset Nat} {f : Nat → Nat → R} :
    ∑ a0 ∈ s0, ∑ z ∈ t, f a0 z = ∑ z ∈ t, ∑ a0 ∈ s0, f a0 z :=
  Finset.sum_comm

theorem pull2 {R : Type} [AddCommMonoid R] {s0 s1 t : Finset Nat} {f : Nat → Nat → Nat → R} :
    ∑ a0 ∈ s0, ∑ a1 ∈ s1, ∑ z ∈ t, f a0 a1 z = ∑ z ∈ t, ∑ a0 ∈ s0, ∑ a1 ∈ s1, f a0 a1 z :=
  (Finset.sum_congr rfl fun _ _ => pull1).trans Finset.sum_comm

theorem pull3 {R : Type} [AddCommMonoid R] {s0 s1 s2 t : Finset Nat} {f : Nat → Nat → Nat → Nat → R} :
    ∑ a0 ∈ s0, ∑ a1 ∈ s1, ∑ a2 ∈ s2, ∑ z ∈ t, f a0 a1 a2 z = ∑ z ∈ t, ∑ a0 ∈ s0, ∑ a1 ∈ s1, ∑ a2 ∈ s2, f a0 a1 a2 z :=
  (Finset.sum_congr rfl fun _ _ => pull2).trans Finset.sum_comm

theorem pull4 {R : Type} [AddCommMonoid R] {s0 s1 s2 s3 t : Finset Nat} {f : Nat → Nat → Nat → Nat → Nat → R} :
    ∑ a0 ∈ s0, ∑ a1 ∈ s1, ∑ a2 ∈ s2, ∑ a3 ∈ s3, ∑ z ∈ t, f a0 a1 a2 a3 z = ∑ z ∈ t, ∑ a0 ∈ s0, ∑ a1 ∈ s1, ∑ a2 ∈ s2, ∑ a3 ∈ s3, f a0 a1 a2 a3 z :=
  (Finset.sum_congr rfl fun _ _ => pull3).trans Finset.sum_comm

theorem pull5 {R : Type} [AddCommMonoid R] {s0 s1 s2 s3 s4 t : Finset Nat} {f : Nat → Nat → Nat → Nat → Nat → Nat → R} :
    ∑ a0 ∈ s0, ∑ a1 ∈ s1, ∑ a2 ∈ s2, ∑ a3 ∈ s3, ∑ a4 ∈ s4, ∑ z ∈ t, f a0 a1 a2 a3 a4 z = ∑ z ∈ t, ∑ a0 ∈ s0, ∑ a1 ∈ s1, ∑ a2 ∈ s2, ∑ a3 ∈ s3, ∑ a4 ∈ s4, f a0 a1 a2 a3 a4 z :=
  (Finset.sum_congr rfl fun _ _ => pull4).trans Finset.sum_comm

theorem pull6 {R : Type} [AddCommMonoid R] {s0 s1 s2 s3 s4 s5 t : Finset Nat} {f : Nat → Nat → Nat → Nat → Nat → Nat → Nat → R} :
    ∑ a0 ∈ s0, ∑ a1 ∈ s1, ∑ a2 ∈ s2, ∑ a3 ∈ s3, ∑ a4 ∈ s4, ∑ a5 ∈ s5, ∑ z ∈ t, f a0 a1 a2 a3 a4 a5 z = ∑ z ∈ t, ∑ a0 ∈ s0, ∑ a1 ∈ s1, ∑ a2 ∈ s2, ∑ a3 ∈ s3, ∑ a4 ∈ s4, ∑ a5 ∈ s5, f a0 a1 a2 a3 a4 a5 z :=
  (Finset.sum_congr rfl fun _ _ => pull5).trans Finset.sum_comm

theorem pull7 {R : Type} [AddCommMonoid R] {s0 s1 s2 s3 s4 s5 s6 t : Finset Nat} {f : Nat → Nat → Nat → Nat → Nat → Nat → Nat → Nat → R} :
    ∑ a0 ∈ s0, ∑ a1 ∈ s1, ∑ a2 ∈ s2, ∑ a3 ∈ s3, ∑ a4 ∈ s4, ∑ a5 ∈ s5, ∑ a6 ∈ s6, ∑ z ∈ t, f a0 a1 a2 a3 a4 a5 a6 z = ∑ z ∈ t, ∑ a0 ∈ s0, ∑ a1 ∈ s1, ∑ a2 ∈ s2, ∑ a3 ∈ s3, ∑ a4 ∈ s4, ∑ a5 ∈ s5, ∑ a6 ∈ s6, f a0 a1 a2 a3 a4 a5 a6 z :=
  (Finset.sum_congr rfl fun _ _ => pull6).trans Finset.sum_comm

theorem pull8 {R : Type} [AddCommMonoid R] {s0 s1 s2 s3 s4 s5 s6 s7 t : Finset Nat} {f : Nat → Nat → Nat → Nat → Nat → Nat → Nat → Nat → Nat → R} :
    ∑ a0 ∈ s0, ∑ a1 ∈ s1, ∑ a2 ∈ s2, ∑ a3 ∈ s3, ∑ a4 ∈ s4, ∑ a5 ∈ s5, ∑ a6 ∈ s6, ∑ a7 ∈ s7, ∑ z ∈ t, f a0 a1 a2 a3 a4 a5 a6 a7 z = ∑ z ∈ t, ∑ a0 ∈ s0, ∑ a1 ∈ s1, ∑ a2 ∈ s2, ∑ a3 ∈ s3, ∑ a4 ∈ s4, ∑ a5 ∈ s5, ∑ a6 ∈ s6, ∑ a7 ∈ s7, f a0 a1 a2 a3 a4 a5 a6 a7 z :=
  (Finset.sum_congr rfl fun _ _ => pull7).trans Finset.sum_comm

theorem pull9 {R : Type} [AddCommMonoid R] {s0 s1 s2 s3 s4 s5 s6 s7 s8 t : Finset Nat} {f : Nat → Nat → Nat → Nat → Nat → Nat → Nat → Nat → Nat → Nat → R} :
    ∑ a0 ∈ s0, ∑ a1 ∈ s1, ∑ a2 ∈ s2, ∑ a3 ∈ s3, ∑ a4 ∈ s4, ∑ a5 ∈ s5, ∑ a6 ∈ s6, ∑ a7 ∈ s7, ∑ a8 ∈ s8, ∑ z ∈ t, f a0 a1 a2 a3 a4 a5 a6 a7 a8 z = ∑ z ∈ t, ∑ a0 ∈ s0, ∑ a1 ∈ s1, ∑ a2 ∈ s2, ∑ a3 ∈ s3, ∑ a4 ∈ s4, ∑ a5 ∈ s5, ∑ a6 ∈ s6, ∑ a7 ∈ s7, ∑ a8 ∈ s8, f a0 a1 a2 a3 a4 a5 a6 a7 a8 z :=
  (Finset.sum_congr rfl fun _ _ => pull8).trans Finset.sum_comm

theorem pull10 {R : Type} [AddCommMonoid R] {s0 s1 s2 s3 s4 s5 s6 s7 s8 s9 t : Finset Nat} {f : Nat → Nat → Nat → Nat → Nat → Nat → Nat → Nat → Nat → Nat → Nat → R} :
    ∑ a0 ∈ s0, ∑ a1 ∈ s1, ∑ a2 ∈ s2, ∑ a3 ∈ s3, ∑ a4 ∈ s4, ∑ a5 ∈ s5, ∑ a6 ∈ s6, ∑ a7 ∈ s7, ∑ a8 ∈ s8, ∑ a9 ∈ s9, ∑ z ∈ t, f a0 a1 a2 a3 a4 a5 a6 a7 a8 a9 z = ∑ z ∈ t, ∑ a0 ∈ s0, ∑ a1 ∈ s1, ∑ a2 ∈ s2, ∑ a3 ∈ s3, ∑ a4 ∈ s4, ∑ a5 ∈ s5, ∑ a6 ∈ s6, ∑ a7 ∈ s7, ∑ a8 ∈ s8, ∑ a9 ∈ s9, f a0 a1 a2 a3 a4 a5 a6 a7 a8 a9 z :=
  (Finset.sum_congr rfl fun _ _ => pull9).trans Finset.sum_comm

end CTL
