import Verif.Lemmas.SolveEnv
import Verif.Lemmas.Torus
import Verif.Lemmas.SumLegs

/-! Merging pairs of sites with the projectors of their environment. -/

namespace CTL
variable {K : Type}

open Finset (range)

theorem sum_pairs [AddCommMonoid K] (H : Nat) (f : Nat → Nat → K) :
    ∑ x ∈ range (H * H), f (x / H) (x % H) = ∑ x1 ∈ range H, ∑ x2 ∈ range H, f x1 x2 := by
  rw [sum_range_mul']
  refine Finset.sum_congr rfl fun x1 h1 => Finset.sum_congr rfl fun x2 h2 => ?_
  have h2 := Finset.mem_range.mp h2
  rw [Nat.add_comm, Nat.add_mul_div_right _ _ (by omega), Nat.div_eq_of_lt h2, Nat.add_mul_mod_self_right, Nat.mod_eq_of_lt h2,
    Nat.zero_add]

theorem envLeft_symm [CommSemiring K] (V H : Nat) (A : Nat → Nat → Nat → Nat → K) (x y : Nat) : envLeft V H A x y = envLeft V H A y x := by
  unfold envLeft
  refine Finset.sum_congr rfl fun _ _ => Finset.sum_congr rfl fun _ _ => Finset.sum_congr rfl fun _ _ =>
    Finset.sum_congr rfl fun _ _ => mul_comm _ _

theorem envRight_symm [CommSemiring K] (V H : Nat) (A : Nat → Nat → Nat → Nat → K) (x y : Nat) : envRight V H A x y = envRight V H A y x := by
  unfold envRight
  refine Finset.sum_congr rfl fun _ _ => Finset.sum_congr rfl fun _ _ => Finset.sum_congr rfl fun _ _ =>
    Finset.sum_congr rfl fun _ _ => mul_comm _ _

theorem envMatrix_get [CommSemiring K] (V H : Nat) (A : Nat → Nat → Nat → Nat → K) (d : RGDir) {x y : Nat} (hx : x < envSize V H d)
    (hy : y < envSize V H d) : (envMatrix V H A d).get [x, y] = envEntry V H A d x y := by
  unfold envMatrix
  rw [NDArray.get_build _ (validIdx_cons.mpr ⟨hx, validIdx_cons.mpr ⟨hy, validIdx_nil⟩⟩)]
  rfl

variable [Field K] [LinearOrder K] {p : RGParams K}

theorem envMatrix_eigh (he : ExactEigh p.eigh) (V H : Nat) (A : Nat → Nat → Nat → Nat → K) (d : RGDir) :
    IsEigh (envMatrix V H A d) (envSize V H d) (p.eigh (envMatrix V H A d)) := by
  refine he _ _ (NDArray.build_wf _ _) rfl fun i hi j hj => ?_
  rw [envMatrix_get V H A d hi hj, envMatrix_get V H A d hj hi]
  cases d
  · exact envLeft_symm ..
  · exact envRight_symm ..
  · exact envLeft_symm ..
  · exact envRight_symm ..

variable [IsStrictOrderedRing K]

theorem kept_left {V H : Nat} {A : Nat → Nat → Nat → Nat → K} {m : NDArray K} (h : IsEigh m (H * H) (p.eigh m)) {chi : Nat}
    (hl : Lossless p m chi) (hm : ∀ x < H * H, ∀ y < H * H, m.get [x, y] = envLeft V H A x y) :
    ∀ u < V, ∀ y1 < H, ∀ y2 < H, ∀ d < V, ∀ r1 < H, ∀ r2 < H,
      ∑ x1 ∈ range H, ∑ x2 ∈ range H, (∑ o ∈ range (prjCols p m chi (H * H)),
        prjAt H (solveEnv p m chi).1 x1 x2 o * prjAt H (solveEnv p m chi).1 y1 y2 o) * stackedN V A u x1 x2 d r1 r2 =
        stackedN V A u y1 y2 d r1 r2 := by
  intro u hu y1 hy1 y2 hy2 d hd r1 hr1 r2 hr2
  have hy : y1 * H + y2 < H * H := by nlinarith
  have key := solveEnv_keeps h hl ((range V ×ˢ range V) ×ˢ (range H ×ˢ range H))
    (fun x s => stackedN V A s.1.1 (x / H) (x % H) s.1.2 s.2.1 s.2.2) (fun x hx y hy => by
      rw [hm x hx y hy]
      unfold envLeft
      simp only [Finset.sum_product]) (y1 * H + y2) hy ((u, d), (r1, r2)) (by simp [hu, hd, hr1, hr2])
  simp only at key
  rw [show (y1 * H + y2) / H = y1 by rw [Nat.add_comm, Nat.add_mul_div_right _ _ (by omega), Nat.div_eq_of_lt hy2, Nat.zero_add],
    show (y1 * H + y2) % H = y2 by rw [Nat.add_comm, Nat.add_mul_mod_self_right, Nat.mod_eq_of_lt hy2]] at key
  rw [← key, ← sum_pairs H fun x1 x2 => (∑ o ∈ range (prjCols p m chi (H * H)),
        prjAt H (solveEnv p m chi).1 x1 x2 o * prjAt H (solveEnv p m chi).1 y1 y2 o) * stackedN V A u x1 x2 d r1 r2]
  refine Finset.sum_congr rfl fun x _ => ?_
  unfold prjAt
  rw [Nat.div_add_mod']

theorem kept_right {V H : Nat} {A : Nat → Nat → Nat → Nat → K} {m : NDArray K} (h : IsEigh m (H * H) (p.eigh m)) {chi : Nat}
    (hl : Lossless p m chi) (hm : ∀ x < H * H, ∀ y < H * H, m.get [x, y] = envRight V H A x y) :
    ∀ u < V, ∀ l1 < H, ∀ l2 < H, ∀ d < V, ∀ x1 < H, ∀ x2 < H,
      ∑ y1 ∈ range H, ∑ y2 ∈ range H, (∑ o ∈ range (prjCols p m chi (H * H)),
        prjAt H (solveEnv p m chi).1 x1 x2 o * prjAt H (solveEnv p m chi).1 y1 y2 o) * stackedN V A u l1 l2 d y1 y2 =
        stackedN V A u l1 l2 d x1 x2 := by
  intro u hu l1 hl1 l2 hl2 d hd y1 hy1 y2 hy2
  have hy : y1 * H + y2 < H * H := by nlinarith
  have key := solveEnv_keeps h hl ((range V ×ˢ range V) ×ˢ (range H ×ˢ range H))
    (fun x s => stackedN V A s.1.1 s.2.1 s.2.2 s.1.2 (x / H) (x % H)) (fun x hx y hy => by
      rw [hm x hx y hy]
      unfold envRight
      simp only [Finset.sum_product]) (y1 * H + y2) hy ((u, d), (l1, l2)) (by simp [hu, hd, hl1, hl2])
  simp only at key
  rw [show (y1 * H + y2) / H = y1 by rw [Nat.add_comm, Nat.add_mul_div_right _ _ (by omega), Nat.div_eq_of_lt hy2, Nat.zero_add],
    show (y1 * H + y2) % H = y2 by rw [Nat.add_comm, Nat.add_mul_mod_self_right, Nat.mod_eq_of_lt hy2]] at key
  rw [← key, ← sum_pairs H fun x1 x2 => (∑ o ∈ range (prjCols p m chi (H * H)),
        prjAt H (solveEnv p m chi).1 y1 y2 o * prjAt H (solveEnv p m chi).1 x1 x2 o) * stackedN V A u l1 l2 d x1 x2]
  refine Finset.sum_congr rfl fun x _ => ?_
  unfold prjAt
  rw [Nat.div_add_mod']
  congr 1
  exact Finset.sum_congr rfl fun o _ => mul_comm _ _

/-! ### Errors -/

omit [LinearOrder K] [IsStrictOrderedRing K] in
theorem env_gram (V H : Nat) (A : Nat → Nat → Nat → Nat → K) (d : RGDir) :
    ∃ (S : Finset ((Nat × Nat) × (Nat × Nat))) (N : Nat → (Nat × Nat) × (Nat × Nat) → K),
      ∀ x < envSize V H d, ∀ y < envSize V H d, (envMatrix V H A d).get [x, y] = ∑ s ∈ S, N x s * N y s := by
  have left : ∀ (V H : Nat) (A : Nat → Nat → Nat → Nat → K), ∃ (S : Finset ((Nat × Nat) × (Nat × Nat)))
      (N : Nat → (Nat × Nat) × (Nat × Nat) → K), ∀ x y, envLeft V H A x y = ∑ s ∈ S, N x s * N y s := fun V H A =>
    ⟨(range V ×ˢ range V) ×ˢ (range H ×ˢ range H), fun x s => stackedN V A s.1.1 (x / H) (x % H) s.1.2 s.2.1 s.2.2, fun x y => by
      unfold envLeft
      simp only [Finset.sum_product]⟩
  have right : ∀ (V H : Nat) (A : Nat → Nat → Nat → Nat → K), ∃ (S : Finset ((Nat × Nat) × (Nat × Nat)))
      (N : Nat → (Nat × Nat) × (Nat × Nat) → K), ∀ x y, envRight V H A x y = ∑ s ∈ S, N x s * N y s := fun V H A =>
    ⟨(range V ×ˢ range V) ×ˢ (range H ×ˢ range H), fun x s => stackedN V A s.1.1 s.2.1 s.2.2 s.1.2 (x / H) (x % H), fun x y => by
      unfold envRight
      simp only [Finset.sum_product]⟩
  have key : ∃ (S : Finset ((Nat × Nat) × (Nat × Nat))) (N : Nat → (Nat × Nat) × (Nat × Nat) → K),
      ∀ x y, envEntry V H A d x y = ∑ s ∈ S, N x s * N y s := by
    cases d
    · exact left _ _ _
    · exact right _ _ _
    · exact left _ _ _
    · exact right _ _ _
  obtain ⟨S, N, h⟩ := key
  exact ⟨S, N, fun x hx y hy => by rw [envMatrix_get V H A d hx hy, h]⟩

theorem eig_nonneg {m : NDArray K} {n : Nat} (h : IsEigh m n (p.eigh m)) {ι : Type} (S : Finset ι) (N : Nat → ι → K)
    (hm : ∀ x < n, ∀ y < n, m.get [x, y] = ∑ s ∈ S, N x s * N y s) : ∀ x ∈ (p.eigh m).1, 0 ≤ x := by
  intro x hx
  obtain ⟨j, hj, rfl⟩ := List.mem_iff_getElem.mp hx
  have hj' : j < n := h.len ▸ hj
  have e : (p.eigh m).1[j] = (p.eigh m).1.getD j 0 := by
    rw [List.getD_eq_getElem?_getD, List.getElem?_eq_getElem hj, Option.getD_some]
  rw [e]
  have key : (p.eigh m).1.getD j 0 = ∑ s ∈ S, (∑ x ∈ range n, (p.eigh m).2.get [x, j] * N x s) * (∑ x ∈ range n, (p.eigh m).2.get [x, j] * N x s) := by
    calc
      _ = ∑ x ∈ range n, (p.eigh m).2.get [x, j] * ((p.eigh m).1.getD j 0 * (p.eigh m).2.get [x, j]) := by
        have := h.orth j hj' j hj'
        rw [if_pos rfl] at this
        conv_lhs => rw [← mul_one ((p.eigh m).1.getD j 0), ← this, Finset.mul_sum]
        exact Finset.sum_congr rfl fun x _ => by ring
      _ = ∑ x ∈ range n, (p.eigh m).2.get [x, j] * ∑ y ∈ range n, (∑ s ∈ S, N x s * N y s) * (p.eigh m).2.get [y, j] := by
        refine Finset.sum_congr rfl fun x hx => ?_
        have hx := Finset.mem_range.mp hx
        rw [← h.eig x hx j hj']
        congr 1
        exact Finset.sum_congr rfl fun y hy => by rw [hm x hx y (Finset.mem_range.mp hy)]
      _ = ∑ s ∈ S, ∑ x ∈ range n, ∑ y ∈ range n, (p.eigh m).2.get [x, j] * N x s * ((p.eigh m).2.get [y, j] * N y s) := by
        rw [Finset.sum_comm]
        refine Finset.sum_congr rfl fun x _ => ?_
        rw [Finset.sum_comm, Finset.mul_sum]
        refine Finset.sum_congr rfl fun y _ => ?_
        rw [Finset.sum_mul, Finset.mul_sum]
        exact Finset.sum_congr rfl fun s _ => by ring
      _ = _ := by
        refine Finset.sum_congr rfl fun s _ => ?_
        rw [Finset.sum_mul_sum]
  rw [key]
  exact Finset.sum_nonneg fun s _ => mul_self_nonneg _

theorem solveEnv_error_nonneg {m : NDArray K} (h : ∀ x ∈ (p.eigh m).1, 0 ≤ x) (chi : Nat) : 0 ≤ (solveEnv p m chi).2 := by
  unfold solveEnv
  simp only
  split
  · exact le_rfl
  · have h1 : (lastN (p.eigh m).1 chi).sum ≤ (p.eigh m).1.sum := by
      unfold lastN
      split
      · exact le_rfl
      · conv_rhs => rw [← List.take_append_drop ((p.eigh m).1.length - chi) (p.eigh m).1, List.sum_append]
        exact le_add_of_nonneg_left (List.sum_nonneg fun x hx => h x (List.mem_of_mem_take hx))
    have h2 : 0 ≤ (p.eigh m).1.sum := List.sum_nonneg h
    exact sub_nonneg.mpr (div_le_one_of_le₀ h1 h2)

theorem env_error_nonneg (he : ExactEigh p.eigh) (V H : Nat) (A : Nat → Nat → Nat → Nat → K) (d : RGDir) (chi : Nat) :
    0 ≤ (solveEnv p (envMatrix V H A d) chi).2 := by
  obtain ⟨S, N, h⟩ := env_gram V H A d
  exact solveEnv_error_nonneg (eig_nonneg (envMatrix_eigh he V H A d) S N h) chi

end CTL
