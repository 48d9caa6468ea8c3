import Verif.Props.TNRRounds
import Verif.Props.TNRCases

/-! Cases that meet the hypotheses of the theorems of C67. -/

namespace CTL

open Finset (range)

/-- A ring with two values per corner. -/
def stepC (a b i j : Nat) : ℚ := if a = b then 1 + (i : ℚ) else (j : ℚ)

def stepD (K : Type) [Field K] : NDArray K :=
  .build [2, 2, 2, 2] fun x => ∑ i ∈ range 2, ∑ j ∈ range 2,
    ((stepC (x.getD 0 0) (x.getD 2 0) i j * stepC (x.getD 1 0) (x.getD 3 0) i j : ℚ) : K)

def stepS (K : Type) [Field K] : NDArray K := .build [2, 1, 2, 1] fun x => ((x.getD 0 0 + 2 * x.getD 2 0 + 1 : Nat) : K)

def stepM (K : Type) [Field K] : NDArray K := ⟨[2, 1], [1, 1]⟩

theorem stepD_double : IsDouble (stepD ℝ) (fun a b i j => (stepC a b i j : ℝ)) 2 := by
  intro a ha b hb c hc d hd
  unfold stepD NDArray.m4
  rw [NDArray.get_build _ (valid4 ha hb hc hd)]
  simp

theorem stepM_norm : sNorm (fun a b i j => (stepC a b i j : ℝ)) 2 1 (stepM ℝ).m2 ≠ 0 := by
  have h0 : (stepM ℝ).m2 0 0 = 1 := rfl
  have h1 : (stepM ℝ).m2 1 0 = 1 := rfl
  simp [sNorm, sTruncated, Finset.sum_range_succ, h0, h1, stepC]
  norm_num

/-- `C67_step` and `C67_rounds` for a ring with two values per corner that is truncated to one. -/
example : ∃ r, sStep (fun a => a) Real.sqrt (stepS ℝ) (stepD ℝ)
    (∑ a ∈ range 2, ∑ b ∈ range 2, ∑ i ∈ range 2, ∑ j ∈ range 2, (stepC a b i j : ℝ) ^ 2) (stepM ℝ) = .ok r ∧ r.shape = [2, 1] := by
  obtain ⟨r, e, _, h, _⟩ := C67_step (n := 2) (m := 1) (S := stepS ℝ) (s := stepM ℝ) (pinv := fun a => a) (sqrt := Real.sqrt) (fun _ h => h)
    (fun x hx => Real.mul_self_sqrt hx) rfl rfl stepD_double rfl rfl rfl stepM_norm
  exact ⟨r, e, h⟩

example (rounds : Nat) : ∃ r, sRounds (fun a => a) Real.sqrt (stepS ℝ) (stepD ℝ)
    (∑ a ∈ range 2, ∑ b ∈ range 2, ∑ i ∈ range 2, ∑ j ∈ range 2, (stepC a b i j : ℝ) ^ 2) rounds (stepM ℝ) = .ok r ∧
    sError (stepS ℝ).m4 (fun a b i j => (stepC a b i j : ℝ)) 2 1 (∑ a ∈ range 2, ∑ b ∈ range 2, ∑ i ∈ range 2, ∑ j ∈ range 2, (stepC a b i j : ℝ) ^ 2) r.m2 ≤
    sError (stepS ℝ).m4 (fun a b i j => (stepC a b i j : ℝ)) 2 1 (∑ a ∈ range 2, ∑ b ∈ range 2, ∑ i ∈ range 2, ∑ j ∈ range 2, (stepC a b i j : ℝ) ^ 2) (stepM ℝ).m2 := by
  obtain ⟨r, e, _, _, _, h, _⟩ := C67_rounds (n := 2) (m := 1) (S := stepS ℝ) (pinv := fun a => a) (sqrt := Real.sqrt) (fun _ h => h)
    (fun x hx => Real.mul_self_sqrt hx) rfl rfl stepD_double rfl (s := stepM ℝ) rfl rfl stepM_norm rounds
  exact ⟨r, e, h⟩

/-- One comparison of the errors of two matrices, as in the loop over the candidates. -/
example : (do
    let e ← sErrNew (stepS ℚ) (stepD ℚ) ⟨[2, 1], [1, 2]⟩ 40
    let f ← sErrNew (stepS ℚ) (stepD ℚ) ⟨[2, 1], [1, -1]⟩ 40
    Except.ok (e.le f)) = Except.ok (ε := PyErr) true := by decide +kernel

/-- `C67_rescale` for the same ring. -/
example : ∃ t, sRescale (fun x => Real.sqrt (Real.sqrt (Real.sqrt x))) (NDArray.build [2, 2, 2, 2] fun _ => (1 : ℝ)) (stepM ℝ) = .ok t ∧
    t.shape = [2, 1] := by
  have hC : ∀ a < 2, ∀ b < 2, ∀ i < 2, ∀ j < 2, (NDArray.build [2, 2, 2, 2] fun _ => (1 : ℝ)).m4 a b i j = 1 :=
    fun a ha b hb i hi j hj => NDArray.get_build _ (valid4 ha hb hi hj)
  have h0 : (stepM ℝ).m2 0 0 = 1 := rfl
  have h1 : (stepM ℝ).m2 1 0 = 1 := rfl
  obtain ⟨t, c, e, h, _⟩ := C67_rescale (n := 2) (m := 1) (s := stepM ℝ) (root8 := fun x => Real.sqrt (Real.sqrt (Real.sqrt x)))
    (fun x hx => by
      rw [show (8 : Nat) = 2 * 2 * 2 from rfl, pow_mul, pow_mul, Real.sq_sqrt (Real.sqrt_nonneg _), Real.sq_sqrt (Real.sqrt_nonneg _),
        Real.sq_sqrt hx]) (C := NDArray.build [2, 2, 2, 2] fun _ => (1 : ℝ)) rfl rfl
    (by simp [sAllFour, Finset.sum_range_succ, h0, h1, hC])
    (by simp [Finset.sum_range_succ, hC])
  exact ⟨t, e, h⟩

/-- `C67_first_rounds` for the site with all dimensions 1, where the ring is known to differ from 0. -/
example (rounds : Nat) : ∃ (p : RGParams ℝ) (r : TNRStart ℝ) (D t t' : NDArray ℝ), TNRStarted p ⟨[1, 1, 1, 1], [2]⟩ 1 1 1 1 r ∧
    sRounds (fun a => a) Real.sqrt ⟨[1, 1, 1, 1], [3]⟩ D r.sp2exact rounds ⟨[1, 1], [1]⟩ = .ok t ∧
    sRounds (fun a => a) Real.sqrt ⟨[1, 1, 1, 1], [3]⟩ D r.sp2exact (rounds + 1) ⟨[1, 1], [1]⟩ = .ok t' := by
  obtain ⟨eigh, he⟩ := exists_eigh
  obtain ⟨k, r, _, -, h⟩ := C66_start ⟨fun _ _ => 0, id, fun _ => 2, eigh, 1 / 10 ^ 10⟩ he Reachable.empty.wf
    (A := ⟨[1, 1, 1, 1], [2]⟩) (H := 1) (V := 1) rfl rfl (by decide) (by decide) 1
  have hk : k = 1 := by
    by_contra hne
    have := h.pos
    have o1 := h.orth 0 (by omega) 0 (by omega)
    have o2 := h.orth 1 (by omega) 1 (by omega)
    have o3 := h.orth 0 (by omega) 1 (by omega)
    simp at o1 o2 o3
    rcases o3 with e | e <;> simp [e] at o1 o2
  subst hk
  have o := h.orth 0 (by omega) 0 (by omega)
  simp only [Nat.mul_one, Finset.sum_range_one, if_true] at o
  have hq : r.qTemp.get [0, 0] ≠ 0 := fun e => by simp [e] at o
  have hA : (⟨[1, 1, 1, 1], [2]⟩ : NDArray ℝ).get [0, 0, 0, 0] = 2 := rfl
  have hs : (⟨[1, 1], [1]⟩ : NDArray ℝ).m2 0 0 = 1 := rfl
  obtain ⟨D, t, t', _, e1, _, e2, _⟩ := C67_first_rounds h id (pinv := fun a => a) (sqrt := Real.sqrt) (fun _ h => h)
    (fun x hx => Real.mul_self_sqrt hx) (S := ⟨[1, 1, 1, 1], [3]⟩) (m := 1) rfl (s := ⟨[1, 1], [1]⟩) rfl rfl
    (by simp [sNorm, sTruncated, tnrRing, tnrQA, hs, hA, hq]) rounds
  exact ⟨_, r, D, t, t', h, e1, e2⟩

end CTL
