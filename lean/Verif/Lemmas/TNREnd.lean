import Verif.Model.TNREnd
import Verif.Props.TNREnv
import Verif.Lemmas.Exchange

/-! Sums over numbered indices, Gram matrices and the isometries taken from them. -/

namespace CTL

open Finset (range)
variable {K : Type}

theorem sumOver_mul_left [CommSemiring K] (ps : List (Nat × Nat)) (f g : (Nat → Nat) → K)
    (hf : ∀ p ∈ ps, ∀ t i, f (setIdx t p.1 i) = f t) (t : Nat → Nat) :
    sumOver ps (fun t => f t * g t) t = f t * sumOver ps g t := by
  induction ps generalizing t with
  | nil => rfl
  | cons p ps ih =>
    unfold sumOver
    show ∑ i ∈ range p.2, _ = f t * ∑ i ∈ range p.2, _
    rw [Finset.mul_sum]
    refine Finset.sum_congr rfl fun i _ => ?_
    rw [ih (fun p hp => hf p (List.mem_cons_of_mem _ hp)), hf p List.mem_cons_self]

theorem sumOver_congr [AddCommMonoid K] (ps : List (Nat × Nat)) {f g : (Nat → Nat) → K} (h : ∀ t, f t = g t) (t : Nat → Nat) :
    sumOver ps f t = sumOver ps g t := by
  rw [funext h]

theorem sumOver_indep [AddCommMonoid K] (ps : List (Nat × Nat)) (g : (Nat → Nat) → K) {n : Nat}
    (hg : ∀ t i, g (setIdx t n i) = g t) (hn : ∀ p ∈ ps, p.1 ≠ n) (t : Nat → Nat) (i : Nat) :
    sumOver ps g (setIdx t n i) = sumOver ps g t := by
  induction ps generalizing t with
  | nil => exact hg t i
  | cons p ps ih =>
    unfold sumOver
    show ∑ j ∈ range p.2, _ = ∑ j ∈ range p.2, _
    refine Finset.sum_congr rfl fun j _ => ?_
    have : setIdx (setIdx t n i) p.1 j = setIdx (setIdx t p.1 j) n i := by
      funext m
      unfold setIdx
      have := hn p List.mem_cons_self
      by_cases h1 : m = p.1 <;> by_cases h2 : m = n <;> simp [h1, h2]
      · omega
      · intro h; omega
      · intro h; omega
    rw [this]
    exact ih (fun p hp => hn p (List.mem_cons_of_mem _ hp)) _

/-- The sum over two sets of indices of a product whose factors depend on one of them each. -/
theorem sumOver_mul [CommSemiring K] (L R : List (Nat × Nat)) (f g : (Nat → Nat) → K)
    (hf : ∀ p ∈ R, ∀ t i, f (setIdx t p.1 i) = f t) (hg : ∀ p ∈ L, ∀ t i, g (setIdx t p.1 i) = g t)
    (hd : ∀ p ∈ L, ∀ q ∈ R, q.1 ≠ p.1) (t : Nat → Nat) :
    sumOver L (fun t => sumOver R (fun t => f t * g t) t) t = sumOver L f t * sumOver R g t := by
  have e : ∀ t, sumOver R (fun t => f t * g t) t = sumOver R g t * f t := fun t => by
    rw [sumOver_mul_left R f g hf, mul_comm]
  rw [sumOver_congr L e, sumOver_mul_left L _ f (fun p hp t i => sumOver_indep R g (hg p hp) (hd p hp) t i), mul_comm]

section
variable [Field K] [LinearOrder K] [IsStrictOrderedRing K]

/-- A sum of products of the same function at two places has no negative values as a quadratic form. -/
theorem sumOver_gram {N : Nat} (c : Nat → K) (ps : List (Nat × Nat)) (G : (Nat → Nat) → Nat → K) (t : Nat → Nat) :
    0 ≤ ∑ i ∈ range N, ∑ j ∈ range N, c i * c j * sumOver ps (fun t => G t i * G t j) t := by
  induction ps generalizing t with
  | nil =>
    have e : ∑ i ∈ range N, ∑ j ∈ range N, c i * c j * (G t i * G t j) = (∑ i ∈ range N, c i * G t i) * ∑ j ∈ range N, c j * G t j := by
      rw [Finset.sum_mul_sum]
      exact Finset.sum_congr rfl fun x _ => Finset.sum_congr rfl fun y _ => by ring
    exact le_of_le_of_eq (mul_self_nonneg _) e.symm
  | cons p ps ih =>
    have e : ∑ i ∈ range N, ∑ j ∈ range N, c i * c j * sumOver (p :: ps) (fun t => G t i * G t j) t =
        ∑ z ∈ range p.2, ∑ i ∈ range N, ∑ j ∈ range N, c i * c j * sumOver ps (fun t => G t i * G t j) (setIdx t p.1 z) := by
      rw [Finset.sum_comm (s := range p.2)]
      refine Finset.sum_congr rfl fun x _ => ?_
      rw [Finset.sum_comm (s := range p.2)]
      refine Finset.sum_congr rfl fun y _ => ?_
      rw [← Finset.mul_sum]
      rfl
    rw [e]
    exact Finset.sum_nonneg fun z _ => ih _

/-- What `solveEnv` takes from a symmetric matrix without negative values. -/
theorem projector_of_psd {p : RGParams K} (he : ExactEigh p.eigh) (chi : Nat) {env : NDArray K} {n : Nat} (we : env.WF)
    (hs : env.shape = [n, n]) (sym : ∀ i < n, ∀ j < n, env.get [i, j] = env.get [j, i])
    (psd : ∀ c : Nat → K, 0 ≤ ∑ i ∈ range n, ∑ j ∈ range n, c i * c j * env.get [i, j]) :
    (∀ x ∈ (p.eigh env).1, 0 ≤ x) ∧ ∃ k, k ≤ n ∧ k = (if envKept p env chi = 0 then n else envKept p env chi) ∧
      (∀ x < n, ∀ o < k, ∑ y ∈ range n, env.get [x, y] * (solveEnv p env chi).1.get [y, o] =
        (p.eigh env).1.getD (n - 1 - o) 0 * (solveEnv p env chi).1.get [x, o]) ∧ (solveEnv p env chi).1.WF ∧ (solveEnv p env chi).1.shape = [n, k] ∧
      (∀ i < k, ∀ j < k, ∑ x ∈ range n, (solveEnv p env chi).1.get [x, i] * (solveEnv p env chi).1.get [x, j] = if i = j then 1 else 0) ∧
      spErr env (solveEnv p env chi).1 = .ok (((p.eigh env).1.take (n - k)).sum / (p.eigh env).1.sum) := by
  have eg := he env n we hs sym
  have pos : ∀ t < n, 0 ≤ (p.eigh env).1.getD t 0 := by
    intro t ht
    have := psd fun i => (p.eigh env).2.get [i, t]
    refine le_of_le_of_eq this ?_
    have e : ∀ i ∈ range n, ∑ j ∈ range n, (p.eigh env).2.get [i, t] * (p.eigh env).2.get [j, t] * env.get [i, j] =
        (p.eigh env).1.getD t 0 * ((p.eigh env).2.get [i, t] * (p.eigh env).2.get [i, t]) := by
      intro i hi
      have := eg.eig i (Finset.mem_range.mp hi) t ht
      rw [mul_left_comm, ← this, Finset.mul_sum]
      exact Finset.sum_congr rfl fun j _ => by ring
    rw [Finset.sum_congr rfl e, ← Finset.mul_sum, eg.orth t ht t ht, if_pos rfl, mul_one]
  have posL : ∀ x ∈ (p.eigh env).1, 0 ≤ x := by
    intro x hx
    obtain ⟨t, ht, rfl⟩ := List.getElem_of_mem hx
    have := pos t (by rw [← eg.len]; exact ht)
    rwa [List.getD_eq_getElem?_getD, List.getElem?_eq_getElem ht] at this
  obtain ⟨k, hk, hv, w, sh, orth, eig⟩ := C50_solveEnv eg chi
  obtain ⟨k', hk', sh', herr⟩ := C66_spErr eg hs chi
  have : k' = k := by
    rw [sh] at sh'
    simpa using sh'.symm
  subst this
  refine ⟨posL, k', hk, hv, eig, w, sh, orth, ?_⟩
  rw [herr, abs_of_nonneg]
  exact div_nonneg (List.sum_nonneg fun x hx => posL x (List.mem_of_mem_take hx)) (List.sum_nonneg posL)

end

end CTL
