import Verif.Props.TNR
import Verif.Props.TNRUpdate
import Verif.Lemmas.QEnv

/-! C66: the environment of the isometry `q` in `TNR.py`. -/

namespace CTL

open Finset (range)

section
variable {R : Type} [CommSemiring R] (rand : List Nat → List Nat → R) (cast : R → R)

/-- C66: contracted with eight times the same site, the network of the environment returns the scalar products of the half
networks `qHalf`. -/
theorem C66_qEnv {st : Store} {A : Tensor R} (wf : WFStore st) (l0 : HasLabels st A ["u", "l", "d", "r"])
    (hv : A.dimOf st "u" = A.dimOf st "d") (hh : A.dimOf st "l" = A.dimOf st "r") :
    ∃ M : LArr R, Computes rand cast EvenblyTNRQEnvFTN st
        [("uul", A), ("uur", A), ("udl", A), ("udr", A), ("dul", A), ("dur", A), ("ddl", A), ("ddr", A)] M ∧
      M = evenblyArr st A A A A A A A A ∧
      M.labels = ["1", "2"] ∧ M.dim "1" = A.dimOf st "l" * A.dimOf st "u" ∧ M.dim "2" = A.dimOf st "l" * A.dimOf st "u" ∧
      ∀ τ, M.val τ = ∑ e ∈ range (A.dimOf st "u"), ∑ b ∈ range (A.dimOf st "l"), ∑ m ∈ range (A.dimOf st "u"),
        ∑ k ∈ range (A.dimOf st "l"), ∑ j ∈ range (A.dimOf st "u"), ∑ i ∈ range (A.dimOf st "l"),
          qHalf (fun u l d r => A.at st [("u", u), ("l", l), ("d", d), ("r", r)]) (A.dimOf st "u") (A.dimOf st "l")
            (τ "1" % A.dimOf st "u") (τ "1" / A.dimOf st "u") e b m k j i *
          qHalf (fun u l d r => A.at st [("u", u), ("l", l), ("d", d), ("r", r)]) (A.dimOf st "u") (A.dimOf st "l")
            (τ "2" % A.dimOf st "u") (τ "2" / A.dimOf st "u") e b m k j i := by
  refine ⟨_, C49_evenbly rand cast wf l0 l0 l0 l0 l0 l0 l0 l0 rfl rfl rfl rfl rfl rfl rfl rfl hv hv rfl hv.symm rfl hv.symm,
    rfl, rfl, rfl, rfl, fun τ => ?_⟩
  have := qEnv_sum (fun u l d r => A.at st [("u", u), ("l", l), ("d", d), ("r", r)]) (A.dimOf st "u") (A.dimOf st "l")
    (τ "1" % A.dimOf st "u") (τ "1" / A.dimOf st "u") (τ "2" % A.dimOf st "u") (τ "2" / A.dimOf st "u")
  rw [← this]
  unfold evenblyArr
  dsimp only
  rw [← hv, ← hh]

end

section
variable {K : Type} [Field K] [LinearOrder K] [IsStrictOrderedRing K]

theorem gram_nonneg {N : Nat} (c : Nat → K) (F : Nat → Nat → Nat → Nat → Nat → Nat → Nat → K) (V H : Nat) :
    0 ≤ ∑ x ∈ range N, ∑ y ∈ range N, c x * c y * ∑ e ∈ range V, ∑ b ∈ range H, ∑ m ∈ range V, ∑ k ∈ range H, ∑ j ∈ range V,
      ∑ i ∈ range H, F x e b m k j i * F y e b m k j i := by
  have pull : ∀ (n : Nat) (G : Nat → Nat → Nat → K), (∀ z, 0 ≤ ∑ x ∈ range N, ∑ y ∈ range N, c x * c y * G z x y) →
      0 ≤ ∑ x ∈ range N, ∑ y ∈ range N, c x * c y * ∑ z ∈ range n, G z x y := by
    intro n G h
    have e : ∑ x ∈ range N, ∑ y ∈ range N, c x * c y * ∑ z ∈ range n, G z x y =
        ∑ z ∈ range n, ∑ x ∈ range N, ∑ y ∈ range N, c x * c y * G z x y := by
      rw [Finset.sum_comm (s := range n)]
      refine Finset.sum_congr rfl fun x _ => ?_
      rw [Finset.sum_comm (s := range n)]
      refine Finset.sum_congr rfl fun y _ => ?_
      rw [Finset.mul_sum]
    rw [e]
    exact Finset.sum_nonneg fun z _ => h z
  refine pull _ _ fun e => pull _ _ fun b => pull _ _ fun m => pull _ _ fun k => pull _ _ fun j => pull _ _ fun i => ?_
  have e : ∑ x ∈ range N, ∑ y ∈ range N, c x * c y * (F x e b m k j i * F y e b m k j i) =
      (∑ x ∈ range N, c x * F x e b m k j i) * ∑ y ∈ range N, c y * F y e b m k j i := by
    rw [Finset.sum_mul_sum]
    exact Finset.sum_congr rfl fun x _ => Finset.sum_congr rfl fun y _ => by ring
  rw [e]
  exact mul_self_nonneg _

/-- The labels `1` and `2` of a matrix. -/
def rowCol (i j : Nat) (z : String) : Nat := if z = "1" then i else j

/-- C66: the environment is a symmetric matrix without negative eigenvalues, as `eigh` and the projector require; the
isometry taken from it has orthonormal columns, and the error reported is the share of the eigenvalues cut off. -/
theorem C66_q (rand : List Nat → List Nat → K) (cast : K → K) {st : Store} {A : Tensor K} (wf : WFStore st)
    (l0 : HasLabels st A ["u", "l", "d", "r"]) (hv : A.dimOf st "u" = A.dimOf st "d") (hh : A.dimOf st "l" = A.dimOf st "r")
    (p : RGParams K) (he : ExactEigh p.eigh) (chi : Nat) :
    ∃ M : LArr K, Computes rand cast EvenblyTNRQEnvFTN st
        [("uul", A), ("uur", A), ("udl", A), ("udr", A), ("dul", A), ("dur", A), ("ddl", A), ("ddr", A)] M ∧
      M = evenblyArr st A A A A A A A A ∧
      M.labels = ["1", "2"] ∧ M.dim "1" = A.dimOf st "l" * A.dimOf st "u" ∧ M.dim "2" = A.dimOf st "l" * A.dimOf st "u" ∧
      ∀ env : NDArray K, env.WF → env.shape = [M.dim "1", M.dim "2"] →
        (∀ i < M.dim "1", ∀ j < M.dim "2", env.get [i, j] = M.val (rowCol i j)) →
        (∀ i < M.dim "1", ∀ j < M.dim "1", env.get [i, j] = env.get [j, i]) ∧
        (∀ c : Nat → K, 0 ≤ ∑ i ∈ range (M.dim "1"), ∑ j ∈ range (M.dim "1"), c i * c j * env.get [i, j]) ∧
        (∀ x ∈ (p.eigh env).1, 0 ≤ x) ∧
        ∃ k, (solveEnv p env chi).1.shape = [M.dim "1", k] ∧ k ≤ M.dim "1" ∧
          (∀ i < k, ∀ j < k, ∑ x ∈ range (M.dim "1"), (solveEnv p env chi).1.get [x, i] * (solveEnv p env chi).1.get [x, j] =
            if i = j then 1 else 0) ∧
          spErr env (solveEnv p env chi).1 = .ok (((p.eigh env).1.take (M.dim "1" - k)).sum / (p.eigh env).1.sum) := by
  obtain ⟨M, hM, hE, hl, h1, h2, hval⟩ := C66_qEnv rand cast wf l0 hv hh
  refine ⟨M, hM, hE, hl, h1, h2, fun env we hs hg => ?_⟩
  have h12 : M.dim "2" = M.dim "1" := h2.trans h1.symm
  rw [h12] at hs hg
  have sym : ∀ i < M.dim "1", ∀ j < M.dim "1", env.get [i, j] = env.get [j, i] := by
    intro i hi j hj
    rw [hg i hi j hj, hg j hj i hi, hval, hval]
    refine Finset.sum_congr rfl fun e _ => Finset.sum_congr rfl fun b _ => Finset.sum_congr rfl fun m _ =>
      Finset.sum_congr rfl fun k _ => Finset.sum_congr rfl fun j _ => Finset.sum_congr rfl fun i _ => mul_comm _ _
  have psd : ∀ c : Nat → K, 0 ≤ ∑ i ∈ range (M.dim "1"), ∑ j ∈ range (M.dim "1"), c i * c j * env.get [i, j] := by
    intro c
    have := gram_nonneg (N := M.dim "1") c (fun x => qHalf (fun u l d r => A.at st [("u", u), ("l", l), ("d", d), ("r", r)])
      (A.dimOf st "u") (A.dimOf st "l") (x % A.dimOf st "u") (x / A.dimOf st "u")) (A.dimOf st "u") (A.dimOf st "l")
    refine le_of_le_of_eq this (Finset.sum_congr rfl fun i hi => Finset.sum_congr rfl fun j hj => ?_)
    rw [hg i (Finset.mem_range.mp hi) j (Finset.mem_range.mp hj), hval]
    rfl
  have eg := he env (M.dim "1") we hs sym
  have pos : ∀ t < M.dim "1", 0 ≤ (p.eigh env).1.getD t 0 := by
    intro t ht
    have := psd fun i => (p.eigh env).2.get [i, t]
    refine le_of_le_of_eq this ?_
    have e : ∀ i ∈ range (M.dim "1"), ∑ j ∈ range (M.dim "1"), (p.eigh env).2.get [i, t] * (p.eigh env).2.get [j, t] * env.get [i, j] =
        (p.eigh env).1.getD t 0 * ((p.eigh env).2.get [i, t] * (p.eigh env).2.get [i, t]) := by
      intro i hi
      have := eg.eig i (Finset.mem_range.mp hi) t ht
      rw [mul_left_comm, ← this, Finset.mul_sum]
      exact Finset.sum_congr rfl fun j _ => by ring
    rw [Finset.sum_congr rfl e, ← Finset.mul_sum, eg.orth t ht t ht, if_pos rfl, mul_one]
  have posL : ∀ x ∈ (p.eigh env).1, 0 ≤ x := by
    intro x hx
    obtain ⟨t, ht, rfl⟩ := List.getElem_of_mem hx
    have := pos t (by rw [← eg.len]; exact ht)
    rwa [List.getD_eq_getElem?_getD, List.getElem?_eq_getElem ht] at this
  obtain ⟨k, hk, _, _, sh, orth, _⟩ := C50_solveEnv eg chi
  obtain ⟨k', hk', sh', herr⟩ := C66_spErr eg hs chi
  have : k' = k := by
    rw [sh] at sh'
    simpa using sh'.symm
  subst this
  refine ⟨sym, psd, posL, k', sh, hk, orth, ?_⟩
  rw [herr, abs_of_nonneg]
  exact div_nonneg (List.sum_nonneg fun x hx => posL x (List.mem_of_mem_take hx)) (List.sum_nonneg posL)

end

end CTL
