import Verif.Props.TNREnv
import Verif.Props.TNRStart
import Verif.Lemmas.SvdExists
import Verif.Lemmas.RealEigh

/-! Cases that meet the hypotheses of the theorems of C66. -/

namespace CTL

open Finset (range)

/-- Legs of the tensors of the examples. -/
def tnrLegs : List LegRec :=
  [⟨2, "l", none, some 0⟩, ⟨3, "u", none, some 0⟩, ⟨2, "r", none, some 0⟩, ⟨3, "d", none, some 0⟩,
   ⟨2, "h", none, some 1⟩, ⟨3, "v", none, some 1⟩, ⟨4, "o", none, some 1⟩,
   ⟨4, "ul", none, some 2⟩, ⟨4, "ur", none, some 2⟩, ⟨4, "dl", none, some 2⟩, ⟨4, "dr", none, some 2⟩,
   ⟨3, "ol", none, some 3⟩, ⟨3, "or", none, some 3⟩, ⟨2, "il", none, some 3⟩, ⟨2, "ir", none, some 3⟩,
   ⟨2, "h", none, some 4⟩, ⟨2, "v", none, some 4⟩, ⟨3, "o", none, some 4⟩]

def tnrStore : Store where
  leg := fun l => tnrLegs.getD l ⟨1, "", none, none⟩
  bond := fun _ => (0, 0)
  nextLeg := 18
  nextBond := 0
  nextTensor := 5

def tnrTensor {R : Type} [IntCast R] (id first : Nat) (dims : List Nat) : Tensor R :=
  ⟨id, List.range' first dims.length, some ⟨dims, (List.range dims.prod).map fun i => (((i : Int) - 3 : Int) : R)⟩, false, false, 0⟩

theorem tnrStore_free (l : LegId) : (tnrStore.leg l).bond = none := by
  show (tnrLegs.getD l ⟨1, "", none, none⟩).bond = none
  rw [List.getD_eq_getElem?_getD]
  rcases h : tnrLegs[l]? with _ | r
  · rfl
  · have : ∀ r ∈ tnrLegs, r.bond = none := by decide
    exact this r (List.mem_of_getElem? h)

theorem tnrStore_wf : WFStore tnrStore where
  inv l b h := by rw [tnrStore_free] at h; cases h
  freshLeg l b h := by rw [tnrStore_free] at h; cases h
  freshBond l b h := by rw [tnrStore_free] at h; cases h

theorem tnrTensor_labels {R : Type} [IntCast R] {id first : Nat} {dims : List Nat} {labels : List String}
    (hd : dims = (List.range' first dims.length).map tnrStore.dim) (hk : first + dims.length ≤ tnrStore.nextLeg)
    (hp : ∀ d ∈ dims, d ≠ 0) (hl : ((List.range' first dims.length).map tnrStore.name).Perm labels) :
    HasLabels tnrStore (tnrTensor (R := R) id first dims) labels where
  good := ⟨List.nodup_range', rfl, _, rfl, by simp [NDArray.WF], fun _ => hd, fun h => nomatch h⟩
  dense := rfl
  known l hm := Nat.lt_of_lt_of_le (List.mem_range'_1.mp hm).2 hk
  pos l hm := by
    refine hp _ ?_
    rw [hd]
    exact List.mem_map_of_mem hm
  labels := hl

def tnrA (R : Type) [IntCast R] : Tensor R := tnrTensor 0 0 [2, 3, 2, 3]
def tnrQ : Tensor Int := tnrTensor 1 4 [2, 3, 4]
def tnrCC : Tensor Int := tnrTensor 2 7 [4, 4, 4, 4]
def tnrU : Tensor Int := tnrTensor 3 11 [3, 3, 2, 2]
def tnrY : Tensor Int := tnrTensor 4 15 [2, 2, 3]

theorem tnrA_labels (R : Type) [IntCast R] : HasLabels tnrStore (tnrA R) ["u", "l", "d", "r"] :=
  tnrTensor_labels (by decide) (by decide) (by decide) (by decide)

theorem tnrQ_labels : HasLabels tnrStore tnrQ ["h", "v", "o"] :=
  tnrTensor_labels (by decide) (by decide) (by decide) (by decide)

theorem tnrCC_labels : HasLabels tnrStore tnrCC ["ul", "ur", "dl", "dr"] :=
  tnrTensor_labels (by decide) (by decide) (by decide) (by decide)

theorem tnrU_labels : HasLabels tnrStore tnrU ["ol", "or", "il", "ir"] :=
  tnrTensor_labels (by decide) (by decide) (by decide) (by decide)

theorem tnrY_labels : HasLabels tnrStore tnrY ["h", "v", "o"] :=
  tnrTensor_labels (by decide) (by decide) (by decide) (by decide)

/-- C66: a concrete case of `createQxAFTN`. -/
example : Computes (fun _ _ => (0 : Int)) id createQxAFTN tnrStore [("q", tnrQ), ("A", tnrA Int)]
    (qxAArr tnrStore tnrQ (tnrA Int)) :=
  C66_qxA _ _ tnrStore_wf tnrQ_labels (tnrA_labels Int) (by decide) (by decide)

/-- C66: a concrete case of `createCFTN`. -/
example : Computes (fun _ _ => (0 : Int)) id createCFTN tnrStore [("ul", tnrQ), ("ur", tnrQ), ("dl", tnrQ), ("dr", tnrQ)]
    (tnrCArr tnrStore tnrQ tnrQ tnrQ tnrQ) :=
  C66_tnrC _ _ tnrStore_wf tnrQ_labels tnrQ_labels tnrQ_labels tnrQ_labels rfl rfl rfl rfl

/-- C66: a concrete case of `createCCFTN`. -/
example : Computes (fun _ _ => (0 : Int)) id createCCFTN tnrStore [("u", tnrCC), ("d", tnrCC)]
    (tnrCCArr tnrStore tnrCC tnrCC) :=
  C66_tnrCC _ _ tnrStore_wf tnrCC_labels tnrCC_labels rfl rfl

/-- C66: a concrete case of `createSCEnvSFTN`. -/
example : Computes (fun _ _ => (0 : Int)) id createSCEnvSFTN tnrStore
    [("CC", tnrCC), ("ql", tnrQ), ("qr", tnrQ), ("u", tnrU), ("yl", tnrY), ("yr", tnrY)]
    (sCEnvSArr tnrStore tnrCC tnrQ tnrQ tnrU tnrY tnrY) :=
  C66_sCEnvS _ _ tnrStore_wf tnrCC_labels tnrQ_labels tnrQ_labels tnrU_labels tnrY_labels tnrY_labels
    (by decide) (by decide) (by decide) (by decide) (by decide) (by decide) (by decide) (by decide)

/-- C66, a deviation: for a `u` that tells left from right the network differs from the formula in the comment. -/
theorem C66_sCEnvS_deviates :
    (sCEnvSArr tnrStore tnrCC tnrQ tnrQ tnrU tnrY tnrY).val (fun _ => 1) ≠
      sCEnvSNcon tnrStore tnrCC tnrQ tnrQ tnrU tnrY tnrY (fun _ => 1) := by
  decide +kernel

/-- What is assumed of the decomposition can be had over the real numbers. -/
theorem exists_nonneg_linAlg : ∃ la : LinAlg ℝ, UnitaryLinAlg la ∧
    ∀ a n m, a.WF → a.shape = [n, m] → ∀ x ∈ (la.svd a).2.1, 0 ≤ x := by
  classical
  have : ∀ a : NDArray ℝ, ∃ o : NDArray ℝ × List ℝ × NDArray ℝ, ∀ n m, a.WF → a.shape = [n, m] →
      IsUnitarySVD a n m o ∧ ∀ x ∈ o.2.1, 0 ≤ x := by
    intro a
    by_cases h : ∃ n m, a.WF ∧ a.shape = [n, m]
    · obtain ⟨n, m, w, hs⟩ := h
      obtain ⟨o, s, h1, _, h2, h3⟩ := exists_unitarySVD a w hs
      refine ⟨o, fun n' m' _ hs' => ?_⟩
      rw [hs] at hs'
      simp only [List.cons.injEq, and_true] at hs'
      rw [← hs'.1, ← hs'.2]
      refine ⟨h1, fun x hx => ?_⟩
      rw [h3] at hx
      obtain ⟨k, _, rfl⟩ := List.mem_map.mp hx
      exact h2 k
    · exact ⟨(a, [], a), fun n m w hs => absurd ⟨n, m, w, hs⟩ h⟩
  choose f hf using this
  exact ⟨⟨f, fun x => x, fun _ => true⟩, fun a n m w hs => (hf a n m w hs).1, fun a n m w hs => (hf a n m w hs).2⟩

/-- C66: a concrete case of `TensorUpdateSVD`. -/
example : ∃ (la : LinAlg ℝ) (w : NDArray ℝ), tensorUpdateSVD la ⟨[2, 2, 3], (List.range 12).map fun i => (i : ℝ)⟩ 2 = .ok w ∧
    IsIsometry 4 3 (w.asMat 4 3) := by
  obtain ⟨la, h1, h2⟩ := exists_nonneg_linAlg
  obtain ⟨w, e, _, _, iso, _⟩ := C66_update (L := [2, 2]) (R := [3]) h1 (e := ⟨[2, 2, 3], (List.range 12).map fun i => (i : ℝ)⟩)
    (by simp [NDArray.WF]) rfl (by simp) (by simp) (h2 _ _ _ (by simp [NDArray.WF]) rfl)
  exact ⟨la, w, e, iso⟩

/-- C66: with a left side of no dimensions there is an error. -/
example (la : LinAlg ℝ) : tensorUpdateSVD la ⟨[2, 3], List.replicate 6 1⟩ 0 = .error .typeError :=
  (C66_update_error la _ 0).mpr (.inl rfl)

/-- C66: a concrete case of the environment of `q`. -/
example (p : RGParams ℝ) (he : ExactEigh p.eigh) := C66_q (fun _ _ => 0) id tnrStore_wf (tnrA_labels ℝ) (by decide) (by decide) p he 4

/-- C66: a concrete case of the error. -/
example : ∃ eigh : NDArray ℝ → List ℝ × NDArray ℝ, ∀ p : RGParams ℝ, p.eigh = eigh →
    ∃ k x, (solveEnv p ⟨[2, 2], [2, 1, 1, 2]⟩ 1).1.shape = [2, k] ∧
      spErr ⟨[2, 2], [2, 1, 1, 2]⟩ (solveEnv p ⟨[2, 2], [2, 1, 1, 2]⟩ 1).1 = .ok x := by
  obtain ⟨eigh, he⟩ := exists_eigh
  refine ⟨eigh, fun p hp => ?_⟩
  have sym : ∀ i < 2, ∀ j < 2, (⟨[2, 2], [2, 1, 1, 2]⟩ : NDArray ℝ).get [i, j] = (⟨[2, 2], [2, 1, 1, 2]⟩ : NDArray ℝ).get [j, i] := by
    intro i hi j hj
    interval_cases i <;> interval_cases j <;> rfl
  have := he ⟨[2, 2], [2, 1, 1, 2]⟩ 2 (by simp [NDArray.WF]) rfl sym
  rw [← hp] at this
  obtain ⟨k, _, sh, e⟩ := C66_spErr this rfl 1
  exact ⟨k, _, sh, e⟩

/-- The disentangler `doTNR` starts with. -/
def tnrKron : Tensor Int :=
  ⟨3, [11, 12, 13, 14], some (.build [3, 3, 2, 2] fun i => if i.getD 0 0 = i.getD 2 0 ∧ i.getD 1 0 = i.getD 3 0 then 1 else 0),
    false, false, 0⟩

/-- C66: a concrete case in which exchanging left and right leaves `u` as it is. -/
example : (sCEnvSArr tnrStore tnrCC tnrQ tnrQ tnrKron tnrY tnrY).val = sCEnvSNcon tnrStore tnrCC tnrQ tnrQ tnrKron tnrY tnrY :=
  funext fun τ => C66_sCEnvS_comment (by decide +kernel) τ

/-- `C66_start` for a site with dimensions 2 and 3 and at most four directions kept. -/
example : ∃ (p : RGParams ℝ) (k : Nat) (r : TNRStart ℝ),
    Settles (fun fuel => tnrStart p fuel Store.empty ⟨[2, 3, 2, 3], (List.range 36).map fun i => (i : ℝ) - 3⟩ 4) r ∧
    TNRStarted p ⟨[2, 3, 2, 3], (List.range 36).map fun i => (i : ℝ) - 3⟩ 2 3 4 k r := by
  obtain ⟨eigh, he⟩ := exists_eigh
  obtain ⟨k, r, h, -, s⟩ := C66_start ⟨fun _ _ => 0, id, fun _ => 2, eigh, 1 / 10 ^ 10⟩ he Reachable.empty.wf
    (A := ⟨[2, 3, 2, 3], (List.range 36).map fun i => (i : ℝ) - 3⟩) (by simp [NDArray.WF]) rfl (by decide) (by decide) 4
  exact ⟨_, k, r, h, s⟩

end CTL
