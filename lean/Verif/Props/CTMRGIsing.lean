import Verif.Props.CTMRGTensor
import Verif.Props.Plaquette
import Verif.Spec.OpenIsing

/-! C55: `CTMRG` with `squareIsingTensor` gives the Ising model with open boundary. -/

namespace CTL

/-- C55: the weights of `squareIsingTensor` at every site give the Ising model with open boundary; the field at the boundary is one half. -/
theorem C55_ising_weights (L : Nat) (beta field : ℝ) {w : Nat → Nat → Nat → Nat → ℝ}
    (hw : ∀ l < 2, ∀ r < 2, ∀ u < 2, ∀ d < 2, w l r u d = Real.exp (-(beta * aroundEnergy 1 1 u l d r) + field * aroundM u l d r)) :
    Open.partition L (Open.onFin 2 2 w) = isingOpen L beta field := by
  rw [C55_symmetric]
  · unfold Open.uniform isingOpen
    refine Finset.sum_congr rfl fun v _ => Finset.sum_congr rfl fun h _ => ?_
    have e : ∀ y x : Fin L, Open.onFin 2 2 w (h y x.castSucc) (h y x.succ) (v x y.succ) (v x y.castSucc) =
        Real.exp (-(beta * aroundEnergy 1 1 (v x y.succ) (h y x.castSucc) (v x y.castSucc) (h y x.succ)) +
          field * aroundM (v x y.succ) (h y x.castSucc) (v x y.castSucc) (h y x.succ)) :=
      fun y x => hw _ (Fin.isLt _) _ (Fin.isLt _) _ (Fin.isLt _) _ (Fin.isLt _)
    simp only [e, ← Real.exp_sum]
    congr 1
    simp only [Finset.sum_add_distrib, Finset.sum_neg_distrib, ← Finset.mul_sum]
    have hE : ∑ y : Fin L, ∑ x : Fin L, aroundEnergy 1 1 (v x y.succ) (h y x.castSucc) (v x y.castSucc) (h y x.succ) = (OpenSpins.mk v h).energy := by
      unfold OpenSpins.energy
      rw [← Finset.sum_neg_distrib]
      refine Finset.sum_congr rfl fun y _ => ?_
      rw [← Finset.sum_neg_distrib]
      refine Finset.sum_congr rfl fun x _ => ?_
      unfold aroundEnergy
      ring
    have half : ∀ f : Fin (L + 1) → ℝ, (∑ i : Fin L, f i.castSucc) / 2 + (∑ i : Fin L, f i.succ) / 2 = ∑ i, f i - (f 0 + f (Fin.last L)) / 2 := by
      intro f
      have h1 := Fin.sum_univ_castSucc f
      have h2 := Fin.sum_univ_succ f
      linarith
    have hM : ∑ y : Fin L, ∑ x : Fin L, aroundM (v x y.succ) (h y x.castSucc) (v x y.castSucc) (h y x.succ) = (OpenSpins.mk v h).magnetization := by
      unfold OpenSpins.magnetization
      simp only [← half fun i => spinValue (h _ i), ← half fun i => spinValue (v _ i)]
      rw [Finset.sum_add_distrib, Finset.sum_add_distrib]
      simp only [Finset.sum_div]
      rw [Finset.sum_comm (f := fun (x y : Fin L) => spinValue (v x y.castSucc) / 2), Finset.sum_comm (f := fun (x y : Fin L) => spinValue (v x y.succ) / 2)]
      simp only [← Finset.sum_add_distrib]
      refine Finset.sum_congr rfl fun y _ => Finset.sum_congr rfl fun x _ => ?_
      unfold aroundM
      ring
    rw [hE, hM]
  · intro l hl r hr u hu d hd
    rw [hw l hl r hr u hu d hd, hw r hr l hl u hu d hd]
    congr 2
    · unfold aroundEnergy
      ring
    · unfold aroundM
      ring
  · intro l hl r hr u hu d hd
    rw [hw l hl r hr u hu d hd, hw l hl r hr d hd u hu]
    congr 2
    · unfold aroundEnergy
      ring
    · unfold aroundM
      ring

/-- C55: the Ising model at any temperature and in any field: `CTMRG(squareIsingTensor(beta, symmetryBroken = field), chi).getZ(L)` is the partition
function of the open lattice for `chi` at least `2 ^ (L // 2)`. -/
theorem C55_ising {p : RGParams ℝ} {la : LinAlg ℝ} (hla : UnitaryLinAlg la) (hcast : ∀ x, p.cast x = x) (hn : TriangleTRGState.TrueNorm p.norm)
    {st : Store} (wf : WFStore st) (beta field : ℝ) {Ls : List Nat} (hLs : ∀ L ∈ Ls, 1 ≤ L) {L chi : Nat} (hL : 1 ≤ L) (hchi : 2 ^ (L / 2) ≤ chi) :
    ∃ st' a s0 s s', squareIsingTensor realFns st beta none field = .ok (st', a, 2) ∧
      Settles (fun fuel => CTMRGState.new p la fuel st' a chi) s0 ∧
      Settles (fun fuel => s0.queries p la fuel Real.log Real.exp (Ls.map fun (L : Nat) => (L : Int))) s ∧
      Settles (fun fuel => s.getZ p la fuel Real.log Real.exp L) (s', isingOpen L beta field) := by
  obtain ⟨st', a, e, wf', -, S, du, dl, hv⟩ := C51_square wf beta field (obs := none) (fun o h => by cases h)
  have ha : IsCenter st' a 2 2 fun l r u d => Real.exp (-(beta * aroundEnergy 1 1 u l d r) + field * aroundM u l d r) :=
    ⟨S.labels, du, dl, S.v.symm.trans du, S.h.symm.trans dl, fun u hu l hl d hd r hr =>
      (hv u hu l hl d hd r hr).trans (by rw [measured, one_mul])⟩
  obtain ⟨s0, s, s', e0, e1, e2⟩ := C55_exact_positive (p := p) hla hcast hn real_logExp wf' ha hLs hL hchi fun _ _ _ _ _ _ _ _ => Real.exp_pos _
  rw [C55_ising_weights L beta field fun _ _ _ _ _ _ _ _ => rfl] at e2
  exact ⟨st', a, s0, s, s', e, e0, e1, e2⟩

example : ∃ la : LinAlg ℝ, UnitaryLinAlg la ∧ (∀ x, realParams.cast x = x) ∧ TriangleTRGState.TrueNorm realParams.norm := by
  obtain ⟨la, -, hla, -, -⟩ := exists_linAlg ℝ
  exact ⟨la, hla, fun _ => rfl, frobenius_true⟩

example : Open.partition 3 (Open.onFin 2 2 fun l r u d => Real.exp (-(2 * aroundEnergy 1 1 u l d r) + 3 * aroundM u l d r)) = isingOpen 3 2 3 :=
  C55_ising_weights 3 2 3 fun _ _ _ _ _ _ _ _ => rfl

end CTL
