import Mathlib.Data.Real.Sqrt
import Verif.Props.TNRSite

/-! Cases that meet the hypotheses of C70. -/

namespace CTL

/-- The ring with the entries 1 to 16. -/
def siteC : NDArray ℚ := ⟨[2, 2, 2, 2], (List.range 16).map fun i => (i : ℚ) + 1⟩

/-- `C70_norm` for twice the unit matrix, whose ring has 256 times the norm. -/
example : ∃ s', normS (fun _ => 2) siteC ⟨[2, 2], [2, 0, 0, 2]⟩ = .ok s' ∧ s'.shape = [2, 2] ∧
    (∃ r ≠ 0, ∀ i < 2, ∀ j < 2, (⟨[2, 2], [2, 0, 0, 2]⟩ : NDArray ℚ).get [i, j] = r * s'.get [i, j]) ∧
    sumSq 2 2 2 2 (onLegs 2 siteC.at4 s'.at2) = sumSq 2 2 2 2 siteC.at4 :=
  C70_norm rfl rfl (by decide +kernel) (by decide +kernel) (by decide +kernel)

/-- The scaled matrix is the unit matrix. -/
example : (normS (fun _ => 2) siteC ⟨[2, 2], [2, 0, 0, 2]⟩).toOption.map (fun s => (s.shape, s.data)) = some ([2, 2], [1, 0, 0, 1]) := by
  decide +kernel

/-- The entries of a new site. -/
example : (nconSite (K := Int) ⟨[2, 2, 2], [1, 0, 2, 1, 2, 5, 3, -1]⟩ ⟨[1, 1, 1], [2]⟩ ⟨[1, 1, 2], [1, 2]⟩ ⟨[2, 2], [1, 2, 0, 1]⟩
      ⟨[1, 2, 2], [1, 2, 3, 5]⟩).toOption.map (fun e => (e.shape, e.get [0, 0, 0, 0], e.get [0, 0, 1, 0], e.get [1, 0, 1, 0])) =
    some ([2, 1, 2, 1], 32626944, 8282400, 2102500) := by decide +kernel

/-- `C70_site` over the real numbers, with a column of `vM` that is symmetric (the sign 1). -/
example : ∃ (a : NDArray ℝ) (n : ℝ),
    newSite (fun a => √(sumSq 1 1 1 1 a.at4)) ⟨[2, 2, 1], [1, 2, 2, 3]⟩ ⟨[1, 1, 1], [2]⟩ ⟨[1, 1, 1], [1]⟩ ⟨[1, 1], [1]⟩ ⟨[1, 2, 1], [1, 1]⟩ = .ok (a, n) ∧
    sumSq 1 1 1 1 a.at4 = 1 := by
  obtain ⟨a, n, h1, _, _, _, h2, _⟩ := C70_site (norm := fun a : NDArray ℝ => √(sumSq 1 1 1 1 a.at4)) (v := ⟨[2, 2, 1], [1, 2, 2, 3]⟩)
    (w := ⟨[1, 1, 1], [2]⟩) (y := ⟨[1, 1, 1], [1]⟩) (s := ⟨[1, 1], [1]⟩) (qA := ⟨[1, 2, 1], [1, 1]⟩) rfl rfl rfl rfl rfl
    (fun a _ => Real.sq_sqrt (by
      unfold sumSq
      exact Finset.sum_nonneg fun _ _ => Finset.sum_nonneg fun _ _ => Finset.sum_nonneg fun _ _ => Finset.sum_nonneg fun _ _ => sq_nonneg _))
    (by norm_num [sumSq, ringOf, cornerPair, yPair, Finset.sum_range_succ, NDArray.at3, NDArray.at2, NDArray.get, ravel])
  exact ⟨a, n, h1, h2⟩

/-- Its `vM` and `wM` do take the sign 1. -/
example : ∀ i < 1, ∀ x < 2, ∀ x' < 2, (⟨[2, 2, 1], [1, 2, 2, 3]⟩ : NDArray Int).get [x', x, i] =
    1 * (⟨[2, 2, 1], [1, 2, 2, 3]⟩ : NDArray Int).get [x, x', i] := by decide

end CTL
