import Verif.Props.TNREnd
import Verif.Lemmas.RealEigh

/-! Cases that meet the hypotheses of C69. -/

namespace CTL

/-- The environment of `vM` with one dimension each, except for the open legs: all 24 factors are there. -/
example : (nconV (K := Int) ⟨[1, 1, 1], [2]⟩ ⟨[1, 1], [3]⟩ ⟨[1, 2, 1], [1, 1]⟩).toOption.map (fun e => (e.shape, e.data.getD 0 0)) =
    some ([2, 2, 2, 2], 2 ^ 8 * 3 ^ 8 * 4) := by decide +kernel

/-- The same for `wM`. -/
example : (nconW (K := Int) ⟨[1, 2, 1], [1, 1]⟩ ⟨[1, 1], [3]⟩ ⟨[1, 1, 1], [2]⟩).toOption.map (fun e => (e.shape, e.data.getD 0 0)) =
    some ([2, 2, 2, 2], 3 ^ 8 * 2 ^ 8 * 4) := by decide +kernel

/-- Dimensions that do not fit. -/
example : nconV (K := Int) ⟨[1, 1, 2], [1, 1]⟩ ⟨[1, 1], [3]⟩ ⟨[1, 2, 1], [1, 1]⟩ = .error .valueError := by rfl

/-- `C69_v` and `C69_w` for dimensions 2 and 3, with a decomposition that exists. -/
example : ∃ (p : RGParams ℝ) (e e' : NDArray ℝ),
    nconV ⟨[2, 3, 2], (List.range 12).map fun i => (i : ℝ) - 3⟩ ⟨[2, 2], [1, 2, 0, 1]⟩ ⟨[1, 2, 2], [1, 2, 3, 5]⟩ = .ok e ∧ EndClaim p e 2 3 ∧
    nconW ⟨[2, 3, 2], (List.range 12).map fun i => (i : ℝ) - 3⟩ ⟨[2, 2], [1, 2, 0, 1]⟩ ⟨[1, 2, 2], [1, 2, 3, 5]⟩ = .ok e' ∧ EndClaim p e' 3 2 := by
  obtain ⟨eigh, he⟩ := exists_eigh
  obtain ⟨e, h1, _, _, h2⟩ := C69_v (p := ⟨fun _ _ => 0, id, fun _ => 2, eigh, 1 / 10 ^ 10⟩) he 3
    (y := ⟨[2, 3, 2], (List.range 12).map fun i => (i : ℝ) - 3⟩) (s := ⟨[2, 2], [1, 2, 0, 1]⟩) (qA := ⟨[1, 2, 2], [1, 2, 3, 5]⟩) rfl rfl rfl
  obtain ⟨e', h3, _, _, h4⟩ := C69_w (p := ⟨fun _ _ => 0, id, fun _ => 2, eigh, 1 / 10 ^ 10⟩) he 2
    (y := ⟨[2, 3, 2], (List.range 12).map fun i => (i : ℝ) - 3⟩) (s := ⟨[2, 2], [1, 2, 0, 1]⟩) (qA := ⟨[1, 2, 2], [1, 2, 3, 5]⟩) rfl rfl rfl
  exact ⟨_, e, e', h1, h2, h3, h4⟩

end CTL
