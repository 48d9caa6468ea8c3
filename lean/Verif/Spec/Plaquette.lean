import Verif.Model.Plaquette
import Verif.Spec.Ising
import Verif.Spec.HOTRG
import Mathlib.Analysis.SpecialFunctions.Pow.Real

/-! The Ising model on the spins between the plaquettes of a torus. -/

namespace CTL

/-- The spin for an index of a leg: 0 is down, 1 is up. -/
def spinValue (x : Nat) : ℝ := if x = 0 then -1 else 1

/-- The energy of four spins around a square; `J1` couples `r` to `d` and `l` to `u`, `J2` the other two pairs. -/
def aroundEnergy (J1 J2 : ℝ) (u l d r : Nat) : ℝ :=
  -(J1 * (spinValue r * spinValue d + spinValue l * spinValue u) + J2 * (spinValue d * spinValue l + spinValue u * spinValue r))

/-- The magnetization of a square: half of the sum, since two squares share a spin. -/
noncomputable def aroundM (u l d r : Nat) : ℝ := (spinValue u + spinValue l + spinValue d + spinValue r) / 2

/-- What is measured. -/
noncomputable def measured (u l d r : Nat) : Option String → ℝ
  | none => 1
  | some "M" => aroundM u l d r
  | _ => aroundEnergy 1 1 u l d r

/-- The spins of a torus of `rows × cols` plaquettes: above and to the left of each. -/
structure Spins (rows cols : Nat) where
  above : Fin rows → Fin cols → Fin 2
  left : Fin rows → Fin cols → Fin 2

/-- All spins as pairs of functions. -/
def Spins.equiv (rows cols : Nat) : Spins rows cols ≃ (Fin rows → Fin cols → Fin 2) × (Fin rows → Fin cols → Fin 2) :=
  ⟨fun s => (s.above, s.left), fun p => ⟨p.1, p.2⟩, fun _ => rfl, fun _ => rfl⟩

instance (rows cols : Nat) : Fintype (Spins rows cols) := Fintype.ofEquiv _ (Spins.equiv rows cols).symm

/-- The energy of all pairs of neighbours: a spin above a plaquette has the spins to the left and right of that plaquette and of the
one above it as neighbours. -/
def Spins.energy {rows cols : Nat} (J1 J2 : ℝ) (s : Spins rows cols) : ℝ :=
  -∑ i, ∑ j, (J1 * (spinValue (s.above i j) * spinValue (s.left i j))
    + J2 * (spinValue (s.above i j) * spinValue (s.left i (around j)))
    + J2 * (spinValue (s.above (around i) j) * spinValue (s.left i j))
    + J1 * (spinValue (s.above (around i) j) * spinValue (s.left i (around j))))

/-- The sum of all spins. -/
def Spins.magnetization {rows cols : Nat} (s : Spins rows cols) : ℝ :=
  ∑ i, ∑ j, (spinValue (s.above i j) + spinValue (s.left i j))

/-- The Boltzmann weight, with a field `h`. -/
noncomputable def Spins.weight {rows cols : Nat} (J1 J2 h : ℝ) (s : Spins rows cols) : ℝ :=
  Real.exp (-s.energy J1 J2 + h * s.magnetization)

/-- The partition function. -/
noncomputable def isingTorus (rows cols : Nat) (J1 J2 h : ℝ) : ℝ := ∑ s : Spins rows cols, s.weight J1 J2 h

/-- The torus with a tensor of its own at every site. -/
def torusOf {R : Type} [CommSemiring R] (rows cols V H : Nat) (T : Fin rows → Fin cols → Nat → Nat → Nat → Nat → R) : R :=
  ∑ v : Fin rows → Fin cols → Fin V, ∑ h : Fin rows → Fin cols → Fin H,
    ∏ i, ∏ j, T i j (v i j) (h i j) (v (around i) j) (h i (around j))

/-- The torus of `A` with one site replaced by `B`, summed over the place of that site. -/
def torusOneOf {R : Type} [CommSemiring R] (rows cols V H : Nat) (A B : Nat → Nat → Nat → Nat → R) : R :=
  ∑ i, ∑ j, torusOf rows cols V H fun i' j' => if i' = i ∧ j' = j then B else A

/-- The real functions of `infiniteIsingExactM`. -/
noncomputable def realCurve : CurveFns ℝ := ⟨Real.log, Real.sqrt, Real.sinh, fun x y => x ^ y⟩

end CTL
