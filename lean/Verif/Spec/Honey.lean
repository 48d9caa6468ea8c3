import Verif.Spec.HOTRG
import Mathlib.Algebra.BigOperators.Fin
import Mathlib.Algebra.Group.End
import Mathlib.Data.Fintype.Pi
import Mathlib.Data.Fintype.Prod
import Mathlib.Data.Fintype.Powerset

/-! Finite lattices in which every site of kind A has three bonds, numbered 0, 1 and 2, to sites of kind B. -/

namespace CTL

/-- The sites of kind A and the sites of kind B are both numbered by `S`; bond `c` of the site `s` of kind A leads to the site
`σ c s` of kind B, where it is also bond `c`. -/
structure Honey where
  S : Type
  [fin : Fintype S]
  [dec : DecidableEq S]
  σ : Fin 3 → Equiv.Perm S

namespace Honey

instance (G : Honey) : Fintype G.S := G.fin
instance (G : Honey) : DecidableEq G.S := G.dec

variable {R : Type}

/-- The partition function: the sum over all values of the bonds, where `x (s, c)` is the value of bond `c` of the site `s` of kind A. -/
def Z [CommSemiring R] (G : Honey) (D : Nat) (a b : Nat → Nat → Nat → R) : R :=
  ∑ x : G.S × Fin 3 → Fin D, (∏ s, a (x (s, 0)) (x (s, 1)) (x (s, 2))) *
    ∏ s, b (x ((G.σ 0).symm s, 0)) (x ((G.σ 1).symm s, 1)) (x ((G.σ 2).symm s, 2))

/-- One site of each kind. -/
def point : Honey where
  S := Unit
  σ := fun _ => 1

theorem up : ∀ c : Fin 3, c + 1 - 1 = c := by decide
theorem down : ∀ c : Fin 3, c - 1 + 1 = c := by decide

/-- The lattice in which every bond has become a pair of sites of kind A and B, joined by a bond 0.  The pairs of the three bonds of a
site have become a hexagon of bonds 0 and 1 around a site of kind A, and of bonds 0 and 2 around a site of kind B. -/
def refine (G : Honey) : Honey where
  S := G.S × Fin 3
  σ
    | 0 => 1
    | 1 => ⟨fun p => (p.1, p.2 + 1), fun p => (p.1, p.2 - 1), fun p => by simp [up], fun p => by simp [down]⟩
    | 2 => ⟨fun p => ((G.σ (p.2 + 1)).symm (G.σ p.2 p.1), p.2 + 1), fun p => ((G.σ (p.2 - 1)).symm (G.σ p.2 p.1), p.2 - 1),
        fun p => by simp [up], fun p => by simp [down]⟩

/-- The corners of a triangle: corner `c` has the index `y c` on the one side and `y (c - 1)` on the other. -/
def corners [CommSemiring R] (D : Nat) (u : Nat → Nat → Nat → R) (x0 x1 x2 : Nat) : R :=
  ∑ y : Fin 3 → Fin D, u (y 0) (y 2) x0 * u (y 1) (y 0) x1 * u (y 2) (y 1) x2

/-- Walking along bond `c` from A to B and back along bond `d`, that is around the face between them. -/
def face (G : Honey) (c d : Fin 3) : Equiv.Perm G.S := (G.σ c).trans (G.σ d).symm

/-- The two ends of a bond. -/
def ends (G : Honey) (e : G.S × Fin 3) : G.S × G.S := (e.1, G.σ e.2 e.1)

/-- No two of the bonds have an end in common. -/
def Matching (G : Honey) (M : Finset (G.S × Fin 3)) : Prop :=
  ∀ e ∈ M, ∀ f ∈ M, (G.ends e).1 = (G.ends f).1 ∨ (G.ends e).2 = (G.ends f).2 → e = f

/-- The weight of a site: 1 without a dimer, `α` with one, 0 with more. -/
def dimerSite [CommSemiring R] (α : R) (x y z : Nat) : R := if x + y + z ≤ 1 then α ^ (x + y + z) else 0

open Classical in
/-- The partition function of dimers on the bonds, of weight `w` each, of which no two touch. -/
noncomputable def dimers [CommSemiring R] (G : Honey) (w : R) : R := ∑ M : Finset (G.S × Fin 3), if G.Matching M then w ^ M.card else 0

end Honey

end CTL
