import Verif.Model.RG
import Mathlib.Analysis.SpecialFunctions.Log.Basic
import Mathlib.Algebra.BigOperators.Fin
import Mathlib.Data.Fintype.Prod

/-! Coarse graining without normalisation, and the configurations behind the impurity moments. -/

namespace CTL
variable {T P : Type}

/-- A map is positively homogeneous of degree two. -/
def Quadratic [SMul ℝ T] (F : T → T) : Prop := ∀ (c : ℝ) t, 0 < c → F (c • t) = (c ^ 2) • F t

/-- Norm, division and trace are homogeneous of degree one. -/
structure LinearMeasures [SMul ℝ T] (norm : T → ℝ) (div : T → ℝ → T) (trace : T → ℝ) : Prop where
  norm : ∀ (c : ℝ) t, 0 < c → norm (c • t) = c * norm t
  div : ∀ t x, div t x = x⁻¹ • t
  trace : ∀ (c : ℝ) t, 0 < c → trace (c • t) = c * trace t

/-- The direction with the least error, the earlier one of equal ones. -/
noncomputable def bestDir (ops : RGOps T P ℝ) (a : T) : RGDir :=
  let better := fun (x y : RGDir) => if (ops.trial y a).1 < (ops.trial x a).1 then y else x
  better (better (better .u .d) .l) .r

/-- One coarse-graining step without normalisation. -/
noncomputable def coarse (ops : RGOps T P ℝ) (a : T) : T :=
  ops.apply (bestDir ops a) (ops.trial (bestDir ops a) a).2 a a

/-- The site states of a block of `2 ^ n` sites, as a binary tree. -/
def Block (S : Type) : Nat → Type
  | 0 => S
  | n + 1 => Block S n × Block S n

instance Block.fintype {S : Type} [Fintype S] : (n : Nat) → Fintype (Block S n)
  | 0 => inferInstanceAs (Fintype S)
  | n + 1 => @instFintypeProd _ _ (Block.fintype n) (Block.fintype n)

/-- The mean of an observable over the sites of a block. -/
noncomputable def Block.mean {S : Type} (m : S → ℝ) : (n : Nat) → Block S n → ℝ
  | 0, s => m s
  | n + 1, c => (Block.mean m n c.1 + Block.mean m n c.2) / 2

/-- The tensor of a block in a fixed configuration: the site tensors combined along the tree, at level `n` in the direction
and with the projector `ch n`. -/
def Block.tensor {S : Type} (ops : RGOps T P ℝ) (ch : Nat → RGDir × P) (X : S → T) : (n : Nat) → Block S n → T
  | 0, s => X s
  | n + 1, c => ops.apply (ch n).1 (ch n).2 (Block.tensor ops ch X n c.1) (Block.tensor ops ch X n c.2)

/-- `k`-th moment of the mean of `m` over a block of `2 ^ n` sites, weighted with the traces. -/
noncomputable def Block.moment {S : Type} [Fintype S] (ops : RGOps T P ℝ) (ch : Nat → RGDir × P) (X : S → T) (m : S → ℝ) (n k : Nat) : ℝ :=
  (∑ c : Block S n, Block.mean m n c ^ k * ops.trace (Block.tensor ops ch X n c)) / ∑ c : Block S n, ops.trace (Block.tensor ops ch X n c)

end CTL
