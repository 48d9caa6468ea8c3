import Verif.Model.TriangleTRG
import Verif.Spec.TRG
import Verif.Spec.Honey

/-! What `TriangleTRG` is expected to compute. -/

namespace CTL
variable {K : Type}

open Finset (range)

/-- The entry of a tensor with the labels 1, 2 and 3. -/
def Tensor.tri [Zero K] (t : Tensor K) (st : Store) (x y z : Nat) : K := t.at st [("1", x), ("2", y), ("3", z)]

/-- A tensor with the labels 1, 2 and 3, all of dimension `D`, and joined to nothing. -/
structure TriSite (st : Store) (t : Tensor K) (D : Nat) : Prop where
  labels : HasLabels st t ["1", "2", "3"]
  d1 : t.dimOf st "1" = D
  d2 : t.dimOf st "2" = D
  d3 : t.dimOf st "3" = D
  free : ∀ l ∈ t.legs, (st.leg l).bond = none

/-- Two sites joined by bond 1. -/
def pairTri [CommSemiring K] (D : Nat) (a b : Nat → Nat → Nat → K) (a2 b2 a3 b3 : Nat) : K := ∑ w ∈ range D, a w a2 a3 * b w b2 b3

/-- The factor taken out of the partition function by dividing every tensor by its norm, three sites becoming one at each step. -/
def triScale [CommSemiring K] : List K → K
  | [] => 1
  | c :: cs => c ^ 3 ^ cs.length * triScale cs

namespace TriangleTRGState

/-- The bond dimension of the tensors of the object. -/
def dim (s : TriangleTRGState K) : Nat := s.a.dimOf s.st "1"

/-- The matrix of the two tensors of the object, joined. -/
def mat [CommSemiring K] (s : TriangleTRGState K) : NDArray K := siteMatrix s.dim s.dim (pairTri s.dim (s.a.tri s.st) (s.b.tri s.st))

/-- The tensors of the object are sites of the lattice, they and the archived ones have no legs in common, and the network, if it has
been made, is the one of `iterate`. -/
structure Good [Field K] (p : RGParams K) (s : TriangleTRGState K) : Prop where
  wf : WFStore s.st
  a : TriSite s.st s.a s.dim
  b : TriSite s.st s.b s.dim
  apart : ∀ l ∈ s.a.legs, l ∉ s.b.legs
  archived : ∀ x ∈ s.aArchive ++ s.bArchive, ∀ l ∈ x.1.legs, l < s.st.nextLeg ∧ l ∉ s.a.legs ∧ l ∉ s.b.legs
  net : ∀ n, s.iterateFTN = some n → NetOf p triangleContractFTN n

/-- The tensor `t` has been divided by the norm of its array, which is recorded, and a copy of the result is in the archive. -/
structure Recorded [Field K] (p : RGParams K) (st : Store) (D dof : Nat) (norms : List K) (archive : List (Tensor K × Nat)) (t : Tensor K)
    (t' : Tensor K) (norms' : List K) (archive' : List (Tensor K × Nat)) : Prop where
  a : ∃ b, t.a = some b ∧ norms' = norms ++ [p.norm b] ∧ t' = { t with a := some (b.divBy (p.norm b)) } ∧
    ∀ x y z, t'.tri st x y z = t.tri st x y z / p.norm b
  archive : ∃ c, archive' = archive ++ [(c, dof)] ∧ TriSite st c D ∧ ∀ x y z, c.tri st x y z = t'.tri st x y z

/-- A new object: a site holds no dimer, or one on one of its three bonds. -/
structure Started [Field K] (p : RGParams K) (st : Store) (alpha : K) (chi : Nat) (s : TriangleTRGState K) : Prop where
  kept : LegsUnchanged st s.st
  dof : s.dof = 1
  chi : s.chi = chi
  empty : s.errors = []
  dim : s.dim = 2
  tensors : ∃ a b, Recorded p s.st s.dim 1 [] [] a s.a s.aNorms s.aArchive ∧ Recorded p s.st s.dim 1 [] [] b s.b s.bNorms s.bArchive ∧
    (∀ x < 2, ∀ y < 2, ∀ z < 2, a.tri s.st x y z = Honey.dimerSite alpha x y z) ∧
    ∀ x < 2, ∀ y < 2, ∀ z < 2, b.tri s.st x y z = Honey.dimerSite alpha x y z
  first : s.aNorms = [p.norm ⟨[2, 2, 2], [1, alpha, alpha, 0, alpha, 0, 0, 0]⟩] ∧ s.bNorms = s.aNorms

/-- One step. -/
structure Iterated [Field K] (p : RGParams K) (la : LinAlg K) (s s' : TriangleTRGState K) : Prop where
  dof : s'.dof = s.dof * 3
  chi : s'.chi = s.chi
  le : s.st.nextLeg ≤ s'.st.nextLeg
  kept : ∀ l < s.st.nextLeg, l ∉ s.a.legs → l ∉ s.b.legs → s'.st.leg l = s.st.leg l
  errors : s'.errors = s.errors ++ [cutShare la s.mat s.chi]
  dim : s'.dim = min s.chi (s.dim * s.dim)
  tensors : ∃ a b u v, Recorded p s'.st s'.dim s'.dof s.aNorms s.aArchive a s'.a s'.aNorms s'.aArchive ∧
    Recorded p s'.st s'.dim s'.dof s.bNorms s.bArchive b s'.b s'.bNorms s'.bArchive ∧
    Factors la s.mat (s.dim * s.dim) s.chi u v ∧
    (∀ x < s'.dim, ∀ y < s'.dim, ∀ z < s'.dim, a.tri s'.st x y z = Honey.corners s.dim (factorAt s.dim u) x y z) ∧
    ∀ x < s'.dim, ∀ y < s'.dim, ∀ z < s'.dim, b.tri s'.st x y z = Honey.corners s.dim (factorAt s.dim v) x y z

/-- A norm is not negative, and 0 only for an array of zeros. -/
def TrueNorm [Zero K] [LE K] (norm : NDArray K → K) : Prop := ∀ a : NDArray K, 0 ≤ norm a ∧ (norm a = 0 → ∀ x ∈ a.data, x = 0)

/-- The object after `n` calls of `iterate`. -/
def Ran [Field K] [LinearOrder K] [Star K] (p : RGParams K) (la : LinAlg K) (s0 : TriangleTRGState K) (n : Nat) (s : TriangleTRGState K) : Prop :=
  Settles (fun fuel => s0.iterateN p la fuel n) s

/-- The products of the norms of `a` and `b`. -/
def norms [Mul K] (s : TriangleTRGState K) : List K := List.zipWith (· * ·) s.aNorms s.bNorms

end TriangleTRGState

namespace Honey

/-- The lattice after `i` steps, starting from one site of each kind. -/
def grown (i : Nat) : Honey := refine^[i] point

/-- Every site can be reached from every other one along bonds. -/
def Connected (G : Honey) : Prop := ∀ s t, Relation.ReflTransGen (fun x y => ∃ c d, y = G.face c d x) s t

/-- The number of places where the two bonds `c` and `d` of a site lead to the same site. -/
def bigons (G : Honey) (c d : Fin 3) : Nat := (Finset.univ.filter fun s => G.face c d s = s).card

end Honey

end CTL
