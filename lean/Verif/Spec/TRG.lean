import Verif.Model.TRG
import Verif.Spec.HOTRG
import Verif.Spec.Decompose
import Verif.Spec.TiltedTorus

/-! What `SquareTRG` is expected to compute. -/

namespace CTL
variable {K R : Type}

open Finset (range)

/-- Four corners around a square, two of the pieces `uA`, `vA` and two of the pieces `uB`, `vB`. -/
def fourCorners [CommSemiring R] (V H : Nat) (uA vA uB vB : Nat → Nat → Nat → R) (u l d r : Nat) : R :=
  ∑ m ∈ range H, ∑ k ∈ range V, ∑ j ∈ range H, ∑ i ∈ range V, vA i j u * vB k j r * uA k m d * uB i m l

/-- The entries of a tensor of the square lattice as a matrix: rows are the indices `u` and `l`, columns `d` and `r`. -/
def siteMatrix [Zero K] (V H : Nat) (A : Nat → Nat → Nat → Nat → K) : NDArray K :=
  NDArray.build [V * H, V * H] fun idx => A (idx.getD 0 0 / H) (idx.getD 0 0 % H) (idx.getD 1 0 / H) (idx.getD 1 0 % H)

/-- The same along the other diagonal: rows are the indices `u` and `r`, columns `d` and `l`. -/
def crossMatrix [Zero K] (V H : Nat) (A : Nat → Nat → Nat → Nat → K) : NDArray K :=
  NDArray.build [V * H, V * H] fun idx => A (idx.getD 0 0 / H) (idx.getD 1 0 % H) (idx.getD 1 0 / H) (idx.getD 0 0 % H)

/-- The entry of a matrix whose rows stand for two indices, the second one below `H`. -/
def factorAt [Zero K] (H : Nat) (u : NDArray K) (x y k : Nat) : K := u.get [x * H + y, k]

/-- Two factors with `chi` columns, or as many as there are singular values: their product is the sum over the first `chi` singular values. -/
structure Factors [Field K] (la : LinAlg K) (m : NDArray K) (n chi : Nat) (u v : NDArray K) : Prop where
  uWF : u.WF
  uShape : u.shape = [n, min chi n]
  vWF : v.WF
  vShape : v.shape = [n, min chi n]
  product : ∀ i < n, ∀ j < n, ∑ k ∈ range (min chi n), u.get [i, k] * v.get [j, k] =
    partialSVD (la.svd m).1 (la.svd m).2.1 (la.svd m).2.2 (range (min chi n)) i j

/-- The share of the singular values that is cut off: the sum of their squares over the sum of the squares of all. -/
def cutShare [Field K] (la : LinAlg K) (m : NDArray K) (chi : Nat) : K :=
  if (la.svd m).2.1.drop chi = [] then 0 else (((la.svd m).2.1.drop chi).map (· ^ 2)).sum / ((la.svd m).2.1.map (· ^ 2)).sum

/-- Nothing is lost: the singular values that are cut off are 0. -/
def LosslessSVD (la : LinAlg K) [Zero K] (m : NDArray K) (chi : Nat) : Prop := ∀ z ∈ (la.svd m).2.1.drop chi, z = 0

namespace SquareTRGState

/-- The matrix of the tensor of the object. -/
def mat [Zero K] (s : SquareTRGState K) : NDArray K := siteMatrix (s.a.dimOf s.st "u") (s.a.dimOf s.st "l") (s.a.site s.st)

/-- The same along the other diagonal. -/
def crossMat [Zero K] (s : SquareTRGState K) : NDArray K := crossMatrix (s.a.dimOf s.st "u") (s.a.dimOf s.st "l") (s.a.site s.st)

/-- The tensor of the object is one of the square lattice, and its network, if it has been made, is the one of `iterate`. -/
structure Good [Field K] (p : RGParams K) (s : SquareTRGState K) : Prop where
  wf : WFStore s.st
  a : SquareSite s.st s.a
  net : ∀ n, s.iterateFTN = some n → NetOf p squareContractOutFTN n

/-- The tensor of the object has been divided by the norm of its array, which is recorded, and a copy of the result is in the archive;
`t` is the tensor before the division. -/
structure Recorded [Field K] (p : RGParams K) (norms : List K) (archive : List (Tensor K × Nat)) (t : Tensor K) (s' : SquareTRGState K) : Prop where
  a : ∃ b, t.a = some b ∧ s'.aNorms = norms ++ [p.norm b] ∧ s'.a = { t with a := some (b.divBy (p.norm b)) } ∧
    ∀ u l d r, s'.a.site s'.st u l d r = t.site s'.st u l d r / p.norm b
  archive : ∃ c, s'.aArchive = archive ++ [(c, s'.dof)] ∧ SquareSite s'.st c ∧ SameSite s'.st s'.a s'.st c

/-- A new object. -/
structure Started [Field K] (p : RGParams K) (st : Store) (V H : Nat) (A : Nat → Nat → Nat → Nat → K) (dof : Option Nat) (chi : Nat)
    (s : SquareTRGState K) : Prop where
  kept : LegsUnchanged st s.st
  dof : s.dof = dof.getD 1
  chi : s.chi = chi
  empty : s.errors = []
  v : s.a.dimOf s.st "u" = V
  h : s.a.dimOf s.st "l" = H
  tensor : ∃ t, Recorded p [] [] t s ∧ ∀ u l d r, t.site s.st u l d r = A u l d r

/-- One step. -/
structure Iterated [Field K] (p : RGParams K) (la : LinAlg K) (s s' : SquareTRGState K) : Prop where
  dof : s'.dof = s.dof * 2
  chi : s'.chi = s.chi
  kept : LegsUnchanged s.st s'.st
  errors : s'.errors = s.errors ++ [(cutShare la s.mat s.chi, cutShare la s.crossMat s.chi)]
  v : s'.a.dimOf s'.st "u" = min s.chi (s.a.dimOf s.st "u" * s.a.dimOf s.st "l")
  h : s'.a.dimOf s'.st "l" = min s.chi (s.a.dimOf s.st "u" * s.a.dimOf s.st "l")
  tensor : ∃ t uA vA uB vB, Recorded p s.aNorms s.aArchive t s' ∧
    Factors la s.mat (s.a.dimOf s.st "u" * s.a.dimOf s.st "l") s.chi uA vA ∧
    Factors la s.crossMat (s.a.dimOf s.st "u" * s.a.dimOf s.st "l") s.chi uB vB ∧
    ∀ u < s'.a.dimOf s'.st "u", ∀ l < s'.a.dimOf s'.st "l", ∀ d < s'.a.dimOf s'.st "u", ∀ r < s'.a.dimOf s'.st "l",
      t.site s'.st u l d r = fourCorners (s.a.dimOf s.st "u") (s.a.dimOf s.st "l") (factorAt (s.a.dimOf s.st "l") uA)
        (factorAt (s.a.dimOf s.st "l") vA) (factorAt (s.a.dimOf s.st "l") uB) (factorAt (s.a.dimOf s.st "l") vB) u l d r

/-- The object after `n` calls of `iterate`. -/
def Ran [Field K] [LinearOrder K] [Star K] (p : RGParams K) (la : LinAlg K) (s0 : SquareTRGState K) (n : Nat) (s : SquareTRGState K) : Prop :=
  Settles (fun fuel => s0.iterateN p la fuel n) s

end SquareTRGState

/-- The partition function after `i` steps: a torus of `2 ^ i` sites, straight or tilted. -/
def trgTorus [CommSemiring K] (i V H : Nat) (A : Nat → Nat → Nat → Nat → K) : K :=
  if i % 2 = 0 then torus (2 ^ (i / 2)) (2 ^ (i / 2)) V H A else tiltedTorus (2 ^ (i / 2)) V H A

end CTL
