import Verif.Model.HOTRG
import Verif.Spec.ContractExp
import Verif.Spec.Torus

/-! What HOTRG is expected to compute. -/

namespace CTL
variable {K : Type}

open Finset (range)

/-- The computation returns `r` whenever it is allowed enough rounds. -/
def Settles {α : Type} (X : Nat → Except PyErr α) (r : α) : Prop := ∃ rounds, ∀ fuel, rounds ≤ fuel → X fuel = .ok r

/-- Eigenvalues in ascending order and an orthonormal basis of eigenvectors, the columns of the second array. -/
structure IsEigh [Field K] [LinearOrder K] (m : NDArray K) (n : Nat) (o : List K × NDArray K) : Prop where
  len : o.1.length = n
  wf : o.2.WF
  shape : o.2.shape = [n, n]
  sorted : o.1.Pairwise (· ≤ ·)
  eig : ∀ i < n, ∀ j < n, ∑ k ∈ range n, m.get [i, k] * o.2.get [k, j] = o.1.getD j 0 * o.2.get [i, j]
  orth : ∀ i < n, ∀ j < n, ∑ k ∈ range n, o.2.get [k, i] * o.2.get [k, j] = if i = j then 1 else 0

/-- What is assumed of `numpy.linalg.eigh`: it diagonalizes every symmetric matrix, without rounding. -/
def ExactEigh [Field K] [LinearOrder K] (eigh : NDArray K → List K × NDArray K) : Prop :=
  ∀ m n, m.WF → m.shape = [n, n] → (∀ i < n, ∀ j < n, m.get [i, j] = m.get [j, i]) → IsEigh m n (eigh m)

/-- The entry of a tensor of the square lattice. -/
def Tensor.site [Zero K] (t : Tensor K) (st : Store) (u l d r : Nat) : K :=
  t.at st [("u", u), ("l", l), ("d", d), ("r", r)]

/-- A tensor of the square lattice: the dimensions of opposite legs agree. -/
structure SquareSite (st : Store) (t : Tensor K) : Prop where
  labels : HasLabels st t ["u", "l", "d", "r"]
  v : t.dimOf st "u" = t.dimOf st "d"
  h : t.dimOf st "l" = t.dimOf st "r"

/-- Rows and columns exchanged. -/
def flipped (A : Nat → Nat → Nat → Nat → K) (l u r d : Nat) : K := A u l d r

/-- A tensor `A` above a tensor `B`. -/
def pairN [CommSemiring K] (V : Nat) (A B : Nat → Nat → Nat → Nat → K) (u x1 x2 d y1 y2 : Nat) : K :=
  ∑ m ∈ range V, A u x1 m y1 * B m x2 d y2

/-- A tensor `A` above a tensor `B`, with `P` at either side. -/
def projectedN [CommSemiring K] (V H : Nat) (A B : Nat → Nat → Nat → Nat → K) (P : Nat → Nat → Nat → K) (u o d o' : Nat) : K :=
  ∑ x1 ∈ range H, ∑ x2 ∈ range H, ∑ y1 ∈ range H, ∑ y2 ∈ range H, pairN V A B u x1 x2 d y1 y2 * P x1 x2 o * P y1 y2 o'

/-- The projector as a function of the two indices it combines, each below `n`. -/
def prjAt [Zero K] (n : Nat) (P : NDArray K) (x1 x2 o : Nat) : K := P.get [x1 * n + x2, o]

/-- The tensor of a pair of sites, one above the other for `l` and `r`, side by side for `u` and `d`, with the projector `P` at
the two sides with two legs. -/
def mergedSite [CommSemiring K] (V H : Nat) (A B : Nat → Nat → Nat → Nat → K) (P : NDArray K) (d : RGDir) : Nat → Nat → Nat → Nat → K :=
  if d.horizontal then projectedN V H A B (prjAt H P)
  else flipped (projectedN H V (flipped A) (flipped B) (prjAt V P))

/-- The vertical dimension after merging. -/
def mergedV (V k : Nat) (d : RGDir) : Nat := if d.horizontal then V else k

/-- The horizontal dimension after merging. -/
def mergedH (H k : Nat) (d : RGDir) : Nat := if d.horizontal then k else H

/-- A pair of tensors, one above the other, times itself, summed over all indices but those on the left. -/
def envLeft [CommSemiring K] (V H : Nat) (A : Nat → Nat → Nat → Nat → K) (x y : Nat) : K :=
  ∑ u ∈ range V, ∑ d ∈ range V, ∑ r1 ∈ range H, ∑ r2 ∈ range H,
    stackedN V A u (x / H) (x % H) d r1 r2 * stackedN V A u (y / H) (y % H) d r1 r2

/-- The same for the indices on the right. -/
def envRight [CommSemiring K] (V H : Nat) (A : Nat → Nat → Nat → Nat → K) (x y : Nat) : K :=
  ∑ u ∈ range V, ∑ d ∈ range V, ∑ l1 ∈ range H, ∑ l2 ∈ range H,
    stackedN V A u l1 l2 d (x / H) (x % H) * stackedN V A u l1 l2 d (y / H) (y % H)

/-- The number of pairs of indices at one side of a pair of tensors. -/
def envSize (V H : Nat) (d : RGDir) : Nat := if d.horizontal then H * H else V * V

/-- The environment of one side of a pair of tensors: one above the other for `l` and `r`, side by side for `u` and `d`. -/
def envEntry [CommSemiring K] (V H : Nat) (A : Nat → Nat → Nat → Nat → K) : RGDir → Nat → Nat → K
  | .l => envLeft V H A
  | .r => envRight V H A
  | .u => envLeft H V (flipped A)
  | .d => envRight H V (flipped A)

/-- The same as a matrix. -/
def envMatrix [CommSemiring K] (V H : Nat) (A : Nat → Nat → Nat → Nat → K) (d : RGDir) : NDArray K :=
  NDArray.build [envSize V H d, envSize V H d] fun idx => envEntry V H A d (idx.getD 0 0) (idx.getD 1 0)

/-- How many eigenvectors of the matrix are kept. -/
def envKept [Field K] [LinearOrder K] (p : RGParams K) (m : NDArray K) (chi : Nat) : Nat :=
  min chi ((p.eigh m).1.countP fun x => decide (p.threshold < x))

/-- Nothing is lost: the eigenvectors that are cut off belong to the eigenvalue 0. -/
def Lossless [Field K] [LinearOrder K] (p : RGParams K) (m : NDArray K) (chi : Nat) : Prop :=
  envKept p m chi ≠ 0 → ∀ i < (p.eigh m).1.length - envKept p m chi, (p.eigh m).1.getD i 0 = 0

/-- All legs of the first store are in the second one, unchanged. -/
structure LegsUnchanged (st st' : Store) : Prop where
  le : st.nextLeg ≤ st'.nextLeg
  leg : ∀ l < st.nextLeg, st'.leg l = st.leg l

/-- The bond dimension for a direction. -/
def HOTRGState.chi (s : HOTRGState K) (d : RGDir) : Nat := if d.horizontal then s.chiH else s.chiV

/-- The environment of the tensor of the object. -/
def HOTRGState.env [Field K] (s : HOTRGState K) (d : RGDir) : NDArray K :=
  envMatrix (s.a.dimOf s.st "u") (s.a.dimOf s.st "l") (s.a.site s.st) d

/-- A network made by `make` and used for any contractions since then. -/
def NetOf [Field K] (p : RGParams K) (make : Nat → Except PyErr (FTN × List String)) (net : Net) : Prop :=
  ∃ list f calls, make list = .ok (f, net.2) ∧ net.1 = f.after p.rand p.cast net.2 calls

/-- The network of a direction. -/
def projectMake : RGDir → Nat → Except PyErr (FTN × List String)
  | .l => fun list => squareHorizontalContractFTN list "l"
  | .r => fun list => squareHorizontalContractFTN list "r"
  | .u => fun list => squareVerticalContractFTN list "u"
  | .d => fun list => squareVerticalContractFTN list "d"

/-- The tensor of the object is one of the square lattice, and its networks are those made by the constructor. -/
structure HGood [Field K] (p : RGParams K) (s : HOTRGState K) : Prop where
  wf : WFStore s.st
  a : SquareSite s.st s.a
  horizontal : NetOf p HOTRGHorizontalContractFTN s.horizontalIterate
  vertical : NetOf p HOTRGVerticalContractFTN s.verticalIterate
  project : ∀ d, NetOf p (projectMake d) (s.project d)

/-- The error of a direction. -/
def HOTRGState.errorOf [Field K] [LinearOrder K] (p : RGParams K) (s : HOTRGState K) (d : RGDir) : K := (solveEnv p (s.env d) (s.chi d)).2

/-- The projector of a direction. -/
def HOTRGState.projectorOf [Field K] [LinearOrder K] (p : RGParams K) (s : HOTRGState K) (d : RGDir) : NDArray K :=
  (solveEnv p (s.env d) (s.chi d)).1

/-- Two tensors of the square lattice with the same dimensions and entries. -/
structure SameSite [Zero K] (st : Store) (t : Tensor K) (st' : Store) (t' : Tensor K) : Prop where
  v : t'.dimOf st' "u" = t.dimOf st "u"
  h : t'.dimOf st' "l" = t.dimOf st "l"
  val : ∀ u l d r, t'.site st' u l d r = t.site st u l d r

/-- The tensor of the object has been divided by the norm `c` of its array, which is recorded, and a copy of the result is in
the archive; `t` is the tensor before the division. -/
structure Normalized [Field K] (p : RGParams K) (norms : List K) (archive : List (Tensor K × Nat)) (t : Tensor K) (s' : HOTRGState K) : Prop where
  a : ∃ b, t.a = some b ∧ s'.aNorms = norms ++ [p.norm b] ∧ s'.a = { t with a := some (b.divBy (p.norm b)) } ∧
    ∀ u l d r, s'.a.site s'.st u l d r = t.site s'.st u l d r / p.norm b
  archive : ∃ c, s'.aArchive = archive ++ [(c, s'.dof)] ∧ SquareSite s'.st c ∧ SameSite s'.st s'.a s'.st c

/-- What the constructor is given: a tensor, or an array with the axes `u`, `l`, `d`, `r`. -/
def InitialSite [Zero K] (st : Store) (V H : Nat) (A : Nat → Nat → Nat → Nat → K) : Tensor K ⊕ NDArray K → Prop
  | .inl t => SquareSite st t ∧ t.dimOf st "u" = V ∧ t.dimOf st "l" = H ∧ t.site st = A
  | .inr x => x.WF ∧ x.shape = [V, H, V, H] ∧ V ≠ 0 ∧ H ≠ 0 ∧ ∀ u l d r, x.get [u, l, d, r] = A u l d r

/-- A new object. -/
structure Started [Field K] (p : RGParams K) (st : Store) (V H : Nat) (A : Nat → Nat → Nat → Nat → K) (dof : Option Nat) (chiH : Nat)
    (chiV : Option Nat) (s : HOTRGState K) : Prop where
  kept : LegsUnchanged st s.st
  dof : s.dof = dof.getD 1
  chi : s.chiH = chiH ∧ s.chiV = chiV.getD chiH
  empty : s.errors = [] ∧ s.directChoices = [] ∧ s.projectors = []
  v : s.a.dimOf s.st "u" = V
  h : s.a.dimOf s.st "l" = H
  tensor : ∃ t, Normalized p [] [] t s ∧ ∀ u l d r, t.site s.st u l d r = A u l d r

/-- The object after `n` calls of `iterate`. -/
def Run [Field K] [LinearOrder K] [Star K] (p : RGParams K) (s0 : HOTRGState K) (n : Nat) (s : HOTRGState K) : Prop :=
  Settles (fun fuel => s0.iterateN p fuel n) s

/-- One step, in direction `d`. -/
structure Iterated [Field K] [LinearOrder K] (p : RGParams K) (s s' : HOTRGState K) (d : RGDir) : Prop where
  choice : s'.directChoices = s.directChoices ++ [d]
  projector : s'.projectors = s.projectors ++ [s.projectorOf p d]
  error : s'.errors = s.errors ++ [s.errorOf p d]
  best : ∀ x, s.errorOf p d ≤ s.errorOf p x
  first : ∃ before after, [RGDir.u, .d, .l, .r] = before ++ d :: after ∧ ∀ x ∈ before, s.errorOf p d < s.errorOf p x
  dof : s'.dof = s.dof * 2
  chi : s'.chiH = s.chiH ∧ s'.chiV = s.chiV
  kept : LegsUnchanged s.st s'.st
  v : s'.a.dimOf s'.st "u" = mergedV (s.a.dimOf s.st "u") ((s.projectorOf p d).shape.getD 1 0) d
  h : s'.a.dimOf s'.st "l" = mergedH (s.a.dimOf s.st "l") ((s.projectorOf p d).shape.getD 1 0) d
  tensor : ∃ t, Normalized p s.aNorms s.aArchive t s' ∧
    ∀ u < s'.a.dimOf s'.st "u", ∀ l < s'.a.dimOf s'.st "l", ∀ d' < s'.a.dimOf s'.st "u", ∀ r < s'.a.dimOf s'.st "l",
      t.site s'.st u l d' r =
        mergedSite (s.a.dimOf s.st "u") (s.a.dimOf s.st "l") (s.a.site s.st) (s.a.site s.st) (s.projectorOf p d) d u l d' r

/-- The factor that all normalizations together have taken out of the tensor that the last one is about: every step uses the tensor twice. -/
def totalScale [Field K] (norms : List K) : K := norms.foldl (fun c x => c ^ 2 * x) 1

/-- How many of the steps have merged rows. -/
def rowSteps (ds : List RGDir) : Nat := ds.countP fun d => d.horizontal

/-- How many of the steps have merged columns. -/
def colSteps (ds : List RGDir) : Nat := ds.countP fun d => !d.horizontal

end CTL
