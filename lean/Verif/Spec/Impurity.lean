import Verif.Model.Impurity
import Verif.Spec.HOTRG
import Verif.Spec.Plaquette

/-! What `ImpurityTensorNetwork` is expected to measure. -/

namespace CTL
variable {K : Type}

open Finset (range)

/-- The number of marks at a place. -/
def marksAt {S : Type} [DecidableEq S] {k : Nat} (f : Fin k → S) (s : S) : Nat := (Finset.univ.filter fun m => f m = s).card

/-- The torus with `k` marks, summed over their places: a site with `j` marks has the tensor `A j`. -/
def markedTorus {R : Type} [CommSemiring R] (rows cols V H : Nat) (A : Nat → Nat → Nat → Nat → Nat → R) (k : Nat) : R :=
  ∑ f : Fin k → Fin rows × Fin cols, torusOf rows cols V H fun i j => A (marksAt f (i, j))

/-- The vector `w` annihilates the pair of `A` above `B`, at the two legs on the left. -/
def KillsLeft [CommSemiring K] (V H : Nat) (A B : Nat → Nat → Nat → Nat → K) (w : Nat → K) : Prop :=
  ∀ u < V, ∀ d < V, ∀ r1 < H, ∀ r2 < H, ∑ x ∈ range (H * H), w x * pairN V A B u (x / H) (x % H) d r1 r2 = 0

/-- The same on the right. -/
def KillsRight [CommSemiring K] (V H : Nat) (A B : Nat → Nat → Nat → Nat → K) (w : Nat → K) : Prop :=
  ∀ u < V, ∀ d < V, ∀ l1 < H, ∀ l2 < H, ∑ x ∈ range (H * H), w x * pairN V A B u l1 l2 d (x / H) (x % H) = 0

/-- The vector annihilates the pair at the side `d`. -/
def KillsPair [CommSemiring K] (V H : Nat) (A B : Nat → Nat → Nat → Nat → K) (w : Nat → K) : RGDir → Prop
  | .l => KillsLeft V H A B w
  | .r => KillsRight V H A B w
  | .u => KillsLeft H V (flipped A) (flipped B) w
  | .d => KillsRight H V (flipped A) (flipped B) w

/-- Nothing of the pair is lost: the eigenvectors of the environment that are cut off annihilate it. -/
def KeepsPair [Field K] [LinearOrder K] (p : RGParams K) (m : NDArray K) (chi : Nat) (V H : Nat) (A B : Nat → Nat → Nat → Nat → K) (d : RGDir) :
    Prop :=
  envKept p m chi ≠ 0 → ∀ i < (p.eigh m).1.length - envKept p m chi, KillsPair V H A B (fun x => (p.eigh m).2.get [x, i]) d

/-- Tensors of the square lattice with the same dimensions. -/
def Sites (st : Store) (V H : Nat) (ts : List (DofTensor K)) : Prop :=
  ∀ x ∈ ts, SquareSite st x.1 ∧ x.1.dimOf st "u" = V ∧ x.1.dimOf st "l" = H

/-- The entries of tensor number `k`. -/
def siteOf [Zero K] (st : Store) (ts : List (DofTensor K)) (k : Nat) : Nat → Nat → Nat → Nat → K :=
  match ts[k]? with
  | some t => t.1.site st
  | none => fun _ _ _ _ => 0

/-! ### The archives -/

namespace HOTRGState

/-- The vertical dimension of the archived tensor of step `i`. -/
def dimV (s : HOTRGState K) (i : Nat) : Nat := ((s.aArchive[i]?).map fun x => x.1.dimOf s.st "u").getD 0

/-- The horizontal dimension. -/
def dimH (s : HOTRGState K) (i : Nat) : Nat := ((s.aArchive[i]?).map fun x => x.1.dimOf s.st "l").getD 0

/-- Its entries. -/
def siteAt [Zero K] (s : HOTRGState K) (i : Nat) : Nat → Nat → Nat → Nat → K :=
  match s.aArchive[i]? with
  | some x => x.1.site s.st
  | none => fun _ _ _ _ => 0

/-- Its environment. -/
def envAt [Field K] (s : HOTRGState K) (i : Nat) (d : RGDir) : NDArray K := envMatrix (s.dimV i) (s.dimH i) (s.siteAt i) d

end HOTRGState

/-- The entries of the archived impurity of step `i` and order `k`. -/
def ImpurityNet.siteAt [Zero K] (net : ImpurityNet K) (st : Store) (i k : Nat) : Nat → Nat → Nat → Nat → K :=
  siteOf st (net.archive.getD i []) k

/-! ### Using the objects -/

/-- What an `ImpurityTensorNetwork` was made of: the number of orders, the `degreeOfFreedom` of the first impurity, and the entries of
the impurities. -/
structure ImpSource (K : Type) where
  order : Nat
  dof : Option Nat
  A : Nat → Nat → Nat → Nat → Nat → K

/-- What was given to the constructor. -/
def impSource [Zero K] (st : Store) (ts : List (DofTensor K)) (order : Option Nat) : ImpSource K :=
  ⟨order.getD ts.length, (ts[0]?).bind Prod.snd, siteOf st ts⟩

/-- All states of a `HOTRG` object and of any number of `ImpurityTensorNetwork` objects that use it, reached by calls in any order. -/
inductive Reach [Field K] [LinearOrder K] [Star K] (p : RGParams K) (V H : Nat) (s0 : HOTRGState K) :
    HOTRGState K → List (ImpSource K × ImpurityNet K) → Prop
  /-- the new `HOTRG` object -/
  | start : Reach p V H s0 s0 []
  /-- anything that does not change the legs that exist -/
  | other {s nets st'} : Reach p V H s0 s nets → LegsUnchanged s.st st' → WFStore st' → Reach p V H s0 { s with st := st' } nets
  /-- `HOTRG.iterate` -/
  | rg {s nets s'} : Reach p V H s0 s nets → Settles (fun fuel => s.iterate p fuel) s' → Reach p V H s0 s' nets
  /-- `ImpurityTensorNetwork.__init__` -/
  | make {s nets ts order st' net} : Reach p V H s0 s nets → Sites s.st V H ts → order.getD ts.length ≤ ts.length →
    ImpurityNet.new p s.st ts order = .ok (st', net) → Reach p V H s0 { s with st := st' } (nets ++ [(impSource s.st ts order, net)])
  /-- `initialize`, as called by `iterate`, also by one that fails later -/
  | init {s nets src net s' net'} {j : Nat} : Reach p V H s0 s nets → nets[j]? = some (src, net) → net.ensure p s = .ok (s', net') →
    Reach p V H s0 s' (nets.set j (src, net'))
  /-- `ImpurityTensorNetwork.iterate` -/
  | imp {s nets src net s' net'} {j : Nat} : Reach p V H s0 s nets → nets[j]? = some (src, net) →
    Settles (fun fuel => net.iterate p fuel s) (s', net') → Reach p V H s0 s' (nets.set j (src, net'))

end CTL
