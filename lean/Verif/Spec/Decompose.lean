import Verif.Model.Decompose
import Verif.Spec.Contraction
import Verif.Spec.Links
import Mathlib.Algebra.BigOperators.Group.Finset.Basic
import Mathlib.Algebra.Star.BigOperators

/-! What the truncated decompositions are expected to do. -/

namespace CTL
variable {R : Type}
open Finset

/-- `u · diag(s) · vh` cut to the values of the positions in `ks`. -/
def partialSVD [CommSemiring R] (u : NDArray R) (s : List R) (vh : NDArray R) (ks : Finset Nat) (i j : Nat) : R :=
  ∑ k ∈ ks, u.get [i, k] * s.getD k 0 * vh.get [k, j]

/-- A decomposition of the `n × m` matrix `a`: full square matrices on either side, `min n m` values between. -/
structure IsSVD [CommSemiring R] (a : NDArray R) (n m : Nat) (o : NDArray R × List R × NDArray R) : Prop where
  uWF : o.1.WF
  uShape : o.1.shape = [n, n]
  sLen : o.2.1.length = min n m
  vWF : o.2.2.WF
  vShape : o.2.2.shape = [m, m]
  exact : ∀ i < n, ∀ j < m, a.get [i, j] = partialSVD o.1 o.2.1 o.2.2 (range (min n m)) i j

/-- The columns of `u` and the rows of `vh` are orthonormal. -/
structure IsUnitarySVD [CommRing R] [StarRing R] (a : NDArray R) (n m : Nat) (o : NDArray R × List R × NDArray R) : Prop
    extends IsSVD a n m o where
  uOrtho : ∀ k < n, ∀ l < n, ∑ i ∈ range n, star (o.1.get [i, k]) * o.1.get [i, l] = if k = l then 1 else 0
  vOrtho : ∀ k < m, ∀ l < m, ∑ j ∈ range m, star (o.2.2.get [k, j]) * o.2.2.get [l, j] = if k = l then 1 else 0

/-- What is assumed about the numerical routines: exact decompositions of all matrices, and square roots of the
singular values. -/
structure ExactLinAlg [CommSemiring R] (la : LinAlg R) : Prop where
  svd : ∀ a n m, a.WF → a.shape = [n, m] → IsSVD a n m (la.svd a)
  sqrt : ∀ a n m, a.WF → a.shape = [n, m] → ∀ x ∈ (la.svd a).2.1, la.sqrt x * la.sqrt x = x

/-- The values counted as non-zero come first, and all others are zero. -/
def RankRevealing [CommSemiring R] (la : LinAlg R) : Prop :=
  ∀ a n m, a.WF → a.shape = [n, m] → ∃ pre post, (la.svd a).2.1 = pre ++ post ∧ (∀ x ∈ pre, la.isNonZero x = true) ∧
    ∀ x ∈ post, x = 0 ∧ la.isNonZero x = false

/-- Every decomposition is unitary. -/
def UnitaryLinAlg [CommRing R] [StarRing R] (la : LinAlg R) : Prop :=
  ∀ a n m, a.WF → a.shape = [n, m] → IsUnitarySVD a n m (la.svd a)

/-- A product of two matrices has at most as many values counted as non-zero as the size of the index summed over. -/
def RankBounded [CommSemiring R] (la : LinAlg R) : Prop :=
  ∀ a n m, a.WF → a.shape = [n, m] → ∀ (D : Nat) (A B : Nat → Nat → R),
    (∀ i < n, ∀ j < m, a.get [i, j] = ∑ d ∈ range D, A i d * B d j) → (la.svd a).2.1.countP la.isNonZero ≤ D

/-- `u` and `v` are dense tensors joined by one new bond of dimension `k` whose legs are called `na` and `nb`; `u` has
the legs `LA` and `v` the legs `LB` besides; all legs that existed before keep their dimension and bond, and their name
except for the legs `gone`. -/
structure Split (st st' : Store) (gone LA LB : List LegId) (k : Nat) (na nb : String) (u v : Tensor R) (x y : LegId) : Prop where
  legsU : u.legs = LA ++ [x]
  legsV : v.legs = y :: LB
  newX : st.nextLeg ≤ x ∧ x < st'.nextLeg
  newY : st.nextLeg ≤ y ∧ y < st'.nextLeg
  ne : x ≠ y
  grow : st.nextLeg ≤ st'.nextLeg
  dimX : st'.dim x = k
  dimY : st'.dim y = k
  nameX : st'.name x = na
  nameY : st'.name y = nb
  joined : st'.partner x = some y ∧ st'.partner y = some x
  oldDim : ∀ l < st.nextLeg, st'.dim l = st.dim l
  oldName : ∀ l < st.nextLeg, l ∉ gone → st'.name l = st.name l
  oldBond : ∀ l < st.nextLeg, (st'.leg l).bond = (st.leg l).bond
  oldPartner : ∀ l < st.nextLeg, st'.partner l = st.partner l
  wf : WFStore st'
  goodU : GoodTensor st' u
  goodV : GoodTensor st' v
  denseU : u.diag = false
  denseV : v.diag = false

/-- The same, with the order of the legs left open. -/
structure SplitP (st st' : Store) (gone LA LB : List LegId) (k : Nat) (na nb : String) (u v : Tensor R) (x y : LegId) : Prop where
  legsU : u.legs.Perm (x :: LA)
  legsV : v.legs.Perm (y :: LB)
  newX : st.nextLeg ≤ x ∧ x < st'.nextLeg
  newY : st.nextLeg ≤ y ∧ y < st'.nextLeg
  ne : x ≠ y
  grow : st.nextLeg ≤ st'.nextLeg
  dimX : st'.dim x = k
  dimY : st'.dim y = k
  nameX : st'.name x = na
  nameY : st'.name y = nb
  joined : st'.partner x = some y ∧ st'.partner y = some x
  oldDim : ∀ l < st.nextLeg, st'.dim l = st.dim l
  oldName : ∀ l < st.nextLeg, l ∉ gone → st'.name l = st.name l
  oldBond : ∀ l < st.nextLeg, (st'.leg l).bond = (st.leg l).bond
  oldPartner : ∀ l < st.nextLeg, st'.partner l = st.partner l
  wf : WFStore st'
  goodU : GoodTensor st' u
  goodV : GoodTensor st' v
  denseU : u.diag = false
  denseV : v.diag = false

/-- The three-factor form: `u` with the legs `LA` and `x`, a diagonal tensor `s` with the legs `x'` and `y'`, and `v` with
the legs `y` and `LB`; `x` is joined to `x'` and `y` to `y'`, all four are new and have dimension `k`. -/
structure Split3 (st st' : Store) (gone LA LB : List LegId) (k : Nat) (na nb : String) (u s v : Tensor R)
    (x x' y' y : LegId) : Prop where
  legsU : u.legs = LA ++ [x]
  legsS : s.legs = [x', y']
  legsV : v.legs = y :: LB
  isNew : ∀ z ∈ [x, x', y', y], st.nextLeg ≤ z ∧ z < st'.nextLeg
  nodup : [x, x', y', y].Nodup
  grow : st.nextLeg ≤ st'.nextLeg
  dims : ∀ z ∈ [x, x', y', y], st'.dim z = k
  names : st'.name x = na ∧ st'.name x' = nb ∧ st'.name y' = na ∧ st'.name y = nb
  joinedX : st'.partner x = some x' ∧ st'.partner x' = some x
  joinedY : st'.partner y = some y' ∧ st'.partner y' = some y
  oldDim : ∀ l < st.nextLeg, st'.dim l = st.dim l
  oldName : ∀ l < st.nextLeg, l ∉ gone → st'.name l = st.name l
  oldBond : ∀ l < st.nextLeg, (st'.leg l).bond = (st.leg l).bond
  oldPartner : ∀ l < st.nextLeg, st'.partner l = st.partner l
  wf : WFStore st'
  goodU : GoodTensor st' u
  goodS : GoodTensor st' s
  goodV : GoodTensor st' v
  denseU : u.diag = false
  diagS : s.diag = true
  denseV : v.diag = false

/-- The legs of the product of `ta` and `tb` that go to the first factor: the uncontracted legs of `ta` except the
exchanged ones, and the exchanged ones of `tb`. -/
def sideA (st : Store) (ta tb : Tensor R) (swapA swapB : List String) : List LegId :=
  (ta.legs.filter fun l => decide ((∀ m ∈ tb.legs, st.partner l ≠ some m) ∧ st.name l ∉ swapA)) ++
    tb.legs.filter fun l => decide ((∀ m ∈ ta.legs, st.partner l ≠ some m) ∧ st.name l ∈ swapB)

/-- The legs that go to the second factor. -/
def sideB (st : Store) (ta tb : Tensor R) (swapA swapB : List String) : List LegId :=
  (ta.legs.filter fun l => decide ((∀ m ∈ tb.legs, st.partner l ≠ some m) ∧ st.name l ∈ swapA)) ++
    tb.legs.filter fun l => decide ((∀ m ∈ ta.legs, st.partner l ≠ some m) ∧ st.name l ∉ swapB)

/-- Two linked dense tensors that `SchimdtDecomposition` accepts: the names on a tensor are different and contain no
dash, they stay different on either side after the exchange, and both sides have a leg. -/
structure SchmidtInput (st : Store) (ta tb : Tensor R) (swapA swapB : List String) : Prop where
  wf : WFStore st
  goodA : GoodTensor st ta
  goodB : GoodTensor st tb
  denseA : ta.diag = false
  denseB : tb.diag = false
  disj : ∀ x ∈ ta.legs, x ∉ tb.legs
  oldA : ∀ l ∈ ta.legs, l < st.nextLeg
  oldB : ∀ l ∈ tb.legs, l < st.nextLeg
  namesA : (ta.legs.map st.name).Nodup
  namesB : (tb.legs.map st.name).Nodup
  dashA : ∀ l ∈ ta.legs, '-' ∉ (st.name l).toList
  dashB : ∀ l ∈ tb.legs, '-' ∉ (st.name l).toList
  share : ∃ l ∈ ta.legs, ∃ m ∈ tb.legs, st.partner l = some m
  swapLen : swapA.length = swapB.length
  swapInA : ∀ n ∈ swapA, n ∈ ta.legs.map st.name
  swapInB : ∀ n ∈ swapB, n ∈ tb.legs.map st.name
  namesU : ((sideA st ta tb swapA swapB).map st.name).Nodup
  namesV : ((sideB st ta tb swapA swapB).map st.name).Nodup
  neA : sideA st ta tb swapA swapB ≠ []
  neB : sideB st ta tb swapA swapB ≠ []

/-- `m` is the matrix with rows `LA` and columns `LB` (in C order) of the tensor with entries `f`. -/
def IsMatrixOf [Zero R] (dim : LegId → Nat) (LA LB : List LegId) (f : Assign → R) (m : NDArray R) : Prop :=
  m.WF ∧ m.shape = [(LA.map dim).prod, (LB.map dim).prod] ∧
    ∀ σ, InRange dim (LA ++ LB) σ → m.get [ravel (LA.map dim) (LA.map σ), ravel (LB.map dim) (LB.map σ)] = f σ

/-- What is said about a cut: the new tensors, the number of values kept, and what they multiply to. -/
structure Cut [CommSemiring R] (la : LinAlg R) (st st' : Store) (gone LA LB : List LegId) (f : Assign → R) (chi : Nat)
    (na nb : String) (mat : NDArray R) (u v : Tensor R) (x y : LegId) : Prop where
  isMat : IsMatrixOf st.dim LA LB f mat
  split : Split st st' gone LA LB (min chi ((la.svd mat).2.1.countP la.isNonZero)) na nb u v x y
  value : ∀ σ, InRange st.dim (LA ++ LB) σ → sumBonds st'.dim [(x, y)] (fun τ => entry u τ * entry v τ) σ =
    partialSVD (la.svd mat).1 (la.svd mat).2.1 (la.svd mat).2.2 (range (min chi ((la.svd mat).2.1.countP la.isNonZero)))
      (ravel (LA.map st.dim) (LA.map σ)) (ravel (LB.map st.dim) (LB.map σ))

/-- The same for the three-factor form, where the factors themselves are the cut `u`, `s` and `vh`. -/
structure Cut3 [CommSemiring R] (la : LinAlg R) (st st' : Store) (gone LA LB : List LegId) (f : Assign → R) (chi : Nat)
    (na nb : String) (mat : NDArray R) (u s v : Tensor R) (x x' y' y : LegId) : Prop where
  isMat : IsMatrixOf st.dim LA LB f mat
  split : Split3 st st' gone LA LB (min chi ((la.svd mat).2.1.countP la.isNonZero)) na nb u s v x x' y' y
  entU : ∀ σ, InRange st.dim LA σ → σ x < min chi ((la.svd mat).2.1.countP la.isNonZero) →
    entry u σ = (la.svd mat).1.get [ravel (LA.map st.dim) (LA.map σ), σ x]
  entS : ∀ σ, σ x' < min chi ((la.svd mat).2.1.countP la.isNonZero) →
    entry s σ = if σ y' = σ x' then (la.svd mat).2.1.getD (σ x') 0 else 0
  entV : ∀ σ, InRange st.dim LB σ → σ y < min chi ((la.svd mat).2.1.countP la.isNonZero) →
    entry v σ = (la.svd mat).2.2.get [σ y, ravel (LB.map st.dim) (LB.map σ)]

/-- A cut where the first factor is the cut `u` and the second one takes the singular values. -/
structure LeftCut [CommSemiring R] (la : LinAlg R) (st st' : Store) (gone LA LB : List LegId) (f : Assign → R) (chi : Nat)
    (na nb : String) (mat : NDArray R) (u v : Tensor R) (x y : LegId) : Prop where
  isMat : IsMatrixOf st.dim LA LB f mat
  split : SplitP st st' gone LA LB (min chi ((la.svd mat).2.1.countP la.isNonZero)) na nb u v x y
  entU : ∀ σ, InRange st.dim LA σ → σ x < min chi ((la.svd mat).2.1.countP la.isNonZero) →
    entry u σ = (la.svd mat).1.get [ravel (LA.map st.dim) (LA.map σ), σ x]
  entV : ∀ σ, InRange st.dim LB σ → σ y < min chi ((la.svd mat).2.1.countP la.isNonZero) →
    entry v σ = (la.svd mat).2.1.getD (σ y) 0 * (la.svd mat).2.2.get [σ y, ravel (LB.map st.dim) (LB.map σ)]

/-- The sum over all values of the legs `ls`. -/
def sumLegs [AddMonoid R] (dim : LegId → Nat) : List LegId → (Assign → R) → Assign → R
  | [], f, σ => f σ
  | l :: ls, f, σ => ((List.range (dim l)).map fun k => sumLegs dim ls f (σ.set l k)).sum

/-- `t` is an isometry from the leg `x` to the legs `L`: `Σ_L conj(t[L, a]) t[L, b] = δ_ab`. -/
def IsometryAt [Semiring R] [StarRing R] (st : Store) (t : Tensor R) (L : List LegId) (x : LegId) : Prop :=
  ∀ σ a b, a < st.dim x → b < st.dim x →
    sumLegs st.dim L (fun τ => star (entry t (τ.set x a)) * entry t (τ.set x b)) σ = if a = b then 1 else 0

end CTL
