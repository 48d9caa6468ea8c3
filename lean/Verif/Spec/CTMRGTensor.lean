import Verif.Model.CTMRGTensor
import Verif.Spec.HOTRG
import Verif.Spec.Mixed
import Verif.Spec.Decompose
import Verif.Spec.OpenLattice

/-! What `CTMRG` is expected to compute. -/

namespace CTL
variable {K R : Type}

open Finset (range)

/-- A tensor, dense or diagonal, whose legs have the given labels, in any order, and no dimension 0. -/
structure AnyLabels (st : Store) (t : Tensor R) (labels : List String) : Prop where
  good : GoodTensor st t
  known : ∀ l ∈ t.legs, l < st.nextLeg
  pos : ∀ l ∈ t.legs, st.dim l ≠ 0
  labels : (t.legs.map st.name).Perm labels

/-! ### The entries of tensors -/

/-- A dense tensor with two legs and the entries `A`. -/
structure IsMatrix [Zero K] (st : Store) (t : Tensor K) (x y : String) (n m : Nat) (A : Nat → Nat → K) : Prop where
  labels : HasLabels st t [x, y]
  dx : t.dimOf st x = n
  dy : t.dimOf st y = m
  val : ∀ i < n, ∀ j < m, t.at st [(x, i), (y, j)] = A i j

/-- A diagonal tensor with two legs and the values `c` on the diagonal. -/
structure IsDiagonal [Zero K] (st : Store) (t : Tensor K) (x y : String) (n : Nat) (c : Nat → K) : Prop where
  labels : AnyLabels st t [x, y]
  diag : t.diag = true
  dx : t.dimOf st x = n
  dy : t.dimOf st y = n
  val : ∀ i < n, ∀ j < n, t.at st [(x, i), (y, j)] = if i = j then c i else 0

/-- A dense tensor with three legs, as one square matrix for each index of the leg `z`. -/
structure IsEdge [Zero K] (st : Store) (t : Tensor K) (x z y : String) (n D : Nat) (A : Nat → Nat → Nat → K) : Prop where
  labels : HasLabels st t [x, z, y]
  dx : t.dimOf st x = n
  dz : t.dimOf st z = D
  dy : t.dimOf st y = n
  val : ∀ k < D, ∀ i < n, ∀ j < n, t.at st [(x, i), (z, k), (y, j)] = A k i j

/-- The tensor at a site: `V` values for the legs `u` and `d`, `H` for `l` and `r`; `w` takes the indices of `l`, `r`, `u`, `d`. -/
structure IsCenter [Zero K] (st : Store) (t : Tensor K) (V H : Nat) (w : Nat → Nat → Nat → Nat → K) : Prop where
  labels : HasLabels st t ["u", "l", "d", "r"]
  du : t.dimOf st "u" = V
  dl : t.dimOf st "l" = H
  dd : t.dimOf st "d" = V
  dr : t.dimOf st "r" = H
  val : ∀ u < V, ∀ l < H, ∀ d < V, ∀ r < H, t.at st [("u", u), ("l", l), ("d", d), ("r", r)] = w l r u d

/-- The corner and the two edges before the dimensions are reduced. -/
structure IsWide [Zero K] (st : Store) (t : Trio (Tensor K)) (V H n m : Nat) (C : Nat → Nat → K) (v h : Nat → Nat → Nat → K) : Prop where
  corner : IsMatrix st t.corner "u" "r" n m C
  hEdge : IsEdge st t.hEdge "l" "u" "r" m V h
  vEdge : IsEdge st t.vEdge "u" "r" "d" n H v

/-- The corner and the two edges afterwards. -/
structure IsTrio [Zero K] (st : Store) (t : Trio (Tensor K)) (V H n : Nat) (c : Nat → K) (v h : Nat → Nat → Nat → K) : Prop where
  corner : IsDiagonal st t.corner "u" "r" n c
  hEdge : IsEdge st t.hEdge "l" "u" "r" n V h
  vEdge : IsEdge st t.vEdge "u" "r" "d" n H v

/-! ### One step in numbers -/

section
variable [CommSemiring K]

/-- A corner with an edge on either side and a site between them. -/
def wideCorner (w : Nat → Nat → Nat → Nat → K) (V H n : Nat) (c : Nat → K) (v h : Nat → Nat → Nat → K) (x y : Nat) : K :=
  ∑ m ∈ range V, ∑ k ∈ range H, ∑ i ∈ range n, v k (x / V) i * c i * h m i (y / H) * w k (y % H) (x % V) m

/-- A vertical edge with a site to its right. -/
def wideV (w : Nat → Nat → Nat → Nat → K) (V H : Nat) (v : Nat → Nat → Nat → K) (k x y : Nat) : K :=
  ∑ i ∈ range H, v i (x / V) (y / V) * w i k (x % V) (y % V)

/-- A horizontal edge with a site above it. -/
def wideH (w : Nat → Nat → Nat → Nat → K) (V H : Nat) (h : Nat → Nat → Nat → K) (k x y : Nat) : K :=
  ∑ i ∈ range V, h i (x / H) (y / H) * w (x % H) (y % H) k i

/-- A matrix as an array. -/
def matOf (n m : Nat) (C : Nat → Nat → K) : NDArray K := NDArray.build [n, m] fun idx => C (idx.getD 0 0) (idx.getD 1 0)

/-- A vertical edge between two copies of the left factor. -/
def cutV (U : NDArray K) (n : Nat) (v : Nat → Nat → Nat → K) (k i j : Nat) : K :=
  ∑ a ∈ range n, ∑ b ∈ range n, v k a b * U.get [a, i] * U.get [b, j]

/-- A horizontal edge between two copies of the right factor. -/
def cutH (W : NDArray K) (m : Nat) (h : Nat → Nat → Nat → K) (k i j : Nat) : K :=
  ∑ a ∈ range m, ∑ b ∈ range m, h k a b * W.get [i, a] * W.get [j, b]

end

/-- The entries of a diagonal corner and two edges, and the dimension of their legs. -/
structure Numbers (K : Type) where
  n : Nat
  c : Nat → K
  v : Nat → Nat → Nat → K
  h : Nat → Nat → Nat → K

namespace Numbers

/-- The corner and the edges of a lattice without sites. -/
def start [One K] : Numbers K := ⟨1, fun _ => 1, fun _ _ _ => 1, fun _ _ _ => 1⟩

/-- The corner with one more site in either direction. -/
def wide [CommSemiring K] (w : Nat → Nat → Nat → Nat → K) (V H : Nat) (N : Numbers K) : NDArray K :=
  matOf (N.n * V) (N.n * H) (wideCorner w V H N.n N.c N.v N.h)

/-- One more site in either direction, and the reduction to at most `chi` values. -/
def step [CommSemiring K] (la : LinAlg K) (chi : Nat) (w : Nat → Nat → Nat → Nat → K) (V H : Nat) (N : Numbers K) : Numbers K :=
  ⟨min chi (min (N.n * V) (N.n * H)), fun k => (la.svd (N.wide w V H)).2.1.getD k 0,
    cutV (la.svd (N.wide w V H)).1 (N.n * V) (wideV w V H N.v), cutH (la.svd (N.wide w V H)).2.2 (N.n * H) (wideH w V H N.h)⟩

/-- The corner, the horizontal and the vertical edge divided by three numbers. -/
def over [Div K] (N : Numbers K) (x y z : K) : Numbers K :=
  ⟨N.n, fun i => N.c i / x, fun k i j => N.v k i j / z, fun k i j => N.h k i j / y⟩

/-- Numbers that can be the norms of the corner and the edges. -/
structure Norms [Zero K] [LE K] (N : Numbers K) (V H : Nat) (x y z : K) : Prop where
  x0 : 0 ≤ x
  y0 : 0 ≤ y
  z0 : 0 ≤ z
  corner : x = 0 → ∀ i < N.n, N.c i = 0
  hEdge : y = 0 → ∀ k < V, ∀ i < N.n, ∀ j < N.n, N.h k i j = 0
  vEdge : z = 0 → ∀ k < H, ∀ i < N.n, ∀ j < N.n, N.v k i j = 0

/-- Four corners in a ring. -/
def even [CommSemiring K] (N : Numbers K) : K := ∑ i ∈ range N.n, N.c i ^ 4

/-- Four corners and four edges around one site. -/
def odd [CommSemiring K] (w : Nat → Nat → Nat → Nat → K) (V H : Nat) (N : Numbers K) : K :=
  ∑ u ∈ range V, ∑ d ∈ range V, ∑ r ∈ range H, ∑ l ∈ range H, ∑ m ∈ range N.n, ∑ k ∈ range N.n, ∑ j ∈ range N.n, ∑ i ∈ range N.n,
    N.c i * N.c k * N.c j * N.c m * N.h u i j * N.h d k m * N.v l i k * N.v r j m * w l r u d

end Numbers

/-- The corner and the two edges have the entries `N`. -/
def Trio.Is [Zero K] (st : Store) (t : Trio (Tensor K)) (V H : Nat) (N : Numbers K) : Prop := IsTrio st t V H N.n N.c N.v N.h

/-- Logarithm and exponential. -/
structure LogExp [Field K] [LinearOrder K] (log exp : K → K) : Prop where
  zero : exp 0 = 1
  add : ∀ a b, exp (a + b) = exp a * exp b
  log : ∀ x, 0 < x → exp (log x) = x

end CTL
