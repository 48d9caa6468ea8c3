import Verif.Model.Tensor

/-!
# What a tensor and a tensor network mean

Specification side, independent of how the code stores or orders data.
An assignment `σ` gives every leg an index.  `entry t σ` is the entry of tensor `t` there.
`sumBonds` is Einstein summation: for every pair of joined legs, sum over a common index.
-/

namespace CTL

variable {R : Type}

/-- An index for every leg. -/
abbrev Assign := LegId → Nat

/-- The entry of `t` at assignment `σ`.  A diagonal tensor is zero off the diagonal. -/
def entry [Zero R] (t : Tensor R) (σ : Assign) : R :=
  match t.a with
  | none => 0
  | some arr =>
    if t.diag then
      match t.legs with
      | [] => arr.get []
      | l :: ls => if ∀ m ∈ ls, σ m = σ l then arr.get [σ l] else 0
    else arr.get (t.legs.map σ)

/-- `σ` with leg `l` at index `k`. -/
def Assign.set (σ : Assign) (l : LegId) (k : Nat) : Assign := fun m => if m = l then k else σ m

/-- Einstein summation of `f` over the pairs `ps` of joined legs; a pair ranges over the dimension of
its first leg. -/
def sumBonds [AddMonoid R] (dim : LegId → Nat) : List (LegId × LegId) → (Assign → R) → Assign → R
  | [], f, σ => f σ
  | (l, m) :: ps, f, σ =>
    ((List.range (dim l)).map fun k => sumBonds dim ps f ((Assign.set σ l k).set m k)).sum

/-- `σ` is in range on `legs`. -/
def InRange (dim : LegId → Nat) (legs : List LegId) (σ : Assign) : Prop := ∀ l ∈ legs, σ l < dim l

/-- A tensor object with data that is consistent with its legs. -/
structure GoodTensor (st : Store) (t : Tensor R) : Prop where
  nodup : t.legs.Nodup
  notLike : t.like = false
  data : ∃ arr, t.a = some arr ∧ arr.WF ∧
    (t.diag = false → arr.shape = t.legs.map st.dim) ∧
    (t.diag = true → (t.legs = [] ∧ arr.shape = [] ∧ t.length = 1) ∨
      (t.legs ≠ [] ∧ arr.shape = [t.length] ∧ ∀ l ∈ t.legs, st.dim l = t.length))

/-- The leg at the other side of the bond of `l`, if `l` is bonded. -/
def Store.partner (st : Store) (l : LegId) : Option LegId :=
  match (st.leg l).bond with
  | none => none
  | some b => some (if (st.bond b).1 = l then (st.bond b).2 else (st.bond b).1)

/-- Legs and bonds agree: a bonded leg is one of the two legs of its bond, both of these point back to
the bond, and they have the same dimension. -/
def BondInv (st : Store) : Prop :=
  ∀ l b, (st.leg l).bond = some b →
    ((st.bond b).1 = l ∨ (st.bond b).2 = l) ∧
    (st.leg (st.bond b).1).bond = some b ∧ (st.leg (st.bond b).2).bond = some b ∧
    st.dim (st.bond b).1 = st.dim (st.bond b).2

/-- The joined pairs between two lists of legs, in the order of the first list. -/
def sharedPairs (st : Store) (la lb : List LegId) : List (LegId × LegId) :=
  la.filterMap fun l =>
    match st.partner l with
    | some m => if m ∈ lb then some (l, m) else none
    | none => none

end CTL
