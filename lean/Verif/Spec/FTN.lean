import Verif.Model.FTN
import Verif.Spec.Links
import Verif.Spec.Search

/-!
# What a finite tensor network means

Arrays whose axes are known by labels only, and the operations on them: renaming, product, summation over a link,
fusion of axes.  Nothing here speaks of legs, bonds, leg orders or contraction sequences.
-/

namespace CTL
variable {R : Type}

/-- An array with labelled axes: the labels, the dimension of each, and the entry at an index for each label. -/
structure LArr (R : Type) where
  labels : List String
  dim : String → Nat
  val : (String → Nat) → R

namespace LArr

/-- The indices `τ` are in range. -/
def InRange (A : LArr R) (τ : String → Nat) : Prop := ∀ x ∈ A.labels, τ x < A.dim x

/-- New labels: `x` becomes `f x`. -/
def relabel (A : LArr R) (f : String → String) : LArr R where
  labels := A.labels.map f
  dim := fun z => ((A.labels.find? fun w => f w == z).map A.dim).getD 0
  val := fun τ => A.val fun x => τ (f x)

/-- New labels, if they are different from each other. -/
def relabel? (A : LArr R) (f : String → String) : Option (LArr R) :=
  if (A.labels.map f).Nodup then some (A.relabel f) else none

/-- The product of arrays with different labels. -/
def prod [One R] [Mul R] (As : List (LArr R)) : LArr R where
  labels := As.flatMap fun A => A.labels
  dim := fun z => ((As.find? fun A => decide (z ∈ A.labels)).map fun A => A.dim z).getD 0
  val := fun τ => (As.map fun A => A.val τ).prod

/-- Summation over a common index of `x` and `y`. -/
def join [Zero R] [Add R] (A : LArr R) (x y : String) : LArr R where
  labels := A.labels.filter fun z => decide (z ≠ x ∧ z ≠ y)
  dim := A.dim
  val := fun τ => ((List.range (A.dim x)).map fun k => A.val fun z => if z = x ∨ z = y then k else τ z).sum

/-- The digits of `k` in the mixed base `ds`, the first digit being the most significant one. -/
def digits : List Nat → Nat → List Nat
  | [], _ => []
  | _ :: ds, k => k / ds.prod :: digits ds (k % ds.prod)

/-- One axis `new` in place of the axes `xs`; its index is made up of theirs, the first being the most significant. -/
def fuse (A : LArr R) (xs : List String) (new : String) : LArr R where
  labels := new :: A.labels.filter fun z => decide (z ∉ xs)
  dim := fun z => if z = new then (xs.map A.dim).prod else A.dim z
  val := fun τ => A.val fun z => if z ∈ xs then (digits (xs.map A.dim) (τ new)).getD (xs.idxOf z) 0 else τ z

end LArr

/-- The array of a tensor. -/
def Tensor.labelled [Zero R] (t : Tensor R) (st : Store) : LArr R where
  labels := t.legs.map st.name
  dim := fun z => ((t.legs.find? fun l => st.name l == z).map st.dim).getD 0
  val := fun τ => entry t fun l => τ (st.name l)

/-- The tensor `t` is the labelled array `A`: its labels are those of `A` in some order and all different, and so are
dimensions and entries. -/
structure Represents [Zero R] (st : Store) (t : Tensor R) (A : LArr R) : Prop where
  nodup : A.labels.Nodup
  labels : (t.legs.map st.name).Perm A.labels
  dims : ∀ l ∈ t.legs, st.dim l = A.dim (st.name l)
  val : ∀ τ, A.InRange τ → entry t (fun l => τ (st.name l)) = A.val τ

/-- `x` to `y`, all else unchanged. -/
def renameTo (x y z : String) : String := if z = x then y else z

/-- `a-b`. -/
def withTag (a b : String) : String := String.ofList (a.toList ++ '-' :: b.toList)

/-- What follows the first `-`, or everything. -/
def withoutTag (z : String) : String :=
  if '-' ∈ z.toList then String.ofList ((z.toList.dropWhile (· ≠ '-')).drop 1) else z

/-- Rename an axis of the array with name `n`. -/
def renameOne (n x y : String) (p : String × LArr R) : Option (String × LArr R) :=
  if p.1 = n then (p.2.relabel? (renameTo x y)).map fun A => (p.1, A) else some p

/-- The renames before contraction. -/
def renamed : List (String × LArr R) → List (String × String × String) → Option (List (String × LArr R))
  | As, [] => some As
  | As, (n, x, y) :: rs =>
    if n ∈ As.map Prod.fst then (As.mapM (renameOne n x y)).bind fun Bs => renamed Bs rs else none

/-- The tags; a label must not contain `-`. -/
def tagOne (p : String × LArr R) : Option (String × LArr R) :=
  if ∀ x ∈ p.2.labels, '-' ∉ x.toList then (p.2.relabel? (withTag p.1)).map fun A => (p.1, A) else none

/-- Label `x` belongs to the array with name `a`. -/
def HasAxis (As : List (String × LArr R)) (a x : String) : Prop := ∃ p ∈ As, p.1 = a ∧ x ∈ p.2.labels

instance (As : List (String × LArr R)) (a x : String) : Decidable (HasAxis As a x) :=
  inferInstanceAs (Decidable (∃ p ∈ As, _))

/-- The links: each joins two axes of the same dimension that belong to two different tensors and are not joined yet. -/
def joined [Zero R] [Add R] (As : List (String × LArr R)) :
    LArr R → List ((String × String) × (String × String)) → Option (LArr R)
  | A, [] => some A
  | A, ((a, x), (b, y)) :: ls =>
    if a ≠ b ∧ HasAxis As a x ∧ HasAxis As b y ∧ x ∈ A.labels ∧ y ∈ A.labels ∧ A.dim x = A.dim y then
      joined As (A.join x y) ls
    else none

/-- The label a fusion names. -/
def OutLabel.meant : OutLabel → String
  | .plain s => s
  | .pair a b => withTag a b

/-- The fusions: each of a non-empty list of different axes, to a new label. -/
def fused : LArr R → List (List OutLabel × String) → Option (LArr R)
  | A, [] => some A
  | A, (os, n) :: fs =>
    let xs := os.map OutLabel.meant
    if xs ≠ [] ∧ xs.Nodup ∧ (∀ x ∈ xs, x ∈ A.labels) ∧ ∀ x ∈ A.labels, x ∉ xs → x ≠ withTag "res" n then
      fused (A.fuse xs (withTag "res" n)) fs
    else none

/-- The renames after contraction. -/
def renamedAfter : LArr R → List (String × String × String) → Option (LArr R)
  | A, [] => some A
  | A, (n, x, y) :: rs => (A.relabel? (renameTo (withTag n x) (withTag n y))).bind fun B => renamedAfter B rs

/-- The labelled network sum: rename, tag, multiply, sum over all links, fuse, rename, remove the tags.  `none` when the
declarations do not fit the inputs. -/
def FTN.meaning [CommSemiring R] (f : FTN) (removeTag : Bool) (inputs : List (String × LArr R)) : Option (LArr R) := do
  let Bs ← renamed inputs f.changeNameBefore
  let Cs ← Bs.mapM tagOne
  let P := LArr.prod (Cs.map Prod.snd)
  if ¬ P.labels.Nodup then none
  let J ← joined Cs P f.links
  let F ← fused J f.outProductAfter
  let G ← renamedAfter F f.changeNameAfter
  if removeTag then G.relabel? withoutTag else some G

/-- The inputs of a contraction: every name of the network once, and for each name a tensor, dense or diagonal, with at
least one leg, different labels and no dimension 0. -/
structure MixedInput (st : Store) (names : List String) (dict : List (String × Tensor R)) : Prop where
  wf : WFStore st
  keys : names.Perm (dict.map Prod.fst)
  once : names.Nodup
  nonempty : names ≠ []
  good : ∀ p ∈ dict, GoodTensor st p.2
  legs : ∀ p ∈ dict, p.2.legs ≠ []
  known : ∀ p ∈ dict, ∀ l ∈ p.2.legs, l < st.nextLeg
  labels : ∀ p ∈ dict, (p.2.legs.map st.name).Nodup
  pos : ∀ p ∈ dict, ∀ l ∈ p.2.legs, st.dim l ≠ 0

/-- The inputs of a contraction, all dense. -/
structure FTNInput [Zero R] (st : Store) (names : List String) (dict : List (String × Tensor R)) : Prop where
  wf : WFStore st
  keys : names.Perm (dict.map Prod.fst)
  once : names.Nodup
  nonempty : names ≠ []
  good : ∀ p ∈ dict, GoodTensor st p.2 ∧ p.2.diag = false
  legs : ∀ p ∈ dict, p.2.legs ≠ []
  known : ∀ p ∈ dict, ∀ l ∈ p.2.legs, l < st.nextLeg
  labels : ∀ p ∈ dict, (p.2.legs.map st.name).Nodup
  pos : ∀ p ∈ dict, ∀ l ∈ p.2.legs, st.dim l ≠ 0

/-- No leg that existed before has changed, and each is joined to the same leg as before. -/
structure InputsKept (st st' : Store) : Prop where
  leg : ∀ l < st.nextLeg, st'.leg l = st.leg l
  partner : ∀ l < st.nextLeg, st'.partner l = st.partner l

/-- The tensor `t` is `A` and consists of free legs newer than `st0`; the legs and bonds that existed before are as they were. -/
structure Produced [Zero R] (st0 st : Store) (t : Tensor R) (A : LArr R) : Prop where
  rep : Represents st t A
  good : GoodTensor st t
  fresh : ∀ l ∈ t.legs, st0.nextLeg ≤ l ∧ l < st.nextLeg
  pos : ∀ l ∈ t.legs, st.dim l ≠ 0
  le : st0.nextLeg ≤ st.nextLeg
  old : InputsKept st0 st
  wf : WFStore st
  free : ∀ l ∈ t.legs, (st.leg l).bond = none

/-- The same, and `t` is dense. -/
structure Outcome [Zero R] (st0 st : Store) (t : Tensor R) (A : LArr R) : Prop extends Produced st0 st t A where
  dense : t.diag = false

/-- Two labels are joined by one of the links. -/
def LabelsLinked (ls : List ((String × String) × (String × String))) (x y : String) : Prop :=
  ∃ k ∈ ls, (k.1.2 = x ∧ k.2.2 = y) ∨ (k.1.2 = y ∧ k.2.2 = x)

/-- The graph of a network: tensor `i` is the array named `names[i]`, its edges are its labels, the two labels of a link
being one edge. -/
structure NetGraph (names : List String) (Cs : List (String × LArr R))
    (links : List ((String × String) × (String × String))) (G : TGraph) (edge : String → Nat) : Prop where
  n : G.n = names.length
  edges : ∀ (i : Nat) name A, names[i]? = some name → (name, A) ∈ Cs → G.edges i = (A.labels.map edge).toFinset
  same : ∀ p ∈ Cs, ∀ q ∈ Cs, ∀ x ∈ p.2.labels, ∀ y ∈ q.2.labels, edge x = edge y ↔ x = y ∨ LabelsLinked links x y
  dim : ∀ p ∈ Cs, ∀ x ∈ p.2.labels, G.dim (edge x) = p.2.dim x
  dense : ∀ i, i < G.n → G.diag i = false

/-- The sequence is that of a contraction tree over all tensors, and no such tree costs less. -/
def Cheapest (G : TGraph) (typ : Option Nat) (q : List (Nat × Nat)) : Prop :=
  ∃ T : CTree, T.Complete G.n ∧ T.steps = q ∧ ∀ T' : CTree, T'.Complete G.n → G.treeCost typ T ≤ G.treeCost typ T'

/-- Some axis has a dimension that is not the recorded one. -/
def Unrecorded (bondDims : List (String × Nat)) (Cs : List (String × LArr R)) : Prop :=
  ∃ p ∈ Cs, ∃ x ∈ p.2.labels, dictGet bondDims x ≠ some (p.2.dim x)

/-- The arrays that are contracted: renamed and tagged. -/
def FTN.arrays (f : FTN) (inputs : List (String × LArr R)) : Option (List (String × LArr R)) :=
  (renamed inputs f.changeNameBefore).bind fun Bs => Bs.mapM tagOne

end CTL
