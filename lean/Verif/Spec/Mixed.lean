import Verif.Spec.FTN
import Verif.Spec.Sequence

/-! Networks of dense and diagonal tensors (C54). -/

namespace CTL
variable {R : Type}

/-- Element `k` stands for the group `g k` of tensors.  No step multiplies two groups of only diagonal tensors (`D`) that
have no bond `J` between them; the result of a step stands at the smaller place. -/
def stepsSafe (J : Nat → Nat → Prop) (D : Nat → Prop) : (Nat → List Nat) → List (Nat × Nat) → Prop
  | _, [] => True
  | g, (s, t) :: seq => ((∃ i ∈ g s ++ g t, ¬ D i) ∨ ∃ i ∈ g s, ∃ j ∈ g t, J i j) ∧
      stepsSafe J D (fun k => if k = min s t then g s ++ g t else g k) seq

/-- Tensor `i` of the list is diagonal. -/
def DiagAt (ts : List (Tensor R)) (i : Nat) : Prop := ∃ t, ts[i]? = some t ∧ t.diag = true

/-- No step of the sequence is an outer product of two diagonal tensors. -/
def NoOuterDiag (st : Store) (ts : List (Tensor R)) (seq : List (Nat × Nat)) : Prop :=
  stepsSafe (Joined st ts) (DiagAt ts) (fun i => [i]) seq

end CTL

namespace CTL
variable {R : Type}

/-- A link joins the tensors with names `names[i]` and `names[j]`. -/
def LinkedAt (links : List ((String × String) × (String × String))) (names : List String) (i j : Nat) : Prop :=
  ∃ k ∈ links, (names[i]? = some k.1.1 ∧ names[j]? = some k.2.1) ∨ (names[j]? = some k.1.1 ∧ names[i]? = some k.2.1)

/-- Every tensor can be reached from every other one through links. -/
def LinkConnected (links : List ((String × String) × (String × String))) (names : List String) : Prop :=
  ∀ i j, i < names.length → j < names.length → Relation.ReflTransGen (LinkedAt links names) i j

/-- The tensor given for `names[i]` is diagonal. -/
def DiagNamed (dict : List (String × Tensor R)) (names : List String) (i : Nat) : Prop :=
  ∃ n t, names[i]? = some n ∧ (n, t) ∈ dict ∧ t.diag = true

/-- A sequence for these tensors that never multiplies two diagonal groups without a link between them. -/
def FTN.Suits (f : FTN) (names : List String) (D : Nat → Prop) (q : List (Nat × Nat)) : Prop :=
  ValidSeq names.length q ∧ stepsSafe (LinkedAt f.links names) D (fun i => [i]) q

end CTL
