import Verif.Spec.Text
import Verif.Spec.Sequence
import Verif.Spec.HOTRG
import Verif.Model.TextNet

/-! # The textual notation for a network

A tensor is written as an upper-case letter followed by its legs in the notation of `Spec/Text`; a network is written as its tensors one after
another.  Legs with the same name are joined. -/

namespace CTL

/-- A tensor together with the way it is written. -/
structure TensorText where
  name : Char
  legs : List LegText
deriving DecidableEq, Repr

/-- The notation can express this tensor: upper-case letters are not used in the names of the legs, and there is a lower-case letter. -/
structure TensorText.Valid (t : TensorText) : Prop where
  upper : t.name.isUpper
  legs : ∀ x ∈ t.legs, x.Valid
  noUpper : ∀ x ∈ t.legs, ∀ c ∈ x.name, c.isUpper = false
  lower : ∃ x ∈ t.legs, ∃ c ∈ x.name, c.isLower

/-- How the tensor is written. -/
def TensorText.write (t : TensorText) : List Char := t.name :: t.legs.flatMap LegText.write

/-- The legs of all tensors in the order of the text. -/
def textLegs (ts : List TensorText) : List LegText := ts.flatMap fun t => t.legs

/-- No name is used by three legs. -/
def AtMostTwice (xs : List LegText) : Prop := ∀ n, (xs.filter fun x => x.name = n).length ≤ 2

/-- Legs with the same name do not have different dimensions. -/
def SizesAgree (xs : List LegText) : Prop := ∀ x ∈ xs, ∀ y ∈ xs, x.name = y.name → ∀ a b, x.size = some a → y.size = some b → a = b

/-- The dimension given to one of the legs of this name. -/
def sizeOfName (xs : List LegText) (n : List Char) : Option Nat := ((xs.filter fun x => x.name = n).filterMap fun x => x.size).head?

/-- The tensors `rs` are those of the text: names, labels, dimensions and links. -/
structure ReadNet (st st' : Store) (ts : List TensorText) (rs : List (Tensor Unit × Char)) : Prop where
  wf : WFStore st'
  kept : LegsUnchanged st st'
  names : rs.map (fun r => r.2) = ts.map fun t => t.name
  labels : rs.map (fun r => r.1.legs.map st'.name) = ts.map fun t => t.legs.map fun x => String.ofList x.name
  fresh : ∀ l ∈ rs.flatMap fun r => r.1.legs, st.nextLeg ≤ l ∧ l < st'.nextLeg
  nodup : (rs.flatMap fun r => r.1.legs).Nodup
  ids : (rs.map fun r => r.1.id).Nodup
  owner : ∀ r ∈ rs, ∀ l ∈ r.1.legs, (st'.leg l).tensor = some r.1.id
  like : ∀ r ∈ rs, r.1.like = true ∧ r.1.a = none ∧ r.1.diag = false
  dims : ∀ (k : Nat) (l : LegId) (x : LegText), (rs.flatMap fun r => r.1.legs)[k]? = some l → (textLegs ts)[k]? = some x → st'.dim l = encDim (sizeOfName (textLegs ts) x.name)
  links : ∀ (k j : Nat) (l m : LegId) (x y : LegText), (rs.flatMap fun r => r.1.legs)[k]? = some l → (rs.flatMap fun r => r.1.legs)[j]? = some m → (textLegs ts)[k]? = some x →
    (textLegs ts)[j]? = some y → (st'.partner l = some m ↔ k ≠ j ∧ x.name = y.name)
  inside : ∀ l ∈ rs.flatMap fun r => r.1.legs, ∀ m, st'.partner l = some m → m ∈ rs.flatMap fun r => r.1.legs

end CTL
