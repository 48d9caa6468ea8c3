import Verif.Model.Py

/-!
Model of the object graph of legs and bonds: `src/CTL/tensor/leg.py`, `src/CTL/tensor/bond.py`,
`src/CTL/tensor/contract/link.py` (makeLink).

Python objects are compared by identity, so a leg, bond or tensor is a number and the mutable
attributes live in a store.
-/

namespace CTL

abbrev LegId := Nat
abbrev BondId := Nat
abbrev TensorId := Nat

/-- `leg.py` 27-31: the attributes of a `Leg`.  Simplification: `name` is always a string and `dim`
always a number (Python also allows `None` for both). -/
structure LegRec where
  dim : Nat
  name : String
  bond : Option BondId
  tensor : Option TensorId
deriving Repr, DecidableEq

/-- All live objects: what each leg and each bond holds (`bond.py` 27-34: `Bond.legs` is a pair), and
the next unused identities. -/
structure Store where
  leg : LegId → LegRec
  bond : BondId → LegId × LegId
  nextLeg : Nat
  nextBond : Nat
  nextTensor : Nat

namespace Store

/-- `leg.dim`. -/
def dim (st : Store) (l : LegId) : Nat := (st.leg l).dim

/-- `leg.name`. -/
def name (st : Store) (l : LegId) : String := (st.leg l).name

/-- The store of a fresh process. -/
def empty : Store := ⟨fun _ => ⟨0, "", none, none⟩, fun _ => (0, 0), 0, 0, 0⟩

/-- Attribute assignment on one leg. -/
def setLeg (st : Store) (l : LegId) (r : LegRec) : Store :=
  { st with leg := fun k => if k = l then r else st.leg k }

/-- Assignment `bond.legs = p`. -/
def setBond (st : Store) (b : BondId) (p : LegId × LegId) : Store :=
  { st with bond := fun k => if k = b then p else st.bond k }

/-- `Leg(tensor, dim, name)` (`leg.py` 27-31): a new leg without a bond. -/
def newLeg (st : Store) (tensor : Option TensorId) (dim : Nat) (name : String) : Store × LegId :=
  ({ st.setLeg st.nextLeg ⟨dim, name, none, tensor⟩ with nextLeg := st.nextLeg + 1 }, st.nextLeg)

/-- `bond.py` 38-65 `Bond.anotherSide`: the other leg of the pair, AssertionError for a leg that is
not in the pair. -/
def bondAnotherSide (st : Store) (b : BondId) (l : LegId) : Except PyErr LegId :=
  if (st.bond b).1 = l then .ok (st.bond b).2
  else if (st.bond b).2 = l then .ok (st.bond b).1
  else .error .assertionError

/-- `leg.py` 34-46 `Leg.anotherSide`: `None` for a free leg. -/
def anotherSide (st : Store) (l : LegId) : Except PyErr (Option LegId) :=
  match (st.leg l).bond with
  | none => .ok none
  | some b => (st.bondAnotherSide b l).map some

/-- `bond.py` 27-34 `Bond.__init__`: equal dimensions are asserted, then both legs point to the new
bond. -/
def newBond (st : Store) (l1 l2 : LegId) : Except PyErr (Store × BondId) :=
  if st.dim l1 = st.dim l2 then
    let b := st.nextBond
    let st1 := { st.setBond b (l1, l2) with nextBond := b + 1 }
    let st2 := st1.setLeg l1 { st1.leg l1 with bond := some b }
    let st3 := st2.setLeg l2 { st2.leg l2 with bond := some b }
    .ok (st3, b)
  else .error .assertionError

/-- `leg.tensor = t` for every leg of a list (`tensor.py` 364-366, `diagonalTensor.py` 389-391). -/
def setOwner (st : Store) (legs : List LegId) (t : TensorId) : Store :=
  legs.foldl (fun s l => s.setLeg l { s.leg l with tensor := some t }) st

/-- `leg.name = n` on one leg. -/
def rename (st : Store) (l : LegId) (n : String) : Store :=
  st.setLeg l { st.leg l with name := n }

end Store
end CTL
