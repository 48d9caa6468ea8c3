/-!
Python run-time conventions used by every model file.

Exceptions are values: a Python function that may raise is modelled by a function into
`Except PyErr`.
-/

namespace CTL

/-- The exception classes raised by the modelled code (message texts are not modelled). -/
inductive PyErr where
  | valueError
  | indexError
  | typeError
  | keyError
  | attributeError
  | assertionError
  | zeroDivisionError
  | recursionError
  | runtimeError
  deriving DecidableEq, Repr, Inhabited

/-- `list.remove(x)`: removes the first occurrence, `ValueError` if there is none. -/
def pyRemove {α : Type _} [DecidableEq α] (l : List α) (x : α) : Except PyErr (List α) :=
  if x ∈ l then .ok (l.erase x) else .error .valueError

/-- `list.index(x)`: first position, `ValueError` if there is none. -/
def pyIndex {α : Type _} [DecidableEq α] (l : List α) (x : α) : Except PyErr Nat :=
  if x ∈ l then .ok (l.idxOf x) else .error .valueError

/-- `l[i]` with Python's negative indices: `-len ≤ i < len`, else `IndexError`. -/
def pyGet {α : Type _} (l : List α) (i : Int) : Except PyErr α :=
  let j : Int := if i < 0 then i + l.length else i
  if 0 ≤ j then
    match l[j.toNat]? with
    | some x => .ok x
    | none => .error .indexError
  else .error .indexError

/-- `assert c`. -/
def pyAssert (c : Bool) : Except PyErr Unit :=
  if c then .ok () else .error .assertionError

end CTL
