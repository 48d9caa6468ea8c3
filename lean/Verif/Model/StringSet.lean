import Verif.Model.Py

/-! Model of `src/CTL/funcs/stringSet.py` and of `randomString` (`src/CTL/funcs/funcs.py` 312-326). -/

namespace CTL

/-- `string.ascii_letters`. -/
def asciiLetters : List Char := "abcdefghijklmnopqrstuvwxyzABCDEFGHIJKLMNOPQRSTUVWXYZ".toList

/-- `funcs.py` 312-326 `randomString(n)`; `rng` is the infinite sequence of the results of
`random.choice(string.ascii_letters)`, `pos` the number of choices made before.  `range(n)` is empty for `n ≤ 0`. -/
def randomString (rng : Nat → Char) (pos : Nat) (n : Int) : String × Nat :=
  (String.ofList ((List.range n.toNat).map fun i => rng (pos + i)), pos + n.toNat)

/-- `stringSet.py` 21-23: the attributes of a `StringSet`.  The Python set is a list without repetitions; its order is
never observed. -/
structure StringSet where
  stringSet : List String
  n : Int
deriving DecidableEq, Repr

/-- `stringSet.py` 21-23 `__init__`. -/
def StringSet.new (n : Int) : StringSet := ⟨[], n⟩

/-- `stringSet.py` 42-44: draw until the name is not used; `none` when more than `fuel` draws are needed. -/
def StringSet.draw (s : StringSet) (rng : Nat → Char) : Nat → Nat → Option (String × Nat)
  | 0, _ => none
  | fuel + 1, pos =>
    let r := randomString rng pos s.n
    if r.1 ∈ s.stringSet then s.draw rng fuel r.2 else some r

/-- `stringSet.py` 25-50 `newString`: the new set, the name and the position in the random sequence. -/
def StringSet.newString (s : StringSet) (rng : Nat → Char) (fuel pos : Nat) (inputStr : Option String) :
    Option (Except PyErr (StringSet × String × Nat)) :=
  match inputStr with
  | none => (s.draw rng fuel pos).map fun r => .ok ({ s with stringSet := s.stringSet ++ [r.1] }, r.1, r.2)
  | some t =>
    if t ∈ s.stringSet then some (.error .assertionError)
    else some (.ok ({ s with stringSet := s.stringSet ++ [t] }, t, pos))

/-- `stringSet.py` 52-68 `add`: note that the length of the random names grows. -/
def StringSet.add (s : StringSet) (t : String) : Except PyErr StringSet :=
  if t ∈ s.stringSet then .error .assertionError
  else .ok ⟨s.stringSet ++ [t], s.n + 1⟩

/-- `stringSet.py` 70-86 `remove`: the length of the random names shrinks. -/
def StringSet.remove (s : StringSet) (t : String) : Except PyErr StringSet :=
  if t ∈ s.stringSet then .ok ⟨s.stringSet.erase t, s.n - 1⟩
  else .error .assertionError

/-- `stringSet.py` 88-102 `contains`. -/
def StringSet.contains (s : StringSet) (t : String) : Bool := t ∈ s.stringSet

end CTL
