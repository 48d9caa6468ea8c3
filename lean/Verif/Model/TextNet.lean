import Verif.Model.Text
import Verif.Model.Construct
import Verif.Model.Link
import Verif.Model.MakeGraph

/-!
Model of the networks written as text: `createTensorFromText`, `createTensorListFromText`
(`src/CTL/tensor/contract/tensorGraph.py` 483-520) and `makeTensorGraphFromText` (`src/CTL/tensor/contract/optimalContract.py` 134-137).

Simplification: a leg may have the dimension `None` here, while dimensions in the store are numbers; `None` is stored as 0 and the dimension
`n` as `n + 1`.
-/

namespace CTL

/-- The number that stands for a dimension that may be `None`. -/
def encDim : Option Nat → Nat
  | none => 0
  | some n => n + 1

/-- `str.islower()`: there is a lower-case letter and no upper-case one.  Simplification: only ASCII letters have a case. -/
def pyIsLower (s : List Char) : Bool := s.all (fun c => !c.isUpper) && s.any fun c => c.isLower

/-- `tensorGraph.py` 483-489 `createTensorFromText`: the tensor without data, and its name. -/
def createTensorFromText (st : Store) (t : List Char) : Except PyErr (Store × Tensor Unit × Char) :=
  match t with
  | [] => .error .assertionError
  | c :: cs =>
    if c.isUpper && pyIsLower cs then do
      let (labels, shape) ← decodeSubText cs
      let (st1, x) ← construct (fun _ _ => ()) st
        { shape := some (.tuple (shape.map encDim)), labels := some (labels.map String.ofList), like := true }
      pure (st1, x, c)
    else .error .assertionError

/-- `tensorGraph.py` 501-504: the leg is appended to the list of its name; names are in the order of their first use. -/
def addLink (links : List (String × List LegId)) (n : String) (l : LegId) : List (String × List LegId) :=
  match links with
  | [] => [(n, [l])]
  | (m, ls) :: rest => if m = n then (m, ls ++ [l]) :: rest else (m, ls) :: addLink rest n l

/-- The local variables of the first loop of `createTensorListFromText`. -/
structure TextState where
  st : Store
  last : Nat
  links : List (String × List LegId)
  tensors : List (Tensor Unit × Char)

/-- The body of the loop, `tensorGraph.py` 496-506. -/
def textStep (t : List Char) (s : TextState) (i : Nat) : Except PyErr TextState :=
  if i = t.length ∨ (0 < i ∧ (t[i]?).any Char.isUpper) then do
    let (st1, x, c) ← createTensorFromText s.st ((t.take i).drop s.last)
    pure ⟨st1, i, x.legs.foldl (fun d l => addLink d (st1.name l) l) s.links, s.tensors ++ [(x, c)]⟩
  else .ok s

/-- `leg.dim = d`. -/
def Store.setDim (st : Store) (l : LegId) (d : Nat) : Store := st.setLeg l { st.leg l with dim := d }

/-- `tensorGraph.py` 513-516: a missing dimension is taken from the other leg. -/
def completeDims (st : Store) (l m : LegId) : Store :=
  if st.dim l = 0 then st.setDim l (st.dim m) else if st.dim m = 0 then st.setDim m (st.dim l) else st

/-- The second loop, `tensorGraph.py` 508-517. -/
def linkNames : Store → List (String × List LegId) → Except PyErr Store
  | st, [] => .ok st
  | st, (_, ls) :: rest =>
    if ls.length ≤ 2 then
      match ls with
      | [l, m] =>
        match makeLinkLegs (completeDims st l m) [l] [m] with
        | (st1, .ok _) => linkNames st1 rest
        | (_, .error e) => .error e
      | _ => linkNames st rest
    else .error .assertionError

/-- `tensorGraph.py` 491-520 `createTensorListFromText`. -/
def createTensorListFromText (st : Store) (t : List Char) : Except PyErr (Store × List (Tensor Unit × Char)) := do
  let s ← (List.range (t.length + 1)).foldlM (textStep t) ⟨st, 0, [], []⟩
  let st1 ← linkNames s.st s.links
  pure (st1, s.tensors)

/-- `optimalContract.py` 134-137 `makeTensorGraphFromText`; the names of the vertices are left out as in `makeTensorGraph`. -/
def makeTensorGraphFromText (st : Store) (t : List Char) : Except PyErr (Store × Graph) := do
  let (st1, ts) ← createTensorListFromText st t
  let g ← makeTensorGraph st1 (ts.map fun x => x.1)
  pure (st1, g)

end CTL
