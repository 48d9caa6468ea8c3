import Verif.Model.Construct
import Verif.Model.Decompose
import Verif.Model.MakeGraph
import Verif.Model.Text

/-!
Model of `FiniteTensorNetwork` (`src/CTL/tensornetwork/tensornetwork.py`), `TensorDict`
(`src/CTL/tensornetwork/tensordict.py`) and `Tensor.copy`.

The list of tensor names of a network is an object of its own, because `__init__` stores the list it is given (or its
default argument, one list for all calls) without copying it.
-/

namespace CTL
variable {R : Type}

/-- `tensor.py` 658-669 and `diagonalTensor.py` 581-590 `copy`: a new object with new legs of the same names and no
bonds. -/
def Tensor.copy [Zero R] [One R] (rand : List Nat → List Nat → R) (st : Store) (t : Tensor R) :
    Except PyErr (Store × Tensor R) :=
  let c : CArgs R :=
    { shape := some (.tuple (t.shape st)), labels := some (t.labels st), data := t.a, like := t.like }
  if t.diag then constructDiag st c else construct rand st c

/-- A label in `addPostOutProduct`: a string, or a pair of tensor name and leg name. -/
inductive OutLabel
  | plain (s : String)
  | pair (tensor leg : String)
deriving DecidableEq, Repr

/-- `aName + '-' + aLeg`. -/
def dashed (a b : String) : String := String.ofList (a.toList ++ ['-'] ++ b.toList)

/-- `tensornetwork.py` 84-88 `_dealOutProductLabel`. -/
def OutLabel.deal : OutLabel → String
  | .plain s => s
  | .pair a b => dashed a b

/-- `tensornetwork.py` 10-31: the attributes of a `FiniteTensorNetwork`; `names` is the identity of the list object
`tensorNames`. -/
structure FTN where
  names : Nat
  optimalSeq : Option (List (Nat × Nat))
  realCost : Bool
  links : List ((String × String) × (String × String))
  bondDims : List (String × Nat)
  locked : Bool
  changed : Bool
  changeNameBefore : List (String × String × String)
  changeNameAfter : List (String × String × String)
  outProductAfter : List (List OutLabel × String)
  typicalDim : Option Nat
deriving DecidableEq, Repr

/-- `tensornetwork.py` 10-31 `__init__` with the list object `names`. -/
def FTN.new (names : Nat) (realCost : Bool := true) (typicalDim : Nat := 10) : FTN where
  names := names
  optimalSeq := none
  realCost := realCost
  links := []
  bondDims := []
  locked := false
  changed := false
  changeNameBefore := []
  changeNameAfter := []
  outProductAfter := []
  typicalDim := if realCost then none else some typicalDim

/-- The methods that change the structure of a network, and `lock` / `unlock`. -/
inductive NetOp
  | addTensor (name : String)
  | removeTensor (name : String)
  | addLink (aName aLeg bName bLeg : String)
  | addPreNameChange (name legName newName : String)
  | addPostNameChange (name legName newName : String)
  | removePreNameChange (name legName newName : String)
  | removePostNameChange (name legName newName : String)
  | addPostOutProduct (labels : List OutLabel) (newLabel : String)
  | lock
  | unlock
deriving DecidableEq, Repr

/-- The result of a method: the contents of the names list, the network, and the exception if one was raised. -/
abbrev NetResult := List String × FTN × Option PyErr

/-- `tensornetwork.py` 35-36 `checkLock` in front of a method body. -/
def FTN.checked (f : FTN) (names : List String) (body : NetResult) : NetResult :=
  if f.locked then (names, f, some .assertionError) else body

/-- `list.remove` on one attribute. -/
def removeFrom {α : Type} [DecidableEq α] (names : List String) (f : FTN) (xs : List α) (x : α) (put : List α → FTN) :
    NetResult :=
  match pyRemove xs x with
  | .ok ys => (names, put ys, none)
  | .error e => (names, f, some e)

/-- `tensornetwork.py` 38-74: the methods; `names` are the contents of the list `self.tensorNames`. -/
def FTN.apply (f : FTN) (names : List String) : NetOp → NetResult
  | .addTensor n => f.checked names (names ++ [n], f, none)
  | .removeTensor n => f.checked names
      (match pyRemove names n with
      | .ok ns => (ns, f, none)
      | .error _ => (names, f, some .assertionError))
  | .addLink a x b y => f.checked names
      (names, { f with links := f.links ++ [((a, dashed a x), (b, dashed b y))] }, none)
  | .addPreNameChange n x y => f.checked names
      (names, { f with changeNameBefore := f.changeNameBefore ++ [(n, x, y)] }, none)
  | .addPostNameChange n x y => f.checked names
      (names, { f with changeNameAfter := f.changeNameAfter ++ [(n, x, y)] }, none)
  | .removePreNameChange n x y => f.checked names
      (removeFrom names f f.changeNameBefore (n, x, y) fun l => { f with changeNameBefore := l })
  | .removePostNameChange n x y => f.checked names
      (removeFrom names f f.changeNameAfter (n, x, y) fun l => { f with changeNameAfter := l })
  | .addPostOutProduct ls n => f.checked names
      (names, { f with outProductAfter := f.outProductAfter ++ [(ls, n)] }, none)
  | .lock => (names, { f with locked := true }, none)
  | .unlock => (names, { f with locked := false }, none)

/-! ### `contract` -/

/-- `tensornetwork.py` 100-102: copies of all tensors. -/
def copyDict [Zero R] [One R] (rand : List Nat → List Nat → R) :
    Store → List (String × Tensor R) → Except PyErr (Store × List (String × Tensor R))
  | st, [] => .ok (st, [])
  | st, (n, t) :: d => do
    let (st1, t1) ← t.copy rand st
    let (st2, d2) ← copyDict rand st1 d
    pure (st2, (n, t1) :: d2)

/-- `tensornetwork.py` 104-105: `localTensors[tensor].renameLabel(legName, newName)`. -/
def preRename (d : List (String × Tensor R)) : Store → List (String × String × String) → Except PyErr Store
  | st, [] => .ok st
  | st, (n, x, y) :: rs =>
    match dictGet d n with
    | none => .error .keyError
    | some t => preRename d (t.renameLabel st x y) rs

/-- `tensornetwork.py` 107-108. -/
def tagAll : Store → List (String × Tensor R) → Except PyErr Store
  | st, [] => .ok st
  | st, (n, t) :: d => do
    let st1 ← raiseIf (t.addTensorTag st n)
    tagAll st1 d

/-- `tensornetwork.py` 110-113. -/
def linkAll (d : List (String × Tensor R)) :
    Store → List ((String × String) × (String × String)) → Except PyErr Store
  | st, [] => .ok st
  | st, ((a, x), (b, y)) :: ls =>
    match dictGet d a, dictGet d b with
    | some ta, some tb => do
      let st1 ← linkOr (makeLink st [.label x] [.label y] (some ta) (some tb))
      linkAll d st1 ls
    | _, _ => .error .keyError

/-- `tensornetwork.py` 98-113: from the arguments to the linked copies. -/
def FTN.prepare [Zero R] [One R] (rand : List Nat → List Nat → R) (f : FTN) (names : List String) (st : Store)
    (dict : List (String × Tensor R)) : Except PyErr (Store × List (String × Tensor R)) :=
  if compareLists names (dict.map Prod.fst) = false then .error .assertionError
  else do
    let (st1, d) ← copyDict rand st dict
    let st2 ← preRename d st1 f.changeNameBefore
    let st3 ← tagAll st2 d
    let st4 ← linkAll d st3 f.links
    pure (st4, d)

/-- `tensornetwork.py` 76-82 `loadBondDims`, the body of the loops, on the pair of `changed` and `bondDims`. -/
def loadLeg (st : Store) (s : Bool × List (String × Nat)) (l : LegId) : Bool × List (String × Nat) :=
  (if dictGet s.2 (st.name l) = some (st.dim l) then s.1 else true, dictSet s.2 (st.name l) (st.dim l))

/-- `tensornetwork.py` 115-116: `changed = False` and `loadBondDims`. -/
def FTN.loadBondDims (f : FTN) (st : Store) (d : List (String × Tensor R)) : FTN :=
  let s := (d.flatMap fun p => p.2.legs).foldl (loadLeg st) (false, f.bondDims)
  { f with changed := s.1, bondDims := s.2 }

/-- `tensornetwork.py` 119: is a new sequence wanted? -/
def FTN.stale (f : FTN) : Bool := f.optimalSeq.isNone || (f.realCost && f.changed)

/-- `tensornetwork.py` 128-132. -/
def fuseAll [Zero R] : Store → Tensor R → List (List OutLabel × String) → Except PyErr (Store × Tensor R)
  | st, t, [] => .ok (st, t)
  | st, t, (ls, n) :: os =>
    match t.outProductLabels st (ls.map OutLabel.deal) (dashed "res" n) with
    | (st1, t1, .ok _) => fuseAll st1 t1 os
    | (_, _, .error e) => .error e

/-- `tensornetwork.py` 135-136. -/
def postRename (t : Tensor R) (st : Store) (rs : List (String × String × String)) : Store :=
  rs.foldl (fun s r => t.renameLabel s (dashed r.1 r.2.1) (dashed r.1 r.2.2)) st

/-- `tensornetwork.py` 128-140: fusions, new names, removal of the tags. -/
def FTN.finish [Zero R] (f : FTN) (removeTag : Bool) (st : Store) (t : Tensor R) : Except PyErr (Store × Tensor R) := do
  let (st1, t1) ← fuseAll st t f.outProductAfter
  let st2 := postRename t1 st1 f.changeNameAfter
  pure (if removeTag then t1.removeTensorTag st2 else st2, t1)

/-- `tensornetwork.py` 121: what the search returns is stored. -/
def FTN.setSeq (f : FTN) (r : Except PyErr (Nat × List (Nat × Nat))) : FTN :=
  match r with
  | .ok q => { f with optimalSeq := some q.2 }
  | .error _ => f

/-- `tensornetwork.py` 118: the tensors in the order of the names. -/
def orderedTensors (names : List String) (d : List (String × Tensor R)) : Except PyErr (List (Tensor R)) :=
  names.mapM fun n => match dictGet d n with
    | some t => .ok t
    | none => .error .keyError

/-- `tensornetwork.py` 124-140: contraction with the stored sequence, and the rest. -/
def FTN.run [CommSemiring R] (cast : R → R) (f : FTN) (removeTag : Bool) (st : Store) (ts : List (Tensor R)) :
    Except PyErr (Store × Tensor R) :=
  match f.optimalSeq with
  | none => .error .typeError
  | some q => do
    let (st1, t, _) ← contractInPlace cast st ts q
    f.finish removeTag st1 t

/-- `tensornetwork.py` 90-140 `contract`: the network afterwards (also after an exception), and the result; no result if
the search is still running after `fuel` rounds.  The first thing that happens is that the network gets locked.
Simplification: the object graph after an exception is not returned. -/
def FTN.contract [CommSemiring R] (rand : List Nat → List Nat → R) (cast : R → R) (f : FTN) (names : List String)
    (st : Store) (dict : List (String × Tensor R)) (removeTag : Bool) (fuel : Nat) :
    FTN × Option (Except PyErr (Store × Tensor R)) :=
  let f1 := { f with locked := true }
  match f1.prepare rand names st dict with
  | .error e => (f1, some (.error e))
  | .ok (st1, d) =>
    let f2 := f1.loadBondDims st1 d
    match orderedTensors names d with
    | .error e => (f2, some (.error e))
    | .ok ts =>
      if f2.stale then
        match generateSequence st1 ts .capping f2.typicalDim fuel with
        | none => (f2, none)
        | some (.error e) => (f2, some (.error e))
        | some (.ok q) => (f2.setSeq (.ok q), some ((f2.setSeq (.ok q)).run cast removeTag st1 ts))
      else (f2, some (f2.run cast removeTag st1 ts))

/-! ### Several networks -/

/-- The list objects that hold tensor names, and the networks.  List 0 is the default argument of `__init__`. -/
structure NetWorld where
  lists : Nat → List String
  nextList : Nat
  nets : List FTN

/-- The process after `import`: the default argument exists. -/
def NetWorld.start : NetWorld := ⟨fun _ => [], 1, []⟩

/-- What a program does with its networks: create one (with the default list, with a list object it already has, or
with a new list), call a method, call `contract`, or change a list of its own. -/
inductive WorldOp (R : Type)
  | create (names : Option Nat) (realCost : Bool) (typicalDim : Nat)
  | method (i : Nat) (op : NetOp)
  | contract (i : Nat) (st : Store) (dict : List (String × Tensor R)) (removeTag : Bool) (fuel : Nat)
  | newList (l : List String)

/-- `tensornetwork.py` as a whole, on all networks of a program.  A call for a network that does not exist does
nothing. -/
def NetWorld.step [CommSemiring R] (rand : List Nat → List Nat → R) (cast : R → R) (w : NetWorld) :
    WorldOp R → NetWorld × Option PyErr
  | .create names rc td => ({ w with nets := w.nets ++ [FTN.new (names.getD 0) rc td] }, none)
  | .method i op =>
    match w.nets[i]? with
    | none => (w, none)
    | some f =>
      let r := f.apply (w.lists f.names) op
      ({ w with
          lists := fun k => if k = f.names then r.1 else w.lists k
          nets := w.nets.set i r.2.1 }, r.2.2)
  | .contract i st dict rt fuel =>
    match w.nets[i]? with
    | none => (w, none)
    | some f =>
      let r := f.contract rand cast (w.lists f.names) st dict rt fuel
      ({ w with nets := w.nets.set i r.1 }, match r.2 with
        | some (.error e) => some e
        | _ => none)
  | .newList l =>
    ({ w with
        lists := fun k => if k = w.nextList then l else w.lists k
        nextList := w.nextList + 1 }, none)

end CTL
