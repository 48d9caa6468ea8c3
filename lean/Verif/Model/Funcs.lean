import Verif.Model.Py
import Mathlib.Data.Rat.Defs
import Mathlib.Algebra.Order.Field.Basic
import Mathlib.Algebra.Order.Ring.Rat

/-!
Model of the pure helpers in `src/CTL/funcs/funcs.py`.
-/

namespace CTL

/-- `funcs.py` 36-55 `listDifference`: copy `total`, then `ret.remove(x)` for each `x` in `used`. -/
def listDifference {α : Type _} [DecidableEq α] (total used : List α) : Except PyErr (List α) :=
  used.foldlM pyRemove total

/-- `funcs.py` 57-75 `deleteAllInUsed`. -/
def deleteAllInUsed {α : Type _} [DecidableEq α] (total used : List α) : List α :=
  total.filter (fun x => decide (x ∉ used))

/-- `funcs.py` 77-99 `tupleRemoveByIndex` (non-negative and negative indices alike are only
compared with `i in indexSet`, so negative indices never match). -/
def tupleRemoveByIndex {α : Type _} (initTuple : List α) (indexList : List Int) : List α :=
  (initTuple.zipIdx.filter (fun p => decide ((p.2 : Int) ∉ indexList))).map Prod.fst

/-- `funcs.py` 101-118 `tupleProduct` (integer entries): `res *= x` from 1. -/
def tupleProduct (shape : List Nat) : Nat :=
  shape.foldl (fun res x => res * x) 1

/-- `funcs.py` 120-137 `spinChainProductSum`: `res += spins[i] * spins[i + 1 - n]`, with
Python's negative indexing (`i + 1 - n ≤ 0`). -/
def spinChainProductSum (spins : List Int) : Except PyErr Int :=
  (List.range spins.length).foldlM (fun (res : Int) (i : Nat) => do
    let a ← pyGet spins (i : Int)
    let b ← pyGet spins ((i : Int) + 1 - spins.length)
    .ok (res + a * b)) 0

/-- `funcs.py` 139-152 `compareLists`: `Counter(a) == Counter(b)`. Counter equality is equality
of counts on every key of either counter. -/
def compareLists {α : Type _} [DecidableEq α] (a b : List α) : Bool :=
  a.all (fun x => a.count x == b.count x) && b.all (fun x => a.count x == b.count x)

/-- `funcs.py` 154-169 `commonElements`: `list((Counter(x) & Counter(y)).elements())`. -/
def commonElements {α : Type _} [DecidableEq α] (x y : List α) : List α :=
  x.eraseDups.flatMap (fun e => List.replicate (min (x.count e) (y.count e)) e)

/-- `funcs.py` 171-185 `listSymmetricDifference`: `list(set(x) ^ set(y))`. The iteration order of
a Python set is unspecified; the model fixes "left part first, in order of first appearance". -/
def listSymmetricDifference {α : Type _} [DecidableEq α] (x y : List α) : List α :=
  (x.eraseDups.filter (fun e => decide (e ∉ y))) ++ (y.eraseDups.filter (fun e => decide (e ∉ x)))

/-- Python's `x % m` and `x // m` on ints (floor convention), `ZeroDivisionError` for `m = 0`. -/
def pyDivMod (x m : Int) : Except PyErr (Int × Int) :=
  if m = 0 then .error .zeroDivisionError else .ok (Int.fdiv x m, Int.fmod x m)

/-- `funcs.py` 246-268 `intToDBaseTuple`: `dim` times append `x % D`, then `x //= D`. -/
def intToDBaseTuple (x : Int) (dim : Nat) (D : Int) : Except PyErr (List Int) :=
  match dim with
  | 0 => .ok []
  | dim + 1 => do
    let (q, r) ← pyDivMod x D
    let rest ← intToDBaseTuple q dim D
    .ok (r :: rest)

/-- `funcs.py` 187-208 `intToBitList` (and 210-226 `intToBitTuple`): the same loop with the
literal base 2. -/
def intToBitList (x : Int) (dim : Nat) : List Int :=
  match dim with
  | 0 => []
  | dim + 1 => Int.fmod x 2 :: intToBitList (Int.fdiv x 2) dim

/-- `funcs.py` 228-244 `safeMod`: `((x % m) + m) % m`. -/
def safeMod (x m : Int) : Except PyErr Int := do
  let (_, r) ← pyDivMod x m
  let (_, r') ← pyDivMod (r + m) m
  .ok r'

/-- A Python `dict`: association list, insertion order, later writes overwrite in place. -/
def dictSet {κ ν : Type _} [DecidableEq κ] (d : List (κ × ν)) (k : κ) (v : ν) : List (κ × ν) :=
  match d with
  | [] => [(k, v)]
  | (k', v') :: d => if k' = k then (k, v) :: d else (k', v') :: dictSet d k v

/-- `dict.get(k)`. -/
def dictGet {κ ν : Type _} [DecidableEq κ] (d : List (κ × ν)) (k : κ) : Option ν :=
  match d with
  | [] => none
  | (k', v) :: d => if k' = k then some v else dictGet d k

/-- Loop of `getIndexDict`, `funcs.py` 594-596. The argument is the list of `(labels[i], shape[i])`
already reversed (the code walks `i` from the last axis down to 0). -/
def getIndexDictLoop {κ : Type _} [DecidableEq κ] :
    List (κ × Int) → Int → List (κ × Int) → Except PyErr (List (κ × Int))
  | [], _, res => .ok res
  | (lab, d) :: rest, idx, res => do
    let (q, r) ← pyDivMod idx d
    getIndexDictLoop rest q (dictSet res lab r)

/-- `funcs.py` 575-597 `getIndexDict`. `labels[i]` raises `IndexError` when there are fewer labels
than axes; extra labels are ignored. -/
def getIndexDict {κ : Type _} [DecidableEq κ] (idx : Int) (labels : List κ) (shape : List Int) :
    Except PyErr (List (κ × Int)) :=
  if labels.length < shape.length then .error .indexError
  else getIndexDictLoop ((labels.take shape.length).zip shape).reverse idx []

/-- `funcs.py` 621-644 `divideIntoKParts`, the generator collected into a list. `k = 0` recurses
without end in Python (`k` becomes negative); the model returns `none` there. -/
def divideIntoKParts (n : Nat) (k : Nat) : Option (List (List Nat)) :=
  match k with
  | 0 => none
  | 1 => some [[n]]
  | k + 2 =>
    ((List.range (n + 1)).mapM (fun i =>
      (divideIntoKParts (n - i) (k + 1)).map (fun parts => parts.map (fun p => i :: p)))).map
      List.flatten

/-- `funcs.py` 646-665 `myComb`: falling product, then successive floor divisions by `1..p`. -/
def myComb (n : Int) (p : Nat) : Int :=
  (List.range p).foldl (fun (res : Int) (i : Nat) => Int.fdiv res ((i : Int) + 1))
    ((List.range p).foldl (fun (res : Int) (i : Nat) => res * (n - (i : Int))) 1)

/-- `funcs.py` 667-685 `calculateDivisionTimes` (parts are non-negative). -/
def calculateDivisionTimes (division : List Nat) : Int :=
  (division.foldl (fun (st : Int × Int) p => (st.1 * myComb st.2 p, st.2 - p))
    (1, ((division.sum : Nat) : Int))).1

/-- `funcs.py` 687-711 `getValidValues`: positions and values with `abs(value) < threshold`. -/
def getValidValues (values : List Rat) (threshold : Rat) : List Nat × List Rat :=
  values.zipIdx.foldl (fun (st : List Nat × List Rat) (p : Rat × Nat) =>
    if |p.1| < threshold then (st.1 ++ [p.2], st.2 ++ [p.1]) else st) ([], [])

/-- The `while` loop of `binarySearch`, `funcs.py` 751-756, with fuel (`none` = still running). -/
def binarySearchLoop {K : Type _} [Field K] [LinearOrder K] (largeEnough : K → Bool) (eps : K) :
    Nat → K → K → K → Option K
  | 0, _, _, _ => none
  | fuel + 1, l, r, mid =>
    if r - l > eps then
      if largeEnough mid then binarySearchLoop largeEnough eps fuel l mid ((1 / 2) * (l + mid))
      else binarySearchLoop largeEnough eps fuel mid r ((1 / 2) * (mid + r))
    else some mid

/-- `funcs.py` 729-757 `binarySearch`, over an arbitrary ordered field in place of floats. -/
def binarySearch {K : Type _} [Field K] [LinearOrder K] (fuel : Nat) (left right : K)
    (largeEnough : K → Bool) (eps : K) : Except PyErr (Option K) :=
  if left < right then
    .ok (binarySearchLoop largeEnough eps fuel left right ((left + right) * (1 / 2)))
  else .error .assertionError

/-- `funcs.py` 759-779 `getCombineSet` up to the final `set(...)` (which forgets order and
multiplicity): concatenation of the named lists, `AssertionError` for an unknown name. -/
def getCombineSet {κ α : Type _} [DecidableEq κ] (listDict : List (κ × List α)) (names : List κ) :
    Except PyErr (List α) :=
  names.foldlM (fun res name =>
    match dictGet listDict name with
    | some l => .ok (res ++ l)
    | none => .error .assertionError) []

/-- `funcs.py` 781-799 `getCutoff`. -/
def getCutoff {K : Type _} [LT K] [DecidableLT K] (s : List K) (threshold : K) : Nat :=
  match s with
  | [] => 0
  | x :: s => if x < threshold then 0 else getCutoff s threshold + 1

/-- `funcs.py` 801-820 `partialInverse`: `res[i] = 1.0 / s[i]` for `i < cutoff`, zeros elsewhere;
`IndexError` when `cutoff` exceeds the length. (Division by an exact zero is a numpy warning in
the code; the model's field convention `1 / 0 = 0` differs there.) -/
def partialInverse {K : Type _} [Field K] (s : List K) (cutoff : Nat) : Except PyErr (List K) :=
  if s.length < cutoff then .error .indexError
  else .ok ((s.take cutoff).map (fun x => 1 / x) ++ List.replicate (s.length - cutoff) 0)

/-- `funcs.py` 841-863 `oppositeSingleDirection`; `assertInSet` (506-518)
raises for anything but l, r, u, d. -/
def oppositeSingleDirection (x : Char) : Except PyErr Char :=
  if x = 'l' then .ok 'r'
  else if x = 'r' then .ok 'l'
  else if x = 'u' then .ok 'd'
  else if x = 'd' then .ok 'u'
  else .error .assertionError

/-- `funcs.py` 822-839 `oppositeDirection`. -/
def oppositeDirection (x : List Char) : Except PyErr (List Char) :=
  x.foldlM (fun res c => (oppositeSingleDirection c).map (fun c' => res ++ [c'])) []

/-- `funcs.py` 880-899 `mapToDict`: every key receives the whole second argument. -/
def mapToDict {κ α : Type _} [DecidableEq κ] (dictShape : List κ) (x : List α) :
    List (κ × List α) :=
  dictShape.foldl (fun res key => dictSet res key x) []

/-- `funcs.py` 997-1016 `identicalTensorDict`. -/
def identicalTensorDict {κ α : Type _} [DecidableEq κ] (tensor : α) (names : List κ) :
    List (κ × α) :=
  names.foldl (fun res name => dictSet res name tensor) []

/-- `funcs.py` 923-939 `tupleSwap`. -/
def tupleSwap {α β : Type _} (tp : α × β) : β × α := (tp.2, tp.1)

/-- `funcs.py` 941-957 `floatEqual`. -/
def floatEqual (a b eps : Rat) : Bool := decide (|a - b| < eps)

/-- `funcs.py` 959-975 `floatRelativeEqual`. -/
def floatRelativeEqual (a b eps : Rat) : Bool := decide (|a - b| < eps * (1 / 2) * (a + b))

/-- `funcs.py` 1018-1035 `checkAllEqual`. -/
def checkAllEqual {α : Type _} [DecidableEq α] (tp : List α) : Bool :=
  match tp with
  | [] => true
  | x0 :: _ => tp.all (fun x => decide (x = x0))

/-- `funcs.py` 1207-1226 `combineName`: `'|'.join(namesList)` unless a name is given. -/
def combineName (namesList : List String) (givenName : Option String) : String :=
  match givenName with
  | none => String.intercalate "|" namesList
  | some g => g

/-- `funcs.py` 1243-1261 `pairIterator`, collected: two nested index loops. -/
def pairIterator {α : Type _} (a : List α) : List (α × α) :=
  (List.range a.length).flatMap (fun i =>
    (List.range' (i + 1) (a.length - (i + 1))).filterMap (fun j =>
      match a[i]?, a[j]? with
      | some x, some y => some (x, y)
      | _, _ => none))

/-- `funcs.py` 1315-1344 `generateIndices`. `currentIndex` is the dict of last used positions. -/
def generateIndicesLoop {α : Type _} [DecidableEq α] (elemList : List α) :
    List α → List (α × Nat) → List (Option Nat) → List (Option Nat)
  | [], _, res => res
  | e :: es, cur, res =>
    let startIndex := (dictGet cur e).elim 0 (· + 1)
    if e ∈ elemList.drop startIndex then
      let index := (elemList.drop startIndex).idxOf e + startIndex
      generateIndicesLoop elemList es (dictSet cur e index) (res ++ [some index])
    else generateIndicesLoop elemList es cur (res ++ [none])

def generateIndices {α : Type _} [DecidableEq α] (elemList elems : List α) : List (Option Nat) :=
  generateIndicesLoop elemList elems [] []

/-- numpy dtypes as far as `priorDataType` inspects them: kind and item size in bytes. -/
inductive DKind where
  | floating
  | complexFloating
  | other
  deriving DecidableEq, Repr

structure DType where
  kind : DKind
  itemsize : Nat
  deriving DecidableEq, Repr

/-- `funcs.py` 1263-1313 `priorDataType`. -/
def priorDataType (d1 d2 : DType) : Except PyErr DType :=
  let isFloat1 := decide (d1.kind = .floating)
  let isFloat2 := decide (d2.kind = .floating)
  let acc1 := if isFloat1 then d1.itemsize else d1.itemsize / 2
  let acc2 := if isFloat2 then d2.itemsize else d2.itemsize / 2
  let acc := max acc1 acc2
  if isFloat1 && isFloat2 then
    if acc = 2 ∨ acc = 4 ∨ acc = 8 ∨ acc = 16 then .ok ⟨.floating, acc⟩ else .error .valueError
  else
    if acc = 4 ∨ acc = 8 ∨ acc = 16 then .ok ⟨.complexFloating, 2 * acc⟩ else .error .valueError

end CTL
