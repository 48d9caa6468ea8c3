import Verif.Model.Bits
import Verif.Model.Funcs
import Verif.Model.Graph
import Mathlib.Data.Nat.Sqrt

/-!
Model of `TensorGraph.optimalContractSequence`, `src/CTL/tensor/contract/tensorGraph.py` 112-419: brute force,
greedy and capped search for a contraction sequence.  A set of tensors is a bit mask.
-/

namespace CTL

/-- An entry of `contractRes`: (edge indices, shape, is-diagonal). -/
structure CRes where
  edges : List Nat
  shape : List Nat
  diag : Bool
deriving DecidableEq, Repr

/-- The dictionary lookup of `calculateContractRes`, `tensorGraph.py` 242-244: the last pair wins. -/
def lastValue (pairs : List (Nat × Nat)) (e : Nat) : Option Nat := pairs.reverse.lookup e

/-- `tensorGraph.py` 227-245 `calculateContractRes`.  Simplifications: the order of the edges of the result is
that of `listSymmetricDifference` (Python: the order of a set); a missing dimension would be `None` in Python,
here 0 (it cannot be missing because the edge list of an entry is as long as its shape). -/
def calcRes (a b : CRes) : CRes :=
  let edges := listSymmetricDifference a.edges b.edges
  let pairs := (a.edges ++ b.edges).zip (a.shape ++ b.shape)
  ⟨edges, edges.map fun e => (lastValue pairs e).getD 0, a.diag && b.diag⟩

/-- `int(sqrt(N) + 0.5)` in exact arithmetic. -/
def roundSqrt (N : Nat) : Nat := (Nat.sqrt (4 * N) + 1) / 2

/-- The square of the product accumulated by `getCost`, `tensorGraph.py` 188-195: every edge contributes its
dimension `s`; a common edge contributes `sqrt(s)` per occurrence, or nothing if one tensor is diagonal. -/
def costSq (common : List Nat) (diagonal : Bool) : List (Nat × Nat) → Nat
  | [] => 1
  | (l, s) :: rest =>
    (if l ∈ common then (if diagonal then 1 else s) else s * s) * costSq common diagonal rest

/-- `tensorGraph.py` 173-197 `getCost`.  Simplification: the floating-point square roots are exact. -/
def getCost (a b : CRes) : Except PyErr Nat :=
  if a.diag && b.diag then
    match a.shape with
    | [] => .error .indexError
    | s :: _ => .ok s
  else
    .ok (roundSqrt (costSq (commonElements a.edges b.edges) (a.diag || b.diag)
      ((a.edges ++ b.edges).zip (a.shape ++ b.shape))))

/-- `tensorGraph.py` 199-211 `getCostTypical`. -/
def getCostTypical (typicalDim : Nat) (a b : CRes) : Except PyErr Nat :=
  let common := (commonElements a.edges b.edges).eraseDups.length
  let order :=
    if a.diag && b.diag then 1
    else if a.diag || b.diag then a.edges.length + b.edges.length - 2 * common
    else a.edges.length + b.edges.length - common
  .ok (typicalDim ^ order)

/-- `tensorGraph.py` 255-259. -/
def costFunc (typicalDim : Option Nat) (a b : CRes) : Except PyErr Nat :=
  match typicalDim with
  | none => getCost a b
  | some d => getCostTypical d a b

/-- `tensorGraph.py` 213-222 `isSharingBond`. -/
def isSharingBond (a b : CRes) : Bool := decide (0 < (commonElements a.edges b.edges).length)

/-- `tensorGraph.py` 224-225 `isDiagonalOuterProduct`. -/
def isDiagonalOuterProduct (a b : CRes) : Bool := a.diag && b.diag && !isSharingBond a b

/-- The tables `optimalCost`, `optimalSeq`, `contractRes`.  Simplification: total functions instead of lists of
length `1 << n`; the search only uses masks below that. -/
structure Tables where
  cost : Nat → Option Nat
  seq : Nat → Option (List (Nat × Nat))
  res : Nat → Option CRes

/-- Update of one table entry. -/
def upd {α : Type} (f : Nat → α) (x : Nat) (a : α) : Nat → α := fun y => if y = x then a else f y

/-- The tensors as the search sees them, `tensorGraph.py` 151-154. -/
structure Input where
  edges : List (List Nat)
  shapes : List (List Nat)
  diag : List Bool
deriving DecidableEq, Repr

def Input.vertex (g : Input) (i : Nat) : CRes := ⟨g.edges.getD i [], g.shapes.getD i [], g.diag.getD i false⟩

/-- `tensorGraph.py` 156-166: initial tables. -/
def initTables (g : Input) : Tables :=
  let n := g.edges.length
  let at1 {α : Type} (f : Nat → α) : Nat → Option α := fun x =>
    ((List.range n).find? fun i => x = 1 <<< i).map f
  ⟨at1 fun _ => 0, at1 fun _ => [], at1 g.vertex⟩

/-- `self.contractRes[x]` used as a triple; unpacking `None` is a `TypeError`. -/
def Tables.getRes (s : Tables) (x : Nat) : Except PyErr CRes :=
  match s.res x with
  | some r => .ok r
  | none => .error .typeError

/-- Adding `None` is a `TypeError`. -/
def Tables.getCost (s : Tables) (x : Nat) : Except PyErr Nat :=
  match s.cost x with
  | some c => .ok c
  | none => .error .typeError

def Tables.getSeq (s : Tables) (x : Nat) : Except PyErr (List (Nat × Nat)) :=
  match s.seq x with
  | some c => .ok c
  | none => .error .typeError

/-- The best split found so far: `minCost`, `minTSA`, `minTSB`. -/
abbrev Best := Option (Nat × Nat × Nat)

/-- `tensorGraph.py` 281-284. -/
def better (best : Best) (c a b : Nat) : Best :=
  match best with
  | none => some (c, a, b)
  | some (m, _, _) => if c < m then some (c, a, b) else best

/-- The rest of the loop body of `solveSet` once both parts are solved, `tensorGraph.py` 276-284. -/
def splitStep (typ : Option Nat) (x a : Nat) (s : Tables) (best : Best) : Except PyErr (Tables × Best) := do
  let b := x - a
  let ra ← s.getRes a
  let rb ← s.getRes b
  let s := if (s.res x).isNone then { s with res := upd s.res x (some (calcRes ra rb)) } else s
  let l ← costFunc typ ra rb
  let ca ← s.getCost a
  let cb ← s.getCost b
  pure (s, better best (ca + cb + l) a b)

/-- The loop of `solveSet` over the subsets, `tensorGraph.py` 269-284; `solve` is the recursive call (which
returns at once when the cost of the subset is known). -/
def splitLoop (typ : Option Nat) (solve : Nat → Tables → Except PyErr Tables) (x : Nat) :
    List Nat → Tables → Best → Except PyErr (Tables × Best)
  | [], s, best => .ok (s, best)
  | a :: as, s, best => do
    let s ← solve a s
    let s ← solve (x - a) s
    let r ← splitStep typ x a s best
    splitLoop typ solve x as r.1 r.2

/-- `tensorGraph.py` 286-287: store the best split; for no split at all `optimalSeq[None]` is a `TypeError`. -/
def storeBest (x : Nat) (s : Tables) (best : Best) : Except PyErr Tables :=
  match best with
  | none => .error .typeError
  | some (c, a, b) => do
    let qa ← s.getSeq a
    let qb ← s.getSeq b
    pure { s with cost := upd s.cost x (some c),
                  seq := upd s.seq x (some (qa ++ qb ++ [(lowbitI a, lowbitI b)])) }

/-- `tensorGraph.py` 261-287 `solveSet`.  The recursion is on proper subsets; `fuel` bounds its depth and
running out of it would be Python's `RecursionError`. -/
def solveSet (typ : Option Nat) : Nat → Nat → Tables → Except PyErr Tables
  | 0, _, _ => .error .recursionError
  | fuel + 1, x, s =>
    if (s.cost x).isSome then .ok s
    else do
      let r ← splitLoop typ (solveSet typ fuel) x (subsetIterator x) s none
      storeBest x r.1 r.2

/-- `tensorGraph.py` 289-296 `bruteForce`; returns the tables too (`optimalCost` is read afterwards). -/
def bruteForce (g : Input) (typ : Option Nat) : Except PyErr (Tables × List (Nat × Nat)) := do
  let full := 1 <<< g.edges.length - 1
  let s ← solveSet typ (full + 1) full (initTables g)
  let q ← s.getSeq full
  pure (s, q)

/-! ### Capped search -/

/-- The state of `capping`: the tables, `new_flag`, `obj_list` by number of tensors. -/
structure CapState where
  tab : Tables
  new : Nat → Bool
  objs : Nat → List Nat

/-- `obj_iterator(c1, c2)` with `c1 == c2`, `tensorGraph.py` 342-350, collected. -/
def objPairsSame (l : List Nat) : List (Nat × Nat) :=
  (List.range l.length).flatMap fun cur1 => (List.range cur1).map fun cur2 => (l.getD cur2 0, l.getD cur1 0)

/-- `obj_iterator(c1, c2)` with `c1 != c2`, `tensorGraph.py` 351-362, collected. -/
def objPairsDiff (l1 l2 : List Nat) : List (Nat × Nat) :=
  l1.flatMap fun a => l2.map fun b => (a, b)

/-- `tensorGraph.py` 339-362 `obj_iterator`, collected: the loop body appends to the list of a larger number of
tensors only, so the lists do not change while they are traversed. -/
def objPairs (objs : Nat → List Nat) (c1 c2 : Nat) : List (Nat × Nat) :=
  if c1 = c2 then objPairsSame (objs c1) else objPairsDiff (objs c1) (objs c2)

/-- The body of the innermost loop, `tensorGraph.py` 371-401, for `mu_old`, `mu_new` and `c = c1 + c2`.
Simplification: `mu_next` is left out; it starts as `mu_new` and is only changed to a value that is larger than
`mu_new` and smaller than itself, hence never. -/
def capPair (typ : Option Nat) (muOld muNew c : Nat) (s : CapState) (p : Nat × Nat) : Except PyErr CapState :=
  if p.1 &&& p.2 ≠ 0 then .ok s
  else do
    let r1 ← s.tab.getRes p.1
    let r2 ← s.tab.getRes p.2
    if isDiagonalOuterProduct r1 r2 then pure s
    else
      let tt := p.1 ||| p.2
      let s : CapState :=
        if (s.tab.res tt).isNone then { s with tab := { s.tab with res := upd s.tab.res tt (some (calcRes r1 r2)) } }
        else s
      let mu0 := if s.new p.1 || s.new p.2 then 0 else muOld
      let c1 ← s.tab.getCost p.1
      let c2 ← s.tab.getCost p.2
      let l ← costFunc typ r1 r2
      let mu := c1 + c2 + l
      if muNew < mu then pure s
      else if mu0 < mu then
        let s : CapState :=
          if (s.tab.cost tt).isNone then { s with objs := upd s.objs c (s.objs c ++ [tt]) } else s
        if (s.tab.cost tt).all (fun old => decide (mu < old)) then do
          let q1 ← s.tab.getSeq p.1
          let q2 ← s.tab.getSeq p.2
          pure { s with
            tab := { s.tab with cost := upd s.tab.cost tt (some mu),
                                seq := upd s.tab.seq tt (some (q1 ++ q2 ++ [(lowbitI p.1, lowbitI p.2)])) },
            new := upd s.new tt true }
        else pure s
      else pure s

/-- The three nested loops, `tensorGraph.py` 367-401. -/
def capRound (typ : Option Nat) (n muOld muNew : Nat) (s : CapState) : Except PyErr CapState :=
  (List.range' 2 (n - 1)).foldlM (fun s c =>
    (List.range' 1 (c / 2)).foldlM (fun s c1 =>
      (objPairs s.objs c1 (c - c1)).foldlM (capPair typ muOld muNew c) s) s) s

/-- `tensorGraph.py` 405-407: forget the flags of everything in `obj_list`. -/
def clearNew (n : Nat) (s : CapState) : CapState :=
  { s with new := fun x => if (List.range (n + 1)).any (fun c => decide (x ∈ s.objs c)) then false else s.new x }

/-- The `while` loop, `tensorGraph.py` 364-407, for at most `fuel` rounds; `none` means that it is still
running. -/
def capLoop (typ : Option Nat) (n chi : Nat) : Nat → Nat → Nat → CapState → Option (Except PyErr CapState)
  | fuel, muOld, muNew, s =>
    if (s.objs n).length ≠ 0 then some (.ok s)
    else match fuel with
      | 0 => none
      | fuel + 1 =>
        match capRound typ n muOld muNew s with
        | .error e => some (.error e)
        | .ok s' => capLoop typ n chi fuel muNew (max muNew (muNew * chi)) (clearNew n s')

/-- Python's `min` of a list, `ValueError` if it is empty. -/
def pyMin : List Nat → Except PyErr Nat
  | [] => .error .valueError
  | x :: xs => .ok (xs.foldl min x)

/-- `tensorGraph.py` 325-331: `chi_min`. -/
def chiMin (g : Input) (typ : Option Nat) : Except PyErr Nat :=
  match typ with
  | some d => .ok (max d 2)
  | none => do
    let ms ← g.shapes.mapM pyMin
    let m ← pyMin ms
    pure (max m 2)

/-- `tensorGraph.py` 322-413 `capping`, for at most `fuel` rounds. -/
def capping (g : Input) (typ : Option Nat) (fuel : Nat) : Option (Except PyErr (Tables × List (Nat × Nat))) :=
  let n := g.edges.length
  match chiMin g typ with
  | .error e => some (.error e)
  | .ok chi =>
    if n = 0 then some (.error .indexError)
    else
      let init : CapState := ⟨initTables g, fun _ => true,
        fun c => if c = 1 then (List.range n).map (1 <<< ·) else []⟩
      (capLoop typ n chi fuel 0 1 init).map fun r => do
        let s ← r
        let q ← s.tab.getSeq (1 <<< n - 1)
        pure (s.tab, q)

/-! ### Greedy search -/

/-- `contractRes` of the greedy search: one entry per slot. -/
abbrev Slots := Nat → CRes

/-- One candidate of the greedy search, `tensorGraph.py` 307-313: `minSize`, `minTSA`, `minTSB` (`none` for the
initial `-1`). -/
def greedyPick (res : Slots) (best : Best) (p : Nat × Nat) : Best :=
  if isSharingBond (res p.1) (res p.2) then
    better best (tupleProduct (calcRes (res p.1) (res p.2)).shape) p.1 p.2
  else best

/-- The `while` loop, `tensorGraph.py` 301-318.  If no two tensors share a bond the code goes on with `(-1, -1)`
and fails at the latest in `tensorSet.remove(-1)`; the model raises that `ValueError` at once (computing the cost of
slot `-1` with itself may raise an `IndexError` first). -/
def greedyLoop : Nat → List Nat → Slots → Nat → List (Nat × Nat) → Except PyErr (Nat × List (Nat × Nat))
  | 0, _, _, _, _ => .error .runtimeError
  | fuel + 1, ts, res, cost, seq =>
    if ts.length ≤ 1 then .ok (cost, seq)
    else match (pairIterator ts).foldl (greedyPick res) none with
      | none => .error .valueError
      | some (_, a, b) => do
        let l ← getCost (res a) (res b)
        greedyLoop fuel (ts.erase b) (upd res a (calcRes (res a) (res b))) (cost + l) (seq ++ [(a, b)])

/-- `tensorGraph.py` 298-320 `greedySearch`: `greedyCost` and `greedySeq`.  Every round removes one tensor, so
`n + 1` rounds are enough. -/
def greedySearch (g : Input) : Except PyErr (Nat × List (Nat × Nat)) :=
  greedyLoop (g.edges.length + 1) (List.range g.edges.length) g.vertex 0 []

end CTL
