import Mathlib.Algebra.Field.Defs
import Verif.Model.Py

/-! `examples/CTMRG.py`: the corner transfer matrix iteration, its records and its queries.

Simplifications: tensors are values of a type `T` (the code copies a tensor before it is stored or contracted, so no
stored tensor is changed later); the contractions of the seven finite tensor networks, `sumOutLegByLabel`,
`tensorSVDDecomposition`, the norm, `log` and `exp` are the operations of `CTMOps`. -/

namespace CTL

/-- A dictionary with the keys `corner`, `hEdge`, `vEdge`. -/
structure Trio (α : Type) where
  corner : α
  hEdge : α
  vEdge : α
  deriving DecidableEq

/-- The operations on tensors that `CTMRG` calls. -/
structure CTMOps (T K : Type) where
  /-- `sumOutLegByLabel(['d', 'l'])`, line 17 -/
  sumCorner : T → T
  /-- `sumOutLegByLabel('d')`, line 18 -/
  sumH : T → T
  /-- `sumOutLegByLabel('l')`, line 19 -/
  sumV : T → T
  /-- `sumOutLegByLabel(['l', 'r', 'u', 'd'])` and `single()`, lines 152-153 -/
  sumAll : T → K
  /-- `hEdgeExtendFTN.contract({'p', 'w'})` -/
  extendH : (p w : T) → T
  /-- `vEdgeExtendFTN.contract({'p', 'w'})` -/
  extendV : (p w : T) → T
  /-- `cornerExtendFTN.contract({'ph', 'pv', 'w', 'c'})` -/
  extendCorner : (ph pv w c : T) → T
  /-- `reduceDimension`, lines 58-88: the truncated corner and edges and the error -/
  reduce : Trio T → Trio T × K
  norm : T → K
  /-- `t.a /= x` -/
  div : T → K → T
  /-- `evenZFTN.contract` with one tensor at all four corners, `single()` -/
  even : T → K
  /-- `oddZFTN.contract` with one corner tensor, `pl = pr`, `pd = pu` and `w`, `single()` -/
  odd : (corner pl pd w : T) → K
  log : K → K
  exp : K → K

/-- The attributes of a `CTMRG` object that change. -/
structure CTM (T K : Type) where
  tensors : Trio T
  logScale : Trio K
  records : Trio (List (T × K))
  errors : List K

variable {T K : Type} [Field K]

/-- `CTMRG.py` 14-35, 46-56 `setRecords`, `setInitialTensors` as called by `__init__` (the labels of `a` are assumed to
pass the assertion). -/
def CTM.new (ops : CTMOps T K) (a : T) : CTM T K :=
  let (ts, error) := ops.reduce ⟨ops.sumCorner a, ops.sumH a, ops.sumV a⟩
  { tensors := ts, logScale := ⟨0, 0, 0⟩, records := ⟨[], [], []⟩, errors := [error] }

/-- `CTMRG.py` 36-38 `pushTensors`. -/
def CTM.push (s : CTM T K) : CTM T K :=
  { s with records := ⟨s.records.corner ++ [(s.tensors.corner, s.logScale.corner)],
      s.records.hEdge ++ [(s.tensors.hEdge, s.logScale.hEdge)], s.records.vEdge ++ [(s.tensors.vEdge, s.logScale.vEdge)]⟩ }

/-- `CTMRG.py` 90-121 `iterate`. -/
def CTM.iterate (ops : CTMOps T K) (a : T) (s : CTM T K) : CTM T K :=
  let s := s.push
  let newH := ops.extendH s.tensors.hEdge a
  let newV := ops.extendV s.tensors.vEdge a
  let newC := ops.extendCorner s.tensors.hEdge s.tensors.vEdge a s.tensors.corner
  let (n, error) := ops.reduce ⟨newC, newH, newV⟩
  let cn := ops.norm n.corner
  let hn := ops.norm n.hEdge
  let vn := ops.norm n.vEdge
  { tensors := ⟨ops.div n.corner cn, ops.div n.hEdge hn, ops.div n.vEdge vn⟩
    logScale := ⟨ops.log cn + s.logScale.corner + s.logScale.hEdge + s.logScale.vEdge,
      ops.log hn + s.logScale.hEdge, ops.log vn + s.logScale.vEdge⟩
    records := s.records
    errors := s.errors ++ [error] }

theorem CTM.iterate_length (ops : CTMOps T K) (a : T) (s : CTM T K) :
    (CTM.iterate ops a s).records.corner.length = s.records.corner.length + 1 := by
  simp [CTM.iterate, CTM.push]

/-- `CTMRG.py` 156-157: the `while` loop. -/
def CTM.grow (ops : CTMOps T K) (a : T) (n : Int) (s : CTM T K) : CTM T K :=
  if h : (s.records.corner.length : Int) < n then CTM.grow ops a n (CTM.iterate ops a s) else s
termination_by (n - s.records.corner.length).toNat
decreasing_by
  rw [CTM.iterate_length]
  omega

/-- `CTMRG.py` 142-145 and 158-171: the tensors and scales of step `idx`.  The edges are read only when `L` is odd; reading
them always is the same because the three record lists have one length. -/
def CTM.fetch (s : CTM T K) (idx : Int) : Except PyErr (Trio (T × K)) :=
  if (s.records.corner.length : Int) = idx then
    .ok ⟨(s.tensors.corner, s.logScale.corner), (s.tensors.hEdge, s.logScale.hEdge), (s.tensors.vEdge, s.logScale.vEdge)⟩
  else do
    let c ← pyGet s.records.corner idx
    let h ← pyGet s.records.hEdge idx
    let v ← pyGet s.records.vEdge idx
    pure ⟨c, h, v⟩

/-- `CTMRG.py` 173-186: the value from the fetched tensors. -/
def CTM.value (ops : CTMOps T K) (a : T) (L : Int) (r : Trio (T × K)) : K :=
  if L % 2 = 0 then ops.even r.corner.1 * ops.exp (4 * r.corner.2)
  else ops.odd r.corner.1 r.vEdge.1 r.hEdge.1 a * ops.exp (4 * r.corner.2 + 2 * r.hEdge.2 + 2 * r.vEdge.2)

/-- `CTMRG.py` 147-186 `getZ`: the state afterwards and the answer. -/
def CTM.getZ (ops : CTMOps T K) (a : T) (s : CTM T K) (L : Int) : CTM T K × Except PyErr K :=
  if L = 1 then (s, .ok (ops.sumAll a))
  else
    let s := s.grow ops a (L / 2 - 1)
    (s, (s.fetch (L / 2 - 1)).map (CTM.value ops a L))

/-- A caller's history of queries. -/
def CTM.queries (ops : CTMOps T K) (a : T) (s : CTM T K) (Ls : List Int) : CTM T K :=
  Ls.foldl (fun s L => (s.getZ ops a L).1) s

end CTL
