import Mathlib.Algebra.Module.Defs
import Mathlib.Algebra.Field.Defs
import Verif.Model.Py
import Verif.Model.Funcs

/-! `examples/HOTRG.py`, `examples/TRG.py` and `examples/impurity.py`: the coarse-graining loops and their bookkeeping.

Simplifications: tensors are values of a type `T` (every tensor that is archived is a copy); the contractions, the
decompositions, the norm, the trace and `log` are parameters; numbers are those of a field with an order; the FTNs, bond
dimensions and labels are not modelled. -/

namespace CTL

/-- The four directions of `HOTRG.iterate`. -/
inductive RGDir where
  | u | d | l | r
  deriving DecidableEq, Repr

/-- The operations on tensors that `HOTRG` calls. -/
structure RGOps (T P K : Type) where
  /-- `HOTRG.py` 58-86 `directedIterateTrial`: error and projector -/
  trial : RGDir → T → K × P
  /-- `HOTRG.py` 88-112 `directedIterate` -/
  apply : RGDir → P → T → T → T
  norm : T → K
  /-- `t.a /= x` -/
  div : T → K → T
  /-- `squareTrace` -/
  trace : T → K
  log : K → K

/-- The attributes of a `HOTRG` object that change; an archived tensor carries its `degreeOfFreedom`. -/
structure HOTRG (T P K : Type) where
  a : T
  dof : Nat
  aNorms : List K
  aArchive : List (T × Nat)
  errors : List K
  directChoices : List RGDir
  projectors : List P

variable {T P K : Type} [Field K]

/-- `HOTRG.py` 49-56 `normalizeTensors` and `appendToArchive`. -/
def HOTRG.append (ops : RGOps T P K) (s : HOTRG T P K) : HOTRG T P K :=
  let aNorm := ops.norm s.a
  let a := ops.div s.a aNorm
  { s with a := a, aNorms := s.aNorms ++ [aNorm], aArchive := s.aArchive ++ [(a, s.dof)] }

/-- `HOTRG.py` 17-47 `__init__`: a missing `degreeOfFreedom` is 1. -/
def HOTRG.new (ops : RGOps T P K) (a : T) (dof : Option Nat) : HOTRG T P K :=
  HOTRG.append ops ⟨a, dof.getD 1, [], [], [], [], []⟩

/-- `HOTRG.py` 119-131: the loop over the directions; the first one is always taken because `minimumError` starts at `-1`. -/
def HOTRG.choose [LT K] [DecidableLT K] (ops : RGOps T P K) (a : T) : K × Option (RGDir × P) :=
  [RGDir.u, .d, .l, .r].foldl (fun (best : K × Option (RGDir × P)) d =>
    let p := ops.trial d a
    if best.1 < 0 ∨ p.1 < best.1 then (p.1, some (d, p.2)) else best) (-1, none)

/-- `HOTRG.py` 114-139 `iterate`. -/
def HOTRG.iterate [LT K] [DecidableLT K] (ops : RGOps T P K) (s : HOTRG T P K) : Except PyErr (HOTRG T P K) :=
  match HOTRG.choose ops s.a with
  | (_, none) => .error .assertionError
  | (minimumError, some (d, p)) =>
    let s1 := HOTRG.append ops { s with a := ops.apply d p s.a s.a, dof := s.dof * 2 }
    .ok { s1 with errors := s1.errors ++ [minimumError], directChoices := s1.directChoices ++ [d], projectors := s1.projectors ++ [p] }

/-- `HOTRG.py` 141-143 `getNorm`. -/
def HOTRG.getNorm (s : HOTRG T P K) (idx : Nat) : Except PyErr K :=
  if idx < s.aNorms.length then pyGet s.aNorms idx else .error .assertionError

/-- `HOTRG.py` 145-150 `impurityIterate` (`impurityParts` is 2). -/
def HOTRG.impurityIterate (ops : RGOps T P K) (s : HOTRG T P K) (tensors : List T) (loopIdx : Nat) : Except PyErr T :=
  match tensors with
  | [x, y] =>
    if loopIdx < s.directChoices.length then do
      let d ← pyGet s.directChoices loopIdx
      let p ← pyGet s.projectors loopIdx
      pure (ops.apply d p x y)
    else .error .assertionError
  | _ => .error .assertionError

/-- `HOTRG.py` 167-168 `pureTensorTrace`. -/
def HOTRG.pureTensorTrace (ops : RGOps T P K) (s : HOTRG T P K) (idx : Nat) : Except PyErr K :=
  (pyGet s.aArchive idx).map fun x => ops.trace x.1

/-- `HOTRG.py` 170-186 and `TRG.py` 188-205 `logZDensity`: the loop over `aNorms[i]` and `aArchive[i]`. -/
def logLoop (log : K → K) (trace : T → K) (accumulate : K) : List (K × (T × Nat)) → List K
  | [] => []
  | (n, (t, dof)) :: rest =>
    let acc := accumulate + log n / (dof : K)
    (acc + log (trace t) / (dof : K)) :: logLoop log trace acc rest

/-- `HOTRG.py` 170-186 `logZDensity` (the two lists have one length). -/
def HOTRG.logZDensity (ops : RGOps T P K) (s : HOTRG T P K) : List K := logLoop ops.log ops.trace 0 (s.aNorms.zip s.aArchive)

/-! ### `SquareTRG` -/

/-- The operations on tensors that `SquareTRG` calls. -/
structure TRGOps (T K : Type) where
  /-- `TRG.py` 166-182: both decompositions and the contraction; the tensor and the two errors -/
  step : (a b : T) → T × (K × K)
  norm : T → K
  div : T → K → T
  trace : T → K
  log : K → K

/-- The attributes of a `SquareTRG` object that change.  `b` is the object `a` once the constructor has finished. -/
structure SquareTRG (T K : Type) where
  a : T
  dof : Nat
  aNorms : List K
  aArchive : List (T × Nat)
  errors : List (K × K)

/-- `TRG.py` 139-146 `appendToArchive`, `normalizeTensors`. -/
def SquareTRG.append (ops : TRGOps T K) (s : SquareTRG T K) : SquareTRG T K :=
  let aNorm := ops.norm s.a
  let a := ops.div s.a aNorm
  { s with a := a, aNorms := s.aNorms ++ [aNorm], aArchive := s.aArchive ++ [(a, s.dof)] }

/-- `TRG.py` 111-137 `__init__`.  With a second tensor `iterate` is called before `aNorms` exists. -/
def SquareTRG.new (ops : TRGOps T K) (a : T) (dof : Option Nat) (b : Option T) : Except PyErr (SquareTRG T K) :=
  match b with
  | some _ => .error .attributeError
  | none => .ok (SquareTRG.append ops ⟨a, dof.getD 1, [], [], []⟩)

/-- `TRG.py` 152-186 `iterate` with `b` the object `a`. -/
def SquareTRG.iterate (ops : TRGOps T K) (s : SquareTRG T K) : SquareTRG T K :=
  let r := ops.step s.a s.a
  let s1 := SquareTRG.append ops { s with a := r.1, dof := s.dof * 2 }
  { s1 with errors := s1.errors ++ [r.2] }

/-- `TRG.py` 188-205 `logZDensity`. -/
def SquareTRG.logZDensity (ops : TRGOps T K) (s : SquareTRG T K) : List K :=
  logLoop ops.log ops.trace 0 (s.aNorms.zip s.aArchive)

/-! ### `TriangleTRG` -/

/-- The operations on tensors that `TriangleTRG` calls. -/
structure TriOps (T K : Type) where
  /-- `TRG.py` 61-84: contraction, decomposition, and the two contractions of three tensors; the error -/
  step : (a b : T) → T × T × K
  norm : T → K
  div : T → K → T
  /-- `triangleTensorTrace(a, b).single()` -/
  trace : (a b : T) → K
  log : K → K

/-- The attributes of a `TriangleTRG` object that change. -/
structure TriangleTRG (T K : Type) where
  a : T
  b : T
  aDof : Nat
  bDof : Nat
  aNorms : List K
  bNorms : List K
  aArchive : List (T × Nat)
  bArchive : List (T × Nat)
  errors : List K

/-- `TRG.py` 44-55 `appendToArchive`, `normalizeTensors`. -/
def TriangleTRG.append (ops : TriOps T K) (s : TriangleTRG T K) : TriangleTRG T K :=
  let aNorm := ops.norm s.a
  let a := ops.div s.a aNorm
  let bNorm := ops.norm s.b
  let b := ops.div s.b bNorm
  { s with
    a := a, b := b, aNorms := s.aNorms ++ [aNorm], bNorms := s.bNorms ++ [bNorm]
    aArchive := s.aArchive ++ [(a, s.aDof)], bArchive := s.bArchive ++ [(b, s.bDof)] }

/-- `TRG.py` 18-42 `__init__`, `prepareInitialTensor`; the initial tensor is an argument. -/
def TriangleTRG.new (ops : TriOps T K) (a b : T) : TriangleTRG T K :=
  TriangleTRG.append ops ⟨a, b, 1, 1, [], [], [], [], []⟩

/-- `TRG.py` 57-90 `iterate`. -/
def TriangleTRG.iterate (ops : TriOps T K) (s : TriangleTRG T K) : TriangleTRG T K :=
  let r := ops.step s.a s.b
  let dof := s.aDof
  TriangleTRG.append ops { s with
    errors := s.errors ++ [r.2.2], a := r.1, b := r.2.1
    aDof := dof * 3, bDof := dof * 3 }

/-- `TRG.py` 98-106: the loop of `logZDensity`. -/
def triangleLoop (ops : TriOps T K) (accumulate : K) : List ((K × (T × Nat)) × (K × (T × Nat))) → List K
  | [] => []
  | ((na, (a, da)), (nb, (b, db))) :: rest =>
    let dof : K := ((da * db : Nat) : K)
    let acc := accumulate + ops.log (na * nb) / dof
    (acc + ops.log (ops.trace a b) / dof) :: triangleLoop ops acc rest

/-- `TRG.py` 92-108 `logZDensity`. -/
def TriangleTRG.logZDensity (ops : TriOps T K) (s : TriangleTRG T K) : List K :=
  triangleLoop ops 0 ((s.aNorms.zip s.aArchive).zip (s.bNorms.zip s.bArchive))

/-! ### `ImpurityTensorNetwork` -/

/-- The attributes of an `ImpurityTensorNetwork` object; the `RG` is a `HOTRG`, passed to every method. -/
structure Impurity (T K : Type) where
  impurities : List (Option T)
  highestOrder : Nat
  archive : List (List T)
  norms : List K
  iterateIdx : Nat
  initialized : Bool

/-- `impurity.py` 10-25 `__init__`. -/
def Impurity.new (impurities : List T) (highestOrder : Option Nat) : Impurity T K :=
  let n := highestOrder.getD impurities.length
  let imps := impurities.map some
  { impurities := if n < imps.length then imps.take n else imps ++ List.replicate (n - imps.length) none
    highestOrder := n, archive := [], norms := [], iterateIdx := 0, initialized := false }

/-- `a.a /= norm` for `a` that may be `None`. -/
def divAll (ops : RGOps T P K) (norm : K) : List (Option T) → Except PyErr (List T)
  | [] => .ok []
  | none :: _ => .error .attributeError
  | some t :: ts => (divAll ops norm ts).map fun r => ops.div t norm :: r

/-- `impurity.py` 32-37 `appendToArchive`. -/
def Impurity.append (ops : RGOps T P K) (s : Impurity T K) (norm : K) : Except PyErr (Impurity T K) :=
  match divAll ops norm s.impurities with
  | .error e => .error e
  | .ok ts => .ok { s with impurities := ts.map some, norms := s.norms ++ [norm], archive := s.archive ++ [ts] }

/-- `impurity.py` 39-44 `initialize`. -/
def Impurity.initialize (ops : RGOps T P K) (rg : HOTRG T P K) (s : Impurity T K) : Except PyErr (Impurity T K) := do
  let s ← Impurity.append ops s (← rg.getNorm 0)
  pure { s with initialized := true }

/-- `impurity.py` 59-80: one division of the order into parts; the running total weight and result. -/
def impurityPart [AddCommGroup T] [Module K T] (ops : RGOps T P K) (rg : HOTRG T P K) (imps : List (Option T)) (idx : Nat)
    (weight : K) (st : K × Option T) (parts : List Nat) : Except PyErr (K × Option T) :=
  match parts.mapM fun j => (imps[j]?).join with
  | none => .ok st
  | some tensors => do
    let partWeight := (calculateDivisionTimes parts : K) * weight
    let res ← rg.impurityIterate ops tensors idx
    match st.2 with
    | none => pure (st.1 + partWeight, some (partWeight • res))
    | some r => pure (st.1 + partWeight, some (r + partWeight • res))

/-- `impurity.py` 54-84: the new impurity of order `i`. -/
def impurityOrder [AddCommGroup T] [Module K T] (ops : RGOps T P K) (rg : HOTRG T P K) (imps : List (Option T)) (idx : Nat)
    (i : Nat) : Except PyErr T := do
  let weight : K := (1 / 2) ^ i
  let st ← ((divideIntoKParts i 2).getD []).foldlM (impurityPart ops rg imps idx weight) (0, none)
  match st.2 with
  | none => .error .typeError
  | some r => pure (st.1⁻¹ • r)

/-- `impurity.py` 46-87 `iterate`. -/
def Impurity.iterate [AddCommGroup T] [Module K T] (ops : RGOps T P K) (rg : HOTRG T P K) (s : Impurity T K) :
    Except PyErr (Impurity T K) := do
  let s ← if s.initialized then .ok s else s.initialize ops rg
  let norm ← rg.getNorm (s.iterateIdx + 1)
  let first ← pyGet s.impurities 0
  match first with
  | none => .error .attributeError
  | some _ =>
    let new ← (List.range s.highestOrder).mapM (impurityOrder ops rg s.impurities s.iterateIdx)
    Impurity.append ops { s with iterateIdx := s.iterateIdx + 1, impurities := new.map some } norm

/-- `impurity.py` 89-96 `measureObservables`. -/
def Impurity.measureObservables (ops : RGOps T P K) (rg : HOTRG T P K) (s : Impurity T K) : Except PyErr (List (List K)) :=
  (List.range s.archive.length).mapM fun (i : Nat) => do
    let z ← if (s.archive.getD i []).isEmpty then pure 1 else rg.pureTensorTrace ops i
    pure ((s.archive.getD i []).map fun t => ops.trace t / z)

end CTL
