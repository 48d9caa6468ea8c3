import Verif.Model.CTMRG
import Mathlib.Analysis.SpecialFunctions.Log.Basic

/-! The sequence of tensors behind `CTMRG.getZ`, without records, cached tensors or queries. -/

namespace CTL
variable {T K : Type} [Field K]

/-- Three tensors with three log scales. -/
abbrev Scaled (T K : Type) := Trio T × Trio K

/-- One extension step: build the larger corner and edges, truncate, normalise and add the logarithms of the norms. -/
def extension (ops : CTMOps T K) (a : T) (x : Scaled T K) : Scaled T K :=
  let n := (ops.reduce ⟨ops.extendCorner x.1.hEdge x.1.vEdge a x.1.corner, ops.extendH x.1.hEdge a, ops.extendV x.1.vEdge a⟩).1
  (⟨ops.div n.corner (ops.norm n.corner), ops.div n.hEdge (ops.norm n.hEdge), ops.div n.vEdge (ops.norm n.vEdge)⟩,
    ⟨ops.log (ops.norm n.corner) + x.2.corner + x.2.hEdge + x.2.vEdge, ops.log (ops.norm n.hEdge) + x.2.hEdge,
      ops.log (ops.norm n.vEdge) + x.2.vEdge⟩)

/-- The initial tensors, with log scale 0. -/
def initial (ops : CTMOps T K) (a : T) : Scaled T K :=
  ((ops.reduce ⟨ops.sumCorner a, ops.sumH a, ops.sumV a⟩).1, ⟨0, 0, 0⟩)

/-- The partition function of the `L × L` system from a corner and edges. -/
def boardValue (ops : CTMOps T K) (a : T) (L : Int) (x : Scaled T K) : K :=
  if L % 2 = 0 then ops.even x.1.corner * ops.exp (4 * x.2.corner)
  else ops.odd x.1.corner x.1.vEdge x.1.hEdge a * ops.exp (4 * x.2.corner + 2 * x.2.hEdge + 2 * x.2.vEdge)

/-- One extension step without normalisation. -/
def rawExtension (ops : CTMOps T K) (a : T) (x : Trio T) : Trio T :=
  (ops.reduce ⟨ops.extendCorner x.hEdge x.vEdge a x.corner, ops.extendH x.hEdge a, ops.extendV x.vEdge a⟩).1

/-- Scale the three tensors. -/
def Trio.smul [SMul ℝ T] (c h v : ℝ) (x : Trio T) : Trio T := ⟨c • x.corner, h • x.hEdge, v • x.vEdge⟩

/-- The operations are homogeneous, as contractions and a decomposition whose isometries do not depend on the scale are,
and `log`, `exp` and `/=` are the real ones. -/
structure CTMHomogeneous [SMul ℝ T] (ops : CTMOps T ℝ) (a : T) : Prop where
  log : ops.log = Real.log
  exp : ops.exp = Real.exp
  div : ∀ t x, ops.div t x = x⁻¹ • t
  extendH : ∀ (c : ℝ) p, 0 < c → ops.extendH (c • p) a = c • ops.extendH p a
  extendV : ∀ (c : ℝ) p, 0 < c → ops.extendV (c • p) a = c • ops.extendV p a
  extendCorner : ∀ (c h v : ℝ) ph pv q, 0 < c → 0 < h → 0 < v →
    ops.extendCorner (h • ph) (v • pv) a (c • q) = (c * h * v) • ops.extendCorner ph pv a q
  reduce : ∀ (c h v : ℝ) x, 0 < c → 0 < h → 0 < v → (ops.reduce (x.smul c h v)).1 = (ops.reduce x).1.smul c h v
  norm : ∀ (c : ℝ) t, 0 < c → ops.norm (c • t) = c * ops.norm t
  even : ∀ (c : ℝ) t, 0 < c → ops.even (c • t) = c ^ 4 * ops.even t
  odd : ∀ (c h v : ℝ) x y z, 0 < c → 0 < h → 0 < v →
    ops.odd (c • x) (v • y) (h • z) a = c ^ 4 * v ^ 2 * h ^ 2 * ops.odd x y z a

end CTL
