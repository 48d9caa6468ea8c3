import Verif.Spec.CTMRG
import Mathlib.Tactic.Linarith
import Mathlib.Tactic.Ring
import Mathlib.Tactic.FieldSimp
import Mathlib.Tactic.Positivity
import Mathlib.Tactic.NormNum

namespace CTL
variable {T K : Type} [Field K]

/-- The `n`-th set of tensors. -/
local notation "stage" => fun (ops : CTMOps _ _) a n => (extension ops a)^[n] (initial ops a)

/-- The state after `n` extensions, whatever the queries were. -/
structure CTM.After (ops : CTMOps T K) (a : T) (s : CTM T K) (n : Nat) : Prop where
  now : (s.tensors, s.logScale) = stage ops a n
  corner : s.records.corner = (List.range n).map fun i => ((stage ops a i).1.corner, (stage ops a i).2.corner)
  hEdge : s.records.hEdge = (List.range n).map fun i => ((stage ops a i).1.hEdge, (stage ops a i).2.hEdge)
  vEdge : s.records.vEdge = (List.range n).map fun i => ((stage ops a i).1.vEdge, (stage ops a i).2.vEdge)
  errors : s.errors.length = n + 1

theorem CTM.After.length {ops : CTMOps T K} {a : T} {s : CTM T K} {n : Nat} (h : s.After ops a n) :
    s.records.corner.length = n := by
  rw [h.corner]; simp

theorem CTM.new_after (ops : CTMOps T K) (a : T) : (CTM.new ops a).After ops a 0 :=
  ⟨rfl, rfl, rfl, rfl, rfl⟩

theorem CTM.iterate_after {ops : CTMOps T K} {a : T} {s : CTM T K} {n : Nat} (h : s.After ops a n) :
    (s.iterate ops a).After ops a (n + 1) := by
  have h1 : s.tensors = (stage ops a n).1 := congrArg Prod.fst h.now
  have h2 : s.logScale = (stage ops a n).2 := congrArg Prod.snd h.now
  refine ⟨?_, ?_, ?_, ?_, ?_⟩
  · simp only [Function.iterate_succ_apply', ← h.now]
    rfl
  · simp only [CTM.iterate, CTM.push, List.range_succ, List.map_append, ← h.corner, List.map_cons, List.map_nil, h1, h2]
  · simp only [CTM.iterate, CTM.push, List.range_succ, List.map_append, ← h.hEdge, List.map_cons, List.map_nil, h1, h2]
  · simp only [CTM.iterate, CTM.push, List.range_succ, List.map_append, ← h.vEdge, List.map_cons, List.map_nil, h1, h2]
  · simp [CTM.iterate, CTM.push, h.errors]

theorem CTM.grow_after {ops : CTMOps T K} {a : T} (m : Int) (d : Nat) : ∀ {s : CTM T K} {n : Nat}, s.After ops a n →
    (m - n).toNat = d → ∃ n', (s.grow ops a m).After ops a n' ∧ n' = max n m.toNat := by
  induction d with
  | zero =>
    intro s n h hd
    refine ⟨n, ?_, by omega⟩
    rw [CTM.grow, dif_neg (by rw [h.length]; omega)]
    exact h
  | succ d ih =>
    intro s n h hd
    rw [CTM.grow, dif_pos (by rw [h.length]; omega)]
    obtain ⟨n', h1, h2⟩ := ih (CTM.iterate_after h) (by push_cast; omega)
    exact ⟨n', h1, by omega⟩

theorem CTM.getZ_after {ops : CTMOps T K} {a : T} {s : CTM T K} {n : Nat} (h : s.After ops a n) (L : Int) :
    ∃ n', ((s.getZ ops a L).1).After ops a n' := by
  unfold CTM.getZ
  split
  · exact ⟨n, h⟩
  · obtain ⟨n', h1, -⟩ := CTM.grow_after (L / 2 - 1) _ h rfl
    exact ⟨n', h1⟩

theorem CTM.queries_after {ops : CTMOps T K} {a : T} (Ls : List Int) : ∀ {s : CTM T K} {n : Nat}, s.After ops a n →
    ∃ n', (s.queries ops a Ls).After ops a n' := by
  induction Ls with
  | nil => exact fun h => ⟨_, h⟩
  | cons L Ls ih =>
    intro s n h
    obtain ⟨n', h'⟩ := CTM.getZ_after h L
    exact ih h'

theorem pyGet_range {α : Type} (f : Nat → α) {i n : Nat} (h : i < n) : pyGet ((List.range n).map f) (i : Int) = .ok (f i) := by
  have e : ¬ ((i : Int) < 0) := by omega
  simp only [pyGet, e, if_false, Int.toNat_natCast, List.getElem?_map, List.getElem?_range h, Option.map_some]
  rw [if_pos (by omega)]

theorem CTM.fetch_after {ops : CTMOps T K} {a : T} {s : CTM T K} {n : Nat} (h : s.After ops a n) {i : Nat} (hi : i ≤ n) :
    s.fetch i = .ok ⟨((stage ops a i).1.corner, (stage ops a i).2.corner), ((stage ops a i).1.hEdge, (stage ops a i).2.hEdge),
      ((stage ops a i).1.vEdge, (stage ops a i).2.vEdge)⟩ := by
  unfold CTM.fetch
  rw [h.length]
  split
  · rename_i e
    have e : n = i := by omega
    subst e
    have h1 : s.tensors = (stage ops a n).1 := congrArg Prod.fst h.now
    have h2 : s.logScale = (stage ops a n).2 := congrArg Prod.snd h.now
    rw [h1, h2]
  · rename_i e
    have hlt : i < n := by omega
    rw [h.corner, h.hEdge, h.vEdge]
    simp only [pyGet_range _ hlt, bind, Except.bind, pure, Except.pure]

/-- C31: whatever queries came before, in whatever order, `getZ(L)` with `L ≥ 2` is the value of the tensors after exactly
`L // 2 - 1` extensions of the initial ones. -/
theorem C31_getZ (ops : CTMOps T K) (a : T) (Ls : List Int) (L : Int) (hL : 2 ≤ L) :
    (((CTM.new ops a).queries ops a Ls).getZ ops a L).2 =
      .ok (boardValue ops a L ((extension ops a)^[(L / 2 - 1).toNat] (initial ops a))) := by
  obtain ⟨n, h⟩ := CTM.queries_after Ls (CTM.new_after ops a)
  obtain ⟨n', h1, h2⟩ := CTM.grow_after (L / 2 - 1) _ h rfl
  unfold CTM.getZ
  rw [if_neg (by omega)]
  have e : (L / 2 - 1 : Int) = ((L / 2 - 1).toNat : Nat) := by omega
  have := CTM.fetch_after h1 (i := (L / 2 - 1).toNat) (by omega)
  rw [← e] at this
  simp only [this, Except.map]
  rfl

/-- C31: a single site is the sum of all entries, after any queries. -/
theorem C31_getZ_one (ops : CTMOps T K) (a : T) (Ls : List Int) :
    (((CTM.new ops a).queries ops a Ls).getZ ops a 1).2 = .ok (ops.sumAll a) := rfl

/-- C31: a query extends only as far as it needs, and never back: the number of stored steps is the largest one asked for. -/
theorem C31_steps (ops : CTMOps T K) (a : T) (Ls : List Int) (L : Int) :
    let n := ((CTM.new ops a).queries ops a Ls).records.corner.length
    (((CTM.new ops a).queries ops a Ls).getZ ops a L).1.records.corner.length = max n (L / 2 - 1).toNat := by
  obtain ⟨n, h⟩ := CTM.queries_after Ls (CTM.new_after ops a)
  simp only [h.length]
  unfold CTM.getZ
  split
  · rename_i e
    subst e
    rw [h.length]
    norm_num
  · obtain ⟨n', h1, h2⟩ := CTM.grow_after (L / 2 - 1) _ h rfl
    rw [h1.length, h2]

/-- For `L = 0` the code reads the record `-1`: it raises on a fresh object … -/
theorem C31_zero_raises (ops : CTMOps T K) (a : T) : ((CTM.new ops a).getZ ops a 0).2 = .error .indexError := by
  have : (CTM.new ops a).grow ops a (0 / 2 - 1) = CTM.new ops a := by
    rw [CTM.grow, dif_neg (by simp [CTM.new])]
  simp only [CTM.getZ, this]
  rfl

/-- … and gives the value of the last record after `getZ(4)`, so there the answer depends on the history. -/
theorem C31_zero_depends_on_history (ops : CTMOps T K) (a : T) :
    (((CTM.new ops a).queries ops a [4]).getZ ops a 0).2 = .ok (boardValue ops a 2 (initial ops a)) := by
  obtain ⟨n, h1, h2⟩ := CTM.grow_after (4 / 2 - 1) _ (CTM.new_after ops a) rfl
  have hn : n = 1 := by omega
  subst hn
  have e : (CTM.new ops a).queries ops a [4] = (CTM.new ops a).grow ops a (4 / 2 - 1) := rfl
  rw [e]
  generalize (CTM.new ops a).grow ops a (4 / 2 - 1) = s at h1
  have e2 : s.grow ops a (0 / 2 - 1) = s := by
    rw [CTM.grow, dif_neg (by rw [h1.length]; norm_num)]
  simp only [CTM.getZ, e2, CTM.fetch, h1.corner, h1.hEdge, h1.vEdge]
  rfl

/-! ### C42: the scales -/

/-- The product of the norms taken out so far. -/
structure Undone [SMul ℝ T] (x : Scaled T ℝ) (r : Trio T) : Prop where
  eq : r = x.1.smul (Real.exp x.2.corner) (Real.exp x.2.hEdge) (Real.exp x.2.vEdge)

theorem undone_step [MulAction ℝ T] {ops : CTMOps T ℝ} {a : T} (H : CTMHomogeneous ops a) {x : Scaled T ℝ} {r : Trio T}
    (h : Undone x r) (pos : 0 < ops.norm (rawExtension ops a r).corner ∧ 0 < ops.norm (rawExtension ops a r).hEdge ∧
      0 < ops.norm (rawExtension ops a r).vEdge) : Undone (extension ops a x) (rawExtension ops a r) := by
  obtain ⟨⟨c, hh, v⟩, ⟨lc, lh, lv⟩⟩ := x
  obtain ⟨rfl⟩ := h
  have pc := Real.exp_pos lc
  have ph := Real.exp_pos lh
  have pv := Real.exp_pos lv
  have key : rawExtension ops a ((⟨c, hh, v⟩ : Trio T).smul (Real.exp lc) (Real.exp lh) (Real.exp lv)) =
      (ops.reduce ⟨ops.extendCorner hh v a c, ops.extendH hh a, ops.extendV v a⟩).1.smul
        (Real.exp lc * Real.exp lh * Real.exp lv) (Real.exp lh) (Real.exp lv) := by
    rw [← H.reduce _ _ _ _ (by positivity) ph pv]
    simp only [rawExtension, Trio.smul, H.extendCorner _ _ _ _ _ _ pc ph pv, H.extendH _ _ ph, H.extendV _ _ pv]
  simp only at key ⊢
  rw [key] at pos ⊢
  constructor
  simp only [extension]
  generalize (ops.reduce ⟨ops.extendCorner hh v a c, ops.extendH hh a, ops.extendV v a⟩).1 = n at *
  obtain ⟨nc, nh, nv⟩ := n
  simp only [Trio.smul, H.norm _ _ (mul_pos (mul_pos pc ph) pv), H.norm _ _ ph, H.norm _ _ pv] at pos
  have qc : 0 < ops.norm nc := (mul_pos_iff_of_pos_left (mul_pos (mul_pos pc ph) pv)).mp pos.1
  have qh : 0 < ops.norm nh := (mul_pos_iff_of_pos_left ph).mp pos.2.1
  have qv : 0 < ops.norm nv := (mul_pos_iff_of_pos_left pv).mp pos.2.2
  simp only [Trio.smul, H.log, H.div, Real.exp_add, Real.exp_log qc, Real.exp_log qh, Real.exp_log qv, smul_smul]
  congr 2
  · field_simp
  · field_simp
  · field_simp

theorem undone_stage [MulAction ℝ T] {ops : CTMOps T ℝ} {a : T} (H : CTMHomogeneous ops a) (n : Nat)
    (pos : ∀ i, 0 < i → i ≤ n → let r := (rawExtension ops a)^[i] (initial ops a).1
      0 < ops.norm r.corner ∧ 0 < ops.norm r.hEdge ∧ 0 < ops.norm r.vEdge) :
    Undone ((extension ops a)^[n] (initial ops a)) ((rawExtension ops a)^[n] (initial ops a).1) := by
  induction n with
  | zero =>
    constructor
    simp [initial, Trio.smul]
  | succ n ih =>
    have := pos (n + 1) (by omega) (by omega)
    rw [Function.iterate_succ_apply'] at this ⊢
    rw [Function.iterate_succ_apply']
    exact undone_step H (ih fun i h1 h2 => pos i h1 (by omega)) this

/-- C42: for homogeneous contractions the scales undo the normalisation exactly: after any queries, `getZ(L)` for even `L`
is the contraction of the un-normalised corners … -/
theorem C42_even [MulAction ℝ T] {ops : CTMOps T ℝ} {a : T} (H : CTMHomogeneous ops a) (Ls : List Int) (m : Nat)
    (pos : ∀ i, 0 < i → i ≤ m → let r := (rawExtension ops a)^[i] (initial ops a).1
      0 < ops.norm r.corner ∧ 0 < ops.norm r.hEdge ∧ 0 < ops.norm r.vEdge) :
    (((CTM.new ops a).queries ops a Ls).getZ ops a (2 * m + 2)).2 =
      .ok (ops.even ((rawExtension ops a)^[m] (initial ops a).1).corner) := by
  rw [C31_getZ _ _ _ _ (by omega)]
  have e : ((2 * m + 2 : Int) / 2 - 1).toNat = m := by omega
  have U := undone_stage H m pos
  rw [e, U.eq, boardValue, if_pos (by omega)]
  simp only [Trio.smul, H.even _ _ (Real.exp_pos _), H.exp]
  rw [← Real.exp_nat_mul, mul_comm]
  norm_num

/-- … and for odd `L` that of the un-normalised corners and edges with the centre tensor. -/
theorem C42_odd [MulAction ℝ T] {ops : CTMOps T ℝ} {a : T} (H : CTMHomogeneous ops a) (Ls : List Int) (m : Nat)
    (pos : ∀ i, 0 < i → i ≤ m → let r := (rawExtension ops a)^[i] (initial ops a).1
      0 < ops.norm r.corner ∧ 0 < ops.norm r.hEdge ∧ 0 < ops.norm r.vEdge) :
    (((CTM.new ops a).queries ops a Ls).getZ ops a (2 * m + 3)).2 =
      .ok (let r := (rawExtension ops a)^[m] (initial ops a).1
        ops.odd r.corner r.vEdge r.hEdge a) := by
  rw [C31_getZ _ _ _ _ (by omega)]
  have e : ((2 * m + 3 : Int) / 2 - 1).toNat = m := by omega
  have U := undone_stage H m pos
  rw [e, U.eq, boardValue, if_neg (by omega)]
  simp only [Trio.smul, H.odd _ _ _ _ _ _ (Real.exp_pos _) (Real.exp_pos _) (Real.exp_pos _), H.exp, Real.exp_add]
  congr 1
  rw [← Real.exp_nat_mul, ← Real.exp_nat_mul, ← Real.exp_nat_mul]
  push_cast
  ring

/-- Tensors with one entry: contraction is multiplication, no truncation. -/
noncomputable def oneOps : CTMOps ℝ ℝ where
  sumCorner := id
  sumH := id
  sumV := id
  sumAll := id
  extendH := fun p w => p * w
  extendV := fun p w => p * w
  extendCorner := fun ph pv w c => ph * pv * w * c
  reduce := fun x => (x, 0)
  norm := fun x => |x|
  div := fun t x => t / x
  even := fun c => c ^ 4
  odd := fun c pl pd w => c ^ 4 * pl ^ 2 * pd ^ 2 * w
  log := Real.log
  exp := Real.exp

theorem oneOps_homogeneous (a : ℝ) : CTMHomogeneous oneOps a where
  log := rfl
  exp := rfl
  div := fun t x => by simp only [oneOps, smul_eq_mul]; rw [div_eq_inv_mul]
  extendH := fun c p _ => by simp only [oneOps, smul_eq_mul]; ring
  extendV := fun c p _ => by simp only [oneOps, smul_eq_mul]; ring
  extendCorner := fun c h v ph pv q _ _ _ => by simp only [oneOps, smul_eq_mul]; ring
  reduce := fun _ _ _ _ _ _ _ => rfl
  norm := fun c t hc => by simp [oneOps, abs_mul, abs_of_pos hc]
  even := fun c t _ => by simp only [oneOps, smul_eq_mul]; ring
  odd := fun c h v x y z _ _ _ => by simp only [oneOps, smul_eq_mul]; ring

theorem oneOps_raw (a : ℝ) (ha : 0 < a) (i : Nat) : let r := (rawExtension oneOps a)^[i] (initial oneOps a).1
    0 < r.corner ∧ 0 < r.hEdge ∧ 0 < r.vEdge := by
  induction i with
  | zero => exact ⟨ha, ha, ha⟩
  | succ i ih =>
    obtain ⟨h1, h2, h3⟩ := ih
    simp only [Function.iterate_succ_apply']
    refine ⟨?_, ?_, ?_⟩
    · change 0 < _ * _ * a * _
      positivity
    · change 0 < _ * a
      positivity
    · change 0 < _ * a
      positivity

/-- The hypotheses of C42 can be met: a lattice of equal positive numbers, any number of steps; after asking for 9 and 3 the
answer for 4 is the 16-th power. -/
example : (((CTM.new oneOps 3).queries oneOps 3 [9, 3]).getZ oneOps 3 4).2 = .ok (3 ^ 16) := by
  have := C42_even (oneOps_homogeneous 3) [9, 3] 1 (fun i _ _ => by
    obtain ⟨h1, h2, h3⟩ := oneOps_raw 3 (by norm_num) i
    exact ⟨abs_pos.mpr h1.ne', abs_pos.mpr h2.ne', abs_pos.mpr h3.ne'⟩)
  have e : (2 * ((1 : Nat) : Int) + 2) = 4 := by norm_num
  rw [e] at this
  rw [this]
  congr 1
  change (3 * 3 * 3 * 3 : ℝ) ^ 4 = _
  norm_num

/-- The hypotheses of `C42_odd` can be met: on the same lattice the answer for 5 is the 25-th power. -/
example : (((CTM.new oneOps 3).queries oneOps 3 [9, 3]).getZ oneOps 3 5).2 = .ok (3 ^ 25) := by
  have := C42_odd (oneOps_homogeneous 3) [9, 3] 1 (fun i _ _ => by
    obtain ⟨h1, h2, h3⟩ := oneOps_raw 3 (by norm_num) i
    exact ⟨abs_pos.mpr h1.ne', abs_pos.mpr h2.ne', abs_pos.mpr h3.ne'⟩)
  have e : (2 * ((1 : Nat) : Int) + 3) = 5 := by norm_num
  rw [e] at this
  rw [this]
  congr 1
  change (3 * 3 * 3 * 3 : ℝ) ^ 4 * (3 * 3) ^ 2 * (3 * 3) ^ 2 * 3 = _
  norm_num

end CTL
