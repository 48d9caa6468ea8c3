import Verif.Spec.RG
import Verif.Props.CTMRG
import Verif.Lemmas.Numbers
import Mathlib.Tactic.Linarith
import Mathlib.Tactic.Ring
import Mathlib.Tactic.FieldSimp
import Mathlib.Tactic.Positivity
import Mathlib.Algebra.Module.LinearMap.Basic
import Mathlib.Algebra.Algebra.Bilinear
import Mathlib.Algebra.BigOperators.Group.List.Lemmas
import Mathlib.Data.Nat.Choose.Sum
import Mathlib.Algebra.BigOperators.Field

set_option linter.constructorNameAsVariable false

namespace CTL
variable {T P : Type}

/-! ### The normalised sequence -/

/-- Normalised tensor and norm of step `i`. -/
noncomputable def normSeq (F : T → T) (norm : T → ℝ) (div : T → ℝ → T) (a : T) : Nat → T × ℝ
  | 0 => (div a (norm a), norm a)
  | i + 1 => let y := F (normSeq F norm div a i).1
    (div y (norm y), norm y)

theorem normSeq_undo [MulAction ℝ T] {F : T → T} {norm : T → ℝ} {div : T → ℝ → T} {trace : T → ℝ} (hF : Quadratic F)
    (hm : LinearMeasures norm div trace) (a : T) (n : Nat) (pos : ∀ i ≤ n, 0 < norm (F^[i] a)) :
    0 < (normSeq F norm div a n).2 ∧
    F^[n] a = Real.exp (2 ^ n * ∑ j ∈ Finset.range (n + 1), Real.log (normSeq F norm div a j).2 / 2 ^ j) • (normSeq F norm div a n).1 := by
  induction n with
  | zero =>
    have p := pos 0 (le_refl _)
    simp only [Function.iterate_zero, id_eq] at p
    refine ⟨p, ?_⟩
    simp only [normSeq, hm.div, Function.iterate_zero, id_eq, zero_add, Finset.range_one, Finset.sum_singleton, pow_zero, one_mul, div_one,
      Real.exp_log p, smul_smul]
    rw [mul_inv_cancel₀ p.ne', one_smul]
  | succ n ih =>
    obtain ⟨h1, h2⟩ := ih fun i hi => pos i (by omega)
    have p := pos (n + 1) (le_refl _)
    rw [Function.iterate_succ_apply', h2, hF _ _ (Real.exp_pos _)] at p
    rw [hm.norm _ _ (by positivity)] at p
    have q : 0 < norm (F (normSeq F norm div a n).1) := (mul_pos_iff_of_pos_left (by positivity)).mp p
    refine ⟨q, ?_⟩
    rw [Function.iterate_succ_apply', h2, hF _ _ (Real.exp_pos _), Finset.sum_range_succ _ (n + 1)]
    have e : (normSeq F norm div a (n + 1)).2 = norm (F (normSeq F norm div a n).1) := rfl
    have e1 : (normSeq F norm div a (n + 1)).1 = (norm (F (normSeq F norm div a n).1))⁻¹ • F (normSeq F norm div a n).1 := hm.div _ _
    rw [e, e1, smul_smul, mul_add, Real.exp_add]
    have e2 : (2 : ℝ) ^ (n + 1) * (Real.log (norm (F (normSeq F norm div a n).1)) / 2 ^ (n + 1)) = Real.log (norm (F (normSeq F norm div a n).1)) := by
      field_simp
    rw [e2, Real.exp_log q, mul_assoc, mul_inv_cancel₀ q.ne', mul_one, ← Real.exp_nat_mul]
    congr 2
    push_cast
    ring

theorem logLoop_range (log : ℝ → ℝ) (trace : T → ℝ) (f : Nat → T × ℝ) (dof : Nat → Nat) (m : Nat) : ∀ (k : Nat) (acc : ℝ),
    logLoop log trace acc ((List.range' k m).map fun i => ((f i).2, ((f i).1, dof i))) =
      (List.range' k m).map fun i => acc + ∑ j ∈ Finset.Ico k (i + 1), log (f j).2 / (dof j : ℝ) + log (trace (f i).1) / (dof i : ℝ) := by
  induction m with
  | zero => intros; rfl
  | succ m ih =>
    intro k acc
    simp only [List.range'_succ, List.map_cons, logLoop]
    refine congrArg₂ List.cons (by simp) ?_
    rw [ih]
    apply List.map_congr_left
    intro i hi
    rw [List.mem_range'_1] at hi
    rw [Finset.sum_eq_sum_Ico_succ_bot (show k < i + 1 by omega)]
    ring

/-- The bookkeeping of `logZDensity` for a normalised sequence. -/
theorem logLoop_exact [MulAction ℝ T] {F : T → T} {norm : T → ℝ} {div : T → ℝ → T} {trace : T → ℝ} (hF : Quadratic F)
    (hm : LinearMeasures norm div trace) (a : T) (dof n : Nat) (pos : ∀ i ≤ n, 0 < norm (F^[i] a))
    (tr : ∀ i ≤ n, 0 < trace (F^[i] a)) :
    logLoop Real.log trace 0 ((List.range (n + 1)).map fun i =>
        ((normSeq F norm div a i).2, ((normSeq F norm div a i).1, dof * 2 ^ i))) =
      (List.range (n + 1)).map fun i => Real.log (trace (F^[i] a)) / ((dof * 2 ^ i : Nat) : ℝ) := by
  rw [List.range_eq_range', logLoop_range]
  apply List.map_congr_left
  intro i hi
  rw [List.mem_range'_1] at hi
  obtain ⟨h1, h2⟩ := normSeq_undo hF hm a i fun j hj => pos j (by omega)
  have t := tr i (by omega)
  rw [h2, hm.trace _ _ (Real.exp_pos _)] at t ⊢
  have t' := (mul_pos_iff_of_pos_left (Real.exp_pos _)).mp t
  rw [Real.log_mul (Real.exp_pos _).ne' t'.ne', Real.log_exp]
  rcases Nat.eq_zero_or_pos dof with rfl | hd
  · simp
  · rw [zero_add, ← Finset.range_eq_Ico, add_div]
    congr 1
    have hd' : (dof : ℝ) ≠ 0 := by positivity
    push_cast
    rw [mul_comm (dof : ℝ), mul_div_mul_left _ _ (by positivity), Finset.sum_div]
    apply Finset.sum_congr rfl
    intro j _
    rw [div_div, mul_comm]

/-! ### HOTRG -/

/-- The state after `n` iterations. -/
structure HOTRG.After (ops : RGOps T P ℝ) (F : T → T) (ch : T → RGDir × P) (a : T) (dof : Nat) (s : HOTRG T P ℝ) (n : Nat) : Prop where
  tensor : s.a = (normSeq F ops.norm ops.div a n).1
  sites : s.dof = dof * 2 ^ n
  norms : s.aNorms = (List.range (n + 1)).map fun i => (normSeq F ops.norm ops.div a i).2
  archive : s.aArchive = (List.range (n + 1)).map fun i => ((normSeq F ops.norm ops.div a i).1, dof * 2 ^ i)
  choices : s.directChoices = (List.range n).map fun i => (ch (normSeq F ops.norm ops.div a i).1).1
  projectors : s.projectors = (List.range n).map fun i => (ch (normSeq F ops.norm ops.div a i).1).2

/-- What `choose` returns, as a function. -/
noncomputable def chosen (ops : RGOps T P ℝ) (a : T) : RGDir × P :=
  (HOTRG.choose ops a).2.getD (.u, (ops.trial .u a).2)

theorem choose_some (ops : RGOps T P ℝ) (a : T) : (HOTRG.choose ops a).2 = some (chosen ops a) := by
  unfold chosen
  simp only [HOTRG.choose, List.foldl_cons, List.foldl_nil]
  have : (-1 : ℝ) < 0 := by norm_num
  simp only [this, true_or, if_true]
  split_ifs <;> rfl

theorem HOTRG.new_after (ops : RGOps T P ℝ) (F : T → T) (ch : T → RGDir × P) (a : T) (dof : Option Nat) :
    (HOTRG.new ops a dof).After ops F ch a (dof.getD 1) 0 :=
  ⟨rfl, by simp [HOTRG.new, HOTRG.append], rfl, by simp [HOTRG.new, HOTRG.append, normSeq], rfl, rfl⟩

theorem iterate_eq (ops : RGOps T P ℝ) (s : HOTRG T P ℝ) : s.iterate ops =
    .ok { HOTRG.append ops { s with a := ops.apply (chosen ops s.a).1 (chosen ops s.a).2 s.a s.a, dof := s.dof * 2 } with
      errors := s.errors ++ [(HOTRG.choose ops s.a).1]
      directChoices := s.directChoices ++ [(chosen ops s.a).1]
      projectors := s.projectors ++ [(chosen ops s.a).2] } := by
  have hc := choose_some ops s.a
  unfold HOTRG.iterate
  generalize chosen ops s.a = c at *
  rcases hx : HOTRG.choose ops s.a with ⟨e, o⟩
  rw [hx] at hc
  simp only at hc
  subst hc
  rfl

theorem HOTRG.iterate_after {ops : RGOps T P ℝ} {a : T} {dof : Nat} {s : HOTRG T P ℝ} {n : Nat}
    (h : s.After ops (fun x => ops.apply (chosen ops x).1 (chosen ops x).2 x x) (chosen ops) a dof n) :
    ∃ s', s.iterate ops = .ok s' ∧
      s'.After ops (fun x => ops.apply (chosen ops x).1 (chosen ops x).2 x x) (chosen ops) a dof (n + 1) := by
  refine ⟨_, iterate_eq ops s, ?_⟩
  have ha := h.tensor
  refine ⟨?_, ?_, ?_, ?_, ?_, ?_⟩
  · simp only [HOTRG.append, normSeq, ha]
  · simp only [HOTRG.append, h.sites, pow_succ, mul_assoc]
  · simp only [HOTRG.append, h.norms]
    rw [List.range_succ (n := n + 1), List.map_append]
    simp only [List.map_cons, List.map_nil, normSeq, ha]
  · simp only [HOTRG.append, h.archive]
    rw [List.range_succ (n := n + 1), List.map_append]
    simp only [List.map_cons, List.map_nil, normSeq, ha, h.sites, pow_succ, mul_assoc]
  · simp only [HOTRG.append, h.choices]
    rw [List.range_succ, List.map_append]
    simp only [List.map_cons, List.map_nil, ha]
  · simp only [HOTRG.append, h.projectors]
    rw [List.range_succ, List.map_append]
    simp only [List.map_cons, List.map_nil, ha]

/-- A caller's `n` iterations. -/
noncomputable def HOTRG.run (ops : RGOps T P ℝ) (s : HOTRG T P ℝ) : Nat → Except PyErr (HOTRG T P ℝ)
  | 0 => .ok s
  | n + 1 => (HOTRG.run ops s n).bind (HOTRG.iterate ops)

theorem HOTRG.run_after (ops : RGOps T P ℝ) (a : T) (dof : Option Nat) (n : Nat) : ∃ s, HOTRG.run ops (HOTRG.new ops a dof) n = .ok s ∧
    s.After ops (fun x => ops.apply (chosen ops x).1 (chosen ops x).2 x x) (chosen ops) a (dof.getD 1) n := by
  induction n with
  | zero => exact ⟨_, rfl, HOTRG.new_after ops _ _ a dof⟩
  | succ n ih =>
    obtain ⟨s, h1, h2⟩ := ih
    obtain ⟨s', h3, h4⟩ := HOTRG.iterate_after h2
    exact ⟨s', by simp only [HOTRG.run, h1, Except.bind, h3], h4⟩

theorem chosen_eq (ops : RGOps T P ℝ) (a : T) (he : ∀ d, 0 ≤ (ops.trial d a).1) :
    chosen ops a = (bestDir ops a, (ops.trial (bestDir ops a) a).2) ∧
    (HOTRG.choose ops a).1 = (ops.trial (bestDir ops a) a).1 := by
  have h0 : (-1 : ℝ) < 0 := by norm_num
  have hu := not_lt.mpr (he .u)
  have hd := not_lt.mpr (he .d)
  have hl := not_lt.mpr (he .l)
  unfold chosen bestDir
  simp only [HOTRG.choose, List.foldl_cons, List.foldl_nil, h0, true_or, if_true]
  by_cases c1 : (ops.trial .d a).1 < (ops.trial .u a).1
  · simp only [hu, c1, or_true, if_true]
    by_cases c2 : (ops.trial .l a).1 < (ops.trial .d a).1
    · simp only [hd, c2, or_true, if_true, hl, false_or]
      split_ifs <;> exact ⟨rfl, rfl⟩
    · simp only [hd, c2, or_self, if_false, false_or]
      split_ifs <;> exact ⟨rfl, rfl⟩
  · simp only [hu, c1, or_self, if_false, false_or]
    by_cases c2 : (ops.trial .l a).1 < (ops.trial .u a).1
    · simp only [c2, if_true, hl, false_or]
      split_ifs <;> exact ⟨rfl, rfl⟩
    · simp only [c2, if_false, hu, false_or]
      split_ifs <;> exact ⟨rfl, rfl⟩

/-- C32 for `HOTRG`: after `n` iterations entry `i` of `logZDensity()` is the logarithm of the trace of the `i` times
coarse-grained tensor without any normalisation, over the number of sites. -/
theorem C32_hotrg [MulAction ℝ T] (ops : RGOps T P ℝ) (a : T) (dof : Option Nat) (n : Nat) (hlog : ops.log = Real.log)
    (hm : LinearMeasures ops.norm ops.div ops.trace) (he : ∀ d t, 0 ≤ (ops.trial d t).1) (hF : Quadratic (coarse ops))
    (pos : ∀ i ≤ n, 0 < ops.norm ((coarse ops)^[i] a)) (tr : ∀ i ≤ n, 0 < ops.trace ((coarse ops)^[i] a)) :
    ∃ s, HOTRG.run ops (HOTRG.new ops a dof) n = .ok s ∧
      s.logZDensity ops = (List.range (n + 1)).map fun i =>
        Real.log (ops.trace ((coarse ops)^[i] a)) / ((dof.getD 1 * 2 ^ i : Nat) : ℝ) := by
  obtain ⟨s, h1, h2⟩ := HOTRG.run_after ops a dof n
  refine ⟨s, h1, ?_⟩
  have e : (fun x => ops.apply (chosen ops x).1 (chosen ops x).2 x x) = coarse ops := by
    funext x
    rw [(chosen_eq ops x fun d => he d x).1]
    rfl
  rw [e] at h2
  rw [← logLoop_exact hF hm a _ n pos tr, HOTRG.logZDensity, h2.norms, h2.archive, hlog, List.zip_map', ]

/-- The coarse graining of `HOTRG` is quadratic when the projectors and errors do not depend on the scale and the
contraction is linear in either tensor. -/
theorem C32_quadratic [MulAction ℝ T] (ops : RGOps T P ℝ) (ht : ∀ (c : ℝ) d t, 0 < c → ops.trial d (c • t) = ops.trial d t)
    (ha : ∀ (c : ℝ) d p x y, 0 < c → ops.apply d p (c • x) (c • y) = (c ^ 2) • ops.apply d p x y) : Quadratic (coarse ops) := by
  intro c t hc
  have e : bestDir ops (c • t) = bestDir ops t := by
    simp only [bestDir, ht c _ t hc]
  simp only [coarse, e, ht c _ t hc, ha c _ _ _ _ hc]

/-! ### SquareTRG -/

/-- The state after `n` iterations. -/
structure SquareTRG.After (ops : TRGOps T ℝ) (a : T) (dof : Nat) (s : SquareTRG T ℝ) (n : Nat) : Prop where
  tensor : s.a = (normSeq (fun x => (ops.step x x).1) ops.norm ops.div a n).1
  sites : s.dof = dof * 2 ^ n
  norms : s.aNorms = (List.range (n + 1)).map fun i => (normSeq (fun x => (ops.step x x).1) ops.norm ops.div a i).2
  archive : s.aArchive = (List.range (n + 1)).map fun i =>
    ((normSeq (fun x => (ops.step x x).1) ops.norm ops.div a i).1, dof * 2 ^ i)

theorem SquareTRG.iterate_after {ops : TRGOps T ℝ} {a : T} {dof : Nat} {s : SquareTRG T ℝ} {n : Nat} (h : s.After ops a dof n) :
    (s.iterate ops).After ops a dof (n + 1) := by
  have ha := h.tensor
  refine ⟨?_, ?_, ?_, ?_⟩
  · simp only [SquareTRG.iterate, SquareTRG.append, normSeq, ha]
  · simp only [SquareTRG.iterate, SquareTRG.append, h.sites, pow_succ, mul_assoc]
  · simp only [SquareTRG.iterate, SquareTRG.append, h.norms]
    rw [List.range_succ (n := n + 1), List.map_append]
    simp only [List.map_cons, List.map_nil, normSeq, ha]
  · simp only [SquareTRG.iterate, SquareTRG.append, h.archive]
    rw [List.range_succ (n := n + 1), List.map_append]
    simp only [List.map_cons, List.map_nil, normSeq, ha, h.sites, pow_succ, mul_assoc]

/-- C32 for `SquareTRG`. -/
theorem C32_square [MulAction ℝ T] (ops : TRGOps T ℝ) (a : T) (dof : Option Nat) (n : Nat) (hlog : ops.log = Real.log)
    (hm : LinearMeasures ops.norm ops.div ops.trace) (hF : Quadratic fun x => (ops.step x x).1)
    (pos : ∀ i ≤ n, 0 < ops.norm ((fun x => (ops.step x x).1)^[i] a)) (tr : ∀ i ≤ n, 0 < ops.trace ((fun x => (ops.step x x).1)^[i] a)) :
    ∃ s, SquareTRG.new ops a dof none = .ok s ∧
      ((SquareTRG.iterate ops)^[n] s).logZDensity ops = (List.range (n + 1)).map fun i =>
        Real.log (ops.trace ((fun x => (ops.step x x).1)^[i] a)) / ((dof.getD 1 * 2 ^ i : Nat) : ℝ) := by
  refine ⟨_, rfl, ?_⟩
  have h : ∀ n, ((SquareTRG.iterate ops)^[n] (SquareTRG.append ops ⟨a, dof.getD 1, [], [], []⟩)).After ops a (dof.getD 1) n := by
    intro n
    induction n with
    | zero => exact ⟨rfl, by simp [SquareTRG.append], rfl, by simp [SquareTRG.append, normSeq]⟩
    | succ n ih =>
      rw [Function.iterate_succ_apply']
      exact SquareTRG.iterate_after ih
  rw [← logLoop_exact hF hm a _ n pos tr, SquareTRG.logZDensity, (h n).norms, (h n).archive, hlog, List.zip_map']

/-- Two different tensors cannot be given: the constructor iterates before its lists exist. -/
theorem C32_square_two_tensors_raises (ops : TRGOps T ℝ) (a b : T) (dof : Option Nat) :
    SquareTRG.new ops a dof (some b) = .error .attributeError := rfl

/-! ### TriangleTRG -/

/-- Tensors with one entry; the new tensors are twice the third power. -/
noncomputable def triOne : TriOps ℝ ℝ where
  step := fun a b => (2 * a ^ 3, 2 * b ^ 3, 0)
  norm := fun x => |x|
  div := fun t x => t / x
  trace := fun a b => a * b
  log := Real.log

/-- `TriangleTRG.logZDensity` is not the logarithm of the trace over the number of sites.  One step makes three sites of
each kind into one, but the code divides by `3 * 3`; here the trace is 4 and the code gives `log 4 / 9`. -/
theorem C32_triangle_wrong : ((TriangleTRG.new triOne 1 1).iterate triOne).logZDensity triOne = [0, Real.log 4 / 9] ∧
    Real.log (triOne.trace (triOne.step 1 1).1 (triOne.step 1 1).2.1) / 3 ≠ Real.log 4 / 9 := by
  constructor
  · simp [TriangleTRG.logZDensity, TriangleTRG.new, TriangleTRG.iterate, TriangleTRG.append, triangleLoop, triOne]
    norm_num
  · have : (0 : ℝ) < Real.log 4 := Real.log_pos (by norm_num)
    simp only [triOne]
    norm_num
    linarith

/-- One-entry tensors for `HOTRG`. -/
noncomputable def hotrgOne : RGOps ℝ Unit ℝ where
  trial := fun d _ => (if d = .l then 0 else 1, ())
  apply := fun _ _ x y => 3 * x * y
  norm := fun x => |x|
  div := fun t x => t / x
  trace := fun x => x
  log := Real.log

theorem hotrgOne_quadratic : Quadratic (coarse hotrgOne) :=
  C32_quadratic _ (fun _ _ _ _ => rfl) (fun c d p x y _ => by simp only [hotrgOne, smul_eq_mul]; ring)

theorem hotrgOne_pos (i : Nat) : 0 < (coarse hotrgOne)^[i] (5 : ℝ) := by
  induction i with
  | zero => norm_num
  | succ i ih =>
    rw [Function.iterate_succ_apply']
    change 0 < 3 * _ * _
    positivity

/-- The hypotheses of C32 can be met: 5 at every site and a factor 3 per step. -/
example (n : Nat) : ∃ s, HOTRG.run hotrgOne (HOTRG.new hotrgOne 5 none) n = .ok s ∧
    s.logZDensity hotrgOne = (List.range (n + 1)).map fun i =>
      Real.log (hotrgOne.trace ((coarse hotrgOne)^[i] 5)) / ((1 * 2 ^ i : Nat) : ℝ) :=
  C32_hotrg hotrgOne 5 none n rfl ⟨fun c t hc => by simp [hotrgOne, abs_mul, abs_of_pos hc], fun t x => by
      simp only [hotrgOne, smul_eq_mul]; rw [div_eq_inv_mul], fun c t _ => rfl⟩
    (fun d t => by simp only [hotrgOne]; split_ifs <;> norm_num) hotrgOne_quadratic
    (fun i _ => abs_pos.mpr (hotrgOne_pos i).ne') (fun i _ => hotrgOne_pos i)

/-! ### C43: the direction -/

/-- C43: `HOTRG.iterate` takes a direction whose error is least and records its error, if no error is negative. -/
theorem C43_least_error (ops : RGOps T P ℝ) (s : HOTRG T P ℝ) (he : ∀ d, 0 ≤ (ops.trial d s.a).1) :
    ∃ s' d, s.iterate ops = .ok s' ∧ (∀ d', (ops.trial d s.a).1 ≤ (ops.trial d' s.a).1) ∧
      s'.directChoices = s.directChoices ++ [d] ∧ s'.projectors = s.projectors ++ [(ops.trial d s.a).2] ∧
      s'.errors = s.errors ++ [(ops.trial d s.a).1] := by
  obtain ⟨h1, h2⟩ := chosen_eq ops s.a he
  have hc := choose_some ops s.a
  unfold HOTRG.iterate
  rcases hx : HOTRG.choose ops s.a with ⟨e, o⟩
  rw [hx] at hc h2
  simp only at hc h2
  rw [h1] at hc
  subst hc h2
  refine ⟨_, bestDir ops s.a, rfl, ?_, rfl, rfl, rfl⟩
  intro d'
  simp only [bestDir]
  cases d' <;> split_ifs <;> linarith

/-- C43 needs the errors to be non-negative: the starting value `-1` stands for "none yet", so after a negative error any
later one is taken. -/
theorem C43_negative_error_wrong (ops : RGOps T P ℝ) (a : T) (h1 : (ops.trial .u a).1 < 0) (h2 : 0 ≤ (ops.trial .d a).1)
    (h3 : (ops.trial .d a).1 ≤ (ops.trial .l a).1) (h4 : (ops.trial .d a).1 ≤ (ops.trial .r a).1) :
    HOTRG.choose ops a = ((ops.trial .d a).1, some (.d, (ops.trial .d a).2)) ∧ (ops.trial .u a).1 < (ops.trial .d a).1 := by
  refine ⟨?_, by linarith⟩
  have h0 : (-1 : ℝ) < 0 := by norm_num
  simp only [HOTRG.choose, List.foldl_cons, List.foldl_nil, h0, true_or, if_true, h1, not_lt.mpr h2, not_lt.mpr h3, not_lt.mpr h4,
    or_self, if_false]

/-- C43: the recorded direction and projector rebuild the step: combining the archived tensor with itself through
`impurityIterate` gives the next tensor before its normalisation. -/
theorem C43_replay (ops : RGOps T P ℝ) (a : T) (dof : Option Nat) (n : Nat) : ∃ s, HOTRG.run ops (HOTRG.new ops a dof) n = .ok s ∧
    ∀ i < n, ∃ x y z, s.aArchive[i]? = some x ∧ s.aArchive[i + 1]? = some y ∧ s.impurityIterate ops [x.1, x.1] i = .ok z ∧
      y.1 = ops.div z (ops.norm z) ∧ s.aNorms[i + 1]? = some (ops.norm z) := by
  obtain ⟨s, h1, h2⟩ := HOTRG.run_after ops a dof n
  refine ⟨s, h1, fun i hi => ?_⟩
  let F := fun x => ops.apply (chosen ops x).1 (chosen ops x).2 x x
  let x := (normSeq F ops.norm ops.div a i).1
  refine ⟨(x, dof.getD 1 * 2 ^ i), ((normSeq F ops.norm ops.div a (i + 1)).1, dof.getD 1 * 2 ^ (i + 1)), F x, ?_, ?_, ?_, ?_, ?_⟩
  · rw [h2.archive, List.getElem?_map, List.getElem?_range (by omega)]
    rfl
  · rw [h2.archive, List.getElem?_map, List.getElem?_range (by omega)]
    rfl
  · simp only [HOTRG.impurityIterate, h2.choices, h2.projectors, List.length_map, List.length_range, hi, if_true,
      pyGet_range _ hi, bind, Except.bind, pure, Except.pure]
    rfl
  · rfl
  · rw [h2.norms, List.getElem?_map, List.getElem?_range (by omega)]
    rfl

/-! ### C44: impurities -/

section
variable [AddCommGroup T] [Module ℝ T]

theorem divide_two (i : Nat) : (divideIntoKParts i 2).getD [] = (List.range (i + 1)).map fun j => [j, i - j] := by
  rw [divideIntoKParts_eq 2 i (by omega)]
  simp only [Option.getD_some, partsList, List.map_cons, List.map_nil]
  induction List.range (i + 1) with
  | nil => rfl
  | cons x l ih => rw [List.flatMap_cons, ih]; rfl

theorem division_two {i j : Nat} (h : j ≤ i) : calculateDivisionTimes [j, i - j] = (i.choose j : Nat) := by
  rw [calculateDivisionTimes_cons, calculateDivisionTimes_cons, calculateDivisionTimes_nil]
  simp [Nat.add_sub_cancel' h]

theorem getElem?_range_some {α : Type} (f : Nat → α) {n j : Nat} (h : j < n) :
    (((List.range n).map f).map some)[j]?.join = some (f j) := by
  rw [List.getElem?_map, List.getElem?_map, List.getElem?_range h]
  rfl

/-- The recorded direction and projector of step `idx`. -/
def HOTRG.Recorded (rg : HOTRG T P ℝ) (idx : Nat) (c : RGDir × P) : Prop :=
  rg.directChoices[idx]? = some c.1 ∧ rg.projectors[idx]? = some c.2

theorem impurityIterate_ok (ops : RGOps T P ℝ) {rg : HOTRG T P ℝ} {idx : Nat} {c : RGDir × P} (h : rg.Recorded idx c) (x y : T) :
    rg.impurityIterate ops [x, y] idx = .ok (ops.apply c.1 c.2 x y) := by
  have h1 := List.getElem?_eq_some_iff.mp h.1
  have e : ¬ ((idx : Int) < 0) := by omega
  have e' : (0 : Int) ≤ idx := by omega
  simp only [HOTRG.impurityIterate, h1.1, if_true, pyGet, e, e', if_false, Int.toNat_natCast, h.1, h.2, bind, Except.bind, pure, Except.pure]

/-- The partial sums of the loop over the divisions. -/
theorem impurityOrder_loop (ops : RGOps T P ℝ) {rg : HOTRG T P ℝ} {idx : Nat} {c : RGDir × P} (h : rg.Recorded idx c) (f : Nat → T)
    {n i : Nat} (hi : i < n) (q : Nat) (hq : q ≤ i) :
    ((List.range (q + 1)).map fun j => [j, i - j]).foldlM (impurityPart ops rg (((List.range n).map f).map some) idx ((1 / 2) ^ i)) (0, none) =
      .ok (∑ j ∈ Finset.range (q + 1), (i.choose j : ℝ) * (1 / 2) ^ i,
        some (∑ j ∈ Finset.range (q + 1), ((i.choose j : ℝ) * (1 / 2) ^ i) • ops.apply c.1 c.2 (f j) (f (i - j)))) := by
  have step : ∀ (st : ℝ × Option T) j, j ≤ i →
      impurityPart ops rg (((List.range n).map f).map some) idx ((1 / 2) ^ i) st [j, i - j] =
        .ok (st.1 + (i.choose j : ℝ) * (1 / 2) ^ i, match st.2 with
          | none => some (((i.choose j : ℝ) * (1 / 2) ^ i) • ops.apply c.1 c.2 (f j) (f (i - j)))
          | some r => some (r + ((i.choose j : ℝ) * (1 / 2) ^ i) • ops.apply c.1 c.2 (f j) (f (i - j)))) := by
    intro st j hj
    have e : ([j, i - j].mapM fun j => (((List.range n).map f).map some)[j]?.join) = some [f j, f (i - j)] := by
      simp only [List.mapM_cons, List.mapM_nil, getElem?_range_some f (show j < n by omega),
        getElem?_range_some f (show i - j < n by omega)]
      rfl
    unfold impurityPart
    simp only [e, impurityIterate_ok ops h, division_two hj, bind, Except.bind, pure, Except.pure, Int.cast_natCast]
    rcases st.2 with _ | r <;> rfl
  induction q with
  | zero =>
    simp only [zero_add, List.range_one, List.map_cons, List.map_nil, List.foldlM_cons, List.foldlM_nil, step (0, none) 0 (by omega),
      bind, Except.bind, pure, Except.pure, Finset.range_one, Finset.sum_singleton]
  | succ q ih =>
    rw [List.range_succ, List.map_append, List.foldlM_append, ih (by omega)]
    simp only [List.map_cons, List.map_nil, List.foldlM_cons, List.foldlM_nil, bind, Except.bind, pure, Except.pure, step _ (q + 1) hq]
    rw [Finset.sum_range_succ _ (q + 1), Finset.sum_range_succ _ (q + 1)]

/-- C44: the weights of the divisions of an order add up to 1. -/
theorem C44_weights (i : Nat) : ∑ j ∈ Finset.range (i + 1), (i.choose j : ℝ) * (1 / 2) ^ i = 1 := by
  rw [← Finset.sum_mul]
  have := Nat.sum_range_choose i
  have h : ∑ j ∈ Finset.range (i + 1), (i.choose j : ℝ) = 2 ^ i := by exact_mod_cast this
  rw [h, ← mul_pow]
  norm_num

/-- C44: the new impurity of order `i` is the binomial average of the combinations of lower ones. -/
theorem C44_order (ops : RGOps T P ℝ) {rg : HOTRG T P ℝ} {idx : Nat} {c : RGDir × P} (h : rg.Recorded idx c) (f : Nat → T)
    {n i : Nat} (hi : i < n) : impurityOrder ops rg (((List.range n).map f).map some) idx i =
      .ok (∑ j ∈ Finset.range (i + 1), ((i.choose j : ℝ) * (1 / 2) ^ i) • ops.apply c.1 c.2 (f j) (f (i - j))) := by
  unfold impurityOrder
  rw [divide_two]
  simp only [impurityOrder_loop ops h f hi i (le_refl _), bind, Except.bind, pure, Except.pure]
  rw [C44_weights, inv_one, one_smul]

theorem mapM_except_ok {α β : Type} (l : List α) (f : α → Except PyErr β) (g : α → β) (h : ∀ x ∈ l, f x = .ok (g x)) :
    l.mapM f = .ok (l.map g) := by
  induction l with
  | nil => rfl
  | cons a l ih =>
    rw [List.mapM_cons, h a (by simp), ih fun x hx => h x (by simp [hx])]
    rfl

theorem divAll_ok (ops : RGOps T P ℝ) (x : ℝ) (l : List T) : divAll ops x (l.map some) = .ok (l.map fun t => ops.div t x) := by
  induction l with
  | nil => rfl
  | cons t l ih =>
    simp only [List.map_cons, divAll, ih]
    rfl

variable {S : Type} [Fintype S]

theorem Block.sum_succ {M : Type} [AddCommMonoid M] (n : Nat) (f : Block S (n + 1) → M) :
    ∑ c : Block S (n + 1), f c = ∑ c1 : Block S n, ∑ c2 : Block S n, f (c1, c2) :=
  Fintype.sum_prod_type (f : Block S n × Block S n → M)

/-- The un-normalised impurity of order `k` after `n` steps. -/
noncomputable def blockSum (ops : RGOps T P ℝ) (ch : Nat → RGDir × P) (X : S → T) (m : S → ℝ) (n k : Nat) : T :=
  ∑ c : Block S n, Block.mean m n c ^ k • Block.tensor ops ch X n c

theorem blockSum_step {ops : RGOps T P ℝ} (B : RGDir → P → T →ₗ[ℝ] T →ₗ[ℝ] T) (hB : ∀ d p x y, ops.apply d p x y = B d p x y)
    (ch : Nat → RGDir × P) (X : S → T) (m : S → ℝ) (n k : Nat) :
    ∑ j ∈ Finset.range (k + 1), ((k.choose j : ℝ) * (1 / 2) ^ k) •
        ops.apply (ch n).1 (ch n).2 (blockSum ops ch X m n j) (blockSum ops ch X m n (k - j)) = blockSum ops ch X m (n + 1) k := by
  simp only [blockSum, hB, map_sum, map_smul, LinearMap.sum_apply, LinearMap.smul_apply, Finset.smul_sum, smul_smul]
  rw [Block.sum_succ, Finset.sum_comm]
  conv_rhs => rw [Finset.sum_comm]
  apply Finset.sum_congr rfl
  intro c2 _
  rw [Finset.sum_comm]
  apply Finset.sum_congr rfl
  intro c1 _
  simp only [Block.mean, Block.tensor, hB]
  have e : ((Block.mean m n c1 + Block.mean m n c2) / 2) ^ k =
      ∑ j ∈ Finset.range (k + 1), Block.mean m n c1 ^ j * Block.mean m n c2 ^ (k - j) * (k.choose j : ℝ) * (1 / 2) ^ k := by
    rw [div_eq_mul_one_div, mul_pow, add_pow, Finset.sum_mul]
  rw [← Finset.sum_smul, e]
  congr 1
  apply Finset.sum_congr rfl
  intro j _
  ring

/-- The factor taken out of the tensors of step `i`. -/
noncomputable def scaleAt (N : Nat → ℝ) : Nat → ℝ
  | 0 => (N 0)⁻¹
  | i + 1 => (N (i + 1))⁻¹ * scaleAt N i ^ 2

theorem scaleAt_ne {N : Nat → ℝ} {n : Nat} (h : ∀ i ≤ n, N i ≠ 0) : scaleAt N n ≠ 0 := by
  induction n with
  | zero => exact inv_ne_zero (h 0 (le_refl _))
  | succ n ih => exact mul_ne_zero (inv_ne_zero (h _ (le_refl _))) (pow_ne_zero _ (ih fun i hi => h i (by omega)))

/-- Any interleaving of iterations of the pure network and of the impurities. -/
inductive Joint (ops : RGOps T P ℝ) (a : T) (dof : Option Nat) (imps : List T) (order : Option Nat) : HOTRG T P ℝ → Impurity T ℝ → Prop
  | start : Joint ops a dof imps order (HOTRG.new ops a dof) (Impurity.new imps order)
  | pure {rg rg' im} : Joint ops a dof imps order rg im → rg.iterate ops = .ok rg' → Joint ops a dof imps order rg' im
  | impurity {rg im im'} : Joint ops a dof imps order rg im → im.iterate ops rg = .ok im' → Joint ops a dof imps order rg im'

/-- The impurities after `q` iterations. -/
structure Impurity.After (f : Nat → Nat → T) (order : Nat) (im : Impurity T ℝ) (q : Nat) : Prop where
  init : im.initialized = true
  idx : im.iterateIdx = q
  high : im.highestOrder = order
  now : im.impurities = ((List.range order).map (f q)).map some
  archive : im.archive = (List.range (q + 1)).map fun i => (List.range order).map (f i)

/-- Before the first iteration. -/
structure Impurity.Fresh (g : Nat → T) (order : Nat) (im : Impurity T ℝ) : Prop where
  init : im.initialized = false
  idx : im.iterateIdx = 0
  high : im.highestOrder = order
  now : im.impurities = ((List.range order).map g).map some
  archive : im.archive = []

theorem Impurity.new_fresh (g : Nat → T) (N : Nat) (order : Option Nat) (h : order.getD N ≤ N) :
    (Impurity.new (K := ℝ) ((List.range N).map g) order).Fresh g (order.getD N) := by
  refine ⟨rfl, rfl, by simp [Impurity.new], ?_, rfl⟩
  simp only [Impurity.new, List.length_map, List.length_range]
  split
  · simp only [← List.map_take, List.take_range, Nat.min_eq_left h]
  · rename_i c
    have e : order.getD N = N := by omega
    rw [e, Nat.sub_self]
    simp

theorem getNorm_ok {rg : HOTRG T P ℝ} {N : Nat → ℝ} {n i : Nat} (h : rg.aNorms = (List.range (n + 1)).map N) :
    rg.getNorm i = if i ≤ n then .ok (N i) else .error .assertionError := by
  unfold HOTRG.getNorm
  rw [h]
  simp only [List.length_map, List.length_range]
  split
  · rename_i c
    rw [if_pos (by omega), pyGet_range _ c]
  · rw [if_neg (by omega)]

/-- One impurity iteration from a state after `q` of them. -/
theorem impurity_step {ops : RGOps T P ℝ} (hdiv : ∀ t x, ops.div t x = x⁻¹ • t) (B : RGDir → P → T →ₗ[ℝ] T →ₗ[ℝ] T)
    (hB : ∀ d p x y, ops.apply d p x y = B d p x y) {ch : Nat → RGDir × P} {X : S → T} {m : S → ℝ} {N : Nat → ℝ}
    {rg : HOTRG T P ℝ} {n q order : Nat} {im : Impurity T ℝ} (ho : 0 < order) (hN : rg.aNorms = (List.range (n + 1)).map N)
    (hr : ∀ i < n, rg.Recorded i (ch i))
    (h : im.After (fun i k => scaleAt N i • blockSum ops ch X m i k) order q) :
    (q < n → ∃ im', im.iterate ops rg = .ok im' ∧ im'.After (fun i k => scaleAt N i • blockSum ops ch X m i k) order (q + 1)) ∧
    (n ≤ q → im.iterate ops rg = .error .assertionError) := by
  have hg := getNorm_ok (i := q + 1) hN
  constructor
  · intro hq
    rw [if_pos (by omega)] at hg
    have hf : pyGet im.impurities 0 = .ok (some (scaleAt N q • blockSum ops ch X m q 0)) := by
      rw [h.now, List.map_map]
      exact pyGet_range (i := 0) _ ho
    have hm : (List.range order).mapM (impurityOrder ops rg im.impurities q) = .ok ((List.range order).map fun k =>
        (scaleAt N q ^ 2) • blockSum ops ch X m (q + 1) k) := by
      apply mapM_except_ok
      intro k hk
      rw [List.mem_range] at hk
      rw [h.now, C44_order ops (hr q hq) _ hk, ← blockSum_step B hB, Finset.smul_sum]
      congr 1
      apply Finset.sum_congr rfl
      intro j _
      simp only [hB, map_smul, LinearMap.smul_apply, smul_smul]
      congr 1
      ring
    unfold Impurity.iterate
    simp only [h.init, if_true, h.idx, hg, hf, h.high, hm, bind, Except.bind, Impurity.append, divAll_ok]
    refine ⟨_, rfl, ⟨rfl, rfl, rfl, ?_, ?_⟩⟩
    · simp only [List.map_map]
      apply List.map_congr_left
      intro k _
      simp only [Function.comp, hdiv, smul_smul, scaleAt]
    · simp only
      rw [h.archive, List.range_succ (n := q + 1), List.map_append]
      simp only [List.map_cons, List.map_nil, List.map_map]
      congr 2
      apply List.map_congr_left
      intro k _
      simp only [Function.comp, hdiv, smul_smul, scaleAt]
  · intro hq
    rw [if_neg (by omega)] at hg
    unfold Impurity.iterate
    simp only [h.init, if_true, h.idx, hg, bind, Except.bind]

/-- The first impurity iteration is one after the initialisation. -/
theorem impurity_first {ops : RGOps T P ℝ} (hdiv : ∀ t x, ops.div t x = x⁻¹ • t) {ch : Nat → RGDir × P} {X : S → T} {m : S → ℝ}
    {N : Nat → ℝ} {rg : HOTRG T P ℝ} {n order : Nat} {im : Impurity T ℝ} (hN : rg.aNorms = (List.range (n + 1)).map N)
    (h : im.Fresh (fun k => ∑ s, m s ^ k • X s) order) :
    ∃ im0 : Impurity T ℝ, im0.After (fun i k => scaleAt N i • blockSum ops ch X m i k) order 0 ∧ im.iterate ops rg = im0.iterate ops rg := by
  have hg := getNorm_ok (i := 0) hN
  rw [if_pos (by omega)] at hg
  have e : im.initialize ops rg = .ok { im with
      impurities := ((List.range order).map fun k => scaleAt N 0 • blockSum ops ch X m 0 k).map some
      norms := im.norms ++ [N 0]
      archive := im.archive ++ [(List.range order).map fun k => scaleAt N 0 • blockSum ops ch X m 0 k]
      initialized := true } := by
    unfold Impurity.initialize
    have e2 : ((List.range order).map fun k => ∑ s, m s ^ k • X s).map (fun t => ops.div t (N 0)) =
        (List.range order).map fun k => scaleAt N 0 • blockSum ops ch X m 0 k := by
      rw [List.map_map]
      apply List.map_congr_left
      intro k _
      simp only [Function.comp, hdiv]
      rfl
    simp only [hg, bind, Except.bind, Impurity.append, h.now, divAll_ok, pure, Except.pure, e2]
  refine ⟨{ im with
      impurities := ((List.range order).map fun k => scaleAt N 0 • blockSum ops ch X m 0 k).map some
      norms := im.norms ++ [N 0]
      archive := im.archive ++ [(List.range order).map fun k => scaleAt N 0 • blockSum ops ch X m 0 k]
      initialized := true }, ⟨rfl, h.idx, h.high, rfl, by rw [h.archive]; rfl⟩, ?_⟩
  unfold Impurity.iterate
  rw [h.init]
  simp only [Bool.false_eq_true, if_false, e, if_true]

/-- What holds along every interleaving. -/
theorem joint_inv {ops : RGOps T P ℝ} (hdiv : ∀ t x, ops.div t x = x⁻¹ • t) (B : RGDir → P → T →ₗ[ℝ] T →ₗ[ℝ] T)
    (hB : ∀ d p x y, ops.apply d p x y = B d p x y) (X : S → T) (m : S → ℝ) (dof : Option Nat) (L : Nat) (order : Option Nat)
    (ho : order.getD L ≤ L) (ho1 : 0 < order.getD L) {rg : HOTRG T P ℝ} {im : Impurity T ℝ}
    (h : Joint ops (∑ s, X s) dof ((List.range L).map fun k => ∑ s, m s ^ k • X s) order rg im) :
    let F := fun x => ops.apply (chosen ops x).1 (chosen ops x).2 x x
    let N := fun i => (normSeq F ops.norm ops.div (∑ s, X s) i).2
    let ch := fun i => chosen ops (normSeq F ops.norm ops.div (∑ s, X s) i).1
    ∃ n, rg.After ops F (chosen ops) (∑ s, X s) (dof.getD 1) n ∧ (im.Fresh (fun k => ∑ s, m s ^ k • X s) (order.getD L) ∨
      ∃ q ≤ n, im.After (fun i k => scaleAt N i • blockSum ops ch X m i k) (order.getD L) q) := by
  intro F N ch
  induction h with
  | start => exact ⟨0, HOTRG.new_after ops F _ _ dof, .inl (Impurity.new_fresh _ _ _ ho)⟩
  | pure _ hi ih =>
    obtain ⟨n, h1, h2⟩ := ih
    obtain ⟨s', h3, h4⟩ := HOTRG.iterate_after h1
    rw [← Except.ok.inj (h3.symm.trans hi)]
    refine ⟨n + 1, h4, ?_⟩
    rcases h2 with h2 | ⟨q, hq, h2⟩
    · exact .inl h2
    · exact .inr ⟨q, by omega, h2⟩
  | @impurity rg im im' _ hi ih =>
    obtain ⟨n, h1, h2⟩ := ih
    refine ⟨n, h1, .inr ?_⟩
    have hr : ∀ i < n, rg.Recorded i (ch i) := by
      intro i hi
      refine ⟨?_, ?_⟩
      · rw [h1.choices, List.getElem?_map, List.getElem?_range hi]
        rfl
      · rw [h1.projectors, List.getElem?_map, List.getElem?_range hi]
        rfl
    have key : ∀ (im0 : Impurity T ℝ) q, q ≤ n → im0.After (fun i k => scaleAt N i • blockSum ops ch X m i k) (order.getD L) q →
        im0.iterate ops rg = .ok im' → ∃ q ≤ n, im'.After (fun i k => scaleAt N i • blockSum ops ch X m i k) (order.getD L) q := by
      intro im0 q hq h2 hi
      obtain ⟨k1, k2⟩ := impurity_step hdiv B hB ho1 h1.norms hr h2
      rcases Nat.lt_or_ge q n with c | c
      · obtain ⟨im'', e1, e2⟩ := k1 c
        rw [← Except.ok.inj (e1.symm.trans hi)]
        exact ⟨q + 1, by omega, e2⟩
      · rw [k2 c] at hi
        cases hi
    rcases h2 with h2 | ⟨q, hq, h2⟩
    · obtain ⟨im0, e1, e2⟩ := impurity_first (ops := ops) (ch := ch) hdiv h1.norms h2
      exact key im0 0 (by omega) e1 (e2.symm.trans hi)
    · exact key im q hq h2 hi

/-- The archived pure tensor is the impurity of order 0. -/
theorem pure_eq {ops : RGOps T P ℝ} (hdiv : ∀ t x, ops.div t x = x⁻¹ • t) (B : RGDir → P → T →ₗ[ℝ] T →ₗ[ℝ] T)
    (hB : ∀ d p x y, ops.apply d p x y = B d p x y) (X : S → T) (m : S → ℝ) (i : Nat) :
    let F := fun x => ops.apply (chosen ops x).1 (chosen ops x).2 x x
    let N := fun i => (normSeq F ops.norm ops.div (∑ s, X s) i).2
    let ch := fun i => chosen ops (normSeq F ops.norm ops.div (∑ s, X s) i).1
    (normSeq F ops.norm ops.div (∑ s, X s) i).1 = scaleAt N i • blockSum ops ch X m i 0 := by
  intro F N ch
  induction i with
  | zero =>
    simp only [normSeq, hdiv, scaleAt, blockSum, pow_zero, one_smul, N]
    rfl
  | succ i ih =>
    rw [← blockSum_step B hB]
    simp only [zero_add, Finset.range_one, Finset.sum_singleton, Nat.choose_self, Nat.cast_one, pow_zero, mul_one, one_smul, Nat.sub_zero]
    have e : (normSeq F ops.norm ops.div (∑ s, X s) (i + 1)).1 = (N (i + 1))⁻¹ • F (normSeq F ops.norm ops.div (∑ s, X s) i).1 := hdiv _ _
    have e2 : F (normSeq F ops.norm ops.div (∑ s, X s) i).1 = ops.apply (ch i).1 (ch i).2
      (normSeq F ops.norm ops.div (∑ s, X s) i).1 (normSeq F ops.norm ops.div (∑ s, X s) i).1 := rfl
    rw [e, e2, ih]
    simp only [hB, map_smul, LinearMap.smul_apply, smul_smul, scaleAt]
    congr 1
    ring

theorem blockTensor_congr (ops : RGOps T P ℝ) {ch ch' : Nat → RGDir × P} (X : S → T) (n : Nat) (h : ∀ i < n, ch i = ch' i) :
    Block.tensor ops ch X n = Block.tensor ops ch' X n := by
  induction n with
  | zero => rfl
  | succ n ih =>
    funext c
    simp only [Block.tensor, ih fun i hi => h i (by omega), h n (by omega)]

/-- C44: whatever the order in which the pure network and the impurities were iterated, with impurities
`∑ s, m s ^ k • X s` of the site tensor `∑ s, X s` entry `i, k` of `measureObservables()` is the `k`-th moment of the mean of
`m` over the `2 ^ i` sites of a block, weighted with the trace of the block's tensor under the recorded steps. -/
theorem C44_moments {ops : RGOps T P ℝ} (hdiv : ∀ t x, ops.div t x = x⁻¹ • t) (B : RGDir → P → T →ₗ[ℝ] T →ₗ[ℝ] T)
    (hB : ∀ d p x y, ops.apply d p x y = B d p x y) (tr : T →ₗ[ℝ] ℝ) (htr : ∀ x, ops.trace x = tr x) (X : S → T) (m : S → ℝ)
    (dof : Option Nat) (L : Nat) (order : Option Nat) (ho : order.getD L ≤ L) (ho1 : 0 < order.getD L)
    {rg : HOTRG T P ℝ} {im : Impurity T ℝ}
    (h : Joint ops (∑ s, X s) dof ((List.range L).map fun k => ∑ s, m s ^ k • X s) order rg im)
    (hn : ∀ x ∈ rg.aNorms, x ≠ 0) (ch : Nat → RGDir × P) (hch : ∀ i < rg.directChoices.length, rg.Recorded i (ch i))
    (_hz : ∀ i, ∑ c : Block S i, ops.trace (Block.tensor ops ch X i c) ≠ 0) :
    im.measureObservables ops rg = .ok ((List.range im.archive.length).map fun i =>
      (List.range (order.getD L)).map fun k => Block.moment ops ch X m i k) := by
  obtain ⟨n, h1, h2⟩ := joint_inv hdiv B hB X m dof L order ho ho1 h
  unfold Impurity.measureObservables
  apply mapM_except_ok
  intro i hi
  rw [List.mem_range] at hi
  rcases h2 with h2 | ⟨q, hq, h2⟩
  · rw [h2.archive] at hi
    cases hi
  · rw [h2.archive] at hi ⊢
    rw [List.length_map, List.length_range] at hi
    have ha := pyGet_range (fun i => ((normSeq (fun x => ops.apply (chosen ops x).1 (chosen ops x).2 x x)
        ops.norm ops.div (∑ s, X s) i).1, dof.getD 1 * 2 ^ i)) (show i < n + 1 by omega)
    rw [← h1.archive] at ha
    have hne : ((List.range (order.getD L)).map fun k => scaleAt (fun i => (normSeq (fun x => ops.apply (chosen ops x).1 (chosen ops x).2 x x)
        ops.norm ops.div (∑ s, X s) i).2) i • blockSum ops (fun i => chosen ops (normSeq (fun x => ops.apply (chosen ops x).1 (chosen ops x).2 x x)
        ops.norm ops.div (∑ s, X s) i).1) X m i k).isEmpty = false := by
      rw [List.isEmpty_eq_false_iff_exists_mem]
      exact ⟨_, List.mem_map_of_mem (List.mem_range.mpr ho1)⟩
    have hget : ∀ (g : Nat → List T), ((List.range (q + 1)).map g).getD i [] = g i := by
      intro g
      rw [List.getD_eq_getElem?_getD, List.getElem?_map, List.getElem?_range hi]
      rfl
    simp only [hget, hne, Bool.false_eq_true, if_false, HOTRG.pureTensorTrace, ha, Except.map, bind, Except.bind, pure, Except.pure, List.map_map]
    congr 1
    apply List.map_congr_left
    intro k _
    simp only [Function.comp]
    have hp := pure_eq hdiv B hB X m i
    simp only at hp
    rw [hp, htr, htr, map_smul, map_smul, smul_eq_mul, smul_eq_mul]
    rw [mul_div_mul_left _ _ (scaleAt_ne fun j hj => hn _ (by
      rw [h1.norms]
      exact List.mem_map_of_mem (List.mem_range.mpr (by omega))))]
    have hc : ∀ j < i, chosen ops (normSeq (fun x => ops.apply (chosen ops x).1 (chosen ops x).2 x x)
        ops.norm ops.div (∑ s, X s) j).1 = ch j := by
      intro j hj
      have := hch j (by rw [h1.choices]; simp; omega)
      have e1 := this.1
      have e2 := this.2
      rw [h1.choices, List.getElem?_map, List.getElem?_range (by omega)] at e1
      rw [h1.projectors, List.getElem?_map, List.getElem?_range (by omega)] at e2
      exact Prod.ext (Option.some.inj e1) (Option.some.inj e2)
    simp only [blockSum, blockTensor_congr ops X i hc, map_sum, map_smul, smul_eq_mul, pow_zero, one_mul, Block.moment, htr]

/-- C44: as long as the pure network is ahead, the impurities can be iterated; otherwise the call is refused. -/
theorem C44_progress {ops : RGOps T P ℝ} (hdiv : ∀ t x, ops.div t x = x⁻¹ • t) (B : RGDir → P → T →ₗ[ℝ] T →ₗ[ℝ] T)
    (hB : ∀ d p x y, ops.apply d p x y = B d p x y) (X : S → T) (m : S → ℝ)
    (dof : Option Nat) (L : Nat) (order : Option Nat) (ho : order.getD L ≤ L) (ho1 : 0 < order.getD L)
    {rg : HOTRG T P ℝ} {im : Impurity T ℝ}
    (h : Joint ops (∑ s, X s) dof ((List.range L).map fun k => ∑ s, m s ^ k • X s) order rg im) :
    (im.iterateIdx + 1 < rg.aArchive.length → ∃ im', im.iterate ops rg = .ok im' ∧ im'.iterateIdx = im.iterateIdx + 1 ∧
      im'.archive.length = im.iterateIdx + 2) ∧
    (rg.aArchive.length ≤ im.iterateIdx + 1 → im.iterate ops rg = .error .assertionError) := by
  obtain ⟨n, h1, h2⟩ := joint_inv hdiv B hB X m dof L order ho ho1 h
  have hr : ∀ i < n, rg.Recorded i (chosen ops (normSeq (fun x => ops.apply (chosen ops x).1 (chosen ops x).2 x x)
        ops.norm ops.div (∑ s, X s) i).1) := by
    intro i hi
    refine ⟨?_, ?_⟩
    · rw [h1.choices, List.getElem?_map, List.getElem?_range hi]
      rfl
    · rw [h1.projectors, List.getElem?_map, List.getElem?_range hi]
      rfl
  have hl : rg.aArchive.length = n + 1 := by rw [h1.archive]; simp
  rw [hl]
  have key : ∀ (im0 : Impurity T ℝ) q, q = im.iterateIdx → im0.After (fun i k => scaleAt (fun i => (normSeq (fun x => ops.apply (chosen ops x).1 (chosen ops x).2 x x)
        ops.norm ops.div (∑ s, X s) i).2) i • blockSum ops (fun i => chosen ops (normSeq (fun x => ops.apply (chosen ops x).1 (chosen ops x).2 x x)
        ops.norm ops.div (∑ s, X s) i).1) X m i k) (order.getD L) q → im.iterate ops rg = im0.iterate ops rg →
      (im.iterateIdx + 1 < n + 1 → ∃ im', im.iterate ops rg = .ok im' ∧ im'.iterateIdx = im.iterateIdx + 1 ∧
        im'.archive.length = im.iterateIdx + 2) ∧
      (n + 1 ≤ im.iterateIdx + 1 → im.iterate ops rg = .error .assertionError) := by
    intro im0 q hq h3 he
    obtain ⟨k1, k2⟩ := impurity_step hdiv B hB ho1 h1.norms hr h3
    constructor
    · intro c
      obtain ⟨im', e1, e2⟩ := k1 (by omega)
      exact ⟨im', he.trans e1, by rw [e2.idx, hq], by rw [e2.archive]; simp; omega⟩
    · intro c
      exact he.trans (k2 (by omega))
  rcases h2 with h2 | ⟨q, hq, h2⟩
  · obtain ⟨im0, e1, e2⟩ := impurity_first (ops := ops) hdiv h1.norms h2
    exact key im0 0 h2.idx.symm e1 e2
  · exact key im q h2.idx.symm h2 rfl

theorem divAll_none (ops : RGOps T P ℝ) (x : ℝ) (l l' : List (Option T)) : divAll ops x (l ++ none :: l') = .error .attributeError := by
  induction l with
  | nil => rfl
  | cons t l ih =>
    cases t with
    | none => rfl
    | some t =>
      simp only [List.cons_append, divAll, ih]
      rfl

/-- Orders beyond the given impurities cannot be asked for: the padding with `None` makes the first iteration raise. -/
theorem C44_padding_raises (ops : RGOps T P ℝ) (rg : HOTRG T P ℝ) (imps : List T) (order : Nat) (h : imps.length < order)
    (hn : rg.aNorms ≠ []) : (Impurity.new imps (some order)).iterate ops rg = .error .attributeError := by
  obtain ⟨x, l, e⟩ := List.exists_cons_of_ne_nil hn
  have hg : rg.getNorm 0 = .ok x := by
    simp [HOTRG.getNorm, e, pyGet]
  have hd : divAll ops x (Impurity.new (K := ℝ) imps (some order)).impurities = .error .attributeError := by
    simp only [Impurity.new, List.length_map, Option.getD_some]
    rw [if_neg (by omega)]
    obtain ⟨k, hk⟩ : ∃ k, order - imps.length = k + 1 := ⟨order - imps.length - 1, by omega⟩
    rw [hk, List.replicate_succ, divAll_none]
  have hi : (Impurity.new (K := ℝ) imps (some order)).initialize ops rg = .error .attributeError := by
    simp only [Impurity.initialize, hg, bind, Except.bind, Impurity.append, hd]
  have h0 : (Impurity.new (K := ℝ) imps (some order)).initialized = false := rfl
  unfold Impurity.iterate
  simp only [h0, Bool.false_eq_true, if_false, hi, bind, Except.bind]

/-- The hypotheses of C44 can be met: two site states with values 1 and 2 and weights 2 and 3, and moments up to order 3. -/
example : ∃ rg im, Joint hotrgOne (∑ s : Bool, if s then (3 : ℝ) else 2) none
    ((List.range 4).map fun k => ∑ s : Bool, (if s then (2 : ℝ) else 1) ^ k • (if s then (3 : ℝ) else 2)) none rg im ∧
    im.archive.length = 2 := by
  have hdiv : ∀ t x, hotrgOne.div t x = x⁻¹ • t := fun t x => by simp only [hotrgOne, smul_eq_mul]; rw [div_eq_inv_mul]
  have hB : ∀ d p x y, hotrgOne.apply d p x y = ((3 : ℝ) • LinearMap.mul ℝ ℝ) x y := fun d p x y => by
    simp only [hotrgOne, LinearMap.smul_apply, LinearMap.mul_apply_apply, smul_eq_mul]; ring
  have J := Joint.start (ops := hotrgOne) (a := ∑ s : Bool, if s then (3 : ℝ) else 2) (dof := none)
    (imps := (List.range 4).map fun k => ∑ s : Bool, (if s then (2 : ℝ) else 1) ^ k • (if s then (3 : ℝ) else 2)) (order := none)
  have J1 := J.pure (iterate_eq _ _)
  obtain ⟨im', h1, h2, h3⟩ := (C44_progress hdiv (fun _ _ => (3 : ℝ) • LinearMap.mul ℝ ℝ) hB (fun s : Bool => if s then (3 : ℝ) else 2)
    (fun s => if s then (2 : ℝ) else 1) none 4 none (by simp) (by simp) J1).1 (by simp [HOTRG.append, HOTRG.new, Impurity.new])
  exact ⟨_, im', J1.impurity h1, h3⟩

end

/-- The hypotheses of `C32_square` can be met: 5 at every site and a factor 3 per step. -/
noncomputable def trgOne : TRGOps ℝ ℝ where
  step := fun x y => (3 * x * y, (0, 0))
  norm := fun x => |x|
  div := fun t x => t / x
  trace := fun x => x
  log := Real.log

example (n : Nat) : ∃ s, SquareTRG.new trgOne 5 none none = .ok s ∧
    ((SquareTRG.iterate trgOne)^[n] s).logZDensity trgOne = (List.range (n + 1)).map fun i =>
      Real.log (trgOne.trace ((fun x => (trgOne.step x x).1)^[i] 5)) / ((1 * 2 ^ i : Nat) : ℝ) :=
  C32_square trgOne 5 none n rfl ⟨fun c t hc => by simp [trgOne, abs_mul, abs_of_pos hc], fun t x => by
      simp only [trgOne, smul_eq_mul]; rw [div_eq_inv_mul], fun c t _ => rfl⟩
    (fun c x hc => by simp only [trgOne, smul_eq_mul]; ring)
    (fun i _ => abs_pos.mpr (hotrgOne_pos i).ne') (fun i _ => hotrgOne_pos i)

/-- Errors as in `C43_least_error` and as in `C43_negative_error_wrong`. -/
example (dir : RGDir) (x : ℝ) : 0 ≤ (hotrgOne.trial dir x).1 := by
  simp only [hotrgOne]; split_ifs <;> norm_num

example : HOTRG.choose { hotrgOne with trial := fun dir _ => (if dir = .u then -1 else 1, ()) } (5 : ℝ) = (1, some (.d, ())) :=
  (C43_negative_error_wrong _ _ (by norm_num) (by simp) (by simp) (by simp)).1

/-- The first two moments are given and five asked for. -/
example : (Impurity.new [(5 : ℝ), 6] (some 5)).iterate hotrgOne (HOTRG.new hotrgOne 5 none) = .error .attributeError :=
  C44_padding_raises _ _ _ _ (by decide) (by simp [HOTRG.new, HOTRG.append])

end CTL
