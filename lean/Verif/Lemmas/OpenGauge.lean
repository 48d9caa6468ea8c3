import Mathlib.LinearAlgebra.Matrix.Trace
import Mathlib.Tactic.NoncommRing
import Verif.Lemmas.OpenLattice

/-! Quadrants and edges in a rotated basis, as the corner transfer matrix method keeps them. -/

namespace CTL
namespace Open
open Matrix
variable {K α β : Type} [CommRing K] [Fintype α] [Fintype β] [DecidableEq α] [DecidableEq β] (w : α → α → β → β → K)

/-- Rows and columns are orthonormal. -/
structure Ortho {ι κ : Type} [Fintype ι] [Fintype κ] [DecidableEq ι] [DecidableEq κ] (A : Matrix ι κ K) : Prop where
  rows : A * Aᵀ = 1
  cols : Aᵀ * A = 1

/-- A row, a column and a quadrant as matrices. -/
def rowMat (n : Nat) (j : α) : Matrix (Fin n → β) (Fin n → β) K := fun x x' => rowOf w n x x' j
def colMat (n : Nat) (i : β) : Matrix (Fin n → α) (Fin n → α) K := fun y y' => columnOf w n y y' i
def quadMat (n : Nat) : Matrix (Fin n → β) (Fin n → α) K := fun x y => block w n n x y

variable {κ : Type} [Fintype κ] [DecidableEq κ]

/-- Numbers `c`, matrices `v` and `h` are, up to factors, the quadrant, the row and the column of `n` sites in a rotated basis. -/
structure Level (n : Nat) (sc sv sh : K) (c : κ → K) (v : α → Matrix κ κ K) (h : β → Matrix κ κ K) (A : Matrix (Fin n → β) κ K)
    (B : Matrix (Fin n → α) κ K) : Prop where
  a : Ortho A
  b : Ortho B
  corner : Aᵀ * quadMat w n * B = sc • diagonal c
  row : ∀ j, Aᵀ * rowMat w n j * A = sv • v j
  column : ∀ i, Bᵀ * colMat w n i * B = sh • h i

/-- The only basis of the empty configuration. -/
def onlyOne (ι : Type) : Matrix (Fin 0 → ι) (Fin 1) K := fun _ _ => 1

theorem onlyOne_ortho (ι : Type) [Fintype ι] [DecidableEq ι] : Ortho (onlyOne ι : Matrix _ _ K) := by
  constructor
  · ext i j
    simp [Matrix.mul_apply, onlyOne, Matrix.one_apply, Subsingleton.elim i j]
  · ext i j
    simp [Matrix.mul_apply, onlyOne, Matrix.one_apply, Subsingleton.elim i j]

theorem level_zero : Level w 0 1 1 1 (fun _ : Fin 1 => 1) (fun _ => 1) (fun _ => 1) (onlyOne β) (onlyOne α) := by
  refine ⟨onlyOne_ortho β, onlyOne_ortho α, ?_, ?_, ?_⟩
  · ext i j
    simp [Matrix.mul_apply, quadMat, block, onlyOne, Subsingleton.elim i j]
  · intro k
    ext i j
    simp [Matrix.mul_apply, rowMat, rowOf, onlyOne, Subsingleton.elim i j]
  · intro k
    ext i j
    simp [Matrix.mul_apply, colMat, columnOf, onlyOne, Subsingleton.elim i j]

/-! ### One more row and column -/

/-- One more bond, in its own basis. -/
def lift {ι : Type} [DecidableEq ι] {n : Nat} (A : Matrix (Fin n → ι) κ K) : Matrix (Fin (n + 1) → ι) (κ × ι) K :=
  fun x p => if x (Fin.last n) = p.2 then A (Fin.init x) p.1 else 0

omit [Fintype κ] [DecidableEq κ] in
theorem lift_snoc {ι : Type} [DecidableEq ι] {n : Nat} (A : Matrix (Fin n → ι) κ K) (x : Fin n → ι) (u : ι) (a : κ) (b : ι) :
    lift A (Fin.snoc x u) (a, b) = if u = b then A x a else 0 := by
  unfold lift
  rw [Fin.snoc_last, Fin.init_snoc]

/-- The last bonds fixed. -/
def cut {ι ι' : Type} {n : Nat} (X : Matrix (Fin (n + 1) → ι) (Fin (n + 1) → ι') K) (u : ι) (r : ι') : Matrix (Fin n → ι) (Fin n → ι') K :=
  fun x y => X (Fin.snoc x u) (Fin.snoc y r)

omit [Fintype κ] [DecidableEq κ] in
theorem lift_apply {ι ι' κ' : Type} [DecidableEq ι] [DecidableEq ι'] [Fintype ι] [Fintype ι'] {n : Nat} (A : Matrix (Fin n → ι) κ K)
    (B : Matrix (Fin n → ι') κ' K) (X : Matrix (Fin (n + 1) → ι) (Fin (n + 1) → ι') K) (a : κ) (u : ι) (b : κ') (r : ι') :
    ((lift A)ᵀ * X * lift B) (a, u) (b, r) = (Aᵀ * cut X u r * B) a b := by
  simp only [Matrix.mul_apply, Matrix.transpose_apply, cut]
  rw [sum_snoc]
  refine Finset.sum_congr rfl fun y _ => ?_
  simp only [lift_snoc, mul_ite, mul_zero, Finset.sum_ite_eq', Finset.mem_univ, if_true]
  congr 1
  rw [sum_snoc]
  refine Finset.sum_congr rfl fun x _ => ?_
  simp only [lift_snoc, ite_mul, zero_mul, Finset.sum_ite_eq', Finset.mem_univ, if_true]

theorem Ortho.lift {ι : Type} [DecidableEq ι] [Fintype ι] {n : Nat} {A : Matrix (Fin n → ι) κ K} (h : Ortho A) : Ortho (lift A) := by
  constructor
  · ext x x'
    rw [Matrix.mul_apply, Fintype.sum_prod_type]
    simp only [Matrix.transpose_apply, Open.lift, mul_ite, ite_mul, zero_mul, mul_zero]
    have e := congrFun (congrFun h.rows (Fin.init x)) (Fin.init x')
    rw [Matrix.mul_apply] at e
    simp only [Matrix.transpose_apply, Matrix.one_apply] at e
    by_cases hl : x (Fin.last n) = x' (Fin.last n)
    · rw [hl]
      simp only [Finset.sum_ite_eq, Finset.mem_univ, if_true, Matrix.one_apply]
      rw [e]
      have : Fin.init x = Fin.init x' ↔ x = x' := by
        constructor
        · intro hi
          rw [← Fin.snoc_init_self x, ← Fin.snoc_init_self x', hi, hl]
        · rintro rfl
          rfl
      simp only [this]
    · rw [Matrix.one_apply, if_neg (by rintro rfl; exact hl rfl)]
      refine Finset.sum_eq_zero fun a _ => Finset.sum_eq_zero fun u _ => ?_
      split
      · rename_i h1
        rw [if_neg fun h2 => hl (h2.trans h1.symm)]
      · rfl
  · ext ⟨a, u⟩ ⟨b, r⟩
    have := lift_apply A A 1 a u b r
    rw [Matrix.mul_one] at this
    rw [this]
    by_cases hu : u = r
    · subst hu
      have e : cut (1 : Matrix (Fin (n + 1) → ι) (Fin (n + 1) → ι) K) u u = 1 := by
        ext x y
        have : (Fin.snoc x u : Fin (n + 1) → ι) = Fin.snoc y u ↔ x = y := by
          constructor
          · intro h
            have := congrArg Fin.init h
            rwa [Fin.init_snoc, Fin.init_snoc] at this
          · rintro rfl
            rfl
        simp only [cut, Matrix.one_apply, this]
      rw [e, Matrix.mul_one, h.cols]
      simp [Matrix.one_apply]
    · have e : cut (1 : Matrix (Fin (n + 1) → ι) (Fin (n + 1) → ι) K) u r = 0 := by
        ext x y
        rw [cut, Matrix.one_apply, if_neg]
        · rfl
        · intro h
          have := congrFun h (Fin.last n)
          simp only [Fin.snoc_last] at this
          exact hu this
      rw [e]
      simp [Matrix.one_apply, hu]

theorem Ortho.mul {ι κ' : Type} [Fintype ι] [Fintype κ'] [DecidableEq ι] [DecidableEq κ'] {A : Matrix ι κ K} {P : Matrix κ κ' K}
    (h : Ortho A) (k : Ortho P) : Ortho (A * P) := by
  constructor
  · rw [Matrix.transpose_mul, Matrix.mul_assoc, ← Matrix.mul_assoc P, k.rows, Matrix.one_mul, h.rows]
  · rw [Matrix.transpose_mul, Matrix.mul_assoc, ← Matrix.mul_assoc Aᵀ, h.cols, Matrix.one_mul, k.cols]

/-- A row, a column and a quadrant with one more site, row and column. -/
def rowExt (v : α → Matrix κ κ K) (r : α) : Matrix (κ × β) (κ × β) K := fun p q => ∑ j, v j p.1 q.1 * w j r p.2 q.2
def colExt (h : β → Matrix κ κ K) (i : β) : Matrix (κ × α) (κ × α) K := fun p q => ∑ k, h k p.1 q.1 * w p.2 q.2 i k
def quadExt (c : κ → K) (v : α → Matrix κ κ K) (h : β → Matrix κ κ K) : Matrix (κ × β) (κ × α) K :=
  fun p q => ∑ j, ∑ k, (v j * diagonal c * h k) p.1 q.1 * w j q.2 p.2 k

omit [Fintype κ] [DecidableEq κ] in
theorem sum_smul_mul {ι ι' κ' : Type} [Fintype ι] [Fintype ι'] {n : Type} [Fintype n] (A : Matrix κ ι K) (B : Matrix ι' κ' K) (X : n → Matrix ι ι' K)
    (s : n → K) : A * (∑ j, s j • X j) * B = ∑ j, s j • (A * X j * B) := by
  rw [Matrix.mul_sum, Matrix.sum_mul]
  refine Finset.sum_congr rfl fun j _ => ?_
  rw [Matrix.mul_smul, Matrix.smul_mul]

variable {w}
variable {n : Nat} {sc sv sh : K} {c : κ → K} {v : α → Matrix κ κ K} {h : β → Matrix κ κ K} {A : Matrix (Fin n → β) κ K}
  {B : Matrix (Fin n → α) κ K}

theorem Level.row_ext (L : Level w n sc sv sh c v h A B) (r : α) :
    (lift A)ᵀ * rowMat w (n + 1) r * lift A = sv • rowExt w v r := by
  ext ⟨a, u⟩ ⟨b, e⟩
  rw [lift_apply]
  have e1 : cut (rowMat w (n + 1) r) u e =
      ∑ j, w j r u e • rowMat w n j := by
    ext x y
    simp only [cut, rowMat, rowOf, Fin.init_snoc, Fin.snoc_last, Matrix.sum_apply, Matrix.smul_apply, smul_eq_mul, mul_comm]
  rw [e1, sum_smul_mul]
  simp only [L.row, Matrix.sum_apply, Matrix.smul_apply, smul_eq_mul, rowExt, Finset.mul_sum]
  refine Finset.sum_congr rfl fun j _ => ?_
  ring

theorem Level.column_ext (L : Level w n sc sv sh c v h A B) (i : β) :
    (lift B)ᵀ * colMat w (n + 1) i * lift B = sh • colExt w h i := by
  ext ⟨a, u⟩ ⟨b, e⟩
  rw [lift_apply]
  have e1 : cut (colMat w (n + 1) i) u e =
      ∑ k, w u e i k • colMat w n k := by
    ext x y
    simp only [cut, colMat, columnOf, Fin.init_snoc, Fin.snoc_last, Matrix.sum_apply, Matrix.smul_apply, smul_eq_mul, mul_comm]
  rw [e1, sum_smul_mul]
  simp only [L.column, Matrix.sum_apply, Matrix.smul_apply, smul_eq_mul, colExt, Finset.mul_sum]
  refine Finset.sum_congr rfl fun j _ => ?_
  ring

omit [DecidableEq α] [DecidableEq β] in
theorem quad_snoc (n : Nat) (u : β) (r : α) :
    cut (quadMat w (n + 1)) u r =
      ∑ p : α × β, w p.1 r u p.2 • (rowMat w n p.1 * quadMat w n * colMat w n p.2) := by
  ext x y
  simp only [cut, quadMat, block_corner, Fin.init_snoc, Fin.snoc_last, Matrix.sum_apply, Matrix.smul_apply, smul_eq_mul, Matrix.mul_apply,
    rowMat, colMat, Finset.mul_sum, Finset.sum_mul]
  simp only [← Fintype.sum_prod_type']
  refine Fintype.sum_equiv ⟨fun p => ((p.2.1, p.2.2.1), p.1, p.2.2.2), fun p => (p.2.1, p.1.1, p.1.2, p.2.2), fun _ => rfl, fun _ => rfl⟩ _ _ fun p => ?_
  simp only [Equiv.coe_fn_mk]
  ring

theorem Level.between (L : Level w n sc sv sh c v h A B) (j : α) (k : β) :
    Aᵀ * (rowMat w n j * quadMat w n * colMat w n k) * B = (sc * sv * sh) • (v j * diagonal c * h k) := by
  have e : Aᵀ * (rowMat w n j * quadMat w n * colMat w n k) * B =
      (Aᵀ * rowMat w n j * A) * (Aᵀ * quadMat w n * B) * (Bᵀ * colMat w n k * B) := by
    have ha : ∀ {ι : Type} (X : Matrix (Fin n → β) ι K), A * (Aᵀ * X) = X := fun X => by
      rw [← Matrix.mul_assoc, L.a.rows, Matrix.one_mul]
    have hb : ∀ {ι : Type} (X : Matrix (Fin n → α) ι K), B * (Bᵀ * X) = X := fun X => by
      rw [← Matrix.mul_assoc, L.b.rows, Matrix.one_mul]
    simp only [Matrix.mul_assoc, ha, hb]
  rw [e, L.row, L.corner, L.column]
  simp only [Matrix.smul_mul, Matrix.mul_smul, smul_smul]
  congr 1
  ring

theorem Level.quad_ext (L : Level w n sc sv sh c v h A B) :
    (lift A)ᵀ * quadMat w (n + 1) * lift B = (sc * sv * sh) • quadExt w c v h := by
  ext ⟨a, u⟩ ⟨b, r⟩
  rw [lift_apply, quad_snoc, sum_smul_mul]
  simp only [L.between, Matrix.sum_apply, Matrix.smul_apply, smul_eq_mul, quadExt, Finset.mul_sum]
  rw [Fintype.sum_prod_type]
  refine Finset.sum_congr rfl fun j _ => Finset.sum_congr rfl fun k _ => ?_
  ring

/-- One step: the extended quadrant is factorised and the edges are rotated. -/
theorem Level.next {κ' : Type} [Fintype κ'] [DecidableEq κ'] (L : Level w n sc sv sh c v h A B) {P : Matrix (κ × β) κ' K} {Q : Matrix (κ × α) κ' K}
    {σ : κ' → K} (hP : Ortho P) (hQ : Ortho Q) (hc : quadExt w c v h = P * diagonal σ * Qᵀ) :
    Level w (n + 1) (sc * sv * sh) sv sh σ (fun r => Pᵀ * rowExt w v r * P) (fun i => Qᵀ * colExt w h i * Q) (lift A * P) (lift B * Q) := by
  refine ⟨L.a.lift.mul hP, L.b.lift.mul hQ, ?_, fun r => ?_, fun i => ?_⟩
  · have : (lift A * P)ᵀ * quadMat w (n + 1) * (lift B * Q) = Pᵀ * ((lift A)ᵀ * quadMat w (n + 1) * lift B) * Q := by
      rw [Matrix.transpose_mul]
      simp only [Matrix.mul_assoc]
    rw [this, L.quad_ext, hc]
    simp only [Matrix.mul_smul, Matrix.smul_mul]
    congr 1
    have h2 : Pᵀ * (P * diagonal σ * Qᵀ) * Q = (Pᵀ * P) * diagonal σ * (Qᵀ * Q) := by simp only [Matrix.mul_assoc]
    rw [h2, hP.cols, hQ.cols, Matrix.one_mul, Matrix.mul_one]
  · have : (lift A * P)ᵀ * rowMat w (n + 1) r * (lift A * P) = Pᵀ * ((lift A)ᵀ * rowMat w (n + 1) r * lift A) * P := by
      rw [Matrix.transpose_mul]
      simp only [Matrix.mul_assoc]
    rw [this, L.row_ext]
    simp only [Matrix.mul_smul, Matrix.smul_mul]
  · have : (lift B * Q)ᵀ * colMat w (n + 1) i * (lift B * Q) = Qᵀ * ((lift B)ᵀ * colMat w (n + 1) i * lift B) * Q := by
      rw [Matrix.transpose_mul]
      simp only [Matrix.mul_assoc]
    rw [this, L.column_ext]
    simp only [Matrix.mul_smul, Matrix.smul_mul]

/-! ### The partition function -/

theorem trace_pair {ι ι' : Type} [Fintype ι] [Fintype ι'] (X Y : Matrix ι ι' K) : ∑ x, ∑ y, X x y * Y x y = (X * Yᵀ).trace := by
  simp only [Matrix.trace, Matrix.diag, Matrix.mul_apply, Matrix.transpose_apply]

omit [DecidableEq α] [DecidableEq β] in
theorem even_trace (n : Nat) :
    partition (n + n) w = (quadMat w n * (quadMat w n)ᵀ * (quadMat w n * (quadMat w n)ᵀ)).trace := by
  rw [partition_blocks w (by omega)]
  have := trace_pair (quadMat w n * (quadMat w n)ᵀ) (quadMat w n * (quadMat w n)ᵀ)
  rw [Matrix.transpose_mul, Matrix.transpose_transpose] at this
  rw [← this]
  rfl

omit [DecidableEq α] [DecidableEq β] in
theorem odd_trace (n : Nat) :
    partition (n + 1 + n) w = ∑ j, ∑ k, ∑ r, ∑ q, w j r q k * (rowMat w n j * quadMat w n * colMat w n k * (rowMat w n r * quadMat w n)ᵀ *
      (quadMat w n * colMat w n q * (quadMat w n)ᵀ)ᵀ).trace := by
  rw [partition_blocks w (by omega), sum_snoc]
  simp only [← trace_pair]
  have e1 : ∀ (x : Fin n → β) (q : β) (y : Fin n → α) (r : α), block w (n + 1) (n + 1) (Fin.snoc x q) (Fin.snoc y r) =
      ∑ p : α × β, w p.1 r q p.2 * (rowMat w n p.1 * quadMat w n * colMat w n p.2) x y := by
    intro x q y r
    have := congrFun (congrFun (quad_snoc (w := w) n q r) x) y
    rw [Matrix.sum_apply] at this
    exact this
  have e2 : ∀ (x' : Fin n → β) (y : Fin n → α) (r : α), block w n (n + 1) x' (Fin.snoc y r) = (rowMat w n r * quadMat w n) x' y := by
    intro x' y r
    simp only [block, Fin.init_snoc, Fin.snoc_last, Matrix.mul_apply, rowMat, quadMat, mul_comm]
  have e3 : ∀ (x : Fin n → β) (q : β) (y : Fin n → α), block w (n + 1) n (Fin.snoc x q) y = (quadMat w n * colMat w n q) x y := by
    intro x q y
    simp only [block_column, Fin.init_snoc, Fin.snoc_last, Matrix.mul_apply, colMat, quadMat]
  have e4 : ∀ (x : Fin n → β) (q : β) (x' : Fin n → β), ∑ y, block w (n + 1) n (Fin.snoc x q) y * block w n n x' y =
      (quadMat w n * colMat w n q * (quadMat w n)ᵀ) x x' := by
    intro x q x'
    simp only [e3]
    rfl
  have e5 : ∀ (x : Fin n → β) (q : β) (x' : Fin n → β), ∑ y, block w (n + 1) (n + 1) (Fin.snoc x q) y * block w n (n + 1) x' y =
      ∑ j, ∑ k, ∑ r, w j r q k * (rowMat w n j * quadMat w n * colMat w n k * (rowMat w n r * quadMat w n)ᵀ) x x' := by
    intro x q x'
    rw [sum_snoc]
    simp only [e1, e2]
    have e6 : ∀ j k r, (rowMat w n j * quadMat w n * colMat w n k * (rowMat w n r * quadMat w n)ᵀ) x x' =
        ∑ y, (rowMat w n j * quadMat w n * colMat w n k) x y * (rowMat w n r * quadMat w n) x' y := fun j k r => rfl
    simp only [e6, Finset.mul_sum, Finset.sum_mul]
    simp only [← Fintype.sum_prod_type']
    refine Fintype.sum_equiv ⟨fun p => (p.2.2.1, p.2.2.2, p.2.1, p.1), fun p => (p.2.2.2, p.2.2.1, p.1, p.2.1), fun _ => rfl, fun _ => rfl⟩ _ _ fun p => ?_
    simp only [Equiv.coe_fn_mk]
    ring
  simp only [e4, e5, Finset.mul_sum, Finset.sum_mul]
  simp only [← Fintype.sum_prod_type']
  refine Fintype.sum_equiv ⟨fun p => (p.2.2.2.1, p.2.2.2.2.1, p.2.2.2.2.2, p.2.1, p.1, p.2.2.1),
    fun p => (p.2.2.2.2.1, p.2.2.2.1, p.2.2.2.2.2, p.1, p.2.1, p.2.2.1), fun _ => rfl, fun _ => rfl⟩ _ _ fun p => ?_
  simp only [Equiv.coe_fn_mk]
  ring

theorem Level.quad_eq (L : Level w n sc sv sh c v h A B) : quadMat w n = sc • (A * diagonal c * Bᵀ) := by
  have ha : ∀ {ι : Type} (X : Matrix (Fin n → β) ι K), A * (Aᵀ * X) = X := fun X => by
    rw [← Matrix.mul_assoc, L.a.rows, Matrix.one_mul]
  have e : quadMat w n = A * (Aᵀ * quadMat w n * B) * Bᵀ := by
    simp only [Matrix.mul_assoc, ha, L.b.rows, Matrix.mul_one]
  rw [e, L.corner]
  simp only [Matrix.mul_smul, Matrix.smul_mul]

theorem Level.row_eq (L : Level w n sc sv sh c v h A B) (j : α) : rowMat w n j = sv • (A * v j * Aᵀ) := by
  have ha : ∀ {ι : Type} (X : Matrix (Fin n → β) ι K), A * (Aᵀ * X) = X := fun X => by
    rw [← Matrix.mul_assoc, L.a.rows, Matrix.one_mul]
  have e : rowMat w n j = A * (Aᵀ * rowMat w n j * A) * Aᵀ := by
    simp only [Matrix.mul_assoc, ha, L.a.rows, Matrix.mul_one]
  rw [e, L.row]
  simp only [Matrix.mul_smul, Matrix.smul_mul]

theorem Level.column_eq (L : Level w n sc sv sh c v h A B) (i : β) : colMat w n i = sh • (B * h i * Bᵀ) := by
  have ha : ∀ {ι : Type} (X : Matrix (Fin n → α) ι K), B * (Bᵀ * X) = X := fun X => by
    rw [← Matrix.mul_assoc, L.b.rows, Matrix.one_mul]
  have e : colMat w n i = B * (Bᵀ * colMat w n i * B) * Bᵀ := by
    simp only [Matrix.mul_assoc, ha, L.b.rows, Matrix.mul_one]
  rw [e, L.column]
  simp only [Matrix.mul_smul, Matrix.smul_mul]

theorem trace_rotated {ι : Type} [Fintype ι] [DecidableEq ι] {A : Matrix ι κ K} (h : Aᵀ * A = 1) (X : Matrix κ κ K) :
    (A * X * Aᵀ).trace = X.trace := by
  rw [Matrix.trace_mul_comm, ← Matrix.mul_assoc, h, Matrix.one_mul]

theorem Level.even (L : Level w n sc sv sh c v h A B) : partition (n + n) w = sc ^ 4 * ∑ i, c i ^ 4 := by
  have ha : ∀ {ι : Type} (X : Matrix κ ι K), Aᵀ * (A * X) = X := fun X => by
    rw [← Matrix.mul_assoc, L.a.cols, Matrix.one_mul]
  have hb : ∀ {ι : Type} (X : Matrix κ ι K), Bᵀ * (B * X) = X := fun X => by
    rw [← Matrix.mul_assoc, L.b.cols, Matrix.one_mul]
  rw [even_trace, L.quad_eq]
  have e : sc • (A * diagonal c * Bᵀ) * (sc • (A * diagonal c * Bᵀ))ᵀ * (sc • (A * diagonal c * Bᵀ) * (sc • (A * diagonal c * Bᵀ))ᵀ) =
      (sc ^ 4) • (A * (diagonal c * diagonal c * diagonal c * diagonal c) * Aᵀ) := by
    simp only [Matrix.transpose_smul, Matrix.transpose_mul, Matrix.transpose_transpose, Matrix.diagonal_transpose, Matrix.mul_smul,
      Matrix.smul_mul, smul_smul, Matrix.mul_assoc, ha, hb]
    congr 1
    ring
  rw [e, Matrix.trace_smul, trace_rotated L.a.cols]
  simp only [Matrix.diagonal_mul_diagonal, Matrix.trace_diagonal, smul_eq_mul]
  congr 1
  refine Finset.sum_congr rfl fun i _ => ?_
  ring

theorem Level.odd (L : Level w n sc sv sh c v h A B) : partition (n + 1 + n) w = sc ^ 4 * sh ^ 2 * sv ^ 2 *
    ∑ j, ∑ k, ∑ r, ∑ q, w j r q k * (v j * diagonal c * h k * diagonal c * (v r)ᵀ * diagonal c * (h q)ᵀ * diagonal c).trace := by
  have ha : ∀ {ι : Type} (X : Matrix κ ι K), Aᵀ * (A * X) = X := fun X => by
    rw [← Matrix.mul_assoc, L.a.cols, Matrix.one_mul]
  have hb : ∀ {ι : Type} (X : Matrix κ ι K), Bᵀ * (B * X) = X := fun X => by
    rw [← Matrix.mul_assoc, L.b.cols, Matrix.one_mul]
  rw [odd_trace]
  simp only [Finset.mul_sum]
  refine Finset.sum_congr rfl fun j _ => Finset.sum_congr rfl fun k _ => Finset.sum_congr rfl fun r _ => Finset.sum_congr rfl fun q _ => ?_
  have e : rowMat w n j * quadMat w n * colMat w n k * (rowMat w n r * quadMat w n)ᵀ * (quadMat w n * colMat w n q * (quadMat w n)ᵀ)ᵀ =
      (sc ^ 4 * sh ^ 2 * sv ^ 2) • (A * (v j * diagonal c * h k * diagonal c * (v r)ᵀ * diagonal c * (h q)ᵀ * diagonal c) * Aᵀ) := by
    rw [L.row_eq, L.row_eq, L.quad_eq, L.column_eq, L.column_eq]
    simp only [Matrix.transpose_smul, Matrix.transpose_mul, Matrix.transpose_transpose, Matrix.diagonal_transpose, Matrix.mul_smul,
      Matrix.smul_mul, smul_smul, Matrix.mul_assoc, ha, hb]
    congr 1
    ring
  rw [e, Matrix.trace_smul, trace_rotated L.a.cols, smul_eq_mul]
  ring

theorem partition_one : partition 1 w = ∑ l, ∑ r, ∑ u, ∑ d, w l r u d := by
  have := odd_trace (w := w) 0
  refine this.trans ?_
  have e : ∀ j k r q, (rowMat w 0 j * quadMat w 0 * colMat w 0 k * (rowMat w 0 r * quadMat w 0)ᵀ * (quadMat w 0 * colMat w 0 q * (quadMat w 0)ᵀ)ᵀ).trace = 1 := by
    intro j k r q
    simp [Matrix.trace, Matrix.mul_apply, rowMat, colMat, quadMat, rowOf, columnOf, block]
  simp only [e, mul_one]
  simp only [← Fintype.sum_prod_type']
  exact Fintype.sum_equiv ⟨fun p => (p.1, p.2.2.1, p.2.2.2, p.2.1), fun p => (p.1, p.2.2.2, p.2.1, p.2.2.1), fun _ => rfl, fun _ => rfl⟩ _ _ fun p => rfl

end Open
end CTL
