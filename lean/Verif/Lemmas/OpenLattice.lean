import Mathlib.LinearAlgebra.Matrix.DotProduct
import Mathlib.Data.Matrix.Mul
import Mathlib.Algebra.BigOperators.Fin
import Mathlib.Algebra.BigOperators.Ring.Finset
import Mathlib.Data.Fin.Tuple.Basic
import Mathlib.Tactic.Ring
import Verif.Spec.OpenLattice

/-! The open lattice as four quadrants. -/

namespace CTL
namespace Open
open Matrix
variable {K ι α β : Type} [CommSemiring K] [Fintype ι] [Fintype α] [Fintype β]

/-! ### Chains -/

/-- A row vector of ones, multiplied by the first `n` matrices. -/
def vec (T : Nat → Matrix ι ι K) : Nat → ι → K
  | 0 => fun _ => 1
  | n + 1 => vec T n ᵥ* T n

theorem vec_congr {T T' : Nat → Matrix ι ι K} : ∀ {n : Nat}, (∀ i < n, T i = T' i) → vec T n = vec T' n
  | 0, _ => rfl
  | n + 1, h => by
    rw [vec, vec, vec_congr fun i hi => h i (hi.trans n.lt_succ_self), h n n.lt_succ_self]

/-- Sum over functions of `n + 1` arguments: the last value separately. -/
theorem sum_snoc {n : Nat} (f : (Fin (n + 1) → ι) → K) : ∑ v, f v = ∑ b : Fin n → ι, ∑ x : ι, f (Fin.snoc b x) := by
  rw [← (Fin.snocEquiv fun _ : Fin (n + 1) => ι).sum_comp, Fintype.sum_prod_type, Finset.sum_comm]
  rfl

theorem chain_vec (T : Nat → Matrix ι ι K) : ∀ (n : Nat) (g : ι → K),
    ∑ v : Fin (n + 1) → ι, (∏ i : Fin n, T i (v i.castSucc) (v i.succ)) * g (v (Fin.last n)) = vec T n ⬝ᵥ g
  | 0, g => by
    simp only [Finset.univ_eq_empty, Finset.prod_empty, one_mul, vec, dotProduct]
    rw [sum_snoc]
    simp only [Finset.univ_unique, Finset.sum_singleton, one_mul]
    rfl
  | n + 1, g => by
    rw [sum_snoc]
    have := chain_vec T n (T n *ᵥ g)
    rw [vec, ← Matrix.dotProduct_mulVec, ← this]
    refine Finset.sum_congr rfl fun v _ => ?_
    simp only [Matrix.mulVec, dotProduct, Finset.mul_sum]
    refine Finset.sum_congr rfl fun x _ => ?_
    rw [Fin.prod_univ_castSucc]
    simp only [Fin.val_castSucc, Fin.snoc_castSucc, Fin.val_last, Fin.succ_last, Fin.snoc_last, Fin.succ_castSucc]
    ring

/-- A chain cut in two. -/
theorem vec_cut (T : Nat → Matrix ι ι K) (n : Nat) : ∀ (m : Nat) (T' : Nat → Matrix ι ι K),
    (∀ i < m, T' i = (T (n + m - 1 - i))ᵀ) → vec T (n + m) ⬝ᵥ (fun _ => 1) = vec T n ⬝ᵥ vec T' m := by
  intro m T' h
  suffices H : ∀ k ≤ m, vec T (n + m) ⬝ᵥ (fun _ => 1) = vec T (n + (m - k)) ⬝ᵥ vec T' k by
    have := H m le_rfl
    rwa [Nat.sub_self, Nat.add_zero] at this
  intro k
  induction k with
  | zero => intro _; rfl
  | succ k ih =>
    intro hk
    rw [ih (Nat.le_of_succ_le hk)]
    obtain ⟨j, hj⟩ : ∃ j, m - k = j + 1 := ⟨m - k - 1, by omega⟩
    have e1 : m - (k + 1) = j := by omega
    rw [hj, e1, ← Nat.add_assoc, vec, ← Matrix.dotProduct_mulVec, vec]
    congr 1
    rw [h k (by omega), Matrix.vecMul_transpose]
    congr 2
    omega

/-! ### Blocks of sites -/

variable (w : α → α → β → β → K)

omit [Fintype ι] [Fintype α] [Fintype β] in
theorem sum_cross {A B C D : Type} [Fintype A] [Fintype B] [Fintype C] [Fintype D] (f : A → C → K) (g : C → B → K) (p : A → D → K)
    (q : D → B → K) : ∑ a, ∑ b, (∑ c, f a c * g c b) * (∑ d, p a d * q d b) =
      ∑ c, ∑ d, (∑ a, f a c * p a d) * (∑ b, g c b * q d b) := by
  simp only [Finset.sum_mul_sum]
  simp only [← Fintype.sum_prod_type']
  refine Fintype.sum_equiv ⟨fun x => (x.2.2.1, x.2.2.2, x.1, x.2.1), fun x => (x.2.2.1, x.2.2.2, x.1, x.2.1), fun _ => rfl, fun _ => rfl⟩
    _ _ fun x => ?_
  simp only [Equiv.coe_fn_mk]
  ring

/-- A column more. -/
theorem block_column (m : Nat) : ∀ (k : Nat) (x : Fin (m + 1) → β) (y : Fin k → α),
    block w (m + 1) k x y = ∑ y0, block w m k (Fin.init x) y0 * columnOf w k y0 y (x (Fin.last m))
  | 0, x, y => by simp [block, columnOf]
  | k + 1, x, y => by
    rw [block, sum_snoc, sum_snoc]
    simp only [block_column m k, block, columnOf, rowOf, Fin.init_snoc, Fin.snoc_last]
    exact sum_cross _ _ _ (fun d b => w d _ _ b)

/-- A row and a column more. -/
theorem block_corner (m k : Nat) (x : Fin (m + 1) → β) (y : Fin (k + 1) → α) :
    block w (m + 1) (k + 1) x y = ∑ y0, ∑ j, (∑ x0, block w m k x0 y0 * rowOf w m (Fin.init x) x0 j) *
      ∑ i, columnOf w k y0 (Fin.init y) i * w j (y (Fin.last k)) (x (Fin.last m)) i := by
  rw [block_column, sum_snoc]
  simp only [block, columnOf, Fin.init_snoc, Fin.snoc_last]

/-! ### The lattice -/

/-- The first bonds of a row. -/
def lo {n m : Nat} (a : Fin (n + m) → ι) : Fin n → ι := fun i => a (Fin.castAdd m i)

/-- The last bonds of a row, from the right. -/
def hi {n m : Nat} (a : Fin (n + m) → ι) : Fin m → ι := fun i => a (Fin.natAdd n i.rev)

theorem sum_halves {n m : Nat} (f : (Fin n → ι) → (Fin m → ι) → K) : ∑ a : Fin (n + m) → ι, f (lo a) (hi a) = ∑ x, ∑ x', f x x' := by
  rw [← (Fin.appendEquiv n m).sum_comp, Fintype.sum_prod_type]
  refine Finset.sum_congr rfl fun x _ => ?_
  refine Fintype.sum_equiv (Equiv.arrowCongr Fin.revPerm (Equiv.refl ι)) _ _ fun x' => ?_
  congr 1
  · funext i
    simp [lo, Fin.appendEquiv]
  · funext i
    simp [hi, Fin.appendEquiv]

/-- A row of sites, those beyond the first `n` read from right to left. -/
def fullRow (n m : Nat) : Matrix (Fin (n + m) → β) (Fin (n + m) → β) K :=
  fun a b => ∑ j, rowOf w n (lo b) (lo a) j * rowOf w m (hi b) (hi a) j

theorem rows_block (n m : Nat) : ∀ (k : Nat) (a : Fin (n + m) → β),
    vec (fun _ => fullRow w n m) k a = ∑ y, block w n k (lo a) y * block w m k (hi a) y
  | 0, a => by simp [vec, block]
  | k + 1, a => by
    rw [vec, Matrix.vecMul, dotProduct, sum_snoc]
    simp only [rows_block n m k, block, Fin.init_snoc, Fin.snoc_last]
    simp only [fullRow]
    rw [sum_halves (fun x x' => (∑ y, block w n k x y * block w m k x' y) * ∑ j, rowOf w n (lo a) x j * rowOf w m (hi a) x' j)]
    exact sum_cross _ (fun c b => block w m k b c) _ (fun d b => rowOf w m _ b d)

omit [Fintype α] [Fintype β] in
/-- A site with given bonds above and below. -/
def siteMat (u d : β) : Matrix α α K := fun l r => w l r u d

omit [Fintype β] in
theorem vec_row : ∀ (n : Nat) (b a : Fin n → β) (T : Nat → Matrix α α K), (∀ i : Fin n, T i = siteMat w (b i) (a i)) →
    vec T n = rowOf w n b a
  | 0, _, _, _, _ => rfl
  | n + 1, b, a, T, h => by
    rw [vec, vec_row n (Fin.init b) (Fin.init a) T fun i => h i.castSucc]
    funext r
    rw [rowOf, Matrix.vecMul, dotProduct]
    refine Finset.sum_congr rfl fun j _ => ?_
    have := h (Fin.last n)
    rw [Fin.val_last] at this
    rw [this]
    rfl

/-- The sum over the bonds of a row. -/
theorem row_sum {n m : Nat} (a b : Fin (n + m) → β) :
    ∑ h : Fin (n + m + 1) → α, ∏ x : Fin (n + m), w (if (x : Nat) < n then h x.castSucc else h x.succ)
      (if (x : Nat) < n then h x.succ else h x.castSucc) (b x) (a x) = fullRow w n m a b := by
  let T : Nat → Matrix α α K := fun i => if hi : i < n + m then
    if i < n then siteMat w (b ⟨i, hi⟩) (a ⟨i, hi⟩) else (siteMat w (b ⟨i, hi⟩) (a ⟨i, hi⟩))ᵀ else 0
  have e := chain_vec T (n + m) fun _ => 1
  simp only [mul_one] at e
  refine Eq.trans ?_ (e.trans ?_)
  · refine Finset.sum_congr rfl fun h _ => Finset.prod_congr rfl fun x _ => ?_
    simp only [T, dif_pos x.isLt]
    by_cases hx : (x : Nat) < n
    · simp only [if_pos hx]
      rfl
    · simp only [if_neg hx]
      rfl
  · let T' : Nat → Matrix α α K := fun i => (T (n + m - 1 - i))ᵀ
    rw [vec_cut T n m T' fun _ _ => rfl, vec_row w n (lo b) (lo a) T ?_, vec_row w m (hi b) (hi a) T' ?_]
    · rfl
    · intro i
      have h1 : n + m - 1 - (i : Nat) < n + m := by omega
      have h2 : ¬ n + m - 1 - (i : Nat) < n := by omega
      simp only [T', T, dif_pos h1, if_neg h2, Matrix.transpose_transpose]
      have : (⟨n + m - 1 - (i : Nat), h1⟩ : Fin (n + m)) = Fin.natAdd n i.rev := by
        apply Fin.ext
        simp only [Fin.val_natAdd, Fin.val_rev]
        omega
      rw [this]
      rfl
    · intro i
      have h1 : (i : Nat) < n + m := by omega
      simp only [T, dif_pos h1, if_pos i.isLt]
      rfl

theorem partition_blocks {n m : Nat} (hn : (n + m + 1) / 2 = n) :
    partition (n + m) w = ∑ x, ∑ x', (∑ y, block w n n x y * block w m n x' y) * (∑ y, block w n m x y * block w m m x' y) := by
  let T : Nat → Matrix (Fin (n + m) → β) (Fin (n + m) → β) K := fun i => if i < n then fullRow w n m else (fullRow w n m)ᵀ
  have e1 : partition (n + m) w = vec T (n + m) ⬝ᵥ fun _ => 1 := by
    have e := chain_vec T (n + m) fun _ => 1
    simp only [mul_one] at e
    rw [← e]
    unfold partition
    refine Fintype.sum_equiv (Equiv.piComm fun _ _ => β) _ _ fun v => ?_
    have := (Finset.prod_univ_sum (fun _ : Fin (n + m) => (Finset.univ : Finset (Fin (n + m + 1) → α)))
      fun y h => ∏ x : Fin (n + m), weight (n + m) w x y (h x.castSucc) (h x.succ) (v x y.succ) (v x y.castSucc)).symm
    rw [Fintype.piFinset_univ] at this
    refine this.trans (Finset.prod_congr rfl fun y _ => ?_)
    unfold weight
    rw [hn]
    simp only [T]
    by_cases hy : (y : Nat) < n
    · simp only [if_pos hy]
      exact row_sum w (fun x => v x y.castSucc) (fun x => v x y.succ)
    · simp only [if_neg hy]
      exact row_sum w (fun x => v x y.succ) (fun x => v x y.castSucc)
  rw [e1, vec_cut T n m (fun _ => fullRow w n m) ?_, vec_congr (T' := fun _ => fullRow w n m) fun i hi => if_pos hi]
  · simp only [dotProduct, rows_block]
    exact sum_halves (fun x x' => (∑ y, block w n n x y * block w m n x' y) * ∑ y, block w n m x y * block w m m x' y)
  · intro i hi
    simp only [T]
    rw [if_neg (by omega), Matrix.transpose_transpose]

end Open
end CTL
