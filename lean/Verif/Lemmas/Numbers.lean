import Verif.Lemmas.Funcs
import Mathlib.Data.Nat.Choose.Sum
import Mathlib.Data.Nat.Factorial.BigOperators
import Mathlib.Algebra.BigOperators.Ring.Finset
import Mathlib.Algebra.Order.Archimedean.Basic

/-! Helper lemmas about the number utilities of `funcs.py`. -/

namespace CTL

/-! ### digits -/

theorem fdiv_fmod_pos (x m : Int) (hm : 0 < m) :
    pyDivMod x m = .ok (x / m, x % m) := by
  unfold pyDivMod
  rw [if_neg (by omega), Int.fdiv_eq_ediv_of_nonneg _ hm.le, Int.fmod_eq_emod_of_nonneg _ hm.le]

/-- Value of a little-endian base-`D` digit list. -/
def fromDigits (D : Int) : List Int → Int
  | [] => 0
  | d :: ds => d + D * fromDigits D ds

theorem intToDBaseTuple_succ (x : Int) (dim : Nat) (D : Int) (hD : 0 < D) :
    intToDBaseTuple x (dim + 1) D =
      (intToDBaseTuple (x / D) dim D).map (fun rest => (x % D) :: rest) := by
  rw [intToDBaseTuple, fdiv_fmod_pos x D hD]
  cases h : intToDBaseTuple (x / D) dim D <;> simp [h, Except.map, bind, Except.bind]

theorem intToBitList_eq (x : Int) (dim : Nat) :
    intToDBaseTuple x dim 2 = .ok (intToBitList x dim) := by
  induction dim generalizing x with
  | zero => rfl
  | succ dim ih =>
    rw [intToDBaseTuple_succ _ _ _ (by norm_num), ih, intToBitList,
      Int.fdiv_eq_ediv_of_nonneg _ (by norm_num), Int.fmod_eq_emod_of_nonneg _ (by norm_num)]
    rfl

/-! ### myComb -/

theorem myComb_product (n p : Nat) :
    (List.range p).foldl (fun (res : Int) (i : Nat) => res * ((n : Int) - (i : Int))) 1
      = ((n.descFactorial p : Nat) : Int) := by
  induction p with
  | zero => simp
  | succ p ih =>
    rw [List.range_succ, List.foldl_append, ih]
    simp only [List.foldl_cons, List.foldl_nil]
    rw [Nat.descFactorial_succ]
    by_cases h : p ≤ n
    · push_cast [Nat.cast_sub h]; ring
    · have : n.descFactorial p = 0 := Nat.descFactorial_eq_zero_iff_lt.mpr (by omega)
      simp [this]

theorem myComb_div (m p : Nat) :
    (List.range p).foldl (fun (res : Int) (i : Nat) => Int.fdiv res ((i : Int) + 1)) (m : Int)
      = ((m / p.factorial : Nat) : Int) := by
  induction p with
  | zero => simp
  | succ p ih =>
    rw [List.range_succ, List.foldl_append, ih]
    simp only [List.foldl_cons, List.foldl_nil]
    rw [Int.fdiv_eq_ediv_of_nonneg _ (by positivity), Nat.factorial_succ, Nat.mul_comm,
      ← Nat.div_div_eq_div_mul]
    norm_cast

theorem myComb_eq_choose (n p : Nat) : myComb n p = (n.choose p : Nat) := by
  unfold myComb
  rw [myComb_product, myComb_div, Nat.choose_eq_descFactorial_div_factorial]

/-! ### calculateDivisionTimes -/

theorem calculateDivisionTimes_loop (d : List Nat) (r : Int) :
    (d.foldl (fun (st : Int × Int) p => (st.1 * myComb st.2 p, st.2 - p))
      (r, ((d.sum : Nat) : Int))).1 = r * calculateDivisionTimes d := by
  have key : ∀ (d : List Nat) (r n : Int),
      (d.foldl (fun (st : Int × Int) p => (st.1 * myComb st.2 p, st.2 - p)) (r, n)).1 =
      r * (d.foldl (fun (st : Int × Int) p => (st.1 * myComb st.2 p, st.2 - p)) (1, n)).1 := by
    intro d
    induction d with
    | nil => intro r n; simp
    | cons p d ih =>
      intro r n
      simp only [List.foldl_cons]
      rw [ih (r * myComb n p), ih (1 * myComb n p)]
      ring
  exact key d r _

theorem calculateDivisionTimes_nil : calculateDivisionTimes [] = 1 := rfl

theorem calculateDivisionTimes_cons (p : Nat) (d : List Nat) :
    calculateDivisionTimes (p :: d) = ((p + d.sum).choose p : Nat) * calculateDivisionTimes d := by
  rw [← calculateDivisionTimes_loop, calculateDivisionTimes, List.sum_cons, List.foldl_cons]
  simp only [one_mul]
  rw [myComb_eq_choose]
  congr 3
  push_cast; ring

/-! ### divideIntoKParts -/

theorem mapM_option_some {β γ : Type _} (l : List β) (f : β → Option γ) (g : β → γ)
    (h : ∀ x ∈ l, f x = some (g x)) : l.mapM f = some (l.map g) := by
  induction l with
  | nil => rfl
  | cons a l ih =>
    rw [List.mapM_cons, h a (by simp), ih (fun x hx => h x (by simp [hx]))]
    rfl

/-- The list of all compositions, written without the option layer. -/
def partsList : Nat → Nat → List (List Nat)
  | _, 0 => []
  | n, 1 => [[n]]
  | n, k + 2 => (List.range (n + 1)).flatMap (fun i => (partsList (n - i) (k + 1)).map (fun p => i :: p))

theorem divideIntoKParts_eq (k n : Nat) (hk : 1 ≤ k) :
    divideIntoKParts n k = some (partsList n k) := by
  induction k generalizing n with
  | zero => omega
  | succ k ih =>
    cases k with
    | zero => rfl
    | succ k =>
      rw [divideIntoKParts, partsList,
        mapM_option_some _ _ (fun i => (partsList (n - i) (k + 1)).map (fun p => i :: p))]
      · rfl
      · intro i _
        rw [ih _ (by omega)]
        rfl

/-! ### binary search -/

section
variable {K : Type _} [Field K] [LinearOrder K] [IsStrictOrderedRing K]

theorem binarySearchLoop_spec (P : K → Bool) (eps : K) (fuel : Nat) :
    ∀ l r : K, l < r → r - l ≤ eps * 2 ^ fuel → 0 < eps →
      ∃ l' r' : K, binarySearchLoop P eps (fuel + 1) l r ((1 / 2) * (l + r))
          = some ((1 / 2) * (l' + r')) ∧
        l ≤ l' ∧ l' < r' ∧ r' ≤ r ∧ r' - l' ≤ eps ∧
        (l' = l ∨ P l' = false) ∧ (r' = r ∨ P r' = true) := by
  induction fuel with
  | zero =>
    intro l r hlr hle _
    refine ⟨l, r, ?_, le_refl _, hlr, le_refl _, by simpa using hle, Or.inl rfl, Or.inl rfl⟩
    rw [binarySearchLoop, if_neg]
    simpa using hle
  | succ fuel ih =>
    intro l r hlr hle heps
    rw [binarySearchLoop]
    by_cases hgt : r - l > eps
    · rw [if_pos hgt]
      have hm1 : l < (1 / 2) * (l + r) := by linarith
      have hm2 : (1 / 2) * (l + r) < r := by linarith
      rw [pow_succ] at hle
      by_cases hP : P ((1 / 2) * (l + r)) = true
      · rw [if_pos hP]
        obtain ⟨l', r', h1, h2, h3, h4, h5, h6, h7⟩ := ih l ((1 / 2) * (l + r)) hm1
          (by linarith) heps
        refine ⟨l', r', h1, h2, h3, by linarith, h5, h6, ?_⟩
        rcases h7 with h7 | h7
        · right; rw [h7]; exact hP
        · right; exact h7
      · rw [if_neg hP]
        obtain ⟨l', r', h1, h2, h3, h4, h5, h6, h7⟩ := ih ((1 / 2) * (l + r)) r hm2
          (by linarith) heps
        refine ⟨l', r', h1, by linarith, h3, h4, h5, ?_, h7⟩
        rcases h6 with h6 | h6
        · right; rw [h6]; simpa using hP
        · right; exact h6
    · rw [if_neg hgt]
      exact ⟨l, r, rfl, le_refl _, hlr, le_refl _, by linarith [not_lt.mp hgt], Or.inl rfl, Or.inl rfl⟩

omit [IsStrictOrderedRing K] in
theorem binarySearchLoop_mono (P : K → Bool) (eps : K) (f : Nat) :
    ∀ (f' : Nat) (l r m : K) (x : K), f ≤ f' → binarySearchLoop P eps f l r m = some x →
      binarySearchLoop P eps f' l r m = some x := by
  induction f with
  | zero => intro f' l r m x _ h; simp [binarySearchLoop] at h
  | succ f ih =>
    intro f' l r m x hle h
    obtain ⟨g, rfl⟩ : ∃ g, f' = g + 1 := ⟨f' - 1, by omega⟩
    rw [binarySearchLoop] at h ⊢
    split
    · rename_i h1
      rw [if_pos h1] at h
      split
      · rename_i h2
        rw [if_pos h2] at h
        exact ih g _ _ _ _ (by omega) h
      · rename_i h2
        rw [if_neg h2] at h
        exact ih g _ _ _ _ (by omega) h
    · rename_i h1
      rw [if_neg h1] at h
      exact h

theorem binarySearchLoop_diverges (P : K → Bool) (eps : K) (heps : eps ≤ 0) (fuel : Nat) :
    ∀ l r : K, l < r → binarySearchLoop P eps fuel l r ((1 / 2) * (l + r)) = none := by
  induction fuel with
  | zero => intro l r _; rfl
  | succ fuel ih =>
    intro l r hlr
    rw [binarySearchLoop, if_pos (by linarith)]
    split
    · exact ih _ _ (by linarith)
    · exact ih _ _ (by linarith)

end

end CTL
