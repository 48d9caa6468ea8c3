import Verif.Spec.Torus
import Mathlib.Algebra.BigOperators.Ring.Finset
import Mathlib.Algebra.BigOperators.Fin
import Mathlib.Logic.Equiv.Fin.Basic
import Mathlib.Tactic.Ring

/-! Coarse graining of a periodic lattice, with any finite types as rows, columns and indices. -/

namespace CTL
variable {R : Type} [CommSemiring R]

section
variable {I J V H : Type} [Fintype I] [Fintype J] [Fintype V] [Fintype H] [DecidableEq I] [DecidableEq J]
  [DecidableEq V] [DecidableEq H]

/-- The lattice with rows `I`, the row below `i` being `s i`, and columns `J`, the column right of `j` being `t j`. -/
def lattice (s : I → I) (t : J → J) (T : V → H → V → H → R) : R :=
  ∑ v : I → J → V, ∑ h : I → J → H, ∏ i, ∏ j, T (v i j) (h i j) (v (s i) j) (h i (t j))

theorem lattice_transpose (s : I → I) (t : J → J) (T : V → H → V → H → R) :
    lattice t s (fun l u r d => T u l d r) = lattice s t T := by
  unfold lattice
  rw [Finset.sum_comm]
  refine Fintype.sum_equiv (Equiv.piComm _) _ _ fun v => Fintype.sum_equiv (Equiv.piComm _) _ _ fun h => ?_
  rw [Finset.prod_comm]
  rfl

theorem lattice_reindex {I' J' V' H' : Type} [Fintype I'] [Fintype J'] [Fintype V'] [Fintype H'] [DecidableEq I'] [DecidableEq J']
    [DecidableEq V'] [DecidableEq H'] (s : I → I) (t : J → J) (s' : I' → I') (t' : J' → J') (e : I ≃ I') (f : J ≃ J')
    (k : V ≃ V') (m : H ≃ H') (he : ∀ i, e (s i) = s' (e i)) (hf : ∀ j, f (t j) = t' (f j))
    (T : V → H → V → H → R) (T' : V' → H' → V' → H' → R) (hT : ∀ u l d r, T u l d r = T' (k u) (m l) (k d) (m r)) :
    lattice s t T = lattice s' t' T' := by
  unfold lattice
  refine Fintype.sum_equiv (Equiv.arrowCongr e (Equiv.arrowCongr f k)) _ _ fun v =>
    Fintype.sum_equiv (Equiv.arrowCongr e (Equiv.arrowCongr f m)) _ _ fun h => ?_
  refine Fintype.prod_equiv e _ _ fun i => Fintype.prod_equiv f _ _ fun j => ?_
  rw [hT]
  simp [Equiv.arrowCongr, ← he, ← hf]

/-- Two tensors one above the other. -/
def stacked (T U : V → H → V → H → R) (u : V) (x : H × H) (d : V) (y : H × H) : R :=
  ∑ m, T u x.1 m y.1 * U m x.2 d y.2

/-- Two rows for each row: from the upper one to the lower one of the same pair, then to the next pair. -/
def twice (s : I → I) : I × Bool → I × Bool
  | (i, false) => (i, true)
  | (i, true) => (s i, false)

/-- Pairs of rows merge. -/
theorem lattice_stacked (s : I → I) (t : J → J) (T : V → H → V → H → R) :
    lattice (twice s) t T = lattice s t (stacked T T) := by
  unfold lattice stacked
  simp only [Fintype.prod_prod_type, Fintype.prod_bool, twice]
  -- the right-hand side: one sum for every site
  have right : ∀ (v : I → J → V) (h : I → J → H × H),
      (∏ i, ∏ j, ∑ m, T (v i j) (h i j).1 m (h i (t j)).1 * T m (h i j).2 (v (s i) j) (h i (t j)).2) =
      ∑ w : I → J → V, ∏ i, ∏ j, T (v i j) (h i j).1 (w i j) (h i (t j)).1 * T (w i j) (h i j).2 (v (s i) j) (h i (t j)).2 := by
    intro v h
    have : ∀ i, (∏ j, ∑ m, T (v i j) (h i j).1 m (h i (t j)).1 * T m (h i j).2 (v (s i) j) (h i (t j)).2) =
        ∑ w : J → V, ∏ j, T (v i j) (h i j).1 (w j) (h i (t j)).1 * T (w j) (h i j).2 (v (s i) j) (h i (t j)).2 := by
      intro i
      rw [Finset.prod_univ_sum, Fintype.piFinset_univ]
    simp only [this]
    rw [Finset.prod_univ_sum, Fintype.piFinset_univ]
  simp only [right]
  -- the left-hand side: upper and lower indices
  let ev : (I × Bool → J → V) ≃ (I → J → V) × (I → J → V) :=
    { toFun := fun v => (fun i => v (i, false), fun i => v (i, true))
      invFun := fun p ib => if ib.2 then p.2 ib.1 else p.1 ib.1
      left_inv := fun v => by funext ⟨i, b⟩; cases b <;> rfl
      right_inv := fun p => rfl }
  let eh : (I × Bool → J → H) ≃ (I → J → H × H) :=
    { toFun := fun h i j => (h (i, false) j, h (i, true) j)
      invFun := fun p ib j => if ib.2 then (p ib.1 j).2 else (p ib.1 j).1
      left_inv := fun v => by funext ⟨i, b⟩ j; cases b <;> rfl
      right_inv := fun p => rfl }
  rw [Fintype.sum_equiv ev _ (fun p => ∑ h : I → J → H × H, ∏ i, ∏ j,
    T (p.1 i j) (h i j).1 (p.2 i j) (h i (t j)).1 * T (p.2 i j) (h i j).2 (p.1 (s i) j) (h i (t j)).2)]
  · rw [Fintype.sum_prod_type]
    refine Finset.sum_congr rfl fun v _ => ?_
    rw [Finset.sum_comm]
  · intro v
    refine Fintype.sum_equiv eh _ _ fun h => ?_
    refine Finset.prod_congr rfl fun i _ => ?_
    rw [Finset.prod_mul_distrib, mul_comm]
    rfl

/-- Projectors on the horizontal bonds that leave the tensor as it is, seen from its left. -/
theorem lattice_project {K : Type} [Fintype K] [DecidableEq K] (s : I → I) (t : J ≃ J) (T : V → H → V → H → R) (P Q : H → K → R)
    (hW : ∀ u y d r, ∑ x, (∑ o, P x o * Q y o) * T u x d r = T u y d r) :
    lattice s t (fun u o d o' => ∑ x, ∑ y, T u x d y * P x o * Q y o') = lattice s t T := by
  unfold lattice
  refine Finset.sum_congr rfl fun v _ => ?_
  -- a pair of indices at every site
  have one : ∀ (h : I → J → K),
      (∏ i, ∏ j, ∑ x, ∑ y, T (v i j) x (v (s i) j) y * P x (h i j) * Q y (h i (t j))) =
      ∑ x : I → J → H, ∑ y : I → J → H, (∏ i, ∏ j, T (v i j) (x i j) (v (s i) j) (y i j)) *
        ∏ i, ∏ j, (P (x i (t j)) (h i (t j)) * Q (y i j) (h i (t j))) := by
    intro h
    have e1 : ∀ i, (∏ j, ∑ x, ∑ y, T (v i j) x (v (s i) j) y * P x (h i j) * Q y (h i (t j))) =
        ∑ x : J → H, ∑ y : J → H, ∏ j, T (v i j) (x j) (v (s i) j) (y j) * P (x j) (h i j) * Q (y j) (h i (t j)) := by
      intro i
      rw [Finset.prod_univ_sum, Fintype.piFinset_univ]
      refine Finset.sum_congr rfl fun x _ => ?_
      rw [Finset.prod_univ_sum, Fintype.piFinset_univ]
    simp only [e1]
    rw [Finset.prod_univ_sum, Fintype.piFinset_univ]
    refine Finset.sum_congr rfl fun x _ => ?_
    rw [Finset.prod_univ_sum, Fintype.piFinset_univ]
    refine Finset.sum_congr rfl fun y _ => ?_
    rw [← Finset.prod_mul_distrib]
    refine Finset.prod_congr rfl fun i _ => ?_
    simp only [Finset.prod_mul_distrib]
    rw [Equiv.prod_comp t (fun j => P (x i j) (h i j))]
    ring
  simp only [one]
  rw [Finset.sum_comm]
  -- the sum over the projected indices, bond by bond
  have two : ∀ (x y : I → J → H),
      (∑ h : I → J → K, (∏ i, ∏ j, T (v i j) (x i j) (v (s i) j) (y i j)) *
        ∏ i, ∏ j, (P (x i (t j)) (h i (t j)) * Q (y i j) (h i (t j)))) =
      (∏ i, ∏ j, T (v i j) (x i j) (v (s i) j) (y i j)) * ∏ i, ∏ j, ∑ o, P (x i (t j)) o * Q (y i j) o := by
    intro x y
    rw [← Finset.mul_sum]
    congr 1
    have e2 : ∀ i, (∏ j, ∑ o, P (x i (t j)) o * Q (y i j) o) =
        ∑ h : J → K, ∏ j, P (x i (t j)) (h j) * Q (y i j) (h j) := by
      intro i
      rw [Finset.prod_univ_sum, Fintype.piFinset_univ]
    simp only [e2]
    rw [Finset.prod_univ_sum, Fintype.piFinset_univ]
    refine Fintype.sum_equiv (Equiv.arrowCongr (Equiv.refl I) (Equiv.arrowCongr t.symm (Equiv.refl K))) _ _ fun h => ?_
    rfl
  have three : ∀ x : I → J → H, (∑ h : I → J → K, ∑ y : I → J → H,
      (∏ i, ∏ j, T (v i j) (x i j) (v (s i) j) (y i j)) *
        ∏ i, ∏ j, (P (x i (t j)) (h i (t j)) * Q (y i j) (h i (t j)))) =
      ∑ y : I → J → H, (∏ i, ∏ j, T (v i j) (x i j) (v (s i) j) (y i j)) * ∏ i, ∏ j, ∑ o, P (x i (t j)) o * Q (y i j) o := by
    intro x
    rw [Finset.sum_comm]
    exact Finset.sum_congr rfl fun y _ => two x y
  simp only [three]
  rw [Finset.sum_comm]
  -- the projector is absorbed at its right
  have four : ∀ y : I → J → H,
      (∑ x : I → J → H, (∏ i, ∏ j, T (v i j) (x i j) (v (s i) j) (y i j)) * ∏ i, ∏ j, ∑ o, P (x i (t j)) o * Q (y i j) o) =
      ∏ i, ∏ j, T (v i (t j)) (y i j) (v (s i) (t j)) (y i (t j)) := by
    intro y
    have e3 : ∀ x : I → J → H,
        ((∏ i, ∏ j, T (v i j) (x i j) (v (s i) j) (y i j)) * ∏ i, ∏ j, ∑ o, P (x i (t j)) o * Q (y i j) o) =
        ∏ i, ∏ j, (∑ o, P (x i (t j)) o * Q (y i j) o) * T (v i (t j)) (x i (t j)) (v (s i) (t j)) (y i (t j)) := by
      intro x
      rw [← Finset.prod_mul_distrib]
      refine Finset.prod_congr rfl fun i _ => ?_
      rw [Finset.prod_mul_distrib, Equiv.prod_comp t (fun j => T (v i j) (x i j) (v (s i) j) (y i j)), mul_comm]
    simp only [e3]
    have e4 : ∀ i j, T (v i (t j)) (y i j) (v (s i) (t j)) (y i (t j)) =
        ∑ x, (∑ o, P x o * Q (y i j) o) * T (v i (t j)) x (v (s i) (t j)) (y i (t j)) := fun i j => (hW ..).symm
    rw [Finset.prod_congr rfl fun i _ => Finset.prod_congr rfl fun j _ => e4 i j]
    have e5 : ∀ i, (∏ j, ∑ x, (∑ o, P x o * Q (y i j) o) * T (v i (t j)) x (v (s i) (t j)) (y i (t j))) =
        ∑ x : J → H, ∏ j, (∑ o, P (x j) o * Q (y i j) o) * T (v i (t j)) (x j) (v (s i) (t j)) (y i (t j)) := by
      intro i
      rw [Finset.prod_univ_sum, Fintype.piFinset_univ]
    simp only [e5]
    rw [Finset.prod_univ_sum, Fintype.piFinset_univ]
    refine Fintype.sum_equiv (Equiv.arrowCongr (Equiv.refl I) (Equiv.arrowCongr t.symm (Equiv.refl H))) _ _ fun x => ?_
    rfl
  simp only [four]
  refine Fintype.sum_equiv (Equiv.arrowCongr (Equiv.refl I) (Equiv.arrowCongr t (Equiv.refl H))) _ _ fun y => ?_
  refine Finset.prod_congr rfl fun i _ => ?_
  rw [← Equiv.prod_comp t fun j => T (v i j) _ (v (s i) j) _]
  refine Finset.prod_congr rfl fun j _ => ?_
  simp [Equiv.arrowCongr]

/-- The lattice seen in a mirror. -/
theorem lattice_mirror (s : I → I) (t : J ≃ J) (T : V → H → V → H → R) :
    lattice s t.symm (fun u l d r => T u r d l) = lattice s t T := by
  unfold lattice
  refine Finset.sum_congr rfl fun v _ => ?_
  refine Fintype.sum_equiv (Equiv.arrowCongr (Equiv.refl I) (Equiv.arrowCongr t (Equiv.refl H))) _ _ fun h => ?_
  refine Finset.prod_congr rfl fun i _ => Finset.prod_congr rfl fun j _ => ?_
  simp [Equiv.arrowCongr]

/-- Projectors on the horizontal bonds that leave the tensor as it is, seen from its right. -/
theorem lattice_project_right {K : Type} [Fintype K] [DecidableEq K] (s : I → I) (t : J ≃ J) (T : V → H → V → H → R)
    (P Q : H → K → R) (hW : ∀ u l d x, ∑ y, (∑ o, P x o * Q y o) * T u l d y = T u l d x) :
    lattice s t (fun u o d o' => ∑ x, ∑ y, T u x d y * P x o * Q y o') = lattice s t T := by
  rw [← lattice_mirror s t T, ← lattice_mirror s t, ← lattice_project s t.symm (fun u l d r => T u r d l) Q P]
  · refine congrArg _ ?_
    funext u o d o'
    rw [Finset.sum_comm]
    refine Finset.sum_congr rfl fun x _ => Finset.sum_congr rfl fun y _ => ?_
    ring
  · intro u y d r
    rw [← hW u r d y]
    refine Finset.sum_congr rfl fun x _ => ?_
    congr 1
    exact Finset.sum_congr rfl fun o _ => mul_comm ..

end

theorem around_injective {n : Nat} : Function.Injective (around (n := n)) := by
  intro i j h
  have h := Fin.val_eq_of_eq h
  simp only [around] at h
  have hi := i.isLt
  have hj := j.isLt
  apply Fin.ext
  rcases Nat.lt_or_ge (i.val + 1) n with h1 | h1
  · rcases Nat.lt_or_ge (j.val + 1) n with h2 | h2
    · rw [Nat.mod_eq_of_lt h1, Nat.mod_eq_of_lt h2] at h
      omega
    · have : j.val + 1 = n := by omega
      rw [this, Nat.mod_self, Nat.mod_eq_of_lt h1] at h
      omega
  · have e : i.val + 1 = n := by omega
    rcases Nat.lt_or_ge (j.val + 1) n with h2 | h2
    · rw [e, Nat.mod_self, Nat.mod_eq_of_lt h2] at h
      omega
    · omega

noncomputable def aroundEquiv (n : Nat) : Fin n ≃ Fin n := Equiv.ofBijective around (Finite.injective_iff_bijective.mp around_injective)

theorem aroundEquiv_coe (n : Nat) : (aroundEquiv n : Fin n → Fin n) = around := rfl

/-- The rows of a lattice of twice the height. -/
def rowPairs (p : Nat) : Fin p × Bool ≃ Fin (2 * p) where
  toFun x := ⟨2 * x.1.val + x.2.toNat, by have := x.1.isLt; have := Bool.toNat_lt x.2; omega⟩
  invFun k := (⟨k.val / 2, by have := k.isLt; omega⟩, k.val % 2 == 1)
  left_inv := by
    rintro ⟨i, b⟩
    cases b
    · ext <;> simp
    · ext
      · simp; omega
      · simp
  right_inv := by
    intro k
    ext
    simp only
    rcases Nat.mod_two_eq_zero_or_one k.val with h | h
    · rw [h]; simp; omega
    · rw [h]; simp; omega

theorem rowPairs_around (p : Nat) (x : Fin p × Bool) : rowPairs p (twice around x) = around (rowPairs p x) := by
  obtain ⟨i, b⟩ := x
  have hi := i.isLt
  cases b
  · ext
    simp only [twice, rowPairs, around, Equiv.coe_fn_mk, Bool.toNat_true, Bool.toNat_false, Nat.add_zero]
    rw [Nat.mod_eq_of_lt (by omega)]
  · ext
    simp only [twice, rowPairs, around, Equiv.coe_fn_mk, Bool.toNat_true, Bool.toNat_false, Nat.add_zero]
    rw [show 2 * i.val + 1 + 1 = 2 * (i.val + 1) by ring, Nat.mul_mod_mul_left]

open Finset (range)

/-- The tensor of a pair of sites, the horizontal pairs of indices turned into one by `P` on either side. -/
structure Merged (V H K : Nat) (A A' : Nat → Nat → Nat → Nat → R) (P : Nat → Nat → Nat → R) : Prop where
  eq : ∀ u < V, ∀ o < K, ∀ d < V, ∀ o' < K, A' u o d o' =
    ∑ x1 ∈ range H, ∑ x2 ∈ range H, ∑ y1 ∈ range H, ∑ y2 ∈ range H, stackedN V A u x1 x2 d y1 y2 * P x1 x2 o * P y1 y2 o'
  kept : (∀ u < V, ∀ y1 < H, ∀ y2 < H, ∀ d < V, ∀ r1 < H, ∀ r2 < H,
      ∑ x1 ∈ range H, ∑ x2 ∈ range H, (∑ o ∈ range K, P x1 x2 o * P y1 y2 o) * stackedN V A u x1 x2 d r1 r2 =
        stackedN V A u y1 y2 d r1 r2) ∨
    (∀ u < V, ∀ l1 < H, ∀ l2 < H, ∀ d < V, ∀ x1 < H, ∀ x2 < H,
      ∑ y1 ∈ range H, ∑ y2 ∈ range H, (∑ o ∈ range K, P x1 x2 o * P y1 y2 o) * stackedN V A u l1 l2 d y1 y2 =
        stackedN V A u l1 l2 d x1 x2)

theorem torus_lattice (p q V H : Nat) (A : Nat → Nat → Nat → Nat → R) :
    torus p q V H A = lattice (around (n := p)) (around (n := q))
      (fun (u : Fin V) (l : Fin H) (d : Fin V) (r : Fin H) => A u l d r) := rfl

theorem torus_double (p q V H : Nat) (A : Nat → Nat → Nat → Nat → R) :
    torus (2 * p) q V H A = lattice (twice (around (n := p))) (around (n := q))
      (fun (u : Fin V) (l : Fin H) (d : Fin V) (r : Fin H) => A u l d r) := by
  rw [torus_lattice]
  symm
  exact lattice_reindex (twice around) around around around (rowPairs p) (Equiv.refl (Fin q)) (Equiv.refl (Fin V)) (Equiv.refl (Fin H))
    (rowPairs_around p) (fun _ => rfl) _ _ fun _ _ _ _ => rfl

/-- Merging pairs of rows without loss halves the number of rows. -/
theorem torus_merged {V H K : Nat} {A A' : Nat → Nat → Nat → Nat → R} {P : Nat → Nat → Nat → R} (h : Merged V H K A A' P)
    (p q : Nat) : torus p q V K A' = torus (2 * p) q V H A := by
  rw [torus_double, lattice_stacked]
  let T : Fin V → Fin H × Fin H → Fin V → Fin H × Fin H → R :=
    stacked (fun (u : Fin V) (l : Fin H) (d : Fin V) (r : Fin H) => A u l d r) fun u l d r => A u l d r
  have hT : ∀ u x d y, T u x d y = stackedN V A u x.1 x.2 d y.1 y.2 := by
    intro u x d y
    show ∑ m, _ = _
    unfold stackedN
    rw [Finset.sum_range]
  let Q : Fin H × Fin H → Fin K → R := fun x o => P x.1 x.2 o
  have e2 : torus p q V K A' = lattice (around (n := p)) (aroundEquiv q) (fun u (o : Fin K) d (o' : Fin K) => ∑ x, ∑ y, T u x d y * Q x o * Q y o') := by
    unfold torus lattice
    refine Finset.sum_congr rfl fun v _ => Finset.sum_congr rfl fun h' _ => Finset.prod_congr rfl fun i _ =>
      Finset.prod_congr rfl fun j _ => ?_
    rw [h.eq _ (v i j).isLt _ (h' i j).isLt _ (v (around i) j).isLt _ (h' i (around j)).isLt]
    simp only [Fintype.sum_prod_type, Finset.sum_range, hT]
    rfl
  rw [e2]
  rcases h.kept with hk | hk
  · refine lattice_project _ (aroundEquiv q) T Q Q fun u y d r => ?_
    have := hk u u.isLt y.1 y.1.isLt y.2 y.2.isLt d d.isLt r.1 r.1.isLt r.2 r.2.isLt
    simp only [Finset.sum_range] at this
    simp only [Fintype.sum_prod_type, hT]
    exact this
  · refine lattice_project_right _ (aroundEquiv q) T Q Q fun u l d x => ?_
    have := hk u u.isLt l.1 l.1.isLt l.2 l.2.isLt d d.isLt x.1 x.1.isLt x.2 x.2.isLt
    simp only [Finset.sum_range] at this
    simp only [Fintype.sum_prod_type, hT]
    exact this

/-- Rows and columns change their roles. -/
theorem torus_transpose (p q V H : Nat) (A : Nat → Nat → Nat → Nat → R) :
    torus p q V H A = torus q p H V fun l u r d => A u l d r :=
  (lattice_transpose around around fun (u : Fin V) (l : Fin H) (d : Fin V) (r : Fin H) => A u l d r).symm

/-- One site: the trace. -/
theorem torus_one (V H : Nat) (A : Nat → Nat → Nat → Nat → R) :
    torus 1 1 V H A = ∑ i ∈ range V, ∑ j ∈ range H, A i j i j := by
  have hv : ∀ n, (Fin 1 → Fin 1 → Fin n) ≃ Fin n := fun n => (Equiv.funUnique (Fin 1) _).trans (Equiv.funUnique (Fin 1) _)
  unfold torus
  simp only [Finset.sum_range]
  refine Fintype.sum_equiv ((Equiv.funUnique (Fin 1) _).trans (Equiv.funUnique (Fin 1) _)) _ _ fun v =>
    Fintype.sum_equiv ((Equiv.funUnique (Fin 1) _).trans (Equiv.funUnique (Fin 1) _)) _ _ fun h => ?_
  simp only [Finset.univ_unique, Finset.prod_singleton]
  rfl

/-- A factor in front of the tensor comes out once for every site. -/
theorem torus_scale (p q V H : Nat) (c : R) (A : Nat → Nat → Nat → Nat → R) :
    torus p q V H (fun u l d r => c * A u l d r) = c ^ (p * q) * torus p q V H A := by
  unfold torus
  simp only [Finset.mul_sum]
  refine Finset.sum_congr rfl fun v _ => Finset.sum_congr rfl fun h _ => ?_
  simp only [Finset.prod_mul_distrib, Finset.prod_const, Finset.card_univ, Fintype.card_fin]
  rw [← pow_mul, mul_comm q p]

theorem torus_congr (p q V H : Nat) {A B : Nat → Nat → Nat → Nat → R}
    (h : ∀ u < V, ∀ l < H, ∀ d < V, ∀ r < H, A u l d r = B u l d r) : torus p q V H A = torus p q V H B := by
  unfold torus
  refine Finset.sum_congr rfl fun v _ => Finset.sum_congr rfl fun h' _ => Finset.prod_congr rfl fun i _ =>
    Finset.prod_congr rfl fun j _ => h _ (Fin.isLt _) _ (Fin.isLt _) _ (Fin.isLt _) _ (Fin.isLt _)

end CTL
