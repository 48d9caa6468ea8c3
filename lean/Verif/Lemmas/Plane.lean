import Verif.Spec.TRG
import Verif.Lemmas.Torus
import Mathlib.Algebra.Group.End
import Mathlib.Logic.Equiv.Sum
import Mathlib.Tactic.Linarith

/-! Finite square lattices without boundary of any shape, and their refinement along the diagonals. -/

namespace CTL

/-- A finite set of sites with the neighbour to the right and the neighbour below. -/
structure Plane where
  S : Type
  [fin : Fintype S]
  [dec : DecidableEq S]
  right : Equiv.Perm S
  down : Equiv.Perm S
  comm : ∀ s, right (down s) = down (right s)

namespace Plane

instance (P : Plane) : Fintype P.S := P.fin
instance (P : Plane) : DecidableEq P.S := P.dec

variable {R : Type} [CommSemiring R]

/-- The partition function. -/
def Z (P : Plane) (V H : Nat) (T : Nat → Nat → Nat → Nat → R) : R :=
  ∑ v : P.S → Fin V, ∑ h : P.S → Fin H, ∏ s, T (v s) (h s) (v (P.down s)) (h (P.right s))

theorem Z_congr (P : Plane) (V H : Nat) {A B : Nat → Nat → Nat → Nat → R}
    (h : ∀ u < V, ∀ l < H, ∀ d < V, ∀ r < H, A u l d r = B u l d r) : P.Z V H A = P.Z V H B := by
  unfold Z
  exact Finset.sum_congr rfl fun v _ => Finset.sum_congr rfl fun h' _ => Finset.prod_congr rfl fun s _ =>
    h _ (Fin.isLt _) _ (Fin.isLt _) _ (Fin.isLt _) _ (Fin.isLt _)

theorem Z_scale (P : Plane) (V H : Nat) (c : R) (A : Nat → Nat → Nat → Nat → R) :
    P.Z V H (fun u l d r => c * A u l d r) = c ^ Fintype.card P.S * P.Z V H A := by
  unfold Z
  simp only [Finset.mul_sum]
  refine Finset.sum_congr rfl fun v _ => Finset.sum_congr rfl fun h _ => ?_
  simp only [Finset.prod_mul_distrib, Finset.prod_const, Finset.card_univ]

/-- The same lattice with other names for the sites. -/
theorem Z_equiv {P Q : Plane} (e : P.S ≃ Q.S) (hr : ∀ s, e (P.right s) = Q.right (e s)) (hd : ∀ s, e (P.down s) = Q.down (e s))
    (V H : Nat) (T : Nat → Nat → Nat → Nat → R) : P.Z V H T = Q.Z V H T := by
  unfold Z
  refine Fintype.sum_equiv (Equiv.arrowCongr e (Equiv.refl _)) _ _ fun v => Fintype.sum_equiv (Equiv.arrowCongr e (Equiv.refl _)) _ _ fun h => ?_
  refine Fintype.prod_equiv e _ _ fun s => ?_
  simp [Equiv.arrowCongr, ← hr, ← hd]

/-! ### Coordinates -/

/-- Coordinates for the sites: `x` to the right, `y` down; `K` are the periods. -/
structure Cover (P : Plane) (π : Int → Int → P.S) (K : Int → Int → Prop) : Prop where
  surj : ∀ s, ∃ x y, π x y = s
  right : ∀ x y, π (x + 1) y = P.right (π x y)
  down : ∀ x y, π x (y + 1) = P.down (π x y)
  ker : ∀ x y x' y', π x y = π x' y' ↔ K (x' - x) (y' - y)

/-- A lattice is determined by its periods. -/
theorem Z_cover {P Q : Plane} {π : Int → Int → P.S} {ρ : Int → Int → Q.S} {K : Int → Int → Prop} (hP : P.Cover π K) (hQ : Q.Cover ρ K)
    (V H : Nat) (T : Nat → Nat → Nat → Nat → R) : P.Z V H T = Q.Z V H T := by
  choose x y hxy using hP.surj
  have key : ∀ a b, ρ (x (π a b)) (y (π a b)) = ρ a b := fun a b => (hQ.ker ..).mpr ((hP.ker ..).mp (hxy _))
  have bij : Function.Bijective fun s => ρ (x s) (y s) := by
    constructor
    · intro s t h
      rw [← hxy s, ← hxy t]
      exact (hP.ker ..).mpr ((hQ.ker ..).mp h)
    · intro q
      obtain ⟨a, b, rfl⟩ := hQ.surj q
      exact ⟨π a b, key a b⟩
  refine Z_equiv (Equiv.ofBijective _ bij) (fun s => ?_) (fun s => ?_) V H T
  · obtain ⟨a, b, rfl⟩ := hP.surj s
    rw [← hP.right]
    simp only [Equiv.ofBijective_apply, key, hQ.right]
  · obtain ⟨a, b, rfl⟩ := hP.surj s
    rw [← hP.down]
    simp only [Equiv.ofBijective_apply, key, hQ.down]

theorem Cover.left {P : Plane} {π : Int → Int → P.S} {K : Int → Int → Prop} (h : P.Cover π K) (x y : Int) :
    π (x - 1) y = P.right.symm (π x y) := by
  rw [Equiv.eq_symm_apply, ← h.right, Int.sub_add_cancel]

/-! ### Refinement -/

/-- The lattice whose sites are those of `P` and the centres of its squares, turned by 45 degrees: the step down to the right is the step
down in `P`, the step up to the right is the step to the right in `P`. -/
def refine (P : Plane) : Plane where
  S := P.S ⊕ P.S
  right :=
    ⟨Sum.elim (fun s => .inr (P.right s)) (fun s => .inl (P.down s)), Sum.elim (fun s => .inr (P.down.symm s)) (fun s => .inl (P.right.symm s)),
      by rintro (s | s) <;> simp, by rintro (s | s) <;> simp⟩
  down :=
    ⟨Sum.elim (fun s => .inr s) (fun s => .inl (P.right.symm (P.down s))), Sum.elim (fun s => .inr (P.down.symm (P.right s))) (fun s => .inl s),
      by rintro (s | s) <;> simp, by rintro (s | s) <;> simp⟩
  comm := by
    rintro (s | s)
    · simp [← P.comm]
    · simp

/-- A site of `P` in the refined lattice. -/
def old (P : Plane) (s : P.S) : P.refine.S := Sum.inl s

/-- The centre of the square below the site. -/
def centre (P : Plane) (s : P.S) : P.refine.S := Sum.inr s

/-- The periods of the refined lattice. -/
def halfPeriods (K : Int → Int → Prop) (x y : Int) : Prop := ∃ m k, x = m + k ∧ y = m - k ∧ K k m

/-- Coordinates for the refined lattice. -/
def halfCover {P : Plane} (π : Int → Int → P.S) (x y : Int) : P.refine.S :=
  if (x + y) % 2 = 0 then P.old (π ((x - y) / 2) ((x + y) / 2)) else P.centre (π ((x - y + 1) / 2) ((x + y - 1) / 2))

theorem halfCover_even {P : Plane} (π : Int → Int → P.S) (m k : Int) : halfCover π (m + k) (m - k) = P.old (π k m) := by
  unfold halfCover
  rw [if_pos (by omega), show (m + k - (m - k)) / 2 = k by omega, show (m + k + (m - k)) / 2 = m by omega]

theorem halfCover_odd {P : Plane} (π : Int → Int → P.S) (m k : Int) : halfCover π (m + k) (m - k + 1) = P.centre (π k m) := by
  unfold halfCover
  rw [if_neg (by omega), show (m + k - (m - k + 1) + 1) / 2 = k by omega, show (m + k + (m - k + 1) - 1) / 2 = m by omega]

theorem parity (x y : Int) : ∃ m k, x = m + k ∧ (y = m - k ∨ y = m - k + 1) := by
  rcases Int.emod_two_eq_zero_or_one (x + y) with h | h
  · exact ⟨(x + y) / 2, (x - y) / 2, by omega, by omega⟩
  · exact ⟨(x + y - 1) / 2, (x - y + 1) / 2, by omega, by omega⟩

theorem old_inj {P : Plane} {s t : P.S} : P.old s = P.old t ↔ s = t := Sum.inl_injective.eq_iff

theorem centre_inj {P : Plane} {s t : P.S} : P.centre s = P.centre t ↔ s = t := Sum.inr_injective.eq_iff

theorem old_ne {P : Plane} (s t : P.S) : P.old s ≠ P.centre t := fun h => by cases h

theorem Cover.refine {P : Plane} {π : Int → Int → P.S} {K : Int → Int → Prop} (h : P.Cover π K) :
    P.refine.Cover (halfCover π) (halfPeriods K) := by
  refine ⟨?_, ?_, ?_, ?_⟩
  · rintro (s | s)
    · obtain ⟨x, y, rfl⟩ := h.surj s
      exact ⟨_, _, halfCover_even π y x⟩
    · obtain ⟨x, y, rfl⟩ := h.surj s
      exact ⟨_, _, halfCover_odd π y x⟩
  · intro x y
    obtain ⟨m, k, rfl, rfl | rfl⟩ := parity x y
    · rw [halfCover_even, show m + k + 1 = m + (k + 1) by ring, show m - k = m - (k + 1) + 1 by ring, halfCover_odd, h.right]
      rfl
    · rw [halfCover_odd, show m + k + 1 = (m + 1) + k by ring, show m - k + 1 = (m + 1) - k by ring, halfCover_even, h.down]
      rfl
  · intro x y
    obtain ⟨m, k, rfl, rfl | rfl⟩ := parity x y
    · rw [halfCover_even, halfCover_odd]
      rfl
    · rw [halfCover_odd, show m + k = (m + 1) + (k - 1) by ring, show m - k + 1 + 1 = (m + 1) - (k - 1) by ring, halfCover_even, h.left, h.down]
      rfl
  · intro x y x' y'
    unfold halfPeriods
    obtain ⟨m, k, rfl, rfl | rfl⟩ := parity x y <;> obtain ⟨m', k', rfl, rfl | rfl⟩ := parity x' y'
    · rw [halfCover_even, halfCover_even, old_inj, h.ker]
      refine ⟨fun e => ⟨m' - m, k' - k, by ring, by ring, e⟩, fun ⟨a, b, e1, e2, e⟩ => ?_⟩
      rwa [show k' - k = b by omega, show m' - m = a by omega]
    · rw [halfCover_even, halfCover_odd]
      refine ⟨fun e => absurd e (by first | exact old_ne _ _ | exact (old_ne _ _).symm), fun ⟨a, b, e1, e2, e⟩ => by omega⟩
    · rw [halfCover_even, halfCover_odd]
      refine ⟨fun e => absurd e (by first | exact old_ne _ _ | exact (old_ne _ _).symm), fun ⟨a, b, e1, e2, e⟩ => by omega⟩
    · rw [halfCover_odd, halfCover_odd, centre_inj, h.ker]
      refine ⟨fun e => ⟨m' - m, k' - k, by ring, by ring, e⟩, fun ⟨a, b, e1, e2, e⟩ => ?_⟩
      rwa [show k' - k = b by omega, show m' - m = a by omega]

theorem card_refine (P : Plane) : Fintype.card P.refine.S = 2 * Fintype.card P.S := by
  have : Fintype.card P.refine.S = Fintype.card (P.S ⊕ P.S) := Fintype.card_congr (Equiv.refl _)
  rw [this, Fintype.card_sum, two_mul]

open Finset (range)

theorem prod_sum_fun {S X : Type} [Fintype S] [DecidableEq S] [Fintype X] (f : S → X → R) :
    ∏ s, ∑ x, f s x = ∑ g : S → X, ∏ s, f s (g s) := by
  rw [Finset.prod_univ_sum, Fintype.piFinset_univ]

/-- Every tensor is split in two, every other site along the other diagonal; the pieces around the squares are put together. -/
theorem Z_refine (P : Plane) {V H kA kB : Nat} {T : Nat → Nat → Nat → Nat → R} {uA vA uB vB : Nat → Nat → Nat → R}
    (hA : ∀ u < V, ∀ l < H, ∀ d < V, ∀ r < H, T u l d r = ∑ k ∈ range kA, uA u l k * vA d r k)
    (hB : ∀ u < V, ∀ l < H, ∀ d < V, ∀ r < H, T u l d r = ∑ k ∈ range kB, uB u r k * vB d l k) :
    P.Z kA kB (fourCorners V H uA vA uB vB) = P.refine.Z V H T := by
  let S := P.S
  let F : (S → Fin kA) → (S → Fin kB) → (S → Fin V) → (S → Fin V) → (S → Fin H) → (S → Fin H) → R := fun α β k i m j =>
    ∏ s, vA (i s) (j s) (α s) * vB (k s) (j s) (β (P.right s)) * uA (k s) (m s) (α (P.down s)) * uB (i s) (m s) (β s)
  have left : P.Z kA kB (fourCorners V H uA vA uB vB) = ∑ α, ∑ β, ∑ m, ∑ k, ∑ j, ∑ i, F α β k i m j := by
    unfold Z fourCorners
    refine Finset.sum_congr rfl fun α _ => Finset.sum_congr rfl fun β _ => ?_
    simp only [Finset.sum_range, prod_sum_fun]
    rfl
  have right : P.refine.Z V H T = ∑ k : S → Fin V, ∑ i : S → Fin V, ∑ m : S → Fin H, ∑ j : S → Fin H,
      ∑ α : S → Fin kA, ∑ β : S → Fin kB, F α β (k ∘ P.down) i (m ∘ P.down) (j ∘ P.right) := by
    have e1 : P.refine.Z V H T = ∑ v : S ⊕ S → Fin V, ∑ h : S ⊕ S → Fin H,
        (∏ s, T (v (.inl s)) (h (.inl s)) (v (.inr s)) (h (.inr (P.right s)))) *
        ∏ s, T (v (.inr s)) (h (.inr s)) (v (.inl (P.right.symm (P.down s)))) (h (.inl (P.down s))) := by
      unfold Z
      refine Finset.sum_congr rfl fun v _ => Finset.sum_congr rfl fun h _ => ?_
      exact Fintype.prod_sum_type (fun s : S ⊕ S => T (v s) (h s) (v (P.refine.down s)) (h (P.refine.right s)))
    rw [e1, ← Fintype.sum_prod_type' (f := fun (k i : S → Fin V) => _)]
    refine Fintype.sum_equiv (Equiv.sumArrowEquivProdArrow S S (Fin V)) _ _ fun v => ?_
    rw [← Fintype.sum_prod_type' (f := fun (m j : S → Fin H) => _)]
    refine Fintype.sum_equiv (Equiv.sumArrowEquivProdArrow S S (Fin H)) _ _ fun h => ?_
    have a1 : ∀ s, T (v (.inl s)) (h (.inl s)) (v (.inr s)) (h (.inr (P.right s))) =
        ∑ a : Fin kA, uA (v (.inl s)) (h (.inl s)) a * vA (v (.inr s)) (h (.inr (P.right s))) a := fun s => by
      rw [hA _ (Fin.isLt _) _ (Fin.isLt _) _ (Fin.isLt _) _ (Fin.isLt _), Finset.sum_range]
    have a2 : ∀ s, T (v (.inr s)) (h (.inr s)) (v (.inl (P.right.symm (P.down s)))) (h (.inl (P.down s))) =
        ∑ b : Fin kB, uB (v (.inr s)) (h (.inl (P.down s))) b * vB (v (.inl (P.right.symm (P.down s)))) (h (.inr s)) b := fun s => by
      rw [hB _ (Fin.isLt _) _ (Fin.isLt _) _ (Fin.isLt _) _ (Fin.isLt _), Finset.sum_range]
    simp only [a1, a2, prod_sum_fun, Finset.sum_mul_sum]
    refine Finset.sum_congr rfl fun α _ => Finset.sum_congr rfl fun β _ => ?_
    simp only [F, Equiv.sumArrowEquivProdArrow, Equiv.coe_fn_mk, Function.comp, Finset.prod_mul_distrib]
    have b1 : ∏ s, uA (v (.inl (P.down s))) (h (.inl (P.down s))) (α (P.down s)) = ∏ s, uA (v (.inl s)) (h (.inl s)) (α s) :=
      Equiv.prod_comp P.down fun s => uA (v (.inl s)) (h (.inl s)) (α s)
    have b2 : ∏ s, vB (v (.inl (P.down s))) (h (.inr (P.right s))) (β (P.right s)) =
        ∏ s, vB (v (.inl (P.right.symm (P.down s)))) (h (.inr s)) (β s) := by
      rw [← Equiv.prod_comp P.right fun s => (vB (v (.inl (P.right.symm (P.down s)))) (h (.inr s)) (β s) : R)]
      refine Finset.prod_congr rfl fun s _ => ?_
      rw [← P.comm, Equiv.symm_apply_apply]
    rw [b1, b2]
    ring
  rw [left, right]
  let e : (S → Fin kA) × (S → Fin kB) × (S → Fin H) × (S → Fin V) × (S → Fin H) × (S → Fin V) ≃
      (S → Fin V) × (S → Fin V) × (S → Fin H) × (S → Fin H) × (S → Fin kA) × (S → Fin kB) :=
    { toFun := fun x => (x.2.2.2.1 ∘ P.down.symm, x.2.2.2.2.2, x.2.2.1 ∘ P.down.symm, x.2.2.2.2.1 ∘ P.right.symm, x.1, x.2.1)
      invFun := fun x => (x.2.2.2.2.1, x.2.2.2.2.2, x.2.2.1 ∘ P.down, x.1 ∘ P.down, x.2.2.2.1 ∘ P.right, x.2.1)
      left_inv := fun x => by simp [Function.comp_assoc]
      right_inv := fun x => by simp [Function.comp_assoc] }
  have := Fintype.sum_equiv e (fun x => F x.1 x.2.1 x.2.2.2.1 x.2.2.2.2.2 x.2.2.1 x.2.2.2.2.1)
    (fun x => F x.2.2.2.2.1 x.2.2.2.2.2 (x.1 ∘ P.down) x.2.1 (x.2.2.1 ∘ P.down) (x.2.2.2.1 ∘ P.right)) fun x => by
      simp [e, Function.comp_assoc]
  simpa only [Fintype.sum_prod_type] using this

/-! ### Tori -/

/-- The position `x` on a ring. -/
def ringAt (n : Nat) (h : 0 < n) (x : Int) : Fin n :=
  ⟨(x % n).toNat, by have := Int.emod_nonneg x (b := n) (by omega); have := Int.emod_lt_of_pos x (b := n) (by omega); omega⟩

theorem ringAt_val {n : Nat} (h : 0 < n) (x : Int) : ((ringAt n h x).val : Int) = x % n :=
  Int.toNat_of_nonneg (Int.emod_nonneg x (by omega))

theorem ringAt_succ {n : Nat} (h : 0 < n) (x : Int) : ringAt n h (x + 1) = around (ringAt n h x) := by
  apply Fin.ext
  have : ((ringAt n h (x + 1)).val : Int) = (around (ringAt n h x)).val := by
    rw [ringAt_val]
    unfold around
    push_cast
    rw [ringAt_val, Int.emod_add_emod]
  exact_mod_cast this

theorem ringAt_eq {n : Nat} (h : 0 < n) (x y : Int) : ringAt n h x = ringAt n h y ↔ (n : Int) ∣ y - x := by
  have : ringAt n h x = ringAt n h y ↔ x % n = y % n := by
    rw [← ringAt_val h, ← ringAt_val h, Int.natCast_inj, Fin.val_inj]
  rw [this]
  rw [eq_comm, Int.emod_eq_emod_iff_emod_sub_eq_zero, Int.dvd_iff_emod_eq_zero]

theorem ringAt_surj {n : Nat} (h : 0 < n) (i : Fin n) : ringAt n h i.val = i := by
  apply Fin.ext
  have : ((ringAt n h i.val).val : Int) = i.val := by
    rw [ringAt_val, Int.emod_eq_of_lt (by omega) (by have := i.isLt; omega)]
  exact_mod_cast this

/-- The torus with `a` rows and `b` columns. -/
noncomputable def torusPlane (a b : Nat) : Plane where
  S := Fin a × Fin b
  right := Equiv.prodCongr (Equiv.refl _) (aroundEquiv b)
  down := Equiv.prodCongr (aroundEquiv a) (Equiv.refl _)
  comm := fun _ => rfl

/-- The multiples of `b` to the right, and of `a` down. -/
def boxPeriods (a b : Nat) (x y : Int) : Prop := (b : Int) ∣ x ∧ (a : Int) ∣ y

theorem torusPlane_cover {a b : Nat} (ha : 0 < a) (hb : 0 < b) :
    (torusPlane a b).Cover (fun x y => (ringAt a ha y, ringAt b hb x)) (boxPeriods a b) := by
  refine ⟨?_, ?_, ?_, ?_⟩
  · rintro ⟨i, j⟩
    exact ⟨j.val, i.val, Prod.ext (ringAt_surj ha i) (ringAt_surj hb j)⟩
  · intro x y
    exact Prod.ext rfl (ringAt_succ hb x)
  · intro x y
    exact Prod.ext (ringAt_succ ha y) rfl
  · intro x y x' y'
    refine Iff.trans Prod.mk_inj ?_
    rw [ringAt_eq, ringAt_eq]
    exact and_comm

theorem torusPlane_Z (a b V H : Nat) (T : Nat → Nat → Nat → Nat → R) : (torusPlane a b).Z V H T = torus a b V H T := by
  unfold Z torus
  refine Fintype.sum_equiv (Equiv.curry (Fin a) (Fin b) (Fin V)) _ _ fun v => Fintype.sum_equiv (Equiv.curry (Fin a) (Fin b) (Fin H)) _ _ fun h => ?_
  exact Fintype.prod_prod_type (fun s : Fin a × Fin b => T (v s) (h s) (v (around s.1, s.2)) (h (s.1, around s.2)))

/-- Coordinates for the tilted torus. -/
def tiltedAt (n : Nat) (h : 0 < n) (x y : Int) : Fin n × Fin (2 * n) :=
  (ringAt n h y, ringAt (2 * n) (by omega) (x + n * (y / n)))

theorem tiltedAt_down {n : Nat} (h : 0 < n) (x y : Int) :
    tiltedAt n h x (y + 1) = tiltedBelow (tiltedAt n h x y).1 (tiltedAt n h x y).2 := by
  have hn : (0 : Int) < n := by omega
  have h1 := Int.emod_add_mul_ediv y n
  have h2 := Int.emod_nonneg y hn.ne'
  have h3 := Int.emod_lt_of_pos y hn
  have hv := ringAt_val h y
  unfold tiltedBelow
  split
  · rename_i hlt
    have hlt : (ringAt n h y).val + 1 < n := hlt
    have hd : (y + 1) / n = y / n := by
      rw [Int.ediv_eq_iff_of_pos hn]
      constructor
      · rw [mul_comm]; omega
      · rw [mul_comm]; omega
    refine Prod.ext ?_ ?_
    · apply Fin.ext
      show (ringAt n h (y + 1)).val = (ringAt n h y).val + 1
      rw [ringAt_succ]
      exact Nat.mod_eq_of_lt hlt
    · unfold tiltedAt
      simp only [hd]
  · rename_i hge
    have hge : ¬ (ringAt n h y).val + 1 < n := hge
    have hd : (y + 1) / n = y / n + 1 := by
      rw [Int.ediv_eq_iff_of_pos hn]
      constructor
      · rw [add_mul, mul_comm, one_mul]; omega
      · rw [add_mul, mul_comm, one_mul]; omega
    refine Prod.ext ?_ ?_
    · exact ringAt_succ h y
    · apply Fin.ext
      show (ringAt (2 * n) (by omega) (x + n * ((y + 1) / n))).val = ((ringAt (2 * n) (by omega) (x + n * (y / n))).val + n) % (2 * n)
      rw [hd]
      have : ((ringAt (2 * n) (by omega) (x + n * (y / n + 1))).val : Int) = ((ringAt (2 * n) (by omega) (x + n * (y / n))).val + n : Int) % (2 * n : Nat) := by
        rw [ringAt_val, ringAt_val, Int.emod_add_emod]
        congr 1
        ring
      exact_mod_cast this

theorem tiltedAt_surj {n : Nat} (h : 0 < n) (s : Fin n × Fin (2 * n)) : ∃ x y, tiltedAt n h x y = s := by
  obtain ⟨i, j⟩ := s
  refine ⟨j.val, i.val, ?_⟩
  unfold tiltedAt
  rw [ringAt_surj, Int.ediv_eq_zero_of_lt (by omega) (by have := i.isLt; omega), mul_zero, add_zero, ringAt_surj]

theorem tiltedBelow_bijective (n : Nat) : Function.Bijective fun s : Fin n × Fin (2 * n) => tiltedBelow s.1 s.2 := by
  rw [← Finite.surjective_iff_bijective]
  intro s
  have h : 0 < n := by have := s.1.isLt; omega
  obtain ⟨x, y, rfl⟩ := tiltedAt_surj h s
  refine ⟨tiltedAt n h x (y - 1), ?_⟩
  have := tiltedAt_down h x (y - 1)
  rw [Int.sub_add_cancel] at this
  exact this.symm

/-- The torus with diagonal periods. -/
noncomputable def tiltedPlane (n : Nat) : Plane where
  S := Fin n × Fin (2 * n)
  right := Equiv.prodCongr (Equiv.refl _) (aroundEquiv (2 * n))
  down := Equiv.ofBijective _ (tiltedBelow_bijective n)
  comm := by
    intro s
    have h : 0 < n := by have := s.1.isLt; omega
    obtain ⟨x, y, rfl⟩ := tiltedAt_surj h s
    have hr : ∀ x y, Equiv.prodCongr (Equiv.refl _) (aroundEquiv (2 * n)) (tiltedAt n h x y) = tiltedAt n h (x + 1) y := by
      intro x y
      refine Prod.ext rfl ?_
      show around _ = ringAt (2 * n) (by omega) _
      rw [add_right_comm, ringAt_succ]
    simp only [Equiv.ofBijective_apply, ← tiltedAt_down, hr]

theorem tiltedPlane_cover {n : Nat} (h : 0 < n) : (tiltedPlane n).Cover (tiltedAt n h) (halfPeriods (boxPeriods n n)) := by
  refine ⟨tiltedAt_surj h, ?_, tiltedAt_down h, ?_⟩
  · intro x y
    refine Prod.ext rfl ?_
    show ringAt (2 * n) (by omega) _ = around _
    rw [add_right_comm, ringAt_succ]
  · intro x y x' y'
    unfold tiltedAt
    refine Iff.trans Prod.mk_inj ?_
    rw [ringAt_eq, ringAt_eq]
    have hn : (n : Int) ≠ 0 := by omega
    unfold halfPeriods boxPeriods
    have hdiv : ∀ c, y' - y = n * c → y' / n = y / n + c := by
      intro c hc
      rw [show y' = y + n * c by omega, Int.add_mul_ediv_left _ _ hn]
    push_cast
    constructor
    · rintro ⟨⟨c, hc⟩, e, he⟩
      rw [hdiv c hc] at he
      refine ⟨n * e, n * e - n * c, by linarith, by linarith, ⟨e - c, by ring⟩, ⟨e, rfl⟩⟩
    · rintro ⟨m, k, e1, e2, ⟨b, rfl⟩, ⟨a, rfl⟩⟩
      have hc : y' - y = n * (a - b) := by rw [e2]; ring
      refine ⟨⟨a - b, hc⟩, a, ?_⟩
      rw [hdiv _ hc]
      linarith

theorem tiltedPlane_Z (n V H : Nat) (T : Nat → Nat → Nat → Nat → R) : (tiltedPlane n).Z V H T = tiltedTorus n V H T := by
  unfold Z tiltedTorus
  refine Fintype.sum_equiv (Equiv.curry (Fin n) (Fin (2 * n)) (Fin V)) _ _ fun v =>
    Fintype.sum_equiv (Equiv.curry (Fin n) (Fin (2 * n)) (Fin H)) _ _ fun h => ?_
  exact Fintype.prod_prod_type (fun s : Fin n × Fin (2 * n) => T (v s) (h s) (v (tiltedBelow s.1 s.2)) (h (s.1, around s.2)))

/-! ### Many refinements -/

theorem iterate_cover : ∀ (n : Nat) {P : Plane} {K : Int → Int → Prop}, (∃ π, P.Cover π K) →
    ∃ π, (Plane.refine^[n] P).Cover π (halfPeriods^[n] K)
  | 0, _, _, h => h
  | n + 1, _, _, ⟨_, h⟩ => iterate_cover n ⟨_, h.refine⟩

theorem half_half (n : Nat) : halfPeriods (halfPeriods (boxPeriods n n)) = boxPeriods (2 * n) (2 * n) := by
  funext x y
  apply propext
  simp only [halfPeriods, boxPeriods, Nat.cast_mul, Nat.cast_ofNat]
  constructor
  · rintro ⟨m, k, rfl, rfl, m', k', rfl, rfl, ⟨b, rfl⟩, ⟨a, rfl⟩⟩
    exact ⟨⟨a, by ring⟩, ⟨-b, by ring⟩⟩
  · rintro ⟨⟨a, rfl⟩, ⟨b, rfl⟩⟩
    exact ⟨n * a + n * b, n * a - n * b, by ring, by ring, n * a, -((n : Int) * b), by ring, by ring, ⟨-b, by ring⟩, ⟨a, rfl⟩⟩

theorem half_even (j : Nat) : halfPeriods^[2 * j] (boxPeriods 1 1) = boxPeriods (2 ^ j) (2 ^ j) := by
  induction j with
  | zero => rfl
  | succ j ih =>
    rw [show 2 * (j + 1) = 2 * j + 1 + 1 by ring, Function.iterate_succ_apply', Function.iterate_succ_apply', ih, half_half, pow_succ, mul_comm]

/-- One site. -/
noncomputable def point : Plane := torusPlane 1 1

theorem Z_point (V H : Nat) (T : Nat → Nat → Nat → Nat → R) : point.Z V H T = ∑ i ∈ range V, ∑ j ∈ range H, T i j i j := by
  unfold point
  rw [torusPlane_Z, torus_one]

theorem card_point : Fintype.card point.S = 1 := by
  have : Fintype.card point.S = Fintype.card (Fin 1 × Fin 1) := Fintype.card_congr (Equiv.refl _)
  rw [this]
  rfl

theorem Z_even (j V H : Nat) (T : Nat → Nat → Nat → Nat → R) :
    (Plane.refine^[2 * j] point).Z V H T = torus (2 ^ j) (2 ^ j) V H T := by
  obtain ⟨π, h⟩ := iterate_cover (2 * j) ⟨_, torusPlane_cover (by decide : 0 < 1) (by decide : 0 < 1)⟩
  rw [half_even] at h
  have hp : 0 < 2 ^ j := Nat.pow_pos (by decide)
  rw [← torusPlane_Z]
  exact Z_cover h (torusPlane_cover hp hp) V H T

theorem Z_odd (j V H : Nat) (T : Nat → Nat → Nat → Nat → R) :
    (Plane.refine^[2 * j + 1] point).Z V H T = tiltedTorus (2 ^ j) V H T := by
  obtain ⟨π, h⟩ := iterate_cover (2 * j + 1) ⟨_, torusPlane_cover (by decide : 0 < 1) (by decide : 0 < 1)⟩
  have e : halfPeriods^[2 * j + 1] (boxPeriods 1 1) = halfPeriods (boxPeriods (2 ^ j) (2 ^ j)) := by
    rw [Function.iterate_succ_apply', half_even]
  rw [e] at h
  have hp : 0 < 2 ^ j := Nat.pow_pos (by decide)
  rw [← tiltedPlane_Z]
  exact Z_cover h (tiltedPlane_cover hp) V H T

end Plane
end CTL
