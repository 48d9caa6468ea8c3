import Verif.Spec.Honey
import Mathlib.Algebra.BigOperators.Ring.Finset
import Mathlib.Algebra.BigOperators.Pi
import Mathlib.Tactic.Ring

/-! Partition functions of lattices with three bonds at each site, and their refinement. -/

namespace CTL

open Finset (range)

namespace Honey
variable {R : Type} [CommSemiring R]

theorem Z_congr (G : Honey) (D : Nat) {a a' b b' : Nat → Nat → Nat → R} (ha : ∀ x < D, ∀ y < D, ∀ z < D, a x y z = a' x y z)
    (hb : ∀ x < D, ∀ y < D, ∀ z < D, b x y z = b' x y z) : G.Z D a b = G.Z D a' b' := by
  unfold Z
  refine Finset.sum_congr rfl fun x _ => congrArg₂ _ ?_ ?_
  · exact Finset.prod_congr rfl fun s _ => ha _ (Fin.isLt _) _ (Fin.isLt _) _ (Fin.isLt _)
  · exact Finset.prod_congr rfl fun s _ => hb _ (Fin.isLt _) _ (Fin.isLt _) _ (Fin.isLt _)

theorem Z_scale (G : Honey) (D : Nat) (c d : R) (a b : Nat → Nat → Nat → R) :
    G.Z D (fun x y z => c * a x y z) (fun x y z => d * b x y z) = (c * d) ^ Fintype.card G.S * G.Z D a b := by
  unfold Z
  rw [Finset.mul_sum]
  refine Finset.sum_congr rfl fun x _ => ?_
  simp only [Finset.prod_mul_distrib, Finset.prod_const, Finset.card_univ, mul_pow]
  ring

theorem card_refine (G : Honey) : Fintype.card G.refine.S = 3 * Fintype.card G.S := by
  show Fintype.card (G.S × Fin 3) = _
  rw [Fintype.card_prod, Fintype.card_fin, mul_comm]

theorem card_point : Fintype.card point.S = 1 := by
  show Fintype.card Unit = 1
  simp

/-- A product over the pairs of a site and a bond, summed over the indices of the bonds 1. -/
theorem sum_corners {S : Type} [Fintype S] [DecidableEq S] (D k : Nat) (u : Nat → Nat → Nat → R) (κ : S × Fin 3 → Fin k) :
    ∑ y : S × Fin 3 → Fin D, ∏ p : S × Fin 3, u (y p) (y (p.1, p.2 - 1)) (κ p) = ∏ s, corners D u (κ (s, 0)) (κ (s, 1)) (κ (s, 2)) := by
  unfold corners
  rw [Fintype.prod_sum]
  refine Fintype.sum_equiv (Equiv.curry S (Fin 3) (Fin D)) _ _ fun y => ?_
  rw [Fintype.prod_prod_type]
  refine Finset.prod_congr rfl fun s _ => ?_
  rw [Fin.prod_univ_three]
  rfl

/-- Splitting every pair of sites into two factors turns the refined lattice into the original one. -/
theorem Z_refine (G : Honey) {D k : Nat} {a b u v : Nat → Nat → Nat → R}
    (h : ∀ a2 < D, ∀ b2 < D, ∀ a3 < D, ∀ b3 < D, ∑ w ∈ range D, a w a2 a3 * b w b2 b3 = ∑ o ∈ range k, u a2 b2 o * v a3 b3 o) :
    G.Z k (corners D u) (corners D v) = G.refine.Z D a b := by
  -- three families of bonds
  have e1 : G.refine.Z D a b = ∑ y : G.S × Fin 3 → Fin D, ∑ z : G.S × Fin 3 → Fin D, ∑ w : G.S × Fin 3 → Fin D,
      ∏ p : G.S × Fin 3, a (w p) (y p) (z p) * b (w p) (y (p.1, p.2 - 1)) (z ((G.σ (p.2 - 1)).symm (G.σ p.2 p.1), p.2 - 1)) := by
    unfold Z
    have := Fintype.sum_equiv (M := R)
      (show ((G.S × Fin 3) × Fin 3 → Fin D) ≃ (G.S × Fin 3 → Fin D) × (G.S × Fin 3 → Fin D) × (G.S × Fin 3 → Fin D) from
        ⟨fun x => (fun p => x (p, 1), fun p => x (p, 2), fun p => x (p, 0)),
         fun f q => match q with
          | (p, 0) => f.2.2 p
          | (p, 1) => f.1 p
          | (p, 2) => f.2.1 p,
         fun x => by
          funext ⟨p, c⟩
          match c with
          | 0 => rfl
          | 1 => rfl
          | 2 => rfl,
         fun f => rfl⟩)
      (fun x => (∏ p, a (x (p, 0)) (x (p, 1)) (x (p, 2))) * ∏ p, b (x ((G.refine.σ 0).symm p, 0)) (x ((G.refine.σ 1).symm p, 1)) (x ((G.refine.σ 2).symm p, 2)))
      (fun f => ∏ p : G.S × Fin 3, a (f.2.2 p) (f.1 p) (f.2.1 p) *
        b (f.2.2 p) (f.1 (p.1, p.2 - 1)) (f.2.1 ((G.σ (p.2 - 1)).symm (G.σ p.2 p.1), p.2 - 1)))
      (fun x => by rw [Finset.prod_mul_distrib]; rfl)
    refine Eq.trans this ?_
    simp only [Fintype.sum_prod_type]
  -- the pairs of sites
  have e2 : ∀ y z : G.S × Fin 3 → Fin D, (∑ w : G.S × Fin 3 → Fin D,
      ∏ p : G.S × Fin 3, a (w p) (y p) (z p) * b (w p) (y (p.1, p.2 - 1)) (z ((G.σ (p.2 - 1)).symm (G.σ p.2 p.1), p.2 - 1))) =
      ∑ κ : G.S × Fin 3 → Fin k, (∏ p : G.S × Fin 3, u (y p) (y (p.1, p.2 - 1)) (κ p)) *
        ∏ p : G.S × Fin 3, v (z p) (z ((G.σ (p.2 - 1)).symm (G.σ p.2 p.1), p.2 - 1)) (κ p) := by
    intro y z
    have f1 := Fintype.prod_sum (fun (p : G.S × Fin 3) (w : Fin D) =>
      a w (y p) (z p) * b w (y (p.1, p.2 - 1)) (z ((G.σ (p.2 - 1)).symm (G.σ p.2 p.1), p.2 - 1)))
    have f2 := Fintype.prod_sum (fun (p : G.S × Fin 3) (o : Fin k) =>
      u (y p) (y (p.1, p.2 - 1)) o * v (z p) (z ((G.σ (p.2 - 1)).symm (G.σ p.2 p.1), p.2 - 1)) o)
    rw [← f1]
    simp only [← Finset.prod_mul_distrib]
    rw [← f2]
    refine Finset.prod_congr rfl fun p _ => ?_
    rw [Fin.sum_univ_eq_sum_range (fun w => a w (y p) (z p) * b w (y (p.1, p.2 - 1)) (z ((G.σ (p.2 - 1)).symm (G.σ p.2 p.1), p.2 - 1))) D,
      Fin.sum_univ_eq_sum_range (fun o => u (y p) (y (p.1, p.2 - 1)) o * v (z p) (z ((G.σ (p.2 - 1)).symm (G.σ p.2 p.1), p.2 - 1)) o) k]
    exact h _ (Fin.isLt _) _ (Fin.isLt _) _ (Fin.isLt _) _ (Fin.isLt _)
  -- the sum around the sites of kind B
  have e3 : ∀ κ : G.S × Fin 3 → Fin k, (∑ z : G.S × Fin 3 → Fin D,
      ∏ p : G.S × Fin 3, v (z p) (z ((G.σ (p.2 - 1)).symm (G.σ p.2 p.1), p.2 - 1)) (κ p)) =
      ∏ s, corners D v (κ ((G.σ 0).symm s, 0)) (κ ((G.σ 1).symm s, 1)) (κ ((G.σ 2).symm s, 2)) := by
    intro κ
    let φ : G.S × Fin 3 ≃ G.S × Fin 3 :=
      ⟨fun p => (G.σ p.2 p.1, p.2), fun p => ((G.σ p.2).symm p.1, p.2), fun p => by simp, fun p => by simp⟩
    have := sum_corners D k v (fun p => κ (φ.symm p))
    refine Eq.trans ?_ this
    refine Fintype.sum_equiv (Equiv.arrowCongr φ (Equiv.refl _)) _ _ fun z => ?_
    refine Fintype.prod_equiv φ _ _ fun p => ?_
    show _ = v (z (φ.symm (φ p))) (z (φ.symm ((φ p).1, (φ p).2 - 1))) (κ (φ.symm (φ p)))
    rw [Equiv.symm_apply_apply]
    rfl
  rw [e1]
  simp only [e2]
  unfold Z
  have e4 : ∀ y : G.S × Fin 3 → Fin D, (∑ z : G.S × Fin 3 → Fin D, ∑ κ : G.S × Fin 3 → Fin k,
      (∏ p : G.S × Fin 3, u (y p) (y (p.1, p.2 - 1)) (κ p)) *
        ∏ p : G.S × Fin 3, v (z p) (z ((G.σ (p.2 - 1)).symm (G.σ p.2 p.1), p.2 - 1)) (κ p)) =
      ∑ κ : G.S × Fin 3 → Fin k, (∏ p : G.S × Fin 3, u (y p) (y (p.1, p.2 - 1)) (κ p)) *
        ∏ s, corners D v (κ ((G.σ 0).symm s, 0)) (κ ((G.σ 1).symm s, 1)) (κ ((G.σ 2).symm s, 2)) := by
    intro y
    rw [Finset.sum_comm]
    refine Finset.sum_congr rfl fun κ _ => ?_
    rw [← Finset.mul_sum, e3]
  simp only [e4]
  rw [Finset.sum_comm]
  refine Finset.sum_congr rfl fun κ _ => ?_
  rw [← Finset.sum_mul, sum_corners]

/-- Two sites joined by three bonds. -/
theorem Z_point (D : Nat) (a b : Nat → Nat → Nat → R) :
    point.Z D a b = ∑ x ∈ range D, ∑ y ∈ range D, ∑ z ∈ range D, a x y z * b x y z := by
  unfold Z
  have := Fintype.sum_equiv (M := R)
    (show (Unit × Fin 3 → Fin D) ≃ Fin D × Fin D × Fin D from
      ⟨fun x => (x ((), 0), x ((), 1), x ((), 2)),
       fun f q => match q with
        | ((), 0) => f.1
        | ((), 1) => f.2.1
        | ((), 2) => f.2.2,
       fun x => by
        funext ⟨p, c⟩
        match c with
        | 0 => rfl
        | 1 => rfl
        | 2 => rfl,
       fun f => rfl⟩)
    (fun x => (∏ p, a (x (p, 0)) (x (p, 1)) (x (p, 2))) * ∏ p, b (x ((point.σ 0).symm p, 0)) (x ((point.σ 1).symm p, 1)) (x ((point.σ 2).symm p, 2)))
    (fun f => a f.1 f.2.1 f.2.2 * b f.1 f.2.1 f.2.2)
    (fun x => by
      haveI : Unique point.S := inferInstanceAs (Unique Unit)
      rw [Fintype.prod_unique, Fintype.prod_unique]
      rfl)
  refine Eq.trans this ?_
  simp only [Fintype.sum_prod_type]
  rw [← Fin.sum_univ_eq_sum_range (fun x => ∑ y ∈ range D, ∑ z ∈ range D, a x y z * b x y z) D]
  refine Finset.sum_congr rfl fun x _ => ?_
  rw [← Fin.sum_univ_eq_sum_range (fun y => ∑ z ∈ range D, a x y z * b x y z) D]
  refine Finset.sum_congr rfl fun y _ => ?_
  rw [← Fin.sum_univ_eq_sum_range (fun z => a x y z * b x y z) D]

/-! ### Faces -/

/-- The faces between bonds 0 and 1 are hexagons. -/
theorem face_01 (G : Honey) (s : G.refine.S) : G.refine.face 0 1 s ≠ s ∧ G.refine.face 0 1 (G.refine.face 0 1 (G.refine.face 0 1 s)) = s := by
  obtain ⟨s, c⟩ := s
  have h : ∀ c : Fin 3, c - 1 ≠ c ∧ c - 1 - 1 - 1 = c := by decide
  constructor
  · exact fun e => (h c).1 (congrArg Prod.snd e)
  · exact Prod.ext rfl (h c).2

/-- So are those between bonds 0 and 2. -/
theorem face_02 (G : Honey) (s : G.refine.S) : G.refine.face 0 2 s ≠ s ∧ G.refine.face 0 2 (G.refine.face 0 2 (G.refine.face 0 2 s)) = s := by
  obtain ⟨s, c⟩ := s
  have h : ∀ c : Fin 3, c - 1 ≠ c ∧ c - 1 - 1 - 1 = c := by decide
  constructor
  · exact fun e => (h c).1 (congrArg Prod.snd e)
  · refine Prod.ext ?_ (h c).2
    show (G.σ (c - 1 - 1 - 1)).symm (G.σ (c - 1 - 1) ((G.σ (c - 1 - 1)).symm (G.σ (c - 1) ((G.σ (c - 1)).symm (G.σ c s))))) = s
    simp [(h c).2]

/-- Those between bonds 1 and 2 are the faces of the original lattice. -/
theorem face_12 (G : Honey) (s : G.S) (c : Fin 3) : G.refine.face 1 2 (s, c) = (G.face (c + 1) c s, c) := by
  show ((G.σ (c + 1 - 1)).symm (G.σ (c + 1) s), c + 1 - 1) = _
  rw [up]
  rfl

/-! ### Dimers -/

theorem at_most_one : ∀ f : Fin 3 → Fin 2, (f 0 : Nat) + f 1 + f 2 ≤ 1 ↔ ∀ c d, f c = 1 → f d = 1 → c = d := by decide

theorem bit_if : ∀ v : Fin 2, (if v = 1 then (1 : Fin 2) else 0) = v := by decide
theorem bit_val : ∀ v : Fin 2, (v : Nat) = if v = 1 then 1 else 0 := by decide

open Classical in
/-- The weights of all sites of one kind; `ψ` are the bonds of a site. -/
theorem prod_dimerSite {S : Type} [Fintype S] [DecidableEq S] (ψ : S × Fin 3 ≃ S × Fin 3) (α : R) (x : S × Fin 3 → Fin 2) :
    ∏ s, dimerSite α (x (ψ (s, 0))) (x (ψ (s, 1))) (x (ψ (s, 2))) =
      if ∀ s c d, x (ψ (s, c)) = 1 → x (ψ (s, d)) = 1 → c = d then α ^ (∑ p, (x p : Nat)) else 0 := by
  unfold dimerSite
  have h := Finset.prod_ite_zero (s := (Finset.univ : Finset S)) (p := fun s => (x (ψ (s, 0)) : Nat) + x (ψ (s, 1)) + x (ψ (s, 2)) ≤ 1)
    (f := fun s => α ^ ((x (ψ (s, 0)) : Nat) + x (ψ (s, 1)) + x (ψ (s, 2))))
  rw [h]
  have h1 : (∀ s ∈ (Finset.univ : Finset S), (x (ψ (s, 0)) : Nat) + x (ψ (s, 1)) + x (ψ (s, 2)) ≤ 1) ↔
      ∀ s c d, x (ψ (s, c)) = 1 → x (ψ (s, d)) = 1 → c = d :=
    ⟨fun h s => (at_most_one fun c => x (ψ (s, c))).mp (h s (Finset.mem_univ s)),
      fun h s _ => (at_most_one fun c => x (ψ (s, c))).mpr (h s)⟩
  rw [Finset.prod_pow_eq_pow_sum]
  have h2 : ∑ s, ((x (ψ (s, 0)) : Nat) + x (ψ (s, 1)) + x (ψ (s, 2))) = ∑ p, (x p : Nat) := by
    rw [← Equiv.sum_comp ψ, Fintype.sum_prod_type]
    exact Finset.sum_congr rfl fun s _ => (Fin.sum_univ_three fun c => (x (ψ (s, c)) : Nat)).symm
  rw [h2]
  by_cases h3 : ∀ s c d, x (ψ (s, c)) = 1 → x (ψ (s, d)) = 1 → c = d
  · rw [if_pos h3, if_pos (h1.mpr h3)]
  · rw [if_neg h3, if_neg fun h => h3 (h1.mp h)]

/-- The lattice of these weights is the partition function of the dimers. -/
theorem Z_dimers (G : Honey) (α : R) : G.Z 2 (dimerSite α) (dimerSite α) = G.dimers (α * α) := by
  classical
  unfold Z dimers
  refine Fintype.sum_equiv
    (show (G.S × Fin 3 → Fin 2) ≃ Finset (G.S × Fin 3) from
      ⟨fun x => Finset.univ.filter fun e => x e = 1, fun M e => if e ∈ M then 1 else 0, fun x => by
        funext e
        simpa using bit_if (x e), fun M => by ext e; simp⟩) _ _ fun x => ?_
  let φ : G.S × Fin 3 ≃ G.S × Fin 3 :=
    ⟨fun p => ((G.σ p.2).symm p.1, p.2), fun p => (G.σ p.2 p.1, p.2), fun p => by simp, fun p => by simp⟩
  have h1 : _ = if ∀ s c d, x (s, c) = 1 → x (s, d) = 1 → c = d then _ else _ := prod_dimerSite (Equiv.refl (G.S × Fin 3)) α x
  have h2 := prod_dimerSite φ α x
  have h3 : (∏ s, dimerSite α (x ((G.σ 0).symm s, 0)) (x ((G.σ 1).symm s, 1)) (x ((G.σ 2).symm s, 2))) =
    ∏ s, dimerSite α (x (φ (s, 0))) (x (φ (s, 1))) (x (φ (s, 2))) := rfl
  have h4 : (∏ s, dimerSite α (x (s, 0)) (x (s, 1)) (x (s, 2))) =
    ∏ s, dimerSite α (x (Equiv.refl _ (s, 0))) (x (Equiv.refl _ (s, 1))) (x (Equiv.refl _ (s, 2))) := rfl
  have hs : ∑ p, (x p : Nat) = (Finset.univ.filter fun e => x e = 1).card := by
    rw [Finset.card_filter]
    refine Finset.sum_congr rfl fun p _ => ?_
    exact bit_val _
  have hm : G.Matching (Finset.univ.filter fun e => x e = 1) ↔
      (∀ s c d, x (s, c) = 1 → x (s, d) = 1 → c = d) ∧ ∀ s c d, x (φ (s, c)) = 1 → x (φ (s, d)) = 1 → c = d := by
    constructor
    · intro h
      refine ⟨fun s c d hc hd => ?_, fun s c d hc hd => ?_⟩
      · exact congrArg Prod.snd (h (s, c) (by simpa using hc) (s, d) (by simpa using hd) (Or.inl rfl))
      · refine congrArg Prod.snd (h (φ (s, c)) (by simpa using hc) (φ (s, d)) (by simpa using hd) (Or.inr ?_))
        simp [ends, φ]
    · rintro ⟨ha, hb⟩ ⟨s, c⟩ he ⟨t, d⟩ hf hst
      simp only [Finset.mem_filter, Finset.mem_univ, true_and] at he hf
      rcases hst with e | e
      · obtain rfl : s = t := e
        rw [ha s c d he hf]
      · have e : G.σ c s = G.σ d t := e
        have h5 : φ (G.σ c s, c) = (s, c) := by simp [φ]
        have h6 : φ (G.σ c s, d) = (t, d) := by rw [e]; simp [φ]
        obtain rfl := hb (G.σ c s) c d (h5 ▸ he) (h6 ▸ hf)
        exact Prod.ext ((G.σ c).injective e) rfl
  rw [h3, h4, h1, h2, hs, mul_pow]
  show _ = if G.Matching (Finset.univ.filter fun e => x e = 1) then α ^ (Finset.univ.filter fun e => x e = 1).card * α ^ (Finset.univ.filter fun e => x e = 1).card else _
  by_cases p1 : ∀ s c d, x (s, c) = 1 → x (s, d) = 1 → c = d
  · by_cases p2 : ∀ s c d, x (φ (s, c)) = 1 → x (φ (s, d)) = 1 → c = d
    · rw [if_pos p1, if_pos p2, if_pos (hm.mpr ⟨p1, p2⟩)]
    · rw [if_neg p2, if_neg fun h => p2 (hm.mp h).2, mul_zero]
  · rw [if_neg p1, if_neg fun h => p1 (hm.mp h).1, zero_mul]

end Honey

end CTL
