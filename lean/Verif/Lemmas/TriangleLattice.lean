import Verif.Lemmas.Honey
import Verif.Spec.TriangleTRG
import Mathlib.Algebra.Order.BigOperators.Group.Finset
import Mathlib.Algebra.Order.Field.Basic

/-! The lattices of `TriangleTRG`. -/

namespace CTL
namespace Honey

theorem grown_succ (i : Nat) : grown (i + 1) = (grown i).refine := Function.iterate_succ_apply' _ _ _

theorem card_grown : ∀ i, Fintype.card (grown i).S = 3 ^ i
  | 0 => card_point
  | i + 1 => by rw [grown_succ, card_refine, card_grown i, pow_succ, mul_comm]

theorem face_self (G : Honey) (c : Fin 3) (s : G.S) : G.face c c s = s := by simp [face]

theorem face_face (G : Honey) (c d : Fin 3) (s : G.S) : G.face d c (G.face c d s) = s := by simp [face]

theorem bigons_symm (G : Honey) (c d : Fin 3) : G.bigons c d = G.bigons d c := by
  unfold bigons
  congr 1
  refine Finset.filter_congr fun s _ => ⟨fun h => ?_, fun h => ?_⟩
  · have := face_face G c d s
    rwa [h] at this
  · have := face_face G d c s
    rwa [h] at this

/-- Every face has two or six bonds. -/
def Hexagonal (G : Honey) : Prop := ∀ c d s, G.face c d (G.face c d (G.face c d s)) = s

theorem three_inverse (G : Honey) {c d : Fin 3} (h : ∀ s, G.face c d (G.face c d (G.face c d s)) = s) (s : G.S) :
    G.face d c (G.face d c (G.face d c s)) = s := by
  conv_lhs => rw [← h s]
  simp only [face_face]

theorem refine_hexagonal {G : Honey} (h : G.Hexagonal) : G.refine.Hexagonal := by
  have h01 := fun s => (face_01 G s).2
  have h02 := fun s => (face_02 G s).2
  have h12 : ∀ s, G.refine.face 1 2 (G.refine.face 1 2 (G.refine.face 1 2 s)) = s := by
    rintro ⟨s, c⟩
    rw [face_12, face_12, face_12, h]
  intro c d
  match c, d with
  | 0, 0 => intro s; simp only [face_self]
  | 1, 1 => intro s; simp only [face_self]
  | 2, 2 => intro s; simp only [face_self]
  | 0, 1 => exact h01
  | 0, 2 => exact h02
  | 1, 2 => exact h12
  | 1, 0 => exact three_inverse _ h01
  | 2, 0 => exact three_inverse _ h02
  | 2, 1 => exact three_inverse _ h12

theorem grown_hexagonal : ∀ i, (grown i).Hexagonal
  | 0 => fun _ _ _ => rfl
  | i + 1 => by
    rw [grown_succ]
    exact refine_hexagonal (grown_hexagonal i)

theorem refine_bigons (G : Honey) : G.refine.bigons 0 1 = 0 ∧ G.refine.bigons 0 2 = 0 ∧
    G.refine.bigons 1 2 = G.bigons 0 1 + G.bigons 0 2 + G.bigons 1 2 := by
  refine ⟨?_, ?_, ?_⟩
  · unfold bigons
    rw [Finset.card_eq_zero, Finset.filter_eq_empty_iff]
    exact fun s _ => (face_01 G s).1
  · unfold bigons
    rw [Finset.card_eq_zero, Finset.filter_eq_empty_iff]
    exact fun s _ => (face_02 G s).1
  · have e : G.refine.bigons 1 2 = ∑ p : G.S × Fin 3, if G.face (p.2 + 1) p.2 p.1 = p.1 then 1 else 0 := by
      unfold bigons
      rw [Finset.card_filter]
      refine Finset.sum_congr rfl fun p _ => ?_
      obtain ⟨s, c⟩ := p
      have : G.refine.face 1 2 (s, c) = (s, c) ↔ G.face (c + 1) c s = s := by
        rw [face_12]
        exact ⟨fun h => congrArg Prod.fst h, fun h => by rw [h]⟩
      by_cases h : G.face (c + 1) c s = s
      · rw [if_pos (this.mpr h)]
        exact (if_pos h).symm
      · rw [if_neg fun e => h (this.mp e)]
        exact (if_neg h).symm
    rw [e, Fintype.sum_prod_type_right, Fin.sum_univ_three]
    have b : ∀ c : Fin 3, (∑ s, if G.face (c + 1) c s = s then 1 else 0) = G.bigons (c + 1) c := fun c => by
      unfold bigons
      rw [Finset.card_filter]
    show (∑ s, if G.face (0 + 1) 0 s = s then 1 else 0) + (∑ s, if G.face (1 + 1) 1 s = s then 1 else 0) + (∑ s, if G.face (2 + 1) 2 s = s then 1 else 0) = _
    rw [b, b, b]
    show G.bigons 1 0 + G.bigons 2 1 + G.bigons 0 2 = _
    rw [bigons_symm G 1 0, bigons_symm G 2 1]
    omega

theorem grown_bigons : ∀ i, (grown i).bigons 0 1 + (grown i).bigons 0 2 + (grown i).bigons 1 2 = 3
  | 0 => by decide
  | i + 1 => by
    rw [grown_succ, (refine_bigons _).1, (refine_bigons _).2.1, (refine_bigons _).2.2, Nat.zero_add]
    exact grown_bigons i

theorem refine_connected {G : Honey} (h : G.Connected) : G.refine.Connected := by
  have turn : ∀ (s : G.S) (c d : Fin 3), Relation.ReflTransGen (fun x y => ∃ c d, y = G.refine.face c d x) (s, c) (s, d) := by
    intro s c d
    have up1 : ∀ c : Fin 3, Relation.ReflTransGen (fun x y => ∃ c d, y = G.refine.face c d x) (s, c) (s, c + 1) :=
      fun c => .single ⟨1, 0, rfl⟩
    have h3 : ∀ c d : Fin 3, d = c ∨ d = c + 1 ∨ d = c + 1 + 1 := by decide
    rcases h3 c d with rfl | rfl | rfl
    · exact .refl
    · exact up1 c
    · exact (up1 c).trans (up1 (c + 1))
  have step : ∀ (s : G.S) (c d : Fin 3), Relation.ReflTransGen (fun x y => ∃ c d, y = G.refine.face c d x) (s, c) (G.face c d s, d) := by
    intro s c d
    have h3 : ∀ c d : Fin 3, d = c ∨ d = c + 1 ∨ d = c - 1 := by decide
    rcases h3 c d with rfl | rfl | rfl
    · rw [face_self]
      exact .refl
    · exact .single ⟨2, 0, rfl⟩
    · exact .single ⟨0, 2, rfl⟩
  rintro ⟨s, c⟩ ⟨t, d⟩
  have key : ∀ d, Relation.ReflTransGen (fun x y => ∃ c d, y = G.refine.face c d x) (s, c) (t, d) := by
    induction h s t with
    | refl => exact turn s c
    | tail _ e ih =>
      obtain ⟨c', d', rfl⟩ := e
      exact fun d => ((ih c').trans (step _ c' d')).trans (turn _ d' d)
  exact key d

theorem grown_connected : ∀ i, (grown i).Connected
  | 0 => fun _ _ => .refl
  | i + 1 => by
    rw [grown_succ]
    exact refine_connected (grown_connected i)

theorem dimers_pos {K : Type} [Field K] [LinearOrder K] [IsStrictOrderedRing K] (G : Honey) (alpha : K) : 0 < G.dimers (alpha * alpha) := by
  classical
  unfold dimers
  refine lt_of_lt_of_le one_pos (le_trans ?_ (Finset.single_le_sum (f := fun M : Finset (G.S × Fin 3) => if G.Matching M then (alpha * alpha) ^ M.card else 0) (fun M _ => ?_) (Finset.mem_univ ∅)))
  · show _ ≤ if G.Matching ∅ then (alpha * alpha) ^ (∅ : Finset (G.S × Fin 3)).card else 0
    have h : G.Matching ∅ := fun e he => absurd he (Finset.notMem_empty e)
    rw [if_pos h]
    simp
  · show (0 : K) ≤ if G.Matching M then (alpha * alpha) ^ M.card else 0
    split
    · exact pow_nonneg (mul_self_nonneg alpha) _
    · exact le_rfl

end Honey
end CTL
