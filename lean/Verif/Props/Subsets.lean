import Verif.Lemmas.Bits
import Mathlib.Tactic.IntervalCases

/-!
# C09 – splits of a tensor set are enumerated exactly once

A set of tensors is a mask `x`; tensor `i` belongs to it iff bit `i` is set. A split of `x` is a
pair of disjoint non-empty masks covering `x`, stated below bit by bit.
-/

namespace CTL

/-- Independent description of an ordered split of `x` into two non-empty parts. -/
def IsSplit (x a b : Nat) : Prop :=
  a ≠ 0 ∧ b ≠ 0 ∧ ∀ i, (x.testBit i = (a.testBit i ^^ b.testBit i)) ∧
    ¬ (a.testBit i = true ∧ b.testBit i = true)

/-- For every split `(a, b)` of `x`, exactly one of `a` and `b` is produced by
`subsetIterator(x)`; the code pairs a produced `a` with `x - a`, which is `b`. -/
theorem C09_split_complete (x a b : Nat) (h : IsSplit x a b) :
    ((a ∈ subsetIterator x ∧ b ∉ subsetIterator x) ∨ (b ∈ subsetIterator x ∧ a ∉ subsetIterator x)) ∧
      x - a = b := by
  obtain ⟨ha, hb, hbits⟩ := h
  have hsa : SubMask a x := by
    intro i hi
    have := hbits i
    rw [hi] at this
    cases hb' : b.testBit i <;> simp_all
  have hsb : SubMask b x := by
    intro i hi
    have := hbits i
    rw [hi] at this
    cases hb' : a.testBit i <;> simp_all
  have hsub : x - a = b := by
    apply Nat.eq_of_testBit_eq
    intro i
    rw [testBit_sub_subMask hsa, (hbits i).1]
    have := (hbits i).2
    cases h1 : a.testBit i <;> cases h2 : b.testBit i <;> simp_all
  have hle := subMask_le hsa
  refine ⟨?_, hsub⟩
  rw [mem_subsetIterator, mem_subsetIterator]
  have hne : a ≠ b := by
    rintro rfl
    apply ha
    apply Nat.eq_of_testBit_eq
    intro i
    have := (hbits i).2
    cases h1 : a.testBit i <;> simp_all
  rcases Nat.lt_or_ge a b with h | h
  · left
    exact ⟨⟨hsa, by omega, by omega⟩, fun hc => by omega⟩
  · right
    exact ⟨⟨hsb, by omega, by omega⟩, fun hc => by omega⟩

/-- Conversely every produced mask gives a split, and no mask is produced twice (the enumeration is
strictly increasing). -/
theorem C09_split_sound (x : Nat) :
    (∀ a ∈ subsetIterator x, IsSplit x a (x - a)) ∧ (subsetIterator x).Nodup ∧
      (subsetIterator x).Pairwise (· < ·) := by
  refine ⟨?_, ?_, subsetIterator_pairwise x⟩
  · intro a ha
    obtain ⟨h1, h2, h3⟩ := (mem_subsetIterator x a).mp ha
    refine ⟨by omega, by omega, ?_⟩
    intro i
    rw [testBit_sub_subMask h1]
    have := h1 i
    cases h4 : a.testBit i <;> cases h5 : x.testBit i <;> simp_all
  · exact (subsetIterator_pairwise x).imp (fun h => Nat.ne_of_lt h)

example : IsSplit 0b1101 0b0101 0b1000 := by
  refine ⟨by decide, by decide, ?_⟩
  intro i
  by_cases h : i < 4
  · interval_cases i <;> decide
  · have : ∀ m < 16, Nat.testBit m i = false := by
      intro m hm
      apply Nat.testBit_lt_two_pow
      calc m < 2 ^ 4 := hm
        _ ≤ 2 ^ i := Nat.pow_le_pow_right (by omega) (by omega)
    simp [this 13 (by omega), this 5 (by omega), this 8 (by omega)]

/-- `lowbitI` is the index of the lowest set bit: the smallest tensor of the set. -/
theorem C09_lowbitI (x : Nat) (hx : 0 < x) :
    x.testBit (lowbitI x) = true ∧ ∀ j, x.testBit j = true → lowbitI x ≤ j := by
  have key : ∀ x, 0 < x → lowbit x = 2 ^ lowbitI x := by
    intro x
    unfold lowbitI
    induction x using Nat.strong_induction_on with
    | _ x ih =>
      intro hx
      rcases Nat.even_or_odd' x with ⟨y, rfl | rfl⟩
      · have hy := ih y (by omega) (by omega)
        rw [lowbit_even]
        have hp := lowbit_pos y (by omega)
        have : (2 * lowbit y).size = (lowbit y).size + 1 := by
          have := Nat.size_bit (b := false) (n := lowbit y) (by simp [Nat.bit]; omega)
          simpa [Nat.bit] using this
        have hs : 0 < (lowbit y).size := Nat.size_pos.mpr hp
        rw [this, show (lowbit y).size + 1 - 1 = ((lowbit y).size - 1) + 1 by omega, pow_succ, ← hy]
        ring
      · rw [lowbit_odd]; simp
  have h := lowbit_spec x hx
  rw [key x hx] at h
  refine ⟨h.1 _ (by simp), ?_⟩
  intro j hj
  have : SubMask (2 ^ j) x := by
    intro i hi
    rw [Nat.testBit_two_pow] at hi
    simp at hi
    rw [← hi]; exact hj
  have := h.2.2 (2 ^ j) this (by positivity)
  exact (Nat.pow_le_pow_iff_right (by omega)).mp this

end CTL
