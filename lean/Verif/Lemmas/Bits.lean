import Verif.Model.Bits
import Mathlib.Tactic.Ring
import Mathlib.Tactic.Linarith
import Mathlib.Data.List.Sort

/-! Helper lemmas about bit masks and the sub-mask enumeration. -/

namespace CTL

/-- `s` is a sub-mask of `x`: every tensor in `s` is in `x`. -/
def SubMask (s x : Nat) : Prop := ∀ i, s.testBit i = true → x.testBit i = true

theorem ldiff_zero_left (a : Nat) : Nat.ldiff 0 a = 0 := by
  apply Nat.eq_of_testBit_eq
  intro i
  rw [Nat.testBit_ldiff]; simp

theorem lowbit_eq_ldiff (x : Nat) : lowbit x = Nat.ldiff x (x - 1) := by
  unfold lowbit
  cases x with
  | zero => rw [ldiff_zero_left]; show (0 &&& 0 : Nat) = 0; simp
  | succ n => rfl

theorem nextSub_eq (x lb : Nat) (h : 0 < lowbit (x - lb)) :
    nextSub x lb = Nat.ldiff lb (lowbit (x - lb) - 1) + lowbit (x - lb) := by
  unfold nextSub
  obtain ⟨m, hm⟩ : ∃ m, lowbit (x - lb) = m + 1 := ⟨lowbit (x - lb) - 1, by omega⟩
  simp only [hm]
  have : ((m + 1 : Nat) : Int) - 1 = (m : Int) := by push_cast; ring
  rw [this]
  rfl

theorem ldiff_even_even (a b : Nat) : Nat.ldiff (2 * a) (2 * b) = 2 * Nat.ldiff a b := by
  have := Nat.ldiff_bit false a false b
  simpa [Nat.bit] using this

theorem ldiff_even_odd (a b : Nat) : Nat.ldiff (2 * a) (2 * b + 1) = 2 * Nat.ldiff a b := by
  have := Nat.ldiff_bit false a true b
  simpa [Nat.bit] using this

theorem ldiff_odd_even (a b : Nat) : Nat.ldiff (2 * a + 1) (2 * b) = 2 * Nat.ldiff a b + 1 := by
  have := Nat.ldiff_bit true a false b
  simpa [Nat.bit] using this

theorem ldiff_odd_odd (a b : Nat) : Nat.ldiff (2 * a + 1) (2 * b + 1) = 2 * Nat.ldiff a b := by
  have := Nat.ldiff_bit true a true b
  simpa [Nat.bit] using this

theorem ldiff_zero_right (a : Nat) : Nat.ldiff a 0 = a := by
  apply Nat.eq_of_testBit_eq
  intro i
  rw [Nat.testBit_ldiff]; simp

theorem ldiff_self' (a : Nat) : Nat.ldiff a a = 0 := by
  apply Nat.eq_of_testBit_eq
  intro i
  rw [Nat.testBit_ldiff]; simp

theorem lowbit_zero : lowbit 0 = 0 := by rw [lowbit_eq_ldiff, ldiff_zero_left]

theorem lowbit_even (y : Nat) : lowbit (2 * y) = 2 * lowbit y := by
  rw [lowbit_eq_ldiff, lowbit_eq_ldiff]
  cases y with
  | zero => simp [ldiff_zero_left]
  | succ n =>
    have : 2 * (n + 1) - 1 = 2 * n + 1 := by omega
    rw [this, ldiff_even_odd]
    rfl

theorem lowbit_odd (y : Nat) : lowbit (2 * y + 1) = 1 := by
  rw [lowbit_eq_ldiff]
  have : 2 * y + 1 - 1 = 2 * y := by omega
  rw [this, ldiff_odd_even, ldiff_self']

theorem lowbit_pos (x : Nat) (h : 0 < x) : 0 < lowbit x := by
  induction x using Nat.strong_induction_on with
  | _ x ih =>
    rcases Nat.even_or_odd' x with ⟨y, rfl | rfl⟩
    · rw [lowbit_even]
      have := ih y (by omega) (by omega)
      omega
    · rw [lowbit_odd]; omega

/-! ### SubMask by digits -/

theorem subMask_even_even (a b : Nat) : SubMask (2 * a) (2 * b) ↔ SubMask a b := by
  constructor
  · intro h i hi
    have := h (i + 1) (by simpa [Nat.testBit_succ] using hi)
    simpa [Nat.testBit_succ] using this
  · intro h i hi
    cases i with
    | zero => simp at hi
    | succ i =>
      simp only [Nat.testBit_succ, Nat.mul_div_cancel_left _ (show 0 < 2 by omega)] at hi ⊢
      exact h i hi

theorem subMask_odd (c a b : Nat) (hc : c = 0 ∨ c = 1) :
    SubMask (2 * a + c) (2 * b + 1) ↔ SubMask a b := by
  have e1 : (2 * a + c) / 2 = a := by omega
  have e2 : (2 * b + 1) / 2 = b := by omega
  constructor
  · intro h i hi
    have := h (i + 1) (by rw [Nat.testBit_succ, e1]; exact hi)
    rw [Nat.testBit_succ, e2] at this
    exact this
  · intro h i hi
    cases i with
    | zero => simp
    | succ i =>
      rw [Nat.testBit_succ, e1] at hi
      rw [Nat.testBit_succ, e2]
      exact h i hi

theorem not_subMask_odd_even (a b : Nat) : ¬ SubMask (2 * a + 1) (2 * b) := by
  intro h
  have := h 0 (by simp)
  simp at this

theorem subMask_zero (x : Nat) : SubMask 0 x := by intro i hi; simp at hi

theorem subMask_refl (x : Nat) : SubMask x x := fun _ h => h

theorem subMask_trans {a b c : Nat} (h1 : SubMask a b) (h2 : SubMask b c) : SubMask a c :=
  fun i hi => h2 i (h1 i hi)

theorem subMask_le {s x : Nat} (h : SubMask s x) : s ≤ x := by
  induction x using Nat.strong_induction_on generalizing s with
  | _ x ih =>
    rcases Nat.eq_zero_or_pos x with rfl | hx
    · apply Nat.le_of_eq
      apply Nat.eq_of_testBit_eq
      intro i
      cases hs : s.testBit i with
      | false => simp
      | true => have := h i hs; simp at this
    · rcases Nat.even_or_odd' x with ⟨y, rfl | rfl⟩ <;> rcases Nat.even_or_odd' s with ⟨t, rfl | rfl⟩
      · have := ih y (by omega) ((subMask_even_even _ _).mp h); omega
      · exact absurd h (not_subMask_odd_even _ _)
      · have := ih y (by omega) ((subMask_odd 0 _ _ (Or.inl rfl)).mp h); omega
      · have := ih y (by omega) ((subMask_odd 1 _ _ (Or.inr rfl)).mp h); omega

/-- Complementing inside a mask is subtraction. -/
theorem testBit_sub_subMask {s x : Nat} (h : SubMask s x) (i : Nat) :
    (x - s).testBit i = (x.testBit i && !s.testBit i) := by
  induction x using Nat.strong_induction_on generalizing s i with
  | _ x ih =>
    rcases Nat.eq_zero_or_pos x with rfl | hx
    · simp
    · rcases Nat.even_or_odd' x with ⟨y, rfl | rfl⟩ <;> rcases Nat.even_or_odd' s with ⟨t, rfl | rfl⟩
      · have hs := (subMask_even_even _ _).mp h
        rw [← Nat.mul_sub]
        cases i with
        | zero => simp
        | succ i =>
          simp only [Nat.testBit_succ, Nat.mul_div_cancel_left _ (show 0 < 2 by omega)]
          exact ih y (by omega) hs i
      · exact absurd h (not_subMask_odd_even _ _)
      · have hs := (subMask_odd 0 _ _ (Or.inl rfl)).mp h
        have hle := subMask_le hs
        have e : 2 * y + 1 - 2 * t = 2 * (y - t) + 1 := by omega
        rw [e]
        cases i with
        | zero => simp
        | succ i =>
          have e1 : (2 * (y - t) + 1) / 2 = y - t := by omega
          have e2 : (2 * y + 1) / 2 = y := by omega
          have e3 : (2 * t) / 2 = t := by omega
          simp only [Nat.testBit_succ, e1, e2, e3]
          exact ih y (by omega) hs i
      · have hs := (subMask_odd 1 _ _ (Or.inr rfl)).mp h
        have hle := subMask_le hs
        have e : 2 * y + 1 - (2 * t + 1) = 2 * (y - t) := by omega
        rw [e]
        cases i with
        | zero => simp
        | succ i =>
          have e1 : (2 * (y - t)) / 2 = y - t := by omega
          have e2 : (2 * y + 1) / 2 = y := by omega
          have e3 : (2 * t + 1) / 2 = t := by omega
          simp only [Nat.testBit_succ, e1, e2, e3]
          exact ih y (by omega) hs i

theorem subMask_sub {s x : Nat} (h : SubMask s x) : SubMask (x - s) x := by
  intro i hi
  rw [testBit_sub_subMask h] at hi
  simp at hi
  exact hi.1

theorem subMask_one (x : Nat) : SubMask 1 (2 * x + 1) :=
  (subMask_odd 1 0 x (Or.inr rfl)).mpr (subMask_zero x)

/-! ### the successor function -/

theorem nextSub_even (y t : Nat) (hlt : t < y) : nextSub (2 * y) (2 * t) = 2 * nextSub y t := by
  have hp : 0 < lowbit (y - t) := lowbit_pos _ (by omega)
  have e : 2 * y - 2 * t = 2 * (y - t) := by omega
  rw [nextSub_eq _ _ (by rw [e, lowbit_even]; omega), nextSub_eq _ _ hp, e, lowbit_even]
  have e2 : 2 * lowbit (y - t) - 1 = 2 * (lowbit (y - t) - 1) + 1 := by omega
  rw [e2, ldiff_even_odd]
  ring

theorem nextSub_odd_odd (y t : Nat) (hlt : t < y) :
    nextSub (2 * y + 1) (2 * t + 1) = 2 * nextSub y t := by
  have hp : 0 < lowbit (y - t) := lowbit_pos _ (by omega)
  have e : 2 * y + 1 - (2 * t + 1) = 2 * (y - t) := by omega
  rw [nextSub_eq _ _ (by rw [e, lowbit_even]; omega), nextSub_eq _ _ hp, e, lowbit_even]
  have e2 : 2 * lowbit (y - t) - 1 = 2 * (lowbit (y - t) - 1) + 1 := by omega
  rw [e2, ldiff_odd_odd]
  ring

theorem nextSub_odd_even (y t : Nat) (hle : t ≤ y) :
    nextSub (2 * y + 1) (2 * t) = 2 * t + 1 := by
  have e : 2 * y + 1 - 2 * t = 2 * (y - t) + 1 := by omega
  rw [nextSub_eq _ _ (by rw [e, lowbit_odd]; omega), e, lowbit_odd, Nat.sub_self, ldiff_zero_right]

/-- `nextSub x s` is the least sub-mask of `x` above the proper sub-mask `s`. -/
theorem nextSub_spec (x s : Nat) (h : SubMask s x) (hlt : s < x) :
    SubMask (nextSub x s) x ∧ s < nextSub x s ∧ ∀ u, SubMask u x → s < u → nextSub x s ≤ u := by
  induction x using Nat.strong_induction_on generalizing s with
  | _ x ih =>
    rcases Nat.even_or_odd' x with ⟨y, rfl | rfl⟩ <;> rcases Nat.even_or_odd' s with ⟨t, rfl | rfl⟩
    · have hs := (subMask_even_even _ _).mp h
      obtain ⟨h1, h2, h3⟩ := ih y (by omega) t hs (by omega)
      rw [nextSub_even y t (by omega)]
      refine ⟨(subMask_even_even _ _).mpr h1, by omega, ?_⟩
      intro u hu hlu
      rcases Nat.even_or_odd' u with ⟨v, rfl | rfl⟩
      · have := h3 v ((subMask_even_even _ _).mp hu) (by omega); omega
      · exact absurd hu (not_subMask_odd_even _ _)
    · exact absurd h (not_subMask_odd_even _ _)
    · have hs := (subMask_odd 0 _ _ (Or.inl rfl)).mp h
      rw [nextSub_odd_even y t (subMask_le hs)]
      refine ⟨(subMask_odd 1 _ _ (Or.inr rfl)).mpr hs, by omega, ?_⟩
      intro u hu hlu
      omega
    · have hs := (subMask_odd 1 _ _ (Or.inr rfl)).mp h
      obtain ⟨h1, h2, h3⟩ := ih y (by omega) t hs (by omega)
      rw [nextSub_odd_odd y t (by omega)]
      refine ⟨(subMask_odd 0 _ _ (Or.inl rfl)).mpr h1, by omega, ?_⟩
      intro u hu hlu
      rcases Nat.even_or_odd' u with ⟨v, rfl | rfl⟩
      · have := h3 v ((subMask_odd 0 _ _ (Or.inl rfl)).mp hu) (by omega); omega
      · have := h3 v ((subMask_odd 1 _ _ (Or.inr rfl)).mp hu) (by omega); omega

/-- `lowbit x` is the least non-empty sub-mask of `x`. -/
theorem lowbit_spec (x : Nat) (hx : 0 < x) :
    SubMask (lowbit x) x ∧ 0 < lowbit x ∧ ∀ u, SubMask u x → 0 < u → lowbit x ≤ u := by
  have h := nextSub_spec x 0 (subMask_zero x) hx
  have e : nextSub x 0 = lowbit x := by
    have hp : 0 < lowbit (x - 0) := by simpa using lowbit_pos x hx
    rw [nextSub_eq _ _ hp]
    have : Nat.ldiff 0 (lowbit (x - 0) - 1) = 0 := by
      apply Nat.eq_of_testBit_eq
      intro i; rw [Nat.testBit_ldiff]; simp
    rw [this]; simp
  rwa [e] at h

/-- Loop specification: started at a sub-mask `lb`, with enough fuel, the loop lists exactly the
sub-masks `s ≥ lb` with `2 * s < x`, in increasing order. -/
theorem subsetLoop_spec (x : Nat) : ∀ (fuel lb : Nat), SubMask lb x → x ≤ fuel + lb →
    (∀ s, s ∈ subsetLoop x fuel lb ↔ SubMask s x ∧ lb ≤ s ∧ 2 * s < x) ∧
    (subsetLoop x fuel lb).Pairwise (· < ·) := by
  intro fuel
  induction fuel with
  | zero =>
    intro lb _ hf
    refine ⟨?_, List.Pairwise.nil⟩
    intro s
    simp only [subsetLoop, List.not_mem_nil, false_iff]
    rintro ⟨_, h2, h3⟩
    omega
  | succ fuel ih =>
    intro lb hlb hf
    rw [subsetLoop]
    by_cases hc : lb * 2 < x
    · rw [if_pos hc]
      obtain ⟨n1, n2, n3⟩ := nextSub_spec x lb hlb (by omega)
      obtain ⟨i1, i2⟩ := ih (nextSub x lb) n1 (by omega)
      constructor
      · intro s
        rw [List.mem_cons, i1]
        constructor
        · rintro (rfl | ⟨h1, h2, h3⟩)
          · exact ⟨hlb, le_refl _, by omega⟩
          · exact ⟨h1, by omega, h3⟩
        · rintro ⟨h1, h2, h3⟩
          rcases Nat.eq_or_lt_of_le h2 with h | h
          · left; exact h.symm
          · right; exact ⟨h1, n3 s h1 h, h3⟩
      · rw [List.pairwise_cons]
        refine ⟨?_, i2⟩
        intro s hs
        have := (i1 s).mp hs
        omega
    · rw [if_neg hc]
      refine ⟨?_, List.Pairwise.nil⟩
      intro s
      simp only [List.not_mem_nil, false_iff]
      rintro ⟨_, h2, h3⟩
      omega

/-- More fuel changes nothing. -/
theorem subsetLoop_fuel (x : Nat) : ∀ (fuel fuel' lb : Nat), SubMask lb x → x ≤ fuel + lb →
    fuel ≤ fuel' → subsetLoop x fuel' lb = subsetLoop x fuel lb := by
  intro fuel
  induction fuel with
  | zero =>
    intro fuel' lb _ hf _
    cases fuel' with
    | zero => rfl
    | succ f => simp only [subsetLoop]; rw [if_neg (by omega)]
  | succ fuel ih =>
    intro fuel' lb hlb hf hle
    obtain ⟨g, rfl⟩ : ∃ g, fuel' = g + 1 := ⟨fuel' - 1, by omega⟩
    rw [subsetLoop, subsetLoop]
    split
    · obtain ⟨n1, n2, _⟩ := nextSub_spec x lb hlb (by omega)
      rw [ih g (nextSub x lb) n1 (by omega) (by omega)]
    · rfl

theorem mem_subsetIterator (x s : Nat) :
    s ∈ subsetIterator x ↔ SubMask s x ∧ 0 < s ∧ 2 * s < x := by
  unfold subsetIterator
  rcases Nat.eq_zero_or_pos x with rfl | hx
  · simp [subsetLoop]
  · obtain ⟨l1, l2, l3⟩ := lowbit_spec x hx
    rw [(subsetLoop_spec x x (lowbit x) l1 (by omega)).1 s]
    constructor
    · rintro ⟨h1, h2, h3⟩; exact ⟨h1, by omega, h3⟩
    · rintro ⟨h1, h2, h3⟩; exact ⟨h1, l3 s h1 h2, h3⟩

theorem subsetIterator_pairwise (x : Nat) : (subsetIterator x).Pairwise (· < ·) := by
  unfold subsetIterator
  rcases Nat.eq_zero_or_pos x with rfl | hx
  · simp [subsetLoop]
  · exact (subsetLoop_spec x x (lowbit x) (lowbit_spec x hx).1 (by omega)).2

end CTL
