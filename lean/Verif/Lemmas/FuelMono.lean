import Verif.Model.FTN

/-! More fuel does not change the outcome of a contraction that finishes. -/

namespace CTL
variable {R : Type}

theorem capLoop_enough (typ : Option Nat) (n chi : Nat) : ∀ (fuel fuel' muOld muNew : Nat) (s : CapState) (r : Except PyErr CapState),
    fuel ≤ fuel' → capLoop typ n chi fuel muOld muNew s = some r → capLoop typ n chi fuel' muOld muNew s = some r
  | 0, fuel', muOld, muNew, s, r, _, h => by
    rw [capLoop.eq_def] at h ⊢
    simp only at h ⊢
    by_cases hc : (s.objs n).length ≠ 0
    · rw [if_pos hc] at h ⊢
      exact h
    · rw [if_neg hc] at h
      cases h
  | fuel + 1, 0, _, _, _, _, hf, _ => by omega
  | fuel + 1, fuel' + 1, muOld, muNew, s, r, hf, h => by
    rw [capLoop] at h ⊢
    split at h
    · rename_i hc
      rw [if_pos hc]
      exact h
    · rename_i hc
      rw [if_neg hc]
      split at h
      · rename_i e he
        exact h
      · rename_i s' he
        exact capLoop_enough typ n chi fuel fuel' _ _ _ r (by omega) h

theorem capping_more (g : Input) (typ : Option Nat) {fuel fuel' : Nat} (hf : fuel ≤ fuel') {r : Except PyErr (Tables × List (Nat × Nat))}
    (h : capping g typ fuel = some r) : capping g typ fuel' = some r := by
  unfold capping at h ⊢
  simp only at h ⊢
  split at h
  · exact h
  · split at h
    · rename_i h0
      rw [if_pos h0]
      exact h
    · rename_i h0
      rw [if_neg h0]
      obtain ⟨x, hx, rfl⟩ := Option.map_eq_some_iff.mp h
      rw [capLoop_enough _ _ _ fuel fuel' _ _ _ x hf hx]
      rfl

theorem generateSequence_more (st : Store) (ts : List (Tensor R)) (mode : Mode) (typ : Option Nat) {fuel fuel' : Nat}
    (hf : fuel ≤ fuel') {r : Except PyErr (Nat × List (Nat × Nat))} (h : generateSequence st ts mode typ fuel = some r) :
    generateSequence st ts mode typ fuel' = some r := by
  unfold generateSequence at h ⊢
  split at h
  · exact h
  · unfold optimalContractSequence at h ⊢
    split at h
    · exact h
    · cases mode with
      | greedy => exact h
      | bruteForce => exact h
      | capping =>
        simp only at h ⊢
        obtain ⟨x, hx, rfl⟩ := Option.map_eq_some_iff.mp h
        rw [capping_more _ _ hf hx]
        rfl

theorem contract_more [CommSemiring R] (rand : List Nat → List Nat → R) (cast : R → R) (f : FTN) (names : List String) (st : Store)
    (dict : List (String × Tensor R)) (removeTag : Bool) {fuel fuel' : Nat} (hf : fuel ≤ fuel') {f' : FTN}
    {r : Except PyErr (Store × Tensor R)} (h : f.contract rand cast names st dict removeTag fuel = (f', some r)) :
    f.contract rand cast names st dict removeTag fuel' = (f', some r) := by
  unfold FTN.contract at h ⊢
  simp only at h ⊢
  split at h
  · exact h
  · split at h
    · exact h
    · split at h
      · rename_i hs
        rw [if_pos hs]
        split at h
        · cases h
        · rename_i e he
          rw [generateSequence_more _ _ _ _ hf he]
          exact h
        · rename_i q hq
          rw [generateSequence_more _ _ _ _ hf hq]
          exact h
      · rename_i hs
        rw [if_neg hs]
        exact h

end CTL
