import Verif.Model.Funcs
import Mathlib.Data.List.Perm.Subperm
import Mathlib.Data.List.Perm.Lattice
import Mathlib.Data.List.Count
import Mathlib.Tactic.Ring
import Mathlib.Tactic.Linarith
import Mathlib.Algebra.BigOperators.Group.List.Basic

/-! Helper lemmas about the list utilities of `funcs.py`. -/

namespace CTL

variable {α : Type _} [DecidableEq α]

theorem listDifference_nil (t : List α) : listDifference t [] = .ok t := rfl

theorem listDifference_cons (t : List α) (x : α) (u : List α) :
    listDifference t (x :: u) = if x ∈ t then listDifference (t.erase x) u else .error .valueError := by
  unfold listDifference
  rw [List.foldlM_cons]
  by_cases h : x ∈ t
  · simp [pyRemove, h]; rfl
  · simp [pyRemove, h]; rfl

theorem listDifference_eq (t u : List α) :
    listDifference t u = if u.Subperm t then .ok (t.diff u) else .error .valueError := by
  induction u generalizing t with
  | nil => simp [listDifference_nil, List.nil_subperm]
  | cons x u ih =>
    rw [listDifference_cons]
    by_cases hx : x ∈ t
    · rw [if_pos hx, ih]
      have : (x :: u).Subperm t ↔ u.Subperm (t.erase x) := by
        rw [(List.perm_cons_erase hx).subperm_left, List.subperm_cons]
      simp only [this, List.diff_cons]
    · rw [if_neg hx, if_neg]
      intro h
      exact hx (h.subset (by simp))

theorem compareLists_iff_perm (a b : List α) : compareLists a b = true ↔ a.Perm b := by
  rw [List.perm_iff_count]
  unfold compareLists
  simp only [Bool.and_eq_true, List.all_eq_true, beq_iff_eq]
  constructor
  · rintro ⟨h1, h2⟩ x
    by_cases hx : x ∈ a
    · exact h1 x hx
    · by_cases hy : x ∈ b
      · exact h2 x hy
      · rw [List.count_eq_zero_of_not_mem hx, List.count_eq_zero_of_not_mem hy]
  · intro h
    exact ⟨fun x _ => h x, fun x _ => h x⟩

/-! ### `eraseDups` -/

theorem nodup_eraseDups (l : List α) : l.eraseDups.Nodup := by
  induction h : l.length using Nat.strong_induction_on generalizing l with
  | _ n ih =>
    cases l with
    | nil => simp
    | cons a l =>
      rw [List.eraseDups_cons, List.nodup_cons]
      subst h
      refine ⟨?_, ih _ ?_ _ rfl⟩
      · rw [List.mem_eraseDups]; simp
      · simp only [List.length_cons]
        exact Nat.lt_succ_of_le (List.length_filter_le _ _)

theorem count_flatMap_replicate (l : List α) (f : α → Nat) (hl : l.Nodup) (x : α) :
    (l.flatMap (fun e => List.replicate (f e) e)).count x = if x ∈ l then f x else 0 := by
  induction l with
  | nil => simp
  | cons a l ih =>
    rw [List.nodup_cons] at hl
    simp only [List.flatMap_cons, List.count_append, ih hl.2, List.count_replicate, List.mem_cons]
    by_cases h : x = a
    · subst h; simp [hl.1]
    · have h' : ¬ a = x := fun e => h e.symm
      simp [h, h']

/-! ### `pairIterator` -/

theorem pairIterator_nil {β : Type _} : pairIterator ([] : List β) = [] := rfl

theorem range'_filterMap_getElem {β : Type _} (l : List β) (s : Nat) (hs : s ≤ l.length) {γ : Type _} (f : β → γ) :
    (List.range' s (l.length - s)).filterMap (fun j => (l[j]?).map f) = (l.drop s).map f := by
  induction h : l.length - s generalizing s with
  | zero =>
    have : l.length ≤ s := by omega
    simp [List.drop_eq_nil_of_le this]
  | succ n ih =>
    have hlt : s < l.length := by omega
    rw [List.range'_succ, List.filterMap_cons, List.drop_eq_getElem_cons hlt]
    simp only [List.getElem?_eq_getElem hlt, Option.map_some, List.map_cons]
    rw [ih (s+1) hlt (by omega)]

theorem pairIterator_cons {β : Type _} (x : β) (l : List β) :
    pairIterator (x :: l) = l.map (fun y => (x, y)) ++ pairIterator l := by
  unfold pairIterator
  rw [List.length_cons, List.range_succ_eq_map, List.flatMap_cons, List.flatMap_map]
  congr 1
  · have h := range'_filterMap_getElem (x :: l) 1 (by simp) (fun y => (x, y))
    simp only [List.length_cons, List.drop_one, List.tail_cons] at h
    rw [← h]
    simp only [Nat.zero_add]
    apply List.filterMap_congr
    intro j _
    cases (x :: l)[j]? <;> simp
  · apply List.flatMap_congr
    intro i _
    have e : l.length + 1 - (i + 1 + 1) = l.length - (i + 1) := by omega
    rw [e, List.range'_eq_map_range, List.range'_eq_map_range, List.filterMap_map, List.filterMap_map]
    apply List.filterMap_congr
    intro j _
    have e2 : i + 1 + 1 + j = (i + 1 + j) + 1 := by omega
    simp only [Function.comp]
    rw [e2]
    simp only [List.getElem?_cons_succ]

/-! ### Dictionaries -/

theorem dictGet_dictSet {κ ν : Type _} [DecidableEq κ] (d : List (κ × ν)) (k k' : κ) (v : ν) :
    dictGet (dictSet d k v) k' = if k = k' then some v else dictGet d k' := by
  induction d with
  | nil => simp [dictSet, dictGet]
  | cons p d ih =>
    obtain ⟨a, b⟩ := p
    by_cases h : a = k
    · subst h
      simp only [dictSet, if_true, dictGet]
      split <;> rfl
    · simp only [dictSet, if_neg h, dictGet, ih]
      by_cases h2 : a = k'
      · subst h2
        have h' : ¬ k = a := fun e => h e.symm
        simp [h']
      · simp [h2]

/-! ### `generateIndices` -/

theorem count_take_idxOf (l : List α) (e : α) : (l.take (l.idxOf e)).count e = 0 := by
  rw [List.count_eq_zero]
  intro h
  rw [List.mem_take_iff_getElem] at h
  obtain ⟨i, hi, hx⟩ := h
  have hi' : i < l.idxOf e := by omega
  have := List.not_of_lt_findIdx (p := (· == e)) hi'
  simp [hx] at this

/-- Positional specification of one answer of `generateIndices`. -/
def GenIndexSpec (A : List α) (rank : Nat) (e : α) : Option Nat → Prop
  | some i => A[i]? = some e ∧ (A.take i).count e = rank
  | none => A.count e ≤ rank

theorem generateIndicesLoop_spec (A : List α) :
    ∀ (B P : List α) (cur : List (α × Nat)) (res : List (Option Nat)),
      res.length = P.length →
      (∀ e i, dictGet cur e = some i → i < A.length ∧
        (A.take (i + 1)).count e = min (P.count e) (A.count e)) →
      (∀ e, dictGet cur e = none → min (P.count e) (A.count e) = 0) →
      ∃ new : List (Option Nat), generateIndicesLoop A B cur res = res ++ new ∧
        new.length = B.length ∧
        ∀ k (hk : k < B.length), ∃ o, new[k]? = some o ∧
          GenIndexSpec A ((P ++ B.take k).count B[k]) B[k] o := by
  intro B
  induction B with
  | nil => intro P cur res _ _ _; exact ⟨[], by simp [generateIndicesLoop]⟩
  | cons e B ih =>
    intro P cur res hlen hs hn
    rw [generateIndicesLoop]
    dsimp only
    set s := (dictGet cur e).elim 0 (· + 1) with hsdef
    have hsc : (A.take s).count e = min (P.count e) (A.count e) := by
      rw [hsdef]
      cases hc : dictGet cur e with
      | none => simp [hn e hc]
      | some i => exact (hs e i hc).2
    have hsplit : A.count e = (A.take s).count e + (A.drop s).count e := by
      rw [← List.count_append, List.take_append_drop]
    by_cases hmem : e ∈ A.drop s
    · rw [if_pos hmem]
      have hpos : 0 < (A.drop s).count e := List.count_pos_iff.mpr hmem
      have hPlt : P.count e < A.count e := by omega
      set idx := (A.drop s).idxOf e + s with hidx
      have hlt : (A.drop s).idxOf e < (A.drop s).length := List.idxOf_lt_length_iff.mpr hmem
      have hidxlt : idx < A.length := by
        rw [List.length_drop] at hlt; omega
      have hget : A[idx]? = some e := by
        have : (A.drop s)[(A.drop s).idxOf e]? = some e := by
          rw [List.getElem?_eq_getElem hlt, List.getElem_idxOf]
        rw [List.getElem?_drop] at this
        rw [hidx, Nat.add_comm]; exact this
      have hget' : A[idx] = e := by
        rw [List.getElem?_eq_getElem hidxlt] at hget
        exact Option.some.inj hget
      have hcnt : (A.take idx).count e = P.count e := by
        have : A.take idx = A.take s ++ (A.drop s).take ((A.drop s).idxOf e) := by
          rw [hidx, Nat.add_comm, List.take_add]
        rw [this, List.count_append, count_take_idxOf, hsc]; omega
      have hcnt1 : (A.take (idx + 1)).count e = P.count e + 1 := by
        rw [List.take_succ_eq_append_getElem hidxlt, List.count_append, hcnt, hget']; simp
      obtain ⟨new, h1, h2, h3⟩ := ih (P ++ [e]) (dictSet cur e idx) (res ++ [some idx])
        (by simp [hlen])
        (by
          intro e' i hi
          rw [dictGet_dictSet] at hi
          by_cases he : e = e'
          · subst he
            simp only [if_true, Option.some.injEq] at hi
            subst hi
            refine ⟨hidxlt, ?_⟩
            rw [hcnt1, List.count_append]
            simp; omega
          · rw [if_neg he] at hi
            have := hs e' i hi
            rw [List.count_append]
            simpa [List.count_singleton, he] using this)
        (by
          intro e' he'
          rw [dictGet_dictSet] at he'
          by_cases he : e = e'
          · simp [he] at he'
          · rw [if_neg he] at he'
            have := hn e' he'
            rw [List.count_append]
            simpa [List.count_singleton, he] using this)
      refine ⟨some idx :: new, ?_, ?_, ?_⟩
      · rw [h1]; simp
      · simp [h2]
      · intro k hk
        cases k with
        | zero => exact ⟨some idx, by simp, hget, by simpa using hcnt⟩
        | succ k =>
          obtain ⟨o, ho1, ho2⟩ := h3 k (by simpa using hk)
          exact ⟨o, by simpa using ho1, by simpa using ho2⟩
    · rw [if_neg hmem]
      have hzero : (A.drop s).count e = 0 := List.count_eq_zero_of_not_mem hmem
      have hle : A.count e ≤ P.count e := by omega
      obtain ⟨new, h1, h2, h3⟩ := ih (P ++ [e]) cur (res ++ [none])
        (by simp [hlen])
        (by
          intro e' i hi
          have := hs e' i hi
          rw [List.count_append]
          by_cases he : e = e'
          · subst he
            refine ⟨this.1, ?_⟩
            rw [this.2]; simp; omega
          · simpa [List.count_singleton, he] using this)
        (by
          intro e' he'
          have := hn e' he'
          rw [List.count_append]
          by_cases he : e = e'
          · subst he
            simp only [List.count_singleton_self]; omega
          · simpa [List.count_singleton, he] using this)
      refine ⟨none :: new, ?_, ?_, ?_⟩
      · rw [h1]; simp
      · simp [h2]
      · intro k hk
        cases k with
        | zero => exact ⟨none, by simp, by simpa [GenIndexSpec] using hle⟩
        | succ k =>
          obtain ⟨o, ho1, ho2⟩ := h3 k (by simpa using hk)
          exact ⟨o, by simpa using ho1, by simpa using ho2⟩

end CTL
