import Verif.Lemmas.Funcs
import Mathlib.Data.Nat.Choose.Basic

/-!
# C37 – list utilities are multiset-exact

Specifications are stated with `List.Perm`, `List.Sublist`, `List.count` and positions only.
-/

namespace CTL

variable {α : Type _} [DecidableEq α]

/-- `listDifference(total, used)` succeeds exactly when `used` is a sub-multiset of `total`; it
raises `ValueError` otherwise. On success the result together with `used` is a permutation of
`total`, and the result is a subsequence of `total` (relative order kept). -/
theorem C37_listDifference (total used : List α) :
    (∀ r, listDifference total used = .ok r → (used ++ r).Perm total ∧ r.Sublist total) ∧
    ((∃ r, listDifference total used = .ok r) ↔ ∀ x, used.count x ≤ total.count x) ∧
    (∀ e, listDifference total used = .error e → e = .valueError) := by
  rw [listDifference_eq]
  refine ⟨?_, ?_, ?_⟩
  · intro r h
    split at h
    · rename_i hs
      cases h
      refine ⟨?_, List.diff_sublist _ _⟩
      rw [List.perm_iff_count]
      intro x
      rw [List.count_append, List.count_diff]
      have := hs.count_le x
      omega
    · cases h
  · have hiff : (∀ x, used.count x ≤ total.count x) ↔ used.Subperm total := by
      rw [List.subperm_ext_iff]
      constructor
      · intro h x _; exact h x
      · intro h x
        by_cases hx : x ∈ used
        · exact h x hx
        · simp [List.count_eq_zero_of_not_mem hx]
    rw [hiff]
    constructor
    · rintro ⟨r, h⟩
      split at h
      · assumption
      · cases h
    · intro h
      exact ⟨_, by rw [if_pos h]⟩
  · intro e h
    split at h
    · cases h
    · cases h; rfl

/-- For a duplicate-free `total` (the legs of a tensor) and duplicate-free `used ⊆ total`,
`listDifference` returns exactly the elements of `total` not in `used`, in order. -/
theorem C37_listDifference_nodup (total used : List α) (ht : total.Nodup) (hu : used.Nodup)
    (hsub : ∀ x ∈ used, x ∈ total) :
    listDifference total used = .ok (total.filter (fun x => decide (x ∉ used))) := by
  rw [listDifference_eq, if_pos (List.subperm_of_subset hu hsub), List.Nodup.sdiff_eq_filter ht]

example : listDifference [3, 1, 2, 1] [1, 2] = .ok [3, 1] := by decide
example : listDifference [3, 1] [1, 1] = .error .valueError := by decide

/-- `deleteAllInUsed` removes every occurrence. -/
theorem C37_deleteAllInUsed (total used : List α) (x : α) :
    (deleteAllInUsed total used).count x = if x ∈ used then 0 else total.count x := by
  unfold deleteAllInUsed
  by_cases h : x ∈ used
  · rw [if_pos h, List.count_eq_zero]
    simp [h]
  · rw [if_neg h, List.count_filter (by simpa using h)]

/-- `compareLists(a, b)` holds exactly for permutations. -/
theorem C37_compareLists (a b : List α) : compareLists a b = true ↔ a.Perm b :=
  compareLists_iff_perm a b

example : compareLists [1, 2, 1] [2, 1, 1] = true ∧ compareLists [1, 2, 1] [2, 2, 1] = false := by
  decide

/-- `commonElements(x, y)` contains each element as often as both lists do. -/
theorem C37_commonElements (x y : List α) (e : α) :
    (commonElements x y).count e = min (x.count e) (y.count e) := by
  unfold commonElements
  rw [count_flatMap_replicate x.eraseDups (fun e => min (x.count e) (y.count e)) (nodup_eraseDups x)]
  split
  · rfl
  · rename_i h
    rw [List.mem_eraseDups] at h
    simp [List.count_eq_zero_of_not_mem h]

/-- The docstring of `commonElements` promises that equal elements appear only once. They do not:
`commonElements([1,1],[1,1])` is `[1,1]`. -/
theorem C37_commonElements_not_once :
    ¬ ∀ x y : List Nat, (commonElements x y).Nodup := by
  intro h
  exact absurd (h [1, 1] [1, 1]) (by decide)

/-- `listSymmetricDifference` has no duplicates and contains exactly the elements of one list but
not of the other. -/
theorem C37_listSymmetricDifference (x y : List α) :
    (listSymmetricDifference x y).Nodup ∧
    ∀ e, e ∈ listSymmetricDifference x y ↔ ((e ∈ x ∧ e ∉ y) ∨ (e ∈ y ∧ e ∉ x)) := by
  unfold listSymmetricDifference
  constructor
  · rw [List.nodup_append]
    refine ⟨(nodup_eraseDups x).filter _, (nodup_eraseDups y).filter _, ?_⟩
    intro a ha b hb hab
    subst hab
    simp at ha hb
    exact ha.2 hb.1
  · intro e
    simp

/-- `generateIndices(A, B)`: the k-th answer is the position in `A` of the occurrence of `B[k]`
whose rank equals the number of earlier occurrences of `B[k]` in `B`; it is `None` exactly when
`A` has no such occurrence. -/
theorem C37_generateIndices (A B : List α) :
    (generateIndices A B).length = B.length ∧
    ∀ k (hk : k < B.length),
      (∀ i, (generateIndices A B)[k]? = some (some i) ↔
        A[i]? = some B[k] ∧ (A.take i).count B[k] = (B.take k).count B[k]) ∧
      ((generateIndices A B)[k]? = some none ↔ A.count B[k] ≤ (B.take k).count B[k]) := by
  obtain ⟨new, h1, h2, h3⟩ := generateIndicesLoop_spec A B [] [] [] rfl
    (by intro e i h; simp [dictGet] at h) (by intro e _; simp)
  have hg : generateIndices A B = new := by simpa [generateIndices] using h1
  rw [hg]
  refine ⟨h2, ?_⟩
  intro k hk
  obtain ⟨o, ho1, ho2⟩ := h3 k hk
  rw [List.nil_append] at ho2
  rw [ho1]
  have key : ∀ i, A[i]? = some B[k] → (A.take i).count B[k] < A.count B[k] := by
    intro i hi
    obtain ⟨hlt, hv⟩ := List.getElem?_eq_some_iff.mp hi
    have : A.count B[k] = (A.take (i+1)).count B[k] + (A.drop (i+1)).count B[k] := by
      rw [← List.count_append, List.take_append_drop]
    rw [List.take_succ_eq_append_getElem hlt, List.count_append, hv] at this
    simp at this
    omega
  have uniq : ∀ i j, A[i]? = some B[k] → A[j]? = some B[k] → i < j →
      (A.take i).count B[k] < (A.take j).count B[k] := by
    intro i j hi hj hij
    obtain ⟨hlt, hv⟩ := List.getElem?_eq_some_iff.mp hi
    have hsub : (A.take (i+1)).Sublist (A.take j) := by
      have : A.take (i+1) = (A.take j).take (i+1) := by
        rw [List.take_take]; congr 1; omega
      rw [this]; exact List.take_sublist _ _
    have := hsub.count_le B[k]
    rw [List.take_succ_eq_append_getElem hlt, List.count_append, hv] at this
    simp at this
    omega
  constructor
  · intro i
    constructor
    · intro h
      have : o = some i := Option.some.inj h
      subst this
      exact ho2
    · rintro ⟨h1, h2⟩
      cases o with
      | none =>
        exact absurd (key i h1) (by simp only [GenIndexSpec] at ho2; omega)
      | some j =>
        obtain ⟨hj1, hj2⟩ := ho2
        rcases Nat.lt_trichotomy i j with h | h | h
        · have := uniq i j h1 hj1 h; omega
        · rw [h]
        · have := uniq j i hj1 h1 h; omega
  · constructor
    · intro h
      have : o = none := Option.some.inj h
      subst this
      exact ho2
    · intro h
      cases o with
      | none => rfl
      | some j => exact absurd (key j ho2.1) (by have := ho2.2; omega)

/-- Found positions are pairwise distinct: no element of `A` is used twice. -/
theorem C37_generateIndices_injective (A B : List α) (k l : Nat) (hk : k < B.length)
    (hl : l < B.length) (i : Nat) (h1 : (generateIndices A B)[k]? = some (some i))
    (h2 : (generateIndices A B)[l]? = some (some i)) : k = l := by
  have a := (((C37_generateIndices A B).2 k hk).1 i).mp h1
  have b := (((C37_generateIndices A B).2 l hl).1 i).mp h2
  have hkl : B[k] = B[l] := Option.some.inj (a.1.symm.trans b.1)
  have aux : ∀ (k l : Nat) (hk : k < B.length) (hl : l < B.length), k < l → B[k] = B[l] →
      (B.take k).count B[k] < (B.take l).count B[l] := by
    intro k l hk hl hlt he
    have hsub : (B.take (k+1)).Sublist (B.take l) := by
      have : B.take (k+1) = (B.take l).take (k+1) := by
        rw [List.take_take]; congr 1; omega
      rw [this]; exact List.take_sublist _ _
    have := hsub.count_le B[l]
    rw [List.take_succ_eq_append_getElem hk, List.count_append, ← he] at this
    simp at this
    rw [← he]; omega
  have hc : (B.take k).count B[k] = (B.take l).count B[l] := by
    rw [← a.2, ← b.2, hkl]
  rcases Nat.lt_trichotomy k l with h | h | h
  · have := aux k l hk hl h hkl; omega
  · exact h
  · have := aux l k hl hk h hkl.symm; omega

example : generateIndices ["a", "b", "a", "c"] ["a", "c", "a", "a", "b"]
    = [some 0, some 3, some 2, none, some 1] := by decide

/-- `pairIterator(a)` yields exactly the pairs `(a[i], a[j])` with `i < j`. -/
theorem C37_pairIterator_mem {β : Type _} (a : List β) (x y : β) :
    (x, y) ∈ pairIterator a ↔ ∃ i j : Nat, i < j ∧ a[i]? = some x ∧ a[j]? = some y := by
  induction a with
  | nil => simp [pairIterator_nil]
  | cons z l ih =>
    rw [pairIterator_cons, List.mem_append, ih, List.mem_map]
    constructor
    · rintro (⟨w, hw, he⟩ | ⟨i, j, hij, h1, h2⟩)
      · cases he
        obtain ⟨j, hj⟩ := List.getElem?_of_mem hw
        exact ⟨0, j + 1, by omega, by simp, by simpa using hj⟩
      · exact ⟨i + 1, j + 1, by omega, by simpa using h1, by simpa using h2⟩
    · rintro ⟨i, j, hij, h1, h2⟩
      cases j with
      | zero => omega
      | succ j =>
        cases i with
        | zero =>
          left
          simp at h1 h2
          exact ⟨y, List.mem_of_getElem? h2, by rw [h1]⟩
        | succ i =>
          right
          exact ⟨i, j, by omega, by simpa using h1, by simpa using h2⟩

/-- It yields `n(n-1)/2` pairs, so (with `C37_pairIterator_mem`) each position pair once. -/
theorem C37_pairIterator_length {β : Type _} (a : List β) :
    (pairIterator a).length = a.length.choose 2 := by
  induction a with
  | nil => rfl
  | cons z l ih =>
    rw [pairIterator_cons, List.length_append, List.length_map, ih, List.length_cons,
      Nat.choose_succ_succ' l.length 1, Nat.choose_one_right]

/-- On a duplicate-free list no pair is repeated. -/
theorem C37_pairIterator_nodup {β : Type _} (a : List β) (h : a.Nodup) : (pairIterator a).Nodup := by
  induction a with
  | nil => exact List.nodup_nil
  | cons z l ih =>
    rw [List.nodup_cons] at h
    rw [pairIterator_cons, List.nodup_append]
    refine ⟨?_, ih h.2, ?_⟩
    · exact h.2.map (fun a b hab => (Prod.mk.inj hab).2)
    · rintro ⟨p, q⟩ hp ⟨p', q'⟩ hq he
      cases he
      rw [List.mem_map] at hp
      obtain ⟨w, hw, he⟩ := hp
      cases he
      obtain ⟨i, j, _, h1, _⟩ := (C37_pairIterator_mem l z q).mp hq
      exact h.1 (List.mem_of_getElem? h1)

example : pairIterator [5, 6, 7] = [(5, 6), (5, 7), (6, 7)] := by decide

/-- `checkAllEqual` is true exactly when any two entries agree. -/
theorem C37_checkAllEqual (tp : List α) :
    checkAllEqual tp = true ↔ ∀ x ∈ tp, ∀ y ∈ tp, x = y := by
  cases tp with
  | nil => simp [checkAllEqual]
  | cons a l =>
    simp only [checkAllEqual, List.all_eq_true, decide_eq_true_eq]
    constructor
    · intro h x hx y hy
      rw [h x hx, h y hy]
    · intro h x hx
      exact h x hx a (by simp)

/-- `mapToDict` promises "each key corresponds to the value in x", i.e. `dict(zip(keys, x))`. It
stores the whole list under every key instead. -/
theorem C37_mapToDict_stores_whole_list (keys : List α) {β : Type _} (x : List β) (k : α)
    (hk : k ∈ keys) : dictGet (mapToDict keys x) k = some x := by
  unfold mapToDict
  have key : ∀ (ks : List α) (d : List (α × List β)), (dictGet d k = some x ∨ k ∈ ks) →
      dictGet (ks.foldl (fun res key => dictSet res key x) d) k = some x := by
    intro ks
    induction ks with
    | nil => intro d h; simpa using h
    | cons a ks ih =>
      intro d h
      rw [List.foldl_cons]
      apply ih
      rw [dictGet_dictSet]
      by_cases ha : a = k
      · simp [ha]
      · rcases h with h | h
        · left; simp [ha, h]
        · right
          rcases List.mem_cons.mp h with h | h
          · exact absurd h.symm ha
          · exact h
  exact key keys [] (Or.inr hk)

example : dictGet (mapToDict ["a", "b"] [1, 2]) "a" = some [1, 2] := by decide

end CTL
