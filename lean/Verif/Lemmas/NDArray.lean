import Verif.Model.NDArray
import Mathlib.Data.List.Forall2
import Mathlib.Algebra.BigOperators.Ring.List
import Mathlib.Data.List.Perm.Basic
import Mathlib.Tactic.Ring

/-! Helper lemmas about arrays. -/

namespace CTL

theorem validIdx_nil : ValidIdx [] [] := List.Forall₂.nil

theorem validIdx_cons {d i ds is} : ValidIdx (d :: ds) (i :: is) ↔ i < d ∧ ValidIdx ds is := by
  unfold ValidIdx; simp [List.forall₂_cons]

theorem ValidIdx.length {s i} (h : ValidIdx s i) : i.length = s.length := List.Forall₂.length_eq h

theorem ValidIdx.append {s1 s2 i1 i2} (h1 : ValidIdx s1 i1) (h2 : ValidIdx s2 i2) :
    ValidIdx (s1 ++ s2) (i1 ++ i2) := by
  induction s1 generalizing i1 with
  | nil => cases h1; simpa using h2
  | cons d ds ih =>
    cases i1 with
    | nil => cases h1
    | cons i is =>
      rw [validIdx_cons] at h1
      simp only [List.cons_append, validIdx_cons]
      exact ⟨h1.1, ih h1.2⟩

theorem validIdx_map {α} (l : List α) (f g : α → Nat) (h : ∀ x ∈ l, f x < g x) :
    ValidIdx (l.map g) (l.map f) := by
  induction l with
  | nil => exact validIdx_nil
  | cons a l ih =>
    simp only [List.map_cons, validIdx_cons]
    exact ⟨h a (by simp), ih (fun x hx => h x (by simp [hx]))⟩

theorem validIdx_iff {s i : List Nat} :
    ValidIdx s i ↔ i.length = s.length ∧ ∀ k, k < s.length → i.getD k 0 < s.getD k 0 := by
  induction s generalizing i with
  | nil => cases i <;> simp [ValidIdx]
  | cons d ds ih =>
    cases i with
    | nil => simp [ValidIdx]
    | cons x xs =>
      rw [validIdx_cons, ih]
      constructor
      · rintro ⟨h1, h2, h3⟩
        refine ⟨by simp [h2], fun k hk => ?_⟩
        cases k with
        | zero => simpa using h1
        | succ k => simpa using h3 k (by simpa using hk)
      · rintro ⟨h1, h2⟩
        refine ⟨by simpa using h2 0 (by simp), by simpa using h1, fun k hk => ?_⟩
        simpa using h2 (k+1) (by simpa using hk)

theorem indices_length (s : List Nat) : (indices s).length = s.prod := by
  induction s with
  | nil => rfl
  | cons d ds ih => simp [indices, List.length_flatMap, ih]

theorem mem_indices {s i : List Nat} : i ∈ indices s ↔ ValidIdx s i := by
  induction s generalizing i with
  | nil => cases i <;> simp [indices, ValidIdx]
  | cons d ds ih =>
    cases i with
    | nil => simp [indices, ValidIdx]
    | cons x xs => simp [indices, validIdx_cons, ih]

theorem flatMap_range_getElem? {α} (g : Nat → List α) (m : Nat) (hm : ∀ i, (g i).length = m) :
    ∀ d i j, i < d → j < m → ((List.range d).flatMap g)[i * m + j]? = (g i)[j]? := by
  intro d
  induction d with
  | zero => intro i j h; omega
  | succ d ih =>
    intro i j hi hj
    have hlen : ((List.range d).flatMap g).length = d * m := by
      simp [List.length_flatMap, hm]
    rw [List.range_succ, List.flatMap_append]
    by_cases h : i < d
    · rw [List.getElem?_append_left, ih i j h hj]
      rw [hlen]
      calc i * m + j < i * m + m := by omega
        _ = (i+1) * m := by ring
        _ ≤ d * m := Nat.mul_le_mul_right _ h
    · have : i = d := by omega
      subst this
      rw [List.getElem?_append_right (by rw [hlen]; omega), hlen]
      simp

theorem ravel_lt {s i : List Nat} (h : ValidIdx s i) : ravel s i < s.prod := by
  induction s generalizing i with
  | nil => cases h; simp [ravel]
  | cons d ds ih =>
    cases i with
    | nil => cases h
    | cons x xs =>
      rw [validIdx_cons] at h
      have := ih h.2
      simp only [ravel, List.prod_cons]
      calc x * ds.prod + ravel ds xs < x * ds.prod + ds.prod := by omega
        _ = (x+1) * ds.prod := by ring
        _ ≤ d * ds.prod := Nat.mul_le_mul_right _ h.1

theorem indices_getElem? {s i : List Nat} (h : ValidIdx s i) :
    (indices s)[ravel s i]? = some i := by
  induction s generalizing i with
  | nil => cases h; simp [indices, ravel]
  | cons d ds ih =>
    cases i with
    | nil => cases h
    | cons x xs =>
      rw [validIdx_cons] at h
      simp only [indices, ravel]
      rw [flatMap_range_getElem? _ ds.prod (by simp [indices_length]) d x _ h.1 (ravel_lt h.2)]
      simp [ih h.2]

theorem ravel_append {s1 i1 s2 i2 : List Nat} (h1 : ValidIdx s1 i1) :
    ravel (s1 ++ s2) (i1 ++ i2) = ravel s1 i1 * s2.prod + ravel s2 i2 := by
  induction s1 generalizing i1 with
  | nil => cases h1; simp [ravel]
  | cons d ds ih =>
    cases i1 with
    | nil => cases h1
    | cons x xs =>
      rw [validIdx_cons] at h1
      simp only [List.cons_append, ravel, ih h1.2, List.prod_append]
      ring

namespace NDArray
variable {R : Type}

@[simp] theorem build_shape (s : List Nat) (f : List Nat → R) : (build s f).shape = s := rfl

theorem build_wf (s : List Nat) (f : List Nat → R) : (build s f).WF := by
  simp [WF, build, indices_length]

theorem get_build [Zero R] {s i : List Nat} (f : List Nat → R) (h : ValidIdx s i) :
    (build s f).get i = f i := by
  simp [get, build, List.getD_eq_getElem?_getD, indices_getElem? h]

theorem get_mk_reshape [Zero R] (a : NDArray R) (s i j : List Nat)
    (h : ravel s i = ravel a.shape j) : (⟨s, a.data⟩ : NDArray R).get i = a.get j := by
  simp [get, h]

/-- Two arrays agreeing at every index are equal. -/
theorem ext_get [Zero R] {a b : NDArray R} (ha : a.WF) (hb : b.WF) (hs : a.shape = b.shape)
    (h : ∀ i, ValidIdx a.shape i → a.get i = b.get i) : a = b := by
  have key : ∀ c : NDArray R, c.WF → c = build c.shape c.get := by
    intro c hc
    cases c with
    | mk s d =>
      simp only [build, NDArray.mk.injEq, true_and]
      unfold WF at hc
      simp only at hc
      have hlen : ((indices s).map (get ⟨s, d⟩)).length = d.length := by
        simp [indices_length, hc]
      have hinv : ∀ (s : List Nat) n, n < s.prod → ∃ i, ValidIdx s i ∧ ravel s i = n := by
        intro s
        induction s with
        | nil => intro n hn; exact ⟨[], validIdx_nil, by simp [ravel] at hn ⊢; omega⟩
        | cons e es ih =>
          intro n hn
          simp only [List.prod_cons] at hn
          have hpos : 0 < es.prod := by
            rcases Nat.eq_zero_or_pos es.prod with h0 | h0
            · rw [h0] at hn; simp at hn
            · exact h0
          obtain ⟨i, hi, hr⟩ := ih (n % es.prod) (Nat.mod_lt _ hpos)
          refine ⟨n / es.prod :: i, ?_, ?_⟩
          · rw [validIdx_cons]; exact ⟨Nat.div_lt_of_lt_mul (by rw [Nat.mul_comm]; exact hn), hi⟩
          · simp only [ravel, hr]; exact Nat.div_add_mod' n es.prod
      apply List.ext_getElem?
      intro n
      by_cases hn : n < d.length
      · obtain ⟨i, hi, rfl⟩ := hinv s n (by omega)
        rw [List.getElem?_map, indices_getElem? hi]
        simp [get, List.getD_eq_getElem?_getD, List.getElem?_eq_getElem hn]
      · rw [List.getElem?_eq_none (by omega), List.getElem?_eq_none (by omega)]
  rw [key a ha, key b hb, hs]
  simp only [build, NDArray.mk.injEq, true_and]
  apply List.map_congr_left
  intro i hi
  exact h i (by rw [hs]; exact mem_indices.mp hi)

end NDArray
end CTL
