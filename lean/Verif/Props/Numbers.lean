import Verif.Lemmas.Numbers

/-!
# C29 (impurity binning weights), C30 (index encodings), C35 (bisection)
-/

namespace CTL

/-! ## C30 -/

/-- `intToDBaseTuple(x, dim, D)` for `D ≥ 1`: `dim` digits, each in `[0, D)`, whose base-`D` value
(least significant first) is `x` modulo `D ^ dim`. Holds for negative `x` too. -/
theorem C30_intToDBaseTuple (x : Int) (dim : Nat) (D : Int) (hD : 0 < D) :
    ∃ ds, intToDBaseTuple x dim D = .ok ds ∧ ds.length = dim ∧
      (∀ d ∈ ds, 0 ≤ d ∧ d < D) ∧ fromDigits D ds = x % D ^ dim := by
  induction dim generalizing x with
  | zero => exact ⟨[], rfl, rfl, by simp, by simp [fromDigits, Int.emod_one]⟩
  | succ dim ih =>
    obtain ⟨ds, h1, h2, h3, h4⟩ := ih (x / D)
    refine ⟨(x % D) :: ds, ?_, by simp [h2], ?_, ?_⟩
    · rw [intToDBaseTuple_succ _ _ _ hD, h1]; rfl
    · intro d hd
      rcases List.mem_cons.mp hd with rfl | hd
      · exact ⟨Int.emod_nonneg _ (by omega), Int.emod_lt_of_pos _ hD⟩
      · exact h3 d hd
    · rw [fromDigits, h4]
      have hpos : 0 < D ^ dim := by positivity
      have e1 := Int.emod_add_mul_ediv x D
      have e2 := Int.emod_add_mul_ediv (x / D) (D ^ dim)
      have hlt := Int.emod_lt_of_pos (x / D) hpos
      have hnn := Int.emod_nonneg (x / D) (show D ^ dim ≠ 0 by omega)
      have hr1 := Int.emod_nonneg x (show D ≠ 0 by omega)
      have hr2 := Int.emod_lt_of_pos x hD
      have hx : x = (x % D + D * (x / D % D ^ dim)) + D ^ (dim + 1) * (x / D / D ^ dim) := by
        conv_lhs => rw [← e1, ← e2]
        ring
      have hb : x % D + D * (x / D % D ^ dim) < D ^ (dim + 1) := by
        have : D * (x / D % D ^ dim) ≤ D * (D ^ dim - 1) :=
          mul_le_mul_of_nonneg_left (by omega) hD.le
        rw [pow_succ]; linarith
      have ha : 0 ≤ x % D + D * (x / D % D ^ dim) := by positivity
      conv_rhs => rw [hx]
      rw [Int.add_mul_emod_self_left, Int.emod_eq_of_lt ha hb]

/-- Round trip: encoding the value of an in-range digit list returns that list. -/
theorem C30_intToDBaseTuple_roundtrip (D : Int) (hD : 0 < D) (ds : List Int)
    (h : ∀ d ∈ ds, 0 ≤ d ∧ d < D) :
    intToDBaseTuple (fromDigits D ds) ds.length D = .ok ds := by
  induction ds with
  | nil => rfl
  | cons d ds ih =>
    have hd := h d (by simp)
    rw [List.length_cons, intToDBaseTuple_succ _ _ _ hD, fromDigits]
    have e1 : (d + D * fromDigits D ds) / D = fromDigits D ds := by
      rw [Int.add_mul_ediv_left _ _ (by omega), Int.ediv_eq_zero_of_lt hd.1 hd.2, zero_add]
    have e2 : (d + D * fromDigits D ds) % D = d := by
      rw [Int.add_mul_emod_self_left, Int.emod_eq_of_lt hd.1 hd.2]
    rw [e1, e2, ih (fun d hd => h d (by simp [hd]))]
    rfl

/-- A zero base raises `ZeroDivisionError` as soon as one digit is asked for. -/
theorem C30_intToDBaseTuple_zero_base (x : Int) (dim : Nat) :
    intToDBaseTuple x (dim + 1) 0 = .error .zeroDivisionError := rfl

/-- `intToBitList` / `intToBitTuple`: `dim` bits of `x`, least significant first. -/
theorem C30_intToBitList (x : Int) (dim : Nat) :
    (intToBitList x dim).length = dim ∧ (∀ b ∈ intToBitList x dim, b = 0 ∨ b = 1) ∧
      fromDigits 2 (intToBitList x dim) = x % 2 ^ dim := by
  obtain ⟨ds, h1, h2, h3, h4⟩ := C30_intToDBaseTuple x dim 2 (by norm_num)
  rw [intToBitList_eq] at h1
  cases h1
  refine ⟨h2, ?_, h4⟩
  intro b hb
  have := h3 b hb
  omega

example : intToDBaseTuple 23 4 3 = .ok [2, 1, 2, 0] ∧ fromDigits 3 [2, 1, 2, 0] = 23 := by decide
example : intToBitList (-1) 3 = [1, 1, 1] := by decide

/-- `safeMod(x, m)` for `m > 0` is the representative of `x` modulo `m` in `[0, m)`. -/
theorem C30_safeMod (x m : Int) (hm : 0 < m) :
    ∃ r, safeMod x m = .ok r ∧ 0 ≤ r ∧ r < m ∧ m ∣ x - r := by
  refine ⟨x % m, ?_, Int.emod_nonneg _ (by omega), Int.emod_lt_of_pos _ hm, ?_⟩
  · unfold safeMod
    rw [fdiv_fmod_pos x m hm]
    simp only [bind, Except.bind]
    rw [fdiv_fmod_pos _ m hm]
    simp
  · exact Int.dvd_self_sub_emod

example : safeMod (-7) 3 = .ok 2 := by decide

/-- Row-major (Horner) value of an index tuple in a shape. -/
def hornerValue (shape ds : List Int) : Int :=
  (shape.zip ds).foldl (fun acc p => acc * p.1 + p.2) 0

theorem getIndexDictLoop_spec {κ : Type _} [DecidableEq κ] :
    ∀ (ps : List (κ × Int)) (idx : Int) (res : List (κ × Int)),
      (∀ p ∈ ps, 0 < p.2) → (ps.map Prod.fst).Nodup →
      ∃ (d : List (κ × Int)) (rs : List Int),
        getIndexDictLoop ps idx res = .ok d ∧ rs.length = ps.length ∧
        (∀ k, k ∉ ps.map Prod.fst → dictGet d k = dictGet res k) ∧
        (∀ i (hi : i < ps.length), ∃ r, rs[i]? = some r ∧ dictGet d (ps[i]).1 = some r ∧
          0 ≤ r ∧ r < (ps[i]).2) ∧
        ((ps.map Prod.snd).zip rs).foldr (fun p acc => acc * p.1 + p.2) 0
          = idx % (ps.map Prod.snd).prod := by
  intro ps
  induction ps with
  | nil =>
    intro idx res _ _
    exact ⟨res, [], rfl, rfl, by simp, by simp, by simp [Int.emod_one]⟩
  | cons p ps ih =>
    obtain ⟨lab, s⟩ := p
    intro idx res hpos hnd
    have hs : 0 < s := hpos (lab, s) (by simp)
    rw [List.map_cons, List.nodup_cons] at hnd
    obtain ⟨d, rs, h1, h2, h3, h4, h5⟩ := ih (idx / s) (dictSet res lab (idx % s))
      (fun p hp => hpos p (by simp [hp])) hnd.2
    refine ⟨d, (idx % s) :: rs, ?_, by simp [h2], ?_, ?_, ?_⟩
    · rw [getIndexDictLoop, fdiv_fmod_pos idx s hs]
      exact h1
    · intro k hk
      simp only [List.map_cons, List.mem_cons, not_or] at hk
      rw [h3 k hk.2, dictGet_dictSet, if_neg (fun e => hk.1 e.symm)]
    · intro i hi
      cases i with
      | zero =>
        refine ⟨idx % s, by simp, ?_, Int.emod_nonneg _ (by omega), Int.emod_lt_of_pos _ hs⟩
        simp only [List.getElem_cons_zero]
        rw [h3 lab hnd.1, dictGet_dictSet, if_pos rfl]
      | succ i =>
        obtain ⟨r, hr⟩ := h4 i (by simpa using hi)
        exact ⟨r, by simpa using hr⟩
    · simp only [List.map_cons, List.zip_cons_cons, List.foldr_cons, List.prod_cons, h5]
      have hprod : 0 < (ps.map Prod.snd).prod := by
        apply List.prod_pos
        intro x hx
        rw [List.mem_map] at hx
        obtain ⟨p, hp, rfl⟩ := hx
        exact hpos p (by simp [hp])
      set M := (ps.map Prod.snd).prod
      have e1 := Int.emod_add_mul_ediv idx s
      have e2 := Int.emod_add_mul_ediv (idx / s) M
      have hlt := Int.emod_lt_of_pos (idx / s) hprod
      have hnn := Int.emod_nonneg (idx / s) (show M ≠ 0 by omega)
      have hr1 := Int.emod_nonneg idx (show s ≠ 0 by omega)
      have hr2 := Int.emod_lt_of_pos idx hs
      have hx : idx = (idx / s % M * s + idx % s) + (s * M) * (idx / s / M) := by
        conv_lhs => rw [← e1, ← e2]
        ring
      have hb : idx / s % M * s + idx % s < s * M := by
        have : idx / s % M * s ≤ (M - 1) * s := mul_le_mul_of_nonneg_right (by omega) hs.le
        linarith
      have ha : 0 ≤ idx / s % M * s + idx % s := by positivity
      conv_rhs => rw [hx]
      rw [Int.add_mul_emod_self_left, Int.emod_eq_of_lt ha hb]

/-- `getIndexDict(idx, labels, shape)` with distinct labels and positive dimensions: every label
gets a digit in range, and the row-major value of the digits is `idx` modulo the total size. -/
theorem C30_getIndexDict {κ : Type _} [DecidableEq κ] (idx : Int) (labels : List κ)
    (shape : List Int) (hlen : labels.length = shape.length) (hnd : labels.Nodup)
    (hpos : ∀ s ∈ shape, 0 < s) :
    ∃ d ds, getIndexDict idx labels shape = .ok d ∧ ds.length = shape.length ∧
      (∀ i (hi : i < shape.length), ∃ r, ds[i]? = some r ∧
        dictGet d (labels[i]'(by omega)) = some r ∧ 0 ≤ r ∧ r < shape[i]) ∧
      hornerValue shape ds = idx % shape.prod := by
  have hfst : ((labels.zip shape).reverse.map Prod.fst) = labels.reverse := by
    rw [List.map_reverse, List.map_fst_zip (by omega)]
  have hsnd : ((labels.zip shape).reverse.map Prod.snd) = shape.reverse := by
    rw [List.map_reverse, List.map_snd_zip (by omega)]
  obtain ⟨d, rs, h1, h2, h3, h4, h5⟩ := getIndexDictLoop_spec (labels.zip shape).reverse idx []
    (by
      intro p hp
      rw [List.mem_reverse] at hp
      exact hpos p.2 (List.of_mem_zip hp).2)
    (by rw [hfst]; exact List.nodup_reverse.mpr hnd)
  have hzl : (labels.zip shape).length = shape.length := by simp [hlen]
  have hrl : rs.length = shape.length := by rw [h2, List.length_reverse, hzl]
  refine ⟨d, rs.reverse, ?_, by simp [hrl], ?_, ?_⟩
  · unfold getIndexDict
    rw [if_neg (by omega), List.take_of_length_le (by omega)]
    exact h1
  · intro i hi
    obtain ⟨r, hr1, hr2, hr3, hr4⟩ := h4 (shape.length - 1 - i) (by
      rw [List.length_reverse, hzl]; omega)
    have e : (labels.zip shape).reverse[shape.length - 1 - i]'(by
        rw [List.length_reverse, hzl]; omega) = (labels[i], shape[i]) := by
      rw [List.getElem_reverse, List.getElem_zip]
      congr 1 <;> congr 1 <;> omega
    rw [e] at hr2 hr4
    refine ⟨r, ?_, hr2, hr3, hr4⟩
    rw [List.getElem?_reverse (by omega), ← hr1]
    congr 1
    omega
  · rw [hsnd] at h5
    unfold hornerValue
    have hz : shape.zip rs.reverse = (shape.reverse.zip rs).reverse := by
      apply List.ext_getElem
      · simp [hrl]
      · intro i h1 h2
        simp only [List.getElem_zip, List.getElem_reverse, List.length_zip, List.length_reverse, hrl,
          Nat.min_self, Prod.mk.injEq, and_true]
        congr 1
        simp at h1
        omega
    rw [hz, List.foldl_reverse, h5, List.prod_reverse]

example : getIndexDict 7 ["a", "b"] [3, 4] = .ok [("b", 3), ("a", 1)] := by decide

/-- With a repeated label the earlier axis overwrites the later one, so the index is lost:
two different indices give the same dict. -/
theorem C30_getIndexDict_duplicate_labels :
    getIndexDict 0 ["a", "a"] [2, 2] = getIndexDict 1 ["a", "a"] [2, 2] := by decide

/-! ## C29 -/

theorem partsList_mem (k n : Nat) (hk : 1 ≤ k) (p : List Nat) :
    p ∈ partsList n k ↔ p.length = k ∧ p.sum = n := by
  induction k generalizing n p with
  | zero => omega
  | succ k ih =>
    cases k with
    | zero =>
      rw [partsList, List.mem_singleton]
      constructor
      · rintro rfl; simp
      · rintro ⟨h1, h2⟩
        obtain ⟨a, rfl⟩ := List.length_eq_one_iff.mp h1
        simpa using h2
    | succ k =>
      rw [partsList, List.mem_flatMap]
      constructor
      · rintro ⟨i, hi, hp⟩
        rw [List.mem_map] at hp
        obtain ⟨q, hq, rfl⟩ := hp
        rw [ih _ (by omega)] at hq
        rw [List.mem_range] at hi
        refine ⟨by simp [hq.1], ?_⟩
        rw [List.sum_cons, hq.2]; omega
      · rintro ⟨h1, h2⟩
        cases p with
        | nil => simp at h1
        | cons i q =>
          rw [List.sum_cons] at h2
          refine ⟨i, by rw [List.mem_range]; omega, ?_⟩
          rw [List.mem_map]
          exact ⟨q, (ih _ (by omega) _).mpr ⟨by simpa using h1, by omega⟩, rfl⟩

theorem partsList_nodup (k n : Nat) : (partsList n k).Nodup := by
  induction k generalizing n with
  | zero => exact List.nodup_nil
  | succ k ih =>
    cases k with
    | zero => simp [partsList]
    | succ k =>
      rw [partsList, List.nodup_flatMap]
      constructor
      · intro i _
        exact (ih _).map (fun a b h => (List.cons.inj h).2)
      · apply List.Pairwise.imp _ (List.nodup_range (n := n + 1))
        intro i j hij p hp hq
        rw [List.mem_map] at hp hq
        obtain ⟨_, _, rfl⟩ := hp
        obtain ⟨_, _, h⟩ := hq
        exact hij (List.cons.inj h).1.symm

/-- `divideIntoKParts(n, k)` for `k ≥ 1` yields every list of `k` non-negative integers with sum
`n`, and none twice. -/
theorem C29_divideIntoKParts (n k : Nat) (hk : 1 ≤ k) :
    ∃ parts, divideIntoKParts n k = some parts ∧ parts.Nodup ∧
      ∀ p, p ∈ parts ↔ p.length = k ∧ p.sum = n :=
  ⟨_, divideIntoKParts_eq k n hk, partsList_nodup k n, partsList_mem k n hk⟩

example : divideIntoKParts 2 2 = some [[0, 2], [1, 1], [2, 0]] := by decide

/-- `myComb(n, p)` is the binomial coefficient: the successive floor divisions lose nothing. -/
theorem C29_myComb (n p : Nat) : myComb n p = ((n.choose p : Nat) : Int) := myComb_eq_choose n p

example : myComb 7 3 = 35 := by decide

/-- `calculateDivisionTimes` is the multinomial coefficient `n! / ∏ pᵢ!`. -/
theorem C29_calculateDivisionTimes (d : List Nat) :
    calculateDivisionTimes d * (((d.map Nat.factorial).prod : Nat) : Int)
      = ((d.sum.factorial : Nat) : Int) := by
  induction d with
  | nil => simp [calculateDivisionTimes_nil]
  | cons p d ih =>
    rw [calculateDivisionTimes_cons, List.map_cons, List.prod_cons, List.sum_cons]
    have h := Nat.choose_mul_factorial_mul_factorial (n := p + d.sum) (k := p) (by omega)
    rw [Nat.add_sub_cancel_left] at h
    rw [← h]
    simp only [Nat.cast_mul]
    rw [← ih]
    ring

example : calculateDivisionTimes [2, 1, 1] = 12 := by decide

/-- The weights of all divisions of `n` into `k` parts sum to `k ^ n`: the impurity average over
blocks is normalised. -/
theorem C29_weights_sum (n k : Nat) (hk : 1 ≤ k) :
    ∃ parts, divideIntoKParts n k = some parts ∧
      (parts.map calculateDivisionTimes).sum = ((k ^ n : Nat) : Int) := by
  refine ⟨_, divideIntoKParts_eq k n hk, ?_⟩
  induction k generalizing n with
  | zero => omega
  | succ k ih =>
    cases k with
    | zero => simp [partsList, calculateDivisionTimes_cons, calculateDivisionTimes_nil]
    | succ k =>
      rw [partsList, List.map_flatMap, List.flatMap_def, List.sum_flatten, List.map_map]
      have h1 : ∀ i ∈ List.range (n + 1),
          ((fun l : List Int => l.sum) ∘ fun i => ((partsList (n - i) (k + 1)).map
            (fun p => i :: p)).map calculateDivisionTimes) i
          = ((n.choose i * (k + 1) ^ (n - i) : Nat) : Int) := by
        intro i hi
        rw [List.mem_range] at hi
        simp only [Function.comp]
        rw [List.map_map]
        have h2 : ∀ p ∈ partsList (n - i) (k + 1),
            (calculateDivisionTimes ∘ fun p => i :: p) p
              = ((n.choose i : Nat) : Int) * calculateDivisionTimes p := by
          intro p hp
          rw [partsList_mem _ _ (by omega)] at hp
          simp only [Function.comp]
          rw [calculateDivisionTimes_cons, hp.2]
          congr 3
          omega
        rw [List.map_congr_left h2, List.sum_map_mul_left, ih _ (by omega)]
        push_cast; ring
      rw [List.map_congr_left h1]
      have h4 : ∀ (m : Nat) (f : Nat → Nat), (((List.range m).map (fun i => ((f i : Nat) : Int))).sum)
          = ((∑ i ∈ Finset.range m, f i : Nat) : Int) := by
        intro m f
        induction m with
        | zero => simp
        | succ m ih => rw [List.range_succ, List.map_append, List.sum_append, ih, Finset.sum_range_succ]; simp
      rw [h4, show k + 1 + 1 = 1 + (k + 1) by omega, add_pow]
      congr 1
      apply Finset.sum_congr rfl
      intro i _
      simp [Nat.mul_comm]

/-! ## C35 -/

section
variable {K : Type _} [Field K] [LinearOrder K] [IsStrictOrderedRing K] [Archimedean K]

/-- `binarySearch(left, right, P, eps)` with `left < right`, `eps > 0` terminates, for any predicate
`P`, and returns the midpoint of an interval of length at most `eps` inside `[left, right]`, whose
left end is `left` or a point where `P` was false and whose right end is `right` or a point
where `P` was true. -/
theorem C35_binarySearch_bracket (left right eps : K) (P : K → Bool) (hlr : left < right)
    (heps : 0 < eps) :
    ∃ (N : Nat) (l r : K), (∀ fuel, N ≤ fuel →
        binarySearch fuel left right P eps = .ok (some ((l + r) / 2))) ∧
      left ≤ l ∧ l < r ∧ r ≤ right ∧ r - l ≤ eps ∧
      (l = left ∨ P l = false) ∧ (r = right ∨ P r = true) := by
  obtain ⟨f, hf⟩ := pow_unbounded_of_one_lt ((right - left) / eps) (one_lt_two (α := K))
  have hle : right - left ≤ eps * 2 ^ f := by
    rw [div_lt_iff₀ heps] at hf
    linarith
  obtain ⟨l, r, h1, h2⟩ := binarySearchLoop_spec P eps f left right hlr hle heps
  refine ⟨f + 1, l, r, ?_, h2⟩
  intro fuel hfuel
  unfold binarySearch
  rw [if_pos hlr, mul_comm (left + right)]
  rw [binarySearchLoop_mono P eps (f + 1) fuel _ _ _ _ hfuel h1]
  congr 2
  ring

/-- If `P` is false below a threshold `t` and true above it, and `t` lies in `[left, right]`, the
answer is within `eps / 2` of `t`. -/
theorem C35_binarySearch_threshold (left right eps t : K) (P : K → Bool) (hlr : left < right)
    (heps : 0 < eps) (ht1 : left ≤ t) (ht2 : t ≤ right)
    (hlow : ∀ x, x < t → P x = false) (hhigh : ∀ x, t < x → P x = true) :
    ∃ (N : Nat) (m : K), (∀ fuel, N ≤ fuel →
        binarySearch fuel left right P eps = .ok (some m)) ∧ |m - t| ≤ eps / 2 := by
  obtain ⟨N, l, r, h0, h1, h2, h3, h4, h5, h6⟩ := C35_binarySearch_bracket left right eps P hlr heps
  refine ⟨N, _, h0, ?_⟩
  have hl : l ≤ t := by
    rcases h5 with h | h
    · rw [h]; exact ht1
    · by_contra hc
      rw [hhigh l (not_le.mp hc)] at h
      cases h
  have hr : t ≤ r := by
    rcases h6 with h | h
    · rw [h]; exact ht2
    · by_contra hc
      rw [hlow r (not_le.mp hc)] at h
      cases h
  rw [abs_le]
  constructor <;> linarith

end

/-- With `eps ≤ 0` the loop never ends in exact arithmetic; with `left ≥ right` it raises. -/
theorem C35_binarySearch_eps_nonpos {K : Type _} [Field K] [LinearOrder K] [IsStrictOrderedRing K]
    (left right eps : K) (P : K → Bool) (heps : eps ≤ 0) (fuel : Nat) :
    binarySearch fuel left right P eps
      = if left < right then .ok none else .error .assertionError := by
  unfold binarySearch
  split
  · rw [mul_comm (left + right), binarySearchLoop_diverges P eps heps fuel left right (by assumption)]
  · rfl

example : binarySearch 10 (0 : ℚ) 1 (fun x => decide (x > 3 / 10)) (1 / 8) = .ok (some (5 / 16)) := by
  decide +kernel

/-- `getCutoff` returns the first position below the threshold, or the length. -/
theorem C35_getCutoff {K : Type _} [LinearOrder K] (s : List K) (t : K) :
    getCutoff s t ≤ s.length ∧ (∀ x, s[getCutoff s t]? = some x → x < t) ∧
      ∀ i, i < getCutoff s t → ∀ x, s[i]? = some x → t ≤ x := by
  induction s with
  | nil => simp [getCutoff]
  | cons a s ih =>
    rw [getCutoff]
    by_cases h : a < t
    · simp [h]
    · rw [if_neg h]
      refine ⟨by simpa using ih.1, by simpa using ih.2.1, ?_⟩
      intro i hi x hx
      cases i with
      | zero => simp at hx; rw [← hx]; exact not_lt.mp h
      | succ i => exact ih.2.2 i (by omega) x (by simpa using hx)

end CTL
