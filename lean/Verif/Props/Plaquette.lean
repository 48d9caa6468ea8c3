import Verif.Spec.Plaquette
import Verif.Props.HOTRGCases
import Mathlib.Analysis.SpecialFunctions.Arsinh

/-! C51: the plaquette tensors of the Ising model. -/

namespace CTL

open Finset (range)

theorem spinValue_zero : spinValue 0 = -1 := rfl
theorem spinValue_one : spinValue 1 = 1 := rfl

theorem bit_cases {P : Nat → Nat → Nat → Nat → Prop} (h : ∀ s < 16, P ((bitIdx s).getD 0 0) ((bitIdx s).getD 1 0) ((bitIdx s).getD 2 0) ((bitIdx s).getD 3 0)) :
    ∀ u < 2, ∀ l < 2, ∀ d < 2, ∀ r < 2, P u l d r := by
  intro u hu l hl d hd r hr
  have e : ∀ u < 2, ∀ l < 2, ∀ d < 2, ∀ r < 2, ∃ s < 16, bitIdx s = [u, l, d, r] := by decide +kernel
  obtain ⟨s, hs, e⟩ := e u hu l hl d hd r hr
  have := h s hs
  rw [e] at this
  exact this

theorem mem_indices_iff_bit : ∀ s < 16, ravel [2, 2, 2, 2] (bitIdx s) < 16 ∧ ∀ s' < 16, ravel [2, 2, 2, 2] (bitIdx s) = ravel [2, 2, 2, 2] (bitIdx s') → s = s' := by
  decide +kernel

theorem NDArray.setAt_get_same {R : Type} [Zero R] {a : NDArray R} {idx : List Nat} (h : ravel a.shape idx < a.data.length) (x : R) :
    (a.setAt idx x).get idx = x := by
  unfold NDArray.setAt NDArray.get
  simp only [List.getD_eq_getElem?_getD, List.getElem?_set, if_pos h]
  simp

theorem NDArray.setAt_get_ne {R : Type} [Zero R] {a : NDArray R} {idx idx' : List Nat} (h : ravel a.shape idx ≠ ravel a.shape idx') (x : R) :
    (a.setAt idx x).get idx' = a.get idx' := by
  unfold NDArray.setAt NDArray.get
  simp only [List.getD_eq_getElem?_getD, List.getElem?_set, if_neg h]

theorem NDArray.setAt_wf {R : Type} {a : NDArray R} (h : a.WF) (idx : List Nat) (x : R) : (a.setAt idx x).WF := by
  unfold NDArray.setAt NDArray.WF
  exact List.length_set.trans h

/-- Writing all sixteen entries. -/
theorem fold_entries {R : Type} [Zero R] (f : Nat → R) (step : NDArray R → Nat → Except PyErr (NDArray R))
    (hs : ∀ a s, a.WF → a.shape = [2, 2, 2, 2] → s < 16 → step a s = .ok (a.setAt (bitIdx s) (f s)) ∨
      ∃ y, step a s = .ok ((a.setAt (bitIdx s) y).setAt (bitIdx s) (f s))) :
    ∀ n ≤ 16, ∃ r, (List.range n).foldlM step (NDArray.build [2, 2, 2, 2] fun _ => 0) = .ok r ∧ r.WF ∧ r.shape = [2, 2, 2, 2] ∧
      ∀ s < n, r.get (bitIdx s) = f s
  | 0, _ => ⟨_, rfl, NDArray.build_wf _ _, rfl, fun s hs => absurd hs (Nat.not_lt_zero s)⟩
  | n + 1, hn => by
    obtain ⟨r, e, w, sh, v⟩ := fold_entries f step hs n (by omega)
    obtain ⟨h1, h2⟩ := mem_indices_iff_bit n (by omega)
    have hlen : r.data.length = 16 := by
      have : r.data.length = r.shape.prod := w
      rw [this, sh]
      rfl
    rw [List.range_succ, List.foldlM_append, e]
    simp only [List.foldlM_cons, List.foldlM_nil, bind, Except.bind, pure, Except.pure]
    have fin : ∀ a : NDArray R, a.WF → a.shape = [2, 2, 2, 2] → (∀ s < n, a.get (bitIdx s) = f s) →
        (a.setAt (bitIdx n) (f n)).WF ∧ (a.setAt (bitIdx n) (f n)).shape = [2, 2, 2, 2] ∧
          ∀ s < n + 1, (a.setAt (bitIdx n) (f n)).get (bitIdx s) = f s := by
      intro a wa sa va
      have hla : a.data.length = 16 := by
        have : a.data.length = a.shape.prod := wa
        rw [this, sa]
        rfl
      refine ⟨NDArray.setAt_wf wa _ _, sa, fun s hs => ?_⟩
      rcases Nat.lt_succ_iff_lt_or_eq.mp hs with hs | rfl
      · rw [NDArray.setAt_get_ne, va s hs]
        rw [sa]
        intro h
        have := h2 s (by omega) h
        omega
      · exact NDArray.setAt_get_same (by rw [sa, hla]; exact h1) _
    rcases hs r n w sh (by omega) with e1 | ⟨y, e1⟩
    · rw [e1]
      obtain ⟨f1, f2, f3⟩ := fin r w sh v
      exact ⟨_, rfl, f1, f2, f3⟩
    · rw [e1]
      obtain ⟨f1, f2, f3⟩ := fin (r.setAt (bitIdx n) y) (NDArray.setAt_wf w _ _) sh (fun s hs => by
        rw [NDArray.setAt_get_ne, v s hs]
        rw [sh]
        intro h
        have := h2 s (by omega) h
        omega)
      exact ⟨_, rfl, f1, f2, f3⟩

theorem bits_table : ∀ s : Nat, s < 16 → ∃ a : Nat, a < 2 ∧ ∃ b : Nat, b < 2 ∧ ∃ c : Nat, c < 2 ∧ ∃ d : Nat, d < 2 ∧ intToBitList s 4 = [(a : Int), (b : Int), (c : Int), (d : Int)] ∧
    bitIdx s = [a, b, c, d] := by decide +kernel

theorem squareE_eq (w : Nat → ℝ) {a b c d : Nat} (ha : a < 2) (hb : b < 2) (hc : c < 2) (hd : d < 2) :
    squareE w [(a : Int), (b : Int), (c : Int), (d : Int)] = -(w 0 * (spinValue a * spinValue b) + w 1 * (spinValue b * spinValue c) +
      w 2 * (spinValue c * spinValue d) + w 3 * (spinValue d * spinValue a)) := by
  have hr : List.range 4 = [0, 1, 2, 3] := by decide
  unfold squareE
  rw [hr]
  interval_cases a <;> interval_cases b <;> interval_cases c <;> interval_cases d <;> simp [spinValue] <;> ring

theorem squareM_eq {a b c d : Nat} (ha : a < 2) (hb : b < 2) (hc : c < 2) (hd : d < 2) :
    squareM realFns [(a : Int), (b : Int), (c : Int), (d : Int)] = aroundM a b c d := by
  unfold squareM aroundM
  interval_cases a <;> interval_cases b <;> interval_cases c <;> interval_cases d <;> simp [spinValue, realFns] <;> ring

theorem squareE_one {a b c d : Nat} (ha : a < 2) (hb : b < 2) (hc : c < 2) (hd : d < 2) :
    squareE (fun _ => (1 : ℝ)) [(a : Int), (b : Int), (c : Int), (d : Int)] = aroundEnergy 1 1 a b c d := by
  rw [squareE_eq _ ha hb hc hd, aroundEnergy]
  ring

/-- C51: what is measured on a square, and what is refused. -/
theorem C51_measure {a b c d : Nat} (ha : a < 2) (hb : b < 2) (hc : c < 2) (hd : d < 2) (obs : Option String) :
    squareTensorMeasure realFns [(a : Int), (b : Int), (c : Int), (d : Int)] obs =
      if ∀ o, obs = some o → o = "M" ∨ o = "E" then .ok (measured a b c d obs) else .error .assertionError := by
  rcases obs with _ | o
  · simp [squareTensorMeasure, measured]
  · unfold squareTensorMeasure
    by_cases h1 : o = "M"
    · subst h1
      simp [measured, squareM_eq ha hb hc hd]
    · by_cases h2 : o = "E"
      · subst h2
        simp [measured, squareE_one ha hb hc hd]
      · simp [h1, h2]

theorem site_of_data {st : Store} (wf : WFStore st) {x : NDArray ℝ} (wx : x.WF) (sx : x.shape = [2, 2, 2, 2]) {labels : List String}
    (hl : labels.length = 4) (hn : labels.Nodup) :
    ∃ st' t, construct (fun _ _ => 0) st { data := some x, labels := some labels } = .ok (st', t) ∧ WFStore st' ∧ LegsUnchanged st st' ∧
      HasLabels st' t labels ∧ (∀ n ∈ labels, t.dimOf st' n = 2) ∧
      ∀ vals : List Nat, vals.length = 4 → t.at st' (labels.zip vals) = x.get vals := by
  obtain ⟨st1, t, e, w1, k1, l1, d1, v1⟩ := construct_plain (fun _ _ => 0) wf wx (labels := labels) (by rw [sx, hl]; rfl) hn
    (by rw [sx]; decide)
  refine ⟨st1, t, e, w1, k1, l1, fun n hn => ?_, fun vals hv => v1 vals (by rw [hv, hl])⟩
  rw [sx] at d1
  obtain ⟨i, hi, rfl⟩ := List.mem_iff_getElem.mp hn
  refine d1 _ 2 ?_
  rw [List.mem_iff_getElem]
  refine ⟨i, by simp [hl]; omega, ?_⟩
  rw [List.getElem_zip]
  congr 1
  have : i < 4 := by omega
  interval_cases i <;> rfl

/-- C51: the entries of `squareIsingTensor` are the measurement times the Boltzmann factor. -/
theorem C51_square {st : Store} (wf : WFStore st) (beta field : ℝ) {obs : Option String} (ho : ∀ o, obs = some o → o = "M" ∨ o = "E") :
    ∃ st' t, squareIsingTensor realFns st beta obs field = .ok (st', t, 2) ∧ WFStore st' ∧ LegsUnchanged st st' ∧ SquareSite st' t ∧
      t.dimOf st' "u" = 2 ∧ t.dimOf st' "l" = 2 ∧
      ∀ u < 2, ∀ l < 2, ∀ d < 2, ∀ r < 2, t.site st' u l d r =
        measured u l d r obs * Real.exp (-(beta * aroundEnergy 1 1 u l d r) + field * aroundM u l d r) := by
  let val : Nat → Nat → Nat → Nat → ℝ := fun u l d r =>
    measured u l d r obs * Real.exp (-(beta * aroundEnergy 1 1 u l d r) + field * aroundM u l d r)
  obtain ⟨x, e, w, sh, v⟩ := fold_entries
    (fun s => val ((bitIdx s).getD 0 0) ((bitIdx s).getD 1 0) ((bitIdx s).getD 2 0) ((bitIdx s).getD 3 0))
    (squareEntry realFns beta obs field) (fun y s wy sy hs => by
      right
      obtain ⟨a, ha, b, hb, c, hc, d, hd, e1, e2⟩ := bits_table s hs
      have h1 := mem_indices_iff_bit s hs
      have hl : y.data.length = 16 := by
        have : y.data.length = y.shape.prod := wy
        rw [this, sy]
        rfl
      refine ⟨measured a b c d obs * Real.exp (-beta * aroundEnergy 1 1 a b c d), ?_⟩
      unfold squareEntry
      simp only [e1, C51_measure ha hb hc hd, if_pos ho, bind, Except.bind, pure, Except.pure, squareE_one ha hb hc hd]
      rw [if_pos (by simp)]
      simp only
      rw [NDArray.setAt_get_same (by rw [sy, hl]; exact h1.1)]
      have : realFns.exp = Real.exp := rfl
      rw [this, mul_assoc, ← Real.exp_add]
      simp only [e2, val, List.getD_cons_zero, List.getD_cons_succ, measured, neg_mul]) 16 le_rfl
  obtain ⟨st1, t, e1, w1, k1, l1, d1, v1⟩ := site_of_data wf w sh (labels := ["u", "l", "d", "r"]) rfl (by decide)
  refine ⟨st1, t, ?_, w1, k1, ⟨l1, by rw [d1 "u" (by simp), d1 "d" (by simp)], by rw [d1 "l" (by simp), d1 "r" (by simp)]⟩, d1 "u" (by simp),
    d1 "l" (by simp), ?_⟩
  · unfold squareIsingTensor
    simp only [e, e1, bind, Except.bind, pure, Except.pure]
  · refine bit_cases fun s hs => ?_
    refine Eq.trans ?_ (v s hs)
    obtain ⟨a, ha, b, hb, c, hc, d, hd, -, e2⟩ := bits_table s hs
    simp only [e2, List.getD_cons_zero, List.getD_cons_succ]
    exact v1 [a, b, c, d] rfl

/-- C51: another observable is refused. -/
theorem C51_square_refused (st : Store) (beta field : ℝ) {o : String} (h1 : o ≠ "M") (h2 : o ≠ "E") :
    squareIsingTensor realFns st beta (some o) field = .error .assertionError := by
  have : squareEntry realFns beta (some o) field (NDArray.build [2, 2, 2, 2] fun _ => 0) 0 = .error .assertionError := by
    simp [squareEntry, squareTensorMeasure, h1, h2, bind, Except.bind]
  unfold squareIsingTensor
  have hr : List.range 16 = 0 :: (List.range 15).map Nat.succ := by decide
  rw [hr, List.foldlM_cons, this]
  rfl

theorem at_of_indices {K : Type} [Zero K] {st : Store} {t : Tensor K} {labels : List String} (h : HasLabels st t labels) {xs ys : List (String × Nat)}
    (e : ∀ n ∈ labels, indexAt xs n = indexAt ys n) : t.at st xs = t.at st ys :=
  entry_congr t fun l hl => e _ (h.labels.subset (List.mem_map_of_mem hl))

theorem foldl_foldlM {α β : Type} (f : β → α → β) : ∀ (l : List α) (b : β),
    l.foldlM (fun b a => (Except.ok (f b a) : Except PyErr β)) b = .ok (l.foldl f b)
  | [], _ => rfl
  | x :: l, b => foldl_foldlM f l (f b x)

theorem plaquette_ok {st : Store} (wf : WFStore st) {weight : PlaquetteWeight ℝ} {J1 J2 : ℝ} (hw : weight.toList = .ok [J1, J2]) (diamond : Bool) :
    ∃ st' t, plaquetteIsingTensor realFns st weight diamond = .ok (st', t, 2) ∧ WFStore st' ∧ LegsUnchanged st st' ∧
      HasLabels st' t (if diamond then ["r", "d", "l", "u"] else ["ru", "rd", "ld", "lu"]) ∧
      (∀ n ∈ (if diamond then ["r", "d", "l", "u"] else ["ru", "rd", "ld", "lu"]), t.dimOf st' n = 2) ∧
      ∀ r < 2, ∀ d < 2, ∀ l < 2, ∀ u < 2,
        t.at st' ((if diamond then ["r", "d", "l", "u"] else ["ru", "rd", "ld", "lu"]).zip [r, d, l, u]) = Real.exp (-aroundEnergy J1 J2 u l d r) := by
  let val : Nat → Nat → Nat → Nat → ℝ := fun r d l u => Real.exp (-aroundEnergy J1 J2 u l d r)
  let body : NDArray ℝ → Nat → NDArray ℝ := fun data s =>
    data.setAt (bitIdx s) (realFns.exp (-(squareE (fun i => [J1, J2].getD (i % 2) 0) (intToBitList s 4))))
  obtain ⟨x, e, w, sh, v⟩ := fold_entries
    (fun s => val ((bitIdx s).getD 0 0) ((bitIdx s).getD 1 0) ((bitIdx s).getD 2 0) ((bitIdx s).getD 3 0))
    (fun a s => .ok (body a s)) (fun y s wy sy hs => by
      left
      obtain ⟨a, ha, b, hb, c, hc, d, hd, e1, e2⟩ := bits_table s hs
      have : realFns.exp = Real.exp := rfl
      simp only [body, e1, squareE_eq _ ha hb hc hd, e2, val, List.getD_cons_zero, List.getD_cons_succ, aroundEnergy, this]
      congr 3
      norm_num
      ring) 16 le_rfl
  rw [foldl_foldlM] at e
  have e := Except.ok.inj e
  obtain ⟨st1, t, e1, w1, k1, l1, d1, v1⟩ := site_of_data wf w sh
    (labels := if diamond then ["r", "d", "l", "u"] else ["ru", "rd", "ld", "lu"]) (by split <;> rfl) (by split <;> decide)
  refine ⟨st1, t, ?_, w1, k1, l1, d1, ?_⟩
  · unfold plaquetteIsingTensor
    simp only [body] at e
    simp only [hw, e, e1, bind, Except.bind, pure, Except.pure]
  · refine bit_cases fun s hs => ?_
    rw [v1 _ rfl]
    refine Eq.trans ?_ (v s hs)
    obtain ⟨a, ha, b, hb, c, hc, d, hd, -, e2⟩ := bits_table s hs
    simp only [e2, List.getD_cons_zero, List.getD_cons_succ]

/-- C51: the entries of `plaquetteIsingTensor`: the first weight couples `ru` to `rd` and `ld` to `lu` (vertical neighbours), the
second one the other two pairs. -/
theorem C51_plaquette {st : Store} (wf : WFStore st) {weight : PlaquetteWeight ℝ} {J1 J2 : ℝ} (hw : weight.toList = .ok [J1, J2]) :
    ∃ st' t, plaquetteIsingTensor realFns st weight false = .ok (st', t, 2) ∧ WFStore st' ∧ LegsUnchanged st st' ∧
      HasLabels st' t ["ru", "rd", "ld", "lu"] ∧ (∀ n ∈ ["ru", "rd", "ld", "lu"], t.dimOf st' n = 2) ∧
      ∀ ru < 2, ∀ rd < 2, ∀ ld < 2, ∀ lu < 2, t.at st' [("ru", ru), ("rd", rd), ("ld", ld), ("lu", lu)] =
        Real.exp (J1 * (spinValue ru * spinValue rd + spinValue ld * spinValue lu) +
          J2 * (spinValue rd * spinValue ld + spinValue lu * spinValue ru)) := by
  obtain ⟨st', t, e, w, k, l, d, v⟩ := plaquette_ok wf hw false
  refine ⟨st', t, e, w, k, l, d, fun ru h1 rd h2 ld h3 lu h4 => (v ru h1 rd h2 ld h3 lu h4).trans ?_⟩
  rw [aroundEnergy, neg_neg]

/-- C51: in diamond form the tensor is one of the square lattice. -/
theorem C51_diamond {st : Store} (wf : WFStore st) {weight : PlaquetteWeight ℝ} {J1 J2 : ℝ} (hw : weight.toList = .ok [J1, J2]) :
    ∃ st' t, plaquetteIsingTensor realFns st weight true = .ok (st', t, 2) ∧ WFStore st' ∧ LegsUnchanged st st' ∧ SquareSite st' t ∧
      t.dimOf st' "u" = 2 ∧ t.dimOf st' "l" = 2 ∧
      ∀ u < 2, ∀ l < 2, ∀ d < 2, ∀ r < 2, t.site st' u l d r = Real.exp (-aroundEnergy J1 J2 u l d r) := by
  obtain ⟨st', t, e, w, k, l, d, v⟩ := plaquette_ok wf hw true
  refine ⟨st', t, e, w, k, ⟨⟨l.good, l.dense, l.known, l.pos, l.labels.trans (by decide)⟩, ?_, ?_⟩, d "u" (by simp), d "l" (by simp),
    fun u hu x hx y hy z hz => ?_⟩
  · rw [d "u" (by simp), d "d" (by simp)]
  · rw [d "l" (by simp), d "r" (by simp)]
  · rw [← v z hz y hy x hx u hu]
    refine at_of_indices l fun n hn => ?_
    simp only [if_true, List.mem_cons, List.not_mem_nil, or_false] at hn
    rcases hn with rfl | rfl | rfl | rfl <;> rfl

/-- C51: the weights: one number for both, or exactly two. -/
theorem C51_weights (weight : PlaquetteWeight ℝ) (J1 J2 : ℝ) :
    weight.toList = .ok [J1, J2] ↔ (weight = .num J1 ∧ J1 = J2) ∨ weight = .list [J1, J2] := by
  cases weight with
  | num x =>
    simp only [PlaquetteWeight.toList, Except.ok.injEq, List.cons.injEq, and_true, PlaquetteWeight.num.injEq, reduceCtorEq, or_false]
    constructor
    · rintro ⟨rfl, rfl⟩
      exact ⟨rfl, rfl⟩
    · rintro ⟨rfl, rfl⟩
      exact ⟨rfl, rfl⟩
  | list xs =>
    unfold PlaquetteWeight.toList
    simp only [reduceCtorEq, false_and, false_or, PlaquetteWeight.list.injEq]
    split
    · exact ⟨fun h => Except.ok.inj h, fun h => by rw [h]⟩
    · rename_i h
      refine ⟨fun h => (nomatch h), fun h' => ?_⟩
      rw [h'] at h
      exact absurd rfl h

/-- C51: a list of another length is refused. -/
theorem C51_weights_refused (st : Store) {xs : List ℝ} (h : xs.length ≠ 2) (diamond : Bool) :
    plaquetteIsingTensor realFns st (.list xs) diamond = .error .assertionError := by
  have ht : (PlaquetteWeight.list xs).toList = .error .assertionError := if_neg h
  rw [plaquetteIsingTensor, ht]
  rfl

/-! ### The partition function -/

theorem around_bij {n : Nat} : Function.Bijective (around (n := n)) := by
  rw [← Finite.injective_iff_bijective]
  intro i j h
  have h := congrArg Fin.val h
  simp only [around] at h
  have hi := i.isLt
  have hj := j.isLt
  ext
  by_cases h1 : i.val + 1 < n
  · by_cases h2 : j.val + 1 < n
    · rw [Nat.mod_eq_of_lt h1, Nat.mod_eq_of_lt h2] at h
      omega
    · have : j.val + 1 = n := by omega
      rw [Nat.mod_eq_of_lt h1, this, Nat.mod_self] at h
      omega
  · have h3 : i.val + 1 = n := by omega
    by_cases h2 : j.val + 1 < n
    · rw [Nat.mod_eq_of_lt h2, h3, Nat.mod_self] at h
      omega
    · omega

theorem sum_around {n : Nat} (f : Fin n → ℝ) : ∑ i, f (around i) = ∑ i, f i :=
  around_bij.sum_comp f

theorem sum_spins {rows cols : Nat} (f : Spins rows cols → ℝ) : ∑ s, f s = ∑ v, ∑ h, f ⟨v, h⟩ := by
  rw [← Fintype.sum_prod_type' (f := fun v h => f ⟨v, h⟩)]
  exact Fintype.sum_equiv (Spins.equiv rows cols) _ _ fun s => rfl

theorem sum_local_energy {rows cols : Nat} (J1 J2 : ℝ) (s : Spins rows cols) :
    ∑ i, ∑ j, aroundEnergy J1 J2 (s.above i j) (s.left i j) (s.above (around i) j) (s.left i (around j)) = s.energy J1 J2 := by
  unfold Spins.energy aroundEnergy
  rw [← Finset.sum_neg_distrib]
  refine Finset.sum_congr rfl fun i _ => ?_
  rw [← Finset.sum_neg_distrib]
  refine Finset.sum_congr rfl fun j _ => ?_
  ring

theorem sum_local_magnetization {rows cols : Nat} (s : Spins rows cols) :
    ∑ i, ∑ j, aroundM (s.above i j) (s.left i j) (s.above (around i) j) (s.left i (around j)) = s.magnetization := by
  unfold Spins.magnetization aroundM
  have h1 : ∑ i, ∑ j, spinValue (s.above (around i) j) = ∑ i, ∑ j, spinValue (s.above i j) :=
    sum_around fun i => ∑ j, spinValue (s.above i j)
  have h2 : ∀ i, ∑ j, spinValue (s.left i (around j)) = ∑ j, spinValue (s.left i j) := fun i => sum_around fun j => spinValue (s.left i j)
  simp only [add_div, Finset.sum_add_distrib, ← Finset.sum_div, h1, h2]
  ring

/-- C51: a torus of plaquette tensors is the partition function of the Ising model on the spins between them, every pair of neighbours
counted once and every spin counted once in the field. -/
theorem C51_torus (rows cols : Nat) (J1 J2 field : ℝ) {A : Nat → Nat → Nat → Nat → ℝ}
    (hA : ∀ u < 2, ∀ l < 2, ∀ d < 2, ∀ r < 2, A u l d r = Real.exp (-aroundEnergy J1 J2 u l d r + field * aroundM u l d r)) :
    torus rows cols 2 2 A = isingTorus rows cols J1 J2 field := by
  unfold isingTorus torus
  rw [sum_spins]
  refine Finset.sum_congr rfl fun v _ => Finset.sum_congr rfl fun h _ => ?_
  rw [Spins.weight, ← sum_local_energy, ← sum_local_magnetization, Finset.mul_sum, ← Finset.sum_neg_distrib, ← Finset.sum_add_distrib,
    Real.exp_sum]
  refine Finset.prod_congr rfl fun i _ => ?_
  rw [Finset.mul_sum, ← Finset.sum_neg_distrib, ← Finset.sum_add_distrib, Real.exp_sum]
  exact Finset.prod_congr rfl fun j _ => hA _ (Fin.isLt _) _ (Fin.isLt _) _ (Fin.isLt _) _ (Fin.isLt _)

/-- C51: with one plaquette replaced by a measuring one, in every place in turn, the torus is the unnormalized expectation value of the
whole observable. -/
theorem C51_expectation (rows cols : Nat) (J1 J2 field : ℝ) {A B : Nat → Nat → Nat → Nat → ℝ} {f : Nat → Nat → Nat → Nat → ℝ}
    (hA : ∀ u < 2, ∀ l < 2, ∀ d < 2, ∀ r < 2, A u l d r = Real.exp (-aroundEnergy J1 J2 u l d r + field * aroundM u l d r))
    (hB : ∀ u < 2, ∀ l < 2, ∀ d < 2, ∀ r < 2, B u l d r = f u l d r * Real.exp (-aroundEnergy J1 J2 u l d r + field * aroundM u l d r)) :
    torusOneOf rows cols 2 2 A B = ∑ s : Spins rows cols,
      (∑ i, ∑ j, f (s.above i j) (s.left i j) (s.above (around i) j) (s.left i (around j))) * s.weight J1 J2 field := by
  have key : ∀ (s : Spins rows cols) (i : Fin rows) (j : Fin cols),
      ∏ i', ∏ j', (if i' = i ∧ j' = j then B else A) (s.above i' j') (s.left i' j') (s.above (around i') j') (s.left i' (around j')) =
        f (s.above i j) (s.left i j) (s.above (around i) j) (s.left i (around j)) * s.weight J1 J2 field := by
    intro s i j
    rw [Spins.weight, ← sum_local_energy, ← sum_local_magnetization, Finset.mul_sum, ← Finset.sum_neg_distrib, ← Finset.sum_add_distrib,
      Real.exp_sum]
    have h1 : ∀ i' j', (if i' = i ∧ j' = j then B else A) (s.above i' j') (s.left i' j') (s.above (around i') j') (s.left i' (around j')) =
        (if i' = i then if j' = j then f (s.above i j) (s.left i j) (s.above (around i) j) (s.left i (around j)) else 1 else 1) *
          Real.exp (-aroundEnergy J1 J2 (s.above i' j') (s.left i' j') (s.above (around i') j') (s.left i' (around j')) +
            field * aroundM (s.above i' j') (s.left i' j') (s.above (around i') j') (s.left i' (around j'))) := by
      intro i' j'
      by_cases h : i' = i ∧ j' = j
      · obtain ⟨rfl, rfl⟩ := h
        simp only [and_self, if_true]
        exact hB _ (Fin.isLt _) _ (Fin.isLt _) _ (Fin.isLt _) _ (Fin.isLt _)
      · rw [if_neg h]
        have : (if i' = i then if j' = j then f (s.above i j) (s.left i j) (s.above (around i) j) (s.left i (around j)) else 1 else 1) = 1 := by
          split
          · rw [if_neg (fun h' => h ⟨by assumption, h'⟩)]
          · rfl
        rw [this, one_mul]
        exact hA _ (Fin.isLt _) _ (Fin.isLt _) _ (Fin.isLt _) _ (Fin.isLt _)
    simp only [h1, Finset.prod_mul_distrib]
    congr 1
    · rw [Finset.prod_eq_single i (fun i' _ hi => by simp [hi]) (by simp)]
      simp
    · refine Finset.prod_congr rfl fun i' _ => ?_
      rw [Finset.mul_sum, ← Finset.sum_neg_distrib, ← Finset.sum_add_distrib, Real.exp_sum]
  unfold torusOneOf torusOf
  have e : ∀ i j, (∑ v : Fin rows → Fin cols → Fin 2, ∑ h : Fin rows → Fin cols → Fin 2, ∏ i', ∏ j',
      (if i' = i ∧ j' = j then B else A) (v i' j') (h i' j') (v (around i') j')
      (h i' (around j'))) = ∑ s : Spins rows cols,
        f (s.above i j) (s.left i j) (s.above (around i) j) (s.left i (around j)) * s.weight J1 J2 field := by
    intro i j
    rw [sum_spins]
    exact Finset.sum_congr rfl fun v _ => Finset.sum_congr rfl fun h _ => key ⟨v, h⟩ i j
  simp only [e, Finset.sum_mul]
  have e2 : ∀ i : Fin rows, (∑ j, ∑ s : Spins rows cols,
      f (s.above i j) (s.left i j) (s.above (around i) j) (s.left i (around j)) * s.weight J1 J2 field) =
      ∑ s : Spins rows cols, ∑ j, f (s.above i j) (s.left i j) (s.above (around i) j) (s.left i (around j)) * s.weight J1 J2 field :=
    fun i => Finset.sum_comm
  simp only [e2]
  exact Finset.sum_comm

/-- C51: the tensors of `squareIsingTensor` measure the magnetization and the energy of all spins. -/
theorem C51_measured (rows cols : Nat) (beta field : ℝ) {A M E : Nat → Nat → Nat → Nat → ℝ}
    (hA : ∀ u < 2, ∀ l < 2, ∀ d < 2, ∀ r < 2, A u l d r = measured u l d r none * Real.exp (-(beta * aroundEnergy 1 1 u l d r) + field * aroundM u l d r))
    (hM : ∀ u < 2, ∀ l < 2, ∀ d < 2, ∀ r < 2, M u l d r = measured u l d r (some "M") * Real.exp (-(beta * aroundEnergy 1 1 u l d r) + field * aroundM u l d r))
    (hE : ∀ u < 2, ∀ l < 2, ∀ d < 2, ∀ r < 2, E u l d r = measured u l d r (some "E") * Real.exp (-(beta * aroundEnergy 1 1 u l d r) + field * aroundM u l d r)) :
    torus rows cols 2 2 A = isingTorus rows cols beta beta field ∧
    torusOneOf rows cols 2 2 A M = ∑ s : Spins rows cols, s.magnetization * s.weight beta beta field ∧
    torusOneOf rows cols 2 2 A E = ∑ s : Spins rows cols, s.energy 1 1 * s.weight beta beta field := by
  have hb : ∀ u l d r, beta * aroundEnergy 1 1 u l d r = aroundEnergy beta beta u l d r := by
    intro u l d r
    unfold aroundEnergy
    ring
  simp only [hb] at hA hM hE
  have hA' : ∀ u < 2, ∀ l < 2, ∀ d < 2, ∀ r < 2, A u l d r = Real.exp (-aroundEnergy beta beta u l d r + field * aroundM u l d r) :=
    fun u hu l hl d hd r hr => by rw [hA u hu l hl d hd r hr, measured, one_mul]
  refine ⟨C51_torus rows cols beta beta field hA', ?_, ?_⟩
  · rw [C51_expectation rows cols beta beta field (f := fun u l d r => measured u l d r (some "M")) hA' hM]
    exact Finset.sum_congr rfl fun s _ => by rw [← sum_local_magnetization]; rfl
  · rw [C51_expectation rows cols beta beta field (f := fun u l d r => measured u l d r (some "E")) hA' hE]
    exact Finset.sum_congr rfl fun s _ => by rw [← sum_local_energy]; rfl

/-- C51: the sum over spins counts every configuration once: there are two for each of the two spins of a plaquette. -/
theorem C51_count (rows cols : Nat) : Fintype.card (Spins rows cols) = 2 ^ (2 * (rows * cols)) := by
  rw [Fintype.card_congr (Spins.equiv rows cols)]
  simp only [Fintype.card_prod, Fintype.card_pi, Fintype.card_fin, Finset.prod_const, Finset.card_univ]
  rw [← pow_mul, ← pow_add, Nat.mul_comm cols rows, two_mul]

/-! ### HOTRG on the Ising model -/

/-- C51: HOTRG started with the tensor of the Ising model gives the logarithm of the partition function per spin, as long as no step
cuts off more than a null space. -/
theorem C51_HOTRG {p : RGParams ℝ} (he : ExactEigh p.eigh) {st : Store} (wf : WFStore st) (beta field : ℝ) (chiH : Nat) (chiV : Option Nat) :
    ∃ st' t dof s0, squareIsingTensor realFns st beta none field = .ok (st', t, dof) ∧
      HOTRGState.new p st' (.inl t) (some dof) chiH chiV = .ok s0 ∧ ∀ n, ∃ s, Run p s0 n s ∧
        ((∀ i s1 d, Run p s0 i s1 → s.directChoices[i]? = some d → Lossless p (s1.env d) (s1.chi d)) → (∀ c ∈ s.aNorms, 0 < c) →
          ∃ res, s.logZDensity Real.log = .ok res ∧ res.length = n + 1 ∧ ∀ i ≤ n, ∃ rows cols, rows * cols = 2 ^ i ∧
            res[i]? = some (Real.log (isingTorus rows cols beta beta field) / ((2 * (rows * cols) : Nat) : ℝ))) := by
  obtain ⟨st', t, e, w, -, q, dv, dh, val⟩ := C51_square wf beta field (obs := none) (by simp)
  obtain ⟨s0, e0, g, S⟩ := C50_new (p := p) w (V := 2) (H := 2) (A := t.site st') (x := .inl t) ⟨q, dv, dh, rfl⟩ (some 2) chiH chiV
  refine ⟨st', t, 2, s0, e, e0, fun n => ?_⟩
  obtain ⟨s, h, -⟩ := C50_run he g n
  refine ⟨s, h, fun hl hn => ?_⟩
  have hpos : ∀ u < 2, ∀ l < 2, ∀ d < 2, ∀ r < 2, 0 < t.site st' u l d r := by
    intro u hu l hl d hd r hr
    rw [val u hu l hl d hd r hr, measured, one_mul]
    exact Real.exp_pos _
  have hT : ∀ rows cols, torus rows cols 2 2 (t.site st') = isingTorus rows cols beta beta field :=
    fun rows cols => (C51_measured rows cols beta field val (fun _ _ _ _ _ _ _ _ => rfl) (fun _ _ _ _ _ _ _ _ => rfl)).1
  obtain ⟨res, e1, len, hv⟩ := C50_logZ he (log := Real.log) (fun x y hx hy => Real.log_mul hx.ne' hy.ne') g S h hl hn
    fun i _ => torus_pos _ _ (by decide) (by decide) hpos
  obtain ⟨-, -, hlen, -⟩ := C50_exact he g S h hl fun c hc => (hn c hc).ne'
  have hpow : ∀ i ≤ n, 2 ^ rowSteps (s.directChoices.take i) * 2 ^ colSteps (s.directChoices.take i) = 2 ^ i := by
    intro i hi
    rw [← pow_add, rowSteps, colSteps]
    congr 1
    have := List.length_eq_countP_add_countP (l := s.directChoices.take i) fun x => x.horizontal
    rw [List.length_take, hlen, Nat.min_eq_left hi] at this
    refine Eq.trans ?_ this.symm
    congr 2
    funext x
    cases x.horizontal <;> rfl
  refine ⟨res, e1, len, fun i hi => ⟨_, _, hpow i hi, ?_⟩⟩
  rw [hv i hi, hT, hpow i hi]
  rfl

/-! ### The exact magnetization -/

theorem critical_iff {T V : ℝ} (hT : 0 < T) (hV : 0 < V) :
    2 / Real.log (1 + Real.sqrt 2) < T / V ↔ Real.sinh (2 * V / T) < 1 := by
  have h1 : Real.log (1 + Real.sqrt 2) = Real.arsinh 1 := by
    unfold Real.arsinh
    norm_num
  have h2 : 0 < Real.arsinh 1 := Real.arsinh_pos_iff.mpr one_pos
  rw [h1, div_lt_div_iff₀ h2 hV]
  have h3 : Real.sinh (2 * V / T) < 1 ↔ 2 * V / T < Real.arsinh 1 := by
    rw [← Real.arsinh_lt_arsinh, Real.arsinh_sinh]
  rw [h3, div_lt_iff₀ hT, mul_comm T]

/-- C51: the exact magnetization `m`: it is not negative, `m ^ 8` is `1 - sinh(2 V / T) ^ -4` where this is positive and 0 otherwise. -/
theorem C51_exactM {T V : ℝ} (hT : 0 < T) (hV : 0 < V) :
    ∃ m, infiniteIsingExactM realCurve T V = .ok m ∧ 0 ≤ m ∧ m < 1 ∧ m ^ 8 = max 0 (1 - 1 / Real.sinh (2 * V / T) ^ 4) := by
  have hx : 0 < Real.sinh (2 * V / T) := Real.sinh_pos_iff.mpr (by positivity)
  have hp : (Real.sinh (2 * V / T)) ^ (-4 : ℝ) = 1 / Real.sinh (2 * V / T) ^ 4 := by
    rw [Real.rpow_neg hx.le, one_div]
    norm_cast
  have hc := critical_iff hT hV
  unfold infiniteIsingExactM
  rw [if_neg hV.ne']
  by_cases h : 2 / Real.log (1 + Real.sqrt 2) < T / V
  · have h1 : 1 - 1 / Real.sinh (2 * V / T) ^ 4 ≤ 0 := by
      have h2 : Real.sinh (2 * V / T) ^ 4 ≤ 1 := pow_le_one₀ hx.le (hc.mp h).le
      have : 1 ≤ 1 / Real.sinh (2 * V / T) ^ 4 := (one_le_div (by positivity)).mpr h2
      linarith
    refine ⟨0, if_pos h, le_rfl, one_pos, ?_⟩
    rw [max_eq_left h1]
    norm_num
  · have h1 : 0 ≤ 1 - 1 / Real.sinh (2 * V / T) ^ 4 := by
      have h2 : 1 ≤ Real.sinh (2 * V / T) ^ 4 := one_le_pow₀ (not_lt.mp fun h' => h (hc.mpr h'))
      have : 1 / Real.sinh (2 * V / T) ^ 4 ≤ 1 := (div_le_one (by positivity)).mpr h2
      linarith
    have h2 : 1 - 1 / Real.sinh (2 * V / T) ^ 4 < 1 := by
      have : 0 < 1 / Real.sinh (2 * V / T) ^ 4 := by positivity
      linarith
    refine ⟨(1 - 1 / Real.sinh (2 * V / T) ^ 4) ^ (1 / 8 : ℝ), ?_, Real.rpow_nonneg h1 _, Real.rpow_lt_one h1 h2 (by norm_num), ?_⟩
    · refine (if_neg h).trans ((if_neg hT.ne').trans ?_)
      show Except.ok ((1 - (Real.sinh (2 * V / T)) ^ (-4 : ℝ)) ^ (1 / 8 : ℝ)) = _
      rw [hp]
    · rw [max_eq_right h1, ← Real.rpow_natCast, ← Real.rpow_mul h1]
      norm_num

/-- C51, a deviation: for a negative coupling the magnetization is an eighth root at any temperature, of a negative number if the
temperature is high. -/
theorem C51_exactM_negative {T V : ℝ} (hT : 0 < T) (hV : V < 0) (h : Real.sinh (2 * -V / T) < 1) :
    ∃ x < 0, infiniteIsingExactM realCurve T V = .ok (realCurve.pow x (1 / 8)) := by
  have hx : 0 < Real.sinh (2 * -V / T) := Real.sinh_pos_iff.mpr (by have : 0 < -V := by linarith
                                                                    positivity)
  have hs : Real.sinh (2 * V / T) = -Real.sinh (2 * -V / T) := by
    rw [← Real.sinh_neg]
    congr 1
    ring
  refine ⟨1 - Real.sinh (2 * V / T) ^ (-4 : ℝ), ?_, ?_⟩
  · have h4 : Real.sinh (2 * V / T) ^ (-4 : ℝ) = 1 / Real.sinh (2 * -V / T) ^ 4 := by
      have : (-4 : ℝ) = ((-4 : ℤ) : ℝ) := by norm_num
      rw [this, Real.rpow_intCast, hs, zpow_neg, one_div]
      congr 1
      have : (4 : ℤ) = ((4 : ℕ) : ℤ) := rfl
      rw [this, zpow_natCast]
      ring
    have h2 : Real.sinh (2 * -V / T) ^ 4 < 1 := pow_lt_one₀ hx.le h (by norm_num)
    have h3 : 1 < 1 / Real.sinh (2 * -V / T) ^ 4 := (one_lt_div (by positivity)).mpr h2
    rw [h4]
    linarith
  · have hc : ¬ 2 / realCurve.log (1 + realCurve.sqrt 2) < T / V := by
      have h1 : T / V < 0 := div_neg_of_pos_of_neg hT hV
      have h2 : 0 < 2 / Real.log (1 + Real.sqrt 2) := by
        have : 0 < Real.log (1 + Real.sqrt 2) := Real.log_pos (by have : 0 < Real.sqrt 2 := by positivity
                                                                  linarith)
        positivity
      exact fun h => absurd (h2.trans h) (not_lt.mpr h1.le)
    exact (if_neg hV.ne).trans ((if_neg hc).trans (if_neg hT.ne'))

/-- C51: no coupling or no temperature: a division by zero. -/
theorem C51_exactM_zero (T V : ℝ) (h : V = 0 ∨ T = 0) : infiniteIsingExactM realCurve T V = .error .zeroDivisionError := by
  unfold infiniteIsingExactM
  by_cases hV : V = 0
  · exact if_pos hV
  · have hT := h.resolve_left hV
    have hl : 0 < Real.log (1 + Real.sqrt 2) := Real.log_pos (by have : 0 < Real.sqrt 2 := by positivity
                                                                 linarith)
    refine (if_neg hV).trans ((if_neg ?_).trans (if_pos hT))
    rw [hT, zero_div]
    have : 0 < 2 / Real.log (1 + Real.sqrt 2) := by positivity
    exact not_lt.mpr this.le

/-! ### Examples -/

example : ∃ st' t, squareIsingTensor realFns Store.empty 1 (some "M") 0 = .ok (st', t, 2) ∧
    t.site st' 1 1 1 0 = 1 * Real.exp 0 := by
  obtain ⟨st', t, e, -, -, -, -, -, v⟩ := C51_square Reachable.empty.wf 1 0 (obs := some "M") (by simp)
  refine ⟨st', t, e, ?_⟩
  rw [v 1 (by decide) 1 (by decide) 1 (by decide) 0 (by decide)]
  norm_num [measured, aroundM, aroundEnergy, spinValue]

example : (PlaquetteWeight.list [(1 : ℝ), 2]).toList = .ok [1, 2] := rfl

/-- The hypotheses of `C51_HOTRG` hold for any number of steps: no limit, and a norm that is positive. -/
example (n : Nat) (beta field : ℝ) : ∃ (p : RGParams ℝ) (st' : Store) (t : Tensor ℝ) (s0 s : HOTRGState ℝ), ExactEigh p.eigh ∧
    squareIsingTensor realFns Store.empty beta none field = .ok (st', t, 2) ∧
    HOTRGState.new p st' (.inl t) (some 2) 0 none = .ok s0 ∧ Run p s0 n s ∧
    (∀ i s1 d, Run p s0 i s1 → s.directChoices[i]? = some d → Lossless p (s1.env d) (s1.chi d)) ∧ ∀ c ∈ s.aNorms, 0 < c := by
  obtain ⟨eigh, he⟩ := exists_eigh
  let p : RGParams ℝ := ⟨fun _ _ => 0, id, fun _ => 2, eigh, 1 / 10 ^ 10⟩
  have he : ExactEigh p.eigh := he
  obtain ⟨st', t, e, w, -, q, dv, dh, -⟩ := C51_square Reachable.empty.wf beta field (obs := none) (by simp)
  obtain ⟨s0, e0, g, S⟩ := C50_new (p := p) w (V := 2) (H := 2) (A := t.site st') (x := .inl t) ⟨q, dv, dh, rfl⟩ (some 2) 0 none
  obtain ⟨s, h, -⟩ := C50_run he g n
  refine ⟨p, st', t, s0, s, he, e, e0, h, fun i s1 x r1 _ => ?_, fun c hc => ?_⟩
  · obtain ⟨h1, h2⟩ := run_chi he g r1
    have hc : s1.chi x = 0 := by
      unfold HOTRGState.chi
      rw [h1, h2, S.chi.1, S.chi.2]
      simp
    rw [hc]
    exact fun hk => absurd (by simp [envKept]) hk
  · have h0 : ∀ c ∈ s0.aNorms, ∃ b, c = p.norm b := by
      obtain ⟨t, N, -⟩ := S.tensor
      obtain ⟨b, -, hn, -⟩ := N.a
      intro c hc
      rw [hn] at hc
      exact ⟨b, List.mem_singleton.mp hc⟩
    obtain ⟨b, rfl⟩ := run_norms he g h0 h c hc
    show (0 : ℝ) < 2
    norm_num

example : squareTensorMeasure realFns [1, 0, 1, 1] (some "M") = .ok (measured 1 0 1 1 (some "M")) :=
  C51_measure (a := 1) (b := 0) (c := 1) (d := 1) (by decide) (by decide) (by decide) (by decide) (some "M")

example : squareIsingTensor realFns Store.empty 1 (some "x") 0 = .error .assertionError := C51_square_refused _ _ _ (by decide) (by decide)

example : (∃ st' t, plaquetteIsingTensor realFns Store.empty (.list [1, 2]) false = .ok (st', t, 2)) ∧
    (∃ st' t, plaquetteIsingTensor realFns Store.empty (.list [1, 2]) true = .ok (st', t, 2)) ∧
    plaquetteIsingTensor realFns Store.empty (.list [1, 2, 3]) true = .error .assertionError := by
  obtain ⟨st1, t1, e1, -⟩ := C51_plaquette Reachable.empty.wf (weight := .list [(1 : ℝ), 2]) rfl
  obtain ⟨st2, t2, e2, -⟩ := C51_diamond Reachable.empty.wf (weight := .list [(1 : ℝ), 2]) rfl
  exact ⟨⟨st1, t1, e1⟩, ⟨st2, t2, e2⟩, C51_weights_refused _ (by decide) _⟩

example : torus 3 2 2 2 (fun u l d r => Real.exp (-aroundEnergy 1 2 u l d r + 3 * aroundM u l d r)) = isingTorus 3 2 1 2 3 :=
  C51_torus 3 2 1 2 3 fun _ _ _ _ _ _ _ _ => rfl

example : ∃ m, infiniteIsingExactM realCurve 2 1 = .ok m ∧ m < 1 := by
  obtain ⟨m, e, -, h, -⟩ := C51_exactM (T := 2) (V := 1) (by norm_num) (by norm_num)
  exact ⟨m, e, h⟩

end CTL
