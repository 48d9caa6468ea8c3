import Verif.Props.Construct

/-! C13, C14: the dimensions and labels that the constructors deduce from incomplete arguments. -/

namespace CTL
variable {R : Type}

/-- C13: a TensorLike made from labels alone has these labels and no known dimension (stored as 0). -/
theorem C13_like_labels (rand : List Nat → List Nat → R) (st : Store) (ls : List String) :
    ∃ st' t, construct rand st { labels := some ls, like := true } = .ok (st', t) ∧ t.labels st' = ls ∧ t.a = none ∧ t.like = true ∧
      ∀ l ∈ t.legs, st'.dim l = 0 := by
  have M := makeLegs_ok st.nextTensor (ls.zip (List.replicate ls.length (none : Option Nat))) { st with nextTensor := st.nextTensor + 1 }
  refine ⟨_, _, rfl, ?_, rfl, rfl, ?_⟩
  · show List.map _ _ = _
    simp only [M.name]
    exact List.map_fst_zip (by simp)
  · intro l hl
    have h := List.mem_map_of_mem (f := (makeLegs { st with nextTensor := st.nextTensor + 1 } st.nextTensor
      (ls.zip (List.replicate ls.length (none : Option Nat)))).1.dim) hl
    rw [M.dim] at h
    obtain ⟨p, hp, e⟩ := List.mem_map.mp h
    have h2 := (List.of_mem_zip hp).2
    rw [List.eq_of_mem_replicate h2] at e
    exact e.symm

/-- More about what `deduceShapeDiag` found. -/
theorem deduceShapeDiag_more {st : Store} {c : CArgs R} {s : List Nat} {ls : List String} (h : deduceShapeDiag st c = .ok (s, ls)) :
    (∀ n, c.shape = some (.int n) → s = List.replicate s.length n) ∧
    (c.legs = none → c.labels = none → ls = ("abcdefghijklmnopqrstuvwxyz".toList.take s.length).map String.singleton) ∧
    (c.legs = none → c.labels = none → (∀ s', c.shape ≠ some (.tuple s')) → ∀ d, c.data = some d → s.length = d.shape.length) := by
  have letters : ∀ {n : Nat} {l : List String}, chosenLabels none n = .ok l →
      l = ("abcdefghijklmnopqrstuvwxyz".toList.take n).map String.singleton := by
    intro n l e
    by_cases hn : n ≤ 26
    · obtain ⟨l', e', _, e''⟩ := generateLabels_ok hn
      exact (Except.ok.inj (e.symm.trans e')).trans e''
    · simp only [chosenLabels, generateLabels_error hn] at e
      cases e
  obtain ⟨shape, labels, data, legs, like⟩ := c
  unfold deduceShapeDiag at h
  rcases legs with _ | legs
  · rcases shape with _ | sh
    · rcases data with _ | d
      · cases h
      · simp only at h
        split at h
        · cases h
        split at h
        · cases h
        rename_i dim hdim
        split at h
        · cases h
        split at h
        · cases h
        rename_i l hl
        obtain ⟨rfl, rfl⟩ := Prod.mk.inj (Except.ok.inj h)
        refine ⟨fun n hn => (by cases hn), fun _ hlab => ?_, fun _ hlab _ d' hd' => ?_⟩
        · simp only at hlab
          subst hlab
          exact letters hl
        · simp only at hlab hd'
          subst hlab
          cases hd'
          simp only [deduceDimension, Except.ok.injEq] at hdim
          unfold dataShape
          split
          · rw [List.length_replicate, hdim]
          · rfl
    · simp only at h
      split at h
      · cases h
      rename_i s' hs'
      split at h
      · cases h
      split at h
      · cases h
      split at h
      · cases h
      rename_i l hl
      split at h
      · cases h
      obtain ⟨rfl, rfl⟩ := Prod.mk.inj (Except.ok.inj h)
      refine ⟨fun n hn => ?_, fun _ hlab => ?_, fun _ hlab hno d' hd' => ?_⟩
      · simp only [Option.some.injEq] at hn
        subst hn
        unfold tupleShape at hs'
        simp only at hs'
        cases hd : deduceDimension data labels with
        | error e => rw [hd] at hs'; cases hs'
        | ok dim =>
          rw [hd] at hs'
          rw [← Except.ok.inj hs', List.length_replicate]
      · simp only at hlab
        subst hlab
        exact letters hl
      · simp only at hlab hd' hno
        subst hlab hd'
        rcases sh with n | s''
        · simp only [tupleShape, deduceDimension, Except.map, Except.ok.injEq] at hs'
          rw [← hs', List.length_replicate]
        · exact absurd rfl (hno s'')
  · simp only at h
    split at h
    · cases h
    split at h
    · cases h
    split at h
    · cases h
    rename_i h1
    split at h
    · cases h
    obtain ⟨rfl, rfl⟩ := Prod.mk.inj (Except.ok.inj h)
    refine ⟨fun n hn => ?_, fun hc => (by cases hc), fun hc => (by cases hc)⟩
    simp only at hn
    subst hn
    rw [Bool.not_eq_false] at h1
    have := (checkLegsShape_iff st legs (some (.tuple (List.replicate legs.length n)))).mp h1 _ rfl
    simp only [ShapeArg.tuple.injEq] at this
    simp only [givenShape, List.length_map]
    exact this.symm

/-- C14: the diagonal tensor has the given labels, legs and shape; an integer as shape is the dimension of every leg; missing
labels are the first letters; and without labels, legs and a tuple as shape there are as many legs as the data has axes.
The shape is taken over only if the data is no scalar (`C14_shape_ignored_wrong`). -/
theorem C14_labels [Zero R] [One R] {st st' : Store} {c : CArgs R} {t : Tensor R} (h : constructDiag st c = .ok (st', t)) :
    (∀ ls, c.labels = some ls → t.labels st' = ls) ∧ (∀ legs, c.legs = some legs → t.legs = legs) ∧
    (c.legs = none → c.labels = none →
      t.labels st' = ("abcdefghijklmnopqrstuvwxyz".toList.take t.legs.length).map String.singleton) ∧
    (∀ s, c.shape = some (.tuple s) → (∀ d, c.data = some d → d.shape ≠ []) → t.legs.map st'.dim = s) ∧
    (∀ n, c.shape = some (.int n) → ∀ l ∈ t.legs, st'.dim l = n) ∧
    (c.legs = none → c.labels = none → (∀ s, c.shape ≠ some (.tuple s)) → ∀ d, c.data = some d → t.legs.length = d.shape.length) := by
  by_cases hs : isScalarCall c = true
  · unfold constructDiag at h
    rw [hs] at h
    simp only [if_true] at h
    obtain ⟨rfl, rfl⟩ := Prod.mk.inj (Except.ok.inj h)
    unfold isScalarCall at hs
    simp only [Bool.and_eq_true, Option.isNone_iff_eq_none, Bool.or_eq_true, beq_iff_eq] at hs
    obtain ⟨⟨h1, h2⟩, h3⟩ := hs
    refine ⟨fun ls h => (by rw [h2] at h; cases h), fun ls h => (by rw [h1] at h; cases h), fun _ _ => rfl, ?_, ?_, ?_⟩
    · intro s hsh hd
      rcases h3 with h3 | h3
      · rw [hsh] at h3
        cases h3
        rfl
      · split at h3
        · rename_i d hd'
          exact absurd (by simpa using h3) (hd d hd')
        · cases h3
    · intro n _ l hl
      cases hl
    · intro _ _ hno d hd
      rcases h3 with h3 | h3
      · exact absurd h3 (hno [])
      · rw [hd] at h3
        simp only [beq_iff_eq] at h3
        rw [h3]
  · rw [Bool.not_eq_true] at hs
    obtain ⟨s, ls, h1, _, K⟩ := constructDiag_ok hs h
    have D := deduceShapeDiag_ok h1
    obtain ⟨m1, m2, m3⟩ := deduceShapeDiag_more h1
    have hlen : t.legs.length = s.length := by rw [← K.dims]; simp
    refine ⟨K.labels, K.given, fun hc hl => ?_, fun s' hs' _ => ?_, fun n hn l hl => ?_, fun hc hl hno d hd => ?_⟩
    · refine (K.names hc ls h1).trans ?_
      rw [m2 hc hl, hlen]
    · rw [K.dims]
      exact D.shape s' hs'
    · have hm : st'.dim l ∈ s := by rw [← K.dims]; exact List.mem_map_of_mem hl
      rw [m1 n hn] at hm
      exact List.eq_of_mem_replicate hm
    · rw [hlen]
      exact m3 hc hl hno d hd

/-- C14: with a scalar as data and no labels the shape is ignored. -/
theorem C14_shape_ignored_wrong :
    (constructDiag (R := Int) .empty { shape := some (.tuple [2, 2]), data := some ⟨[], [5]⟩ }).toOption.map
      (fun p => (p.2.legs, p.2.a)) = some ([], some ⟨[], [5]⟩) := by decide +kernel

/-- The arguments of `DiagonalTensor(...)` describe `r` legs of dimension `n`. -/
structure DescribesDiag (st : Store) (c : CArgs R) (n r : Nat) : Prop where
  legs : ∀ legs, c.legs = some legs → legs.map st.dim = List.replicate r n
  labels : ∀ ls, c.labels = some ls → ls.length = r
  names : ∀ ls legs, c.labels = some ls → c.legs = some legs → ls = legs.map st.name
  letters : c.legs = none → c.labels = none → r ≤ 26
  shape : ∀ s, c.shape = some s → s = .int n ∨ s = .tuple (List.replicate r n)
  data : ∀ d, c.data = some d → d.shape = [n] ∨ d.shape = List.replicate r n
  order : c.legs ≠ none ∨ c.labels ≠ none ∨ c.shape = some (.tuple (List.replicate r n)) ∨
    ∃ d, c.data = some d ∧ d.shape = List.replicate r n
  dim : c.legs ≠ none ∨ c.shape ≠ none ∨ c.data ≠ none

theorem checkShapeDataDiag_replicate {n r : Nat} (hr : 0 < r) {data : Option (NDArray R)}
    (h : ∀ d, data = some d → d.shape = [n] ∨ d.shape = List.replicate r n) :
    checkShapeDataDiag (List.replicate r n) data = true := by
  obtain ⟨k, rfl⟩ := Nat.exists_eq_succ_of_ne_zero hr.ne'
  rcases data with _ | d
  · rfl
  · rcases h d rfl with e | e
    · simp [checkShapeDataDiag, e, List.replicate_succ]
    · simp [checkShapeDataDiag, e]

theorem allEqualDims_replicate (r n : Nat) : allEqualDims (List.replicate r n) = true := by
  cases r with
  | zero => rfl
  | succ k => simp [allEqualDims, List.replicate_succ]

theorem generateDataDiag_replicate [Zero R] [One R] {n r : Nat} (hr : 0 < r) {data : Option (NDArray R)} (like : Bool)
    (h : ∀ d, data = some d → d.shape = [n] ∨ d.shape = List.replicate r n) :
    ∃ a, generateDataDiag (List.replicate r n) data like = .ok a := by
  obtain ⟨k, rfl⟩ := Nat.exists_eq_succ_of_ne_zero hr.ne'
  unfold generateDataDiag
  cases like
  · rcases data with _ | d
    · exact ⟨_, rfl⟩
    · by_cases h1 : d.shape.length = 1
      · exact ⟨some d, by simp [h1]⟩
      · rcases h d rfl with e | e
        · simp [e] at h1
        · refine ⟨some (NDArray.build (n :: d.shape.drop (k + 1)) fun idx =>
            d.get (List.replicate (k + 1) (idx.headD 0) ++ idx.tail)), ?_⟩
          simp only [Bool.false_eq_true, if_false, h1, List.replicate_succ, List.length_replicate]
          unfold diagRead
          rw [if_neg]
          · rfl
          · simp [e]
  · exact ⟨none, rfl⟩

theorem chosenLabels_total {c : Option (List String)} {r : Nat} (h : c = none → r ≤ 26) : ∃ ls, chosenLabels c r = .ok ls := by
  rcases c with _ | ls
  · obtain ⟨l, e, _⟩ := generateLabels_ok (h rfl)
    exact ⟨l, e⟩
  · exact ⟨ls, rfl⟩

theorem deduceDimension_describes {st : Store} {c : CArgs R} {n r : Nat} (hr : 0 < r) (D : DescribesDiag st c n r) (hl : c.legs = none)
    (hs : ∀ s, c.shape ≠ some (.tuple s)) : deduceDimension c.data c.labels = .ok r := by
  unfold deduceDimension
  rcases hlab : c.labels with _ | ls
  · rcases D.order with h | h | h | ⟨d, hd, e⟩
    · exact absurd hl h
    · exact absurd hlab h
    · exact absurd h (hs _)
    · simp [hd, e]
  · have e := D.labels ls hlab
    rcases hd : c.data with _ | d
    · simp [e]
    · rcases D.data d hd with h | h
      · simp [h, e]
      · simp only [h, e, List.length_replicate]
        rw [if_neg (by omega)]

theorem deduceShapeDiag_describes {st : Store} {c : CArgs R} {n r : Nat} (hr : 0 < r) (D : DescribesDiag st c n r) :
    ∃ ls, deduceShapeDiag st c = .ok (List.replicate r n, ls) := by
  unfold deduceShapeDiag
  rcases hl : c.legs with _ | legs
  · have hlab : checkShapeLabels (List.replicate r n) c.labels = true := by
      rw [checkShapeLabels_iff]
      intro ls h
      rw [D.labels ls h, List.length_replicate]
    obtain ⟨ls, hls⟩ := chosenLabels_total (c := c.labels) (D.letters hl)
    have hdat := checkShapeDataDiag_replicate hr D.data
    refine ⟨ls, ?_⟩
    rcases hs : c.shape with _ | sh
    · rcases hd : c.data with _ | d
      · rcases D.dim with h | h | h
        · exact absurd hl h
        · exact absurd hs h
        · exact absurd hd h
      · have hdim := deduceDimension_describes hr D hl (by simp [hs])
        rw [hd] at hdim
        have e1 : allEqualDims d.shape = true := by
          rcases D.data d hd with h | h
          · rw [h]
            exact allEqualDims_replicate 1 n
          · rw [h]
            exact allEqualDims_replicate r n
        have e2 : dataShape d r = List.replicate r n := by
          unfold dataShape
          rcases D.data d hd with h | h
          · by_cases h1 : r = 1
            · subst h1
              simp [h]
            · rw [if_pos ⟨by simp [h], by omega⟩, h]
              rfl
          · rw [h]
            split
            · rename_i h'
              simp only [List.length_replicate] at h'
              omega
            · rfl
        simp only [e1, hdim, e2, hlab, List.length_replicate, hls, Bool.true_eq_false, if_false]
    · have e : tupleShape c sh = .ok (List.replicate r n) := by
        rcases D.shape sh hs with h | h
        · subst h
          simp only [tupleShape]
          rw [deduceDimension_describes hr D hl (by simp [hs])]
          rfl
        · subst h
          rfl
      simp only [e, allEqualDims_replicate, hlab, List.length_replicate, hls, hdat, Bool.true_eq_false, if_false]
  · have hdims := D.legs legs hl
    have hlen : legs.length = r := by simpa using congrArg List.length hdims
    have e1 : checkLegsLabels st legs c.labels = true := (checkLegsLabels_iff _ _ _).mpr fun ls h => D.names ls legs h hl
    have e2 : checkLegsShapeDiag st legs c.shape = true := by
      rcases hs : c.shape with _ | sh
      · rfl
      · rcases D.shape sh hs with h | h
        · subst h
          refine (checkLegsShape_iff st legs (some (.tuple (List.replicate legs.length n)))).mpr fun s h => ?_
          rw [← Option.some.inj h, hdims, hlen]
        · subst h
          refine (checkLegsShape_iff st legs (some (.tuple (List.replicate r n)))).mpr fun s h => ?_
          rw [← Option.some.inj h, hdims]
    have e3 : givenShape (legs.map st.dim) c.shape = List.replicate r n := by
      rcases hs : c.shape with _ | sh
      · exact hdims
      · rcases D.shape sh hs with h | h
        · subst h
          exact hdims
        · subst h
          rfl
    refine ⟨c.labels.getD (legs.map st.name), ?_⟩
    simp only [e1, e2, e3, checkShapeDataDiag_replicate hr D.data, Bool.true_eq_false, if_false]
    rw [hdims, allEqualDims_replicate]
    simp

/-- C14: arguments that describe `r > 0` legs of dimension `n` are accepted, and give a diagonal tensor with these legs. -/
theorem C14_accepts [Zero R] [One R] {st : Store} {c : CArgs R} {n r : Nat} (hr : 0 < r) (D : DescribesDiag st c n r) :
    ∃ st' t, constructDiag st c = .ok (st', t) ∧ t.legs.map st'.dim = List.replicate r n ∧ t.length = n := by
  have hsc : isScalarCall c = false := by
    obtain ⟨k, rfl⟩ := Nat.exists_eq_succ_of_ne_zero hr.ne'
    have h1 : (c.shape == some (.tuple [])) = false := by
      rw [beq_eq_false_iff_ne]
      intro h
      rcases D.shape _ h with h | h <;> simp [List.replicate_succ] at h
    unfold isScalarCall
    rw [h1]
    rcases hd : c.data with _ | d
    · simp
    · rcases D.data d hd with h | h <;> simp [h, List.replicate_succ]
  obtain ⟨ls, h1⟩ := deduceShapeDiag_describes hr D
  obtain ⟨a, h2⟩ := generateDataDiag_replicate hr c.like D.data
  have : ∃ st' t, constructDiag st c = .ok (st', t) := by
    unfold constructDiag
    rw [hsc, h1]
    simp only [Bool.false_eq_true, if_false, bind, Except.bind, h2]
    rcases c.legs with _ | legs
    · exact ⟨_, _, rfl⟩
    · exact ⟨_, _, rfl⟩
  obtain ⟨st', t, h⟩ := this
  obtain ⟨s, ls', h3, _, K⟩ := constructDiag_ok hsc h
  rw [h1] at h3
  obtain ⟨rfl, rfl⟩ := Prod.mk.inj (Except.ok.inj h3)
  refine ⟨st', t, h, K.dims, ?_⟩
  obtain ⟨k, rfl⟩ := Nat.exists_eq_succ_of_ne_zero hr.ne'
  rw [K.length]
  rfl

/-! Cases. -/

/-- Two legs of dimension 3 from an integer and two labels. -/
example : DescribesDiag (R := Int) .empty { shape := some (.int 3), labels := some ["x", "y"] } 3 2 :=
  ⟨by simp, by simp, by simp, by simp, by simp, by simp, by simp, by simp⟩

/-- Three legs of dimension 2 from a vector and three labels. -/
example : DescribesDiag (R := Int) .empty { data := some ⟨[2], [5, 7]⟩, labels := some ["x", "y", "z"] } 2 3 :=
  ⟨by simp, by simp, by simp, by simp, by simp, by simp, by simp, by simp⟩

/-- Two legs from a matrix and the integer 2, named by the letters, as in `C14_labels`. -/
example : ∃ st' t, constructDiag (R := Int) .empty { shape := some (.int 2), data := some ⟨[2, 2], [1, 0, 0, 4]⟩ } = .ok (st', t) ∧
    t.labels st' = ["a", "b"] ∧ t.legs.map st'.dim = [2, 2] := ⟨_, _, rfl, by decide +kernel, by decide +kernel⟩

/-- Labels with data that is a scalar, as in `C14_labels`: it is no scalar tensor, the call raises an exception. -/
example : (constructDiag (R := Int) .empty { labels := some ["x"], data := some ⟨[], [5]⟩ }).toOption.isNone := by decide +kernel

/-- Two labels as in `C13_like_labels`. -/
example : ∃ st' t, construct (R := Int) (fun _ _ => 0) .empty { labels := some ["x", "y"], like := true } = .ok (st', t) ∧
    t.labels st' = ["x", "y"] := ⟨_, _, rfl, by decide +kernel⟩

end CTL
