import Verif.Lemmas.Construct

/-! C13, C14: constructors. -/

namespace CTL
variable {R : Type}

/-! ### C13 -/

theorem generateData_ok (rand : List Nat → List Nat → R) {shape : List Nat} {data : Option (NDArray R)} (like : Bool)
    (h : ∀ d, data = some d → d.shape.prod = shape.prod) :
    ∃ r, generateData rand shape data like = .ok r ∧ (like = true → r = none) ∧
      (like = false → ∃ a, r = some a ∧ a.shape = shape ∧ (∀ d, data = some d → a.data = d.data) ∧
        (data = none → a = NDArray.build shape (rand shape))) := by
  unfold generateData
  cases like with
  | true => exact ⟨none, rfl, fun _ => rfl, by simp⟩
  | false =>
    simp only [Bool.false_eq_true, if_false, false_implies, true_and, true_implies]
    cases data with
    | none => exact ⟨_, rfl, _, rfl, rfl, by simp, fun _ => rfl⟩
    | some d =>
      by_cases hs : d.shape = shape
      · exact ⟨some d, by simp [hs], d, rfl, hs, by simp, by simp⟩
      · refine ⟨some ⟨shape, d.data⟩, ?_, ⟨shape, d.data⟩, rfl, rfl, ?_, by simp⟩
        · simp [hs, NDArray.reshape, h d rfl, Except.map]
        · intro d' hd
          rw [Option.some.inj hd]

/-- What `Tensor(...)` returns, given arguments that fit together. -/
structure Constructed (rand : List Nat → List Nat → R) (st st' : Store) (c : CArgs R) (t : Tensor R) : Prop where
  id : t.id = st.nextTensor ∧ st'.nextTensor = st.nextTensor + 1
  flags : t.diag = false ∧ t.like = c.like
  noData : c.like = true → t.a = none
  data : c.like = false → ∃ a, t.a = some a ∧ a.shape = t.legs.map st'.dim ∧ (∀ d, c.data = some d → a.data = d.data) ∧
    (c.data = none → a = NDArray.build a.shape (rand a.shape))
  labels : ∀ ls, c.labels = some ls → t.legs.map st'.name = ls
  letters : c.legs = none → c.labels = none →
    t.legs.map st'.name = ("abcdefghijklmnopqrstuvwxyz".toList.take t.legs.length).map String.singleton
  shape : ∀ s, c.shape = some (.tuple s) → t.legs.map st'.dim = s
  dataShape : c.legs = none → c.shape = none → ∀ d, c.data = some d → t.legs.map st'.dim = d.shape
  given : ∀ legs, c.legs = some legs → t.legs = legs ∧ ∀ l, st'.dim l = st.dim l ∧ st'.name l = st.name l
  fresh : c.legs = none → t.legs.Nodup ∧ ∀ l ∈ t.legs, st.nextLeg ≤ l ∧ l < st'.nextLeg ∧ (st'.leg l).bond = none
  owner : ∀ l ∈ t.legs, (st'.leg l).tensor = some t.id
  others : ∀ l, l ∉ t.legs → l < st.nextLeg → st'.leg l = st.leg l
  grows : Grows st st'

theorem construct_ok (rand : List Nat → List Nat → R) {st : Store} {c : CArgs R} (h : Acceptable st c) :
    ∃ st' t, construct rand st c = .ok (st', t) ∧ Constructed rand st st' c t := by
  obtain ⟨s, e, D⟩ := deduceShape_ok h
  obtain ⟨r, e2, G1, G2⟩ := generateData_ok rand c.like D.data
  unfold construct
  simp only [e, e2, bind, Except.bind, pure, Except.pure]
  rcases hl : c.legs with _ | legs
  · have M := makeLegs_ok st.nextTensor (s.labels.zip s.dims) { st with nextTensor := st.nextTensor + 1 }
    rcases hm : makeLegs { st with nextTensor := st.nextTensor + 1 } st.nextTensor (s.labels.zip s.dims) with ⟨st', ls⟩
    rw [hm] at M
    simp only at M
    have hlen : ls.length = s.dims.length := by rw [M.legs]; simp [D.len]
    have hname : ls.map st'.name = s.labels := by
      rw [M.name, List.map_fst_zip (by rw [D.len])]
    have hdim : ls.map st'.dim = s.dims.map fun d => d.getD 0 := by
      rw [M.dim]
      have : (s.labels.zip s.dims).map (fun p => p.2.getD 0) = ((s.labels.zip s.dims).map Prod.snd).map fun d => d.getD 0 := by
        rw [List.map_map]; rfl
      rw [this, List.map_snd_zip (by rw [D.len])]
    refine ⟨st', ⟨st.nextTensor, ls, r, false, c.like, 0⟩, rfl, ⟨⟨rfl, M.nextTensor⟩, ⟨rfl, rfl⟩, G1, ?_, ?_, ?_, ?_, ?_, ?_,
      ?_, fun l hl => (M.owner l hl).1, ?_, ?_⟩⟩
    · intro hlk
      obtain ⟨a, h1, h2, h3, h4⟩ := G2 hlk
      exact ⟨a, h1, by rw [h2]; exact hdim.symm, h3, fun hn => by rw [h4 hn]; rfl⟩
    · intro l h
      exact hname.trans (D.labels l h)
    · intro h1 h2
      simp only [hname, hlen]
      exact D.letters h1 h2
    · intro n hn
      simp only [hdim, D.shape n hn, map_some_getD]
    · intro h1 h2 d hd
      simp only [hdim, D.dataShape h1 h2 d hd, map_some_getD]
    · intro legs h
      cases (hl.symm.trans h)
    · intro _
      refine ⟨by rw [M.legs]; exact List.nodup_range', ?_⟩
      intro l hl
      refine ⟨?_, ?_, (M.owner l hl).2⟩
      · simp only [M.legs, List.mem_range'_1] at hl
        exact hl.1
      · simp only [M.legs, List.mem_range'_1] at hl
        rw [M.nextLeg]
        exact hl.2
    · intro l _ hlt
      exact M.old l hlt
    · refine Grows.trans ?_ M.grows
      exact ⟨le_rfl, fun _ _ => rfl, fun _ _ => rfl, fun _ _ _ => rfl, fun w => ⟨w.inv, w.freshLeg, w.freshBond⟩⟩
  · have hs := sameNet_setOwner st legs st.nextTensor (st.nextTensor + 1)
    have hdim : ({ st.setOwner legs st.nextTensor with nextTensor := st.nextTensor + 1 } : Store).dim = st.dim := hs.dim
    have hname : ({ st.setOwner legs st.nextTensor with nextTensor := st.nextTensor + 1 } : Store).name = st.name := hs.name
    obtain ⟨dl, dd⟩ := D.legs legs hl
    refine ⟨_, ⟨st.nextTensor, legs, r, false, c.like, 0⟩, rfl, ⟨⟨rfl, rfl⟩, ⟨rfl, rfl⟩, G1, ?_, ?_, ?_, ?_, ?_, ?_, ?_, ?_, ?_,
      hs.ext⟩⟩
    · intro hlk
      obtain ⟨a, h1, h2, h3, h4⟩ := G2 hlk
      refine ⟨a, h1, ?_, h3, fun hn => by rw [h4 hn]; rfl⟩
      rw [h2, hdim, dd, map_some_getD]
    · intro ls h
      rw [hname, ← D.labels ls h, dl]
    · intro h
      cases (hl.symm.trans h)
    · intro n hn
      rw [hdim, ← map_some_getD n, ← D.shape n hn, dd, map_some_getD]
    · intro h
      cases (hl.symm.trans h)
    · intro legs' h
      rw [hl] at h
      refine ⟨Option.some.inj h, fun l => ?_⟩
      rw [hdim, hname]
      exact ⟨rfl, rfl⟩
    · intro h
      cases (hl.symm.trans h)
    · intro l hlm
      simp only at hlm ⊢
      rw [setOwner_tensor, if_pos hlm]
    · intro l hln _
      exact setOwner_other st _ legs hln

/-- C13: `Tensor(...)` accepts exactly the arguments that fit together, and raises otherwise. -/
theorem C13_accepts (rand : List Nat → List Nat → R) (st : Store) (c : CArgs R) :
    (∃ r, construct rand st c = .ok r) ↔ Acceptable st c := by
  constructor
  · rintro ⟨r, h⟩
    unfold construct at h
    simp only [bind, Except.bind] at h
    split at h
    · cases h
    · rename_i s hs
      exact deduceShape_accepts hs
  · intro h
    obtain ⟨st', t, e, -⟩ := construct_ok rand h
    exact ⟨_, e⟩

/-- C13: the tensor has as many legs as axes, each leg has the extent of its axis, and the given entries are kept in
row-major order. -/
theorem C13_data (rand : List Nat → List Nat → R) {st st' : Store} {c : CArgs R} {t : Tensor R}
    (h : construct rand st c = .ok (st', t)) (hw : ∀ d, c.data = some d → d.WF) :
    (c.like = true → t.a = none) ∧
    (c.like = false → ∃ a, t.a = some a ∧ a.WF ∧ a.shape = t.legs.map st'.dim ∧ (∀ d, c.data = some d → a.data = d.data)) := by
  have acc := (C13_accepts rand st c).mp ⟨_, h⟩
  obtain ⟨st2, t2, e, K⟩ := construct_ok rand acc
  obtain ⟨rfl, rfl⟩ := Prod.mk.inj (Except.ok.inj (e.symm.trans h))
  refine ⟨K.noData, fun hl => ?_⟩
  obtain ⟨a, h1, h2, h3, h4⟩ := K.data hl
  refine ⟨a, h1, ?_, h2, h3⟩
  cases hd : c.data with
  | none => rw [h4 hd]; exact NDArray.build_wf _ _
  | some d =>
    unfold NDArray.WF
    rw [h3 d hd, hw d hd]
    obtain ⟨s, e, D⟩ := deduceShape_ok acc
    have := D.data d hd
    rw [this]
    unfold construct at h
    simp only [e, bind, Except.bind] at h
    split at h
    · cases h
    · rename_i r hr
      obtain ⟨r', e2, _, G2⟩ := generateData_ok rand c.like D.data
      rw [e2] at hr
      obtain ⟨a', g1, g2, _⟩ := G2 hl
      have ha : t2.a = r' := by
        have hr := Except.ok.inj hr
        subst hr
        rcases hl : c.legs with _ | legs
        · rw [hl] at h
          simp only [pure, Except.pure] at h
          rw [← (Prod.mk.inj (Except.ok.inj h)).2]
        · rw [hl] at h
          simp only [pure, Except.pure] at h
          rw [← (Prod.mk.inj (Except.ok.inj h)).2]
      rw [h1, g1] at ha
      rw [Option.some.inj ha, g2]

/-- C13: labels, shape and legs are the given ones, in the given order; missing labels are the first letters. -/
theorem C13_labels (rand : List Nat → List Nat → R) {st st' : Store} {c : CArgs R} {t : Tensor R}
    (h : construct rand st c = .ok (st', t)) :
    (∀ ls, c.labels = some ls → t.labels st' = ls) ∧
    (c.legs = none → c.labels = none →
      t.labels st' = ("abcdefghijklmnopqrstuvwxyz".toList.take t.legs.length).map String.singleton) ∧
    (∀ s, c.shape = some (.tuple s) → t.legs.map st'.dim = s) ∧
    (c.legs = none → c.shape = none → ∀ d, c.data = some d → t.legs.map st'.dim = d.shape) := by
  obtain ⟨st2, t2, e, K⟩ := construct_ok rand ((C13_accepts rand st c).mp ⟨_, h⟩)
  obtain ⟨rfl, rfl⟩ := Prod.mk.inj (Except.ok.inj (e.symm.trans h))
  exact ⟨K.labels, K.letters, K.shape, K.dataShape⟩

/-- C13: the legs belong to the new tensor, which is a new object; the given legs are used as they are, and otherwise new
free legs are made.  All other legs stay as they were. -/
theorem C13_legs (rand : List Nat → List Nat → R) {st st' : Store} {c : CArgs R} {t : Tensor R}
    (h : construct rand st c = .ok (st', t)) :
    t.id = st.nextTensor ∧ st'.nextTensor = st.nextTensor + 1 ∧ t.diag = false ∧ t.like = c.like ∧
    (∀ l ∈ t.legs, (st'.leg l).tensor = some t.id) ∧
    (∀ legs, c.legs = some legs → t.legs = legs ∧ ∀ l, st'.dim l = st.dim l ∧ st'.name l = st.name l) ∧
    (c.legs = none → t.legs.Nodup ∧ ∀ l ∈ t.legs, st.nextLeg ≤ l ∧ l < st'.nextLeg ∧ (st'.leg l).bond = none) ∧
    (∀ l, l ∉ t.legs → l < st.nextLeg → st'.leg l = st.leg l) ∧ (WFStore st → WFStore st') := by
  obtain ⟨st2, t2, e, K⟩ := construct_ok rand ((C13_accepts rand st c).mp ⟨_, h⟩)
  obtain ⟨rfl, rfl⟩ := Prod.mk.inj (Except.ok.inj (e.symm.trans h))
  exact ⟨K.id.1, K.id.2, K.flags.1, K.flags.2, K.owner, K.given, K.fresh, K.others, K.grows.wf⟩

/-- C13: so a constructed tensor is one that all other theorems about tensors speak of. -/
theorem C13_good (rand : List Nat → List Nat → R) {st st' : Store} {c : CArgs R} {t : Tensor R}
    (h : construct rand st c = .ok (st', t)) (hl : c.like = false) (hw : ∀ d, c.data = some d → d.WF)
    (nd : ∀ legs, c.legs = some legs → legs.Nodup) : GoodTensor st' t := by
  obtain ⟨a, h1, h2, h3, -⟩ := (C13_data rand h hw).2 hl
  obtain ⟨-, -, k1, k2, -, k3, k4, -⟩ := C13_legs rand h
  refine ⟨?_, by rw [k2, hl], a, h1, h2, fun _ => h3, fun hd => by rw [k1] at hd; cases hd⟩
  rcases hc : c.legs with _ | legs
  · exact (k4 hc).1
  · rw [(k3 legs hc).1]; exact nd legs hc

/-- The constructor call inside `contractTwoTensors` and the decompositions is this constructor. -/
theorem C13_newTensor (rand : List Nat → List Nat → R) (st : Store) (s : List Nat) (d : NDArray R) (legs : List LegId) :
    newTensor st s (some d) legs = construct rand st { shape := some (.tuple s), data := some d, legs := some legs } := by
  unfold newTensor construct deduceShape
  simp only [checkLegsLabels, givenShape]
  by_cases hs : s = legs.map st.dim
  · have c2 : checkLegsShape st legs (some (.tuple s)) = true :=
        (checkLegsShape_iff st legs (some (.tuple s))).mpr (by intro x hx; rw [← Option.some.inj hx, hs])
    rw [if_neg (by simpa using hs)]
    simp only [c2]
    by_cases hp : d.shape.prod = s.prod
    · have c3 : checkShapeData s (some d) = true := (checkShapeData_iff _ _).mpr (by simp [hp])
      simp only [c3, NDArray.reshape, hp, if_true, generateData, bind, Except.bind, pure, Except.pure]
      simp only [map_some_getD, Bool.true_eq_false, if_false]
      by_cases he : d.shape = s
      · simp [he]
        rw [← he]
      · simp [he, Except.map]
    · have c3 : checkShapeData s (some d) = false := by
        rw [← Bool.not_eq_true, checkShapeData_iff]
        intro h
        exact hp (h d rfl)
      simp [c3, NDArray.reshape, hp, bind, Except.bind]
  · have c2 : checkLegsShape st legs (some (.tuple s)) = false := by
      rw [← Bool.not_eq_true, checkLegsShape_iff]
      intro h
      have := h _ rfl
      exact hs (by simpa using this)
    rw [if_pos hs]
    simp [c2, bind, Except.bind]

example : ∃ r, construct (fun _ _ => (0 : Int)) .empty { shape := some (.tuple [2, 3]), labels := some ["x", "y"], data := some ⟨[6], [1, 2, 3, 4, 5, 6]⟩ } =
    .ok r :=
  (C13_accepts _ _ _).mpr (by simp [Acceptable])

example : ¬ ∃ r, construct (fun _ _ => (0 : Int)) .empty { shape := some (.tuple [2, 3]), labels := some ["x"], data := some ⟨[6], [1, 2, 3, 4, 5, 6]⟩ } =
    .ok r := by
  rw [C13_accepts]
  simp [Acceptable]

example : (construct (fun _ _ => (0 : Int)) .empty { data := some ⟨[2, 2], [1, 2, 3, 4]⟩ }).toOption.map (fun p => (p.2.labels p.1, p.2.a)) =
    some (["a", "b"], some ⟨[2, 2], [1, 2, 3, 4]⟩) := by decide +kernel

/-! ### C14 -/

theorem allEqualDims_iff (s : List Nat) : allEqualDims s = true ↔ ∀ x ∈ s, x = s.headD 0 := by
  cases s with
  | nil => simp [allEqualDims]
  | cons n s => simp [allEqualDims]

/-- What `deduceShapeDiag` found. -/
structure DeducedDiag (st : Store) (c : CArgs R) (s : List Nat) (ls : List String) : Prop where
  equal : ∀ x ∈ s, x = s.headD 0
  len : ls.length = s.length
  labels : ∀ ls', c.labels = some ls' → ls = ls'
  legs : ∀ legs, c.legs = some legs → s = legs.map st.dim ∧ ls = legs.map st.name
  shape : ∀ s', c.shape = some (.tuple s') → s = s'
  data : checkShapeDataDiag s c.data = true

theorem labels_len {labels : Option (List String)} {n : Nat} (h : ∀ ls, labels = some ls → ls.length = n) {ls : List String}
    (e : chosenLabels labels n = .ok ls) :
    ls.length = n ∧ ∀ ls', labels = some ls' → ls = ls' := by
  by_cases c : labels = none → n ≤ 26
  · obtain ⟨l, e1, e2, e3, -⟩ := labels_ok h c
    rw [Except.ok.inj (e.symm.trans e1)]
    exact ⟨e2, e3⟩
  · rw [Classical.not_imp] at c
    rw [c.1] at e
    simp only [chosenLabels, generateLabels_error c.2] at e
    cases e

theorem deduceShapeDiag_ok {st : Store} {c : CArgs R} {s : List Nat} {ls : List String}
    (h : deduceShapeDiag st c = .ok (s, ls)) : DeducedDiag st c s ls := by
  obtain ⟨shape, labels, data, legs, like⟩ := c
  unfold deduceShapeDiag at h
  rcases legs with _ | legs
  · rcases shape with _ | sh
    · rcases data with _ | d
      · cases h
      · simp only at h
        split at h
        · cases h
        rename_i hv
        split at h
        · cases h
        rename_i dim hdim
        split at h
        · cases h
        rename_i hw
        split at h
        · cases h
        rename_i l hl
        rw [Bool.not_eq_false] at hv hw
        have h := Prod.mk.inj (Except.ok.inj h)
        rw [h.1] at hw hl
        rw [h.2] at hl
        rw [checkShapeLabels_iff] at hw
        rw [allEqualDims_iff] at hv
        obtain ⟨k1, k2⟩ := labels_len hw hl
        refine ⟨?_, k1, k2, by simp, by simp, ?_⟩
        · rw [← h.1]
          unfold dataShape
          split
          · rename_i hc
            intro x hx
            rw [List.mem_replicate] at hx
            rw [hx.2]
            obtain ⟨k, rfl⟩ : ∃ k, dim = k + 1 := ⟨dim - 1, by omega⟩
            rfl
          · exact hv
        · rw [← h.1]
          simp only [checkShapeDataDiag, dataShape]
          split
          · rename_i hc
            obtain ⟨k, rfl⟩ : ∃ k, dim = k + 1 := ⟨dim - 1, by omega⟩
            simp [hc.1, List.replicate_succ]
          · simp
    · simp only at h
      split at h
      · cases h
      rename_i s' hs'
      split at h
      · cases h
      rename_i hv
      split at h
      · cases h
      rename_i hw
      split at h
      · cases h
      rename_i l hl
      split at h
      · cases h
      rename_i hz
      rw [Bool.not_eq_false] at hv hw hz
      have h := Prod.mk.inj (Except.ok.inj h)
      rw [h.1] at hw hl hv hz hs'
      rw [h.2] at hl
      rw [checkShapeLabels_iff] at hw
      rw [allEqualDims_iff] at hv
      obtain ⟨k1, k2⟩ := labels_len hw hl
      refine ⟨hv, k1, k2, by simp, ?_, hz⟩
      intro s'' he
      simp only [Option.some.injEq] at he
      subst he
      exact (Except.ok.inj hs').symm
  · simp only at h
    split at h
    · cases h
    rename_i c0
    split at h
    · cases h
    rename_i c1
    split at h
    · cases h
    rename_i c2
    split at h
    · cases h
    rename_i c3
    rw [Bool.not_eq_false] at c0 c1 c2 c3
    rw [allEqualDims_iff] at c0
    rw [checkLegsLabels_iff] at c1
    have h := Prod.mk.inj (Except.ok.inj h)
    have e : givenShape (legs.map st.dim) shape = legs.map st.dim := by
      rcases shape with _ | n | s'
      · rfl
      · rfl
      · have := (checkLegsShape_iff st legs (some (.tuple s'))).mp c2 _ rfl
        simpa [givenShape] using this
    rw [e] at h c3
    have e2 : labels.getD (legs.map st.name) = legs.map st.name := by
      cases labels with
      | none => rfl
      | some l => simpa using c1 l rfl
    rw [e2] at h
    refine ⟨by rw [← h.1]; exact c0, by rw [← h.1, ← h.2]; simp, ?_, ?_, ?_, by rw [← h.1]; exact c3⟩
    · intro l hl
      rw [← h.2, c1 l hl]
    · intro legs' he
      simp only [Option.some.injEq] at he
      rw [← he]
      exact ⟨h.1.symm, h.2.symm⟩
    · intro s' hs'
      simp only at hs'
      rw [hs'] at c2
      have := (checkLegsShape_iff st legs (some (.tuple s'))).mp c2 _ rfl
      simp only [ShapeArg.tuple.injEq] at this
      rw [← h.1, this]

/-- What the store and the legs are after `DiagonalTensor(...)`. -/
structure ConstructedDiag (st st' : Store) (c : CArgs R) (s : List Nat) (t : Tensor R) : Prop where
  id : t.id = st.nextTensor ∧ st'.nextTensor = st.nextTensor + 1
  flags : t.diag = true ∧ t.like = c.like
  dims : t.legs.map st'.dim = s
  length : t.length = if s = [] then 1 else s.headD 0
  labels : ∀ ls, c.labels = some ls → t.legs.map st'.name = ls
  given : ∀ legs, c.legs = some legs → t.legs = legs
  owner : ∀ l ∈ t.legs, (st'.leg l).tensor = some t.id
  names : c.legs = none → ∀ ls, deduceShapeDiag st c = .ok (s, ls) → t.legs.map st'.name = ls

theorem constructDiag_ok [Zero R] [One R] {st st' : Store} {c : CArgs R} {t : Tensor R} (hs : isScalarCall c = false)
    (h : constructDiag st c = .ok (st', t)) :
    ∃ s ls, deduceShapeDiag st c = .ok (s, ls) ∧ generateDataDiag s c.data c.like = .ok t.a ∧ ConstructedDiag st st' c s t := by
  unfold constructDiag at h
  rw [hs] at h
  simp only [Bool.false_eq_true, if_false, bind, Except.bind] at h
  split at h
  · cases h
  rename_i p hp
  obtain ⟨s, ls⟩ := p
  simp only at h
  split at h
  · cases h
  rename_i data hdata
  have D := deduceShapeDiag_ok hp
  have hlen : diagLength s = if s = [] then 1 else s.headD 0 := by cases s <;> rfl
  refine ⟨s, ls, hp, ?_, ?_⟩
  · rw [hdata]
    rcases hl : c.legs with _ | legs
    · rw [hl] at h
      simp only [pure, Except.pure] at h
      rw [← (Prod.mk.inj (Except.ok.inj h)).2]
    · rw [hl] at h
      simp only [pure, Except.pure] at h
      rw [← (Prod.mk.inj (Except.ok.inj h)).2]
  · rcases hl : c.legs with _ | legs
    · rw [hl] at h
      simp only [pure, Except.pure] at h
      have M := makeLegs_ok st.nextTensor (ls.zip (s.map some)) { st with nextTensor := st.nextTensor + 1 }
      obtain ⟨rfl, rfl⟩ := Prod.mk.inj (Except.ok.inj h)
      refine ⟨⟨rfl, M.nextTensor⟩, ⟨rfl, rfl⟩, ?_, hlen, ?_, ?_, fun l hl => (M.owner l hl).1, ?_⟩
      · simp only [M.dim]
        have : (ls.zip (s.map some)).map (fun p => p.2.getD 0) = ((ls.zip (s.map some)).map Prod.snd).map fun d => d.getD 0 := by
          rw [List.map_map]; rfl
        rw [this, List.map_snd_zip (by simp [D.len]), map_some_getD]
      · intro l hl
        simp only [M.name]
        rw [List.map_fst_zip (by simp [D.len]), D.labels l hl]
      · intro legs h
        cases (hl.symm.trans h)
      · intro _ ls' h'
        have e := (Prod.mk.inj (Except.ok.inj (hp.symm.trans h'))).2
        simp only [M.name]
        rw [List.map_fst_zip (by simp [D.len]), e]
    · rw [hl] at h
      simp only [pure, Except.pure] at h
      have hsn := sameNet_setOwner st legs st.nextTensor (st.nextTensor + 1)
      obtain ⟨rfl, rfl⟩ := Prod.mk.inj (Except.ok.inj h)
      refine ⟨⟨rfl, rfl⟩, ⟨rfl, rfl⟩, ?_, hlen, ?_, ?_, ?_, fun h => by cases (hl.symm.trans h)⟩
      · rw [hsn.dim]
        exact (D.legs legs hl).1.symm
      · intro l h
        rw [hsn.name, ← D.labels l h, (D.legs legs hl).2]
      · intro legs' h
        exact Option.some.inj (hl.symm.trans h)
      · intro l hlm
        simp only at hlm ⊢
        rw [setOwner_tensor, if_pos hlm]

theorem diagRead_ok [Zero R] {d r : NDArray R} {n l : Nat} (h : diagRead d n l = .ok r) (hl : d.shape.length = l) :
    r.WF ∧ r.shape = [n] ∧ ∀ i < n, r.get [i] = d.get (List.replicate l i) := by
  unfold diagRead at h
  split at h
  · cases h
  · have h := Except.ok.inj h
    have e : d.shape.drop l = [] := by rw [List.drop_eq_nil_iff]; omega
    rw [e] at h
    rw [← h]
    refine ⟨NDArray.build_wf _ _, rfl, fun i hi => ?_⟩
    rw [NDArray.get_build _ (validIdx_cons.mpr ⟨hi, validIdx_nil⟩)]
    simp

/-- C14, the part that holds: all legs of a constructed diagonal tensor have one dimension, and when the given data is an
array with as many axes as the tensor has legs, or a vector of the length of that dimension, the 1-d data of the tensor
has this length and the entries are the diagonal ones.  Missing: other data that the constructor accepts, for which the
claim is false (`C14_product_length_wrong`, `C14_extra_axes_wrong`, `C14_scalar_shape_wrong`). -/
theorem C14_partial [Zero R] [One R] {st st' : Store} {c : CArgs R} {t : Tensor R} (h : constructDiag st c = .ok (st', t))
    (hl : c.like = false) (hw : ∀ d, c.data = some d → d.WF)
    (fits : ∀ d, c.data = some d → d.shape.length = t.legs.length ∨ (t.legs ≠ [] ∧ d.shape = [t.length])) :
    t.diag = true ∧ t.like = false ∧ (∀ l ∈ t.legs, st'.dim l = t.length) ∧ DiagConsistent st' t ∧
    (∀ d, c.data = some d → ∀ a, t.a = some a → ∀ i < t.length,
      (t.legs ≠ [] → a.get [i] = d.get (List.replicate d.shape.length i)) ∧ (t.legs = [] → a = d)) ∧
    (c.data = none → ∀ a, t.a = some a → ∀ x ∈ a.data, x = 1) := by
  by_cases hs : isScalarCall c = true
  · unfold constructDiag at h
    rw [hs] at h
    simp only [if_true] at h
    obtain ⟨rfl, rfl⟩ := Prod.mk.inj (Except.ok.inj h)
    refine ⟨rfl, hl, by simp, ?_, ?_, ?_⟩
    · rcases hd : c.data with _ | d
      · exact ⟨NDArray.scalar 1, by simp [hd, hl], rfl, .inl ⟨rfl, rfl⟩⟩
      · refine ⟨d, by simp [hd], hw d hd, .inl ⟨rfl, ?_⟩⟩
        rcases fits d hd with h | h
        · exact List.length_eq_zero_iff.mp h
        · exact absurd rfl h.1
    · intro d hd a ha i _
      refine ⟨fun hne => absurd rfl hne, fun _ => ?_⟩
      simp only [hd] at ha
      exact (Option.some.inj ha).symm
    · intro hd a ha x hx
      simp only [hd, hl, Bool.false_eq_true, if_false] at ha
      rw [← Option.some.inj ha] at hx
      simpa [NDArray.scalar] using hx
  · rw [Bool.not_eq_true] at hs
    obtain ⟨s, ls, h1, h2, K⟩ := constructDiag_ok hs h
    have D := deduceShapeDiag_ok h1
    have hlen : t.legs.length = s.length := by rw [← K.dims]; simp
    have hdim : ∀ l ∈ t.legs, st'.dim l = t.length := by
      intro l hl
      have hm : st'.dim l ∈ s := by rw [← K.dims]; exact List.mem_map_of_mem hl
      rw [K.length, if_neg (by intro e; rw [e] at hm; cases hm)]
      exact D.equal _ hm
    have hne : s ≠ [] := by
      rintro rfl
      unfold generateDataDiag at h2
      rw [hl] at h2
      simp only [Bool.false_eq_true, if_false] at h2
      rcases hd : c.data with _ | d
      · rw [hd] at h2; cases h2
      · rw [hd] at h2
        simp only at h2
        split at h2
        · rename_i c1
          rcases fits d hd with h | h
          · rw [hlen, c1] at h
            cases h
          · exact h.1 (List.length_eq_zero_iff.mp (by rw [hlen]; rfl))
        · cases h2
    obtain ⟨n, s, rfl⟩ : ∃ n s', s = n :: s' := by
      cases s with
      | nil => exact absurd rfl hne
      | cons n s => exact ⟨n, s, rfl⟩
    have hn : t.length = n := by rw [K.length]; simp
    have hlne : t.legs ≠ [] := by
      intro e
      rw [e] at hlen
      simp at hlen
    unfold generateDataDiag at h2
    rw [hl] at h2
    simp only [Bool.false_eq_true, if_false] at h2
    refine ⟨K.flags.1, by rw [K.flags.2, hl], hdim, ?_⟩
    rcases hd : c.data with _ | d
    · rw [hd] at h2
      have h2 := Except.ok.inj h2
      refine ⟨⟨_, h2.symm, NDArray.build_wf _ _, .inr ⟨hlne, n, rfl, fun l hl => (hdim l hl).trans hn⟩⟩, by simp, ?_⟩
      intro _ a ha x hx
      rw [← h2] at ha
      rw [← Option.some.inj ha] at hx
      simp [NDArray.build] at hx
      exact hx.2
    · rw [hd] at h2
      simp only at h2
      refine And.intro ?_ (And.intro ?_ (by simp))
      · split at h2
        · rename_i c1
          have h2 := Except.ok.inj h2
          refine ⟨d, h2.symm, hw d hd, .inr ⟨hlne, n, ?_, fun l hl => (hdim l hl).trans hn⟩⟩
          rcases fits d hd with h | h
          · rw [hlen, c1] at h
            have hs0 : s = [] := by
              rw [← List.length_eq_zero_iff]
              simpa using h.symm
            subst hs0
            obtain ⟨m, hm⟩ := List.length_eq_one_iff.mp c1
            have := D.data
            rw [hd] at this
            simp [checkShapeDataDiag, hm, tupleProduct_eq] at this
            rw [hm, this]
          · rw [h.2, hn]
        · rename_i c1
          rcases hr : diagRead d n (s.length + 1) with e | r
          · rw [hr] at h2; cases h2
          · rw [hr] at h2
            have h2 := Except.ok.inj h2
            have hx : d.shape.length = s.length + 1 := by
              rcases fits d hd with h | h
              · rw [h, hlen]; rfl
              · rw [h.2] at c1; exact absurd rfl c1
            obtain ⟨r1, r2, r3⟩ := diagRead_ok hr hx
            exact ⟨r, h2.symm, r1, .inr ⟨hlne, n, r2, fun l hl => (hdim l hl).trans hn⟩⟩
      · intro d' hd' a ha i hi
        rw [← Option.some.inj hd']
        refine ⟨fun _ => ?_, fun e => absurd e hlne⟩
        split at h2
        · rename_i c1
          have h2 := Except.ok.inj h2
          rw [← h2] at ha
          rw [← Option.some.inj ha, c1]
          rfl
        · rename_i c1
          rcases hr : diagRead d n (s.length + 1) with e | r
          · rw [hr] at h2; cases h2
          · rw [hr] at h2
            have h2 := Except.ok.inj h2
            have hx : d.shape.length = s.length + 1 := by
              rcases fits d hd with h | h
              · rw [h, hlen]; rfl
              · rw [h.2] at c1; exact absurd rfl c1
            obtain ⟨r1, r2, r3⟩ := diagRead_ok hr hx
            rw [← h2] at ha
            rw [← Option.some.inj ha, r3 i (by rw [← hn]; exact hi), hx]

/-- C14: legs or a shape with two different dimensions are refused. -/
theorem C14_unequal_raises [Zero R] [One R] (st : Store) (c : CArgs R) (legs : List LegId) (hl : c.legs = some legs)
    {x y : LegId} (hx : x ∈ legs) (hy : y ∈ legs) (hne : st.dim x ≠ st.dim y) : constructDiag st c = .error .valueError := by
  have hs : isScalarCall c = false := by simp [isScalarCall, hl]
  have he : allEqualDims (legs.map st.dim) = false := by
    rw [← Bool.not_eq_true, allEqualDims_iff]
    intro h
    exact hne ((h _ (List.mem_map_of_mem hx)).trans (h _ (List.mem_map_of_mem hy)).symm)
  unfold constructDiag deduceShapeDiag
  simp [hs, hl, he, bind, Except.bind]

theorem C14_unequal_shape_raises [Zero R] [One R] (st : Store) (c : CArgs R) (s : List Nat) (hl : c.legs = none)
    (hsh : c.shape = some (.tuple s)) (hsc : isScalarCall c = false) {x y : Nat} (hx : x ∈ s) (hy : y ∈ s) (hne : x ≠ y) :
    constructDiag st c = .error .valueError := by
  have he : allEqualDims s = false := by
    rw [← Bool.not_eq_true, allEqualDims_iff]
    intro h
    exact hne ((h _ hx).trans (h _ hy).symm)
  unfold constructDiag deduceShapeDiag
  simp [hsc, hl, hsh, he, tupleShape, bind, Except.bind]

/-- C14 is false of the code: a vector whose length is the product of the shape is accepted and kept as it is … -/
theorem C14_product_length_wrong :
    (constructDiag (R := Int) .empty { shape := some (.tuple [2, 2]), data := some ⟨[4], [1, 2, 3, 4]⟩ }).toOption.map
      (fun p => (p.2.legs.map p.1.dim, p.2.a)) = some ([2, 2], some ⟨[4], [1, 2, 3, 4]⟩) := by decide +kernel

/-- … so is an array with more axes of size 1, whose data then has two axes … -/
theorem C14_extra_axes_wrong :
    (constructDiag (R := Int) .empty { shape := some (.tuple [2, 2]), data := some ⟨[2, 2, 1], [1, 2, 3, 4]⟩ }).toOption.map
      (fun p => (p.2.legs.map p.1.dim, p.2.a)) = some ([2, 2], some ⟨[2, 1], [1, 4]⟩) := by decide +kernel

/-- … and with `shape = ()` data of any shape is taken for a scalar. -/
theorem C14_scalar_shape_wrong :
    (constructDiag (R := Int) .empty { shape := some (.tuple []), data := some ⟨[3], [1, 2, 3]⟩ }).toOption.map
      (fun p => (p.2.legs, p.2.a, p.2.length)) = some ([], some ⟨[3], [1, 2, 3]⟩, 1) := by decide +kernel

/-- So the unrestricted claim fails. -/
theorem C14_claim_false : ¬ ∀ (st st' : Store) (c : CArgs Int) (t : Tensor Int), constructDiag st c = .ok (st', t) →
    c.like = false → (∀ d, c.data = some d → d.WF) → DiagConsistent st' t := by
  intro h
  rcases e : constructDiag (R := Int) .empty { shape := some (.tuple [2, 2]), data := some ⟨[4], [1, 2, 3, 4]⟩ } with x | ⟨st', t⟩
  · have := C14_product_length_wrong
    rw [e] at this
    cases this
  · have key := C14_product_length_wrong
    rw [e] at key
    have key := Prod.mk.inj (Option.some.inj key)
    obtain ⟨a, h1, -, h2⟩ := h _ _ _ _ e rfl (by rintro d hd; rw [← Option.some.inj hd]; rfl)
    simp only at key
    rw [key.2] at h1
    have ha := Option.some.inj h1
    rcases h2 with ⟨h2, h3⟩ | ⟨h2, n, h3, h4⟩
    · rw [h2] at key
      cases key.1
    · rw [← ha] at h3
      have hn : n = 4 := by simpa using h3.symm
      obtain ⟨l, hl⟩ := List.exists_mem_of_ne_nil _ h2
      have h5 := h4 l hl
      have h6 : st'.dim l ∈ t.legs.map st'.dim := List.mem_map_of_mem hl
      rw [key.1, h5, hn] at h6
      simp at h6

/-- The constructor call inside `contractTwoTensors` is this constructor, for the data it is called with. -/
theorem C14_newDiagonal [Zero R] [One R] (st : Store) (s : List Nat) (d : NDArray R) (legs : List LegId)
    (hd : d.shape.length = 1 ∨ d.shape = s) :
    newDiagonal st s (some d) legs = constructDiag st { shape := some (.tuple s), data := some d, legs := some legs } := by
  unfold newDiagonal constructDiag deduceShapeDiag
  have hsc : isScalarCall ({ shape := some (.tuple s), data := some d, legs := some legs } : CArgs R) = false := rfl
  simp only [hsc, checkLegsLabels, givenShape]
  by_cases he : allEqualDims (legs.map st.dim) = true
  · have he' := (allEqualDims_iff _).mp he
    rw [if_neg (by
      rw [not_not]
      intro l hl
      exact he' _ (List.mem_map_of_mem hl))]
    by_cases hs : s = legs.map st.dim
    · have c2 : checkLegsShapeDiag st legs (some (.tuple s)) = true :=
        (checkLegsShape_iff st legs (some (.tuple s))).mpr (by intro x hx; rw [← Option.some.inj hx, hs])
      rw [if_neg (by simpa using hs)]
      have c3 : (checkShapeDataDiag s (some d) = true) ↔ ((d.shape.length = 1 ∧ s ≠ [] ∧ d.shape.headD 0 = s.headD 0) ∨
          tupleProduct d.shape = tupleProduct s) := by
        unfold checkShapeDataDiag
        simp [List.length_pos_iff, and_assoc]
      by_cases hp : checkShapeDataDiag s (some d) = true
      · have hp' := c3.mp hp
        simp only [he, c2, hp, hp', if_true, bind, Except.bind, pure, Except.pure, Bool.false_eq_true, Bool.true_eq_false, if_false]
        unfold generateDataDiag
        have hlen : (if s = [] then 1 else s.headD 0) = diagLength s := by cases s <;> rfl
        by_cases h1 : d.shape.length = 1
        · simp only [h1, if_true, Bool.false_eq_true, if_false, Option.isNone_some, hlen]
        · simp only [h1, if_false, Bool.false_eq_true]
          cases s with
          | nil => rfl
          | cons n s =>
            have hds : d.shape = n :: s := by
              rcases hd with h | h
              · exact absurd h h1
              · exact h
            have hall : ∀ x ∈ n :: s, x = n := by
              rw [← hs] at he'
              exact he'
            have e1 : (d.shape.take (s.length + 1)).any (fun k => decide (k < n)) = false := by
              rw [hds, List.any_eq_false]
              intro x hx
              have := hall x (List.mem_of_mem_take hx)
              simp [this]
            have e2 : diagRead d n (s.length + 1) = .ok (NDArray.build [n] fun idx => d.get (List.replicate (n :: s).length (idx.headD 0))) := by
              unfold diagRead
              rw [if_neg (by rw [e1, hds]; simp)]
              congr 1
              have : d.shape.drop (s.length + 1) = [] := by rw [hds]; simp
              rw [this]
              unfold NDArray.build
              congr 1
              apply List.map_congr_left
              intro idx hidx
              rw [mem_indices] at hidx
              have := ValidIdx.length hidx
              obtain ⟨i, rfl⟩ := List.length_eq_one_iff.mp this
              simp
            simp [e2, Except.map, diagLength]
      · have hp' := mt c3.mpr hp
        rw [Bool.not_eq_true] at hp
        simp only [he, c2, hp, hp', if_true, bind, Except.bind, Bool.false_eq_true, Bool.true_eq_false, if_false]
    · have c2 : checkLegsShapeDiag st legs (some (.tuple s)) = false := by
        rw [← Bool.not_eq_true]
        intro h
        have := (checkLegsShape_iff st legs (some (.tuple s))).mp h _ rfl
        exact hs (by simpa using this)
      rw [if_pos hs]
      simp [he, c2, bind, Except.bind]
  · have : ¬ ∀ l ∈ legs, st.dim l = (legs.map st.dim).headD 0 := by
      intro h
      apply he
      rw [allEqualDims_iff]
      intro x hx
      obtain ⟨l, hl, rfl⟩ := List.mem_map.mp hx
      exact h l hl
    rw [if_pos this]
    rw [Bool.not_eq_true] at he
    simp [he, bind, Except.bind]

example : ∃ st' t, constructDiag (R := Int) .empty { labels := some ["a", "b", "c"], data := some ⟨[2], [5, 7]⟩ } = .ok (st', t) ∧
    t.length = 2 ∧ t.legs.length = 3 :=
  ⟨_, _, rfl, rfl, rfl⟩

/-- The hypotheses of `C14_unequal_raises` and `C14_unequal_shape_raises`. -/
example : constructDiag (R := Int) .empty { shape := some (.tuple [2, 3, 2]) } = .error .valueError :=
  C14_unequal_shape_raises _ _ [2, 3, 2] rfl rfl rfl (x := 2) (y := 3) (by decide) (by decide) (by decide)

/-- Two legs with the dimensions 2 and 3 as in `C14_unequal_raises`. -/
example : constructDiag (R := Int) ((Store.empty.newLeg none 2 "a").1.newLeg none 3 "b").1 { legs := some [0, 1] } = .error .valueError :=
  C14_unequal_raises _ _ [0, 1] rfl (x := 0) (y := 1) (by decide) (by decide) (by decide)

example : newDiagonal (R := Int) .empty [2, 2] (some ⟨[2], [5, 7]⟩) [] =
    constructDiag (R := Int) .empty { shape := some (.tuple [2, 2]), data := some ⟨[2], [5, 7]⟩, legs := some [] } :=
  C14_newDiagonal (R := Int) _ _ ⟨[2], [5, 7]⟩ _ (.inl rfl)

end CTL
