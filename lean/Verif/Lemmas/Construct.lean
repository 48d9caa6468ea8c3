import Verif.Spec.Construct
import Verif.Lemmas.Ext

/-! Helper lemmas about the constructors. -/

namespace CTL
variable {R : Type}

theorem zip_all_eq {α : Type} [BEq α] [LawfulBEq α] (f : LegId → α) : ∀ (ls : List α) (legs : List LegId),
    (ls.length == legs.length && (ls.zip legs).all fun p => p.1 == f p.2) = true ↔ ls = legs.map f
  | [], [] => by simp
  | [], l :: legs => by simp
  | x :: ls, [] => by simp
  | x :: ls, l :: legs => by
    have := zip_all_eq f ls legs
    simp only [List.length_cons, List.zip_cons_cons, List.all_cons, List.map_cons, List.cons.injEq, ← this, Bool.and_eq_true,
      beq_iff_eq]
    constructor
    · rintro ⟨h1, h2, h3⟩; exact ⟨h2, by omega, h3⟩
    · rintro ⟨h1, h2, h3⟩; exact ⟨by omega, h1, h3⟩

theorem checkLegsLabels_iff (st : Store) (legs : List LegId) (labels : Option (List String)) :
    checkLegsLabels st legs labels = true ↔ ∀ ls, labels = some ls → ls = legs.map st.name := by
  cases labels with
  | none => simp [checkLegsLabels]
  | some ls =>
    unfold checkLegsLabels
    rw [zip_all_eq]
    simp

theorem checkLegsShape_iff (st : Store) (legs : List LegId) (sh : Option ShapeArg) :
    checkLegsShape st legs sh = true ↔ ∀ s, sh = some s → s = .tuple (legs.map st.dim) := by
  rcases sh with _ | n | s
  · simp [checkLegsShape]
  · simp [checkLegsShape]
  · unfold checkLegsShape
    rw [zip_all_eq]
    simp

theorem checkShapeData_iff (s : List Nat) (data : Option (NDArray R)) :
    checkShapeData s data = true ↔ ∀ d, data = some d → d.shape.prod = s.prod := by
  cases data <;> simp [checkShapeData, tupleProduct_eq]

theorem checkShapeLabels_iff (s : List Nat) (labels : Option (List String)) :
    checkShapeLabels s labels = true ↔ ∀ ls, labels = some ls → ls.length = s.length := by
  cases labels <;> simp [checkShapeLabels]

theorem generateLabels_ok {n : Nat} (h : n ≤ 26) :
    ∃ ls, generateLabels n = .ok ls ∧ ls.length = n ∧ ls = ("abcdefghijklmnopqrstuvwxyz".toList.take n).map String.singleton := by
  refine ⟨_, ?_, ?_, rfl⟩
  · simp [generateLabels, pyAssert, h, bind, Except.bind, pure, Except.pure]
  · have : "abcdefghijklmnopqrstuvwxyz".toList.length = 26 := by decide
    rw [List.length_map, List.length_take, this]
    omega

theorem generateLabels_error {n : Nat} (h : ¬ n ≤ 26) : generateLabels n = .error .assertionError := by
  simp [generateLabels, pyAssert, h, bind, Except.bind]

/-- The labels that are used: the given ones, or the first letters. -/
theorem labels_ok {labels : Option (List String)} {n : Nat} (h : ∀ ls, labels = some ls → ls.length = n)
    (h' : labels = none → n ≤ 26) :
    ∃ ls, chosenLabels labels n = .ok ls ∧ ls.length = n ∧
      (∀ ls', labels = some ls' → ls = ls') ∧
      (labels = none → ls = ("abcdefghijklmnopqrstuvwxyz".toList.take n).map String.singleton) := by
  cases labels with
  | none =>
    obtain ⟨ls, h1, h2, h3⟩ := generateLabels_ok (h' rfl)
    exact ⟨ls, h1, h2, by simp, fun _ => h3⟩
  | some ls => exact ⟨ls, rfl, h ls rfl, by simp, by simp⟩

/-- What `deduceShape` found. -/
structure DeducedOK (st : Store) (c : CArgs R) (s : Deduced) : Prop where
  len : s.labels.length = s.dims.length
  labels : ∀ ls, c.labels = some ls → s.labels = ls
  letters : c.legs = none → c.labels = none →
    s.labels = ("abcdefghijklmnopqrstuvwxyz".toList.take s.dims.length).map String.singleton
  legs : ∀ legs, c.legs = some legs → s.labels = legs.map st.name ∧ s.dims = (legs.map st.dim).map some
  shape : ∀ n, c.shape = some (.tuple n) → s.dims = n.map some
  data : ∀ d, c.data = some d → d.shape.prod = (s.dims.map fun d => d.getD 0).prod
  dataShape : c.legs = none → c.shape = none → ∀ d, c.data = some d → s.dims = d.shape.map some
  known : c.like = false → ∃ n : List Nat, s.dims = n.map some

theorem map_some_getD (n : List Nat) : (n.map some).map (fun d => d.getD 0) = n := by
  rw [List.map_map]; simp [Function.comp_def]

theorem deduceShape_ok {st : Store} {c : CArgs R} (h : Acceptable st c) : ∃ s, deduceShape st c = .ok s ∧ DeducedOK st c s := by
  obtain ⟨shape, labels, data, legs, like⟩ := c
  unfold Acceptable at h
  unfold deduceShape
  rcases legs with _ | legs
  · rcases shape with _ | n | s
    · rcases data with _ | d
      · obtain ⟨h1, h2⟩ := h
        simp only at h1 h2
        subst h1
        rcases labels with _ | ls
        · exact absurd rfl h2
        · exact ⟨_, rfl, by simp, by simp, by simp, by simp, by simp, by simp, by simp, by simp⟩
      · obtain ⟨h1, h2⟩ := h
        simp only at h1 h2
        obtain ⟨ls, e1, e2, e3, e4⟩ := labels_ok h1 h2
        have c1 := (checkShapeLabels_iff d.shape labels).mpr h1
        refine ⟨⟨d.shape.map some, ls⟩, ?_, by simp [e2], fun ls' h => e3 ls' h, ?_, by simp, by simp, ?_, by simp, ?_⟩
        · simp only [c1]
          rw [if_neg (by simp)]
          simp only [e1]
        · intro _ hn
          simpa using e4 hn
        · intro d' hd
          rw [map_some_getD]
          rw [Option.some.inj hd]
        · exact fun _ => ⟨d.shape, rfl⟩
    · exact absurd h id
    · obtain ⟨h1, h2, h3⟩ := h
      simp only at h1 h2 h3
      obtain ⟨ls, e1, e2, e3, e4⟩ := labels_ok h1 h2
      have c1 := (checkShapeLabels_iff s labels).mpr h1
      have c2 := (checkShapeData_iff s data).mpr h3
      refine ⟨⟨s.map some, ls⟩, ?_, by simp [e2], fun ls' h => e3 ls' h, ?_, by simp, ?_, ?_, by simp, ?_⟩
      · simp only [c1, c2]
        rw [if_neg (by simp)]
        simp only [e1]
        simp
      · intro _ hn
        simpa using e4 hn
      · intro n hn
        simp only [Option.some.injEq, ShapeArg.tuple.injEq] at hn
        rw [hn]
      · intro d' hd
        rw [map_some_getD]
        exact h3 d' hd
      · exact fun _ => ⟨s, rfl⟩
  · obtain ⟨h1, h2, h3⟩ := h
    simp only at h1 h2 h3
    have c1 := (checkLegsLabels_iff st legs labels).mpr h1
    have c2 := (checkLegsShape_iff st legs shape).mpr h2
    have e : givenShape (legs.map st.dim) shape = legs.map st.dim := by
      rcases shape with _ | n | s
      · rfl
      · rfl
      · have := h2 _ rfl
        simpa [givenShape] using this
    have c3 := (checkShapeData_iff (legs.map st.dim) data).mpr h3
    have e2 : labels.getD (legs.map st.name) = legs.map st.name := by
      cases labels with
      | none => rfl
      | some ls => simpa using h1 ls rfl
    refine ⟨⟨(legs.map st.dim).map some, legs.map st.name⟩, ?_, by simp, ?_, by simp, ?_, ?_, ?_, by simp, ?_⟩
    · simp only [c1, c2, e, c3, e2]
      simp
    · intro ls hl
      exact (h1 ls hl).symm
    · intro legs' hl
      simp only [Option.some.injEq] at hl
      rw [← hl]
      exact ⟨rfl, rfl⟩
    · intro n hn
      have := h2 _ hn
      simp only [ShapeArg.tuple.injEq] at this
      rw [this]
    · intro d hd
      rw [map_some_getD]
      exact h3 d hd
    · exact fun _ => ⟨_, rfl⟩

theorem deduceShape_accepts {st : Store} {c : CArgs R} {s : Deduced} (h : deduceShape st c = .ok s) : Acceptable st c := by
  obtain ⟨shape, labels, data, legs, like⟩ := c
  unfold Acceptable
  unfold deduceShape at h
  rcases legs with _ | legs
  · rcases shape with _ | n | s'
    · rcases data with _ | d
      · rcases like with _ | _
        · simp at h
        · rcases labels with _ | ls
          · simp at h
          · exact ⟨rfl, by simp⟩
      · simp only at h ⊢
        split at h
        · cases h
        · rename_i c1
          rw [Bool.not_eq_false, checkShapeLabels_iff] at c1
          refine ⟨c1, ?_⟩
          rintro rfl
          by_contra hn
          simp only [chosenLabels, generateLabels_error hn] at h
          cases h
    · cases h
    · simp only at h ⊢
      split at h
      · cases h
      · rename_i c1
        rw [Bool.not_eq_false, checkShapeLabels_iff] at c1
        refine ⟨c1, ?_, ?_⟩
        · rintro rfl
          by_contra hn
          simp only [chosenLabels, generateLabels_error hn] at h
          cases h
        · rw [← checkShapeData_iff]
          by_contra hn
          rw [Bool.not_eq_true] at hn
          simp only [hn, if_true] at h
          split at h
          · cases h
          · cases h
  · simp only at h ⊢
    split at h
    · cases h
    · rename_i c1
      split at h
      · cases h
      · rename_i c2
        split at h
        · cases h
        · rename_i c3
          rw [Bool.not_eq_false, checkLegsLabels_iff] at c1
          rw [Bool.not_eq_false, checkLegsShape_iff] at c2
          rw [Bool.not_eq_false, checkShapeData_iff] at c3
          refine ⟨c1, c2, fun d hd => ?_⟩
          rw [c3 d hd]
          rcases shape with _ | n | s
          · rfl
          · rfl
          · have := c2 _ rfl
            simp only [ShapeArg.tuple.injEq] at this
            rw [this]
            rfl

/-- What `makeLegs` returns. -/
structure Made (st st' : Store) (t : TensorId) (ps : List (String × Option Nat)) (ls : List LegId) : Prop where
  legs : ls = List.range' st.nextLeg ps.length
  old : ∀ l, l < st.nextLeg → st'.leg l = st.leg l
  bond : st'.bond = st.bond
  nextLeg : st'.nextLeg = st.nextLeg + ps.length
  nextBond : st'.nextBond = st.nextBond
  nextTensor : st'.nextTensor = st.nextTensor
  name : ls.map st'.name = ps.map Prod.fst
  dim : ls.map st'.dim = ps.map fun p => p.2.getD 0
  owner : ∀ l ∈ ls, (st'.leg l).tensor = some t ∧ (st'.leg l).bond = none
  grows : Grows st st'

theorem makeLegs_ok (t : TensorId) : ∀ (ps : List (String × Option Nat)) (st : Store),
    Made st (makeLegs st t ps).1 t ps (makeLegs st t ps).2
  | [], st => ⟨rfl, fun _ _ => rfl, rfl, rfl, rfl, rfl, rfl, rfl, by simp [makeLegs], .refl _⟩
  | (n, d) :: ps, st => by
    have M := makeLegs_ok t ps (st.newLeg (some t) (d.getD 0) n).1
    have e1 : (makeLegs st t ((n, d) :: ps)).1 = (makeLegs (st.newLeg (some t) (d.getD 0) n).1 t ps).1 := rfl
    have e2 : (makeLegs st t ((n, d) :: ps)).2 = st.nextLeg :: (makeLegs (st.newLeg (some t) (d.getD 0) n).1 t ps).2 := rfl
    have hnew := M.old st.nextLeg (Nat.lt_succ_self _)
    rw [newLeg_new] at hnew
    rw [e1, e2]
    refine ⟨?_, ?_, M.bond, ?_, M.nextBond, M.nextTensor, ?_, ?_, ?_, (newLeg_ext _ _ _ _).trans M.grows⟩
    · rw [M.legs, List.length_cons, List.range'_succ]; rfl
    · intro l hl
      rw [M.old l (Nat.lt_succ_of_lt hl), newLeg_leg_other _ _ _ _ hl.ne]
    · rw [M.nextLeg, List.length_cons]
      simp only [Store.newLeg]
      omega
    · rw [List.map_cons, List.map_cons, M.name]
      simp only [Store.name, hnew]
    · rw [List.map_cons, List.map_cons, M.dim]
      simp only [Store.dim, hnew]
    · intro l hl
      rcases List.mem_cons.mp hl with rfl | hl
      · rw [hnew]; exact ⟨rfl, rfl⟩
      · exact M.owner l hl

theorem setOwner_tensor (st : Store) (t : TensorId) : ∀ (legs : List LegId) (l : LegId),
    ((st.setOwner legs t).leg l).tensor = if l ∈ legs then some t else (st.leg l).tensor := by
  intro legs
  induction legs generalizing st with
  | nil => intro l; simp [Store.setOwner]
  | cons x xs ih =>
    intro l
    have := ih (st.setLeg x { st.leg x with tensor := some t }) l
    unfold Store.setOwner at this ⊢
    rw [List.foldl_cons, this]
    unfold Store.setLeg
    by_cases h : l ∈ xs
    · simp [h]
    · by_cases hx : l = x <;> simp [h, hx]

theorem setOwner_other (st : Store) (t : TensorId) (legs : List LegId) {l : LegId} (h : l ∉ legs) :
    (st.setOwner legs t).leg l = st.leg l := by
  have h1 := (setOwner_leg st legs t l).1
  have h2 := setOwner_tensor st t legs l
  rw [if_neg h] at h2
  rcases e1 : (st.setOwner legs t).leg l with ⟨a, b, c, d⟩
  rcases e2 : st.leg l with ⟨a', b', c', d'⟩
  rw [e1, e2] at h1 h2
  simp only at h1 h2
  rw [h1.1, h1.2.1, h1.2.2, h2]

end CTL
