import Verif.Model.Copy
import Verif.Spec.Copy
import Verif.Lemmas.LArr

/-! The copy of one tensor. -/

namespace CTL
variable {R : Type}

theorem Untouched.refl (st : Store) : Untouched st st := ⟨fun _ _ => rfl, fun _ _ => rfl⟩

theorem Untouched.partner {st st' : Store} (h : Untouched st st') (w : WFStore st) {l : LegId} (hl : l < st.nextLeg) :
    st'.partner l = st.partner l := by
  unfold Store.partner
  rw [h.leg l hl]
  rcases hb : (st.leg l).bond with _ | b
  · rfl
  · simp only
    rw [h.bond b (w.freshBond l b hb)]

theorem Untouched.kept {st st' : Store} (h : Untouched st st') (w : WFStore st) : InputsKept st st' :=
  ⟨h.leg, fun _ hl => h.partner w hl⟩

theorem Copyable.shape {st : Store} {t : Tensor R} (h : Copyable st t) : t.shape st = t.legs.map st.dim := by
  unfold Tensor.shape
  cases hd : t.diag with
  | true =>
    simp only [if_true]
    symm
    rw [List.eq_replicate_iff]
    refine ⟨by simp, fun x hx => ?_⟩
    obtain ⟨l, hl, rfl⟩ := List.mem_map.mp hx
    exact (h.length hd).1 l hl
  | false =>
    simp only [Bool.false_eq_true, if_false]
    cases hl : t.like with
    | true => rw [h.nodata hl]
    | false =>
      obtain ⟨arr, e, e2, _⟩ := h.data hl
      rw [e]
      exact e2 hd

/-- The store and tensor that a copy gives. -/
def copyResult (st : Store) (t : Tensor R) (a : Option (NDArray R)) (like : Bool) : Store × Tensor R :=
  let m := makeLegs { st with nextTensor := st.nextTensor + 1 } st.nextTensor
    ((t.legs.map st.name).zip ((t.legs.map st.dim).map some))
  (m.1, ⟨st.nextTensor, m.2, a, t.diag, like, if t.diag then t.length else 0⟩)

theorem copy_construct (rand : List Nat → List Nat → R) {st : Store} {t : Tensor R} (h : Copyable st t) (hd : t.diag = false)
    {a : Option (NDArray R)} {like : Bool} (h1 : like = true → a = none)
    (h2 : like = false → ∃ arr, a = some arr ∧ arr.shape = t.legs.map st.dim) :
    construct rand st { shape := some (.tuple (t.shape st)), labels := some (t.labels st), data := a, like := like }
      = .ok (copyResult st t a like) := by
  have c1 : checkShapeLabels (t.legs.map st.dim) (some (t.labels st)) = true := by
    simp [checkShapeLabels, Tensor.labels]
  have c2 : checkShapeData (t.legs.map st.dim) a = true := by
    cases like with
    | true => rw [h1 rfl]; rfl
    | false =>
      obtain ⟨arr, e, e2⟩ := h2 rfl
      rw [e]
      simp [checkShapeData, e2]
  have c3 : generateData rand (t.legs.map st.dim) a like = .ok a := by
    cases like with
    | true => rw [h1 rfl]; rfl
    | false =>
      obtain ⟨arr, e, e2⟩ := h2 rfl
      rw [e]
      simp [generateData, e2]
  unfold construct deduceShape
  simp only [h.shape, c1, c2, chosenLabels, Bool.true_eq_false, if_false, bind, Except.bind, map_some_getD, c3, pure,
    Except.pure]
  simp only [copyResult, hd, Tensor.labels, Bool.false_eq_true, if_false]

theorem copy_constructDiag [Zero R] [One R] {st : Store} {t : Tensor R} (h : Copyable st t) (hd : t.diag = true)
    {a : Option (NDArray R)} {like : Bool} (h1 : like = true → a = none)
    (h2 : like = false → ∃ arr, a = some arr ∧ t.legs ≠ [] ∧ arr.shape = [t.length]) :
    constructDiag st { shape := some (.tuple (t.shape st)), labels := some (t.labels st), data := a, like := like }
      = .ok (copyResult st t a like) := by
  obtain ⟨k1, k2⟩ := h.length hd
  have c0 : allEqualDims (t.legs.map st.dim) = true := by
    cases hl : t.legs with
    | nil => rfl
    | cons l ls =>
      simp only [List.map_cons, allEqualDims, List.all_cons, beq_self_eq_true, Bool.true_and, List.all_map, List.all_eq_true,
        Function.comp_apply, beq_iff_eq]
      intro x hx
      rw [k1 x (by simp [hl, hx]), k1 l (by simp [hl])]
  have c1 : checkShapeLabels (t.legs.map st.dim) (some (t.labels st)) = true := by
    simp [checkShapeLabels, Tensor.labels]
  have c2 : checkShapeDataDiag (t.legs.map st.dim) a = true := by
    cases like with
    | true => rw [h1 rfl]; rfl
    | false =>
      obtain ⟨arr, e, hne, e2⟩ := h2 rfl
      rw [e]
      cases hl : t.legs with
      | nil => exact absurd hl hne
      | cons l ls => simp [checkShapeDataDiag, e2, k1 l (by simp [hl])]
  have c3 : generateDataDiag (t.legs.map st.dim) a like = .ok a := by
    cases like with
    | true => rw [h1 rfl]; rfl
    | false =>
      obtain ⟨arr, e, hne, e2⟩ := h2 rfl
      rw [e]
      simp [generateDataDiag, e2]
  have c4 : diagLength (t.legs.map st.dim) = t.length := by
    cases hl : t.legs with
    | nil => exact (k2 hl).symm
    | cons l ls => exact k1 l (by simp [hl])
  unfold constructDiag deduceShapeDiag
  simp only [isScalarCall, h.shape, Option.isNone_some, Bool.and_false, Bool.false_and, Bool.false_eq_true, if_false,
    tupleShape, c0, c1, c2, chosenLabels, Bool.true_eq_false, bind, Except.bind, c3, c4, pure, Except.pure]
  simp only [copyResult, hd, Tensor.labels, if_true]

theorem copy_eq [Zero R] [One R] (rand : List Nat → List Nat → R) {st : Store} {t : Tensor R} (h : Copyable st t) :
    t.copy rand st = .ok (copyResult st t t.a t.like) := by
  unfold Tensor.copy
  simp only
  cases hd : t.diag with
  | true =>
    rw [if_pos rfl]
    refine copy_constructDiag h hd h.nodata fun hl => ?_
    obtain ⟨arr, e, _, e2⟩ := h.data hl
    exact ⟨arr, e, e2 hd⟩
  | false =>
    rw [if_neg (by simp)]
    refine copy_construct rand h hd h.nodata fun hl => ?_
    obtain ⟨arr, e, e2, _⟩ := h.data hl
    exact ⟨arr, e, e2 hd⟩

theorem toTensorLike_eq [Zero R] [One R] (rand : List Nat → List Nat → R) {st : Store} {t : Tensor R} (h : Copyable st t) :
    t.toTensorLike rand st = .ok (copyResult st t none true) := by
  unfold Tensor.toTensorLike
  cases hl : t.like with
  | true => rw [if_pos rfl, copy_eq rand h, h.nodata hl, hl]
  | false =>
    rw [if_neg (by simp)]
    simp only
    cases hd : t.diag with
    | true =>
      rw [if_pos rfl]
      exact copy_constructDiag h hd (fun _ => rfl) (by simp)
    | false =>
      rw [if_neg (by simp)]
      exact copy_construct rand h hd (fun _ => rfl) (by simp)

/-- What is known about one copy. -/
structure OneCopy (st st' : Store) (shapeOnly : Bool) (t c : Tensor R) : Prop where
  copy : CopyOf st st' shapeOnly t c
  id : c.id = st.nextTensor ∧ st'.nextTensor = st.nextTensor + 1
  nodup : c.legs.Nodup
  free : ∀ l ∈ c.legs, (st'.leg l).bond = none
  old : Untouched st st'
  grows : Grows st st'
  nextBond : st'.nextBond = st.nextBond

theorem copyResult_ok (st : Store) (t : Tensor R) (shapeOnly : Bool) :
    OneCopy st (copyResult st t (if shapeOnly then none else t.a) (shapeOnly || t.like)).1 shapeOnly t
      (copyResult st t (if shapeOnly then none else t.a) (shapeOnly || t.like)).2 := by
  have M := makeLegs_ok st.nextTensor ((t.legs.map st.name).zip ((t.legs.map st.dim).map some))
    { st with nextTensor := st.nextTensor + 1 }
  have g0 : Grows st { st with nextTensor := st.nextTensor + 1 } :=
    ⟨le_rfl, fun _ _ => rfl, fun _ _ => rfl, fun _ _ _ => rfl, fun w => ⟨w.inv, w.freshLeg, w.freshBond⟩⟩
  unfold copyResult
  set ps := (t.legs.map st.name).zip ((t.legs.map st.dim).map some) with hps
  refine ⟨⟨?_, ?_, rfl, rfl, rfl, fun h => by simp [h], ⟨le_rfl, ?_⟩, ?_⟩, ⟨rfl, M.nextTensor⟩, ?_, ?_, ?_, g0.trans M.grows,
    M.nextBond⟩
  · refine M.name.trans ?_
    rw [hps, List.map_fst_zip (by simp)]
  · simp only [M.dim]
    have : ps.map (fun p => p.2.getD 0) = (ps.map Prod.snd).map fun d => d.getD 0 := by
      rw [List.map_map]; rfl
    rw [this, hps, List.map_snd_zip (by simp), map_some_getD]
  · refine lt_of_lt_of_eq ?_ M.nextTensor.symm
    exact Nat.lt_succ_self _
  · intro l hl
    refine ⟨?_, ?_, (M.owner l hl).1⟩
    · simp only [M.legs, List.mem_range'_1] at hl
      exact hl.1
    · simp only [M.legs, List.mem_range'_1] at hl
      simp only [M.nextLeg]
      exact hl.2
  · simp only [M.legs]
    exact List.nodup_range'
  · exact fun l hl => (M.owner l hl).2
  · exact ⟨M.old, fun b _ => by simp only [M.bond]⟩

theorem copyOne_ok [Zero R] [One R] (rand : List Nat → List Nat → R) {st : Store} {t : Tensor R} (h : Copyable st t)
    (shapeOnly : Bool) :
    ∃ st' c, (if shapeOnly then t.toTensorLike rand st else t.copy rand st) = .ok (st', c) ∧ OneCopy st st' shapeOnly t c := by
  have K := copyResult_ok st t shapeOnly
  cases shapeOnly with
  | true => exact ⟨_, _, by rw [if_pos rfl, toTensorLike_eq rand h]; rfl, K⟩
  | false => exact ⟨_, _, by rw [if_neg (by simp), copy_eq rand h]; rfl, K⟩

/-- `copy` of a tensor with data. -/
theorem copy_good [Zero R] [One R] (rand : List Nat → List Nat → R) {st : Store} {t : Tensor R} (g : GoodTensor st t)
    (hl : t.legs ≠ []) (w : WFStore st) :
    ∃ st' t', t.copy rand st = .ok (st', t') ∧ GoodTensor st' t' ∧ t'.diag = t.diag ∧ WFStore st' ∧
      t'.id = st.nextTensor ∧ st'.nextTensor = st.nextTensor + 1 ∧ st.nextLeg ≤ st'.nextLeg ∧
      InputsKept st st' ∧ (∀ l ∈ t'.legs, st.nextLeg ≤ l ∧ l < st'.nextLeg) ∧
      (∀ l ∈ t'.legs, (st'.leg l).bond = none ∧ (st'.leg l).tensor = some t'.id) ∧
      t'.legs.map st'.dim = t.legs.map st.dim ∧ t'.legs.map st'.name = t.legs.map st.name ∧ t'.a = t.a := by
  obtain ⟨arr, h1, h2, h3, h4⟩ := g.data
  have hc : Copyable st t := by
    refine ⟨g.nodup, fun h => ?_, fun _ => ⟨arr, h1, h3, fun hd => ?_⟩, fun hd => ?_⟩
    · rw [g.notLike] at h
      cases h
    · rcases h4 hd with h | h
      · exact absurd h.1 hl
      · exact ⟨hl, h.2.1⟩
    · rcases h4 hd with h | h
      · exact absurd h.1 hl
      · exact ⟨h.2.2, fun e => absurd e hl⟩
  obtain ⟨st', c, e, K⟩ := copyOne_ok rand hc false
  rw [if_neg (by simp)] at e
  have P := K.copy
  have ha : c.a = t.a := P.data
  refine ⟨st', c, e, ?_, P.diag, K.grows.wf w, K.id.1, K.id.2, K.grows.le, K.old.kept w, fun l h => ⟨(P.newLegs l h).1, (P.newLegs l h).2.1⟩,
    fun l h => ⟨K.free l h, (P.newLegs l h).2.2⟩, P.dims, P.labels, ha⟩
  refine ⟨K.nodup, P.like.trans g.notLike, arr, ha.trans h1, h2, fun hd => ?_, fun hd => ?_⟩
  · rw [P.dims]
    exact h3 (P.diag ▸ hd)
  · have hd' : t.diag = true := P.diag ▸ hd
    rcases h4 hd' with h | h
    · exact absurd h.1 hl
    · refine Or.inr ⟨fun e => ?_, by rw [P.length hd']; exact h.2.1, fun l hl' => ?_⟩
      · have := congrArg List.length P.dims
        rw [e] at this
        simp at this
        exact hl (List.length_eq_zero_iff.mp this.symm)
      · rw [P.length hd']
        have : st'.dim l ∈ t.legs.map st.dim := by rw [← P.dims]; exact List.mem_map_of_mem hl'
        obtain ⟨m, hm, e⟩ := List.mem_map.mp this
        rw [← e]
        exact h.2.2 m hm

end CTL
