import Verif.Props.Link

/-! C10: which legs the arguments of `makeLink` stand for. -/

namespace CTL
variable {R : Type}

/-- `m` is the leg meant by an argument of `makeLink`: the leg itself, or the first leg of the tensor with the label. -/
def MeansLeg (st : Store) (t : Option (Tensor R)) : LegRef → LegId → Prop
  | .leg l, m => m = l
  | .label s, m => ∃ t' pre post, t = some t' ∧ t'.legs = pre ++ m :: post ∧ st.name m = s ∧ ∀ l ∈ pre, st.name l ≠ s

theorem resolveRef_means {st : Store} {t : Option (Tensor R)} {r : LegRef} {m : LegId} (h : MeansLeg st t r m) :
    resolveRef st t r = .ok (some m) := by
  cases r with
  | leg l => exact congrArg (fun x => Except.ok (some x)) (Eq.symm h)
  | label s =>
    obtain ⟨t', pre, post, rfl, hl, hn, hp⟩ := h
    have hx : (t'.labels st).idxOf s = pre.length := by
      unfold Tensor.labels
      rw [hl, List.map_append, List.idxOf_append_of_notMem (by simpa using fun l h => hp l h)]
      simp [hn]
    have hm : s ∈ t'.labels st := by
      unfold Tensor.labels
      rw [hl]
      simp [hn]
    simp [resolveRef, Tensor.getLeg, Tensor.indexOfLabel, hm, hx, hl]

theorem mapM_means {st : Store} {t : Option (Tensor R)} {refs : List LegRef} {ls : List LegId} (h : List.Forall₂ (MeansLeg st t) refs ls) :
    refs.mapM (resolveRef st t) = .ok (ls.map some) := by
  induction h with
  | nil => rfl
  | cons h _ ih =>
    rw [List.mapM_cons, ih, resolveRef_means h]
    rfl

/-- C10: the arguments of `makeLink` stand for legs: a leg for itself, a label for the first leg of the tensor that carries it. -/
theorem C10_makeLink_means (st : Store) (ta tb : Option (Tensor R)) (refA refB : List LegRef) (la lb : List LegId)
    (ha : List.Forall₂ (MeansLeg st ta) refA la) (hb : List.Forall₂ (MeansLeg st tb) refB lb) :
    makeLink st refA refB ta tb = makeLinkLegs st la lb := by
  unfold makeLinkLegs makeLink
  simp only [mapM_means ha, mapM_means hb, mapM_resolve_leg]

theorem mapM_no_tensor (st : Store) {refs : List LegRef} {s : String} (h : .label s ∈ refs) :
    refs.mapM (resolveRef (R := R) st none) = .error .assertionError := by
  induction refs with
  | nil => cases h
  | cons r refs ih =>
    rw [List.mapM_cons]
    cases r with
    | label _ => rfl
    | leg l =>
      rw [ih (by simpa using h)]
      rfl

/-- C10: a label without a tensor is refused, on either side, and nothing is linked. -/
theorem C10_makeLink_no_tensor (st : Store) (refA refB : List LegRef) (s : String) :
    (.label s ∈ refA → ∀ tb : Option (Tensor R), makeLink st refA refB none tb = (st, .error .assertionError)) ∧
    (.label s ∈ refB → ∀ (ta : Option (Tensor R)) (la : List LegId), List.Forall₂ (MeansLeg st ta) refA la →
      makeLink st refA refB ta none = (st, .error .assertionError)) := by
  refine ⟨fun h tb => ?_, fun h ta la ha => ?_⟩
  · unfold makeLink
    rw [mapM_no_tensor st h]
  · unfold makeLink
    rw [mapM_means ha]
    simp only [mapM_no_tensor st h]

/-- C10: a label that the tensor does not have raises an AttributeError, and nothing is linked. -/
theorem C10_makeLink_unknown (st : Store) (ta tb : Tensor R) (s : String) (r : LegRef) (m : LegId) (hs : ∀ l ∈ ta.legs, st.name l ≠ s)
    (hr : MeansLeg st (some tb) r m) : makeLink st [.label s] [r] (some ta) (some tb) = (st, .error .attributeError) := by
  have hn : s ∉ ta.labels st := by
    unfold Tensor.labels
    simpa using fun l h => hs l h
  unfold makeLink
  rw [mapM_means (List.Forall₂.cons hr .nil)]
  simp [resolveRef, Tensor.getLeg, Tensor.indexOfLabel, hn, linkLoop, bind, Except.bind, pure, Except.pure]

/-- A tensor two of whose legs have the same label. -/
def twiceStore : Store := (((Store.empty.newLeg none 2 "a").1.newLeg none 2 "a").1.newLeg none 2 "b").1

def twiceT : Tensor Int := ⟨0, [0, 1], none, false, false, 0⟩

def twiceU : Tensor Int := ⟨1, [2], none, false, false, 0⟩

/-- The label stands for the first of the two. -/
example : makeLink twiceStore [.label "a"] [.leg 2] (some twiceT) (some twiceU) = makeLinkLegs twiceStore [0] [2] :=
  C10_makeLink_means _ _ _ _ _ _ _ (.cons ⟨twiceT, [], [1], rfl, rfl, rfl, by simp⟩ .nil) (.cons rfl .nil)

example : makeLink twiceStore [.leg 0] [.label "b"] (some twiceT) none = (twiceStore, .error .assertionError) :=
  (C10_makeLink_no_tensor _ _ _ "b").2 (by simp) _ [0] (.cons rfl .nil)

example : makeLink twiceStore [.label "c"] [.leg 2] (some twiceT) (some twiceU) = (twiceStore, .error .attributeError) :=
  C10_makeLink_unknown _ _ _ _ _ 2 (by decide) rfl

end CTL
