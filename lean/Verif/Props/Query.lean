import Verif.Model.Query
import Verif.Props.Ops
import Verif.Props.Lists
import Verif.Props.Sequence
import Verif.Spec.ContractExp
import Verif.Spec.Network

/-! C63: what tensors answer about their legs, and dictionaries of tensors. -/

namespace CTL
variable {R : Type}

/-- The dimensions a tensor knows are those of its legs. -/
def ShapeOK (st : Store) (t : Tensor R) : Prop := t.shape st = t.legs.map st.dim

theorem shapeOK_of_good {st : Store} {t : Tensor R} (g : GoodTensor st t) : ShapeOK st t := by
  obtain ⟨arr, a1, a2, a3, a4⟩ := g.data
  unfold ShapeOK Tensor.shape
  cases hd : t.diag with
  | false => simp only [Bool.false_eq_true, if_false, a1]; exact a3 hd
  | true =>
    simp only [if_true]
    rcases a4 hd with ⟨h, -, -⟩ | ⟨-, -, h⟩
    · rw [h]; rfl
    · symm
      rw [List.eq_replicate_iff]
      simpa using h

theorem mapM_of_forall {α β : Type} {f : α → Except PyErr β} {P : α → β → Prop} : ∀ {l : List α}, (∀ x ∈ l, ∃ y, f x = .ok y ∧ P x y) →
    ∃ r, l.mapM f = .ok r ∧ List.Forall₂ P l r
  | [], _ => ⟨[], rfl, .nil⟩
  | x :: l, h => by
    obtain ⟨y, hy, p⟩ := h x (by simp)
    obtain ⟨r, hr, q⟩ := mapM_of_forall (l := l) fun z hz => h z (by simp [hz])
    refine ⟨y :: r, ?_, .cons p q⟩
    rw [List.mapM_cons, hy]
    simp only [bind, Except.bind]
    rw [hr]
    rfl

/-- Leg `l` is the first leg of the tensor with its name, or the last one. -/
def Tensor.FoundFrom (t : Tensor R) (st : Store) (back : Bool) (l : LegId) : Prop :=
  ∃ k : Nat, t.legs[k]? = some l ∧ ∀ (j : Nat) m, t.legs[j]? = some m → st.name m = st.name l → if back then j ≤ k else k ≤ j

theorem indexOfLabel_leg (st : Store) (t : Tensor R) {lab : String} (back : Bool) (h : lab ∈ t.labels st) :
    ∃ (k : Nat) (l : LegId), t.indexOfLabel st lab back = some k ∧ t.legs[k]? = some l ∧ st.name l = lab ∧ t.FoundFrom st back l := by
  cases hi : t.indexOfLabel st lab back with
  | none => exact absurd h ((C21_indexOfLabel_none st t lab back).mp hi)
  | some k =>
    have hk : (t.labels st)[k]? = some lab ∧ ∀ (j : Nat) m, t.legs[j]? = some m → st.name m = lab → if back then j ≤ k else k ≤ j := by
      have hj : ∀ (j : Nat) m, t.legs[j]? = some m → st.name m = lab → (t.labels st)[j]? = some lab := by
        intro j m hm hn
        unfold Tensor.labels
        rw [List.getElem?_map, hm]
        exact congrArg some hn
      cases back with
      | false =>
        obtain ⟨h1, h2⟩ := (C21_indexOfLabel_forward st t lab k).mp hi
        refine ⟨h1, fun j m hm hn => ?_⟩
        simp only [Bool.false_eq_true, if_false]
        by_contra hlt
        exact h2 j (by omega) (hj j m hm hn)
      | true =>
        obtain ⟨h1, h2⟩ := (C21_indexOfLabel_backward st t lab k).mp hi
        refine ⟨h1, fun j m hm hn => ?_⟩
        simp only [if_true]
        by_contra hlt
        exact h2 j (by omega) (hj j m hm hn)
    obtain ⟨h1, h2⟩ := hk
    unfold Tensor.labels at h1
    rw [List.getElem?_map, Option.map_eq_some_iff] at h1
    obtain ⟨l, hl, hn⟩ := h1
    exact ⟨k, l, rfl, hl, hn, k, hl, fun j m hm e => h2 j m hm (e.trans hn)⟩

/-- C63: `shapeOfLabels` of labels the tensor has gives the dimension of a leg with each label; a label asked for again is looked for from the
other end. -/
theorem C63_shapeOfLabels {st : Store} {t : Tensor R} (ok : ShapeOK st t) {labs : List String} (h : ∀ x ∈ labs, x ∈ t.labels st) (backward : Bool) :
    ∃ ds, t.shapeOfLabels st labs backward = .ok ds ∧ ds.length = labs.length ∧ ∀ (i : Nat) lab, labs[i]? = some lab → ∃ l d, ds[i]? = some d ∧
      st.name l = lab ∧ st.dim l = d ∧ t.FoundFrom st (if lab ∈ labs.take i then !backward else backward) l := by
  obtain ⟨r, hr, hf⟩ := mapM_of_forall (f := fun i => pyIndexLast (t.shape st) i) (l := t.getLabelIndices st labs backward)
    (P := fun i d => ∀ k, i = some k → (t.shape st)[k]? = some d) (by
      intro x hx
      unfold Tensor.getLabelIndices at hx
      obtain ⟨i, hi, rfl⟩ := List.mem_map.mp hx
      rw [List.mem_range] at hi
      have hm : labs.getD i "" ∈ t.labels st := h _ (by
        rw [List.getD_eq_getElem?_getD, List.getElem?_eq_getElem hi]
        exact List.getElem_mem hi)
      have : ∀ b, ∃ y, pyIndexLast (t.shape st) (t.indexOfLabel st (labs.getD i "") b) = .ok y ∧
          ∀ k, t.indexOfLabel st (labs.getD i "") b = some k → (t.shape st)[k]? = some y := by
        intro b
        obtain ⟨k, l, e1, e2, -⟩ := indexOfLabel_leg st t b hm
        have : (t.shape st)[k]? = some (st.dim l) := by rw [ok, List.getElem?_map, e2]; rfl
        refine ⟨st.dim l, ?_, fun k' hk' => ?_⟩
        · rw [e1]
          unfold pyIndexLast
          simp only [this]
        · rw [e1] at hk'
          cases hk'
          exact this
      dsimp only
      split
      · exact this _
      · exact this _)
  have hlen : r.length = labs.length := by
    rw [← hf.length_eq]
    unfold Tensor.getLabelIndices
    simp
  refine ⟨r, hr, hlen, fun i lab hlab => ?_⟩
  obtain ⟨hi, rfl⟩ := List.getElem?_eq_some_iff.mp hlab
  have P := (List.forall₂_iff_get.mp hf).2 i (by unfold Tensor.getLabelIndices; simpa using hi) (by omega)
  simp only [List.get_eq_getElem] at P
  have e : (t.getLabelIndices st labs backward)[i]'(by unfold Tensor.getLabelIndices; simpa using hi) =
      t.indexOfLabel st labs[i] (if labs[i] ∈ labs.take i then !backward else backward) := by
    unfold Tensor.getLabelIndices
    simp only [List.getElem_map, List.getElem_range, List.getD_eq_getElem?_getD, List.getElem?_eq_getElem hi, Option.getD_some, gt_iff_lt,
      List.count_pos_iff]
    split <;> rfl
  obtain ⟨k, l, e1, e2, e3, e4⟩ := indexOfLabel_leg st t (if labs[i] ∈ labs.take i then !backward else backward) (h _ (List.getElem_mem hi))
  refine ⟨l, r[i]'(by omega), List.getElem?_eq_getElem _, e3, ?_, e4⟩
  have := P k (e.trans e1)
  rw [ok, List.getElem?_map, e2] at this
  exact Option.some.inj this

/-- C63: for different labels, none of which the tensor has twice, these are the dimensions of their legs. -/
theorem C63_shapeOfLabels_dims {st : Store} {t : Tensor R} {labels labs : List String} (h : HasLabels st t labels) (nd : labels.Nodup)
    (hs : ∀ x ∈ labs, x ∈ labels) (backward : Bool) : t.shapeOfLabels st labs backward = .ok (labs.map (t.dimOf st)) := by
  have ndn : (t.legs.map st.name).Nodup := h.labels.nodup_iff.mpr nd
  obtain ⟨ds, e, hlen, hv⟩ := C63_shapeOfLabels (shapeOK_of_good h.good) (labs := labs) (fun x hx => h.labels.symm.subset (hs x hx)) backward
  rw [e]
  congr 1
  apply List.ext_getElem (by simpa using hlen)
  intro i h1 h2
  simp only [List.length_map] at h2
  obtain ⟨l, d, a1, a2, a3, k, a4, -⟩ := hv i labs[i] (List.getElem?_eq_getElem h2)
  rw [List.getElem?_eq_getElem h1] at a1
  rw [List.getElem_map, Option.some.inj a1, ← a3, ← a2]
  unfold Tensor.dimOf
  have hl := List.mem_of_getElem? a4
  cases hf : t.legs.find? fun m => st.name m == st.name l with
  | none =>
    have := List.find?_eq_none.mp hf l hl
    simp at this
  | some m =>
    have e1 := List.find?_some hf
    simp only [beq_iff_eq] at e1
    have := List.inj_on_of_nodup_map ndn (List.mem_of_find?_eq_some hf) hl e1
    rw [this]
    rfl

/-- C63: a label the tensor does not have is answered with the dimension of the last leg, although `shapeOfLabel` says that there is none. -/
theorem C63_missing_label_wrong {st : Store} {t : Tensor R} (ok : ShapeOK st t) {lab : String} (h : lab ∉ t.labels st) (backward : Bool) :
    t.shapeOfLabel st lab backward = none ∧
    (∀ ls l, t.legs = ls ++ [l] → t.shapeOfLabels st [lab] backward = .ok [st.dim l]) ∧
    (t.legs = [] → t.shapeOfLabels st [lab] backward = .error .indexError) := by
  have hi : t.indexOfLabel st lab backward = none := (C21_indexOfLabel_none st t lab backward).mpr h
  have key : t.getLabelIndices st [lab] backward = [none] := by
    unfold Tensor.getLabelIndices
    simp [hi]
  refine ⟨((C21_getLeg st t lab backward).1 h).2, fun ls l e => ?_, fun e => ?_⟩
  · unfold Tensor.shapeOfLabels Tensor.shapeOfIndices
    rw [key, ok, e]
    simp [pyIndexLast, List.mapM_cons, bind, Except.bind, pure, Except.pure]
  · unfold Tensor.shapeOfLabels Tensor.shapeOfIndices
    rw [key, ok, e]
    rfl

/-- C63: `labelsInTensor`. -/
theorem C63_labelsInTensor (st : Store) (t : Tensor R) (labs : List String) :
    t.labelsInTensor st labs = true ↔ ∀ x ∈ labs, ∃ l ∈ t.legs, st.name l = x := by
  unfold Tensor.labelsInTensor
  induction labs with
  | nil => simp [Tensor.labelsLoop]
  | cons x labs ih =>
    unfold Tensor.labelsLoop
    rw [List.forall_mem_cons, ← ih]
    have : x ∈ t.labels st ↔ ∃ l ∈ t.legs, st.name l = x := List.mem_map
    by_cases hx : x ∈ t.labels st
    · rw [if_pos hx]
      exact ⟨fun h => ⟨this.mp hx, h⟩, fun h => h.2⟩
    · rw [if_neg hx]
      exact ⟨fun h => absurd h (by simp), fun h => absurd (this.mpr h.1) hx⟩

/-- C63: `bondDimension` is the dimension of the first leg, with a warning if and only if not all legs have that dimension; a dense tensor without
legs raises IndexError. -/
theorem C63_bondDimension {st : Store} {t : Tensor R} (g : GoodTensor st t) :
    (∀ l ls, t.legs = l :: ls → ∃ w, t.bondDimension st = .ok (st.dim l, w) ∧ (w = false ↔ ∀ m ∈ t.legs, st.dim m = st.dim l)) ∧
    (t.legs = [] → t.bondDimension st = if t.diag then .ok (1, false) else .error .indexError) := by
  have ok := shapeOK_of_good g
  obtain ⟨arr, a1, a2, a3, a4⟩ := g.data
  unfold Tensor.bondDimension
  cases hd : t.diag with
  | true =>
    refine ⟨fun l ls e => ⟨false, ?_, ?_⟩, fun e => ?_⟩
    · rcases a4 hd with ⟨h, -⟩ | ⟨-, -, h⟩
      · rw [h] at e; cases e
      · rw [if_pos rfl, h l (by simp [e])]
    · rcases a4 hd with ⟨h, -⟩ | ⟨-, -, h⟩
      · rw [h] at e; cases e
      · exact ⟨fun _ m hm => (h m hm).trans (h l (by simp [e])).symm, fun _ => rfl⟩
    · rcases a4 hd with ⟨-, -, h⟩ | ⟨h, -⟩
      · rw [if_pos rfl, if_pos rfl, h]
      · exact absurd e h
  | false =>
    refine ⟨fun l ls e => ⟨!checkAllEqual (t.shape st), ?_, ?_⟩, fun e => ?_⟩
    · rw [if_neg (by simp)]
      have : pyIndexLast (t.shape st) (some 0) = .ok (st.dim l) := by rw [ok, e]; rfl
      rw [this]
      rfl
    · rw [Bool.not_eq_false', C37_checkAllEqual, ok]
      simp only [List.forall_mem_map]
      exact ⟨fun h m hm => h m hm l (by simp [e]), fun h m hm n hn => (h m hm).trans (h n hn).symm⟩
    · rw [if_neg (by simp)]
      have : pyIndexLast (t.shape st) (some 0) = .error .indexError := by rw [ok, e]; rfl
      rw [this]
      rfl

/-- C63: `totalSize` is the product of the dimensions; for a dense tensor the number of entries it stores. -/
theorem C63_totalSize {st : Store} {t : Tensor R} (g : GoodTensor st t) : t.totalSize st = (t.legs.map st.dim).prod ∧
    (t.diag = false → ∃ arr, t.a = some arr ∧ arr.data.length = t.totalSize st) := by
  have e : t.totalSize st = (t.legs.map st.dim).prod := by
    unfold Tensor.totalSize
    rw [shapeOK_of_good g]
    unfold tupleProduct
    rw [List.prod_eq_foldl]
  refine ⟨e, fun hd => ?_⟩
  obtain ⟨arr, a1, a2, a3, a4⟩ := g.data
  exact ⟨arr, a1, by rw [e, ← a3 hd]; exact a2⟩

/-! ### Dictionaries -/

/-- A call that changes a dictionary of tensors. -/
inductive DictOp (R : Type) where
  | set (name : String) (t : Tensor R)
  | delete (name : String)

/-- The dictionary after calls, whose exceptions are caught. -/
def DictOp.run (d : List (String × Tensor R)) : List (DictOp R) → List (String × Tensor R)
  | [] => d
  | .set name t :: ops => DictOp.run (TensorDict.setTensor d name t) ops
  | .delete name :: ops => DictOp.run (TensorDict.deleteTensor d name).1 ops

/-- What is stored under a name after calls, given what was stored before. -/
def DictOp.content (f : Option (Tensor R)) (x : String) : List (DictOp R) → Option (Tensor R)
  | [] => f
  | .set name t :: ops => DictOp.content (if name = x then some t else f) x ops
  | .delete name :: ops => DictOp.content (if name = x then none else f) x ops

theorem dictDel_get {κ ν : Type} [DecidableEq κ] : ∀ {d : List (κ × ν)}, (d.map Prod.fst).Nodup → ∀ k x,
    dictGet (dictDel d k) x = if k = x then none else dictGet d x
  | [], _, k, x => by simp [dictDel, dictGet]
  | (k', v) :: d, nd, k, x => by
    rw [List.map_cons, List.nodup_cons] at nd
    have hn : dictGet d k' = none := by
      cases e : dictGet d k' with
      | none => rfl
      | some w =>
        refine absurd ?_ nd.1
        clear nd
        induction d with
        | nil => cases e
        | cons p d ih =>
          obtain ⟨a, b⟩ := p
          unfold dictGet at e
          split at e
          · next h => simp [h]
          · simpa using Or.inr (by simpa using ih e)
    unfold dictDel
    split
    · next h =>
      subst h
      by_cases hx : k' = x
      · subst hx; simp [hn]
      · simp [dictGet, hx]
    · next h =>
      unfold dictGet
      rw [dictDel_get nd.2]
      by_cases hx : k = x
      · subst hx; simp [h]
      · simp [hx]

theorem dictDel_sub {κ ν : Type} [DecidableEq κ] (d : List (κ × ν)) (k : κ) : (dictDel d k).Sublist d := by
  induction d with
  | nil => exact .slnil
  | cons p d ih =>
    obtain ⟨a, b⟩ := p
    unfold dictDel
    split
    · exact List.sublist_cons_self _ _
    · exact ih.cons_cons _

theorem mem_keys_iff {κ ν : Type} [DecidableEq κ] (d : List (κ × ν)) (k : κ) : k ∈ d.map Prod.fst ↔ (dictGet d k).isSome := by
  induction d with
  | nil => simp [dictGet]
  | cons p d ih =>
    obtain ⟨a, b⟩ := p
    unfold dictGet
    by_cases h : a = k
    · simp [h]
    · rw [if_neg h, ← ih]
      simp [Ne.symm h]

theorem dictSet_keys {κ ν : Type} [DecidableEq κ] : ∀ {d : List (κ × ν)}, (d.map Prod.fst).Nodup → ∀ k v, ((dictSet d k v).map Prod.fst).Nodup
  | [], _, k, v => by simp [dictSet]
  | (a, b) :: d, nd, k, v => by
    unfold dictSet
    split
    · next h => subst h; exact nd
    · next h =>
      rw [List.map_cons, List.nodup_cons] at nd ⊢
      refine ⟨fun hm => ?_, dictSet_keys nd.2 k v⟩
      rw [mem_keys_iff, dictGet_dictSet] at hm
      split at hm
      · next e => exact h e.symm
      · exact nd.1 ((mem_keys_iff d a).mpr hm)

/-- C63: a dictionary of tensors answers with what was stored last under the name and not deleted since, KeyError if there is nothing;
`tensorCount` is the number of names with a tensor; deleting raises AssertionError, and changes nothing, exactly if there is nothing to delete. -/
theorem C63_tensorDict {d : List (String × Tensor R)} (nd : (d.map Prod.fst).Nodup) (ops : List (DictOp R)) :
    (∀ x, TensorDict.getTensor (DictOp.run d ops) x =
      match DictOp.content (dictGet d x) x ops with
      | some t => .ok t
      | none => .error .keyError) ∧
    (∃ names : List String, names.Nodup ∧ names.length = TensorDict.tensorCount (DictOp.run d ops) ∧
      ∀ x, x ∈ names ↔ (DictOp.content (dictGet d x) x ops).isSome) ∧
    ∀ x, TensorDict.deleteTensor (DictOp.run d ops) x = if (DictOp.content (dictGet d x) x ops).isSome
      then ((TensorDict.deleteTensor (DictOp.run d ops) x).1, .ok ()) else (DictOp.run d ops, .error .assertionError) := by
  have key : ∀ (ops : List (DictOp R)) (d : List (String × Tensor R)), (d.map Prod.fst).Nodup →
      ((DictOp.run d ops).map Prod.fst).Nodup ∧ ∀ x, dictGet (DictOp.run d ops) x = DictOp.content (dictGet d x) x ops := by
    intro ops
    induction ops with
    | nil => intro d nd; exact ⟨nd, fun x => rfl⟩
    | cons op ops ih =>
      intro d nd
      cases op with
      | set name t =>
        obtain ⟨h1, h2⟩ := ih (TensorDict.setTensor d name t) (dictSet_keys nd _ _)
        refine ⟨h1, fun x => (h2 x).trans ?_⟩
        unfold TensorDict.setTensor
        rw [dictGet_dictSet]
        rfl
      | delete name =>
        have nd' : ((TensorDict.deleteTensor d name).1.map Prod.fst).Nodup := by
          unfold TensorDict.deleteTensor
          split
          · exact ((dictDel_sub d name).map _).nodup nd
          · exact nd
        obtain ⟨h1, h2⟩ := ih (TensorDict.deleteTensor d name).1 nd'
        refine ⟨h1, fun x => (h2 x).trans ?_⟩
        show DictOp.content (dictGet (TensorDict.deleteTensor d name).1 x) x ops = DictOp.content (if name = x then none else dictGet d x) x ops
        congr 1
        unfold TensorDict.deleteTensor
        split
        · exact dictDel_get nd name x
        · next h =>
          split
          · next hx =>
            subst hx
            exact Option.not_isSome_iff_eq_none.mp h
          · rfl
  obtain ⟨h1, h2⟩ := key ops d nd
  refine ⟨fun x => ?_, ⟨(DictOp.run d ops).map Prod.fst, h1, by simp [TensorDict.tensorCount], fun x => ?_⟩, fun x => ?_⟩
  · unfold TensorDict.getTensor
    rw [h2]
    cases DictOp.content (dictGet d x) x ops <;> rfl
  · rw [mem_keys_iff, h2]
  · rw [← h2]
    unfold TensorDict.deleteTensor
    split <;> rfl

example : ShapeOK triStore triA ∧ GoodTensor triStore triA ∧ triA.shapeOfLabels triStore ["zzz"] = .ok [triStore.dim 2] ∧
    triA.bondDimension triStore = .ok (triStore.dim 0, true) ∧ "zzz" ∉ triA.labels triStore :=
  ⟨shapeOK_of_good (triNet_good.good _ (by decide)), triNet_good.good _ (by decide), by decide, by decide, by decide⟩

/-- Set, set again, delete and set another. -/
example : TensorDict.tensorCount (DictOp.run [] [.set "a" triA, .set "a" triB, .set "b" triA, .delete "a", .delete "a", .set "c" triC]) = 2 ∧
    (([] : List (String × Tensor Int)).map Prod.fst).Nodup := by decide

end CTL
