import Verif.Model.Decompose
import Verif.Lemmas.Like
import Verif.Props.Sequence
import Verif.Props.Ops
import Verif.Props.Legs

/-!
# C36 – TensorLike objects against real tensors

`ShapeOf t s` says that the TensorLike `s` has the legs of the real tensor `t`, in some order; `t.bare` has them in
the same order.
-/

namespace CTL
variable {R : Type}

/-! ## Costs -/

/-- The cost and the level of a contraction are the same for the shape-only objects, and so is the exception. -/
theorem C36_cost {st : Store} (inv : BondInv st) {ta tb sa sb : Tensor R} (ga : GoodTensor st ta)
    (gb : GoodTensor st tb) (disj : ∀ x ∈ ta.legs, x ∉ tb.legs) (ha : ShapeOf ta sa) (hb : ShapeOf tb sb) :
    contractCost st sa sb = contractCost st ta tb :=
  like_cost inv ga gb disj ha hb

example : BondInv exStore ∧ GoodTensor exStore exD ∧ GoodTensor exStore exA ∧ (∀ x ∈ exD.legs, x ∉ exA.legs) ∧
    ShapeOf exD exD.bare ∧ ShapeOf exA (⟨0, [1, 0], none, false, true, 0⟩ : Tensor Int) :=
  ⟨exStore_inv, exD_good, exA_good, by decide, shapeOf_bare _, rfl, rfl, rfl, by decide, rfl, rfl⟩

/-- The shape of a TensorLike is the list of the dimensions of its legs, as for a real tensor. -/
theorem C36_shape {st : Store} {t s : Tensor R} (g : GoodTensor st t) (h : ShapeOf t s) :
    s.shape st = s.legs.map st.dim ∧ (s.shape st).Perm (t.shape st) := by
  have e := shape_of_bare g h
  refine ⟨e, ?_⟩
  rw [e, shape_good g]
  exact h.legs.map _

example : GoodTensor exStore exD ∧ exD.bare.shape exStore = [3, 3, 3] := ⟨exD_good, by decide⟩

/-! ## Contracting -/

/-- Whenever the contraction of two real tensors succeeds, the contraction of their shape-only versions succeeds: it
leaves the same legs, bonds and owners behind, and the result has the legs (hence the dimensions) and the class of
the real result.  The order of the legs is the same too, unless one operand is diagonal and the other is not. -/
theorem C36_contract [NonUnitalNonAssocSemiring R] (cast : R → R) {st : Store} (inv : BondInv st)
    {ta tb sa sb : Tensor R} (ga : GoodTensor st ta) (gb : GoodTensor st tb) (disj : ∀ x ∈ ta.legs, x ∉ tb.legs)
    (ha : ShapeOf ta sa) (hb : ShapeOf tb sb) {o : ContractOut R}
    (h : contractTwoTensors cast st ta tb none = .ok o) :
    ∃ o', contractTwoTensors cast st sa sb none = .ok o' ∧ o'.store = o.store ∧ ShapeOf o.result o'.result ∧
      o'.ta = sa ∧ o'.tb = sb ∧
      (ta.diag = tb.diag → sa.legs = ta.legs → sb.legs = tb.legs → o'.result.legs = o.result.legs) :=
  like_contract cast inv ga gb disj ha hb h

example : BondInv exStore ∧ GoodTensor exStore exD ∧ GoodTensor exStore exA ∧ (∀ x ∈ exD.legs, x ∉ exA.legs) ∧
    (contractTwoTensors id exStore exD exA none).toOption.isSome :=
  ⟨exStore_inv, exD_good, exA_good, by decide, by decide +kernel⟩

/-- For two dense tensors: the shape-only result is the real result without its data. -/
theorem C36_contract_dense [NonUnitalNonAssocSemiring R] (cast : R → R) {st : Store} (inv : BondInv st)
    {ta tb : Tensor R} (ga : GoodTensor st ta) (gb : GoodTensor st tb) (da : ta.diag = false) (db : tb.diag = false)
    (disj : ∀ x ∈ ta.legs, x ∉ tb.legs) :
    ∃ o o', contractTwoTensors cast st ta tb none = .ok o ∧
      contractTwoTensors cast st ta.bare tb.bare none = .ok o' ∧ o'.store = o.store ∧
      o'.result = o.result.bare ∧ o'.result.shape o'.store = o.result.shape o.store := by
  obtain ⟨o, h, _, _, hc⟩ := contract_dense cast inv ga gb da db disj
  obtain ⟨o', h', hs, hr, _, _, he⟩ := C36_contract cast inv ga gb disj (shapeOf_bare ta) (shapeOf_bare tb) h
  have hl := he (da.trans db.symm) rfl rfl
  have hb : o'.result = o.result.bare := by
    cases hx : o'.result with
    | mk i l a d k n =>
      rw [hx] at hr hl
      unfold Tensor.bare
      rw [← show i = _ from hr.ident, ← show d = _ from hr.diag, ← show n = _ from hr.length, ← show l = _ from hl,
        show k = _ from hr.flag, show a = _ from hr.noData]
  refine ⟨o, o', h, h', hs, hb, ?_⟩
  rw [(C36_shape (by rw [hs]; exact hc.good) hr).1, shape_good hc.good, hs, hl]

example : BondInv exStore ∧ GoodTensor exStore exA ∧ GoodTensor exStore exB ∧ (∀ x ∈ exA.legs, x ∉ exB.legs) :=
  ⟨exStore_inv, exA_good, exB_good, by decide⟩

/-- The claim about legs is false if the order counts: a diagonal tensor and a matrix. -/
theorem C36_leg_order_wrong :
    ∃ o o', contractTwoTensors id exStore exD exA none = .ok o ∧
      contractTwoTensors id exStore exD.bare exA.bare none = .ok o' ∧
      o.result.legs = [0, 4, 5] ∧ o'.result.legs = [4, 5, 0] ∧
      o.result.shape o.store = [2, 3, 3] ∧ o'.result.shape o'.store = [3, 3, 2] :=
  ⟨_, _, rfl, rfl, by decide, by decide, by decide, by decide⟩

/-- And there are contractions that raise for real tensors but not for their shape-only versions: a scalar diagonal
tensor and a matrix. -/
theorem C36_scalar_diagonal_wrong :
    GoodTensor exStore exS ∧ GoodTensor exStore exA ∧
    contractTwoTensors id exStore exS exA none = .error .valueError ∧
    ∃ o', contractTwoTensors id exStore exS.bare exA.bare none = .ok o' ∧ o'.result.legs = [0, 1] :=
  ⟨exS_good, exA_good, rfl, _, rfl, by decide⟩

/-- A real tensor and a TensorLike cannot be contracted: TypeError. -/
theorem C36_mixed_raises [NonUnitalNonAssocSemiring R] (cast : R → R) {st : Store} (inv : BondInv st)
    {ta tb : Tensor R} (na : ta.legs.Nodup) (nb : tb.legs.Nodup) (disj : ∀ x ∈ ta.legs, x ∉ tb.legs)
    (h : ta.like ≠ tb.like) : contractTwoTensors cast st ta tb none = .error .typeError := by
  have key : ∀ {x y : Tensor R}, x.legs.Nodup → (∀ z ∈ x.legs, z ∉ y.legs) → x.like ≠ y.like →
      contractOrdered cast st x y none = .error .typeError := by
    intro x y nx hd hne
    obtain ⟨st1, bs, h1, _⟩ := shareBondsLoop_spec y.legs x.legs st inv nx hd
    unfold contractOrdered
    simp only [shareBonds, h1, bind, Except.bind, if_pos hne]
    rfl
  unfold contractTwoTensors
  split
  · rw [key nb (fun x hx hx' => disj x hx' hx) h.symm]
    rfl
  · exact key na disj h

example : exA.legs.Nodup ∧ exB.bare.legs.Nodup ∧ (∀ x ∈ exA.legs, x ∉ exB.bare.legs) ∧ exA.like ≠ exB.bare.like := by
  decide

/-! ## Whole sequences -/

/-- A real tensor and a TensorLike can be neither merged nor decomposed together. -/
theorem C36_decompose_mixed_raises [NonUnitalNonAssocSemiring R] (la : LinAlg R) (cast castF : R → R) {st : Store}
    (inv : BondInv st) {ta tb : Tensor R} (na : ta.legs.Nodup) (disj : ∀ x ∈ ta.legs, x ∉ tb.legs)
    (h : ta.like ≠ tb.like) (chi : Int) (chi' : Option Int) (name : BondName) (sq : Bool) (swapA swapB : List String) :
    merge la castF st ta tb chi' name = .error .assertionError ∧
      schmidt la cast castF st ta tb chi sq swapA swapB = .error .assertionError := by
  constructor
  · unfold merge
    simp only [if_pos h]
    rfl
  · obtain ⟨st1, bs, h1, _⟩ := shareBondsLoop_spec tb.legs ta.legs st inv na disj
    unfold schmidt schmidtPrep
    simp only [shareBonds, h1, bind, Except.bind]
    cases bs with
    | nil => rfl
    | cons b bs => simp [pyAssert, h]

example : BondInv exStore ∧ exD.legs.Nodup ∧ (∀ x ∈ exD.legs, x ∉ exA.bare.legs) ∧ exD.like ≠ exA.bare.like :=
  ⟨exStore_inv, by decide, by decide, by decide⟩

/-- Executing a valid sequence on shape-only versions of the tensors of a network: it succeeds, leaves the same legs
and bonds, costs the same, and the result has the legs of the real result. -/
theorem C36_sequence [CommSemiring R] (cast : R → R) {st : Store} {ts ss : List (Tensor R)}
    (g : GoodNet st ts) (hpos : ∀ l m, st.partner l = some m → Cross ts l m → st.dim l ≠ 0)
    {seq : List (Nat × Nat)} (hv : ValidSeq ts.length seq)
    (hd : (∀ t ∈ ts, t.diag = false) ∨ SafeSeq cast st ts seq) (hs : List.Forall₂ ShapeOf ts ss) :
    ∃ st' t s c, contractInPlace cast st ts seq = .ok (st', t, c) ∧
      contractInPlace cast st ss seq = .ok (st', s, c) ∧ ShapeOf t s ∧
      ((∀ t ∈ ts, t.diag = false) → ts.map (fun t => t.legs) = ss.map (fun t => t.legs) → s.legs = t.legs) := by
  have h0 : 0 ∈ List.range ts.length := by
    cases hts : ts with
    | nil => rw [hts] at hv; cases seq <;> simp [ValidSeq, validFrom] at hv
    | cons x xs => simp
  have hget : ∀ (i : Nat) (t s : Tensor R), ts[i]? = some t → ss[i]? = some s → ShapeOf t s := by
    intro i t s h1 h2
    obtain ⟨hi, rfl⟩ := List.getElem?_eq_some_iff.mp h1
    obtain ⟨hj, rfl⟩ := List.getElem?_eq_some_iff.mp h2
    exact hs.get hi hj
  have := like_seqLoop cast seq st ts ss 0 (List.range ts.length) List.nodup_range
    (fun i hi => by simpa using hi) hs.length_eq.symm h0
  rw [pick_range] at this
  obtain ⟨st', ts', ss', total', t, s, h1, h2, h3, h4, h5, h6⟩ := this g hpos hv hd (fun i _ => hget i)
  refine ⟨st', t, s, total', ?_, ?_, h5, ?_⟩
  · unfold contractInPlace
    rw [h1]
    cases ts' with
    | nil => simp at h3
    | cons x xs =>
      simp only [List.getElem?_cons_zero, Option.some.injEq] at h3
      subst h3
      rfl
  · unfold contractInPlace
    rw [h2]
    cases ss' with
    | nil => simp at h4
    | cons x xs =>
      simp only [List.getElem?_cons_zero, Option.some.injEq] at h4
      subst h4
      rfl
  · intro hd' hm
    refine h6 hd' ?_
    intro i _ t s e1 e2
    have := congrArg (fun l => l[i]?) hm
    simp only [List.getElem?_map, e1, e2, Option.map_some, Option.some.injEq] at this
    exact this.symm

example : GoodNet triStore triNet ∧ ValidSeq triNet.length [(2, 1), (1, 0)] ∧ (∀ t ∈ triNet, t.diag = false) ∧
    List.Forall₂ ShapeOf triNet (triNet.map Tensor.bare) :=
  ⟨triNet_good, by decide, by decide,
    .cons (shapeOf_bare _) (.cons (shapeOf_bare _) (.cons (shapeOf_bare _) .nil))⟩

/-! ## Reordering -/

/-- `moveLegsToFront` on a TensorLike, also when it fails: the legs end up as for the real tensor. -/
theorem like_move [Zero R] {st : Store} {t : Tensor R} (g : GoodTensor st t) (legs : List LegId)
    (h : legs.Nodup) :
    (t.bare.moveLegsToFront legs).1 = (t.moveLegsToFront legs).1.bare ∧
      (t.bare.moveLegsToFront legs).2 = (t.moveLegsToFront legs).2 := by
  by_cases hsub : legs ⊆ t.legs
  · obtain ⟨t', h1, h2, h3, h4, h5, _⟩ := moveLegsToFront_ok g legs h hsub
    rw [h1]
    unfold Tensor.moveLegsToFront
    rw [show t.bare.legs = t.legs from rfl, removeLoop_eq t.legs legs g.nodup h hsub]
    simp only [Tensor.bare, Bool.or_true, if_true, h2, h3, h4, h5, and_self]
  · have key : ∃ ls e, Tensor.removeLoop t.legs legs = (ls, some e) := by
      clear h
      generalize t.legs = ls at hsub
      induction legs generalizing ls with
      | nil => exact absurd (List.nil_subset _) hsub
      | cons x xs ih =>
        unfold Tensor.removeLoop pyRemove
        by_cases hx : x ∈ ls
        · simp only [hx, if_true]
          apply ih
          intro hxs
          apply hsub
          intro y hy
          rw [List.mem_cons] at hy
          rcases hy with rfl | hy
          · exact hx
          · exact List.mem_of_mem_erase (hxs hy)
        · simp only [hx, if_false]
          exact ⟨_, _, rfl⟩
    obtain ⟨ls, e, he⟩ := key
    unfold Tensor.moveLegsToFront
    rw [show t.bare.legs = t.legs from rfl, he]
    simp [Tensor.bare]

/-- `moveLegsToFront`, `moveLabelsToFront` and `reArrange` change the legs of a TensorLike as they change those of the
real tensor, and raise in the same cases. -/
theorem C36_reorder [Zero R] {st : Store} {t : Tensor R} (g : GoodTensor st t) (legs : List LegId) (h : legs.Nodup)
    (labs : List String) :
    ((t.bare.moveLegsToFront legs).1.legs = (t.moveLegsToFront legs).1.legs ∧
      (t.bare.moveLegsToFront legs).2 = (t.moveLegsToFront legs).2) ∧
    ((t.bare.moveLabelsToFront st labs).1.legs = (t.moveLabelsToFront st labs).1.legs ∧
      (t.bare.moveLabelsToFront st labs).2 = (t.moveLabelsToFront st labs).2) ∧
    ((t.bare.reArrange st labs).1.legs = (t.reArrange st labs).1.legs ∧
      (t.bare.reArrange st labs).2 = (t.reArrange st labs).2) := by
  have k1 := like_move g legs h
  have k2 : (t.bare.moveLabelsToFront st labs).1.legs = (t.moveLabelsToFront st labs).1.legs ∧
      (t.bare.moveLabelsToFront st labs).2 = (t.moveLabelsToFront st labs).2 := by
    unfold Tensor.moveLabelsToFront
    rw [show t.bare.getLegsByLabel st labs = t.getLegsByLabel st labs from rfl]
    by_cases hc : ∀ x, labs.count x ≤ (t.labels st).count x
    · obtain ⟨front, h1, h2, _⟩ := getLegsByLabel_ok st t g.nodup labs hc
      rw [h1]
      have k3 := like_move g front h2
      exact ⟨by rw [show (t.bare.moveLegsToFront front).1 = _ from k3.1]; rfl, k3.2⟩
    · rw [not_forall] at hc
      obtain ⟨x, hx⟩ := hc
      rw [getLegsByLabel_error st t labs ⟨x, by omega⟩]
      exact ⟨rfl, rfl⟩
  refine ⟨⟨by rw [k1.1]; rfl, k1.2⟩, k2, ?_⟩
  unfold Tensor.reArrange
  rw [show t.bare.labels st = t.labels st from rfl]
  split
  · exact k2
  · exact ⟨rfl, rfl⟩

example : GoodTensor exStore exD ∧ ([5, 2] : List LegId).Nodup ∧
    (exD.bare.moveLegsToFront [5, 2]).1.legs = [5, 2, 4] ∧ (exA.bare.moveLegsToFront [1, 7]).1.legs = [0] :=
  ⟨exD_good, by decide, by decide, by decide⟩

/-! ## Fusing -/

theorem like_outProduct [Zero R] {st : Store} {t : Tensor R} (nd : t.legs.Nodup) (dg : t.diag = false)
    (front : List LegId) (newLabel : String) (hne : front ≠ []) (ndf : front.Nodup) (hsub : front ⊆ t.legs) :
    t.bare.outProduct st front newLabel
      = ((st.newLeg (some t.id) (front.map st.dim).prod newLabel).1,
        { t.bare with legs := st.nextLeg :: t.legs.filter (fun l => decide (l ∉ front)) }, .ok st.nextLeg) := by
  unfold Tensor.outProduct Tensor.moveLegsToFront
  rw [show t.bare.legs = t.legs from rfl, removeLoop_eq t.legs front nd ndf hsub]
  simp [Tensor.bare, dg, hne, Store.newLeg]

theorem outProduct_store [Zero R] {st st' : Store} {t t' : Tensor R} {front : List LegId} {newLabel : String} {l : LegId}
    (h : t.outProduct st front newLabel = (st', t', .ok l)) :
    ∃ i d, st' = (st.newLeg (some i) d newLabel).1 ∧ l = st.nextLeg := by
  unfold Tensor.outProduct at h
  split at h
  · simp at h
  split at h
  · simp at h
  split at h
  · simp at h
  · simp only at h
    split at h
    · simp only [Prod.mk.injEq, Except.ok.injEq] at h
      exact ⟨_, _, h.1.symm, h.2.2.symm⟩
    · split at h
      · simp at h
      · split at h
        · simp at h
        · simp only [Prod.mk.injEq, Except.ok.injEq] at h
          exact ⟨_, _, h.1.symm, h.2.2.symm⟩

/-- `outProduct` on a TensorLike: the same new leg with the same dimension, the same remaining legs, the same store as
for the real tensor. -/
theorem C36_outProduct [Zero R] {st : Store} {t : Tensor R} (g : GoodTensor st t) (dg : t.diag = false)
    (front : List LegId) (newLabel : String) (hne : front ≠ []) (ndf : front.Nodup) (hsub : front ⊆ t.legs)
    (hfresh : ∀ l ∈ t.legs, l < st.nextLeg) (hpos : ∀ l ∈ t.legs, l ∉ front → st.dim l ≠ 0) :
    ∃ st' t' s', t.outProduct st front newLabel = (st', t', .ok st.nextLeg) ∧
      t.bare.outProduct st front newLabel = (st', s', .ok st.nextLeg) ∧ ShapeOf t' s' ∧ s'.legs = t'.legs ∧
      s'.shape st' = t'.shape st' := by
  obtain ⟨st', t', h1, h2, h3, _, _, h6, _, _, _, _, h11, h12, h13, _⟩ :=
    C17_outProduct g dg front newLabel hne ndf hsub hfresh hpos
  have hst : st' = (st.newLeg (some t.id) (front.map st.dim).prod newLabel).1 := by
    obtain ⟨i, d, e, _⟩ := outProduct_store h1
    subst e
    have e1 : d = (front.map st.dim).prod := by
      have := h3
      simp only [Store.dim, Store.newLeg, Store.setLeg, if_true] at this
      exact this
    have e2 : i = t.id := by
      simp only [Store.newLeg, Store.setLeg, if_true, Option.some.injEq] at h6
      exact h6
    rw [e1, e2]
  have hlen : t'.length = t.length := by
    obtain ⟨t1, _, k1, k2, _⟩ := moveLegsToFront_dense g dg front ndf hsub
    unfold Tensor.outProduct at h1
    simp only [dg, Bool.false_eq_true, if_false, hne, k1] at h1
    have k3 : t1.like = false := by rw [k2]; exact g.notLike
    have k4 : t1.length = t.length := by rw [k2]
    simp only [k3, Bool.false_eq_true, if_false] at h1
    split at h1
    · simp at h1
    · split at h1
      · simp at h1
      · simp only [Prod.mk.injEq] at h1
        rw [← h1.2.1]
        exact k4
  have hsh : ShapeOf t' { t.bare with legs := st.nextLeg :: t.legs.filter (fun l => decide (l ∉ front)) } :=
    ⟨rfl, rfl, h11.symm, by rw [h2], by rw [h13]; exact dg, hlen.symm⟩
  refine ⟨st', t', _, h1, ?_, hsh, h2.symm, ?_⟩
  · rw [like_outProduct g.nodup dg front newLabel hne ndf hsub, hst]
  · rw [(C36_shape h12 hsh).1, shape_good h12, h2]

example : GoodTensor exStore exA ∧ exA.diag = false ∧ ([1] : List LegId) ⊆ exA.legs ∧
    (∀ l ∈ exA.legs, l < exStore.nextLeg) ∧ (∀ l ∈ exA.legs, l ∉ [1] → exStore.dim l ≠ 0) :=
  ⟨exA_good, rfl, by decide, by decide, by decide⟩

/-- Next to a leg of dimension 0 the real tensor cannot be fused (ValueError), its TensorLike can. -/
theorem C36_outProduct_empty_wrong [Zero R] {st : Store} {t : Tensor R} (g : GoodTensor st t) (dg : t.diag = false)
    (front : List LegId) (newLabel : String) (hne : front ≠ []) (ndf : front.Nodup) (hsub : front ⊆ t.legs)
    (hzero : ∃ l ∈ t.legs, l ∉ front ∧ st.dim l = 0) :
    (t.outProduct st front newLabel).2.2 = .error .valueError ∧
      (t.bare.outProduct st front newLabel).2.2 = .ok st.nextLeg := by
  obtain ⟨t', h1, _⟩ := C17_empty_rest_raises g dg front newLabel hne ndf hsub hzero
  rw [h1, like_outProduct g.nodup dg front newLabel hne ndf hsub]
  exact ⟨rfl, rfl⟩

/-! ## Summing -/

/-- Summing out the first leg of a dense TensorLike, or any leg of a diagonal one: the legs are those of the real
tensor after the same call. -/
theorem C36_sum_partial [NonUnitalNonAssocSemiring R] {st : Store} {t : Tensor R} (g : GoodTensor st t) (leg : LegId)
    (hleg : leg ∈ t.legs) (h : t.diag = true ∨ t.legs.head? = some leg) :
    ∃ t' s', t.sumOutLegAny leg none = (t', .ok ()) ∧ t.bare.sumOutLegAny leg none = (s', .ok ()) ∧
      ShapeOf t' s' ∧ s'.legs = t'.legs := by
  cases dg : t.diag with
  | true =>
    obtain ⟨arr, ha, _⟩ := g.data
    have hmem : ¬ leg ∉ t.legs := not_not.mpr hleg
    unfold Tensor.sumOutLegAny Tensor.sumOutLegDiag
    simp only [dg, if_true, hmem, if_false, ha, Tensor.bare, ne_eq, not_true_eq_false]
    by_cases hl : t.legs.eraseIdx (t.legs.idxOf leg) = []
    · simp only [hl, if_true]
      exact ⟨_, _, rfl, rfl, ⟨rfl, rfl, rfl, List.Perm.refl _, rfl, rfl⟩, rfl⟩
    · simp only [hl, if_false]
      exact ⟨_, _, rfl, rfl, ⟨rfl, rfl, rfl, List.Perm.refl _, rfl, rfl⟩, rfl⟩
  | false =>
    have hh : t.legs.head? = some leg := by
      rcases h with h | h
      · rw [dg] at h; cases h
      · exact h
    obtain ⟨t', h1, h2, _, _⟩ := C22_sumOutLeg_dense g dg leg hleg
    have hid : t'.id = t.id ∧ t'.diag = t.diag ∧ t'.length = t.length := by
      unfold Tensor.sumOutLegAny at h1
      simp only [dg, Bool.false_eq_true, if_false] at h1
      cases hk : t.sumOutLeg leg none with
      | error e => rw [hk] at h1; simp at h1
      | ok x =>
        rw [hk] at h1
        simp only [Prod.mk.injEq, and_true] at h1
        subst h1
        obtain ⟨arr, ha, _⟩ := g.data
        unfold Tensor.sumOutLeg at hk
        simp only [hleg, not_true_eq_false, if_false, ha] at hk
        split at hk
        · cases hk
        · simp only [Except.ok.injEq] at hk
          subst hk
          exact ⟨rfl, rfl, rfl⟩
    have hidx : t.legs.idxOf leg = 0 := by
      cases hl : t.legs with
      | nil => rw [hl] at hleg; cases hleg
      | cons x xs =>
        rw [hl] at hh
        simp only [List.head?_cons, Option.some.injEq] at hh
        subst hh
        simp
    refine ⟨t', { t.bare with legs := t.legs.eraseIdx (t.legs.idxOf leg) }, h1, ?_,
      ⟨rfl, rfl, hid.1.symm, by rw [h2, eraseIdx_idxOf], hid.2.1.symm, hid.2.2.symm⟩, by rw [h2, eraseIdx_idxOf]⟩
    unfold Tensor.sumOutLegAny Tensor.sumOutLeg
    simp only [Tensor.bare, dg, Bool.false_eq_true, if_false, hleg, not_true_eq_false, ne_eq, hidx, if_true]

example : GoodTensor exStore exD ∧ 4 ∈ exD.legs ∧ exD.diag = true ∧ GoodTensor exStore exA ∧ exA.legs.head? = some 0 :=
  ⟨exD_good, by decide, rfl, exA_good, rfl⟩

/-- The claim about summing is false for a dense TensorLike: any leg but the first one raises (NumPy has no axis with
that number), while the real tensor is summed. -/
theorem C36_sum_wrong [NonUnitalNonAssocSemiring R] {st : Store} {t : Tensor R} (g : GoodTensor st t)
    (dg : t.diag = false) (leg : LegId) (hleg : leg ∈ t.legs) (h : t.legs.head? ≠ some leg) :
    (t.sumOutLegAny leg none).2 = .ok () ∧ (t.sumOutLegAny leg none).1.legs = t.legs.erase leg ∧
      t.bare.sumOutLegAny leg none = (t.bare, .error .valueError) := by
  obtain ⟨t', h1, h2, _, _⟩ := C22_sumOutLeg_dense g dg leg hleg
  have hidx : t.legs.idxOf leg ≠ 0 := by
    cases hl : t.legs with
    | nil => rw [hl] at hleg; cases hleg
    | cons x xs =>
      rw [hl] at h
      have : x ≠ leg := by simpa using h
      simp [List.idxOf_cons, this]
  refine ⟨by rw [h1], by rw [h1, h2], ?_⟩
  unfold Tensor.sumOutLegAny Tensor.sumOutLeg
  simp only [Tensor.bare, dg, Bool.false_eq_true, if_false, hleg, not_true_eq_false, ne_eq, hidx]

example : GoodTensor exStore exA ∧ exA.diag = false ∧ 1 ∈ exA.legs ∧ exA.legs.head? ≠ some 1 :=
  ⟨exA_good, rfl, by decide, by decide⟩

/-- With weights it raises for every leg, whatever the class. -/
theorem C36_sum_weights_wrong [NonUnitalNonAssocSemiring R] (t : Tensor R) (leg : LegId) (hleg : leg ∈ t.legs)
    (w : NDArray R) :
    (t.bare.sumOutLegAny leg (some w)).2 = .error (if t.diag then .typeError else .attributeError) := by
  unfold Tensor.sumOutLegAny Tensor.sumOutLegDiag Tensor.sumOutLeg
  cases hd : t.diag <;> simp [Tensor.bare, hd, hleg]

example : 1 ∈ exA.legs ∧ 4 ∈ exD.legs := by decide

end CTL
