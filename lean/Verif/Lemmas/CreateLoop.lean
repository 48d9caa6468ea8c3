import Verif.Lemmas.CreateMPS

/-! The loop of `createMPSFromTensor`. -/

namespace CTL
open Finset
variable {R : Type}

/-- Every bond between the legs may keep all its non-zero singular values. -/
def Wide (chi : Option Nat) (dim : LegId → Nat) : Nat → List LegId → Prop
  | _, [] => True
  | _, [_] => True
  | d, l :: l' :: ls => Enough chi (min (d * dim l) ((l' :: ls).map dim).prod) ∧ Wide chi dim (d * dim l) (l' :: ls)

theorem Wide.mono {chi : Option Nat} {dim : LegId → Nat} : ∀ {legs : List LegId} {d e : Nat}, e ≤ d → Wide chi dim d legs →
    Wide chi dim e legs
  | [], _, _, _, _ => trivial
  | [_], _, _, _, _ => trivial
  | l :: l' :: ls, d, e, h, ⟨h1, h2⟩ =>
    ⟨fun c hc => (min_le_min_right _ (Nat.mul_le_mul_right _ h)).trans (h1 c hc), Wide.mono (Nat.mul_le_mul_right _ h) h2⟩

theorem Wide.congr {chi : Option Nat} {dim dim' : LegId → Nat} : ∀ {legs : List LegId} {d : Nat},
    (∀ l ∈ legs, dim' l = dim l) → Wide chi dim d legs → Wide chi dim' d legs
  | [], _, _, _ => trivial
  | [_], _, _, _ => trivial
  | l :: l' :: ls, d, h, ⟨h1, h2⟩ => by
    have e : (l' :: ls).map dim' = (l' :: ls).map dim := List.map_congr_left fun z hz => h z (by simp [hz])
    have e0 : dim' l = dim l := h l (by simp)
    exact ⟨by rw [e, e0]; exact h1, by rw [e0]; exact Wide.congr (fun z hz => h z (by simp [hz])) h2⟩

structure LoopIn (st : Store) (a : NDArray R) (d : Nat) (r : LegId) (legs : List LegId) : Prop where
  wf : WFStore st
  nodup : (r :: legs).Nodup
  old : ∀ l ∈ r :: legs, l < st.nextLeg
  rFree : (st.leg r).bond = none
  rDim : st.dim r = d
  apart : ∀ p ∈ legs, ∀ q ∈ legs, st.partner p ≠ some q
  aWF : a.WF
  aShape : a.shape = [d, (legs.map st.dim).prod]
  pos : ∀ l ∈ legs, st.dim l ≠ 0

structure LoopOut [CommRing R] [StarRing R] (la : LinAlg R) (chi : Option Nat) (st st' : Store) (a : NDArray R) (d : Nat)
    (r : LegId) (legs : List LegId) (ts : List (Tensor R)) (xs ys : List LegId) : Prop where
  wf : WFStore st'
  posD : 2 ≤ legs.length → 0 < d
  le : st.nextLeg ≤ st'.nextLeg
  leT : st.nextTensor ≤ st'.nextTensor
  lenT : ts.length = legs.length
  lenX : xs.length = legs.length
  lenY : ys.length + 1 = legs.length
  good : ∀ t ∈ ts, GoodTensor st' t ∧ t.diag = false
  site : ∀ (j : Nat) (t : Tensor R), ts[j]? = some t →
    t.legs = xs.getD j 0 :: legs.getD j 0 :: (if j + 1 < legs.length then [ys.getD j 0] else [])
  isNew : ∀ z ∈ xs ++ ys, st.nextLeg ≤ z ∧ z < st'.nextLeg
  nodup : (xs ++ ys).Nodup
  dim : ∀ l < st.nextLeg, st'.dim l = st.dim l
  bond : ∀ l < st.nextLeg, l ≠ r → (st'.leg l).bond = (st.leg l).bond ∧ st'.partner l = st.partner l
  first : st'.partner r = some (xs.getD 0 0)
  firstDim : st'.dim (xs.getD 0 0) = d
  joined : ∀ j, j + 1 < legs.length → st'.partner (ys.getD j 0) = some (xs.getD (j + 1) 0)
  width : ∀ c, chi = some c → ∀ y ∈ ys, st'.dim y ≤ c
  dims : ∀ j, j + 1 < legs.length →
    st'.dim (ys.getD j 0) ≤ min (d * ((legs.take (j + 1)).map st.dim).prod) ((legs.drop (j + 1)).map st.dim).prod
  frame : ∀ l < st.nextLeg, l ∉ legs → l ≠ r → st'.leg l = st.leg l
  rOwner : (st'.leg r).tensor = (st.leg r).tensor
  owner : ∀ t ∈ ts, ∀ l ∈ t.legs, (st'.leg l).tensor = some t.id
  ids : (ts.map fun t => t.id).Nodup
  idNew : ∀ t ∈ ts, st.nextTensor ≤ t.id ∧ t.id < st'.nextTensor
  iso : UnitaryLinAlg la → ∀ j, j + 1 < legs.length → ∀ t, ts[j]? = some t →
    IsometryAt st' t [xs.getD j 0, legs.getD j 0] (ys.getD j 0)
  value : RankRevealing la → Wide chi st.dim d legs → SameValue st' [ghost st' (xs.getD 0 0 :: legs) a] st' ts

/-- Every leg of the tensors is one of the old legs or one of the new ones. -/
theorem LoopOut.mem [CommRing R] [StarRing R] {la : LinAlg R} {chi : Option Nat} {st st' : Store} {a : NDArray R} {d : Nat}
    {r : LegId} {legs : List LegId} {ts : List (Tensor R)} {xs ys : List LegId}
    (o : LoopOut la chi st st' a d r legs ts xs ys) {t : Tensor R} (ht : t ∈ ts) {l : LegId} (hl : l ∈ t.legs) :
    l ∈ legs ∨ l ∈ xs ++ ys := by
  obtain ⟨j, hj, e⟩ := List.getElem_of_mem ht
  have hj' : j < legs.length := o.lenT ▸ hj
  rw [o.site j t (by rw [List.getElem?_eq_getElem hj, e])] at hl
  have gx : xs.getD j 0 ∈ xs := by
    rw [List.getD_eq_getElem?_getD, List.getElem?_eq_getElem (o.lenX ▸ hj')]; exact List.getElem_mem _
  have gl : legs.getD j 0 ∈ legs := by
    rw [List.getD_eq_getElem?_getD, List.getElem?_eq_getElem hj']; exact List.getElem_mem _
  simp only [List.mem_cons] at hl
  rcases hl with rfl | rfl | hl
  · exact Or.inr (List.mem_append_left _ gx)
  · exact Or.inl gl
  · split at hl
    · rename_i h
      rw [List.mem_singleton] at hl
      subst hl
      right
      apply List.mem_append_right
      rw [List.getD_eq_getElem?_getD, List.getElem?_eq_getElem (by have := o.lenY; omega)]; exact List.getElem_mem _
    · simp at hl

theorem createLoop_last [CommRing R] [StarRing R] (la : LinAlg R) (chi : Option Nat) {st : Store} {a : NDArray R} {d : Nat}
    {r l : LegId} (h : LoopIn st a d r [l]) :
    ∃ st' ts xs ys, createLoop la chi st a d r [l] = .ok (st', ts) ∧ LoopOut la chi st st' a d r [l] ts xs ys := by
  have lr : l ≠ r := by have := h.nodup; simp only [List.nodup_cons, List.mem_singleton] at this; exact fun e => this.1 e.symm
  have hl := h.old l (by simp)
  have hr := h.old r (by simp)
  have as : a.shape = [d, st.dim l] := by rw [h.aShape]; simp
  obtain ⟨s1, s3, s4, t, e1, e2, e3, o, tl, dx, ent⟩ := site_two h.wf h.aWF as hl hr lr h.rFree h.rDim
  refine ⟨s4, [t], [st.nextLeg], [], ?_, ?_⟩
  · simp only [createLoop, e1, e2, e3, bind, Except.bind, pure, Except.pure]
  · have dl := o.dim l hl
    have gs : [st.nextLeg, l].Nodup := by
      rw [← tl]; exact o.good.nodup
    refine ⟨o.wf, by simp, by rw [o.nextLeg]; exact Nat.le_add_right _ _, by rw [o.nextTensor]; exact Nat.le_succ _, rfl, rfl, rfl,
      ?_, ?_, ?_, by simp, o.dim, o.bond, o.link.2, dx, ?_, by simp, by simp, ?_, o.rOwner, ?_, by simp, ?_, ?_, ?_⟩
    · intro t' ht'; rw [List.mem_singleton] at ht'; subst ht'; exact ⟨o.good, o.dense⟩
    · intro j t' hj
      match j with
      | 0 => cases hj; simp [tl]
      | n + 1 => simp at hj
    · intro z hz
      simp only [List.append_nil, List.mem_singleton] at hz
      subst hz
      rw [o.nextLeg]; exact ⟨le_rfl, Nat.lt_succ_self _⟩
    · intro j hj; simp at hj
    · intro z hz h1 h2; exact o.frame z hz (by simpa using h1) h2
    · intro t' ht'; rw [List.mem_singleton] at ht'; subst ht'; exact o.owner
    · intro t' ht'; rw [List.mem_singleton] at ht'; subst ht'; rw [o.id, o.nextTensor]; exact ⟨le_rfl, Nat.lt_succ_self _⟩
    · intro _ j hj; simp at hj
    · intro _ _
      have gg : GoodTensor s4 (ghost s4 [st.nextLeg, l] a) := ghost_good gs h.aWF (by rw [as]; simp [dx, dl])
      refine SameValue.congr (L := []) ⟨o.wf.inv, by simpa using gg,
        by rw [List.flatMap_cons, List.flatMap_nil, List.append_nil]; exact gg.nodup⟩ o.wf.inv o.good (by rw [tl]; exact .refl _)
        (fun _ _ _ _ => rfl) (fun _ _ _ _ => rfl) ?_
      intro σ _
      rw [ent]
      show _ = entry (ghost s4 [st.nextLeg, l] a) σ
      rw [ghost_entry s4 st.nextLeg [l] as (by simp [dl])]
      simp [ravel]

theorem partner_lt {st : Store} (w : WFStore st) {l m : LegId} (h : st.partner l = some m) : m < st.nextLeg := by
  have := partner_symm w.inv h
  unfold Store.partner at this
  cases hb : (st.leg m).bond with
  | none => rw [hb] at this; cases this
  | some b => exact w.freshLeg m b hb

theorem createLoop_spec [CommRing R] [StarRing R] {la : LinAlg R} (hla : ExactLinAlg la) (chi : Option Nat) :
    ∀ (legs : List LegId) (st : Store) (a : NDArray R) (d : Nat) (r : LegId), legs ≠ [] → LoopIn st a d r legs →
    (∃ st' ts xs ys, createLoop la chi st a d r legs = .ok (st', ts) ∧ LoopOut la chi st st' a d r legs ts xs ys) ∨
    (createLoop la chi st a d r legs = .error .valueError ∧ 2 ≤ legs.length ∧ (SeesNonZero la → chi ≠ some 0 →
      ¬ ∃ i < d, ∃ j < (legs.map st.dim).prod, a.get [i, j] ≠ 0))
  | [], _, _, _, _, h0, _ => absurd rfl h0
  | [l], st, a, d, r, _, h => Or.inl (createLoop_last la chi h)
  | l :: l2 :: ls, st, a, d, r, _, h => by
    have nd := h.nodup
    rw [List.nodup_cons, List.nodup_cons] at nd
    obtain ⟨rn, ln, nls⟩ := nd
    have lr : l ≠ r := fun e => rn (by simp [e])
    have hl := h.old l (by simp)
    have hr := h.old r (by simp)
    generalize hW : ((l2 :: ls).map st.dim).prod = W
    have as : a.shape = [d, st.dim l * W] := by rw [h.aShape, List.map_cons, List.prod_cons, hW]
    have msr := matrixSchmidt_two hla chi h.aWF as (h.pos l (by simp))
    have dW : ((l :: l2 :: ls).map st.dim).prod = st.dim l * W := by rw [List.map_cons, List.prod_cons, hW]
    rcases Nat.eq_zero_or_pos d with d0 | d0
    · right
      refine ⟨?_, by simp, fun _ _ ⟨i, hi, _⟩ => by omega⟩
      simp only [createLoop, msr.1 d0, bind, Except.bind]
    obtain ⟨k, u, v, em, us, S⟩ := msr.2 d0.ne'
    obtain ⟨s1, s2, s3, s4, t, e1, e2, e3, e4, o, tl, dx, dy, fy, ent⟩ := site_three h.wf S.uWF S.uProd hl hr lr h.rFree h.rDim
    have x_lt : st.nextLeg < s4.nextLeg := by rw [o.nextLeg]; exact Nat.lt_add_of_pos_right (by simp)
    have y_lt : st.nextLeg + 1 < s4.nextLeg := by rw [o.nextLeg]; exact Nat.lt_succ_self _
    have oldN : ∀ z < st.nextLeg, z < s4.nextLeg := fun z hz => hz.trans x_lt
    have hls : ∀ z ∈ l2 :: ls, z < st.nextLeg := fun z hz => h.old z (by simp only [List.mem_cons] at hz ⊢; tauto)
    have nr : ∀ z ∈ l2 :: ls, z ≠ r := fun z hz e => rn (e ▸ List.mem_cons_of_mem _ hz)
    have dls : (l2 :: ls).map s4.dim = (l2 :: ls).map st.dim := List.map_congr_left fun z hz => o.dim z (hls z hz)
    have hin : LoopIn s4 v k (st.nextLeg + 1) (l2 :: ls) := by
      refine ⟨o.wf, ?_, ?_, fy, dy, ?_, S.vWF, by rw [S.vShape, dls, hW], ?_⟩
      · rw [List.nodup_cons]
        exact ⟨fun hm => absurd (hls _ hm) (by exact Nat.not_lt.mpr (Nat.le_succ _)), nls⟩
      · intro z hz
        rcases List.mem_cons.mp hz with rfl | hz
        · exact y_lt
        · exact oldN z (hls z hz)
      · intro p hp q hq
        rw [(o.bond p (hls p hp) (nr p hp)).2]
        exact h.apart p (List.mem_cons_of_mem _ hp) q (List.mem_cons_of_mem _ hq)
      · intro z hz
        rw [o.dim z (hls z hz)]
        exact h.pos z (List.mem_cons_of_mem _ hz)
    have step : createLoop la chi st a d r (l :: l2 :: ls) =
        (createLoop la chi s4 v k (st.nextLeg + 1) (l2 :: ls)).map fun p => (p.1, t :: p.2) := by
      have kk : u.shape.getLastD 0 = k := by rw [us]; rfl
      rw [createLoop]
      · simp only [em, kk, e1, e2, e3, e4, bind, Except.bind, pure, Except.pure]
        cases createLoop la chi s4 v k (st.nextLeg + 1) (l2 :: ls) <;> rfl
      · simp
    rw [step]
    rcases createLoop_spec hla chi (l2 :: ls) s4 v k (st.nextLeg + 1) (by simp) hin with ⟨st', ts, xs, ys, e, q⟩ | ⟨e, -, hz⟩
    · left
      refine ⟨st', t :: ts, st.nextLeg :: xs, (st.nextLeg + 1) :: ys, by rw [e]; rfl, ?_⟩
      have od := o.dim
      have ob := o.bond
      have ofr := o.frame
      have olink := o.link
      have plt : ∀ {p m}, st.partner p = some m → m < st.nextLeg := fun h' => partner_lt h.wf h'
      have sle := x_lt.le.trans q.le
      generalize hx : st.nextLeg = x at *
      generalize hy : x + 1 = y at *
      have xy : x ≠ y := by rw [← hy]; exact (Nat.lt_succ_self x).ne
      have ltx : ∀ z < x, z ≠ y := fun z hz e => absurd (e ▸ hz) (by rw [← hy]; exact Nat.not_lt.mpr (Nat.le_succ _))
      have nx : ∀ z ∈ xs ++ ys, x < z ∧ y < z := fun z hz =>
        ⟨x_lt.trans_le (q.isNew z hz).1, y_lt.trans_le (q.isNew z hz).1⟩
      have lls : ∀ z ∈ l2 :: ls, z ≠ l := fun z hz e => ln (e ▸ hz)
      have tOld : ∀ z ∈ t.legs, z < s4.nextLeg := by
        intro z hz
        rw [tl] at hz
        simp only [List.mem_cons, List.not_mem_nil, or_false] at hz
        rcases hz with rfl | rfl | rfl
        · exact x_lt
        · exact oldN _ hl
        · exact y_lt
      have gt : GoodTensor st' t := o.good.congr_dim fun z hz => q.dim z (tOld z hz)
      have dx' : st'.dim x = d := by rw [q.dim x x_lt, dx]
      have dy' : st'.dim y = k := by rw [q.dim y y_lt, dy]
      have dl' : st'.dim l = st.dim l := by rw [q.dim l (oldN l hl), od l hl]
      have dls' : (l2 :: ls).map st'.dim = (l2 :: ls).map st.dim :=
        List.map_congr_left fun z hz => by rw [q.dim z (oldN z (hls z hz)), od z (hls z hz)]
      have par : ∀ z < x, z ≠ r → st'.partner z = st.partner z := fun z hz hzr => by
        rw [(q.bond z (oldN z hz) (ltx z hz)).2, (ob z hz hzr).2]
      have x0 : xs.getD 0 0 ∈ xs := by
        rw [List.getD_eq_getElem?_getD, List.getElem?_eq_getElem (by rw [q.lenX]; simp)]; exact List.getElem_mem _
      have x0n := nx _ (List.mem_append_left ys x0)
      refine ⟨q.wf, fun _ => d0, by rw [hx]; exact sle, (by have := q.leT; rw [o.nextTensor] at this; exact (Nat.le_succ _).trans this),
        by simp [q.lenT], by simp [q.lenX], by simp [q.lenY], ?_, ?_, ?_, ?_, ?_, ?_, ?_, dx', ?_, ?_, ?_, ?_, ?_, ?_, ?_, ?_, ?_, ?_⟩
      · intro t' ht'
        rcases List.mem_cons.mp ht' with rfl | ht'
        · exact ⟨gt, o.dense⟩
        · exact q.good t' ht'
      · intro j t' hj
        match j with
        | 0 => cases hj; simp [tl]
        | n + 1 =>
          have := q.site n t' hj
          simpa using this
      · intro z hz
        have : z = x ∨ z = y ∨ z ∈ xs ++ ys := by
          simp only [List.mem_append, List.mem_cons] at hz ⊢; tauto
        rw [hx]
        rcases this with rfl | rfl | hz
        · exact ⟨le_rfl, x_lt.trans_le q.le⟩
        · exact ⟨by rw [← hy]; exact Nat.le_succ _, y_lt.trans_le q.le⟩
        · exact ⟨(nx z hz).1.le, (q.isNew z hz).2⟩
      · have p : (x :: xs ++ y :: ys).Perm (x :: y :: (xs ++ ys)) := by
          rw [List.cons_append]; exact (List.perm_middle).cons _
        rw [p.nodup_iff, List.nodup_cons, List.nodup_cons]
        refine ⟨?_, fun hm => lt_irrefl _ (nx y hm).2, q.nodup⟩
        rw [List.mem_cons, not_or]
        exact ⟨xy, fun hm => lt_irrefl _ (nx x hm).1⟩
      · intro z hz
        rw [hx] at hz
        rw [q.dim z (oldN z hz), od z hz]
      · intro z hz hzr
        rw [hx] at hz
        have b1 := q.bond z (oldN z hz) (ltx z hz)
        have b2 := ob z hz hzr
        exact ⟨b1.1.trans b2.1, b1.2.trans b2.2⟩
      · rw [(q.bond r (oldN r hr) (ltx r hr)).2]; exact olink.2
      · intro j hj
        match j with
        | 0 => exact q.first
        | n + 1 => exact q.joined n (by simpa using hj)
      · intro c hc z hz
        rcases List.mem_cons.mp hz with rfl | hz
        · rw [dy']; exact S.bound hc
        · exact q.width c hc z hz
      · intro j hj
        match j with
        | 0 =>
          show st'.dim y ≤ min (d * ([l].map st.dim).prod) ((l2 :: ls).map st.dim).prod
          rw [dy', hW]
          simp only [List.map_cons, List.map_nil, List.prod_cons, List.prod_nil, mul_one]
          exact le_min S.kn S.kw
        | n + 1 =>
          have := q.dims n (by simpa using hj)
          rw [List.map_congr_left fun z hz => od z (hls z (List.mem_of_mem_take hz)),
            List.map_congr_left (g := st.dim) fun z hz => od z (hls z (List.mem_of_mem_drop hz))] at this
          show st'.dim (ys.getD n 0) ≤ min (d * ((l :: (l2 :: ls).take (n + 1)).map st.dim).prod)
            (((l2 :: ls).drop (n + 1)).map st.dim).prod
          refine this.trans (min_le_min_right _ ?_)
          rw [List.map_cons, List.prod_cons, ← mul_assoc]
          exact Nat.mul_le_mul_right _ S.kn
      · intro z hz h1 h2
        rw [hx] at hz
        rw [q.frame z (oldN z hz) (fun hm => h1 (List.mem_cons_of_mem _ hm)) (ltx z hz),
          ofr z hz (fun e => h1 (by simp [e])) h2]
      · rw [q.frame r (oldN r hr) (fun hm => rn (List.mem_cons_of_mem _ hm)) (ltx r hr), o.rOwner]
      · intro t' ht' z hz
        rcases List.mem_cons.mp ht' with rfl | ht'
        · rw [← o.owner z hz]
          by_cases hzy : z = y
          · rw [hzy]; exact q.rOwner
          · rw [q.frame z (tOld z hz) ?_ hzy]
            rw [tl] at hz
            simp only [List.mem_cons, List.not_mem_nil, or_false] at hz
            rcases hz with rfl | rfl | rfl
            · exact fun hm => lt_irrefl _ (hls _ hm)
            · exact ln
            · exact absurd rfl hzy
        · exact q.owner t' ht' z hz
      · rw [List.map_cons, List.nodup_cons]
        refine ⟨fun hm => ?_, q.ids⟩
        obtain ⟨t', ht', e⟩ := List.mem_map.mp hm
        have := (q.idNew t' ht').1
        rw [o.nextTensor, e, o.id] at this
        exact absurd this (Nat.not_succ_le_self _)
      · intro t' ht'
        have := q.leT
        rw [o.nextTensor] at this
        rcases List.mem_cons.mp ht' with rfl | ht'
        · rw [o.id]; exact ⟨le_rfl, this⟩
        · have := q.idNew t' ht'
          rw [o.nextTensor] at this
          exact ⟨(Nat.le_succ _).trans this.1, this.2⟩
      · intro hu j hj t' ht'
        match j with
        | 0 =>
          cases ht'
          refine isometry_of_entries ?_ ?_ (fun i c => (⟨[d * st.dim l, k], u.data⟩ : NDArray R).get [i, c]) ?_ ?_
          · have := gt.nodup
            rw [tl] at this
            exact (List.nodup_append.mp (show ([x, l] ++ [y]).Nodup from this)).1
          · simp only [List.getD_cons_zero, List.mem_cons, List.not_mem_nil, or_false, not_or]
            exact ⟨xy.symm, (ltx l hl).symm⟩
          · intro σ _ _
            rw [ent]
            simp only [List.getD_cons_zero, List.map_cons, List.map_nil, ravel, List.prod_cons, List.prod_nil, dl', mul_one,
              add_zero]
          · intro a ha b hb
            simp only [List.getD_cons_zero] at ha hb ⊢
            rw [dy'] at ha hb
            simp only [List.map_cons, List.map_nil, List.prod_cons, List.prod_nil, dx', dl', mul_one]
            exact S.ortho hu ha hb
        | n + 1 => exact q.iso hu n (by simpa using hj) t' ht'
      · intro hr' hw
        have qv := q.value hr' ((hw.2.mono S.kn).congr fun z hz => od z (hls z hz))
        have xl : x ≠ l := hl.ne'
        have ndA : (x :: l :: l2 :: ls).Nodup := by
          rw [List.nodup_cons, List.nodup_cons]
          refine ⟨fun hm => ?_, ln, nls⟩
          rcases List.mem_cons.mp hm with e | hm
          · exact xl e
          · exact lt_irrefl _ (hls x hm)
        have gA : GoodTensor st' (ghost st' (x :: l :: l2 :: ls) a) := by
          refine ghost_good ndA h.aWF ?_
          rw [as, List.map_cons, List.map_cons, dls', dx', dl', List.prod_cons, List.prod_cons, List.prod_cons, List.prod_cons, hW]; simp
        have cv : SameValue st' [ghost st' (x :: l :: l2 :: ls) a] st' [t, ghost st' (xs.getD 0 0 :: l2 :: ls) v] := by
          refine cut_value q.wf.inv (LA := [x, l]) (LB := l2 :: ls) gA gt (qv.good.good _ (by simp)) o.dense rfl (.refl _) ?_ (.refl _) ?_
            q.first ?_ ?_
          · rw [tl]
            exact (List.perm_append_comm (l₁ := [x, l]) (l₂ := [y]))
          · rw [List.nodup_cons, List.nodup_cons]
            have nn : ∀ z, x < z → z ∉ [x, l] ++ l2 :: ls := by
              intro z hz hm
              simp only [List.cons_append, List.nil_append, List.mem_cons] at hm
              rcases hm with e | e | e | e
              · rw [e] at hz; exact lt_irrefl _ hz
              · rw [e] at hz; exact lt_asymm hl hz
              · exact lt_asymm (hls z (by simp [e])) hz
              · exact lt_asymm (hls z (by simp [e])) hz
            refine ⟨?_, nn _ x0n.1, ndA⟩
            rw [List.mem_cons, not_or]
            exact ⟨x0n.2.ne, nn y (by rw [← hy]; exact Nat.lt_succ_self x)⟩
          · intro p hp z hz
            simp only [List.mem_cons, List.not_mem_nil, or_false] at hp
            rcases hp with rfl | rfl
            · rw [(q.bond p x_lt xy).2, olink.1]
              intro e
              have e := Option.some.inj e
              rcases List.mem_cons.mp hz with h1 | h1
              · rw [← e] at h1
                exact absurd (h1 ▸ x0n.1) (lt_asymm hr)
              · exact nr z h1 e.symm
            · rw [par p hl lr]
              intro e
              rcases List.mem_cons.mp hz with h1 | h1
              · have := plt e
                rw [h1] at this
                exact lt_asymm x0n.1 this
              · exact h.apart p (by simp) z (List.mem_cons_of_mem _ h1) e
          · intro σ hσ
            have hσx : σ x < d := by rw [← dx']; exact hσ x (by simp)
            have hσl : σ l < st.dim l := by rw [← dl']; exact hσ l (by simp)
            have hrav : ravel ((l2 :: ls).map st'.dim) ((l2 :: ls).map σ) < W := by
              rw [← hW, ← dls']
              exact ravel_lt' fun z hz => hσ z (by simp only [List.mem_append]; exact Or.inr hz)
            have hrow : σ x * st.dim l + σ l < d * st.dim l := by
              calc σ x * st.dim l + σ l < σ x * st.dim l + st.dim l := by omega
                _ = (σ x + 1) * st.dim l := by ring
                _ ≤ d * st.dim l := Nat.mul_le_mul_right _ hσx
            simp only [sumBonds]
            rw [sum_range_list, dy', ghost_entry st' x (l :: l2 :: ls) as (by
              rw [List.map_cons, dls', dl', List.prod_cons, hW])]
            have en : Enough chi (min (d * st.dim l) W) := by rw [← hW]; exact hw.1
            have target := S.exact hla hr' en hrow hrav
            have xx0 : x ≠ xs.getD 0 0 := x0n.1.ne
            have ly : l ≠ y := ltx l hl
            have lx0 : l ≠ xs.getD 0 0 := (hl.trans x0n.1).ne
            have yx0 : y ≠ xs.getD 0 0 := x0n.2.ne
            have yn : y ∉ l2 :: ls := fun hm => ltx y (hls y hm) rfl
            have x0ls : xs.getD 0 0 ∉ l2 :: ls := fun hm => lt_asymm (hls _ hm) x0n.1
            trans ∑ c ∈ range k, (⟨[d * st.dim l, k], u.data⟩ : NDArray R).get [σ x * st.dim l + σ l, c] *
              v.get [c, ravel ((l2 :: ls).map st'.dim) ((l2 :: ls).map σ)]
            · refine Finset.sum_congr rfl fun c _ => ?_
              rw [ent, ghost_entry st' (xs.getD 0 0) (l2 :: ls) S.vShape (by rw [dls', hW]), setRavel _ _ _ x0ls,
                setRavel _ _ _ yn]
              simp only [Assign.set, if_neg xy, if_neg xx0, if_neg ly, if_neg lx0, if_neg yx0, if_true]
            · rw [target]
              apply NDArray.get_mk_reshape
              have f1 : (l :: l2 :: ls).map st'.dim = st.dim l :: (l2 :: ls).map st.dim := by rw [List.map_cons, dls', dl']
              have f2 : (l :: l2 :: ls).map σ = σ l :: (l2 :: ls).map σ := rfl
              rw [as, f1, f2, dls']
              generalize (l2 :: ls).map σ = vs
              generalize (l2 :: ls).map st.dim = ds at hW ⊢
              simp only [ravel, hW, List.prod_cons, List.prod_nil]
              ring
        refine cv.trans ?_
        have gL : GoodNet st' ([t] ++ [ghost st' (xs.getD 0 0 :: l2 :: ls) v]) := cv.good'
        have gM : GoodNet st' ([t] ++ ts) := by
          refine ⟨q.wf.inv, ?_, ?_⟩
          · intro t' ht'
            rcases List.mem_append.mp ht' with ht' | ht'
            · rw [List.mem_singleton] at ht'; subst ht'; exact gt
            · exact (q.good t' ht').1
          · rw [List.flatMap_append, List.nodup_append]
            refine ⟨by simpa using gt.nodup, qv.good'.nodup, ?_⟩
            intro a ha b hb e
            subst e
            simp only [List.flatMap_cons, List.flatMap_nil, List.append_nil] at ha
            obtain ⟨t', ht', hb⟩ := List.mem_flatMap.mp hb
            rcases q.mem ht' hb with h1 | h1
            · rw [tl] at ha
              simp only [List.mem_cons, List.not_mem_nil, or_false] at ha
              rcases ha with rfl | rfl | rfl
              · exact lt_irrefl _ (hls _ h1)
              · exact ln h1
              · exact ltx _ (hls _ h1) rfl
            · exact absurd (tOld a ha) (Nat.not_lt.mpr (q.isNew a h1).1)
        exact SameValue.frame qv gL gM (fun _ _ _ _ => rfl) (fun _ _ _ _ => rfl)
    · right
      refine ⟨by rw [e]; rfl, by simp, fun h1 h2 ⟨i, hi, j, hj, hne⟩ => ?_⟩
      apply hz h1 h2
      rw [dls, hW]
      refine S.nonzero h1 h2 ?_
      rw [dW] at hj
      have Wp : 0 < W := by
        rcases Nat.eq_zero_or_pos W with h0 | h0
        · rw [h0] at hj; simp at hj
        · exact h0
      refine ⟨i * st.dim l + j / W, ?_, j % W, Nat.mod_lt _ Wp, ?_⟩
      · have : j / W < st.dim l := by rw [Nat.div_lt_iff_lt_mul Wp]; exact hj
        calc i * st.dim l + j / W < i * st.dim l + st.dim l := by omega
          _ = (i + 1) * st.dim l := by ring
          _ ≤ d * st.dim l := Nat.mul_le_mul_right _ hi
      · rw [NDArray.get_mk_reshape a _ _ [i, j]]
        · exact hne
        · rw [as]
          simp only [ravel, List.prod_cons, List.prod_nil, mul_one]
          have := Nat.div_add_mod j W
          nlinarith

end CTL
