import Verif.Model.CreateMPS
import Verif.Lemmas.NewMPS
import Verif.Lemmas.NetFrame
import Verif.Lemmas.Canon
import Verif.Lemmas.SumLegs
import Verif.Lemmas.Frame

/-! Lemmas for `createMPSFromTensor`. -/

namespace CTL
open Finset
variable {R : Type}

/-- How many singular values are kept. -/
def keptOf (chi : Option Nat) (n : Nat) : Nat := match chi with | none => n | some c => min c n

theorem keptOf_le (chi : Option Nat) (n : Nat) : keptOf chi n ≤ n := by
  cases chi <;> simp [keptOf]

/-- What `matrixSchimdtDecomposition` returns for the matrix `m`. -/
structure Schmidted [CommSemiring R] (la : LinAlg R) (chi : Option Nat) (m : NDArray R) (n w k : Nat) (u v : NDArray R) :
    Prop where
  mWF : m.WF
  mShape : m.shape = [n, w]
  kept : k = keptOf chi ((la.svd m).2.1.countP la.isNonZero)
  kn : k ≤ n
  kw : k ≤ w
  uWF : u.WF
  uProd : u.shape.prod = n * k
  uGet : ∀ i < n, ∀ c < k, (⟨[n, k], u.data⟩ : NDArray R).get [i, c] = (la.svd m).1.get [i, c]
  vWF : v.WF
  vShape : v.shape = [k, w]
  vGet : ∀ c < k, ∀ j < w, v.get [c, j] = (la.svd m).2.2.get [c, j] * (la.svd m).2.1.getD c 0

theorem schmidt_cut [CommSemiring R] {la : LinAlg R} (hla : ExactLinAlg la) (chi : Option Nat) {m : NDArray R} {n w : Nat}
    (mw : m.WF) (ms : m.shape = [n, w]) :
    min ((la.svd m).1.shape.getD 0 0) (min ((la.svd m).2.2.shape.getD 1 0) (nonZeroElementN la (la.svd m).2.1)) =
      (la.svd m).2.1.countP la.isNonZero ∧
    ∀ k, k = keptOf chi ((la.svd m).2.1.countP la.isNonZero) →
      ((la.svd m).1.takeCols k).shape = [n, k] ∧
      Schmidted la chi m n w k ((la.svd m).1.takeCols k) (((la.svd m).2.2.takeRows k).leftDiag ((la.svd m).2.1.take k)) := by
  have S := hla.svd m n w mw ms
  have c0 : (la.svd m).2.1.countP la.isNonZero ≤ min n w := by
    rw [← S.sLen]; exact List.countP_le_length
  have c1 := c0.trans (min_le_left _ _)
  have c2 := c0.trans (min_le_right _ _)
  constructor
  · rw [S.uShape, S.vShape]
    simp only [List.getD_cons_zero, List.getD_cons_succ, nonZeroElementN]
    omega
  · intro k hk
    have kc : k ≤ (la.svd m).2.1.countP la.isNonZero := hk ▸ keptOf_le _ _
    obtain ⟨a1, a2, a3⟩ := takeCols_spec (k := k) S.uShape (kc.trans c1)
    obtain ⟨b1, b2, b3⟩ := takeRows_spec (k := k) S.vShape (kc.trans c2)
    obtain ⟨d1, d2, d3⟩ := leftDiag_spec b1 ((la.svd m).2.1.take k)
    refine ⟨a1, mw, ms, hk, kc.trans c1, kc.trans c2, a2, by rw [a1]; simp, ?_, d2, d1, ?_⟩
    · intro i hi c hc
      rw [← a3 i hi c hc]
      exact NDArray.get_mk_reshape _ _ _ _ (by rw [a1])
    · intro c hc j hj
      rw [d3 c hc j hj, b3 c hc j hj]
      congr 1
      rw [List.getD_eq_getElem?_getD, List.getD_eq_getElem?_getD, List.getElem?_take_of_lt hc]

theorem matrixSchmidt_one [CommSemiring R] {la : LinAlg R} (hla : ExactLinAlg la) (chi : Option Nat) {a : NDArray R}
    (aw : a.WF) {dim w : Nat} (as : a.shape = [dim * w]) (hd : dim ≠ 0) :
    ∃ k u v, matrixSchmidt la a dim chi = .ok (u, v) ∧ u.shape = [dim, k] ∧
      Schmidted la chi ⟨[dim, w], a.data⟩ dim w k u v := by
  have w1 : (⟨[dim, w], a.data⟩ : NDArray R).WF := by
    have := aw
    unfold NDArray.WF at this ⊢
    rw [this, as]; simp
  obtain ⟨c1, c2⟩ := schmidt_cut hla chi w1 rfl
  obtain ⟨s, h⟩ := c2 _ rfl
  refine ⟨_, _, _, ?_, s, h⟩
  unfold matrixSchmidt
  rw [as]
  have h1 : dim * w % dim = 0 := Nat.mul_mod_right _ _
  have h2 : dim * w / dim = w := Nat.mul_div_cancel_left _ (Nat.pos_of_ne_zero hd)
  have h3 : a.reshape [dim, w] = .ok ⟨[dim, w], a.data⟩ := by
    unfold NDArray.reshape
    rw [as]; simp
  simp only [h1, h2, h3, hd, ne_eq, not_false_eq_true, and_self, pyAssert, if_true, bind, Except.bind, pure, Except.pure,
    decide_true, c1]
  cases chi <;> rfl

theorem matrixSchmidt_two [CommSemiring R] {la : LinAlg R} (hla : ExactLinAlg la) (chi : Option Nat) {a : NDArray R}
    (aw : a.WF) {d dim w : Nat} (as : a.shape = [d, dim * w]) (hd : dim ≠ 0) :
    (d = 0 → matrixSchmidt la a dim chi = .error .valueError) ∧
    (d ≠ 0 → ∃ k u v, matrixSchmidt la a dim chi = .ok (u, v) ∧ u.shape = [d, dim, k] ∧
      Schmidted la chi ⟨[d * dim, w], a.data⟩ (d * dim) w k u v) := by
  have w1 : (⟨[d * dim, w], a.data⟩ : NDArray R).WF := by
    have := aw
    unfold NDArray.WF at this ⊢
    rw [this, as]; simp [mul_assoc]
  have h1 : dim * w % dim = 0 := Nat.mul_mod_right _ _
  have h2 : dim * w / dim = w := Nat.mul_div_cancel_left _ (Nat.pos_of_ne_zero hd)
  constructor
  · rintro rfl
    unfold matrixSchmidt
    rw [as]
    simp [h1, hd, pyAssert, bind, Except.bind, throw, throwThe, MonadExceptOf.throw, pure, Except.pure]
  · intro d0
    obtain ⟨c1, c2⟩ := schmidt_cut hla chi w1 rfl
    obtain ⟨s, h⟩ := c2 _ rfl
    refine ⟨_, ⟨[d, dim, _], _⟩, _, ?_, rfl, ⟨h.mWF, h.mShape, h.kept, h.kn, h.kw, ?_, ?_, h.uGet, h.vWF, h.vShape, h.vGet⟩⟩
    · unfold matrixSchmidt
      rw [as]
      have h3 : a.reshape [d * dim, w] = .ok ⟨[d * dim, w], a.data⟩ := by
        unfold NDArray.reshape
        rw [as]; simp [mul_assoc]
      have h4 : ∀ (z : NDArray R) (k : Nat), z.shape = [d * dim, k] → z.reshape [d, dim, k] = .ok ⟨[d, dim, k], z.data⟩ := by
        intro z k hz
        unfold NDArray.reshape
        rw [hz]; simp [mul_assoc]
      simp only [h1, h2, h3, hd, d0, ne_eq, not_false_eq_true, and_self, pyAssert, if_true, if_false, bind, Except.bind,
        pure, Except.pure, decide_true, c1]
      cases chi with
      | none => simp only [keptOf] at s ⊢; rw [s]; simp only [List.getD_cons_succ, List.getD_cons_zero, h4 _ _ s]
      | some c => simp only [keptOf] at s ⊢; rw [s]; simp only [List.getD_cons_succ, List.getD_cons_zero, h4 _ _ s]
    · have := h.uWF
      unfold NDArray.WF at this ⊢
      rw [this, s]; simp [mul_assoc]
    · simp [mul_assoc]

/-- A tensor with the given legs and data. -/
def ghost (st : Store) (legs : List LegId) (a : NDArray R) : Tensor R :=
  ⟨0, legs, some ⟨legs.map st.dim, a.data⟩, false, false, 0⟩

theorem ghost_good {st : Store} {legs : List LegId} {a : NDArray R} (nd : legs.Nodup) (aw : a.WF)
    (hp : a.shape.prod = (legs.map st.dim).prod) : GoodTensor st (ghost st legs a) := by
  refine ⟨nd, rfl, _, rfl, ?_, fun _ => rfl, fun h => by cases h⟩
  have := aw
  unfold NDArray.WF at this ⊢
  rw [this, hp]

theorem ghost_entry [Zero R] (st : Store) (x : LegId) (legs : List LegId) {a : NDArray R} {d w : Nat} (as : a.shape = [d, w])
    (hw : w = (legs.map st.dim).prod) (σ : Assign) :
    entry (ghost st (x :: legs) a) σ = a.get [σ x, ravel (legs.map st.dim) (legs.map σ)] :=
  get_right a st.dim legs x as hw σ

theorem shared_one {st : Store} {la lb LA LB : List LegId} {y x : LegId} (nd : la.Nodup) (pa : la.Perm (y :: LA))
    (pb : lb.Perm (x :: LB)) (hp : st.partner y = some x)
    (no : ∀ p ∈ LA, ∀ q ∈ x :: LB, st.partner p ≠ some q) : sharedPairs st la lb = [(y, x)] := by
  have nds : (sharedPairs st la lb).Nodup := by
    apply List.Nodup.of_map Prod.fst
    rw [sharedPairs_fst]; exact nd.filter _
  have mem : ∀ p, p ∈ sharedPairs st la lb ↔ p = (y, x) := by
    rintro ⟨p, q⟩
    rw [mem_sharedPairs]
    constructor
    · rintro ⟨h1, h2, h3⟩
      simp only at h1 h2 h3
      rcases List.mem_cons.mp (pa.mem_iff.mp h1) with rfl | h
      · rw [hp] at h2; rw [Option.some.inj h2]
      · exact absurd h2 (no p h q (pb.mem_iff.mp h3))
    · intro e
      obtain ⟨rfl, rfl⟩ := Prod.mk.inj e
      exact ⟨pa.mem_iff.mpr (by simp), hp, pb.mem_iff.mpr (by simp)⟩
  have : (sharedPairs st la lb).Perm [(y, x)] := by
    rw [List.perm_ext_iff_of_nodup nds (by simp)]
    intro p; rw [mem]; simp
  exact List.perm_singleton.mp this

/-- A tensor replaced by two factors of it. -/
theorem cut_value [CommSemiring R] {st : Store} (inv : BondInv st) {A u B : Tensor R} {LA LB : List LegId} {y x : LegId}
    (gA : GoodTensor st A) (gu : GoodTensor st u) (gB : GoodTensor st B) (du : u.diag = false) (dB : B.diag = false)
    (lA : A.legs.Perm (LA ++ LB)) (lu : u.legs.Perm (y :: LA)) (lB : B.legs.Perm (x :: LB))
    (nd : (y :: x :: (LA ++ LB)).Nodup) (hp : st.partner y = some x)
    (no : ∀ p ∈ LA, ∀ q ∈ x :: LB, st.partner p ≠ some q)
    (val : ∀ σ, InRange st.dim (LA ++ LB) σ →
      sumBonds st.dim [(y, x)] (fun τ => entry u τ * entry B τ) σ = entry A σ) :
    SameValue st [A] st [u, B] := by
  have sh := shared_one gu.nodup lu lB hp no
  have nd' := nd
  rw [List.nodup_cons, List.nodup_cons, List.mem_cons, not_or, List.mem_append, List.mem_append, not_or, not_or,
    List.nodup_append] at nd'
  obtain ⟨⟨yx, yA, yB⟩, ⟨xA, xB⟩, nA, nB, dAB⟩ := nd'
  have disj : ∀ z ∈ u.legs, z ∉ B.legs := by
    intro z h1 h2
    rcases List.mem_cons.mp (lu.mem_iff.mp h1) with rfl | h1 <;> rcases List.mem_cons.mp (lB.mem_iff.mp h2) with e | h2
    · exact yx e
    · exact yB h2
    · exact xA (e ▸ h1)
    · exact dAB z h1 z h2 rfl
  obtain ⟨o, _, _, _, h⟩ := contract_dense (R := R) id inv gu gB du dB disj
  have g2 : GoodNet st [u, B] := by
    refine ⟨inv, by simp [gu, gB], ?_⟩
    simp only [List.flatMap_cons, List.flatMap_nil, List.append_nil]
    rw [List.nodup_append]
    exact ⟨gu.nodup, gB.nodup, fun a ha b hb e => disj a ha (e ▸ hb)⟩
  have s1 := SameValue.step g2 h
  refine SameValue.trans ?_ s1.symm
  have rA : (restA u.legs [(y, x)]).Perm LA := by
    refine (lu.filter _).trans ?_
    rw [List.filter_cons_of_neg (by simp), List.filter_eq_self.mpr]
    intro l hl
    simp only [List.map_cons, List.map_nil, List.mem_singleton, decide_eq_true_eq]
    exact fun e => yA (e ▸ hl)
  have rB : (restB B.legs [(y, x)]).Perm LB := by
    refine (lB.filter _).trans ?_
    rw [List.filter_cons_of_neg (by simp), List.filter_eq_self.mpr]
    intro l hl
    simp only [List.map_cons, List.map_nil, List.mem_singleton, decide_eq_true_eq]
    exact fun e => xB (e ▸ hl)
  have ol : o.result.legs.Perm (LA ++ LB) := by
    have := h.legs
    rw [sh] at this
    exact this.trans (rA.append rB)
  have gA' : GoodNet st [A] := ⟨inv, by simp [gA], by simpa using gA.nodup⟩
  refine SameValue.congr gA' (s1.good').inv h.good (ol.trans lA.symm) (fun _ _ l _ => by rw [h.same.dim])
    (fun _ _ l _ => ?_) ?_
  · exact h.same.partner inv l
  · intro σ hσ
    have hσ' : InRange st.dim (LA ++ LB) σ := fun l hl => hσ l (lA.mem_iff.mpr hl)
    rw [h.entry σ (fun l hl => hσ' l (ol.mem_iff.mp hl)), sh]
    exact val σ hσ'

/-- All non-zero singular values fit. -/
def Enough (chi : Option Nat) (n : Nat) : Prop := ∀ c, chi = some c → n ≤ c

theorem Schmidted.exact [CommSemiring R] {la : LinAlg R} (hla : ExactLinAlg la) (hr : RankRevealing la) {chi : Option Nat}
    {m : NDArray R} {n w k : Nat} {u v : NDArray R} (h : Schmidted la chi m n w k u v) (big : Enough chi (min n w))
    {i j : Nat} (hi : i < n) (hj : j < w) :
    ∑ c ∈ range k, (⟨[n, k], u.data⟩ : NDArray R).get [i, c] * v.get [c, j] = m.get [i, j] := by
  have S := hla.svd m n w h.mWF h.mShape
  have cn : (la.svd m).2.1.countP la.isNonZero ≤ min n w := by rw [← S.sLen]; exact List.countP_le_length
  have ke : k = (la.svd m).2.1.countP la.isNonZero := by
    rw [h.kept]
    cases chi with
    | none => rfl
    | some c => exact min_eq_right (cn.trans (big c rfl))
  have h0 := rank_drop hr h.mWF h.mShape (chi := k) ke.ge
  rw [← ke, min_self] at h0
  rw [← cut_exact S (by rw [ke]; exact cn) h0 hi hj]
  unfold partialSVD
  refine Finset.sum_congr rfl fun c hc => ?_
  rw [Finset.mem_range] at hc
  rw [h.uGet i hi c hc, h.vGet c hc j hj]
  ring

theorem Schmidted.ortho [CommRing R] [StarRing R] {la : LinAlg R} (hu : UnitaryLinAlg la) {chi : Option Nat}
    {m : NDArray R} {n w k : Nat} {u v : NDArray R} (h : Schmidted la chi m n w k u v) {a b : Nat} (ha : a < k) (hb : b < k) :
    ∑ i ∈ range n, star ((⟨[n, k], u.data⟩ : NDArray R).get [i, a]) * (⟨[n, k], u.data⟩ : NDArray R).get [i, b] =
      if a = b then 1 else 0 := by
  rw [← (hu m n w h.mWF h.mShape).uOrtho a (ha.trans_le h.kn) b (hb.trans_le h.kn)]
  refine Finset.sum_congr rfl fun i hi => ?_
  rw [Finset.mem_range] at hi
  rw [h.uGet i hi a ha, h.uGet i hi b hb]

theorem Schmidted.bound [CommSemiring R] {la : LinAlg R} {chi : Option Nat} {m : NDArray R} {n w k : Nat} {u v : NDArray R}
    (h : Schmidted la chi m n w k u v) {c : Nat} (hc : chi = some c) : k ≤ c := by
  rw [h.kept, hc]; exact min_le_left _ _

/-- A routine that finds a non-zero singular value, with its vectors, in every matrix that is not zero. -/
def SeesNonZero [CommSemiring R] (la : LinAlg R) : Prop :=
  ∀ m n w, m.WF → m.shape = [n, w] → (∃ i < n, ∃ j < w, m.get [i, j] ≠ 0) →
    0 < (la.svd m).2.1.countP la.isNonZero ∧ ∃ j < w, (la.svd m).2.2.get [0, j] * (la.svd m).2.1.getD 0 0 ≠ 0

theorem Schmidted.nonzero [CommSemiring R] {la : LinAlg R} (hz : SeesNonZero la) {chi : Option Nat} (h0 : chi ≠ some 0)
    {m : NDArray R} {n w k : Nat} {u v : NDArray R} (h : Schmidted la chi m n w k u v)
    (nz : ∃ i < n, ∃ j < w, m.get [i, j] ≠ 0) : ∃ i < k, ∃ j < w, v.get [i, j] ≠ 0 := by
  obtain ⟨c, j, hj, hv⟩ := hz m n w h.mWF h.mShape nz
  have kp : 0 < k := by
    rw [h.kept]
    cases chi with
    | none => exact c
    | some d =>
      have : d ≠ 0 := fun e => h0 (by rw [e])
      simp only [keptOf]; omega
  exact ⟨0, kp, j, hj, by rw [h.vGet 0 kp j hj]; exact hv⟩

/-- The new tensor, with everything that is known about the store. -/
theorem newTensor_full [Zero R] (st : Store) (legs : List LegId) (shape : List Nat) (hsh : shape = legs.map st.dim)
    (d : NDArray R) (w : d.WF) (nd : legs.Nodup) (hp : d.shape.prod = (legs.map st.dim).prod) :
    ∃ s t, newTensor st shape (some d) legs = .ok (s, t) ∧ SameNet st s ∧ GoodTensor s t ∧ t.legs = legs ∧
      t.diag = false ∧ t.id = st.nextTensor ∧ s.nextTensor = st.nextTensor + 1 ∧
      (∀ σ, entry t σ = (⟨legs.map st.dim, d.data⟩ : NDArray R).get (legs.map σ)) ∧
      (∀ l, l ∉ legs → s.leg l = st.leg l) ∧ ∀ l ∈ legs, (s.leg l).tensor = some st.nextTensor := by
  obtain ⟨s, t, h1, h2, h3, h4, h5, h6, h7, h8⟩ := newTensor_entry st legs shape hsh d w nd hp
  refine ⟨s, t, h1, h2, h3, h4, h5, h6, h7, h8, (newTensor_frame h1).2.2.2, ?_⟩
  subst hsh
  unfold newTensor at h1
  rw [if_neg (by simp)] at h1
  simp only [NDArray.reshape, hp, if_true, Except.ok.injEq, Prod.mk.injEq] at h1
  intro l hl
  rw [← h1.1]
  show ((st.setOwner legs st.nextTensor).leg l).tensor = _
  rw [setOwner_tensor]; simp [hl]

/-- A new leg linked to an old one. -/
theorem bonded_old {st s : Store} (w : WFStore st) (g : Grows st s) {x r : LegId} (hx : st.nextLeg ≤ x) (hx' : x < s.nextLeg)
    (fx : (s.leg x).bond = none) (hr : r < st.nextLeg) (fr : (st.leg r).bond = none) (hd : s.dim x = s.dim r) :
    linkOr (makeLinkLegs s [x] [r]) = .ok (bonded s x r) ∧ WFStore (bonded s x r) ∧
    (∀ l < st.nextLeg, l ≠ r → ((bonded s x r).leg l).bond = (st.leg l).bond ∧ (bonded s x r).partner l = st.partner l) := by
  refine ⟨by rw [linkOr_two s x r hd]; rfl, bonded_wf (g.wf w) hd fx (by rw [g.bond r hr, fr]) hx' (hr.trans_le g.le), ?_⟩
  intro l hl hlr
  have hlx : l ≠ x := fun e => absurd (e ▸ hl) (Nat.not_lt.mpr hx)
  rw [bonded_other s x r l hlx hlr, bonded_partner_other (g.wf w) hlx hlr]
  exact ⟨g.bond l hl, g.partner w l hl⟩

/-- What one round of the loop does to the store: the tensor `t` takes the old leg `l`; its new leg `x` is linked to `r`. -/
structure SiteOut (st s : Store) (t : Tensor R) (x l r : LegId) (new : List LegId) : Prop where
  wf : WFStore s
  good : GoodTensor s t
  dense : t.diag = false
  id : t.id = st.nextTensor
  nextTensor : s.nextTensor = st.nextTensor + 1
  nextLeg : s.nextLeg = st.nextLeg + new.length
  dim : ∀ z < st.nextLeg, s.dim z = st.dim z
  bond : ∀ z < st.nextLeg, z ≠ r → (s.leg z).bond = (st.leg z).bond ∧ s.partner z = st.partner z
  link : s.partner x = some r ∧ s.partner r = some x
  frame : ∀ z < st.nextLeg, z ≠ l → z ≠ r → s.leg z = st.leg z
  rOwner : (s.leg r).tensor = (st.leg r).tensor
  owner : ∀ z ∈ t.legs, (s.leg z).tensor = some t.id

theorem site_three [Zero R] {st : Store} (w : WFStore st) {l r : LegId} {d k : Nat} {u : NDArray R} (uw : u.WF)
    (us : u.shape.prod = d * st.dim l * k) (hl : l < st.nextLeg) (hr : r < st.nextLeg) (lr : l ≠ r)
    (fr : (st.leg r).bond = none) (rd : st.dim r = d) :
    ∃ s1 s2 s3 s4 t, st.newLeg none d "l" = (s1, st.nextLeg) ∧ s1.newLeg none k "r" = (s2, st.nextLeg + 1) ∧
      newTensor s2 [d, s2.dim l, k] (some u) [st.nextLeg, l, st.nextLeg + 1] = .ok (s3, t) ∧
      linkOr (makeLinkLegs s3 [st.nextLeg] [r]) = .ok s4 ∧
      SiteOut st s4 t st.nextLeg l r [st.nextLeg, st.nextLeg + 1] ∧ t.legs = [st.nextLeg, l, st.nextLeg + 1] ∧
      s4.dim st.nextLeg = d ∧ s4.dim (st.nextLeg + 1) = k ∧ (s4.leg (st.nextLeg + 1)).bond = none ∧
      ∀ σ, entry t σ = (⟨[d * st.dim l, k], u.data⟩ : NDArray R).get
        [σ st.nextLeg * st.dim l + σ l, σ (st.nextLeg + 1)] := by
  have e1 := newLeg_ext st none d "l"
  have e2 := newLeg_ext (st.newLeg none d "l").1 none k "r"
  have e12 := e1.trans e2
  have o1 : ∀ z < st.nextLeg, (st.newLeg none d "l").1.leg z = st.leg z := fun z hz => newLeg_leg_other st none d "l" hz.ne
  have lx := newLeg_new st none d "l"
  generalize hs1 : (st.newLeg none d "l").1 = s1 at e1 e2 e12 o1 lx
  have n1 : s1.nextLeg = st.nextLeg + 1 := by rw [← hs1]; rfl
  have t1 : s1.nextTensor = st.nextTensor := by rw [← hs1]; rfl
  have o2 : ∀ z < st.nextLeg + 1, (s1.newLeg none k "r").1.leg z = s1.leg z := fun z hz =>
    newLeg_leg_other s1 none k "r" (by rw [n1]; exact hz.ne)
  have ly := newLeg_new s1 none k "r"
  rw [n1] at ly
  generalize hs2 : (s1.newLeg none k "r").1 = s2 at e2 e12 o2 ly
  have n2 : s2.nextLeg = st.nextLeg + 2 := by rw [← hs2]; show s1.nextLeg + 1 = _; rw [n1]
  have t2 : s2.nextTensor = st.nextTensor := by rw [← hs2]; exact t1
  have lx2 : s2.leg st.nextLeg = ⟨d, "l", none, none⟩ := by rw [o2 _ (Nat.lt_succ_self _), lx]
  have dx : s2.dim st.nextLeg = d := by unfold Store.dim; rw [lx2]
  have dy : s2.dim (st.nextLeg + 1) = k := by unfold Store.dim; rw [ly]
  have dl : s2.dim l = st.dim l := e12.dim l hl
  have nd : [st.nextLeg, l, st.nextLeg + 1].Nodup := by
    have h1 : st.nextLeg ≠ l := hl.ne'
    have h2 : l ≠ st.nextLeg + 1 := (Nat.lt_succ_of_lt hl).ne
    simp [h1, h2]
  obtain ⟨s3, t, h1, h2, h3, h4, h5, h6, h7, h8, h9, h10⟩ := newTensor_full s2 [st.nextLeg, l, st.nextLeg + 1]
    [d, s2.dim l, k] (by simp [dx, dy]) u uw nd (by rw [us]; simp [dx, dy, dl, mul_assoc])
  have e3 : Grows st s3 := e12.trans h2.ext
  have n3 : s3.nextLeg = st.nextLeg + 2 := by rw [h2.nextLeg, n2]
  obtain ⟨b1, b2, b3⟩ := bonded_old w e3 (x := st.nextLeg) (r := r) le_rfl
    (by rw [n3]; exact Nat.lt_add_of_pos_right (by decide)) (by rw [h2.bondOf, lx2]) hr fr
    (by rw [h2.dim, dx, e12.dim r hr, rd])
  have rx : r ≠ st.nextLeg := hr.ne
  refine ⟨s1, s2, s3, bonded s3 st.nextLeg r, t, by rw [← hs1]; rfl, by rw [← hs2, ← n1]; rfl, h1, b1,
    ⟨b2, h3.congr_dim (fun z _ => bonded_dim s3 _ _ z), h5, by rw [h6, t2], ?_, ?_, ?_, b3, bonded_partner _ _, ?_, ?_, ?_⟩,
    h4, ?_, ?_, ?_, ?_⟩
  · show s3.nextTensor = _; rw [h7, t2]
  · exact n3
  · intro z hz; rw [bonded_dim]; exact e3.dim z hz
  · intro z hz hzl hzr
    have zx : z ≠ st.nextLeg := hz.ne
    have zy : z ≠ st.nextLeg + 1 := (Nat.lt_succ_of_lt hz).ne
    rw [bonded_other s3 _ _ z zx hzr, h9 z (by simp [zx, zy, hzl]), o2 z (Nat.lt_succ_of_lt hz), o1 z hz]
  · have ry : r ≠ st.nextLeg + 1 := (Nat.lt_succ_of_lt hr).ne
    rw [bonded_tensor, h9 r (by simp [rx, ry, lr.symm]), o2 r (Nat.lt_succ_of_lt hr), o1 r hr]
  · intro z hz
    rw [h4] at hz
    rw [bonded_tensor, h10 z hz, h6]
  · rw [bonded_dim, h2.dim, dx]
  · rw [bonded_dim, h2.dim, dy]
  · rw [bonded_other s3 _ _ _ (Nat.succ_ne_self _) (Nat.lt_succ_of_lt hr).ne', h2.bondOf, ly]
  · intro σ
    rw [h8]
    simp only [List.map_cons, List.map_nil, dx, dy, dl, NDArray.get]
    congr 1
    simp only [ravel, List.prod_cons, List.prod_nil]
    ring

theorem site_two [Zero R] {st : Store} (w : WFStore st) {l r : LegId} {d : Nat} {u : NDArray R} (uw : u.WF)
    (us : u.shape = [d, st.dim l]) (hl : l < st.nextLeg) (hr : r < st.nextLeg) (lr : l ≠ r)
    (fr : (st.leg r).bond = none) (rd : st.dim r = d) :
    ∃ s1 s3 s4 t, st.newLeg none d "l" = (s1, st.nextLeg) ∧
      newTensor s1 [d, s1.dim l] (some u) [st.nextLeg, l] = .ok (s3, t) ∧
      linkOr (makeLinkLegs s3 [st.nextLeg] [r]) = .ok s4 ∧
      SiteOut st s4 t st.nextLeg l r [st.nextLeg] ∧ t.legs = [st.nextLeg, l] ∧
      s4.dim st.nextLeg = d ∧
      ∀ σ, entry t σ = u.get [σ st.nextLeg, σ l] := by
  have e1 := newLeg_ext st none d "l"
  have o1 : ∀ z < st.nextLeg, (st.newLeg none d "l").1.leg z = st.leg z := fun z hz => newLeg_leg_other st none d "l" hz.ne
  have lx := newLeg_new st none d "l"
  generalize hs1 : (st.newLeg none d "l").1 = s1 at e1 o1 lx
  have n1 : s1.nextLeg = st.nextLeg + 1 := by rw [← hs1]; rfl
  have t1 : s1.nextTensor = st.nextTensor := by rw [← hs1]; rfl
  have dx : s1.dim st.nextLeg = d := by unfold Store.dim; rw [lx]
  have dl : s1.dim l = st.dim l := e1.dim l hl
  have nd : [st.nextLeg, l].Nodup := by
    have h1 : st.nextLeg ≠ l := hl.ne'
    simp [h1]
  obtain ⟨s3, t, h1, h2, h3, h4, h5, h6, h7, h8, h9, h10⟩ := newTensor_full s1 [st.nextLeg, l]
    [d, s1.dim l] (by simp [dx]) u uw nd (by rw [us]; simp [dx, dl])
  have e3 : Grows st s3 := e1.trans h2.ext
  have n3 : s3.nextLeg = st.nextLeg + 1 := by rw [h2.nextLeg, n1]
  obtain ⟨b1, b2, b3⟩ := bonded_old w e3 (x := st.nextLeg) (r := r) le_rfl
    (by rw [n3]; exact Nat.lt_succ_self _) (by rw [h2.bondOf, lx]) hr fr
    (by rw [h2.dim, dx, e1.dim r hr, rd])
  have rx : r ≠ st.nextLeg := hr.ne
  refine ⟨s1, s3, bonded s3 st.nextLeg r, t, by rw [← hs1]; rfl, h1, b1,
    ⟨b2, h3.congr_dim (fun z _ => bonded_dim s3 _ _ z), h5, by rw [h6, t1], ?_, ?_, ?_, b3, bonded_partner _ _, ?_, ?_, ?_⟩,
    h4, ?_, ?_⟩
  · show s3.nextTensor = _; rw [h7, t1]
  · exact n3
  · intro z hz; rw [bonded_dim]; exact e3.dim z hz
  · intro z hz hzl hzr
    have zx : z ≠ st.nextLeg := hz.ne
    rw [bonded_other s3 _ _ z zx hzr, h9 z (by simp [zx, hzl]), o1 z hz]
  · rw [bonded_tensor, h9 r (by simp [rx, lr.symm]), o1 r hr]
  · intro z hz
    rw [h4] at hz
    rw [bonded_tensor, h10 z hz, h6]
  · rw [bonded_dim, h2.dim, dx]
  · intro σ
    rw [h8]
    simp only [List.map_cons, List.map_nil, dx, dl]
    exact NDArray.get_mk_reshape _ _ _ _ (by rw [us])

end CTL
