import Verif.Spec.CreateMPS
import Verif.Lemmas.CreateLoop
import Verif.Lemmas.SvdExists
import Verif.Props.NewMPS
import Verif.Props.Legs

/-! C47: making a matrix product state from a tensor. -/

namespace CTL
open Finset
variable {R : Type}

theorem flat_of_owner {st : Store} {ts : List (Tensor R)} (nd : ∀ t ∈ ts, t.legs.Nodup) (ids : (ts.map fun t => t.id).Nodup)
    (owner : ∀ t ∈ ts, ∀ l ∈ t.legs, (st.leg l).tensor = some t.id) : (ts.flatMap fun t => t.legs).Nodup := by
  rw [List.nodup_flatMap]
  refine ⟨nd, ?_⟩
  have p := List.pairwise_map.mp ids
  refine p.imp_of_mem ?_
  intro a b ha hb hne l h1 h2
  apply hne
  have := (owner a ha l h1).symm.trans (owner b hb l h2)
  exact Option.some.inj this

theorem wide_of {chi : Option Nat} {dim : LegId → Nat} : ∀ {legs : List LegId} {d : Nat},
    (∀ i, 0 < i → i < legs.length → Enough chi (min (d * ((legs.take i).map dim).prod) ((legs.drop i).map dim).prod)) →
    Wide chi dim d legs
  | [], _, _ => trivial
  | [_], _, _ => trivial
  | l :: l' :: ls, d, h => by
    refine ⟨?_, wide_of fun i h0 hi => ?_⟩
    · have := h 1 (by decide) (by simp)
      simpa using this
    · have := h (i + 1) (by omega) (by simpa using hi)
      simpa [mul_assoc] using this

theorem seesNonZero_of [CommRing R] [StarRing R] [NoZeroDivisors R] [Nontrivial R] {la : LinAlg R} (hu : UnitaryLinAlg la)
    (hr : RankRevealing la) (hn : ∀ z, la.isNonZero z = true → z ≠ 0) : SeesNonZero la := by
  intro m n w mw ms ⟨i, hi, j, hj, hne⟩
  have S := hu m n w mw ms
  obtain ⟨pre, post, e, h1, h2⟩ := hr m n w mw ms
  have hpre : pre ≠ [] := by
    intro h0
    apply hne
    rw [S.exact i hi j hj]
    unfold partialSVD
    apply Finset.sum_eq_zero
    intro c hc
    have : (la.svd m).2.1.getD c 0 = 0 := by
      rw [List.getD_eq_getElem?_getD]
      cases hg : (la.svd m).2.1[c]? with
      | none => rfl
      | some z =>
        have := List.mem_of_getElem? hg
        rw [e, h0, List.nil_append] at this
        exact (h2 z this).1
    rw [this]; ring
  obtain ⟨s0, pre', rfl⟩ := List.exists_cons_of_ne_nil hpre
  have c0 : la.isNonZero s0 = true := h1 s0 (by simp)
  refine ⟨?_, ?_⟩
  · rw [List.countP_pos_iff]; exact ⟨s0, by rw [e]; simp, c0⟩
  · have g0 : (la.svd m).2.1.getD 0 0 = s0 := by rw [e]; rfl
    by_contra hno
    push Not at hno
    have o := S.vOrtho 0 (by omega) 0 (by omega)
    rw [if_pos rfl] at o
    have : ∑ j ∈ range w, star ((la.svd m).2.2.get [0, j]) * (la.svd m).2.2.get [0, j] = 0 := by
      apply Finset.sum_eq_zero
      intro j hj
      have := hno j (Finset.mem_range.mp hj)
      rw [g0] at this
      rcases mul_eq_zero.mp this with h | h
      · rw [h]; ring
      · exact absurd h (hn s0 c0)
    rw [this] at o
    exact zero_ne_one o

theorem toTensor_none_fst [Zero R] (castF : R → R) (st : Store) (t : Tensor R) : (t.toTensor castF st none).1 = t := by
  unfold Tensor.toTensor
  split
  · rfl
  · simp only [Tensor.reArrangeOpt]
    split
    · rfl
    · split <;> rfl

/-- The first round of the loop. -/
theorem site_first [Zero R] {st : Store} (w : WFStore st) {l : LegId} {k : Nat} {u : NDArray R} (uw : u.WF)
    (us : u.shape = [st.dim l, k]) (hl : l < st.nextLeg) :
    ∃ s1 s2 t, st.newLeg none k "r" = (s1, st.nextLeg) ∧
      newTensor s1 [s1.dim l, k] (some u) [l, st.nextLeg] = .ok (s2, t) ∧
      Grows st s2 ∧ s2.nextLeg = st.nextLeg + 1 ∧ t.legs = [l, st.nextLeg] ∧ GoodTensor s2 t ∧ t.diag = false ∧
      t.id = st.nextTensor ∧ s2.nextTensor = st.nextTensor + 1 ∧
      s2.dim st.nextLeg = k ∧ (s2.leg st.nextLeg).bond = none ∧ (∀ z < st.nextLeg, z ≠ l → s2.leg z = st.leg z) ∧
      (∀ z ∈ t.legs, (s2.leg z).tensor = some t.id) ∧ ∀ σ, entry t σ = u.get [σ l, σ st.nextLeg] := by
  have e1 := newLeg_ext st none k "r"
  have o1 : ∀ z < st.nextLeg, (st.newLeg none k "r").1.leg z = st.leg z := fun z hz => newLeg_leg_other st none k "r" hz.ne
  have lx := newLeg_new st none k "r"
  generalize hs1 : (st.newLeg none k "r").1 = s1 at e1 o1 lx
  have n1 : s1.nextLeg = st.nextLeg + 1 := by rw [← hs1]; rfl
  have t1 : s1.nextTensor = st.nextTensor := by rw [← hs1]; rfl
  have dx : s1.dim st.nextLeg = k := by unfold Store.dim; rw [lx]
  have dl : s1.dim l = st.dim l := e1.dim l hl
  have nd : [l, st.nextLeg].Nodup := by
    have h1 : l ≠ st.nextLeg := hl.ne
    simp [h1]
  obtain ⟨s3, t, h1, h2, h3, h4, h5, h6, h7, h8, h9, h10⟩ := newTensor_full s1 [l, st.nextLeg]
    [s1.dim l, k] (by simp [dx]) u uw nd (by rw [us]; simp [dx, dl])
  refine ⟨s1, s3, t, by rw [← hs1]; rfl, h1, e1.trans h2.ext, by rw [h2.nextLeg, n1], h4, h3, h5, by rw [h6, t1],
    by rw [h7, t1], by rw [h2.dim, dx], by rw [h2.bondOf, lx], ?_, ?_, ?_⟩
  · intro z hz hzl
    have zx : z ≠ st.nextLeg := hz.ne
    rw [h9 z (by simp [zx, hzl]), o1 z hz]
  · intro z hz; rw [h4] at hz; rw [h10 z hz, h6]
  · intro σ
    rw [h8]
    simp only [List.map_cons, List.map_nil, dx, dl]
    exact NDArray.get_mk_reshape _ _ _ _ (by rw [us])

/-- A routine that finds no singular value in a zero matrix. -/
def ZeroHasNone [CommSemiring R] (la : LinAlg R) : Prop :=
  ∀ m n w, m.WF → m.shape = [n, w] → (∀ i < n, ∀ j < w, m.get [i, j] = 0) → (la.svd m).2.1.countP la.isNonZero = 0

theorem create_core [CommRing R] [StarRing R] {la : LinAlg R} (hla : ExactLinAlg la) {castF : R → R} {st : Store} {t : Tensor R}
    (w : WFStore st) (g : GoodTensor st t) (hc : t.diag = true → ∀ x, castF x = x) (old : ∀ l ∈ t.legs, l < st.nextLeg)
    (two : 2 ≤ t.legs.length) (pos : ∀ l ∈ t.legs, st.dim l ≠ 0)
    (apart : ∀ p ∈ t.legs, ∀ q ∈ t.legs, st.partner p ≠ some q) (chi : Option Nat) :
    (∃ st' m lft rgt, createMPS la castF st t chi = .ok (st', m) ∧ m.chi = (chi.map Int.ofNat).getD (-1) ∧
      m.activeIdx = none ∧ MadeFrom la chi st t st' m.tensors lft rgt ∧ (3 ≤ t.legs.length → chi ≠ some 0 ∧
        (ZeroHasNone la → ∃ σ, InRange st.dim t.legs σ ∧ entry t σ ≠ 0))) ∨
    (createMPS la castF st t chi = .error .valueError ∧ 3 ≤ t.legs.length ∧ (SeesNonZero la → chi ≠ some 0 →
      ∀ σ, InRange st.dim t.legs σ → entry t σ = 0)) := by
  obtain ⟨t', arr, e0, -, -, aw, as, aent⟩ := C15_toTensor castF g (Or.inr (by intro h; rw [h] at two; simp at two)) hc none
    (fun ls h => by cases h)
  obtain rfl : t = t' := by rw [← toTensor_none_fst castF st t, e0]
  match htl : t.legs with
  | [] => rw [htl] at two; simp at two
  | [_] => rw [htl] at two; simp at two
  | l :: l2 :: ls =>
    rw [htl] at old pos apart as aent
    have nd := g.nodup
    rw [htl, List.nodup_cons] at nd
    obtain ⟨ln, nls⟩ := nd
    have hl := old l (by simp)
    have hls : ∀ z ∈ l2 :: ls, z < st.nextLeg := fun z hz => old z (List.mem_cons_of_mem _ hz)
    generalize hW : ((l2 :: ls).map st.dim).prod = W
    have ap : arr.shape.prod = st.dim l * W := by rw [as, List.map_cons, List.prod_cons, hW]
    have aw1 : (⟨[arr.shape.prod], arr.data⟩ : NDArray R).WF := by
      have := aw
      unfold NDArray.WF at this ⊢
      rw [this]; simp
    obtain ⟨k, u, v, em, us, S⟩ := matrixSchmidt_one hla chi aw1 (show _ = [st.dim l * W] by rw [ap]) (pos l (by simp))
    obtain ⟨s1, s2, t0, e1, e2, gr, n2, tl, gt0, dt0, id0, nt2, dr, fr, frm, own, ent⟩ := site_first w S.uWF us hl
    have dls : (l2 :: ls).map s2.dim = (l2 :: ls).map st.dim := List.map_congr_left fun z hz => gr.dim z (hls z hz)
    have rl : st.nextLeg < s2.nextLeg := by rw [n2]; exact Nat.lt_succ_self _
    have hin : LoopIn s2 v k st.nextLeg (l2 :: ls) := by
      refine ⟨gr.wf w, ?_, ?_, fr, dr, ?_, S.vWF, by rw [S.vShape, dls, hW], ?_⟩
      · rw [List.nodup_cons]
        exact ⟨fun hm => lt_irrefl _ (hls _ hm), nls⟩
      · intro z hz
        rcases List.mem_cons.mp hz with rfl | hz
        · exact rl
        · exact (hls z hz).trans rl
      · intro p hp q hq
        rw [gr.partner w p (hls p hp)]
        exact apart p (List.mem_cons_of_mem _ hp) q (List.mem_cons_of_mem _ hq)
      · intro z hz
        rw [gr.dim z (hls z hz)]
        exact pos z (List.mem_cons_of_mem _ hz)
    have step : ∀ x, createLoop la chi s2 v k st.nextLeg (l2 :: ls) = x → createMPS la castF st t chi =
        (match x with | .error e => .error e | .ok p => MPS.new p.1 (t0 :: p.2) (chi.map Int.ofNat)) := by
      intro x hx
      have kk : u.shape.getD 1 0 = k := by rw [us]; rfl
      unfold createMPS
      simp only [htl, e0, em, kk, e1, e2, hx, bind, Except.bind]
      cases x <;> rfl
    rcases createLoop_spec hla chi (l2 :: ls) s2 v k st.nextLeg (by simp) hin with ⟨st3, ts, xs, ys, e, q⟩ | ⟨e, two', hz⟩
    · left
      have st1 := step _ e
      simp only at st1
      have rn : st.nextLeg ∉ l :: l2 :: ls := fun hm => lt_irrefl _ (old _ hm)
      have nr : ∀ z < st.nextLeg, z ≠ st.nextLeg := fun z hz => hz.ne
      have lt2 : ∀ z < st.nextLeg, z < s2.nextLeg := fun z hz => hz.trans rl
      have d3 : ∀ z < st.nextLeg, st3.dim z = st.dim z := fun z hz => by rw [q.dim z (lt2 z hz), gr.dim z hz]
      have b3 : ∀ z < st.nextLeg, (st3.leg z).bond = (st.leg z).bond ∧ st3.partner z = st.partner z := fun z hz =>
        ⟨(q.bond z (lt2 z hz) (nr z hz)).1.trans (gr.bond z hz),
          (q.bond z (lt2 z hz) (nr z hz)).2.trans (gr.partner w z hz)⟩
      have dr3 : st3.dim st.nextLeg = k := by rw [q.dim _ rl, dr]
      have tOld : ∀ z ∈ t0.legs, z < s2.nextLeg := by
        intro z hz
        rw [tl] at hz
        simp only [List.mem_cons, List.not_mem_nil, or_false] at hz
        rcases hz with rfl | rfl
        · exact lt2 _ hl
        · exact rl
      have gt3 : GoodTensor st3 t0 := gt0.congr_dim fun z hz => q.dim z (tOld z hz)
      have good3 : ∀ t' ∈ t0 :: ts, GoodTensor st3 t' ∧ t'.diag = false := by
        intro t' ht'
        rcases List.mem_cons.mp ht' with rfl | ht'
        · exact ⟨gt3, dt0⟩
        · exact q.good t' ht'
      have own3 : ∀ t' ∈ t0 :: ts, ∀ z ∈ t'.legs, (st3.leg z).tensor = some t'.id := by
        intro t' ht' z hz
        rcases List.mem_cons.mp ht' with rfl | ht'
        · rw [← own z hz]
          by_cases hzr : z = st.nextLeg
          · rw [hzr]; exact q.rOwner
          · rw [q.frame z (tOld z hz) ?_ hzr]
            rw [tl] at hz
            simp only [List.mem_cons, List.not_mem_nil, or_false] at hz
            rcases hz with rfl | rfl
            · exact ln
            · exact absurd rfl hzr
        · exact q.owner t' ht' z hz
      have ids3 : ((t0 :: ts).map fun t => t.id).Nodup := by
        rw [List.map_cons, List.nodup_cons]
        refine ⟨fun hm => ?_, q.ids⟩
        obtain ⟨t', ht', e⟩ := List.mem_map.mp hm
        have := (q.idNew t' ht').1
        rw [nt2, e, id0] at this
        exact absurd this (Nat.not_succ_le_self _)
      have flat3 := flat_of_owner (fun t' ht' => (good3 t' ht').1.nodup) ids3 own3
      have len3 : (t0 :: ts).length = (l :: l2 :: ls).length := by simp [q.lenT]
      have legs3 : ∀ (i : Nat) (t' : Tensor R), (t0 :: ts)[i]? = some t' → t'.legs.Perm
          (siteLegs (t0 :: ts).length (l :: l2 :: ls) (fun i => (0 :: xs).getD i 0) (fun i => (st.nextLeg :: ys).getD i 0) i) := by
        intro i t' hi
        rw [len3]
        match i with
        | 0 =>
          cases hi
          simp [siteLegs, tl]
        | i + 1 =>
          have := q.site i t' hi
          rw [this]
          unfold siteLegs
          by_cases hc : i + 1 < (l2 :: ls).length
          · have hc' : i + 1 + 1 < (l :: l2 :: ls).length := by simpa using hc
            simp only [if_pos hc, if_pos hc', Nat.succ_pos, if_true, List.getD_cons_succ]
            exact (List.perm_append_comm (l₁ := [xs.getD i 0]) (l₂ := [(l2 :: ls).getD i 0, ys.getD i 0]))
          · have hc' : ¬ i + 1 + 1 < (l :: l2 :: ls).length := by simpa using hc
            simp only [if_neg hc, if_neg hc', Nat.succ_pos, if_true, List.getD_cons_succ, List.nil_append]
            exact List.Perm.swap _ _ _
      have old3 : ∀ t' ∈ t0 :: ts, ∀ z ∈ t'.legs, z < st3.nextLeg := by
        intro t' ht' z hz
        rcases List.mem_cons.mp ht' with rfl | ht'
        · exact (tOld z hz).trans_le q.le
        · rcases q.mem ht' hz with h1 | h1
          · exact (lt2 z (hls z h1)).trans_le q.le
          · exact (q.isNew z h1).2
      have C3 : ChainLinks st3 (t0 :: ts) (l :: l2 :: ls) (fun i => (0 :: xs).getD i 0)
          (fun i => (st.nextLeg :: ys).getD i 0) := by
        refine ⟨q.wf, len3.symm, good3, legs3, old3, ?_, ?_, ?_⟩
        · intro i hi j hj hij x hx hx'
          have m1 := (legs3 i _ (List.getElem?_eq_getElem hi)).mem_iff.mpr hx
          have m2 := (legs3 j _ (List.getElem?_eq_getElem hj)).mem_iff.mpr hx'
          have e1 := own3 _ (List.getElem_mem hi) x m1
          have e2 := own3 _ (List.getElem_mem hj) x m2
          have e3 := Option.some.inj (e1.symm.trans e2)
          apply hij
          have := List.nodup_iff_injective_getElem.mp ids3
          have := @this ⟨i, by simpa using hi⟩ ⟨j, by simpa using hj⟩ (by simp only [List.getElem_map]; exact e3)
          simpa using this
        · intro i hi
          rw [len3] at hi
          match i with
          | 0 => exact q.first
          | i + 1 => exact q.joined i (by simpa using hi)
        · intro p hp z hz
          rw [(b3 p (old p hp)).2]
          exact apart p hp z hz
      obtain ⟨st', m, em', m1, m2, m3, ch, rel, oth⟩ := C47_new C3 (by simp) (chi.map Int.ofNat) (by
        intro c hc
        cases chi with
        | none => cases hc
        | some c' => cases hc; exact (by decide : (-1 : Int) ≤ 0).trans (Int.natCast_nonneg _))
      refine ⟨st', m, fun i => (0 :: xs).getD i 0, fun i => (st.nextLeg :: ys).getD i 0, st1.trans em', m2, m3, ?_, ?_⟩
      rotate_left
      · intro three
        have kp := q.posD (by simpa using three)
        rw [S.kept] at kp
        constructor
        · rintro rfl
          simp [keptOf] at kp
        · intro zn
          by_contra hno
          push Not at hno
          have := kp.trans_le (keptOf_le _ _)
          rw [zn _ _ _ S.mWF S.mShape ?_] at this
          · exact lt_irrefl _ this
          · intro i hi j hj
            have hij : i * W + j < ((l :: l2 :: ls).map st.dim).prod := by
              rw [List.map_cons, List.prod_cons, hW]
              calc i * W + j < i * W + W := by omega
                _ = (i + 1) * W := by ring
                _ ≤ st.dim l * W := Nat.mul_le_mul_right _ hi
            obtain ⟨τ, h1, -, h2⟩ := exists_assign st.dim (l :: l2 :: ls) (by rw [List.nodup_cons]; exact ⟨ln, nls⟩)
              (fun _ => 0) hij
            rw [← hno τ h1, ← aent τ h1]
            show arr.data.getD _ 0 = arr.data.getD _ 0
            congr 1
            rw [as, h2]
            simp [ravel]
      rw [m1] at ch ⊢
      have rd := rel.dim
      have rp := rel.partner q.wf.inv
      refine ⟨by rw [htl]; exact ch, ?_, ?_, ⟨?_, ?_⟩, ?_, ?_, ?_, ?_, ⟨ids3, ?_⟩, ?_, ?_⟩
      · intro c hc i hi
        rw [rd]
        match i with
        | 0 =>
          show st3.dim st.nextLeg ≤ c
          rw [dr3]; exact S.bound hc
        | i + 1 =>
          refine q.width c hc _ ?_
          show ys.getD i 0 ∈ ys
          have := q.lenY
          rw [len3] at hi
          simp only [List.length_cons] at hi this
          rw [List.getD_eq_getElem?_getD, List.getElem?_eq_getElem (by omega)]; exact List.getElem_mem _
      · intro i hi
        rw [rd, htl]
        rw [len3] at hi
        match i with
        | 0 =>
          show st3.dim st.nextLeg ≤ min ([l].map st.dim).prod ((l2 :: ls).map st.dim).prod
          rw [dr3, hW]
          simp only [List.map_cons, List.map_nil, List.prod_cons, List.prod_nil, mul_one]
          exact le_min S.kn S.kw
        | i + 1 =>
          have := q.dims i (by simpa using hi)
          rw [List.map_congr_left fun z hz => gr.dim z (hls z (List.mem_of_mem_take hz)),
            List.map_congr_left (g := st.dim) fun z hz => gr.dim z (hls z (List.mem_of_mem_drop hz))] at this
          show st3.dim (ys.getD i 0) ≤ min ((l :: (l2 :: ls).take (i + 1)).map st.dim).prod
            (((l2 :: ls).drop (i + 1)).map st.dim).prod
          refine this.trans (min_le_min_right _ ?_)
          rw [List.map_cons, List.prod_cons]
          exact Nat.mul_le_mul_right _ S.kn
      · rw [rel.nextLeg]; exact rl.le.trans q.le
      · rw [rel.nextTensor]
        have := q.leT
        rw [nt2] at this
        exact (Nat.le_succ _).trans this
      · intro i hi
        rw [len3] at hi
        simp only [List.length_cons] at hi
        have hX := q.lenX
        have hY := q.lenY
        simp only [List.length_cons] at hX hY
        constructor
        · match i with
          | 0 => exact le_rfl
          | i + 1 =>
            refine rl.le.trans (q.isNew _ (List.mem_append_right _ ?_)).1
            show ys.getD i 0 ∈ ys
            rw [List.getD_eq_getElem?_getD, List.getElem?_eq_getElem (by omega)]; exact List.getElem_mem _
        · refine rl.le.trans (q.isNew _ (List.mem_append_left _ ?_)).1
          show xs.getD i 0 ∈ xs
          rw [List.getD_eq_getElem?_getD, List.getElem?_eq_getElem (by omega)]; exact List.getElem_mem _
      · intro z hz
        exact ⟨by rw [rd, d3 z hz], by rw [(rel.leg z).2.1, (b3 z hz).1], by rw [rp, (b3 z hz).2]⟩
      · intro z hz hzt
        rw [htl] at hzt
        rw [oth z ?_, q.frame z (lt2 z hz) (fun hm => hzt (List.mem_cons_of_mem _ hm)) (nr z hz),
          frm z hz (fun e => hzt (by simp [e]))]
        intro t' ht' hm
        rcases List.mem_cons.mp ht' with rfl | ht'
        · rw [tl] at hm
          simp only [List.mem_cons, List.not_mem_nil, or_false] at hm
          rcases hm with rfl | rfl
          · exact hzt (by simp)
          · exact lt_irrefl _ hz
        · rcases q.mem ht' hm with h1 | h1
          · exact hzt (List.mem_cons_of_mem _ h1)
          · exact absurd (lt2 z hz) (Nat.not_lt.mpr (q.isNew z h1).1)
      · intro t' ht' z hz
        rw [(rel.leg z).2.2]
        exact own3 t' ht' z hz
      · intro t' ht'
        rw [rel.nextTensor]
        have := q.leT
        rw [nt2] at this
        rcases List.mem_cons.mp ht' with rfl | ht'
        · rw [id0]; exact ⟨le_rfl, this⟩
        · have h1 := q.idNew t' ht'
          rw [nt2] at h1
          exact ⟨(Nat.le_succ _).trans h1.1, h1.2⟩
      · intro hu
        refine ⟨fun j hj t' ht' => ?_, fun j hj t' ht' => ?_⟩
        · rw [htl]
          refine IsometryAt.congr (st := st3) ?_ (fun z _ => rd z)
          match j with
          | 0 =>
            cases ht'
            refine isometry_of_entries (by simp) ?_ (fun i c => u.get [i, c]) ?_ ?_
            · simp only [Nat.lt_irrefl, if_false, List.getD_cons_zero, List.mem_singleton]
              exact hl.ne'
            · intro σ _ _
              rw [ent]
              simp only [Nat.lt_irrefl, if_false, List.getD_cons_zero, List.map_cons, List.map_nil, ravel, List.prod_nil,
                mul_one, add_zero]
            · intro a ha b hb
              simp only [List.getD_cons_zero] at ha hb
              rw [dr3] at ha hb
              simp only [Nat.lt_irrefl, if_false, List.getD_cons_zero, List.map_cons, List.map_nil, List.prod_cons,
                List.prod_nil, mul_one, d3 l hl]
              rw [← S.ortho hu ha hb]
              refine Finset.sum_congr rfl fun i _ => ?_
              rw [NDArray.get_mk_reshape u [st.dim l, k] [i, a] [i, a] (by rw [us]),
                NDArray.get_mk_reshape u [st.dim l, k] [i, b] [i, b] (by rw [us])]
          | j + 1 =>
            have hj' : j + 1 < (l2 :: ls).length := by
              rw [len3] at hj
              simp only [List.length_cons] at hj ⊢
              omega
            have := q.iso hu j hj' t' ht'
            simp only [Nat.succ_pos, if_true, List.getD_cons_succ]
            refine this.perm (List.Perm.swap _ _ _) ?_
            have nd' := (q.good t' (List.mem_of_getElem? ht')).1.nodup
            rw [q.site j t' ht'] at nd'
            exact nd'.sublist (by simp)
        · exfalso
          have := (List.getElem?_eq_some_iff.mp ht').1
          omega
      · intro hr hw
        have hw' : ∀ i, 0 < i → i < (l :: l2 :: ls).length →
            Enough chi (min (1 * (((l :: l2 :: ls).take i).map st.dim).prod) (((l :: l2 :: ls).drop i).map st.dim).prod) := by
          intro i h0 hi c hc
          rw [one_mul]
          have := hw c hc i h0 (by rw [htl]; exact hi)
          rwa [htl] at this
        obtain ⟨w1, w2⟩ := wide_of (d := 1) hw'
        rw [one_mul] at w1 w2
        have qv := q.value hr ((w2.mono S.kn).congr fun z hz => gr.dim z (hls z hz))
        have x0 : xs.getD 0 0 ∈ xs := by
          rw [List.getD_eq_getElem?_getD, List.getElem?_eq_getElem (by rw [q.lenX]; simp)]; exact List.getElem_mem _
        have x0n : st.nextLeg < xs.getD 0 0 := rl.trans_le (q.isNew _ (List.mem_append_left ys x0)).1
        have dls3 : (l2 :: ls).map st3.dim = (l2 :: ls).map st.dim := List.map_congr_left fun z hz => d3 z (hls z hz)
        have oldt : ∀ t' ∈ [t], ∀ z ∈ t'.legs, z < st.nextLeg := by
          intro t' ht' z hz
          rw [List.mem_singleton] at ht'; subst ht'
          rw [htl] at hz; exact old z hz
        have s1' : SameValue st [t] st3 [t] :=
          SameValue.congr (L := []) ⟨w.inv, by simpa using g, by simpa using g.nodup⟩ q.wf.inv
            (g.congr_dim fun z hz => d3 z (oldt t (by simp) z hz)) (.refl _)
            (fun t' ht' z hz => d3 z (oldt t' ht' z hz)) (fun t' ht' z hz => (b3 z (oldt t' ht' z hz)).2) (fun _ _ => rfl)
        have cv : SameValue st3 [t] st3 [t0, ghost st3 (xs.getD 0 0 :: l2 :: ls) v] := by
          refine cut_value q.wf.inv (LA := [l]) (LB := l2 :: ls) (s1'.good'.good t (by simp)) gt3 (qv.good.good _ (by simp)) dt0 rfl
            (by rw [htl]; exact .refl _) (by rw [tl]; exact .swap _ _ _) (.refl _) ?_ q.first ?_ ?_
          · rw [List.nodup_cons, List.nodup_cons]
            refine ⟨?_, fun hm => lt_asymm x0n (old _ hm), by rw [List.singleton_append, List.nodup_cons]; exact ⟨ln, nls⟩⟩
            rw [List.mem_cons, not_or]
            exact ⟨x0n.ne, rn⟩
          · intro p hp z hz
            rw [List.mem_singleton] at hp
            subst hp
            rw [(b3 p hl).2]
            intro e
            rcases List.mem_cons.mp hz with h1 | h1
            · have := partner_lt w e
              rw [h1] at this
              exact lt_asymm x0n this
            · exact apart p (by simp) z (List.mem_cons_of_mem _ h1) e
          · intro σ hσ
            have hσl : σ l < st.dim l := by rw [← d3 l hl]; exact hσ l (by simp)
            have hrav : ravel ((l2 :: ls).map st3.dim) ((l2 :: ls).map σ) < W := by
              rw [← hW, ← dls3]
              exact ravel_lt' fun z hz => hσ z (by simp only [List.mem_append]; exact Or.inr hz)
            have hin' : InRange st.dim (l :: l2 :: ls) σ := fun z hz => by rw [← d3 z (old z hz)]; exact hσ z hz
            simp only [sumBonds]
            rw [sum_range_list, dr3, ← aent σ hin']
            have en : Enough chi (min (st.dim l) W) := by rw [← hW]; exact w1
            have target := S.exact hla hr en hσl hrav
            have lr : l ≠ st.nextLeg := hl.ne
            have lx0 : l ≠ xs.getD 0 0 := (hl.trans x0n).ne
            have rx0 : st.nextLeg ≠ xs.getD 0 0 := x0n.ne
            have rls : st.nextLeg ∉ l2 :: ls := fun hm => rn (List.mem_cons_of_mem _ hm)
            have x0ls : xs.getD 0 0 ∉ l2 :: ls := fun hm => lt_asymm (hls _ hm) x0n
            trans ∑ c ∈ range k, (⟨[st.dim l, k], u.data⟩ : NDArray R).get [σ l, c] *
              v.get [c, ravel ((l2 :: ls).map st3.dim) ((l2 :: ls).map σ)]
            · refine Finset.sum_congr rfl fun c _ => ?_
              rw [ent, ghost_entry st3 (xs.getD 0 0) (l2 :: ls) S.vShape (by rw [dls3, hW]), setRavel _ _ _ x0ls,
                setRavel _ _ _ rls, NDArray.get_mk_reshape u _ [σ l, c] [σ l, c] (by rw [us])]
              simp only [Assign.set, if_neg lr, if_neg lx0, if_neg rx0, if_true]
            · rw [target]
              show arr.data.getD _ 0 = arr.data.getD _ 0
              congr 1
              rw [as, dls3]
              have f1 : (l :: l2 :: ls).map st.dim = st.dim l :: (l2 :: ls).map st.dim := rfl
              have f2 : (l :: l2 :: ls).map σ = σ l :: (l2 :: ls).map σ := rfl
              rw [f1, f2]
              generalize (l2 :: ls).map σ = vs
              generalize (l2 :: ls).map st.dim = ds at hW ⊢
              simp [ravel, hW]
        have gM : GoodNet st3 ([t0] ++ ts) := ⟨q.wf.inv, fun t' ht' => (good3 t' ht').1, flat3⟩
        have fv := SameValue.frame (N := [t0]) qv cv.good' gM (fun _ _ _ _ => rfl) (fun _ _ _ _ => rfl)
        have lv : SameValue st3 (t0 :: ts) st' (t0 :: ts) :=
          SameValue.congr gM ch.wf.inv (gt3.congr_dim fun z _ => rd z) (.refl _) (fun _ _ z _ => rd z) (fun _ _ z _ => rp z)
            (fun _ _ => rfl)
        exact (s1'.trans cv).trans (fv.trans lv)
    · right
      refine ⟨step _ e, by simpa using two', fun h1 h2 σ hσ => ?_⟩
      by_contra hne
      apply hz h1 h2
      rw [dls, hW]
      refine S.nonzero h1 h2 ?_
      refine ⟨σ l, hσ l (by simp), ravel ((l2 :: ls).map st.dim) ((l2 :: ls).map σ), ?_, ?_⟩
      · rw [← hW]; exact ravel_lt' fun z hz => hσ z (List.mem_cons_of_mem _ hz)
      · rw [← aent σ hσ] at hne
        intro h0
        apply hne
        rw [← h0]
        show arr.data.getD _ 0 = arr.data.getD _ 0
        congr 1
        rw [as]
        have f1 : (l :: l2 :: ls).map st.dim = st.dim l :: (l2 :: ls).map st.dim := rfl
        have f2 : (l :: l2 :: ls).map σ = σ l :: (l2 :: ls).map σ := rfl
        rw [f1, f2]
        generalize (l2 :: ls).map σ = vs
        generalize (l2 :: ls).map st.dim = ds at hW ⊢
        simp [ravel, hW]

/-- A tensor with two or more legs is turned into a matrix product state with one site per leg, in the order of the legs;
no bond is wider than `chi`; the centre is the last site; the state is the tensor if `chi` is large enough.  The one
exception: for three or more legs, `chi = 0` and the zero tensor give a ValueError. -/
theorem C47_create [CommRing R] [StarRing R] {la : LinAlg R} (hla : ExactLinAlg la) (hz : SeesNonZero la)
    {castF : R → R} {st : Store} {t : Tensor R}
    (w : WFStore st) (g : GoodTensor st t) (hc : t.diag = true → ∀ x, castF x = x) (old : ∀ l ∈ t.legs, l < st.nextLeg)
    (two : 2 ≤ t.legs.length) (pos : ∀ l ∈ t.legs, st.dim l ≠ 0)
    (apart : ∀ p ∈ t.legs, ∀ q ∈ t.legs, st.partner p ≠ some q) (chi : Option Nat)
    (ok : t.legs.length = 2 ∨ chi ≠ some 0 ∧ ∃ σ, InRange st.dim t.legs σ ∧ entry t σ ≠ 0) :
    ∃ st' m lft rgt, createMPS la castF st t chi = .ok (st', m) ∧ m.chi = (chi.map Int.ofNat).getD (-1) ∧
      m.activeIdx = none ∧ MadeFrom la chi st t st' m.tensors lft rgt := by
  rcases create_core hla w g hc old two pos apart chi with ⟨st', m, lft, rgt, h1, h2, h3, h4, -⟩ | ⟨-, three, h⟩
  · exact ⟨st', m, lft, rgt, h1, h2, h3, h4⟩
  · exfalso
    rcases ok with ok | ⟨h0, σ, hσ, hne⟩
    · omega
    · exact hne (h hz h0 σ hσ)

/-- For three or more legs, `chi = 0` and the zero tensor give a ValueError. -/
theorem C47_create_refused [CommRing R] [StarRing R] {la : LinAlg R} (hla : ExactLinAlg la) (hz : ZeroHasNone la)
    {castF : R → R} {st : Store} {t : Tensor R}
    (w : WFStore st) (g : GoodTensor st t) (hc : t.diag = true → ∀ x, castF x = x) (old : ∀ l ∈ t.legs, l < st.nextLeg)
    (three : 3 ≤ t.legs.length) (pos : ∀ l ∈ t.legs, st.dim l ≠ 0)
    (apart : ∀ p ∈ t.legs, ∀ q ∈ t.legs, st.partner p ≠ some q) (chi : Option Nat)
    (bad : chi = some 0 ∨ ∀ σ, InRange st.dim t.legs σ → entry t σ = 0) :
    createMPS la castF st t chi = .error .valueError := by
  rcases create_core hla w g hc old (by omega) pos apart chi with ⟨st', m, lft, rgt, -, -, -, -, h⟩ | ⟨h, -⟩
  · exfalso
    obtain ⟨h0, h1⟩ := h three
    rcases bad with h | h
    · exact h0 h
    · obtain ⟨σ, hσ, hne⟩ := h1 hz
      exact hne (h σ hσ)
  · exact h

theorem zeroHasNone_of [CommRing R] [StarRing R] {la : LinAlg R} (hu : UnitaryLinAlg la)
    (hn : ∀ z, la.isNonZero z = true → z ≠ 0) : ZeroHasNone la := by
  intro m n w mw ms h0
  have S := hu m n w mw ms
  rw [List.countP_eq_zero]
  intro z hz hnz
  obtain ⟨k, hk, rfl⟩ := List.getElem_of_mem hz
  have hk' : k < min n w := S.sLen ▸ hk
  apply hn _ hnz
  have e0 : (la.svd m).2.1.getD k 0 = (la.svd m).2.1[k] := by
    rw [List.getD_eq_getElem?_getD, List.getElem?_eq_getElem hk]; rfl
  have kn : k < n := by omega
  have kw : k < w := by omega
  -- one row of `u* m` is a singular value times a row of `vh`
  have row : ∀ j < w, (la.svd m).2.1.getD k 0 * (la.svd m).2.2.get [k, j] = 0 := by
    intro j hj
    have h1 : ∑ i ∈ range n, star ((la.svd m).1.get [i, k]) * m.get [i, j] = 0 :=
      Finset.sum_eq_zero fun i hi => by rw [h0 i (Finset.mem_range.mp hi) j hj, mul_zero]
    refine Eq.trans ?_ h1
    have h2 : ∀ i ∈ range n, star ((la.svd m).1.get [i, k]) * m.get [i, j] = ∑ c ∈ range (min n w),
        (star ((la.svd m).1.get [i, k]) * (la.svd m).1.get [i, c]) * ((la.svd m).2.1.getD c 0 * (la.svd m).2.2.get [c, j]) := by
      intro i hi
      rw [S.exact i (Finset.mem_range.mp hi) j hj]
      unfold partialSVD
      rw [Finset.mul_sum]
      refine Finset.sum_congr rfl fun c _ => ?_
      ring
    rw [Finset.sum_congr rfl h2, Finset.sum_comm]
    have h3 : ∀ c ∈ range (min n w), ∑ i ∈ range n, (star ((la.svd m).1.get [i, k]) * (la.svd m).1.get [i, c]) *
        ((la.svd m).2.1.getD c 0 * (la.svd m).2.2.get [c, j]) =
        if k = c then (la.svd m).2.1.getD c 0 * (la.svd m).2.2.get [c, j] else 0 := by
      intro c hc
      have hc := Finset.mem_range.mp hc
      rw [← Finset.sum_mul, S.uOrtho k kn c (by omega)]
      split <;> simp
    rw [Finset.sum_congr rfl h3, Finset.sum_ite_eq, if_pos (Finset.mem_range.mpr hk')]
  have := S.vOrtho k kw k kw
  rw [if_pos rfl] at this
  calc (la.svd m).2.1[k] = (la.svd m).2.1.getD k 0 * 1 := by rw [e0, mul_one]
    _ = ∑ j ∈ range w, star ((la.svd m).2.2.get [k, j]) * ((la.svd m).2.1.getD k 0 * (la.svd m).2.2.get [k, j]) := by
      rw [← this, Finset.mul_sum]
      refine Finset.sum_congr rfl fun j _ => by ring
    _ = 0 := Finset.sum_eq_zero fun j hj => by rw [row j (Finset.mem_range.mp hj), mul_zero]

/-- A tensor without legs is refused; a tensor with one leg becomes a chain of that tensor itself. -/
theorem C47_create_small [CommSemiring R] (la : LinAlg R) (castF : R → R) {st : Store} (inv : BondInv st) (t : Tensor R)
    (chi : Option Nat) :
    (t.legs = [] → createMPS la castF st t chi = .error .assertionError) ∧
    (∀ l, t.legs = [l] → ∃ st' m, createMPS la castF st t chi = .ok (st', m) ∧ m.tensors = [t] ∧ Relabelled st st' ∧
      st'.name l = "o" ∧ ∀ z, z ≠ l → st'.leg z = st.leg z) := by
  constructor
  · intro h
    unfold createMPS
    rw [h]
    rfl
  · intro l h
    obtain ⟨st', m, e, h1, h2, h3, h4⟩ := C47_single inv (t := t) (by rw [h]; simp) (chi.map Int.ofNat) (by
        intro c hc
        cases chi with
        | none => cases hc
        | some c' => cases hc; exact (by decide : (-1 : Int) ≤ 0).trans (Int.natCast_nonneg _))
    refine ⟨st', m, ?_, h1, h2, h3 l (by simp [h]), fun z hz => h4 z (by simpa [h] using hz)⟩
    unfold createMPS
    rw [h]
    exact e

/-! ### Non-vacuity: a tensor with three legs over the real numbers -/

def exT3Store : Store where
  leg := fun l => match l with
    | 0 => ⟨2, "a", none, some 0⟩
    | 1 => ⟨3, "b", none, some 0⟩
    | 2 => ⟨2, "c", none, some 0⟩
    | _ => ⟨0, "", none, none⟩
  bond := fun _ => (0, 0)
  nextLeg := 3
  nextBond := 0
  nextTensor := 1

noncomputable def exT3 : Tensor ℝ := ⟨0, [0, 1, 2], some ⟨[2, 3, 2], [1, 0, 2, 0, 3, 0, 4, 1, 5, 1, 6, 1]⟩, false, false, 0⟩

theorem exT3Store_free (l : LegId) : (exT3Store.leg l).bond = none := by
  match l with
  | 0 | 1 | 2 => rfl
  | n + 3 => rfl

theorem exT3Store_wf : WFStore exT3Store := by
  refine ⟨?_, ?_, ?_⟩ <;> intro l b h <;> rw [exT3Store_free] at h <;> cases h

theorem exT3Store_partner (l : LegId) : exT3Store.partner l = none := by
  unfold Store.partner; rw [exT3Store_free]

theorem exT3_good : GoodTensor exT3Store exT3 :=
  ⟨by show ([0, 1, 2] : List Nat).Nodup; decide, rfl, _, rfl, rfl, fun _ => rfl, fun h => by cases h⟩

/-- With the exact decomposition of real matrices, the tensor becomes a chain of three sites with the same value. -/
example : ∃ (la : LinAlg ℝ) (st' : Store) (m : MPS ℝ), createMPS la id exT3Store exT3 (some 4) = .ok (st', m) ∧
    IsChain st' m.tensors [0, 1, 2] ∧ SameValue exT3Store [exT3] st' m.tensors := by
  obtain ⟨la, h1, h2, h3, h4⟩ := exists_linAlg ℝ
  obtain ⟨st', m, lft, rgt, e, -, -, M⟩ := C47_create h1 (seesNonZero_of h2 h3 fun z => (h4 z).mp) (castF := id) exT3Store_wf
    exT3_good (fun h => by cases h) (by show ∀ l ∈ ([0, 1, 2] : List Nat), l < 3; decide) (by show 2 ≤ 3; decide)
    (by show ∀ l ∈ ([0, 1, 2] : List Nat), exT3Store.dim l ≠ 0; decide)
    (fun p _ q _ => by rw [exT3Store_partner]; simp) (some 4)
    (Or.inr ⟨by simp, fun _ => 0, by
      refine ⟨fun l hl => ?_, ?_⟩
      · show 0 < exT3Store.dim l
        have : ∀ l ∈ ([0, 1, 2] : List Nat), 0 < exT3Store.dim l := by decide
        exact this l hl
      · simp [entry, exT3, NDArray.get, ravel]⟩)
  refine ⟨la, st', m, e, ⟨lft, rgt, M.chain⟩, M.value h3 ?_⟩
  intro c hc i h0 hi
  cases hc
  have hi : i < 3 := hi
  interval_cases i <;> decide

/-- The zero tensor of the same shape is refused. -/
example : ∃ la : LinAlg ℝ, createMPS la id exT3Store ⟨0, [0, 1, 2], some ⟨[2, 3, 2], List.replicate 12 0⟩, false, false, 0⟩ none =
    .error .valueError := by
  obtain ⟨la, h1, h2, h3, h4⟩ := exists_linAlg ℝ
  refine ⟨la, C47_create_refused h1 (zeroHasNone_of h2 fun z => (h4 z).mp) (castF := id) exT3Store_wf
    ⟨by show ([0, 1, 2] : List Nat).Nodup; decide, rfl, _, rfl, by simp [NDArray.WF], fun _ => rfl, fun h => by cases h⟩
    (fun h => by cases h) (by show ∀ l ∈ ([0, 1, 2] : List Nat), l < 3; decide) (by show 3 ≤ 3; decide)
    (by show ∀ l ∈ ([0, 1, 2] : List Nat), exT3Store.dim l ≠ 0; decide)
    (fun p _ q _ => by rw [exT3Store_partner]; simp) none (Or.inr fun σ _ => ?_)⟩
  simp only [entry, NDArray.get, Bool.false_eq_true, if_false]
  rw [List.getD_eq_getElem?_getD, List.getElem?_replicate]
  split <;> rfl

/-- A tensor with one leg. -/
example : ∃ st' m, createMPS (trivLA Int) id exT3Store (⟨0, [0], some ⟨[2], [1, 5]⟩, false, false, 0⟩ : Tensor Int) none =
    .ok (st', m) ∧ m.tensors = [⟨0, [0], some ⟨[2], [1, 5]⟩, false, false, 0⟩] ∧ st'.name 0 = "o" := by
  obtain ⟨st', m, h1, h2, -, h3, -⟩ := (C47_create_small (trivLA Int) id (st := exT3Store)
    (fun l b h => by rw [exT3Store_free] at h; cases h)
    (⟨0, [0], some ⟨[2], [1, 5]⟩, false, false, 0⟩ : Tensor Int) none).2 0 rfl
  exact ⟨st', m, h1, h2, h3⟩

end CTL
