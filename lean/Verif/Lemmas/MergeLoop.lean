import Verif.Lemmas.Links

/-! `mergeMPS` leaves at most one bond between the two chains and does not change the bonds to other chains. -/

namespace CTL
variable {R : Type}

theorem cnt_perm {st : Store} {P P' : List LegId} (p : P.Perm P') (Q : List LegId) : cnt st P Q = cnt st P' Q := p.countP_eq _

theorem cnt_append (st : Store) (P P' Q : List LegId) : cnt st (P ++ P') Q = cnt st P Q + cnt st P' Q := List.countP_append

theorem meets_perm {st : Store} {Q Q' : List LegId} (q : Q.Perm Q') (p : LegId) : meets st Q p = meets st Q' p := by
  rw [Bool.eq_iff_iff, meets_iff, meets_iff]
  simp only [q.mem_iff]

theorem cnt_perm_right {st : Store} {Q Q' : List LegId} (q : Q.Perm Q') (P : List LegId) : cnt st P Q = cnt st P Q' :=
  List.countP_congr fun p _ => by rw [meets_perm q]

theorem cnt_eq_zero {st : Store} {P Q : List LegId} (h : ∀ p ∈ P, ∀ m ∈ Q, st.partner p ≠ some m) : cnt st P Q = 0 := by
  unfold cnt
  rw [List.countP_eq_zero]
  intro p hp hm
  obtain ⟨m, h1, h2⟩ := meets_iff.mp hm
  exact h p hp m h1 h2

theorem cnt_all {st : Store} {P Q : List LegId} (h : ∀ p ∈ P, ∃ m ∈ Q, st.partner p = some m) : cnt st P Q = P.length := by
  unfold cnt
  rw [List.countP_eq_length]
  exact fun p hp => meets_iff.mpr (h p hp)

theorem cnt_congr {st st' : Store} {P : List LegId} (h : ∀ p ∈ P, st'.partner p = st.partner p) (Q : List LegId) :
    cnt st' P Q = cnt st P Q := by
  unfold cnt
  refine List.countP_congr fun p hp => ?_
  unfold meets
  rw [h p hp]

theorem cnt_pos {st : Store} {P Q : List LegId} : 0 < cnt st P Q ↔ ∃ p ∈ P, ∃ q ∈ Q, st.partner p = some q := by
  unfold cnt
  rw [List.countP_pos_iff]
  simp only [meets_iff]

/-- Seen from the two sides, the bonds are the same. -/
theorem links_perm {st : Store} (inv : BondInv st) {P Q : List LegId} (nP : P.Nodup) (nQ : Q.Nodup) :
    ((P.filter (meets st Q)).map fun p => (st.partner p).getD 0).Perm (Q.filter (meets st P)) := by
  refine (List.perm_ext_iff_of_nodup ?_ (nQ.filter _)).mpr ?_
  · refine List.Nodup.map_on ?_ (nP.filter _)
    intro x hx y hy e
    obtain ⟨m, -, h1⟩ := meets_iff.mp (List.mem_filter.mp hx).2
    obtain ⟨k, -, h2⟩ := meets_iff.mp (List.mem_filter.mp hy).2
    rw [h1, h2] at e
    have e : m = k := e
    subst e
    exact Option.some.inj ((partner_symm inv h1).symm.trans (partner_symm inv h2))
  · intro q
    rw [List.mem_map, List.mem_filter, meets_iff]
    constructor
    · rintro ⟨p, hp, rfl⟩
      obtain ⟨h1, h2⟩ := List.mem_filter.mp hp
      obtain ⟨m, hm, h3⟩ := meets_iff.mp h2
      rw [h3]
      exact ⟨hm, p, h1, partner_symm inv h3⟩
    · rintro ⟨hq, p, hp, h⟩
      have := partner_symm inv h
      exact ⟨p, List.mem_filter.mpr ⟨hp, meets_iff.mpr ⟨q, hq, this⟩⟩, by rw [this]; rfl⟩

theorem cnt_symm {st : Store} (inv : BondInv st) {P Q : List LegId} (nP : P.Nodup) (nQ : Q.Nodup) : cnt st P Q = cnt st Q P := by
  unfold cnt
  rw [List.countP_eq_length_filter, List.countP_eq_length_filter, ← (links_perm inv nP nQ).length_eq, List.length_map]

theorem bondOf_kept {st st' : Store} (k : LegsKept st st') {p : LegId} (h : p < st.nextLeg) : bondOf st' p = bondOf st p := by
  unfold bondOf
  rw [(k p h).2.1]

theorem bondOf_of_partner {st : Store} {p m : LegId} (h : st.partner p = some m) : (st.leg p).bond = some (bondOf st p) := by
  unfold Store.partner at h
  unfold bondOf
  split at h
  · cases h
  · rename_i c hc
    rw [hc]; rfl

theorem mergeLoop_step [Field R] [StarRing R] {la : LinAlg R} (hla : GoodAlg la) (cast castF : R → R) {chi : Nat}
    {N : List (Tensor R)} {RA RB : List LegId} : ∀ (n : Nat) {st : Store} {a b : MPS R} {PA PB ps qs : List LegId} {D : Nat},
    ps.length = n → Duo st N a.tensors b.tensors → IsChain st a.tensors PA → IsChain st b.tensors PB → a.chi = chi → b.chi = chi →
    PA.Perm (ps ++ RA) → PB.Perm (qs ++ RB) → List.Forall₂ (fun p q => st.partner p = some q) ps qs →
    Within st a.tensors D → Within st b.tensors D → 1 ≤ D → D ^ (2 ^ (n - 1)) ≤ chi →
    ∃ st' a' b' PA' PB' ps' qs', mergeLoop la cast castF st a b (ps.map (bondOf st)) = .ok (st', a', b') ∧
      Step st (a.tensors ++ b.tensors) st' (a'.tensors ++ b'.tensors) ∧ IsChain st' a'.tensors PA' ∧ IsChain st' b'.tensors PB' ∧
      PA'.Perm (ps' ++ RA) ∧ PB'.Perm (qs' ++ RB) ∧ List.Forall₂ (fun p q => st'.partner p = some q) ps' qs' ∧
      ps'.length = min n 1 ∧ a'.chi = chi ∧ b'.chi = chi ∧
      Within st' a'.tensors (D ^ (2 ^ (n - 1))) ∧ Within st' b'.tensors (D ^ (2 ^ (n - 1))) := by
  intro n
  induction n with
  | zero =>
    intro st a b PA PB ps qs D hn d CA CB ca cb pA pB fa wA wB h1 big
    obtain rfl := List.length_eq_zero_iff.mp hn
    refine ⟨st, a, b, PA, PB, [], qs, ?_, ?_, CA, CB, pA, pB, fa, rfl, ca, cb, by simpa using wA, by simpa using wB⟩
    · unfold mergeLoop; rfl
    · exact .refl d.sound.wf (fun t ht => d.sound.dense t (List.mem_append_right _ ht)) d.sound.goodNet.part.1
  | succ n ih =>
    intro st a b PA PB ps qs D hn d CA CB ca cb pA pB fa wA wB h1 big
    match ps, hn with
    | [p], hn =>
      have : n = 0 := by simpa using hn.symm
      subst this
      refine ⟨st, a, b, PA, PB, [p], qs, ?_, ?_, CA, CB, pA, pB, fa, rfl, ca, cb, by simpa using wA, by simpa using wB⟩
      · unfold mergeLoop; rfl
      · exact .refl d.sound.wf (fun t ht => d.sound.dense t (List.mem_append_right _ ht)) d.sound.goodNet.part.1
    | p1 :: p2 :: ps, hn =>
      obtain ⟨k, rfl⟩ : ∃ k, n = k + 1 := ⟨n - 1, by simp at hn; omega⟩
      cases fa with
      | cons k1 fa =>
      rename_i q1 qs
      cases fa with
      | cons k2 fa =>
      rename_i q2 qs
      have CA0 := CA
      have CB0 := CB
      obtain ⟨_, _, CA1⟩ := CA0
      obtain ⟨_, _, CB1⟩ := CB0
      have ndA : (p1 :: p2 :: ps ++ RA).Nodup := pA.nodup_iff.mp CA1.phys_nodup
      have mA : ∀ x ∈ p1 :: p2 :: ps, x ∈ PA := fun x hx => pA.mem_iff.mpr (List.mem_append_left _ hx)
      have mB : ∀ x ∈ q1 :: q2 :: qs, x ∈ PB := fun x hx => pB.mem_iff.mpr (List.mem_append_left _ hx)
      have hne : p1 ≠ p2 := by
        rintro rfl
        rw [List.cons_append, List.nodup_cons] at ndA
        exact ndA.1 (by simp)
      have hDD : D * D ≤ chi := by
        refine le_trans ?_ big
        rw [← Nat.pow_two]
        refine Nat.pow_le_pow_right h1 ?_
        rw [show k + 1 + 1 - 1 = k + 1 by omega, Nat.pow_succ]
        have := Nat.one_le_two_pow (n := k)
        omega
      obtain ⟨st1, a1, b1, c, x, y, PA1, PB1, RA1, RB1, e1, f1, C1A, C1B, p1A, p1A', p1B, p1B', pxy, bx, newx, newy, chiA, chiB, WA1, WB1⟩ :=
        doubleMergeByBond_step hla cast castF d CA CB ca cb (mA p1 (by simp)) (mA p2 (by simp)) hne (mB q1 (by simp)) (mB q2 (by simp))
          k1 k2 (bondOf_of_partner k1) (bondOf_of_partner k2) wA wB h1 hDD
      have d1 := d.both f1
      have rA : RA1.Perm (ps ++ RA) := (List.Perm.cons_inv (List.Perm.cons_inv (p1A.symm.trans pA)))
      have rB : RB1.Perm (qs ++ RB) := (List.Perm.cons_inv (List.Perm.cons_inv (p1B.symm.trans pB)))
      have old : ∀ p ∈ ps, p < st.nextLeg := by
        intro p hp
        obtain ⟨t, ht, h⟩ := CA1.phys_mem (mA p (by simp [hp]))
        exact CA1.old t ht p h
      have fa1 : List.Forall₂ (fun p q => st1.partner p = some q) (x :: ps) (y :: qs) := by
        refine .cons pxy ?_
        rw [List.forall₂_iff_get] at fa ⊢
        refine ⟨fa.1, fun i h1 h2 => ?_⟩
        rw [(f1.kept _ (old _ (List.get_mem ps _))).2.2]
        exact fa.2 i h1 h2
      have hpow : (D * D) ^ (2 ^ (k + 1 - 1)) = D ^ (2 ^ (k + 1 + 1 - 1)) := by
        rw [← Nat.pow_two, ← pow_mul, show k + 1 - 1 = k by omega, show k + 1 + 1 - 1 = k + 1 by omega, Nat.pow_succ, Nat.mul_comm]
      obtain ⟨st2, a2, b2, PA2, PB2, ps2, qs2, e2, f2, C2A, C2B, p2A, p2B, fa2, len, ca2, cb2, W2A, W2B⟩ :=
        ih (ps := x :: ps) (qs := y :: qs) (by simpa using hn) d1 C1A C1B chiA chiB
          (p1A'.trans (List.Perm.cons _ rA)) (p1B'.trans (List.Perm.cons _ rB)) fa1 WA1 WB1 (Nat.mul_pos h1 h1) (by rw [hpow]; exact big)
      rw [hpow] at W2A W2B
      refine ⟨st2, a2, b2, PA2, PB2, ps2, qs2, ?_, f1.trans f2, C2A, C2B, p2A, p2B, fa2, by omega, ca2, cb2, W2A, W2B⟩
      have em : ps.map (bondOf st1) = ps.map (bondOf st) := List.map_congr_left fun p hp => bondOf_kept f1.kept (old p hp)
      have ex : bondOf st1 x = c := by unfold bondOf; rw [bx]; rfl
      rw [List.map_cons, em, ex] at e2
      rw [List.map_cons, List.map_cons]
      unfold mergeLoop
      simp only [e1, bind, Except.bind, e2]

/-- What `mergeMPS` does. -/
theorem mergeMPS_step [Field R] [StarRing R] {la : LinAlg R} (hla : GoodAlg la) (cast castF : R → R) {chi : Nat}
    {N : List (Tensor R)} {st : Store} {a b : MPS R} {PA PB : List LegId} {D : Nat} (d : Duo st N a.tensors b.tensors)
    (CA : IsChain st a.tensors PA) (CB : IsChain st b.tensors PB) (ca : a.chi = chi) (cb : b.chi = chi) (wA : Within st a.tensors D)
    (wB : Within st b.tensors D) (h1 : 1 ≤ D) (big : D ^ (2 ^ (cnt st PA PB - 1)) ≤ chi) {flag : Bool}
    (few : flag = true ∨ cnt st PA PB ≤ 2) :
    ∃ st' a' b' PA' PB', mergeMPS la cast castF st a b flag = .ok (st', a', b') ∧
      Step st (a.tensors ++ b.tensors) st' (a'.tensors ++ b'.tensors) ∧ IsChain st' a'.tensors PA' ∧ IsChain st' b'.tensors PB' ∧
      cnt st' PA' PB' = min (cnt st PA PB) 1 ∧
      (∀ Q : List LegId, (∀ q ∈ Q, q ∉ PB ∧ q ∉ PB') → cnt st' PA' Q = cnt st PA Q) ∧
      (∀ Q : List LegId, (∀ q ∈ Q, q ∉ PA ∧ q ∉ PA') → cnt st' PB' Q = cnt st PB Q) ∧
      PA'.length + (cnt st PA PB - 1) = PA.length ∧ PB'.length + (cnt st PA PB - 1) = PB.length ∧ a'.chi = chi ∧ b'.chi = chi ∧
      Within st' a'.tensors (D ^ (2 ^ (cnt st PA PB - 1))) ∧ Within st' b'.tensors (D ^ (2 ^ (cnt st PA PB - 1))) := by
  have CA0 := CA
  have CB0 := CB
  obtain ⟨_, _, CA1⟩ := CA0
  obtain ⟨_, _, CB1⟩ := CB0
  have inv := d.sound.wf.inv
  have nA := CA1.phys_nodup
  have nB := CB1.phys_nodup
  set ps := PA.filter (meets st PB) with hps
  set RA := PA.filter fun p => !(meets st PB p) with hRA
  set RB := PB.filter fun p => !(meets st PA p) with hRB
  set qs := ps.map fun p => (st.partner p).getD 0 with hqs
  have pq : qs.Perm (PB.filter (meets st PA)) := links_perm inv nA nB
  have pA : PA.Perm (ps ++ RA) := (List.filter_append_perm _ PA).symm
  have pB : PB.Perm (qs ++ RB) := (List.filter_append_perm (meets st PA) PB).symm.trans (pq.symm.append_right _)
  have fa : List.Forall₂ (fun p q => st.partner p = some q) ps qs := by
    rw [hqs, List.forall₂_map_right_iff, List.forall₂_same]
    intro p hp
    obtain ⟨m, -, h⟩ := meets_iff.mp (List.mem_filter.mp hp).2
    rw [h]; rfl
  have hn : cnt st PA PB = ps.length := by unfold cnt; rw [List.countP_eq_length_filter]
  rw [hn] at big few ⊢
  obtain ⟨st', a', b', PA', PB', ps', qs', e, f, C1A, C1B, pA', pB', fa', len, ca', cb', WA, WB⟩ :=
    mergeLoop_step hla cast castF ps.length rfl d CA CB ca cb pA pB fa wA wB h1 big
  have d1 := d.both f
  have inv' := d1.sound.wf.inv
  have C2A := C1A
  have C2B := C1B
  obtain ⟨_, _, C2A⟩ := C2A
  obtain ⟨_, _, C2B⟩ := C2B
  have ndA' := pA'.nodup_iff.mp C2A.phys_nodup
  have ndB' := pB'.nodup_iff.mp C2B.phys_nodup
  have qlen : qs'.length = ps'.length := fa'.length_eq.symm
  have fwd : ∀ p ∈ ps', ∃ q ∈ qs', st'.partner p = some q := by
    intro p hp
    rw [List.forall₂_iff_get] at fa'
    obtain ⟨i, hi, rfl⟩ := List.getElem_of_mem hp
    exact ⟨qs'[i]'(by rw [qlen]; exact hi), List.getElem_mem _, fa'.2 i hi (by rw [qlen]; exact hi)⟩
  have bwd : ∀ q ∈ qs', ∃ p ∈ ps', st'.partner p = some q := by
    intro q hq
    rw [List.forall₂_iff_get] at fa'
    obtain ⟨i, hi, rfl⟩ := List.getElem_of_mem hq
    exact ⟨ps'[i]'(by rw [← qlen]; exact hi), List.getElem_mem _, fa'.2 i (by rw [← qlen]; exact hi) hi⟩
  have oldA : ∀ p ∈ PA, st'.partner p = st.partner p := by
    intro p hp
    obtain ⟨t, ht, h⟩ := CA1.phys_mem hp
    exact (f.kept p (CA1.old t ht p h)).2.2
  have oldB : ∀ p ∈ PB, st'.partner p = st.partner p := by
    intro p hp
    obtain ⟨t, ht, h⟩ := CB1.phys_mem hp
    exact (f.kept p (CB1.old t ht p h)).2.2
  have subA : ∀ p ∈ RA, p ∈ PA := fun p hp => (List.mem_filter.mp hp).1
  have subB : ∀ p ∈ RB, p ∈ PB := fun p hp => (List.mem_filter.mp hp).1
  refine ⟨st', a', b', PA', PB', ?_, f, C1A, C1B, ?_, ?_, ?_, ?_, ?_, ca', cb', WA, WB⟩
  · unfold mergeMPS
    simp only [d.commonBonds_eq CA1 CB1, bind, Except.bind, List.length_map, ← hps]
    by_cases c : ps.length ≤ 1
    · rw [if_pos c, ← e]
      unfold mergeLoop
      match ps, c with
      | [], _ => rfl
      | [_], _ => rfl
    · rw [if_neg c]
      have : (flag || decide (ps.length = 2)) = true := by
        rcases few with h | h
        · rw [h]; rfl
        · rw [show ps.length = 2 by omega]; simp
      simp only [this, pyAssert, if_true, e]
  · rw [cnt_perm pA', cnt_append, cnt_all, cnt_eq_zero, len]
    · rfl
    · intro r hr m hm k
      have hrA := subA r hr
      have k' := k
      rw [oldA r hrA] at k'
      rcases List.mem_append.mp (pB'.mem_iff.mp hm) with h | h
      · obtain ⟨p, hp, h2⟩ := bwd m h
        have := Option.some.inj ((partner_symm inv' h2).symm.trans (partner_symm inv' k))
        subst this
        exact (List.nodup_append.mp ndA').2.2 p hp p hr rfl
      · have hm : meets st PB r = true := meets_iff.mpr ⟨m, subB m h, k'⟩
        have := (List.mem_filter.mp hr).2
        rw [hm] at this
        cases this
    · intro p hp
      obtain ⟨q, hq, h⟩ := fwd p hp
      exact ⟨q, pB'.mem_iff.mpr (List.mem_append_left _ hq), h⟩
  · intro Q hQ
    rw [cnt_perm pA', cnt_append, cnt_perm pA, cnt_append, cnt_eq_zero, cnt_eq_zero (P := ps), cnt_congr fun p hp => oldA p (subA p hp)]
    · intro p hp m hm k
      obtain ⟨m', hm', k'⟩ := meets_iff.mp (List.mem_filter.mp hp).2
      obtain rfl := Option.some.inj (k.symm.trans k')
      exact (hQ m hm).1 hm'
    · intro p hp m hm k
      obtain ⟨m', hm', k'⟩ := fwd p hp
      obtain rfl := Option.some.inj (k.symm.trans k')
      exact (hQ m hm).2 (pB'.mem_iff.mpr (List.mem_append_left _ hm'))
  · intro Q hQ
    rw [cnt_perm pB', cnt_append, cnt_perm pB, cnt_append, cnt_eq_zero, cnt_eq_zero (P := qs), cnt_congr fun p hp => oldB p (subB p hp)]
    · intro q hq m hm k
      obtain ⟨-, h⟩ := List.mem_filter.mp (pq.mem_iff.mp hq)
      obtain ⟨m', hm', k'⟩ := meets_iff.mp h
      obtain rfl := Option.some.inj (k.symm.trans k')
      exact (hQ m hm).1 hm'
    · intro q hq m hm k
      obtain ⟨p, hp, k'⟩ := bwd q hq
      obtain rfl := Option.some.inj (k.symm.trans (partner_symm inv' k'))
      exact (hQ m hm).2 (pA'.mem_iff.mpr (List.mem_append_left _ hp))
  · rw [pA'.length_eq, pA.length_eq, List.length_append, List.length_append, len]
    omega
  · rw [pB'.length_eq, pB.length_eq, List.length_append, List.length_append, qlen, len, show qs.length = ps.length from List.length_map ..]
    omega

end CTL
