import Verif.Lemmas.Merge
import Verif.Lemmas.Diag3

/-! `SchimdtDecomposition` in its three-factor form. -/

namespace CTL
variable {R : Type}
open Finset

/-- Four new legs. -/
theorem fourLegs (st : Store) (k : Nat) (a b : String) :
    ∃ s, ((((st.newLeg none k a).1.newLeg none k b).1.newLeg none k a).1.newLeg none k b).1 = s ∧ Grows st s ∧
      s.nextLeg = st.nextLeg + 4 ∧ s.nextTensor = st.nextTensor ∧ (∀ l < st.nextLeg, s.leg l = st.leg l) ∧
      s.leg st.nextLeg = ⟨k, a, none, none⟩ ∧ s.leg (st.nextLeg + 1) = ⟨k, b, none, none⟩ ∧
      s.leg (st.nextLeg + 2) = ⟨k, a, none, none⟩ ∧ s.leg (st.nextLeg + 3) = ⟨k, b, none, none⟩ := by
  refine ⟨_, rfl, (((newLeg_ext st none k a).trans (newLeg_ext _ none k b)).trans (newLeg_ext _ none k a)).trans
    (newLeg_ext _ none k b), rfl, rfl, ?_, ?_, ?_, ?_, ?_⟩
  · intro l hl
    have : ∀ j, l ≠ st.nextLeg + j := fun j e => absurd hl (Nat.not_lt.mpr (e ▸ Nat.le_add_right _ _))
    have h0 := this 0
    have h1 := this 1
    have h2 := this 2
    have h3 := this 3
    simp only [Nat.add_zero] at h0
    simp [Store.newLeg, Store.setLeg, h0, h1, h2, h3]
  · have : ∀ j, st.nextLeg ≠ st.nextLeg + (j + 1) := fun j => (Nat.lt_add_of_pos_right (Nat.succ_pos j)).ne
    have h1 := this 0
    have h2 := this 1
    have h3 := this 2
    simp only [Nat.zero_add, ← Nat.add_assoc] at h1 h2 h3
    simp [Store.newLeg, Store.setLeg, h1, h2, h3]
  all_goals simp [Store.newLeg, Store.setLeg]

/-- The four new legs and the three tensors built on them; not linked yet. -/
theorem split3_core [Zero R] {st : Store} {LA LB : List LegId} (hA : ∀ l ∈ LA, l < st.nextLeg)
    (hB : ∀ l ∈ LB, l < st.nextLeg) (nA : LA.Nodup) (nB : LB.Nodup) (k : Nat) (a b : String) (dU dV : NDArray R) (d : List R)
    (wU : dU.WF) (wV : dV.WF) (sU : dU.shape = [(LA.map st.dim).prod, k]) (sV : dV.shape = [k, (LB.map st.dim).prod])
    (sd : d.length = k) :
    ∃ s4 s5 u s6 g s7 v,
      ((((st.newLeg none k a).1.newLeg none k b).1.newLeg none k a).1.newLeg none k b).1 = s4 ∧
      newTensor s4 (LA.map s4.dim ++ [k]) (some dU) (LA ++ [st.nextLeg]) = .ok (s5, u) ∧
      newDiagonal s5 [k, k] (some (NDArray.vector d)) [st.nextLeg + 1, st.nextLeg + 2] = .ok (s6, g) ∧
      newTensor s6 (k :: LB.map s6.dim) (some dV) ((st.nextLeg + 3) :: LB) = .ok (s7, v) ∧
      Grows st s7 ∧ s7.nextLeg = st.nextLeg + 4 ∧ (∀ l < st.nextLeg, s7.name l = st.name l) ∧
      (∀ j : Nat, j < 4 → s7.dim (st.nextLeg + j) = k ∧ (s7.leg (st.nextLeg + j)).bond = none) ∧
      s7.name st.nextLeg = a ∧ s7.name (st.nextLeg + 1) = b ∧ s7.name (st.nextLeg + 2) = a ∧ s7.name (st.nextLeg + 3) = b ∧
      GoodTensor s7 u ∧ GoodTensor s7 g ∧ GoodTensor s7 v ∧ u.legs = LA ++ [st.nextLeg] ∧
      g.legs = [st.nextLeg + 1, st.nextLeg + 2] ∧ v.legs = (st.nextLeg + 3) :: LB ∧
      u.diag = false ∧ g.diag = true ∧ v.diag = false ∧
      (∀ σ, InRange st.dim LA σ → entry u σ = dU.get [ravel (LA.map st.dim) (LA.map σ), σ st.nextLeg]) ∧
      (∀ σ, σ (st.nextLeg + 1) < k → entry g σ = if σ (st.nextLeg + 2) = σ (st.nextLeg + 1) then d.getD (σ (st.nextLeg + 1)) 0 else 0) ∧
      (∀ σ, entry v σ = dV.get [σ (st.nextLeg + 3), ravel (LB.map st.dim) (LB.map σ)]) := by
  obtain ⟨s4, e4, g4, n4, t4, ol, l0, l1, l2, l3⟩ := fourLegs st k a b
  generalize hn : st.nextLeg = n at *
  have dA : LA.map s4.dim = LA.map st.dim := List.map_congr_left fun l hl => g4.dim l (hn ▸ hA l hl)
  have dB : LB.map s4.dim = LB.map st.dim := List.map_congr_left fun l hl => g4.dim l (hn ▸ hB l hl)
  have dm : ∀ j : Nat, j < 4 → s4.dim (n + j) = k ∧ (s4.leg (n + j)).bond = none := by
    intro j hj
    unfold Store.dim
    match j, hj with
    | 0, _ => simp [l0]
    | 1, _ => simp [l1]
    | 2, _ => simp [l2]
    | 3, _ => simp [l3]
  have d0 : s4.dim n = k := (dm 0 (by omega)).1
  have nA' : (LA ++ [n]).Nodup := by
    rw [List.nodup_append]
    refine ⟨nA, by simp, ?_⟩
    intro a ha b hb
    rw [List.mem_singleton] at hb
    subst hb
    exact (hA a ha).ne
  have nB' : ((n + 3) :: LB).Nodup := by
    rw [List.nodup_cons]
    exact ⟨fun h => absurd (hB _ h) (Nat.not_lt.mpr (Nat.le_add_right _ _)), nB⟩
  obtain ⟨s5, u, h1, same5, g5, lg5, dg5, -, -, en5⟩ := newTensor_entry s4 (LA ++ [n]) _ rfl dU wU nA'
    (by rw [sU, List.map_append, dA]; simp [d0])
  have hd5 : ∀ l ∈ [n + 1, n + 2], s5.dim l = k := by
    intro l hl
    rw [same5.dim]
    rcases List.mem_cons.mp hl with rfl | hl
    · exact (dm 1 (by omega)).1
    · rw [List.mem_singleton] at hl
      subst hl
      exact (dm 2 (by omega)).1
  obtain ⟨s6, h2, same6⟩ := newDiagonal_ok s5 [n + 1, n + 2] (NDArray.vector d) k (by simp) hd5 (by simp [NDArray.vector, sd])
  have e2 : [n + 1, n + 2].map s5.dim = [k, k] := by
    simp [hd5 (n + 1) (by simp), hd5 (n + 2) (by simp)]
  rw [e2] at h2
  have dB6 : LB.map s6.dim = LB.map st.dim := by rw [same6.dim, same5.dim, dB]
  obtain ⟨s7, v, h3, same7, g7, lg7, dg7, -, -, en7⟩ := newTensor_entry s6 ((n + 3) :: LB) _ rfl dV wV nB'
    (by rw [sV, List.map_cons, dB6]; simp [same6.dim, same5.dim, (dm 3 (by omega)).1])
  have sm : SameNet s4 s7 := (same5.trans same6).trans same7
  refine ⟨s4, s5, u, s6, _, s7, v, e4, ?_, h2, ?_, g4.trans sm.ext, by rw [sm.nextLeg, n4], ?_, ?_, ?_, ?_, ?_, ?_,
    g5.congr (same6.trans same7), ?_, g7, lg5, rfl, lg7, dg5, rfl, dg7, ?_, ?_, ?_⟩
  · rw [← h1]; simp [d0]
  · rw [← h3]; simp [same6.dim, same5.dim, (dm 3 (by omega)).1]
  · intro l hl
    rw [sm.name]
    unfold Store.name
    rw [ol l hl]
  · intro j hj
    rw [sm.dim, sm.bondOf]
    exact dm j hj
  · rw [sm.name]; unfold Store.name; rw [l0]
  · rw [sm.name]; unfold Store.name; rw [l1]
  · rw [sm.name]; unfold Store.name; rw [l2]
  · rw [sm.name]; unfold Store.name; rw [l3]
  · refine ⟨by simp, rfl, _, rfl, ?_, fun h => absurd h (by simp), fun _ => .inr ⟨by simp, by simp [NDArray.vector, sd], ?_⟩⟩
    · unfold NDArray.WF NDArray.vector; simp
    · intro l hl
      rw [same7.dim, same6.dim]
      exact hd5 l hl
  · intro σ hσ
    rw [en5, get_left dU s4.dim LA n sU (dm 0 (by omega)).1 σ, dA]
    intro l hl
    rw [g4.dim l (hn ▸ hA l hl)]
    exact hσ l hl
  · intro σ hσ
    simp only [entry, if_true, List.mem_singleton, forall_eq]
    congr 1
    simp [NDArray.get, NDArray.vector, ravel, List.getD_eq_getElem?_getD]
  · intro σ
    rw [en7, get_right dV s6.dim LB (n + 3) sV (by rw [dB6]) σ, dB6]

/-- Linking the new legs pairwise. -/
theorem split3_link {st s7 s8 : Store} (w : WFStore st) (e : Grows st s7) (nl : s7.nextLeg = st.nextLeg + 4)
    {LA LB : List LegId} {k : Nat} {a b : String} {u g v : Tensor R}
    (lu : u.legs = LA ++ [st.nextLeg]) (lg : g.legs = [st.nextLeg + 1, st.nextLeg + 2]) (lv : v.legs = (st.nextLeg + 3) :: LB)
    (dm : ∀ j : Nat, j < 4 → s7.dim (st.nextLeg + j) = k ∧ (s7.leg (st.nextLeg + j)).bond = none)
    (n0 : s7.name st.nextLeg = a) (n1 : s7.name (st.nextLeg + 1) = b) (n2 : s7.name (st.nextLeg + 2) = a)
    (n3 : s7.name (st.nextLeg + 3) = b)
    (gu : GoodTensor s7 u) (gg : GoodTensor s7 g) (gv : GoodTensor s7 v)
    (du : u.diag = false) (dg : g.diag = true) (dv : v.diag = false)
    {L : List LegId} (sb : SameButNames s7 s8 L) (hL : ∀ l ∈ L, l < st.nextLeg)
    (gone : List LegId) (names : ∀ l < st.nextLeg, l ∉ gone → s8.name l = st.name l) :
    ∃ st', (linkOr (makeLinkLegs s8 [st.nextLeg] [st.nextLeg + 1])).bind
        (fun s => linkOr (makeLinkLegs s [st.nextLeg + 3] [st.nextLeg + 2])) = .ok st' ∧
      Split3 st st' gone LA LB k a b u g v st.nextLeg (st.nextLeg + 1) (st.nextLeg + 2) (st.nextLeg + 3) := by
  generalize hn : st.nextLeg = n at *
  have nl8 : s8.nextLeg = n + 4 := by rw [sb.2.2.2.1, nl]
  have out : ∀ j, n + j ∉ L := fun j h => absurd (hL _ h) (Nat.not_lt.mpr (Nat.le_add_right _ _))
  have dim8 : ∀ j : Nat, j < 4 → s8.dim (n + j) = k := fun j hj => by rw [sb.dim]; exact (dm j hj).1
  have bond8 : ∀ j : Nat, j < 4 → (s8.leg (n + j)).bond = none := fun j hj => by rw [sb.bondOf]; exact (dm j hj).2
  have ne : ∀ i j : Nat, i ≠ j → n + i ≠ n + j := fun i j h e => h (Nat.add_left_cancel e)
  have lt : ∀ j : Nat, j < 4 → n + j < s8.nextLeg := fun j hj => by rw [nl8]; exact Nat.add_lt_add_left hj n
  have hd1 : s8.dim n = s8.dim (n + 1) := (dim8 0 (by omega)).trans (dim8 1 (by omega)).symm
  have e8 : Grows st s8 := e.trans sb.ext
  have e9 : Grows st (bonded s8 n (n + 1)) :=
    bonded_ext e8 hn.le (hn.le.trans (Nat.le_add_right _ _)) (lt 0 (by omega)) (lt 1 (by omega)) (bond8 0 (by omega))
      (bond8 1 (by omega)) hd1
  generalize hs9 : bonded s8 n (n + 1) = s9 at *
  have dim9 : ∀ l, s9.dim l = s8.dim l := fun l => by rw [← hs9, bonded_dim]
  have name9 : ∀ l, s9.name l = s8.name l := fun l => by rw [← hs9, bonded_name]
  have leg9 : ∀ j : Nat, 2 ≤ j → s9.leg (n + j) = s8.leg (n + j) := fun j hj => by
    rw [← hs9, bonded_other s8 n (n + 1) (n + j) (ne j 0 (by omega)) (ne j 1 (by omega))]
  have nl9 : s9.nextLeg = s8.nextLeg := by rw [← hs9]; rfl
  have hd2 : s9.dim (n + 3) = s9.dim (n + 2) := by
    rw [dim9, dim9, dim8 3 (by omega), dim8 2 (by omega)]
  have e10 : Grows st (bonded s9 (n + 3) (n + 2)) :=
    bonded_ext e9 (hn.le.trans (Nat.le_add_right _ _)) (hn.le.trans (Nat.le_add_right _ _))
      (nl9 ▸ lt 3 (by omega)) (nl9 ▸ lt 2 (by omega)) (by rw [leg9 3 (by omega)]; exact bond8 3 (by omega))
      (by rw [leg9 2 (by omega)]; exact bond8 2 (by omega)) hd2
  refine ⟨bonded s9 (n + 3) (n + 2), ?_, ?_⟩
  · rw [linkOr_two s8 _ _ hd1, hs9]
    show linkOr (makeLinkLegs s9 [n + 3] [n + 2]) = _
    rw [linkOr_two s9 _ _ hd2]
    rfl
  · have dims : ∀ l, (bonded s9 (n + 3) (n + 2)).dim l = s7.dim l := fun l => by rw [bonded_dim, dim9, sb.dim]
    have w9 := e9.wf w
    have j1 : s9.partner n = some (n + 1) ∧ s9.partner (n + 1) = some n := by rw [← hs9]; exact bonded_partner _ _
    refine ⟨lu, lg, lv, ?_, ?_, e10.le, ?_, ⟨?_, ?_, ?_, ?_⟩, ⟨?_, ?_⟩, (bonded_partner _ _), e10.dim, ?_, e10.bond,
      e10.partner w, e10.wf w, gu.congr_dim fun l _ => dims l, gg.congr_dim fun l _ => dims l, gv.congr_dim fun l _ => dims l,
      du, dg, dv⟩
    · intro z hz
      rw [hn]
      show n ≤ z ∧ z < s9.nextLeg
      rw [nl9]
      simp only [List.mem_cons, List.not_mem_nil, or_false] at hz
      rcases hz with rfl | rfl | rfl | rfl
      · exact ⟨le_rfl, lt 0 (by omega)⟩
      · exact ⟨Nat.le_add_right _ _, lt 1 (by omega)⟩
      · exact ⟨Nat.le_add_right _ _, lt 2 (by omega)⟩
      · exact ⟨Nat.le_add_right _ _, lt 3 (by omega)⟩
    · have := ne
      simp only [List.nodup_cons, List.mem_cons, List.not_mem_nil, or_false, not_or, not_false_eq_true, List.nodup_nil, and_true]
      exact ⟨⟨ne 0 1 (by omega), ne 0 2 (by omega), ne 0 3 (by omega)⟩, ⟨ne 1 2 (by omega), ne 1 3 (by omega)⟩, ne 2 3 (by omega)⟩
    · intro z hz
      rw [dims]
      simp only [List.mem_cons, List.not_mem_nil, or_false] at hz
      rcases hz with rfl | rfl | rfl | rfl
      · exact (dm 0 (by omega)).1
      · exact (dm 1 (by omega)).1
      · exact (dm 2 (by omega)).1
      · exact (dm 3 (by omega)).1
    · rw [bonded_name, name9, sb.name (l := n) (out 0)]; exact n0
    · rw [bonded_name, name9, sb.name (out 1)]; exact n1
    · rw [bonded_name, name9, sb.name (out 2)]; exact n2
    · rw [bonded_name, name9, sb.name (out 3)]; exact n3
    · rw [bonded_partner_other w9 (x := n) (ne 0 3 (by omega)) (ne 0 2 (by omega))]; exact j1.1
    · rw [bonded_partner_other w9 (ne 1 3 (by omega)) (ne 1 2 (by omega))]; exact j1.2
    · intro l hl hg
      rw [bonded_name, name9, names l (hn ▸ hl) hg]

/-- `SchimdtDecomposition` in three factors, in full. -/
theorem schmidt_three [CommSemiring R] {la : LinAlg R} (hla : ExactLinAlg la) (cast castF : R → R) {st : Store}
    {ta tb : Tensor R} {swapA swapB : List String} (i : SchmidtInput st ta tb swapA swapB) (chi : Nat) :
    ∃ mat st' u s v na nb x x' y' y, (sharedPairs st ta.legs tb.legs).head? = some (na, nb) ∧
      schmidt la cast castF st ta tb chi false swapA swapB = .ok (st', u, some s, v) ∧
      Cut3 la st st' ((sharedPairs st ta.legs tb.legs).flatMap fun q => [q.1, q.2])
        (sideA st ta tb swapA swapB) (sideB st ta tb swapA swapB)
        (sumBonds st.dim (sharedPairs st ta.legs tb.legs) fun τ => entry ta τ * entry tb τ) chi
        (st.name na) (st.name nb) mat u s v x x' y' y := by
  obtain ⟨p, hp, P⟩ := schmidtPrep_ok cast i
  have old : ∀ l ∈ p.tot.legs, l < st.nextLeg := by
    intro l hl
    rw [← P.perm.mem_iff, P.legA, P.legB, (sideLegs_perm ta tb swapA swapB).mem_iff, List.mem_append, List.mem_filter,
      List.mem_filter] at hl
    rcases hl with hl | hl
    · exact i.oldA l hl.1
    · exact i.oldB l hl.1
  obtain ⟨mat, hmat, hdata⟩ := schmidtData_ok la castF P old (by rw [P.legA]; exact i.neA) (by rw [P.legB]; exact i.neB) chi
  obtain ⟨na, nb, hhead, hlabA, hlabB⟩ := P.labels
  rw [P.legA, P.legB] at hmat hdata
  generalize hLA : sideA st ta tb swapA swapB = LA at *
  generalize hLB : sideB st ta tb swapA swapB = LB at *
  have oldA : ∀ l ∈ LA, l < st.nextLeg := fun l hl => old l (P.perm.mem_iff.mp (by rw [P.legA, hLA]; exact List.mem_append_left _ hl))
  have oldB : ∀ l ∈ LB, l < st.nextLeg := fun l hl => old l (P.perm.mem_iff.mp (by rw [P.legB, hLB]; exact List.mem_append_right _ hl))
  have nd : (LA ++ LB).Nodup := by
    have := P.perm.nodup_iff.mpr P.good.nodup
    rwa [P.legA, P.legB, hLA, hLB] at this
  rw [List.nodup_append] at nd
  have S := hla.svd mat _ _ hmat.1 hmat.2.1
  have hk := keptN_le la chi (LA.map st.dim).prod (LB.map st.dim).prod (la.svd mat).2.1
  have hkd := keptN_eq la chi _ _ S.sLen
  generalize keptN la chi (LA.map st.dim).prod (LB.map st.dim).prod (la.svd mat).2.1 = k at *
  have pA : LA.map p.store.dim = LA.map st.dim := List.map_congr_left fun l hl => P.ext.dim l (oldA l hl)
  have pB : LB.map p.store.dim = LB.map st.dim := List.map_congr_left fun l hl => P.ext.dim l (oldB l hl)
  obtain ⟨a1, a2, a3⟩ := takeCols_spec (k := k) S.uShape (by omega)
  obtain ⟨b1, b2, b3⟩ := takeRows_spec (k := k) S.vShape (by omega)
  obtain ⟨s4, s5, u, s6, g, s7, v, e4, f1, f2, f3, ext7, nl7, nm7, dm, n0, n1, n2, n3, gu, gg, gv, lu, lg, lv, du, dg, dv, eu, eg, ev⟩ :=
    split3_core (st := p.store) (LA := LA) (LB := LB) (by rw [P.nextLeg]; exact oldA) (by rw [P.nextLeg]; exact oldB)
      nd.1 nd.2.1 k p.labelA p.labelB _ _ ((la.svd mat).2.1.take k) a2 b2 (by rw [a1, pA]) (by rw [b1, pB])
      (by rw [List.length_take, S.sLen]; omega)
  rw [P.nextLeg] at f1 f2 f3 nl7 nm7 dm n0 n1 n2 n3 lu lg lv eu eg ev
  rw [pA] at eu
  rw [pB] at ev
  obtain ⟨m1, m2⟩ := untag_names P i (s4 := s7) nm7
  rw [P.legA, P.legB, hLA, hLB] at m1 m2
  obtain ⟨st', k1, k2⟩ := split3_link i.wf (P.ext.trans ext7) nl7 (LA := LA) (LB := LB) lu lg lv dm n0 n1 n2 n3 gu gg gv du dg dv m1
    (by
      intro l hl
      rcases List.mem_append.mp hl with h | h
      · exact oldA l h
      · exact oldB l h) _ m2
  refine ⟨mat, st', u, g, v, na, nb, st.nextLeg, st.nextLeg + 1, st.nextLeg + 2, st.nextLeg + 3, hhead, ?_, ?_, ?_, ?_, ?_, ?_⟩
  · unfold schmidt
    have lk : ta.like = false := i.goodA.notLike
    have g1 : ∀ a, (p.store.newLeg none k a).2 = st.nextLeg := fun _ => P.nextLeg
    have g2 : ∀ a b, ((p.store.newLeg none k a).1.newLeg none k b).2 = st.nextLeg + 1 := fun _ _ => by
      show p.store.nextLeg + 1 = _
      rw [P.nextLeg]
    have g3 : ∀ a b c, (((p.store.newLeg none k a).1.newLeg none k b).1.newLeg none k c).2 = st.nextLeg + 2 := fun _ _ _ => by
      show p.store.nextLeg + 1 + 1 = _
      rw [P.nextLeg]
    have g4 : ∀ a b c d, ((((p.store.newLeg none k a).1.newLeg none k b).1.newLeg none k c).1.newLeg none k d).2 = st.nextLeg + 3 :=
      fun _ _ _ _ => by
      show p.store.nextLeg + 1 + 1 + 1 = _
      rw [P.nextLeg]
    simp only [hp, bind, Except.bind, lk, hdata, Bool.false_eq_true, if_false, Option.map_some, P.legA, P.legB, hLA, hLB, g1, g2, g3, g4, e4, f1, f2, f3, pure,
      Except.pure]
    unfold Except.bind at k1
    cases h : linkOr (makeLinkLegs (untagLoop 'b' LB (untagLoop 'a' LA s7)) [st.nextLeg] [st.nextLeg + 1]) with
    | error e => rw [h] at k1; cases k1
    | ok s9 =>
      rw [h] at k1
      simp only at k1 ⊢
      rw [k1]
  · refine ⟨hmat.1, hmat.2.1, ?_⟩
    intro σ hσ
    rw [hmat.2.2 σ hσ, P.entry]
    intro l hl
    apply hσ
    rw [← P.perm.mem_iff, P.legA, P.legB, hLA, hLB] at hl
    exact hl
  · rw [← hkd, ← hlabA, ← hlabB]
    exact k2
  · intro σ hσ hx
    rw [← hkd] at hx
    rw [eu σ, a3 _ (ravel_lt' hσ) _ hx]
    intro l hl
    rw [P.ext.dim l (oldA l hl)]
    exact hσ l hl
  · intro σ hx
    rw [← hkd] at hx
    rw [eg σ hx]
    congr 1
    simp [List.getD_eq_getElem?_getD, List.getElem?_take, hx]
  · intro σ hσ hy
    rw [← hkd] at hy
    rw [ev σ, b3 _ hy _ (ravel_lt' hσ)]

end CTL
