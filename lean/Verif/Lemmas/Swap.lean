import Verif.Spec.ContractMPS
import Verif.Lemmas.SplitValue

/-! `swap`, `moveTensor` and `makeAdjacent` on chains. -/

namespace CTL
variable {R : Type}

theorem Chain.goodNet [Zero R] {st : Store} {ts : List (Tensor R)} {phys : List LegId} {lft rgt : Nat → LegId}
    (C : Chain st ts phys lft rgt) : GoodNet st ts := by
  refine ⟨C.wf.inv, fun t ht => (C.good t ht).1, ?_⟩
  rw [List.nodup_flatMap]
  refine ⟨fun t ht => (C.good t ht).1.nodup, ?_⟩
  rw [List.pairwise_iff_getElem]
  intro i j hi hj hij
  simp only [Function.onFun]
  intro x hx hx'
  exact C.disj i hi j hj (by omega) x ((C.legs i _ (List.getElem?_eq_getElem hi)).mem_iff.mp hx)
    ((C.legs j _ (List.getElem?_eq_getElem hj)).mem_iff.mp hx')

theorem two_front {α : Type} {ts : List α} {i : Nat} {a b : α} (ha : ts[i]? = some a) (hb : ts[i + 1]? = some b) :
    ts.Perm (a :: b :: (ts.take i ++ ts.drop (i + 2))) := by
  have h1 : i + 1 < ts.length := (List.getElem?_eq_some_iff.mp hb).1
  have e1 : ts.drop i = a :: b :: ts.drop (i + 2) := by
    rw [List.drop_eq_getElem_cons (by omega), List.drop_eq_getElem_cons h1]
    rw [List.getElem?_eq_getElem (by omega)] at ha
    rw [List.getElem?_eq_getElem h1] at hb
    rw [Option.some.inj ha, Option.some.inj hb]
  calc ts.Perm (ts.take i ++ ts.drop i) := by rw [List.take_append_drop]
    _ = ts.take i ++ a :: b :: ts.drop (i + 2) := by rw [e1]
    _ |>.Perm (a :: b :: (ts.take i ++ ts.drop (i + 2))) :=
      List.perm_middle.trans (List.Perm.cons _ List.perm_middle)

theorem set_two_rest {α : Type} (ts : List α) (i : Nat) (u v : α) :
    ((ts.set i u).set (i + 1) v).take i ++ ((ts.set i u).set (i + 1) v).drop (i + 2) = ts.take i ++ ts.drop (i + 2) := by
  congr 1
  · rw [List.take_set_of_le (by omega), List.take_set_of_le (by omega)]
  · rw [List.drop_set_of_lt (by omega), List.drop_set_of_lt (by omega)]

theorem Pair.rests [Zero R] {st : Store} {ta tb : Tensor R} {pa pb ra lb : LegId} {qa qb : List LegId}
    (h : Pair st ta tb pa pb ra lb qa qb) :
    (sideA st ta tb ["o"] ["o"] ++ sideB st ta tb ["o"] ["o"]).Perm
      (restA ta.legs (sharedPairs st ta.legs tb.legs) ++ restB tb.legs (sharedPairs st ta.legs tb.legs)) := by
  rw [h.shared]
  have nA := h.nodupA
  have nB := h.nodupB
  rw [List.nodup_cons, List.nodup_cons] at nA nB
  have r1 : (restA ta.legs [(ra, lb)]).Perm (pa :: qa) := by
    unfold restA
    refine (h.legsA.filter _).trans ?_
    rw [List.filter_cons_of_pos, List.filter_cons_of_neg, filterKeep]
    · intro x hx
      simp
      rintro rfl
      exact nA.2.1 hx
    · simp
    · simp
      rintro rfl
      exact nA.1 List.mem_cons_self
  have r2 : (restB tb.legs [(ra, lb)]).Perm (pb :: qb) := by
    unfold restB
    refine (h.legsB.filter _).trans ?_
    rw [List.filter_cons_of_pos, List.filter_cons_of_neg, filterKeep]
    · intro x hx
      simp
      rintro rfl
      exact nB.2.1 hx
    · simp
    · simp
      rintro rfl
      exact nB.1 List.mem_cons_self
  refine (h.side_a.append h.side_b).trans (List.Perm.trans ?_ (r1.append r2).symm)
  simp only [List.cons_append]
  refine (List.Perm.cons _ List.perm_middle).trans ?_
  refine (List.Perm.swap _ _ _).trans (List.Perm.cons _ ?_)
  exact List.perm_middle.symm

/-- The number of singular values of a cut is at most the size of its right side. -/
theorem Cut.rank_le [CommSemiring R] {la : LinAlg R} (hla : ExactLinAlg la) {st st' : Store} {gone LA LB : List LegId}
    {f : Assign → R} {chi : Nat} {na nb : String} {mat : NDArray R} {u v : Tensor R} {x y : LegId}
    (h : Cut la st st' gone LA LB f chi na nb mat u v x y) :
    (la.svd mat).2.1.countP la.isNonZero ≤ (LB.map st.dim).prod := by
  have S := hla.svd mat _ _ h.isMat.1 h.isMat.2.1
  have := List.countP_le_length (p := la.isNonZero) (l := (la.svd mat).2.1)
  rw [S.sLen] at this
  exact this.trans (min_le_right _ _)

theorem Chain.within_iff [Zero R] {st : Store} {ts : List (Tensor R)} {phys : List LegId} {lft rgt : Nat → LegId}
    (C : Chain st ts phys lft rgt) (W : Nat) :
    Within st ts W ↔ (∀ p ∈ phys, st.dim p ≤ W) ∧ ∀ i, i + 1 < ts.length → st.dim (rgt i) ≤ W := by
  constructor
  · intro h
    constructor
    · intro p hp
      obtain ⟨j, hj, rfl⟩ := (Chain.mem_phys C.len).mp hp
      obtain ⟨t, -, ht, hl⟩ := C.site hj
      exact h t ht _ (hl.mem_iff.mpr (Chain.mem_siteLegs.mpr (.inl rfl)))
    · intro i hi
      obtain ⟨t, -, ht, hl⟩ := C.site (Nat.lt_of_succ_lt hi)
      exact h t ht _ (hl.mem_iff.mpr (Chain.mem_siteLegs.mpr (.inr (.inl ⟨hi, rfl⟩))))
  · rintro ⟨h1, h2⟩ t ht l hl
    obtain ⟨j, hj, e⟩ := List.getElem_of_mem ht
    have hl' := (C.legs j t (by rw [List.getElem?_eq_getElem hj, e])).mem_iff.mp hl
    rcases Chain.mem_siteLegs.mp hl' with rfl | ⟨c, rfl⟩ | ⟨c, rfl⟩
    · exact h1 _ ((Chain.mem_phys C.len).mpr ⟨j, hj, rfl⟩)
    · exact h2 j c
    · obtain ⟨j, rfl⟩ : ∃ c, j = c + 1 := ⟨j - 1, by omega⟩
      rw [partner_dim C.wf.inv (C.joined j hj)]
      exact h2 j hj

/-- What a swap of the sites `i` and `i + 1` leaves behind. -/
structure Swapped [CommSemiring R] (st st' : Store) (m m' : MPS R) (phys : List LegId) (lft rgt : Nat → LegId) (i : Nat)
    (x y : LegId) : Prop where
  chain : Chain st' m'.tensors (swapAt phys i) (fun j => if j = i + 1 then y else lft j) (fun j => if j = i then x else rgt j)
  len : m'.tensors.length = m.tensors.length
  others : ∀ j : Nat, j ≠ i → j ≠ i + 1 → m'.tensors[j]? = m.tensors[j]?
  chi : m'.chi = m.chi
  kept : LegsKept st st'
  grow : st.nextLeg ≤ st'.nextLeg

theorem Swapped.within [CommSemiring R] {st st' : Store} {m m' : MPS R} {phys : List LegId} {lft rgt : Nat → LegId} {i : Nat}
    {x y : LegId} (s : Swapped st st' m m' phys lft rgt i x y) (C : Chain st m.tensors phys lft rgt)
    (hi : i + 1 < m.tensors.length) {W : Nat} (h : Within st m.tensors W) (hx : st'.dim x ≤ W) : Within st' m'.tensors W := by
  obtain ⟨h1, h2⟩ := (C.within_iff W).mp h
  have hl := C.len
  refine (s.chain.within_iff W).mpr ⟨?_, ?_⟩
  · intro p hp
    obtain ⟨j, hj, rfl⟩ := (Chain.mem_phys s.chain.len).mp hp
    rw [s.len] at hj
    have key : ∀ k < m.tensors.length, st'.dim (phys.getD k 0) ≤ W := fun k hk => by
      rw [(s.kept _ (C.oldP hk)).1]
      exact h1 _ ((Chain.mem_phys C.len).mpr ⟨k, hk, rfl⟩)
    rw [Chain.swapAt_getD (by omega)]
    split
    · exact key _ hi
    · split
      · exact key _ (by omega)
      · exact key _ hj
  · intro j hj
    rw [s.len] at hj
    split
    · exact hx
    · rw [(s.kept _ (C.oldR hj)).1]
      exact h2 j hj

theorem swap_right [CommSemiring R] {la : LinAlg R} (hla : ExactLinAlg la) (cast castF : R → R) {st : Store} {m : MPS R}
    {phys : List LegId} {lft rgt : Nat → LegId} (C : Chain st m.tensors phys lft rgt) {chi : Nat} (hc : m.chi = chi) {i : Nat}
    (hi : i + 1 < m.tensors.length) :
    ∃ st' m' x y, m.swap la cast castF st i (i + 1) = .ok (st', m') ∧ Swapped st st' m m' phys lft rgt i x y ∧
      (RankRevealing la → (st.dim (phys.getD i 0) * if i + 1 + 1 < m.tensors.length then st.dim (rgt (i + 1)) else 1) ≤ chi →
        SameValue st m.tensors st' m'.tensors) ∧
      st'.dim x ≤ (st.dim (phys.getD i 0) * if i + 1 + 1 < m.tensors.length then st.dim (rgt (i + 1)) else 1) := by
  have hi0 : i < m.tensors.length := by omega
  have ha : m.tensors[i]? = some m.tensors[i] := List.getElem?_eq_getElem hi0
  have hb : m.tensors[i + 1]? = some m.tensors[i + 1] := List.getElem?_eq_getElem hi
  have P := C.pair hi ha hb
  obtain ⟨mat, st', u, v, x, y, h1, h2, h3, cut⟩ := P.schmidt hla cast castF chi
  have s := cut.split
  have C' := C.rebuild hi s.wf s.kept s.grow s.goodU s.goodV s.denseU s.denseV h2 h3 s.newX s.newY s.ne s.joined.1
    (by rw [s.nameX, C.nameR i hi]) (by rw [s.nameY, C.nameL i hi]) (fun l hl n1 n2 => s.oldName l hl (by simp [n1, n2]))
  refine ⟨st', { m with tensors := (m.tensors.set i u).set (i + 1) v, activeIdx := none }, x, y, ?_,
    ⟨C', by simp, fun j h1 h2 => set_others h1 h2, rfl, s.kept, s.grow⟩, ?_, ?_⟩
  · unfold MPS.swap
    have e1 : ((i : Int) + 1).toNat = i + 1 := by omega
    rw [if_pos (by omega), e1, Int.toNat_natCast, ha, hb, hc]
    simp only [h1, bind, Except.bind, pure, Except.pure]
  · intro hr hbig
    have ha' : ((m.tensors.set i u).set (i + 1) v)[i]? = some u := by
      rw [List.getElem?_set_ne (by omega), List.getElem?_set_self hi0]
    have hb' : ((m.tensors.set i u).set (i + 1) v)[i + 1]? = some v := by
      rw [List.getElem?_set_self (by simpa using hi)]
    have P' := C'.pair (by simpa using hi) ha' hb'
    have sh := P'.shared
    simp only [if_true] at sh
    have drop := rank_drop (chi := chi) hr cut.isMat.1 cut.isMat.2.1 ((cut.rank_le hla).trans (by
      rw [(P.side_b.map st.dim).prod_eq]
      split at hbig
      · rename_i c
        simpa [c] using hbig
      · rename_i c
        simpa [c] using hbig))
    have val := cut.exact hla drop
    have g := C.goodNet.perm (two_front ha hb)
    rw [← P.shared] at val
    have sv := Split.sameValue g P.denseA P.denseB s P.rests sh (fun t ht => C.old t ((two_front ha hb).mem_iff.mpr ht)) val
    refine (SameValue.of_perm C.goodNet (two_front ha hb)).trans (sv.trans ?_)
    have q := two_front ha' hb'
    rw [set_two_rest] at q
    exact SameValue.of_perm sv.good' q.symm
  · rw [s.dimX]
    refine (min_le_right _ _).trans ((cut.rank_le hla).trans (le_of_eq ?_))
    rw [(P.side_b.map st.dim).prod_eq]
    split <;> simp

theorem swap_left [CommSemiring R] {la : LinAlg R} (hla : ExactLinAlg la) (cast castF : R → R) {st : Store} {m : MPS R}
    {phys : List LegId} {lft rgt : Nat → LegId} (C : Chain st m.tensors phys lft rgt) {chi : Nat} (hc : m.chi = chi) {i : Nat}
    (hi : i + 1 < m.tensors.length) :
    ∃ st' m' x y, m.swap la cast castF st ((i + 1 : Nat) : Int) (((i + 1 : Nat) : Int) + -1) = .ok (st', m') ∧
      Swapped st st' m m' phys lft rgt i x y ∧
      (RankRevealing la → (st.dim (phys.getD (i + 1) 0) * if 0 < i then st.dim (lft i) else 1) ≤ chi →
        SameValue st m.tensors st' m'.tensors) ∧
      st'.dim x ≤ (st.dim (phys.getD (i + 1) 0) * if 0 < i then st.dim (lft i) else 1) := by
  have hi0 : i < m.tensors.length := by omega
  have ha : m.tensors[i]? = some m.tensors[i] := List.getElem?_eq_getElem hi0
  have hb : m.tensors[i + 1]? = some m.tensors[i + 1] := List.getElem?_eq_getElem hi
  have P := (C.pair hi ha hb).symm
  obtain ⟨mat, st', u, v, x, y, h1, h2, h3, cut⟩ := P.schmidt hla cast castF chi
  have s := cut.split
  have C' := C.rebuild hi s.wf s.kept s.grow s.goodV s.goodU s.denseV s.denseU h3 h2 s.newY s.newX s.ne.symm s.joined.2
    (by rw [s.nameY, C.nameR i hi]) (by rw [s.nameX, C.nameL i hi]) (fun l hl n1 n2 => s.oldName l hl (by simp [n1, n2]))
  refine ⟨st', { m with tensors := (m.tensors.set i v).set (i + 1) u, activeIdx := none }, y, x, ?_,
    ⟨C', by simp, fun j h1 h2 => set_others h1 h2, rfl, s.kept, s.grow⟩, ?_, ?_⟩
  · unfold MPS.swap
    have e0 : ((i + 1 : Nat) : Int) + -1 = i := by omega
    rw [e0, if_pos (by omega), Int.toNat_natCast, Int.toNat_natCast, ha, hb, hc]
    simp only [h1, bind, Except.bind, pure, Except.pure]
    rw [List.set_comm _ _ (by omega)]
  · intro hr hbig
    have ha' : ((m.tensors.set i v).set (i + 1) u)[i]? = some v := by
      rw [List.getElem?_set_ne (by omega), List.getElem?_set_self hi0]
    have hb' : ((m.tensors.set i v).set (i + 1) u)[i + 1]? = some u := by
      rw [List.getElem?_set_self (by simpa using hi)]
    have P' := (C'.pair (by simpa using hi) ha' hb').symm
    have sh := P'.shared
    simp only [if_true] at sh
    have drop := rank_drop (chi := chi) hr cut.isMat.1 cut.isMat.2.1 ((cut.rank_le hla).trans (by
      rw [(P.side_b.map st.dim).prod_eq]
      split at hbig
      · rename_i c
        simpa [c] using hbig
      · rename_i c
        simpa [c] using hbig))
    have val := cut.exact hla drop
    have tf := (two_front ha hb).trans (List.Perm.swap _ _ _)
    have g := C.goodNet.perm tf
    rw [← P.shared] at val
    have sv := Split.sameValue g P.denseA P.denseB s P.rests sh (fun t ht => C.old t (tf.mem_iff.mpr ht)) val
    refine (SameValue.of_perm C.goodNet tf).trans (sv.trans ?_)
    have q := (two_front ha' hb').trans (List.Perm.swap _ _ _)
    rw [set_two_rest] at q
    exact SameValue.of_perm sv.good' q.symm
  · rw [s.dimY]
    refine (min_le_right _ _).trans ((cut.rank_le hla).trans (le_of_eq ?_))
    rw [(P.side_b.map st.dim).prod_eq]
    split <;> simp

/-- What a sequence of swaps of the sites from `lo` to `hi` leaves behind. -/
structure Moved [Zero R] (st st' : Store) (m m' : MPS R) (phys' : List LegId) (lo hi : Nat) : Prop where
  chain : IsChain st' m'.tensors phys'
  len : m'.tensors.length = m.tensors.length
  others : ∀ j : Nat, j < lo ∨ hi < j → m'.tensors[j]? = m.tensors[j]?
  chi : m'.chi = m.chi
  kept : LegsKept st st'
  grow : st.nextLeg ≤ st'.nextLeg

theorem loop_right [CommSemiring R] {la : LinAlg R} (hla : ExactLinAlg la) (cast castF : R → R) {chi : Nat} (k : Nat) :
    ∀ {st : Store} {m : MPS R} {phys : List LegId} {lft rgt : Nat → LegId} {b : Nat}, Chain st m.tensors phys lft rgt →
      m.chi = chi → b + k < m.tensors.length →
      ∃ st' m', MPS.swapLoop la cast castF 1 st m ((List.range k).map fun (j : Nat) => (b : Int) + j) = .ok (st', m') ∧
        Moved st st' m m' (moveTo phys b (b + k)) b (b + k) ∧
        (RankRevealing la → st.dim (phys.getD b 0) ≤ chi →
          (∀ i, b < i → i + 1 < m.tensors.length → st.dim (phys.getD b 0) * st.dim (rgt i) ≤ chi) →
          SameValue st m.tensors st' m'.tensors)  ∧
        (∀ W, Within st m.tensors W → st.dim (phys.getD b 0) ≤ W →
          (∀ i, b < i → i + 1 < m.tensors.length → st.dim (phys.getD b 0) * st.dim (rgt i) ≤ W) → Within st' m'.tensors W) := by
  induction k with
  | zero =>
    intro st m phys lft rgt b C hc hb
    refine ⟨st, m, rfl, ⟨?_, rfl, fun _ _ => rfl, rfl, .refl _, le_refl _⟩, fun _ _ _ => .refl C.goodNet, fun _ h _ _ => h⟩
    rw [Nat.add_zero, moveTo_self (by rw [C.len]; omega)]
    exact ⟨_, _, C⟩
  | succ k ih =>
    intro st m phys lft rgt b C hc hb
    have hl := C.len
    obtain ⟨st1, m1, x, y, h1, s1, v1, w1⟩ := swap_right hla cast castF C hc (i := b) (by omega)
    obtain ⟨st2, m2, h2, s2, v2, w2⟩ := ih (b := b + 1) s1.chain (s1.chi.trans hc) (by rw [s1.len]; omega)
    have e : ((List.range (k + 1)).map fun (j : Nat) => (b : Int) + j) =
        (b : Int) :: (List.range k).map fun (j : Nat) => ((b + 1 : Nat) : Int) + j := by
      rw [List.range_succ_eq_map, List.map_cons, List.map_map]
      refine congrArg₂ List.cons (by simp) (List.map_congr_left ?_)
      intro j _
      simp only [Function.comp, Nat.succ_eq_add_one]
      omega
    refine ⟨st2, m2, ?_, ⟨?_, s2.len.trans s1.len, ?_, s2.chi.trans s1.chi, s1.kept.trans s1.grow s2.kept,
      s1.grow.trans s2.grow⟩, ?_, ?_⟩
    · rw [e]
      unfold MPS.swapLoop
      simp only [h1, bind, Except.bind, h2]
    · rw [← moveTo_right (by omega)]
      exact s2.chain
    · intro j hj
      rw [s2.others j (by omega), s1.others j (by omega) (by omega)]
    · intro hr hp hbig
      have ep : (swapAt phys b).getD (b + 1) 0 = phys.getD b 0 := by
        rw [Chain.swapAt_getD (by omega)]; simp
      have ed : st1.dim (phys.getD b 0) = st.dim (phys.getD b 0) := (s1.kept _ (C.oldP (by omega))).1
      refine (v1 hr ?_).trans (v2 hr ?_ ?_)
      · split
        · rename_i c
          exact hbig (b + 1) (by omega) c
        · rw [Nat.mul_one]; exact hp
      · rw [ep, ed]; exact hp
      · intro i hbi hi
        rw [s1.len] at hi
        rw [ep, ed, if_neg (by omega), (s1.kept _ (C.oldR hi)).1]
        exact hbig i (by omega) hi
    · intro W hW hp hbig
      have ep : (swapAt phys b).getD (b + 1) 0 = phys.getD b 0 := by
        rw [Chain.swapAt_getD (by omega)]; simp
      have ed : st1.dim (phys.getD b 0) = st.dim (phys.getD b 0) := (s1.kept _ (C.oldP (by omega))).1
      refine w2 W (s1.within C (by omega) hW (w1.trans ?_)) ?_ ?_
      · split
        · rename_i c
          exact hbig (b + 1) (by omega) c
        · rw [Nat.mul_one]; exact hp
      · rw [ep, ed]; exact hp
      · intro i hbi hi
        rw [s1.len] at hi
        rw [ep, ed, if_neg (by omega), (s1.kept _ (C.oldR hi)).1]
        exact hbig i (by omega) hi

theorem loop_left [CommSemiring R] {la : LinAlg R} (hla : ExactLinAlg la) (cast castF : R → R) {chi : Nat} (k : Nat) :
    ∀ {st : Store} {m : MPS R} {phys : List LegId} {lft rgt : Nat → LegId} {b : Nat}, Chain st m.tensors phys lft rgt →
      m.chi = chi → b < m.tensors.length → k ≤ b →
      ∃ st' m', MPS.swapLoop la cast castF (-1) st m ((List.range k).map fun (j : Nat) => (b : Int) - j) = .ok (st', m') ∧
        Moved st st' m m' (moveTo phys b (b - k)) (b - k) b ∧
        (RankRevealing la → st.dim (phys.getD b 0) ≤ chi →
          (∀ i, 0 < i → i < b → st.dim (phys.getD b 0) * st.dim (lft i) ≤ chi) →
          SameValue st m.tensors st' m'.tensors)  ∧
        (∀ W, Within st m.tensors W → st.dim (phys.getD b 0) ≤ W →
          (∀ i, 0 < i → i < b → st.dim (phys.getD b 0) * st.dim (lft i) ≤ W) → Within st' m'.tensors W) := by
  induction k with
  | zero =>
    intro st m phys lft rgt b C hc hb _
    refine ⟨st, m, rfl, ⟨?_, rfl, fun _ _ => rfl, rfl, .refl _, le_refl _⟩, fun _ _ _ => .refl C.goodNet, fun _ h _ _ => h⟩
    rw [Nat.sub_zero, moveTo_self (by rw [C.len]; omega)]
    exact ⟨_, _, C⟩
  | succ k ih =>
    intro st m phys lft rgt b C hc hb hk
    obtain ⟨b, rfl⟩ : ∃ c, b = c + 1 := ⟨b - 1, by omega⟩
    have hl := C.len
    obtain ⟨st1, m1, x, y, h1, s1, v1, w1⟩ := swap_left hla cast castF C hc (i := b) (by omega)
    obtain ⟨st2, m2, h2, s2, v2, w2⟩ := ih (b := b) s1.chain (s1.chi.trans hc) (by rw [s1.len]; omega) (by omega)
    have e : ((List.range (k + 1)).map fun (j : Nat) => ((b + 1 : Nat) : Int) - j) =
        ((b + 1 : Nat) : Int) :: (List.range k).map fun (j : Nat) => (b : Int) - j := by
      rw [List.range_succ_eq_map, List.map_cons, List.map_map]
      refine congrArg₂ List.cons (by simp) (List.map_congr_left ?_)
      intro j _
      simp only [Function.comp, Nat.succ_eq_add_one]
      omega
    refine ⟨st2, m2, ?_, ⟨?_, s2.len.trans s1.len, ?_, s2.chi.trans s1.chi, s1.kept.trans s1.grow s2.kept,
      s1.grow.trans s2.grow⟩, ?_, ?_⟩
    · rw [e]
      unfold MPS.swapLoop
      simp only [h1, bind, Except.bind, h2]
    · rw [show b + 1 - (k + 1) = b - k by omega, ← moveTo_left (by omega) (by omega)]
      exact s2.chain
    · intro j hj
      rw [s2.others j (by omega), s1.others j (by omega) (by omega)]
    · intro hr hp hbig
      have ep : (swapAt phys b).getD b 0 = phys.getD (b + 1) 0 := by
        rw [Chain.swapAt_getD (by omega)]; simp
      have ed : st1.dim (phys.getD (b + 1) 0) = st.dim (phys.getD (b + 1) 0) := (s1.kept _ (C.oldP (by omega))).1
      refine (v1 hr ?_).trans (v2 hr ?_ ?_)
      · split
        · rename_i c
          exact hbig b c (by omega)
        · rw [Nat.mul_one]; exact hp
      · rw [ep, ed]; exact hp
      · intro i h0 hi
        rw [ep, ed, if_neg (by omega), (s1.kept _ (C.oldL h0 (by omega))).1]
        exact hbig i h0 (by omega)
    · intro W hW hp hbig
      have ep : (swapAt phys b).getD b 0 = phys.getD (b + 1) 0 := by
        rw [Chain.swapAt_getD (by omega)]; simp
      have ed : st1.dim (phys.getD (b + 1) 0) = st.dim (phys.getD (b + 1) 0) := (s1.kept _ (C.oldP (by omega))).1
      refine w2 W (s1.within C (by omega) hW (w1.trans ?_)) ?_ ?_
      · split
        · rename_i c
          exact hbig b c (by omega)
        · rw [Nat.mul_one]; exact hp
      · rw [ep, ed]; exact hp
      · intro i h0 hi
        rw [ep, ed, if_neg (by omega), (s1.kept _ (C.oldL h0 (by omega))).1]
        exact hbig i h0 (by omega)

end CTL
