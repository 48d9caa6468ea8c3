import Verif.Lemmas.Swap
import Verif.Props.Decompose

/-! C33, C34, C41: matrix product states. -/

namespace CTL
variable {R : Type}

/-! ### C33 -/

/-- C33: `swap(a, b)` of two neighbouring sites exchanges their physical legs and touches no other site. -/
theorem C33_swap [CommSemiring R] {la : LinAlg R} (hla : ExactLinAlg la) (cast castF : R → R) {st : Store} {m : MPS R}
    {phys : List LegId} (C : IsChain st m.tensors phys) {chi : Nat} (hc : m.chi = chi) {i : Nat}
    (hi : i + 1 < m.tensors.length) :
    (∃ st' m', m.swap la cast castF st i ((i + 1 : Nat) : Int) = .ok (st', m') ∧ IsChain st' m'.tensors (swapAt phys i) ∧
      m'.chi = m.chi ∧ (∀ j : Nat, j ≠ i → j ≠ i + 1 → m'.tensors[j]? = m.tensors[j]?) ∧ LegsKept st st') ∧
    (∃ st' m', m.swap la cast castF st ((i + 1 : Nat) : Int) i = .ok (st', m') ∧ IsChain st' m'.tensors (swapAt phys i) ∧
      m'.chi = m.chi ∧ (∀ j : Nat, j ≠ i → j ≠ i + 1 → m'.tensors[j]? = m.tensors[j]?) ∧ LegsKept st st') := by
  obtain ⟨lft, rgt, C⟩ := C
  constructor
  · obtain ⟨st', m', x, y, h, s, -⟩ := swap_right hla cast castF C hc hi
    exact ⟨st', m', h, ⟨_, _, s.chain⟩, s.chi, s.others, s.kept⟩
  · obtain ⟨st', m', x, y, h, s, -⟩ := swap_left hla cast castF C hc hi
    refine ⟨st', m', ?_, ⟨_, _, s.chain⟩, s.chi, s.others, s.kept⟩
    rw [← h]
    congr 1
    omega

/-- C33: `moveTensor(b, e)` takes the site at `b` out of the chain and puts it back at position `e`; the sites between
shift by one, in the same order, and the sites outside of `b … e` are the same tensors as before. -/
theorem C33_moveTensor [CommSemiring R] {la : LinAlg R} (hla : ExactLinAlg la) (cast castF : R → R) {st : Store} {m : MPS R}
    {phys : List LegId} (C : IsChain st m.tensors phys) {chi : Nat} (hc : m.chi = chi) {b e : Nat}
    (hb : b < m.tensors.length) (he : e < m.tensors.length) :
    ∃ st' m', m.moveTensor la cast castF st b e = .ok (st', m') ∧ IsChain st' m'.tensors (moveTo phys b e) ∧
      m'.chi = m.chi ∧ (∀ j : Nat, j < min b e ∨ max b e < j → m'.tensors[j]? = m.tensors[j]?) ∧ LegsKept st st' := by
  obtain ⟨lft, rgt, C⟩ := C
  have ib : m.isIndex b = true := by simp [MPS.isIndex, hb]
  have ie : m.isIndex e = true := by simp [MPS.isIndex, he]
  unfold MPS.moveTensor
  simp only [ib, ie, Bool.and_self, pyAssert, if_true, bind, Except.bind]
  rcases lt_trichotomy b e with c | c | c
  · obtain ⟨st', m', h, s, -⟩ := loop_right hla cast castF (e - b) C hc (b := b) (by omega)
    have ebe : b + (e - b) = e := by omega
    rw [ebe] at s
    refine ⟨st', m', ?_, s.chain, s.chi, fun j hj => s.others j (by omega), s.kept⟩
    rw [if_neg (by omega), if_pos (by omega), show ((e : Int) - b).toNat = e - b by omega]
    exact h
  · subst c
    refine ⟨st, m, by rw [if_pos rfl]; rfl, ?_, rfl, fun _ _ => rfl, .refl _⟩
    rw [moveTo_self (by rw [C.len]; exact hb)]
    exact ⟨lft, rgt, C⟩
  · obtain ⟨st', m', h, s, -⟩ := loop_left hla cast castF (b - e) C hc (b := b) hb (by omega)
    have ebe : b - (b - e) = e := by omega
    rw [ebe] at s
    refine ⟨st', m', ?_, s.chain, s.chi, fun j hj => s.others j (by omega), s.kept⟩
    rw [if_neg (by omega), if_neg (by omega), show ((b : Int) - e).toNat = b - e by omega]
    exact h

/-- What it means to be moved: the site at `b` is at `e`, and the others keep their order. -/
theorem C33_moveTo (l : List LegId) {b e : Nat} (hb : b < l.length) (he : e < l.length) :
    (moveTo l b e)[e]? = l[b]? ∧ (moveTo l b e).eraseIdx e = l.eraseIdx b ∧ (moveTo l b e).length = l.length ∧
      (∀ j, j < min b e ∨ max b e < j → (moveTo l b e)[j]? = l[j]?) ∧
      (∀ j, b < j → j ≤ e → (moveTo l b e)[j - 1]? = l[j]?) ∧ (∀ j, e ≤ j → j < b → (moveTo l b e)[j + 1]? = l[j]?) := by
  have hlen : e ≤ (l.eraseIdx b).length := by rw [List.length_eraseIdx_of_lt hb]; omega
  refine ⟨?_, ?_, moveTo_length hb he, ?_, ?_, ?_⟩
  · unfold moveTo
    rw [List.getElem?_insertIdx_self, if_pos hlen, List.getElem?_eq_getElem hb]
    simp [List.getD_eq_getElem?_getD, hb]
  · unfold moveTo
    exact List.eraseIdx_insertIdx_self _
  · intro j hj
    unfold moveTo
    rw [List.getElem?_insertIdx]
    have := hlen
    rw [List.length_eraseIdx_of_lt hb] at this
    rw [List.length_eraseIdx_of_lt hb]
    simp only [List.getElem?_eraseIdx]
    split_ifs <;> first | rfl | omega | (congr 1; omega)
  · intro j h1 h2
    unfold moveTo
    rw [List.getElem?_insertIdx]
    have := hlen
    rw [List.length_eraseIdx_of_lt hb] at this
    rw [List.length_eraseIdx_of_lt hb]
    simp only [List.getElem?_eraseIdx]
    split_ifs <;> first | rfl | omega | (congr 1; omega)
  · intro j h1 h2
    unfold moveTo
    rw [List.getElem?_insertIdx]
    have := hlen
    rw [List.length_eraseIdx_of_lt hb] at this
    rw [List.length_eraseIdx_of_lt hb]
    simp only [List.getElem?_eraseIdx]
    split_ifs <;> first | rfl | omega | (congr 1; omega)

/-- C33: positions outside of the chain are refused. -/
theorem C33_moveTensor_invalid [CommSemiring R] (la : LinAlg R) (cast castF : R → R) (st : Store) (m : MPS R) (b e : Int)
    (h : b < 0 ∨ (m.tensors.length : Int) ≤ b ∨ e < 0 ∨ (m.tensors.length : Int) ≤ e) :
    m.moveTensor la cast castF st b e = .error .assertionError := by
  unfold MPS.moveTensor
  have : (m.isIndex b && m.isIndex e) = false := by
    unfold MPS.isIndex
    rw [Bool.and_eq_false_iff, decide_eq_false_iff_not, decide_eq_false_iff_not]
    omega
  rw [this]
  rfl

/-- C33: `swap` raises for positions out of range and for positions that are not neighbours. -/
theorem C33_swap_invalid [CommSemiring R] (la : LinAlg R) (cast castF : R → R) (st : Store) (m : MPS R) (a b : Int)
    (h : a < 0 ∨ (m.tensors.length : Int) ≤ a ∨ b < 0 ∨ (m.tensors.length : Int) ≤ b ∨ (a - b).natAbs ≠ 1) :
    m.swap la cast castF st a b = .error .assertionError := by
  unfold MPS.swap
  rw [if_neg (by omega)]
  rfl

example : ((0 : Int) - 0).natAbs ≠ 1 ∧ ((0 : Int) - 2).natAbs ≠ 1 := by decide

/-- C33: `makeAdjacent(a, b)` returns two neighbouring positions; the two sites are there, and all other sites keep their
order: only the site at the smaller position has been moved. -/
theorem C33_makeAdjacent [CommSemiring R] {la : LinAlg R} (hla : ExactLinAlg la) (cast castF : R → R) {st : Store} {m : MPS R}
    {phys : List LegId} (C : IsChain st m.tensors phys) {chi : Nat} (hc : m.chi = chi) {a b : Nat} (hab : a ≠ b)
    (ha : a < m.tensors.length) (hb : b < m.tensors.length) :
    ∃ st' m' q, m.makeAdjacent la cast castF st a b = .ok (st', m', (q : Nat), ((q + 1 : Nat) : Int)) ∧
      IsChain st' m'.tensors (moveTo phys (min a b) q) ∧ (moveTo phys (min a b) q)[q]? = phys[min a b]? ∧
      (moveTo phys (min a b) q)[q + 1]? = phys[max a b]? ∧
      (moveTo phys (min a b) q).eraseIdx q = phys.eraseIdx (min a b) ∧ m'.chi = m.chi ∧
      (∀ j : Nat, j < min a b ∨ max a b ≤ j → m'.tensors[j]? = m.tensors[j]?) ∧ LegsKept st st' := by
  obtain ⟨lft, rgt, C⟩ := C
  have hl := C.len
  have ib : m.isIndex a = true := by simp [MPS.isIndex, ha]
  have ie : m.isIndex b = true := by simp [MPS.isIndex, hb]
  obtain ⟨st', m', h, s, -⟩ := loop_right hla cast castF (max a b - 1 - min a b) C hc (b := min a b) (by omega)
  have ebe : min a b + (max a b - 1 - min a b) = max a b - 1 := by omega
  rw [ebe] at s
  obtain ⟨f1, f2, -, f4, -, -⟩ := C33_moveTo phys (b := min a b) (e := max a b - 1) (by omega) (by omega)
  refine ⟨st', m', max a b - 1, ?_, s.chain, f1, ?_, f2, s.chi, fun j hj => s.others j (by omega), s.kept⟩
  · unfold MPS.makeAdjacent
    have hne : ((a : Int) ≠ b) := by omega
    simp only [ib, ie, Bool.and_self, pyAssert, if_true, bind, Except.bind, hne, ne_eq, not_false_eq_true, decide_true]
    rw [show (max (a : Int) b - 1 - min (a : Int) b).toNat = max a b - 1 - min a b by omega,
      show min (a : Int) b = ((min a b : Nat) : Int) by omega, h]
    simp only [pure, Except.pure]
    congr 3
    rw [Prod.mk.injEq]
    omega
  · rw [show max a b - 1 + 1 = max a b by omega]
    exact f4 (max a b) (by omega)

/-! ### C41 -/

/-- C41: `swap` changes only the representation: when `chi` is at least the dimension of the exchanged physical leg times
the dimension of the bond behind it, the network has the same value at all of its free legs. -/
theorem C41_swap [CommSemiring R] {la : LinAlg R} (hla : ExactLinAlg la) (hr : RankRevealing la) (cast castF : R → R)
    {st : Store} {m : MPS R} {phys : List LegId} {lft rgt : Nat → LegId} (C : Chain st m.tensors phys lft rgt) {chi : Nat}
    (hc : m.chi = chi) {i : Nat} (hi : i + 1 < m.tensors.length) :
    ((st.dim (phys.getD i 0) * if i + 2 < m.tensors.length then st.dim (rgt (i + 1)) else 1) ≤ chi →
      ∃ st' m', m.swap la cast castF st i ((i + 1 : Nat) : Int) = .ok (st', m') ∧ SameValue st m.tensors st' m'.tensors) ∧
    ((st.dim (phys.getD (i + 1) 0) * if 0 < i then st.dim (lft i) else 1) ≤ chi →
      ∃ st' m', m.swap la cast castF st ((i + 1 : Nat) : Int) i = .ok (st', m') ∧ SameValue st m.tensors st' m'.tensors) := by
  constructor
  · intro h
    obtain ⟨st', m', x, y, e, -, v, -⟩ := swap_right hla cast castF C hc hi
    exact ⟨st', m', e, v hr h⟩
  · intro h
    obtain ⟨st', m', x, y, e, -, v, -⟩ := swap_left hla cast castF C hc hi
    refine ⟨st', m', ?_, v hr h⟩
    rw [← e]
    congr 1
    omega

/-- C41: `moveTensor` changes only the representation, when `chi` is at least the dimension of the moved leg times every
bond dimension of the chain. -/
theorem C41_moveTensor [CommSemiring R] {la : LinAlg R} (hla : ExactLinAlg la) (hr : RankRevealing la) (cast castF : R → R)
    {st : Store} {m : MPS R} {phys : List LegId} {lft rgt : Nat → LegId} (C : Chain st m.tensors phys lft rgt) {chi : Nat}
    (hc : m.chi = chi) {b e : Nat} (hb : b < m.tensors.length) (he : e < m.tensors.length)
    (h1 : st.dim (phys.getD b 0) ≤ chi)
    (h2 : ∀ i, i + 1 < m.tensors.length → st.dim (phys.getD b 0) * st.dim (rgt i) ≤ chi) :
    ∃ st' m', m.moveTensor la cast castF st b e = .ok (st', m') ∧ IsChain st' m'.tensors (moveTo phys b e) ∧
      SameValue st m.tensors st' m'.tensors := by
  obtain ⟨st', m', h, h4, -⟩ := C33_moveTensor hla cast castF ⟨_, _, C⟩ hc hb he
  refine ⟨st', m', h, h4, ?_⟩
  have ib : m.isIndex b = true := by simp [MPS.isIndex, hb]
  have ie : m.isIndex e = true := by simp [MPS.isIndex, he]
  unfold MPS.moveTensor at h
  simp only [ib, ie, Bool.and_self, pyAssert, if_true, bind, Except.bind] at h
  rcases lt_trichotomy b e with c | c | c
  · obtain ⟨st2, m2, h', -, v, -⟩ := loop_right hla cast castF (e - b) C hc (b := b) (by omega)
    rw [if_neg (by omega), if_pos (by omega), show ((e : Int) - b).toNat = e - b by omega] at h
    have := Except.ok.inj (h'.symm.trans h)
    rw [Prod.mk.injEq] at this
    rw [← this.1, ← this.2]
    exact v hr h1 fun i _ hi => h2 i hi
  · subst c
    rw [if_pos rfl] at h
    have := Except.ok.inj h
    rw [Prod.mk.injEq] at this
    rw [← this.1, ← this.2]
    exact .refl C.goodNet
  · obtain ⟨st2, m2, h', -, v, -⟩ := loop_left hla cast castF (b - e) C hc (b := b) hb (by omega)
    rw [if_neg (by omega), if_neg (by omega), show ((b : Int) - e).toNat = b - e by omega] at h
    have := Except.ok.inj (h'.symm.trans h)
    rw [Prod.mk.injEq] at this
    rw [← this.1, ← this.2]
    refine v hr h1 fun i h0 hi => ?_
    obtain ⟨i, rfl⟩ : ∃ c, i = c + 1 := ⟨i - 1, by omega⟩
    have hi' : i + 1 < m.tensors.length := by omega
    rw [partner_dim C.wf.inv (C.joined i hi')]
    exact h2 i hi'

/-- C41: the same for `makeAdjacent`. -/
theorem C41_makeAdjacent [CommSemiring R] {la : LinAlg R} (hla : ExactLinAlg la) (hr : RankRevealing la) (cast castF : R → R)
    {st : Store} {m : MPS R} {phys : List LegId} {lft rgt : Nat → LegId} (C : Chain st m.tensors phys lft rgt) {chi : Nat}
    (hc : m.chi = chi) {a b : Nat} (hab : a ≠ b) (ha : a < m.tensors.length) (hb : b < m.tensors.length)
    (h1 : st.dim (phys.getD (min a b) 0) ≤ chi)
    (h2 : ∀ i, i + 1 < m.tensors.length → st.dim (phys.getD (min a b) 0) * st.dim (rgt i) ≤ chi) :
    ∃ st' m' p q, m.makeAdjacent la cast castF st a b = .ok (st', m', p, q) ∧ SameValue st m.tensors st' m'.tensors := by
  have ib : m.isIndex a = true := by simp [MPS.isIndex, ha]
  have ie : m.isIndex b = true := by simp [MPS.isIndex, hb]
  obtain ⟨st', m', h, -, v, -⟩ := loop_right hla cast castF (max a b - 1 - min a b) C hc (b := min a b) (by omega)
  refine ⟨st', m', max (a : Int) b - 1, max (a : Int) b, ?_, v hr h1 fun i _ hi => h2 i hi⟩
  unfold MPS.makeAdjacent
  have hne : ((a : Int) ≠ b) := by omega
  simp only [ib, ie, Bool.and_self, pyAssert, if_true, bind, Except.bind, hne, ne_eq, not_false_eq_true, decide_true]
  rw [show (max (a : Int) b - 1 - min (a : Int) b).toNat = max a b - 1 - min a b by omega,
    show min (a : Int) b = ((min a b : Nat) : Int) by omega, h]
  rfl

/-! A chain of three sites with physical dimensions 2, 3, 2. -/

def exChainStore : Store where
  leg := fun l => match l with
    | 0 => ⟨2, "o", none, some 0⟩
    | 1 => ⟨2, "r", some 0, some 0⟩
    | 2 => ⟨2, "l", some 0, some 1⟩
    | 3 => ⟨3, "o", none, some 1⟩
    | 4 => ⟨2, "r", some 1, some 1⟩
    | 5 => ⟨2, "l", some 1, some 2⟩
    | 6 => ⟨2, "o", none, some 2⟩
    | _ => ⟨0, "", none, none⟩
  bond := fun b => match b with
    | 0 => (1, 2)
    | 1 => (5, 4)
    | _ => (0, 0)
  nextLeg := 7
  nextBond := 2
  nextTensor := 3

def exChain : MPS Int where
  tensors := [⟨0, [0, 1], some ⟨[2, 2], [1, 2, 3, 4]⟩, false, false, 0⟩,
    ⟨1, [2, 3, 4], some ⟨[2, 3, 2], [1, 0, 2, 0, 3, 0, 4, 1, 5, 1, 6, 1]⟩, false, false, 0⟩,
    ⟨2, [5, 6], some ⟨[2, 2], [2, 0, 1, 1]⟩, false, false, 0⟩]
  chi := 6
  activeIdx := none

theorem exChainStore_wf : WFStore exChainStore := by
  refine ⟨?_, ?_, ?_⟩ <;> intro l b h
  · match l with
    | 0 | 3 | 6 => simp [exChainStore] at h
    | 1 | 2 | 4 | 5 => simp [exChainStore] at h; subst h; simp [exChainStore, Store.dim]
    | n + 7 => simp [exChainStore] at h
  · match l with
    | 0 | 1 | 2 | 3 | 4 | 5 | 6 => simp [exChainStore]
    | n + 7 => simp [exChainStore] at h
  · match l with
    | 0 | 3 | 6 => simp [exChainStore] at h
    | 1 | 2 | 4 | 5 => simp [exChainStore] at h; subst h; simp [exChainStore]
    | n + 7 => simp [exChainStore] at h

theorem exChain_chain : Chain exChainStore exChain.tensors [0, 3, 6] (fun i => if i = 1 then 2 else 5)
    (fun i => if i = 0 then 1 else 4) where
  wf := exChainStore_wf
  len := rfl
  good := by
    intro t ht
    simp only [exChain, List.mem_cons, List.not_mem_nil, or_false] at ht
    rcases ht with rfl | rfl | rfl <;>
    exact ⟨⟨by decide, rfl, _, rfl, rfl, fun _ => by decide, fun h => by cases h⟩, rfl⟩
  legs := by
    intro i t h
    match i with
    | 0 => simp only [exChain, List.getElem?_cons_zero, Option.some.injEq] at h; subst h; decide
    | 1 => simp only [exChain, List.getElem?_cons_succ, List.getElem?_cons_zero, Option.some.injEq] at h; subst h; decide
    | 2 => simp only [exChain, List.getElem?_cons_succ, List.getElem?_cons_zero, Option.some.injEq] at h; subst h; decide
    | n + 3 => simp [exChain] at h
  old := by decide
  disj := by
    intro i hi j hj hij
    have hi : i < 3 := hi
    have hj : j < 3 := hj
    interval_cases i <;> interval_cases j <;> first | exact absurd rfl hij | decide
  joined := by
    intro i hi
    have hi : i + 1 < 3 := hi
    have hi : i < 2 := by omega
    interval_cases i <;> decide
  apart := by decide
  nameP := by decide
  nameR := by
    intro i hi
    have hi : i + 1 < 3 := hi
    have hi : i < 2 := by omega
    interval_cases i <;> decide
  nameL := by
    intro i hi
    have hi : i + 1 < 3 := hi
    have hi : i < 2 := by omega
    interval_cases i <;> decide

example : ∃ st' m', exChain.moveTensor (trivLA Int) id id exChainStore 0 2 = .ok (st', m') ∧
    IsChain st' m'.tensors [3, 6, 0] ∧ SameValue exChainStore exChain.tensors st' m'.tensors :=
  C41_moveTensor (trivLA_exact Int) (trivLA_rank Int) id id exChain_chain (chi := 6) rfl (b := 0) (e := 2) (by decide) (by decide)
    (by decide) (by
      intro i hi
      have hi : i + 1 < 3 := hi
      have hi : i < 2 := by omega
      interval_cases i <;> decide)

example : ∃ st' m' q, exChain.makeAdjacent (trivLA Int) id id exChainStore (2 : Nat) (0 : Nat) =
    .ok (st', m', (q : Nat), ((q + 1 : Nat) : Int)) ∧ IsChain st' m'.tensors (moveTo [0, 3, 6] 0 q) := by
  obtain ⟨st', m', q, h1, h2, -⟩ := C33_makeAdjacent (trivLA_exact Int) id id ⟨_, _, exChain_chain⟩ (chi := 6) rfl
    (a := 2) (b := 0) (by decide) (by decide) (by decide)
  exact ⟨st', m', q, h1, h2⟩

example : ∃ st' m', exChain.swap (trivLA Int) id id exChainStore (0 : Nat) ((0 + 1 : Nat) : Int) = .ok (st', m') ∧
    SameValue exChainStore exChain.tensors st' m'.tensors :=
  (C41_swap (trivLA_exact Int) (trivLA_rank Int) id id exChain_chain (chi := 6) rfl (i := 0) (by decide)).1 (by decide)

/-! ### C34 -/

theorem bondChiLoop_neg {st' : Store} {r : Int} : ∀ (ts : List (Tensor R)) (st : Store) (acc : Int), acc < 0 →
    MPS.bondChiLoop st ts acc = .ok (st', r) → r = acc
  | [], st, acc, _, h => by
    unfold MPS.bondChiLoop at h
    have := Except.ok.inj h
    rw [Prod.mk.injEq] at this
    exact this.2.symm
  | [_], st, acc, _, h => by
    unfold MPS.bondChiLoop at h
    have := Except.ok.inj h
    rw [Prod.mk.injEq] at this
    exact this.2.symm
  | ta :: tb :: ts, st, acc, ha, h => by
    unfold MPS.bondChiLoop at h
    simp only [bind, Except.bind] at h
    split at h
    · cases h
    · split at h
      · cases h
      · rw [min_eq_left (by omega)] at h
        exact bondChiLoop_neg (tb :: ts) _ acc ha h

/-- C34, the part that holds: an explicit `chi` (not below -1) is returned unchanged. -/
theorem C34_explicit_partial [Zero R] {st st' : Store} {ts : List (Tensor R)} {c r : Int} (hc : -1 ≤ c)
    (h : MPS.getChi st ts (some c) = .ok (st', r)) : r = c := by
  unfold MPS.getChi at h
  simp only [bind, Except.bind] at h
  split at h
  · cases h
  · rename_i p hp
    have := bondChiLoop_neg ts st (-1) (by decide) (st' := p.1) (r := p.2) hp
    rw [if_neg (by omega)] at h
    have := Except.ok.inj h
    rw [Prod.mk.injEq] at this
    exact this.2.symm

/-- C34, what the code does instead of the documented maximum: without `chi` the result is always -1. -/
theorem C34_none_wrong [Zero R] {st st' : Store} {ts : List (Tensor R)} {r : Int}
    (h : MPS.getChi st ts none = .ok (st', r)) : r = -1 := by
  unfold MPS.getChi at h
  simp only [bind, Except.bind] at h
  split at h
  · cases h
  · rename_i p hp
    have := bondChiLoop_neg ts st (-1) (by decide) (st' := p.1) (r := p.2) hp
    have h := Except.ok.inj h
    rw [Prod.mk.injEq] at h
    omega

/-- On a chain `getChi` returns. -/
theorem C34_returns [Zero R] {st : Store} {ts : List (Tensor R)} {phys : List LegId} (C : IsChain st ts phys)
    (chi : Option Int) : ∃ st' r, MPS.getChi st ts chi = .ok (st', r) ∧ SameUpToOrientation st st' := by
  obtain ⟨lft, rgt, C⟩ := C
  have key : ∀ (k : Nat) (st1 : Store) (acc : Int), SameUpToOrientation st st1 →
      ∃ st' r, MPS.bondChiLoop st1 (ts.drop (ts.length - k)) acc = .ok (st', r) ∧ SameUpToOrientation st1 st' := by
    intro k
    induction k with
    | zero =>
      intro st1 acc _
      rw [Nat.sub_zero, List.drop_length]
      exact ⟨st1, acc, rfl, .refl _⟩
    | succ k ih =>
      intro st1 acc hs
      by_cases hk : ts.length ≤ k
      · rw [show ts.length - (k + 1) = ts.length - k by omega]
        exact ih st1 acc hs
      · rw [List.drop_eq_getElem_cons (by omega)]
        rw [show ts.length - (k + 1) + 1 = ts.length - k by omega]
        by_cases hk0 : k = 0
        · subst hk0
          rw [Nat.sub_zero, List.drop_length]
          exact ⟨st1, acc, rfl, .refl _⟩
        · have h1 : ts.length - (k + 1) + 1 < ts.length := by omega
          have P := C.pair h1 (List.getElem?_eq_getElem (by omega)) (List.getElem?_eq_getElem h1)
          have sh := P.shared
          rw [← sharedPairs_congr (hs.partner C.wf.inv)] at sh
          obtain ⟨st2, bs, e, so, pr, -, -⟩ := shareBondsLoop_spec ts[ts.length - (k + 1) + 1].legs ts[ts.length - (k + 1)].legs st1
            (hs.inv C.wf.inv) P.goodA.nodup P.disj
          rw [sh] at pr
          obtain ⟨b, rfl⟩ : ∃ b, bs = [b] := by
            rw [← List.length_eq_one_iff, ← List.length_map (f := st2.bond), pr]; rfl
          obtain ⟨st', r, e2, so2⟩ := ih st2 (min acc (st2.dim (st2.bond b).1)) (hs.trans so)
          have hd : ts.drop (ts.length - k) = ts[ts.length - (k + 1) + 1] :: ts.drop (ts.length - k + 1) := by
            rw [List.drop_eq_getElem_cons (by omega)]
            congr 2
            omega
          refine ⟨st', r, ?_, so.trans so2⟩
          rw [hd] at e2 ⊢
          unfold MPS.bondChiLoop
          simp only [shareBonds, e, bind, Except.bind]
          exact e2
  obtain ⟨st', r, h, so⟩ := key ts.length st (-1) (.refl _)
  rw [Nat.sub_self, List.drop_zero] at h
  unfold MPS.getChi
  simp only [h, bind, Except.bind, pure, Except.pure]
  cases chi with
  | none => exact ⟨st', r, rfl, so⟩
  | some c =>
    simp only
    split
    · exact ⟨st', r, rfl, so⟩
    · exact ⟨st', c, rfl, so⟩

/-- C34: the documented value, the largest bond dimension of this chain, is 2; the code gives -1 … -/
theorem C34_none_example : (MPS.getChi exChainStore exChain.tensors none).map Prod.snd = .ok (-1) := by decide +kernel

/-- … and with it `SchimdtDecomposition`, hence every swap, is refused. -/
theorem schmidt_negative [NonUnitalNonAssocSemiring R] (la : LinAlg R) (cast castF : R → R) (st : Store) (ta tb : Tensor R)
    {chi : Int} (hc : chi < 0) (sq : Bool) (swapA swapB : List String) (r) :
    schmidt la cast castF st ta tb chi sq swapA swapB ≠ .ok r := by
  unfold schmidt
  simp only [bind, Except.bind]
  split
  · simp
  · rename_i p hp
    have : ∀ d, schmidtData la castF p ta.like chi ≠ .ok d := by
      intro d
      unfold schmidtData
      simp only [bind, Except.bind, keptValues, if_pos hc]
      split
      · simp
      · split
        · simp
        · simp
    split
    · simp
    · rename_i d hd
      exact absurd hd (this d)

theorem C34_default_chi_unusable [NonUnitalNonAssocSemiring R] (la : LinAlg R) (cast castF : R → R) (st : Store) (m : MPS R)
    (hc : m.chi = -1) (a b : Int) (r) : m.swap la cast castF st a b ≠ .ok r := by
  unfold MPS.swap
  split
  · split
    · simp only [bind, Except.bind]
      split
      · simp
      · rename_i h
        exact absurd h (schmidt_negative la cast castF st _ _ (by omega) _ _ _ _)
    · simp [throw, throwThe, MonadExceptOf.throw]
  · simp [throw, throwThe, MonadExceptOf.throw]

example : (MPS.getChi exChainStore exChain.tensors (some 6)).map Prod.snd = .ok 6 := by decide +kernel

example : ∃ st' r, MPS.getChi exChainStore exChain.tensors none = .ok (st', r) ∧ r = -1 := by
  obtain ⟨st', r, e, -⟩ := C34_returns ⟨_, _, exChain_chain⟩ none
  exact ⟨st', r, e, C34_none_wrong e⟩

/-- Without `chi` the chain cannot be used: the hypothesis of `C34_default_chi_unusable`. -/
example (r) : ({ exChain with chi := -1 } : MPS Int).swap (trivLA Int) id id exChainStore 0 1 ≠ .ok r :=
  C34_default_chi_unusable _ _ _ _ _ rfl _ _ _

end CTL
