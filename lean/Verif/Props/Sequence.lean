import Verif.Lemmas.Sequence

/-! # Contraction sequences (C03) -/

namespace CTL
variable {R : Type}

/-! ### A concrete network: a triangle with one free leg per tensor -/

/-- Tensors 0, 1, 2 with legs 0-2, 3-5, 6-8; the first leg of each is free; bonds 1-3', 2-7', 5-8'. -/
def triStore : Store where
  leg l := match l with
    | 0 => ⟨2, "a", none, some 0⟩
    | 1 => ⟨2, "x", some 0, some 0⟩
    | 2 => ⟨1, "y", some 1, some 0⟩
    | 3 => ⟨1, "b", none, some 1⟩
    | 4 => ⟨2, "x", some 0, some 1⟩
    | 5 => ⟨3, "z", some 2, some 1⟩
    | 6 => ⟨2, "c", none, some 2⟩
    | 7 => ⟨1, "y", some 1, some 2⟩
    | 8 => ⟨3, "z", some 2, some 2⟩
    | _ => ⟨0, "", none, none⟩
  bond b := match b with
    | 0 => (1, 4)
    | 1 => (2, 7)
    | _ => (5, 8)
  nextLeg := 9
  nextBond := 3
  nextTensor := 3

def triA : Tensor Int := ⟨0, [0, 1, 2], some ⟨[2, 2, 1], [1, 2, 3, 4]⟩, false, false, 0⟩
def triB : Tensor Int := ⟨1, [3, 4, 5], some ⟨[1, 2, 3], [1, 0, 2, 3, 1, 1]⟩, false, false, 0⟩
def triC : Tensor Int := ⟨2, [6, 7, 8], some ⟨[2, 1, 3], [1, 1, 1, 0, 2, 5]⟩, false, false, 0⟩
def triNet : List (Tensor Int) := [triA, triB, triC]

theorem triStore_inv : BondInv triStore := by
  intro l b h
  match l with
  | 0 => simp [triStore] at h
  | 1 => simp [triStore] at h; subst h; simp [triStore, Store.dim]
  | 2 => simp [triStore] at h; subst h; simp [triStore, Store.dim]
  | 3 => simp [triStore] at h
  | 4 => simp [triStore] at h; subst h; simp [triStore, Store.dim]
  | 5 => simp [triStore] at h; subst h; simp [triStore, Store.dim]
  | 6 => simp [triStore] at h
  | 7 => simp [triStore] at h; subst h; simp [triStore, Store.dim]
  | 8 => simp [triStore] at h; subst h; simp [triStore, Store.dim]
  | n + 9 => simp [triStore] at h

theorem triNet_good : GoodNet triStore triNet := by
  refine ⟨triStore_inv, ?_, by decide⟩
  intro t ht
  simp only [triNet, List.mem_cons, List.not_mem_nil, or_false] at ht
  rcases ht with rfl | rfl | rfl
  · exact ⟨by decide, rfl, ⟨_, rfl, rfl, fun _ => rfl, fun h => by simp [triA] at h⟩⟩
  · exact ⟨by decide, rfl, ⟨_, rfl, rfl, fun _ => rfl, fun h => by simp [triB] at h⟩⟩
  · exact ⟨by decide, rfl, ⟨_, rfl, rfl, fun _ => rfl, fun h => by simp [triC] at h⟩⟩

theorem triNet_dims : ∀ l m, triStore.partner l = some m → Cross triNet l m → triStore.dim l ≠ 0 := by
  rintro l m - ⟨⟨t, ht, hl, -⟩, -⟩
  simp only [triNet, List.mem_cons, List.not_mem_nil, or_false] at ht
  rcases ht with rfl | rfl | rfl <;>
    (simp only [triA, triB, triC, List.mem_cons, List.not_mem_nil, or_false] at hl
     rcases hl with rfl | rfl | rfl <;> decide)

/-! ### C03 -/

/-- Executing a valid sequence on a network whose bonds have nonzero dimension does not raise; the result has
exactly the free legs of the network, and each of its entries is the network sum: the sum over all bonds (listed
in any order and orientation) of the product of the entries of all tensors.  The tensors are dense, or more
generally every step is one that `contractTwoTensors` gets right. -/
theorem C03_any_valid_sequence [CommSemiring R] (cast : R → R) {st : Store} {ts : List (Tensor R)}
    (g : GoodNet st ts) (hpos : ∀ l m, st.partner l = some m → Cross ts l m → st.dim l ≠ 0)
    {seq : List (Nat × Nat)} (hv : ValidSeq ts.length seq)
    (hd : (∀ t ∈ ts, t.diag = false) ∨ SafeSeq cast st ts seq) :
    ∃ st' t c, contractInPlace cast st ts seq = .ok (st', t, c) ∧ SameNet st st' ∧ GoodTensor st' t ∧
      (∀ l, l ∈ t.legs ↔ FreeLeg st ts l) ∧
      ∀ ps, IsBondList st ts ps → ∀ σ, (∀ l, FreeLeg st ts l → σ l < st.dim l) →
        entry t σ = netSum st ts ps σ := by
  have h0 : 0 ∈ List.range ts.length := by
    cases hts : ts with
    | nil => rw [hts] at hv; cases seq <;> simp [ValidSeq, validFrom] at hv
    | cons x xs => simp
  have := seqLoop_spec cast seq st ts 0 (List.range ts.length) List.nodup_range
    (fun i hi => by simpa using hi) h0
  rw [pick_range] at this
  obtain ⟨st', ts', total', t, h1, h2, h3, h4, h5, h6, _⟩ := this g hpos hv hd
  refine ⟨st', t, total', ?_, h3, h4, h5, h6⟩
  unfold contractInPlace
  rw [h1]
  cases ts' with
  | nil => simp at h2
  | cons x xs =>
    simp only [List.getElem?_cons_zero, Option.some.injEq] at h2
    subst h2
    rfl

example : GoodNet triStore triNet ∧
    (∀ l m, triStore.partner l = some m → Cross triNet l m → triStore.dim l ≠ 0) ∧
    ValidSeq triNet.length [(2, 1), (1, 0)] ∧ (∀ t ∈ triNet, t.diag = false) :=
  ⟨triNet_good, triNet_dims, by decide, by decide⟩

/-- Every network has a list of its bonds, so the previous theorem always determines the entries. -/
theorem C03_bond_list_exists {st : Store} {ts : List (Tensor R)} (g : GoodNet st ts) : ∃ ps, IsBondList st ts ps :=
  exists_bondList g

example : GoodNet triStore triNet := triNet_good

/-- Any two valid sequences give the same labelled array: the same set of legs, and equal entries at every
assignment of values to the legs. -/
theorem C03_sequences_agree [CommSemiring R] (cast : R → R) {st : Store} {ts : List (Tensor R)}
    (g : GoodNet st ts) (hpos : ∀ l m, st.partner l = some m → Cross ts l m → st.dim l ≠ 0)
    (hd : ∀ t ∈ ts, t.diag = false) {seq seq' : List (Nat × Nat)} (hv : ValidSeq ts.length seq)
    (hv' : ValidSeq ts.length seq') :
    ∃ st1 t1 c1 st2 t2 c2, contractInPlace cast st ts seq = .ok (st1, t1, c1) ∧
      contractInPlace cast st ts seq' = .ok (st2, t2, c2) ∧ t1.legs.Perm t2.legs ∧
      st1.dim = st2.dim ∧ st1.name = st2.name ∧
      ∀ σ, InRange st1.dim t1.legs σ → entry t1 σ = entry t2 σ := by
  obtain ⟨st1, t1, c1, h1, s1, g1, l1, e1⟩ := C03_any_valid_sequence cast g hpos hv (Or.inl hd)
  obtain ⟨st2, t2, c2, h2, s2, g2, l2, e2⟩ := C03_any_valid_sequence cast g hpos hv' (Or.inl hd)
  obtain ⟨ps, hps⟩ := exists_bondList g
  refine ⟨st1, t1, c1, st2, t2, c2, h1, h2, ?_, s1.dim.trans s2.dim.symm, s1.name.trans s2.name.symm, ?_⟩
  · rw [List.perm_ext_iff_of_nodup g1.nodup g2.nodup]
    intro l
    rw [l1, l2]
  · intro σ hσ
    have hf : ∀ l, FreeLeg st ts l → σ l < st.dim l := by
      intro l hl
      have := hσ l ((l1 l).mpr hl)
      rwa [s1.dim] at this
    rw [e1 ps hps σ hf, e2 ps hps σ hf]

example : ValidSeq triNet.length [(0, 1), (0, 2)] ∧ ValidSeq triNet.length [(2, 1), (1, 0)] ∧
    ((contractInPlace id triStore triNet [(0, 1), (0, 2)]).toOption.map fun r => (r.2.1.legs, r.2.1.a)) =
      some ([0, 3, 6], some ⟨[2, 1, 2], [13, 24, 29, 58]⟩) ∧
    ((contractInPlace id triStore triNet [(2, 1), (1, 0)]).toOption.map fun r => (r.2.1.legs, r.2.1.a)) =
      some ([6, 3, 0], some ⟨[2, 1, 2], [13, 29, 24, 58]⟩) := by
  refine ⟨by decide, by decide, by decide +kernel, by decide +kernel⟩

/-- A valid sequence for `n` tensors has `n - 1` steps. -/
theorem C03_valid_length {n : Nat} {seq : List (Nat × Nat)} (h : ValidSeq n seq) : seq.length + 1 = n := by
  have : ∀ (seq : List (Nat × Nat)) (live : List Nat), validFrom live seq → seq.length + 1 = live.length := by
    intro seq
    induction seq with
    | nil => intro live h; simp [validFrom] at h; simp [h]
    | cons p seq ih =>
      intro live h
      obtain ⟨s, t⟩ := p
      obtain ⟨hs, ht, hne, hv⟩ := h
      have := ih _ hv
      have hm : max s t ∈ live := by
        rcases Nat.le_total s t with h | h
        · rwa [max_eq_right h]
        · rwa [max_eq_left h]
      rw [List.length_erase_of_mem hm] at this
      have := List.length_pos_of_mem hm
      simp only [List.length_cons]
      omega
  simpa using this seq _ h

example : ValidSeq 4 [(3, 1), (0, 2), (1, 0)] := by decide

/-- The same network with the bond between the first two tensors of dimension 0. -/
def zeroStore : Store where
  leg l := match l with
    | 0 => ⟨0, "x", some 0, some 0⟩
    | 1 => ⟨0, "x", some 0, some 1⟩
    | _ => ⟨0, "", none, none⟩
  bond _ := (0, 1)
  nextLeg := 2
  nextBond := 1
  nextTensor := 2

/-- The hypothesis on dimensions is needed: over a bond of dimension 0 the cost computation divides by zero and
raises, although the contraction itself is well defined (and `contractTwoTensors` computes it). -/
theorem C03_zero_dimension_raises :
    ∃ ts : List (Tensor Int), GoodNet zeroStore ts ∧ ValidSeq ts.length [(0, 1)] ∧ (∀ t ∈ ts, t.diag = false) ∧
      contractInPlace id zeroStore ts [(0, 1)] = .error .zeroDivisionError ∧
      ∃ o, contractTwoTensors id zeroStore (ts.getD 0 ⟨0, [], none, false, false, 0⟩)
        (ts.getD 1 ⟨0, [], none, false, false, 0⟩) none = .ok o ∧ o.result.a = some ⟨[], [0]⟩ := by
  refine ⟨[⟨0, [0], some ⟨[0], []⟩, false, false, 0⟩, ⟨1, [1], some ⟨[0], []⟩, false, false, 0⟩],
    ⟨?_, ?_, by decide⟩, by decide, by decide, rfl, _, rfl, by decide⟩
  · intro l b h
    match l with
    | 0 => simp [zeroStore] at h; subst h; simp [zeroStore, Store.dim]
    | 1 => simp [zeroStore] at h; subst h; simp [zeroStore, Store.dim]
    | n + 2 => simp [zeroStore] at h
  · intro t ht
    simp only [List.mem_cons, List.not_mem_nil, or_false] at ht
    rcases ht with rfl | rfl
    · exact ⟨by decide, rfl, ⟨_, rfl, rfl, fun _ => rfl, fun h => by simp at h⟩⟩
    · exact ⟨by decide, rfl, ⟨_, rfl, rfl, fun _ => rfl, fun h => by simp at h⟩⟩

/-! ### The incurred cost (first half of C08) -/

/-- On dense tensors the accumulated cost is the sum over the steps of the product of the dimensions of all legs
of the two operands, a bond between them counted once. -/
theorem C08_incurred_cost [CommSemiring R] (cast : R → R) {st : Store} {ts : List (Tensor R)}
    (g : GoodNet st ts) (hpos : ∀ l m, st.partner l = some m → Cross ts l m → st.dim l ≠ 0)
    (hd : ∀ t ∈ ts, t.diag = false) {seq : List (Nat × Nat)} (hv : ValidSeq ts.length seq) :
    ∃ st' t, contractInPlace cast st ts seq = .ok (st', t, seqCost st (ts.map fun t => t.legs) seq) := by
  have h0 : 0 ∈ List.range ts.length := by
    cases hts : ts with
    | nil => rw [hts] at hv; cases seq <;> simp [ValidSeq, validFrom] at hv
    | cons x xs => simp
  have := seqLoop_spec cast seq st ts 0 (List.range ts.length) List.nodup_range
    (fun i hi => by simpa using hi) h0
  rw [pick_range] at this
  obtain ⟨st', ts', total', t, h1, h2, _, _, _, _, h7⟩ := this g hpos hv (Or.inl hd)
  have hc := h7 hd (ts.map fun t => t.legs) (by simp) (by
    intro i _ x hx
    rw [List.getD_eq_getElem?_getD, List.getElem?_map, hx]
    rfl)
  refine ⟨st', t, ?_⟩
  unfold contractInPlace
  rw [h1]
  cases ts' with
  | nil => simp at h2
  | cons x xs =>
    simp only [List.getElem?_cons_zero, Option.some.injEq] at h2
    subst h2
    rw [Nat.zero_add] at hc
    rw [← hc]
    rfl

example : GoodNet triStore triNet ∧ ValidSeq triNet.length [(2, 1), (1, 0)] ∧
    seqCost triStore (triNet.map fun t => t.legs) [(2, 1), (1, 0)] = 2 * 1 * 3 * 1 * 2 + 2 * 1 * 1 * 2 * 2 :=
  ⟨triNet_good, by decide, by decide⟩

end CTL
