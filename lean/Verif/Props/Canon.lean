import Verif.Lemmas.CanonTest
import Verif.Lemmas.SvdExists
import Verif.Props.MPS
import Mathlib.Analysis.Complex.Basic

/-! C46: the canonical form of a matrix product state. -/

namespace CTL
variable {R : Type}
open Finset

/-- C46: `canonicalize(idx)` of a chain returns a chain with the same physical legs in the same order, in canonical form
with the centre `idx`; no bond is wider than `chi`; `chi` is kept, and `idx` is recorded. -/
theorem C46_canonicalize [CommRing R] [StarRing R] {la : LinAlg R} (hla : ExactLinAlg la) (hu : UnitaryLinAlg la) (cast castF : R → R)
    {st : Store} {m : MPS R} {phys : List LegId} (C : IsChain st m.tensors phys) {chi : Nat} (hc : m.chi = chi) {idx : Nat}
    (hi : idx < m.tensors.length) :
    ∃ st' m' lft rgt, m.canonicalize la cast castF st idx = .ok (st', m') ∧ Chain st' m'.tensors phys lft rgt ∧
      m'.tensors.length = m.tensors.length ∧ m'.chi = m.chi ∧ m'.activeIdx = some idx ∧ LegsKept st st' ∧
      (∀ j, j + 1 < m.tensors.length → st'.dim (rgt j) ≤ chi) ∧ CanonicalAt st' m'.tensors phys lft rgt idx := by
  obtain ⟨lft, rgt, C⟩ := C
  obtain ⟨st1, m1, l1, r1, e1, s1, d1, i1, v1⟩ := sweep_right hla cast castF C hc idx hi
  obtain ⟨st2, m2, l2, r2, e2, s2, d2, i2, v2⟩ := sweep_left hla cast castF s1.chain s1.len.symm (s1.chiKept.trans hc)
    (m.tensors.length - 1 - idx) (by omega)
  rw [show m.tensors.length - 1 - (m.tensors.length - 1 - idx) = idx by omega] at s2 d2 i2 v2
  refine ⟨st2, { m2 with activeIdx := some idx }, l2, r2, ?_, s2.chain, s2.len.trans s1.len, s2.chiKept.trans s1.chiKept, rfl,
    s1.kept.trans s1.grow s2.kept, ?_, ?_, ?_⟩
  · unfold MPS.canonicalize
    have : m.isIndex (idx : Int) = true := by
      unfold MPS.isIndex
      exact decide_eq_true ⟨by omega, by omega⟩
    simp only [this, pyAssert, if_true, bind, Except.bind, Int.toNat_natCast, e1, e2, pure, Except.pure]
  · intro j hj
    by_cases c : j < idx
    · rw [s2.rgtKept j (.inl c), (s2.kept _ (s1.chain.oldR (by rw [s1.len]; exact hj))).1]
      exact s1.bound j (by omega) c
    · exact s2.bound j (by omega) (by omega)
  · intro j hj t ht
    have ht : m2.tensors[j]? = some t := ht
    rw [s2.others j (.inl hj)] at ht
    rw [s2.rgtKept j (.inl hj), s2.lftKept j (.inl hj.le)]
    refine (i1 hu j hj t ht).congr fun l hl => ?_
    have : l ∈ t.legs := (s1.chain.legs j t ht).mem_iff.mpr (by
      unfold siteLegs
      have : j + 1 < m1.tensors.length := by rw [s1.len]; omega
      rcases List.mem_cons.mp hl with rfl | hl
      · simp [this]
      · rcases List.mem_cons.mp hl with rfl | hl
        · simp
        · simp [hl])
    exact (s2.kept l (s1.chain.old t (List.mem_of_getElem? ht) l this)).1
  · intro j hj t ht
    have ht : m2.tensors[j]? = some t := ht
    have hlt : j < m.tensors.length := by
      have := (List.getElem?_eq_some_iff.mp ht).1
      rw [s2.len, s1.len] at this
      exact this
    have := i2 hu j hj hlt t ht
    show IsometryAt st2 t (phys.getD j 0 :: if j + 1 < m2.tensors.length then [r2 j] else []) (l2 j)
    rw [s2.len, s1.len]
    exact this

/-- C46: when no bond of the chain is wider than `chi`, `canonicalize` does not change the state, and no bond becomes
wider than it was. -/
theorem C46_state_kept [Field R] [StarRing R] {la : LinAlg R} (hla : ExactLinAlg la) (hu : UnitaryLinAlg la) (hr : RankRevealing la)
    (hz : ∀ z, la.isNonZero z = true → z ≠ 0) (cast castF : R → R) {st : Store} {m : MPS R} {phys : List LegId}
    {lft rgt : Nat → LegId} (C : Chain st m.tensors phys lft rgt) {chi : Nat} (hc : m.chi = chi) {idx : Nat}
    (hi : idx < m.tensors.length) (hb : ∀ j, j + 1 < m.tensors.length → st.dim (rgt j) ≤ chi) :
    ∃ st' m' lft' rgt', m.canonicalize la cast castF st idx = .ok (st', m') ∧ Chain st' m'.tensors phys lft' rgt' ∧
      CanonicalAt st' m'.tensors phys lft' rgt' idx ∧ SameValue st m.tensors st' m'.tensors ∧
      ∀ j, j + 1 < m.tensors.length → st'.dim (rgt' j) ≤ st.dim (rgt j) := by
  have hbd := rankBounded_of_unitary hu hr hz
  obtain ⟨st1, m1, l1, r1, e1, s1, d1, i1, v1⟩ := sweep_right hla cast castF C hc idx hi
  obtain ⟨st2, m2, l2, r2, e2, s2, d2, i2, v2⟩ := sweep_left hla cast castF s1.chain s1.len.symm (s1.chiKept.trans hc)
    (m.tensors.length - 1 - idx) (by omega)
  rw [show m.tensors.length - 1 - (m.tensors.length - 1 - idx) = idx by omega] at s2 d2 i2 v2
  obtain ⟨st3, m3, l3, r3, e3, c3, -, -, -, -, -, k3⟩ := C46_canonicalize hla hu cast castF ⟨_, _, C⟩ hc hi
  have run : m.canonicalize la cast castF st idx = .ok (st2, { m2 with activeIdx := some idx }) := by
    unfold MPS.canonicalize
    have : m.isIndex (idx : Int) = true := by
      unfold MPS.isIndex
      exact decide_eq_true ⟨by omega, by omega⟩
    simp only [this, pyAssert, if_true, bind, Except.bind, Int.toNat_natCast, e1, e2, pure, Except.pure]
  have h32 := Prod.mk.inj (Except.ok.inj (e3.symm.trans run))
  have hm : m3.tensors = m2.tensors := by rw [h32.2]
  rw [hm, h32.1] at c3 k3
  -- the legs to the right are determined by their names
  have same : ∀ j, j + 1 < m2.tensors.length → r3 j = r2 j := by
    intro j hj
    have ht : m2.tensors[j]? = some m2.tensors[j] := List.getElem?_eq_getElem (by omega)
    have nd := c3.siteNames ht
    apply List.inj_on_of_nodup_map nd
    · refine (c3.legs j _ ht).mem_iff.mpr ?_
      simp [siteLegs, hj]
    · refine (s2.chain.legs j _ ht).mem_iff.mpr ?_
      simp [siteLegs, hj]
    · rw [c3.nameR j hj, s2.chain.nameR j hj]
  have b1 : ∀ j, j + 1 < m.tensors.length → st1.dim (r1 j) ≤ st.dim (rgt j) := by
    intro j hj
    by_cases c : j < idx
    · exact d1 hbd j c
    · rw [s1.rgtKept j (.inr (by omega)), (s1.kept _ (C.oldR hj)).1]
  refine ⟨st2, { m2 with activeIdx := some idx }, l3, r3, run, c3, k3, ?_, ?_⟩
  · refine (v1 hbd hr fun j hj => hb j (by omega)).trans (v2 hbd hr fun j h1 h2 => ?_)
    exact (b1 j (by omega)).trans (hb j (by omega))
  · intro j hj
    rw [same j (by rw [s2.len, s1.len]; exact hj)]
    refine le_trans ?_ (b1 j hj)
    by_cases c : j < idx
    · rw [s2.rgtKept j (.inl c), (s2.kept _ (s1.chain.oldR (by rw [s1.len]; exact hj))).1]
    · exact d2 hbd j (by omega) (by omega)

/-- C46: indices outside of the chain are refused. -/
theorem C46_index [CommRing R] (la : LinAlg R) (cast castF : R → R) (st : Store) (m : MPS R) (idx : Int)
    (h : idx < 0 ∨ (m.tensors.length : Int) ≤ idx) : m.canonicalize la cast castF st idx = .error .assertionError := by
  have : m.isIndex idx = false := by
    unfold MPS.isIndex
    exact decide_eq_false (by omega)
  unfold MPS.canonicalize
  simp [this, pyAssert, bind, Except.bind]

/-- C46: with an exact test for identity matrices, `checkCanonical(idx)` of a chain tells whether the chain is in
canonical form with the centre `idx`. -/
theorem C46_checkCanonical [CommRing R] [StarRing R] (castF : R → R) {isId : NDArray R → Bool}
    (hid : ∀ a n, a.shape = [n, n] → (isId a = true ↔ IsIdentity a n)) {st : Store} {m : MPS R} {phys : List LegId}
    {lft rgt : Nat → LegId} (C : Chain st m.tensors phys lft rgt) {idx : Nat} (hi : idx < m.tensors.length) :
    ∃ b, m.checkCanonical castF isId st (some (idx : Int)) = .ok b ∧ (b = true ↔ CanonicalAt st m.tensors phys lft rgt idx) := by
  obtain ⟨b, b1, b2, b3⟩ := checkLoop_iff castF isId C hi (List.range m.tensors.length) (by simp)
  refine ⟨b, ?_, fun hb => ⟨?_, ?_⟩, b2 fun a n h => (hid a n h.1).mpr h⟩
  · unfold MPS.checkCanonical
    have : m.isIndex (idx : Int) = true := by
      unfold MPS.isIndex
      exact decide_eq_true ⟨by omega, by omega⟩
    simp only [this, pyAssert, if_true, bind, Except.bind, pure, Except.pure, Int.toNat_natCast, b1]
  · intro j hj t ht
    exact (b3 (fun a n hs h => (hid a n hs).mp h) hb j (List.mem_range.mpr (by omega)) t ht).1 hj
  · intro j hj t ht
    exact (b3 (fun a n hs h => (hid a n hs).mp h) hb j
      (List.mem_range.mpr (List.getElem?_eq_some_iff.mp ht).1) t ht).2 hj

/-- C46: after `canonicalize(idx)`, `checkCanonical()` answers `True`, for every test that accepts identity matrices. -/
theorem C46_canonicalize_then_check [CommRing R] [StarRing R] {la : LinAlg R} (hla : ExactLinAlg la) (hu : UnitaryLinAlg la)
    (cast castF : R → R) {isId : NDArray R → Bool} (hid : ∀ a n, IsIdentity a n → isId a = true)
    {st : Store} {m : MPS R} {phys : List LegId} (C : IsChain st m.tensors phys) {chi : Nat} (hc : m.chi = chi) {idx : Nat}
    (hi : idx < m.tensors.length) :
    ∃ st' m', m.canonicalize la cast castF st idx = .ok (st', m') ∧ m'.checkCanonical castF isId st' none = .ok true := by
  obtain ⟨st', m', l, r, h1, h2, h3, -, h5, -, -, h8⟩ := C46_canonicalize hla hu cast castF C hc hi
  refine ⟨st', m', h1, ?_⟩
  obtain ⟨b, b1, b2, -⟩ := checkLoop_iff castF isId h2 (h3 ▸ hi) (List.range m'.tensors.length) (by simp)
  unfold MPS.checkCanonical
  have : m'.isIndex (idx : Int) = true := by
    unfold MPS.isIndex
    exact decide_eq_true ⟨by omega, by omega⟩
  rw [h5]
  simp only [this, pyAssert, if_true, bind, Except.bind, pure, Except.pure, Int.toNat_natCast, b1, b2 hid h8]

/-- C46: without an index and without a recorded centre `checkCanonical` refuses to answer, and so it does for an index
outside of the chain. -/
theorem C46_check_refused [CommRing R] [StarRing R] (castF : R → R) (isId : NDArray R → Bool) (st : Store) (m : MPS R) :
    (m.activeIdx = none → m.checkCanonical castF isId st none = .error .assertionError) ∧
      ∀ idx : Int, idx < 0 ∨ (m.tensors.length : Int) ≤ idx →
        m.checkCanonical castF isId st (some idx) = .error .assertionError := by
  constructor
  · intro h
    unfold MPS.checkCanonical
    rw [h]
    rfl
  · intro idx h
    have : m.isIndex idx = false := by
      unfold MPS.isIndex
      exact decide_eq_false (by omega)
    unfold MPS.checkCanonical
    simp [this, pyAssert, bind, Except.bind, pure, Except.pure]

/-- C46: changing a tensor forgets the centre. -/
theorem C46_forgotten [CommRing R] {la : LinAlg R} {cast castF : R → R} {st st' : Store} {m m' : MPS R} {i j : Int} {t : Tensor R} :
    (m.setTensor i t = .ok m' → m'.activeIdx = none) ∧ (m.swap la cast castF st i j = .ok (st', m') → m'.activeIdx = none) := by
  constructor
  · intro h
    unfold MPS.setTensor at h
    simp only [pyAssert, bind, Except.bind, pure, Except.pure] at h
    split at h
    · cases h
    · rw [← Except.ok.inj h]
  · intro h
    unfold MPS.swap at h
    split at h
    · split at h
      · simp only [bind, Except.bind, pure, Except.pure] at h
        split at h
        · cases h
        · rw [← (Prod.mk.inj (Except.ok.inj h)).2]
      · cases h
    · cases h

/-! ### C39: the three-factor form -/

/-- C39: `SchimdtDecomposition` without square roots returns the cut `u`, `s` and `vh` as three tensors joined by two new
bonds of dimension `min(chi, number of non-zero singular values)`; if only zeros were cut off the network is
unchanged; `u` and `v` of a unitary decomposition are isometries. -/
theorem C39_schmidt_three [CommRing R] [StarRing R] {la : LinAlg R} (hla : ExactLinAlg la) (cast castF : R → R)
    {st : Store} {ta tb : Tensor R} {swapA swapB : List String} (i : SchmidtInput st ta tb swapA swapB) (chi : Nat) :
    ∃ mat st' u s v na nb x x' y' y, (sharedPairs st ta.legs tb.legs).head? = some (na, nb) ∧
      schmidt la cast castF st ta tb chi false swapA swapB = .ok (st', u, some s, v) ∧
      Cut3 la st st' ((sharedPairs st ta.legs tb.legs).flatMap fun q => [q.1, q.2])
        (sideA st ta tb swapA swapB) (sideB st ta tb swapA swapB)
        (sumBonds st.dim (sharedPairs st ta.legs tb.legs) fun τ => entry ta τ * entry tb τ) chi
        (st.name na) (st.name nb) mat u s v x x' y' y ∧
      ((∀ z ∈ (la.svd mat).2.1.drop (min chi ((la.svd mat).2.1.countP la.isNonZero)), z = 0) →
        ∀ σ, InRange st.dim (sideA st ta tb swapA swapB ++ sideB st ta tb swapA swapB) σ →
          sumBonds st'.dim [(x, x'), (y', y)] (fun τ => entry u τ * entry s τ * entry v τ) σ =
          sumBonds st.dim (sharedPairs st ta.legs tb.legs) (fun τ => entry ta τ * entry tb τ) σ) ∧
      (UnitaryLinAlg la → IsometryAt st' u (sideA st ta tb swapA swapB) x ∧ IsometryAt st' v (sideB st ta tb swapA swapB) y) := by
  obtain ⟨mat, st', u, s, v, na, nb, x, x', y', y, h1, h2, h3⟩ := schmidt_three hla cast castF i chi
  have nd := sides_nodup i
  rw [List.nodup_append] at nd
  have oA : ∀ l ∈ sideA st ta tb swapA swapB, l < st.nextLeg := by
    intro l hl
    rcases List.mem_append.mp hl with h | h
    · exact i.oldA l (List.mem_of_mem_filter h)
    · exact i.oldB l (List.mem_of_mem_filter h)
  have oB : ∀ l ∈ sideB st ta tb swapA swapB, l < st.nextLeg := by
    intro l hl
    rcases List.mem_append.mp hl with h | h
    · exact i.oldA l (List.mem_of_mem_filter h)
    · exact i.oldB l (List.mem_of_mem_filter h)
  exact ⟨mat, st', u, s, v, na, nb, x, x', y', y, h1, h2, h3, h3.exact hla oA oB, fun hu => h3.isometries hu oA oB nd.1 nd.2.1⟩

/-- The assumptions of C39 and C46 about the numerical routines can be satisfied over the complex numbers. -/
example : ∃ la : LinAlg ℂ, ExactLinAlg la ∧ UnitaryLinAlg la ∧ RankRevealing la ∧ RankBounded la ∧
    ∀ z, la.isNonZero z = true → z ≠ 0 := by
  obtain ⟨la, h1, h2, h3, h4⟩ := exists_linAlg ℂ
  exact ⟨la, h1, h2, h3, rankBounded_of_unitary h2 h3 fun z => (h4 z).mp, fun z => (h4 z).mp⟩

/-- The chain of `Props/MPS` with the numbers of `S`. -/
def castTensor {S : Type} (f : Int → S) (t : Tensor Int) : Tensor S :=
  ⟨t.id, t.legs, t.a.map fun a => ⟨a.shape, a.data.map f⟩, t.diag, t.like, t.length⟩

noncomputable def exChainC : MPS ℂ := ⟨exChain.tensors.map (castTensor fun z => (z : ℂ)), 2, none⟩

theorem exChainC_chain : Chain exChainStore exChainC.tensors [0, 3, 6] (fun i => if i = 1 then 2 else 5)
    (fun i => if i = 0 then 1 else 4) := by
  have C := exChain_chain
  have hl : exChainC.tensors.length = exChain.tensors.length := by simp [exChainC]
  have back : ∀ t ∈ exChainC.tensors, ∃ t0 ∈ exChain.tensors, castTensor (fun z => (z : ℂ)) t0 = t := by
    intro t ht
    exact List.mem_map.mp ht
  refine ⟨⟨C.wf, rfl, ?_, ?_, ?_, C.disj, C.joined, C.apart⟩, C.nameP, C.nameR, C.nameL⟩
  · intro t ht
    obtain ⟨t0, h0, rfl⟩ := back t ht
    obtain ⟨g, d⟩ := C.good t0 h0
    obtain ⟨arr, ha, w, s, s'⟩ := g.data
    refine ⟨⟨g.nodup, g.notLike, ⟨arr.shape, arr.data.map fun z : Int => (z : ℂ)⟩, ?_, ?_, s, ?_⟩, d⟩
    · simp [castTensor, ha]
    · unfold NDArray.WF at w ⊢
      simpa using w
    · intro hd
      rw [show (castTensor (fun z => (z : ℂ)) t0).diag = t0.diag from rfl, d] at hd
      cases hd
  · intro i t h
    have : exChain.tensors[i]?.map (castTensor fun z => (z : ℂ)) = some t := by
      rw [← List.getElem?_map]; exact h
    obtain ⟨t0, h0, rfl⟩ := Option.map_eq_some_iff.mp this
    exact C.legs i t0 h0
  · intro t ht
    obtain ⟨t0, h0, rfl⟩ := back t ht
    exact C.old t0 h0

/-- C46 applies to a chain of three sites with bonds of dimension 2 and `chi = 2`: `canonicalize(1)` keeps its state and
makes the outer sites isometries, and `checkCanonical()` says so. -/
example : ∃ (la : LinAlg ℂ) (st' : Store) (m' : MPS ℂ) (lft rgt : Nat → LegId),
    exChainC.canonicalize la id id exChainStore (1 : Nat) = .ok (st', m') ∧ Chain st' m'.tensors [0, 3, 6] lft rgt ∧
      CanonicalAt st' m'.tensors [0, 3, 6] lft rgt 1 ∧ SameValue exChainStore exChainC.tensors st' m'.tensors := by
  obtain ⟨la, h1, h2, h3, h4⟩ := exists_linAlg ℂ
  obtain ⟨st', m', l, r, e1, e2, e3, e4, -⟩ := C46_state_kept h1 h2 h3 (fun z => (h4 z).mp) id id exChainC_chain (chi := 2) rfl
    (idx := 1) (by simp [exChainC, exChain]) (by
      intro j hj
      have hj : j + 1 < 3 := by simpa [exChainC, exChain] using hj
      have hj : j < 2 := by omega
      interval_cases j <;> decide)
  exact ⟨la, st', m', l, r, e1, e2, e3, e4⟩

open Classical in
example : ∃ (la : LinAlg ℂ) (st' : Store) (m' : MPS ℂ) (isId : NDArray ℂ → Bool),
    exChainC.canonicalize la id id exChainStore (1 : Nat) = .ok (st', m') ∧ m'.checkCanonical id isId st' none = .ok true ∧
      ∀ a n, a.shape = [n, n] → (isId a = true ↔ IsIdentity a n) := by
  obtain ⟨la, h1, h2, h3, h4⟩ := exists_linAlg ℂ
  have hid : ∀ (a : NDArray ℂ) n, a.shape = [n, n] → (decide (∃ n, IsIdentity a n) = true ↔ IsIdentity a n) := by
    intro a n hs
    rw [decide_eq_true_iff]
    constructor
    · rintro ⟨k, h⟩
      have e : k = n := by
        have := h.1.symm.trans hs
        simpa using this
      exact e ▸ h
    · exact fun h => ⟨n, h⟩
  obtain ⟨st', m', e1, e2⟩ := C46_canonicalize_then_check h1 h2 id id (isId := fun a => decide (∃ n, IsIdentity a n))
    (fun a n h => (hid a n h.1).mpr h) ⟨_, _, exChainC_chain⟩ (chi := 2) rfl (idx := 1) (by simp [exChainC, exChain])
  exact ⟨la, st', m', _, e1, e2, hid⟩

example : (exChain.canonicalize (trivLA Int) id id exChainStore 3) = .error .assertionError :=
  C46_index _ _ _ _ _ _ (by decide)

end CTL
