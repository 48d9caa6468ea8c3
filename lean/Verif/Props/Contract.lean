import Verif.Lemmas.Outer
import Mathlib.Data.Int.Basic
import Mathlib.Algebra.Ring.Int.Defs
import Mathlib.NumberTheory.Zsqrtd.Basic

/-!
# C01, C02, C11 – contraction of two tensors

The meaning of a tensor is `entry t σ` (`Spec/Network.lean`), of a contraction over a list of joined leg
pairs `Contracted` (`Spec/Contraction.lean`): Einstein summation of the product of the entries.
-/

namespace CTL
variable {R : Type}

/-! ## C11 -/

/-- `shareBonds` finds exactly the bonds joining a leg of `ta` to a leg of `tb`, each once, in the order
of `ta`'s legs and oriented from `ta`; nothing but the orientation of these bonds is changed. -/
theorem C11_shareBonds {st : Store} (inv : BondInv st) (ta tb : Tensor R) (na : ta.legs.Nodup)
    (disj : ∀ x ∈ ta.legs, x ∉ tb.legs) :
    ∃ st' bs, shareBonds st ta tb = .ok (st', bs) ∧ bs.Nodup ∧
      (∀ b, b ∈ bs ↔ ∃ l ∈ ta.legs, ∃ m ∈ tb.legs, (st.leg l).bond = some b ∧ (st.leg m).bond = some b) ∧
      (∀ b ∈ bs, (st'.bond b).1 ∈ ta.legs ∧ (st'.bond b).2 ∈ tb.legs) ∧
      bs.map (fun b => (st'.bond b).1)
        = ta.legs.filter (fun l => decide (∃ m ∈ tb.legs, (st.leg l).bond.isSome ∧ (st.leg m).bond = (st.leg l).bond)) ∧
      st'.leg = st.leg ∧
      (∀ b, st'.bond b = st.bond b ∨ b ∈ bs ∧ st'.bond b = ((st.bond b).2, (st.bond b).1)) := by
  obtain ⟨st', bs, h1, h2, h3, h4, h5⟩ := shareBondsLoop_spec tb.legs ta.legs st inv na disj
  have hpair : ∀ b ∈ bs, st'.bond b ∈ sharedPairs st ta.legs tb.legs := by
    intro b hb; rw [← h3]; exact List.mem_map_of_mem hb
  -- the other end of a bond, seen from any leg holding it
  have hother : ∀ l m b, (st.leg l).bond = some b → (st.leg m).bond = some b → l ≠ m →
      st.partner l = some m := by
    intro l m b hl hm hne
    obtain ⟨e1, _⟩ := inv l b hl
    obtain ⟨e2, _⟩ := inv m b hm
    unfold Store.partner
    rw [hl]
    simp only [Option.some.injEq]
    by_cases h : (st.bond b).1 = l
    · rw [if_pos h]
      rcases e2 with e2 | e2
      · exact absurd (h.symm.trans e2) hne
      · exact e2
    · rw [if_neg h]
      rcases e1 with e1 | e1
      · exact absurd e1 h
      · rcases e2 with e2 | e2
        · exact e2
        · exact absurd (e1.symm.trans e2) hne
  have hpt : ∀ l m b, (st.leg l).bond = some b → st.partner l = some m → (st.leg m).bond = some b := by
    intro l m b hl hm
    obtain ⟨_, e1, e2, _⟩ := inv l b hl
    unfold Store.partner at hm
    rw [hl] at hm
    simp only [Option.some.injEq] at hm
    rw [← hm]
    split <;> assumption
  refine ⟨st', bs, h1, ?_, ?_, ?_, ?_, h2.leg, ?_⟩
  · apply List.Nodup.of_map st'.bond
    rw [h3]
    apply List.Nodup.of_map Prod.fst
    rw [sharedPairs_fst]
    exact na.filter _
  · intro b
    constructor
    · intro hb
      obtain ⟨l, hl, hlb⟩ := h4 b hb
      have hp := mem_sharedPairs.mp (hpair b hb)
      have hs : (st'.bond b).1 = (st.bond b).1 ∧ (st'.bond b).2 = (st.bond b).2 ∨
          (st'.bond b).1 = (st.bond b).2 ∧ (st'.bond b).2 = (st.bond b).1 := by
        rcases h2.bond b with e | e
        · left; rw [e]; exact ⟨rfl, rfl⟩
        · right; rw [e]; exact ⟨rfl, rfl⟩
      obtain ⟨_, e1, e2, _⟩ := inv l b hlb
      refine ⟨_, hp.1, _, hp.2.2, ?_⟩
      rcases hs with ⟨f1, f2⟩ | ⟨f1, f2⟩
      · rw [f1, f2]; exact ⟨e1, e2⟩
      · rw [f1, f2]; exact ⟨e2, e1⟩
    · rintro ⟨l, hl, m, hm, hlb, hmb⟩
      have hne : l ≠ m := fun h => disj l hl (h ▸ hm)
      have hp : (l, m) ∈ sharedPairs st ta.legs tb.legs :=
        mem_sharedPairs.mpr ⟨hl, hother l m b hlb hmb hne, hm⟩
      rw [← h3, List.mem_map] at hp
      obtain ⟨c, hc, hcb⟩ := hp
      obtain ⟨x, hx, hxc⟩ := h4 c hc
      obtain ⟨_, e1, e2, _⟩ := inv x c hxc
      have : (st.leg l).bond = some c := by
        rcases h2.bond c with e | e
        · rw [hcb] at e; rw [← congrArg Prod.fst e] at e1; exact e1
        · rw [hcb] at e
          have : l = (st.bond c).2 := congrArg Prod.fst e
          rw [this]; exact e2
      rw [hlb] at this
      cases this
      exact hc
  · intro b hb
    have hp := mem_sharedPairs.mp (hpair b hb)
    exact ⟨hp.1, hp.2.2⟩
  · have : bs.map (fun b => (st'.bond b).1) = (bs.map st'.bond).map Prod.fst := by
      rw [List.map_map]; rfl
    rw [this, h3, sharedPairs_fst]
    apply List.filter_congr
    intro l hl
    rw [Bool.eq_iff_iff]
    cases hlb : (st.leg l).bond with
    | none => simp [Store.partner, hlb]
    | some b =>
      have hpl : ∃ m, st.partner l = some m := ⟨_, by unfold Store.partner; rw [hlb]⟩
      obtain ⟨m, hpm⟩ := hpl
      simp only [hpm, decide_eq_true_eq, Option.isSome_some, true_and]
      constructor
      · rintro ⟨m', hm', hm⟩
        cases hm'
        exact ⟨m, hm, hpt l m b hlb hpm⟩
      · rintro ⟨m', hm', hmb⟩
        have := hother l m' b hlb hmb (fun h => disj l hl (h ▸ hm'))
        rw [hpm] at this
        cases this
        exact ⟨m, rfl, hm'⟩
  · intro b
    by_cases hb : b ∈ bs
    · rcases h2.bond b with e | e
      · exact Or.inl e
      · exact Or.inr ⟨hb, e⟩
    · exact Or.inl (h5 b hb)

/-! ## C01 -/

/-- Dense contraction over all shared bonds: never raises; the legs of the result are the unshared legs
of `ta` followed by those of `tb`; the entries are the Einstein sum. -/
theorem C01_contract_dense [NonUnitalNonAssocSemiring R] (cast : R → R) {st : Store} (inv : BondInv st)
    {ta tb : Tensor R} (ga : GoodTensor st ta) (gb : GoodTensor st tb) (da : ta.diag = false)
    (db : tb.diag = false) (disj : ∀ x ∈ ta.legs, x ∉ tb.legs) :
    ∃ o, contractTwoTensors cast st ta tb none = .ok o ∧
      o.result.legs = (ta.legs.filter fun l => decide (∀ m ∈ tb.legs, st.partner l ≠ some m))
        ++ (tb.legs.filter fun m => decide (∀ l ∈ ta.legs, st.partner m ≠ some l)) ∧
      o.result.diag = false ∧
      (∀ σ, InRange st.dim o.result.legs σ → entry o.result σ =
        sumBonds st.dim (sharedPairs st ta.legs tb.legs) (fun τ => entry ta τ * entry tb τ) σ) ∧
      Contracted st ta tb (sharedPairs st ta.legs tb.legs) o := by
  obtain ⟨o, h1, h2, h3, h4⟩ := contract_dense cast inv ga gb da db disj
  refine ⟨o, h1, ?_, h3, h4.entry, h4⟩
  rw [h2]
  unfold restA restB
  congr 1
  · apply List.filter_congr
    intro l hl
    rw [Bool.eq_iff_iff]
    simp only [decide_eq_true_eq, List.mem_map, not_exists, not_and]
    constructor
    · intro h m hm hp
      exact h (l, m) (mem_sharedPairs.mpr ⟨hl, hp, hm⟩) rfl
    · rintro h ⟨x, y⟩ hp rfl
      rw [mem_sharedPairs] at hp
      exact h y hp.2.2 hp.2.1
  · apply List.filter_congr
    intro m hm
    rw [Bool.eq_iff_iff]
    simp only [decide_eq_true_eq, List.mem_map, not_exists, not_and]
    constructor
    · intro h l hl hp
      exact h (l, m) (mem_sharedPairs.mpr ⟨hl, partner_symm inv hp, hm⟩) rfl
    · rintro h ⟨x, y⟩ hp rfl
      rw [mem_sharedPairs] at hp
      exact h x hp.1 (partner_symm inv hp.2.1)

/-- The pairs named by an explicit bond list. -/
def bondPairs (st : Store) (bs : List BondId) : List (LegId × LegId) := bs.map st.bond

theorem contract_dense_bonds [NonUnitalNonAssocSemiring R] (cast : R → R) {st : Store}
    {ta tb : Tensor R} (ga : GoodTensor st ta) (gb : GoodTensor st tb) (da : ta.diag = false)
    (db : tb.diag = false) (bs : List BondId) (ok : PairsOK st ta.legs tb.legs (bondPairs st bs)) :
    ∃ o, contractTwoTensors cast st ta tb (some bs) = .ok o ∧
      o.result.legs = restA ta.legs (bondPairs st bs) ++ restB tb.legs (bondPairs st bs) ∧
      o.result.diag = false ∧ Contracted st ta tb (bondPairs st bs) o := by
  unfold contractTwoTensors
  simp only [da, db, Bool.not_false, Bool.true_and, Bool.false_eq_true, if_false]
  unfold contractOrdered
  simp only [bind, Except.bind, ga.notLike, gb.notLike, ne_eq, not_true_eq_false, if_false, pure, Except.pure]
  by_cases hbs : bs = []
  · subst hbs
    obtain ⟨s, t, h1, h2, h3, h4⟩ := outerContract_dense cast ga gb da db ok.disj
    exact ⟨⟨s, t, ta, tb⟩, by simp only [if_true, h1], by simp [h2, restA, restB, bondPairs], h3, h4⟩
  · obtain ⟨s, t, h1, h2, h3, h4⟩ := bondContract_dense ga gb da db rfl ok (by simpa [bondPairs] using hbs)
    exact ⟨⟨s, t, ta, tb⟩, by simp only [hbs, if_false, h1], h2, h3, h4⟩

/-- Dense contraction over an explicit list of bonds leading from `ta` to `tb`, in any order. -/
theorem C01_contract_bonds [NonUnitalNonAssocSemiring R] (cast : R → R) {st : Store}
    {ta tb : Tensor R} (ga : GoodTensor st ta) (gb : GoodTensor st tb) (da : ta.diag = false)
    (db : tb.diag = false) (bs : List BondId) (ok : PairsOK st ta.legs tb.legs (bondPairs st bs)) :
    ∃ o, contractTwoTensors cast st ta tb (some bs) = .ok o ∧
      o.result.legs = (ta.legs.filter fun l => decide (∀ b ∈ bs, (st.bond b).1 ≠ l))
        ++ (tb.legs.filter fun l => decide (∀ b ∈ bs, (st.bond b).2 ≠ l)) ∧
      o.result.diag = false ∧
      (∀ σ, InRange st.dim o.result.legs σ → entry o.result σ =
        sumBonds st.dim (bondPairs st bs) (fun τ => entry ta τ * entry tb τ) σ) ∧
      Contracted st ta tb (bondPairs st bs) o := by
  obtain ⟨o, h1, h2, h3, h4⟩ := contract_dense_bonds cast ga gb da db bs ok
  refine ⟨o, h1, ?_, h3, h4.entry, h4⟩
  rw [h2]
  simp [restA, restB, bondPairs]

/-- The order of an explicit bond list is irrelevant. -/
theorem C01_bond_order [NonUnitalNonAssocCommSemiring R] (cast : R → R) {st : Store}
    {ta tb : Tensor R} (ga : GoodTensor st ta) (gb : GoodTensor st tb) (da : ta.diag = false)
    (db : tb.diag = false) (bs cs : List BondId) (hp : bs.Perm cs)
    (ok : PairsOK st ta.legs tb.legs (bondPairs st bs)) :
    ∃ o o', contractTwoTensors cast st ta tb (some bs) = .ok o ∧
      contractTwoTensors cast st ta tb (some cs) = .ok o' ∧ o.result.legs = o'.result.legs ∧
      ∀ σ, InRange st.dim o.result.legs σ → entry o.result σ = entry o'.result σ := by
  have hpp : (bondPairs st bs).Perm (bondPairs st cs) := hp.map _
  have ok' : PairsOK st ta.legs tb.legs (bondPairs st cs) := by
    refine ⟨?_, fun x hx => ok.subA ((hpp.map _).mem_iff.mpr hx), fun x hx => ok.subB ((hpp.map _).mem_iff.mpr hx),
      fun p h => ok.dims p (hpp.mem_iff.mpr h), ok.na, ok.nb, ok.disj⟩
    exact ((hpp.map _).append (hpp.map _)).nodup_iff.mp ok.nodup
  obtain ⟨o, h1, h2, _, h4⟩ := contract_dense_bonds cast ga gb da db bs ok
  obtain ⟨o', h1', h2', _, h4'⟩ := contract_dense_bonds cast ga gb da db cs ok'
  have hl : o.result.legs = o'.result.legs := by
    rw [h2, h2']
    unfold restA restB
    simp only [(hpp.map Prod.fst).mem_iff, (hpp.map Prod.snd).mem_iff]
  refine ⟨o, o', h1, h1', hl, ?_⟩
  intro σ hσ
  rw [h4.entry σ hσ, h4'.entry σ (hl ▸ hσ)]
  exact sumBonds_perm st.dim hpp ((pairLegs_perm _).nodup_iff.mpr ok.nodup) _ σ

theorem listDifference_missing (xs ys : List Nat) (h : ∃ y ∈ ys, y ∉ xs) :
    listDifference xs ys = .error .valueError := by
  unfold listDifference
  obtain ⟨y, hy, hn⟩ := h
  suffices H : ∀ ys : List Nat, y ∈ ys → ∀ l : List Nat, y ∉ l →
      List.foldlM pyRemove l ys = Except.error PyErr.valueError from H ys hy xs hn
  intro ys
  induction ys with
  | nil => intro h; cases h
  | cons z zs ih =>
    intro hy l hl
    simp only [List.foldlM_cons, bind, Except.bind]
    unfold pyRemove
    by_cases hz : z ∈ l
    · rw [if_pos hz]
      simp only
      have hyz : y ≠ z := fun h => hl (h ▸ hz)
      apply ih
      · rcases List.mem_cons.mp hy with h | h
        · exact absurd h hyz
        · exact h
      · intro h; exact hl (List.mem_of_mem_erase h)
    · rw [if_neg hz]

/-- An explicit bond whose first side is not a leg of the first operand is refused: the caller must orient
the bonds. -/
theorem C01_wrong_orientation_raises [NonUnitalNonAssocSemiring R] (cast : R → R) (st : Store)
    (ta tb : Tensor R) (bs : List BondId) (hl : ta.like = tb.like)
    (hsw : ta.diag = true ∨ tb.diag = false) (h : ∃ b ∈ bs, (st.bond b).1 ∉ ta.legs) :
    contractTwoTensors cast st ta tb (some bs) = .error .valueError := by
  obtain ⟨b, hb, hn⟩ := h
  have hne : bs ≠ [] := by rintro rfl; cases hb
  have hd : listDifference ta.legs (bs.map fun b => (st.bond b).1) = .error .valueError :=
    listDifference_missing _ _ ⟨_, List.mem_map_of_mem hb, hn⟩
  unfold contractTwoTensors
  rw [if_neg (by rcases hsw with h | h <;> simp [h])]
  unfold contractOrdered
  simp only [bind, Except.bind, hl, ne_eq, not_true_eq_false, if_false, pure, Except.pure, hne]
  unfold bondContract
  simp only [Tensor.complementLegs, hd, bind, Except.bind]

/-! ## C02 -/

/-- Every contraction with a diagonal operand over at least one shared bond gives the Einstein sum, where
a diagonal tensor has entry zero off its diagonal. -/
theorem C02_contract_diagonal_shared [NonUnitalNonAssocCommSemiring R] (cast : R → R) {st : Store}
    (inv : BondInv st) {ta tb : Tensor R} (ga : GoodTensor st ta) (gb : GoodTensor st tb)
    (hdiag : ta.diag = true ∨ tb.diag = true) (disj : ∀ x ∈ ta.legs, x ∉ tb.legs)
    (hshare : ∃ l ∈ ta.legs, ∃ m ∈ tb.legs, st.partner l = some m) :
    ∃ o, contractTwoTensors cast st ta tb none = .ok o ∧
      Contracted st ta tb (sharedPairs st ta.legs tb.legs) o := by
  obtain ⟨l, hl, m, hm, hp⟩ := hshare
  have h1 : sharedPairs st ta.legs tb.legs ≠ [] :=
    List.ne_nil_of_mem ((mem_sharedPairs (p := (l, m))).mpr ⟨hl, hp, hm⟩)
  have h2 : sharedPairs st tb.legs ta.legs ≠ [] :=
    List.ne_nil_of_mem ((mem_sharedPairs (p := (m, l))).mpr ⟨hm, partner_symm inv hp, hl⟩)
  have disj' : ∀ x ∈ tb.legs, x ∉ ta.legs := fun x hx hx' => disj x hx' hx
  unfold contractTwoTensors
  cases da : ta.diag <;> cases db : tb.diag
  · simp [da, db] at hdiag
  · obtain ⟨o, h, hc⟩ := contract_diag_dense cast inv gb ga db da disj' h2
    simp only [Bool.not_false, Bool.and_self, if_true, h, Except.map]
    exact ⟨_, rfl, hc.swap inv ga.nodup gb.nodup disj⟩
  · simp only [Bool.not_true, Bool.and_self, Bool.false_eq_true, if_false]
    exact contract_diag_dense cast inv ga gb da db disj h1
  · simp only [Bool.not_true, Bool.false_and, Bool.false_eq_true, if_false]
    exact contract_diag_diag cast inv ga gb da db disj h1

/-- The outer products with a diagonal operand that are computed correctly: a diagonal tensor with legs
and a dense tensor (when the conversion to the dtype of the diagonal loses nothing), and a diagonal tensor
with legs and a scalar diagonal. -/
theorem C02_outer_diagonal_partial [NonUnitalNonAssocCommSemiring R] (cast : R → R) {st : Store}
    (inv : BondInv st) {ta tb : Tensor R} (ga : GoodTensor st ta) (gb : GoodTensor st tb)
    (disj : ∀ x ∈ ta.legs, x ∉ tb.legs)
    (hshare : ∀ l ∈ ta.legs, ∀ m ∈ tb.legs, st.partner l ≠ some m)
    (hcase : (ta.diag = true ∧ tb.diag = true ∧ ((ta.legs = []) ≠ (tb.legs = []))) ∨
      (((ta.diag = true ∧ tb.diag = false ∧ ta.legs ≠ []) ∨ (ta.diag = false ∧ tb.diag = true ∧ tb.legs ≠ [])) ∧
        ∀ σ τ, cast (entry ta σ * entry tb τ) = entry ta σ * entry tb τ)) :
    ∃ o, contractTwoTensors cast st ta tb none = .ok o ∧
      Contracted st ta tb (sharedPairs st ta.legs tb.legs) o := by
  have h1 : sharedPairs st ta.legs tb.legs = [] := by
    rw [List.eq_nil_iff_forall_not_mem]
    intro p hp
    rw [mem_sharedPairs] at hp
    exact hshare _ hp.1 _ hp.2.2 hp.2.1
  have h2 : sharedPairs st tb.legs ta.legs = [] := by
    rw [List.eq_nil_iff_forall_not_mem]
    intro p hp
    rw [mem_sharedPairs] at hp
    exact hshare _ hp.2.2 _ hp.1 (partner_symm inv hp.2.1)
  have disj' : ∀ x ∈ tb.legs, x ∉ ta.legs := fun x hx hx' => disj x hx' hx
  unfold contractTwoTensors
  rcases hcase with ⟨da, db, hne⟩ | ⟨⟨da, db, hne⟩ | ⟨da, db, hne⟩, hc⟩
  · simp only [da, Bool.not_true, Bool.false_and, Bool.false_eq_true, if_false]
    by_cases hla : ta.legs = []
    · have hlb : tb.legs ≠ [] := by intro h; simp [hla, h] at hne
      exact outer_scalar_diag cast inv ga gb da db hla hlb
    · have hlb : tb.legs = [] := by
        by_contra h
        apply hne
        simp [hla, h]
      exact outer_diag_scalar cast inv ga gb da db hla hlb
  · simp only [da, db, Bool.not_true, Bool.false_and, Bool.false_eq_true, if_false]
    exact outer_diag_dense cast inv ga gb da db disj h1 hne hc
  · obtain ⟨o, h, hcc⟩ := outer_diag_dense cast inv gb ga db da disj' h2 hne
      (fun σ τ => by rw [mul_comm, hc τ σ])
    simp only [da, db, Bool.not_false, Bool.and_self, if_true, h, Except.map]
    exact ⟨_, rfl, hcc.swap inv ga.nodup gb.nodup disj⟩

/-- The same in terms of two runs: contracting the expanded (dense) tensors gives a tensor over the same
legs with the same entries. -/
theorem C02_same_as_dense_partial [NonUnitalNonAssocCommSemiring R] (cast : R → R) {st : Store}
    (inv : BondInv st) {ta tb : Tensor R} (ga : GoodTensor st ta) (gb : GoodTensor st tb)
    (hdiag : ta.diag = true ∨ tb.diag = true) (disj : ∀ x ∈ ta.legs, x ∉ tb.legs)
    (hshare : ∃ l ∈ ta.legs, ∃ m ∈ tb.legs, st.partner l = some m) :
    ∃ o o', contractTwoTensors cast st ta tb none = .ok o ∧
      contractTwoTensors cast st (ta.expand st) (tb.expand st) none = .ok o' ∧
      o.result.legs.Perm o'.result.legs ∧
      ∀ σ, InRange st.dim o.result.legs σ → entry o.result σ = entry o'.result σ := by
  obtain ⟨o, h1, h2⟩ := C02_contract_diagonal_shared cast inv ga gb hdiag disj hshare
  obtain ⟨o', h3, h4, _, h5⟩ := contract_dense cast inv (expand_good ga) (expand_good gb) rfl rfl disj
  have hl : o.result.legs.Perm o'.result.legs := h2.legs.trans h5.legs.symm
  refine ⟨o, o', h1, h3, hl, ?_⟩
  intro σ hσ
  have hσ' : InRange st.dim o'.result.legs σ := fun l hl' => hσ l (hl.mem_iff.mpr hl')
  rw [h2.entry σ hσ, h5.entry σ hσ']
  symm
  exact expand_sum ga gb (pairsOK_shared inv ga.nodup gb.nodup disj)
    (fun l hl' => hσ l (h2.legs.mem_iff.mpr hl'))

/-- What the code does for the outer product of two diagonal tensors with legs.  Different lengths raise;
equal lengths give one diagonal tensor over all legs, so the entries off the joint diagonal are lost. -/
theorem C02_outer_two_diagonals [NonUnitalNonAssocCommSemiring R] (cast : R → R) {st : Store} (inv : BondInv st)
    {ta tb : Tensor R} (ga : GoodTensor st ta) (gb : GoodTensor st tb) (da : ta.diag = true)
    (db : tb.diag = true) (disj : ∀ x ∈ ta.legs, x ∉ tb.legs) (hla : ta.legs ≠ []) (hlb : tb.legs ≠ [])
    (hshare : ∀ l ∈ ta.legs, ∀ m ∈ tb.legs, st.partner l ≠ some m) :
    (ta.length ≠ tb.length → contractTwoTensors cast st ta tb none = .error .valueError) ∧
    (ta.length = tb.length → ∃ o, contractTwoTensors cast st ta tb none = .ok o ∧
      o.result.legs = ta.legs ++ tb.legs ∧ o.result.diag = true ∧ GoodTensor o.store o.result ∧
      ∀ σ, InRange st.dim o.result.legs σ → entry o.result σ =
        if ∀ l ∈ ta.legs, ∀ m ∈ tb.legs, σ l = σ m then entry ta σ * entry tb σ else 0) := by
  have h1 : sharedPairs st ta.legs tb.legs = [] := by
    rw [List.eq_nil_iff_forall_not_mem]
    intro p hp
    rw [mem_sharedPairs] at hp
    exact hshare _ hp.1 _ hp.2.2 hp.2.1
  unfold contractTwoTensors
  simp only [da, db, Bool.not_true, Bool.false_and, Bool.false_eq_true, if_false]
  exact outer_diag_diag cast inv ga gb da db disj hla hlb h1

/-- With an explicit bond list oriented from the dense first operand to the diagonal second one, the
operands are swapped but the bonds are not, so the call raises. -/
theorem C02_explicit_bonds_dense_diag_raises [NonUnitalNonAssocSemiring R] (cast : R → R) (st : Store)
    (ta tb : Tensor R) (bs : List BondId) (hl : ta.like = tb.like) (da : ta.diag = false)
    (db : tb.diag = true) (disj : ∀ x ∈ ta.legs, x ∉ tb.legs) (h : ∃ b ∈ bs, (st.bond b).1 ∈ ta.legs) :
    contractTwoTensors cast st ta tb (some bs) = .error .valueError := by
  obtain ⟨b, hb, hn⟩ := h
  have := C01_wrong_orientation_raises cast st tb ta bs hl.symm (Or.inl db) ⟨b, hb, disj _ hn⟩
  unfold contractTwoTensors at this ⊢
  rw [if_neg (by simp [db])] at this
  rw [if_pos (by simp [da, db]), this]
  rfl

/-! ## Concrete networks -/

/-- Two tensors joined by bond 0 = (leg 1, leg 2); legs 0, 3, 4, 5 are free. -/
def exStore : Store where
  leg l := match l with
    | 0 => ⟨2, "a", none, some 0⟩
    | 1 => ⟨3, "b", some 0, some 0⟩
    | 2 => ⟨3, "b", some 0, some 1⟩
    | 3 => ⟨2, "c", none, some 1⟩
    | 4 => ⟨3, "d", none, some 2⟩
    | 5 => ⟨3, "e", none, some 2⟩
    | _ => ⟨0, "", none, none⟩
  bond _ := (2, 1)
  nextLeg := 6
  nextBond := 1
  nextTensor := 3

theorem exStore_inv : BondInv exStore := by
  intro l b h
  match l with
  | 0 => simp [exStore] at h
  | 1 => simp [exStore] at h; subst h; simp [exStore, Store.dim]
  | 2 => simp [exStore] at h; subst h; simp [exStore, Store.dim]
  | 3 => simp [exStore] at h
  | 4 => simp [exStore] at h
  | 5 => simp [exStore] at h
  | n + 6 => simp [exStore] at h

def exA : Tensor Int := ⟨0, [0, 1], some ⟨[2, 3], [1, 2, 3, 4, 5, 6]⟩, false, false, 0⟩
def exB : Tensor Int := ⟨1, [2, 3], some ⟨[3, 2], [1, 0, 0, 1, 2, 2]⟩, false, false, 0⟩
/-- A diagonal tensor over the bonded leg 2 and the free legs 4 and 5. -/
def exD : Tensor Int := ⟨2, [2, 4, 5], some ⟨[3], [1, 2, 3]⟩, true, false, 3⟩

theorem exA_good : GoodTensor exStore exA :=
  ⟨by decide, rfl, ⟨_, rfl, rfl, fun _ => rfl, fun h => by simp [exA] at h⟩⟩
theorem exB_good : GoodTensor exStore exB :=
  ⟨by decide, rfl, ⟨_, rfl, rfl, fun _ => rfl, fun h => by simp [exB] at h⟩⟩
theorem exD_good : GoodTensor exStore exD :=
  ⟨by decide, rfl, ⟨_, rfl, rfl, fun h => by simp [exD] at h,
    fun _ => Or.inr ⟨by decide, rfl, by decide⟩⟩⟩

/-- C01 and C11 apply to a matrix product. -/
example : BondInv exStore ∧ GoodTensor exStore exA ∧ GoodTensor exStore exB ∧
    (∀ x ∈ exA.legs, x ∉ exB.legs) ∧ sharedPairs exStore exA.legs exB.legs = [(1, 2)] :=
  ⟨exStore_inv, exA_good, exB_good, by decide, by decide⟩

/-- The matrix product itself. -/
example : ((contractTwoTensors id exStore exA exB none).toOption.map fun o => (o.result.legs, o.result.a)) =
    some ([0, 3], some ⟨[2, 2], [7, 8, 16, 17]⟩) := by decide

/-- C01 for an explicit bond (here `exB` comes first since bond 0 is `(2, 1)`). -/
example : PairsOK exStore exB.legs exA.legs (bondPairs exStore [0]) :=
  ⟨by decide, by decide, by decide, by decide, by decide, by decide, by decide⟩

/-- The wrong orientation. -/
example : ∃ b ∈ [0], (exStore.bond b).1 ∉ exA.legs := by decide

/-- C02 applies to a diagonal tensor of rank 3 and a matrix. -/
example : BondInv exStore ∧ GoodTensor exStore exD ∧ GoodTensor exStore exA ∧ exD.diag = true ∧
    (∀ x ∈ exD.legs, x ∉ exA.legs) ∧ (∃ l ∈ exD.legs, ∃ m ∈ exA.legs, exStore.partner l = some m) :=
  ⟨exStore_inv, exD_good, exA_good, rfl, by decide, by decide⟩

/-- Two diagonal tensors without a common bond. -/
def exD1 : Tensor Int := ⟨3, [4], some ⟨[3], [1, 2, 3]⟩, true, false, 3⟩
def exD2 : Tensor Int := ⟨4, [5], some ⟨[3], [1, 1, 1]⟩, true, false, 3⟩
theorem exD1_good : GoodTensor exStore exD1 :=
  ⟨by decide, rfl, ⟨_, rfl, rfl, fun h => by simp [exD1] at h,
    fun _ => Or.inr ⟨by decide, rfl, by decide⟩⟩⟩
theorem exD2_good : GoodTensor exStore exD2 :=
  ⟨by decide, rfl, ⟨_, rfl, rfl, fun h => by simp [exD2] at h,
    fun _ => Or.inr ⟨by decide, rfl, by decide⟩⟩⟩

/-- The outer product case of the partial theorem: a diagonal tensor and a matrix. -/
example : GoodTensor exStore exD1 ∧ GoodTensor exStore exA ∧ (∀ x ∈ exD1.legs, x ∉ exA.legs) ∧
    (∀ l ∈ exD1.legs, ∀ m ∈ exA.legs, exStore.partner l ≠ some m) ∧
    exD1.diag = true ∧ exA.diag = false ∧ exD1.legs ≠ [] :=
  ⟨exD1_good, exA_good, by decide, by decide, rfl, rfl, by decide⟩

/-- C02 is false in general: the outer product of `diag(1,2,3)` and `diag(1,1,1)` as rank-1 tensors has
entry `1` at `(0, 1)`, the code returns a tensor that is `0` there. -/
theorem C02_outer_two_diagonals_wrong :
    ∃ o, contractTwoTensors id exStore exD1 exD2 none = .ok o ∧
      ∃ σ, InRange exStore.dim (exD1.legs ++ exD2.legs) σ ∧ entry o.result σ ≠ entry exD1 σ * entry exD2 σ := by
  obtain ⟨o, h1, h2, _, _, h4⟩ := (C02_outer_two_diagonals id exStore_inv exD1_good exD2_good rfl rfl (by decide)
    (by decide) (by decide) (by decide)).2 rfl
  refine ⟨o, h1, fun l => if l = 4 then 0 else 1, by unfold InRange; decide, ?_⟩
  rw [h4 _ (by rw [h2]; unfold InRange; decide)]
  decide

/-- A scalar diagonal tensor (the result of a full contraction of diagonal tensors). -/
def exS : Tensor Int := ⟨5, [], some ⟨[], [7]⟩, true, false, 1⟩
theorem exS_good : GoodTensor exStore exS :=
  ⟨by decide, rfl, ⟨_, rfl, rfl, fun h => by simp [exS] at h, fun _ => Or.inl ⟨rfl, rfl, rfl⟩⟩⟩

/-- Multiplying a scalar diagonal tensor with a matrix, or with another scalar diagonal, raises. -/
theorem C02_scalar_diagonal_raises :
    contractTwoTensors id exStore exS exA none = .error .valueError ∧
    contractTwoTensors id exStore exA exS none = .error .valueError ∧
    contractTwoTensors id exStore exS exS none = .error .indexError := by
  refine ⟨by rfl, by rfl, by rfl⟩

/-- The outer product of a diagonal tensor and a dense one converts the products to the dtype of the
diagonal.  With complex (Gaussian integer) matrix entries and a real diagonal, the conversion keeps the
real part only, and the result is wrong. -/
theorem C02_outer_dtype_loss :
    let d : Tensor (ℤ√(-1)) := ⟨3, [4], some ⟨[3], [1, 2, 3]⟩, true, false, 3⟩
    let a : Tensor (ℤ√(-1)) := ⟨0, [0], some ⟨[2], [⟨0, 1⟩, ⟨5, 0⟩]⟩, false, false, 0⟩
    GoodTensor exStore d ∧ GoodTensor exStore a ∧
    ∃ o, contractTwoTensors (fun x => ⟨x.re, 0⟩) exStore d a none = .ok o ∧
      ∃ σ, InRange exStore.dim (d.legs ++ a.legs) σ ∧ entry o.result σ ≠ entry d σ * entry a σ := by
  refine ⟨⟨by decide, rfl, ⟨_, rfl, rfl, fun h => by simp at h, fun _ => Or.inr ⟨by decide, rfl, by decide⟩⟩⟩,
    ⟨by decide, rfl, ⟨_, rfl, rfl, fun _ => rfl, fun h => by simp at h⟩⟩, _, rfl, fun _ => 0,
    by unfold InRange; decide, ?_⟩
  decide

end CTL
