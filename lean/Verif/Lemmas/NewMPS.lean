import Verif.Lemmas.MPS

/-! The constructor of `FreeBoundaryMPS`. -/

namespace CTL
variable {R : Type}

attribute [ext] LegRec

namespace Relabelled
variable {a b c : Store}

theorem refl (a : Store) : Relabelled a a := ⟨fun _ => ⟨rfl, rfl, rfl⟩, fun _ => .inl rfl, rfl, rfl, rfl⟩

theorem trans (h1 : Relabelled a b) (h2 : Relabelled b c) : Relabelled a c := by
  refine ⟨fun l => ?_, ?_, h2.nextLeg.trans h1.nextLeg, h2.nextBond.trans h1.nextBond, h2.nextTensor.trans h1.nextTensor⟩
  · rw [(h2.leg l).1, (h2.leg l).2.1, (h2.leg l).2.2]
    exact h1.leg l
  · intro x
    rcases h1.bond x with e1 | e1 <;> rcases h2.bond x with e2 | e2 <;> rw [e2, e1] <;> simp

theorem of_orientation (h : SameUpToOrientation a b) : Relabelled a b :=
  ⟨fun l => by rw [h.leg]; exact ⟨rfl, rfl, rfl⟩, h.bond, h.nextLeg, h.nextBond, h.nextTensor⟩

theorem rename (a : Store) (l : LegId) (n : String) : Relabelled a (a.rename l n) :=
  ⟨fun x => rename_leg a l n x, fun _ => .inl rfl, rfl, rfl, rfl⟩

theorem dim (h : Relabelled a b) (l : LegId) : b.dim l = a.dim l := (h.leg l).1

theorem partner (h : Relabelled a b) (inv : BondInv a) (l : LegId) : b.partner l = a.partner l := by
  unfold Store.partner
  rw [(h.leg l).2.1]
  split
  · rfl
  · rename_i x hx
    obtain ⟨h0, _⟩ := inv l x hx
    rcases h.bond x with e | e
    · rw [e]
    · rw [e]
      simp only [Option.some.injEq]
      by_cases c1 : (a.bond x).1 = l <;> by_cases c2 : (a.bond x).2 = l
      · simp [c1, c2]
      · simp [c1, c2]
      · simp [c1, c2]
      · tauto

theorem inv (h : Relabelled a b) (inv : BondInv a) : BondInv b := by
  intro l x hx
  rw [(h.leg l).2.1] at hx
  obtain ⟨h0, h1, h2, h3⟩ := inv l x hx
  rcases h.bond x with e | e
  · rw [e, (h.leg _).2.1, (h.leg _).2.1, h.dim, h.dim]
    exact ⟨h0, h1, h2, h3⟩
  · rw [e, (h.leg _).2.1, (h.leg _).2.1, h.dim, h.dim]
    exact ⟨h0.symm, h2, h1, h3.symm⟩

theorem wf (h : Relabelled a b) (w : WFStore a) : WFStore b := by
  refine ⟨h.inv w.inv, ?_, ?_⟩
  · intro x y hx
    rw [(h.leg x).2.1] at hx
    rw [h.nextLeg]
    exact w.freshLeg x y hx
  · intro x y hx
    rw [(h.leg x).2.1] at hx
    rw [h.nextBond]
    exact w.freshBond x y hx

theorem legsKept (h : Relabelled a b) (inv : BondInv a) : LegsKept a b := fun l _ =>
  ⟨h.dim l, (h.leg l).2.1, h.partner inv l⟩

end Relabelled

theorem rename_name (st : Store) (l : LegId) (n : String) (x : LegId) :
    (st.rename l n).name x = if x = l then n else st.name x := by
  unfold Store.name Store.rename Store.setLeg
  by_cases h : x = l <;> simp [h]

/-- Two tensors share exactly one bond. -/
def OneBond (st : Store) (a b : Tensor R) : Prop := ∃ p, sharedPairs st a.legs b.legs = [p]

/-- The bonds between neighbours. -/
def innerPairs (st : Store) (ts : List (Tensor R)) : List (LegId × LegId) :=
  (ts.zip ts.tail).flatMap fun p => sharedPairs st p.1.legs p.2.legs

theorem oneBond_congr {st st' : Store} (h : ∀ l, st'.partner l = st.partner l) (a b : Tensor R) :
    OneBond st' a b ↔ OneBond st a b := by
  unfold OneBond
  rw [sharedPairs_congr h]

theorem innerPairs_congr {st st' : Store} (h : ∀ l, st'.partner l = st.partner l) (ts : List (Tensor R)) :
    innerPairs st' ts = innerPairs st ts := by
  unfold innerPairs
  simp only [sharedPairs_congr h]

theorem flat_two {ta tb : Tensor R} {ts : List (Tensor R)} (h : ((ta :: tb :: ts).flatMap fun t => t.legs).Nodup) :
    ta.legs.Nodup ∧ (∀ x ∈ ta.legs, x ∉ tb.legs) ∧ ((tb :: ts).flatMap fun t => t.legs).Nodup ∧
      ∀ x ∈ ta.legs, x ∉ (tb :: ts).flatMap fun t => t.legs := by
  rw [List.flatMap_cons, List.nodup_append] at h
  obtain ⟨h1, h2, h3⟩ := h
  exact ⟨h1, fun x hx hy => h3 x hx x (by simp [hy]) rfl, h2, fun x hx hy => h3 x hx x hy rfl⟩

theorem neighboursOK_spec : ∀ (ts : List (Tensor R)) (st : Store), BondInv st → (ts.flatMap fun t => t.legs).Nodup →
    ∃ st' b, MPS.neighboursOK st ts = .ok (st', b) ∧ SameUpToOrientation st st' ∧
      (b = true ↔ ∀ p ∈ ts.zip ts.tail, OneBond st p.1 p.2)
  | [], st, _, _ => ⟨st, true, rfl, .refl _, by simp⟩
  | [_], st, _, _ => ⟨st, true, rfl, .refl _, by simp⟩
  | ta :: tb :: ts, st, inv, nd => by
    obtain ⟨na, dab, nd', _⟩ := flat_two nd
    obtain ⟨st1, bs, e, so, pr, -, -⟩ := shareBondsLoop_spec tb.legs ta.legs st inv na dab
    have hl : bs.length = (sharedPairs st ta.legs tb.legs).length := by rw [← pr, List.length_map]
    obtain ⟨st2, b, e2, so2, hb⟩ := neighboursOK_spec (tb :: ts) st1 (so.inv inv) nd'
    unfold MPS.neighboursOK MPS.shareCount
    simp only [shareBonds, e, bind, Except.bind, pure, Except.pure]
    have zip : (ta :: tb :: ts).zip (ta :: tb :: ts).tail = (ta, tb) :: (tb :: ts).zip (tb :: ts).tail := rfl
    rw [zip]
    by_cases c : bs.length = 1
    · rw [if_neg (by simp [c])]
      refine ⟨st2, b, e2, so.trans so2, ?_⟩
      rw [hb]
      simp only [List.mem_cons, forall_eq_or_imp, oneBond_congr (so.partner inv)]
      constructor
      · intro h
        exact ⟨List.length_eq_one_iff.mp (hl ▸ c), h⟩
      · exact fun h => h.2
    · rw [if_pos c]
      refine ⟨st1, false, rfl, so, ?_⟩
      simp only [Bool.false_eq_true, List.mem_cons, forall_eq_or_imp, false_iff, not_and]
      intro h
      exact absurd (hl.trans (List.length_eq_one_iff.mpr h)) c

theorem bondChiLoop_spec : ∀ (ts : List (Tensor R)) (st : Store) (acc : Int), BondInv st → (ts.flatMap fun t => t.legs).Nodup →
    (∀ p ∈ ts.zip ts.tail, OneBond st p.1 p.2) →
    ∃ st' r, MPS.bondChiLoop st ts acc = .ok (st', r) ∧ SameUpToOrientation st st'
  | [], st, acc, _, _, _ => ⟨st, acc, rfl, .refl _⟩
  | [_], st, acc, _, _, _ => ⟨st, acc, rfl, .refl _⟩
  | ta :: tb :: ts, st, acc, inv, nd, one => by
    obtain ⟨na, dab, nd', _⟩ := flat_two nd
    obtain ⟨st1, bs, e, so, pr, -, -⟩ := shareBondsLoop_spec tb.legs ta.legs st inv na dab
    have zip : (ta :: tb :: ts).zip (ta :: tb :: ts).tail = (ta, tb) :: (tb :: ts).zip (tb :: ts).tail := rfl
    rw [zip] at one
    obtain ⟨p, hp⟩ := one (ta, tb) (by simp)
    rw [hp] at pr
    obtain ⟨b, rfl⟩ : ∃ b, bs = [b] := by
      rw [← List.length_eq_one_iff, ← List.length_map (f := st1.bond), pr]; rfl
    obtain ⟨st2, r, e2, so2⟩ := bondChiLoop_spec (tb :: ts) st1 (min acc (st1.dim (st1.bond b).1)) (so.inv inv) nd'
      (fun q hq => (oneBond_congr (so.partner inv) _ _).mpr (one q (List.mem_cons_of_mem _ hq)))
    refine ⟨st2, r, ?_, so.trans so2⟩
    unfold MPS.bondChiLoop
    simp only [shareBonds, e, bind, Except.bind]
    exact e2

theorem innerPairs_mem {st : Store} {ts : List (Tensor R)} {p : LegId × LegId} (h : p ∈ innerPairs st ts) :
    st.partner p.1 = some p.2 ∧ p.1 ∈ ts.flatMap (fun t => t.legs) ∧ p.2 ∈ ts.tail.flatMap (fun t => t.legs) ∧
      p.2 ∈ ts.flatMap (fun t => t.legs) := by
  unfold innerPairs at h
  rw [List.mem_flatMap] at h
  obtain ⟨q, hq, h⟩ := h
  rw [mem_sharedPairs] at h
  obtain ⟨m1, m2⟩ := List.of_mem_zip (show (q.1, q.2) ∈ _ from hq)
  refine ⟨h.2.1, List.mem_flatMap.mpr ⟨_, m1, h.1⟩, List.mem_flatMap.mpr ⟨_, m2, h.2.2⟩,
    List.mem_flatMap.mpr ⟨_, List.mem_of_mem_tail m2, h.2.2⟩⟩

theorem innerPairs_cons (st : Store) (ta tb : Tensor R) (ts : List (Tensor R)) :
    innerPairs st (ta :: tb :: ts) = sharedPairs st ta.legs tb.legs ++ innerPairs st (tb :: ts) := rfl

theorem renameInner_spec : ∀ (ts : List (Tensor R)) (st : Store), BondInv st → (ts.flatMap fun t => t.legs).Nodup →
    (∀ p ∈ ts.zip ts.tail, OneBond st p.1 p.2) →
    ∃ st' bs, MPS.renameInner st ts = .ok (st', bs) ∧ Relabelled st st' ∧
      (∀ b, b ∈ bs ↔ ∃ p ∈ innerPairs st ts, (st.leg p.1).bond = some b) ∧
      ∀ l, st'.name l = if l ∈ (innerPairs st ts).map Prod.fst then "r"
        else if l ∈ (innerPairs st ts).map Prod.snd then "l" else st.name l
  | [], st, _, _, _ => ⟨st, [], rfl, .refl _, by simp [innerPairs], by simp [innerPairs]⟩
  | [_], st, _, _, _ => ⟨st, [], rfl, .refl _, by simp [innerPairs], by simp [innerPairs]⟩
  | ta :: tb :: ts, st, inv, nd, one => by
    obtain ⟨na, dab, nd', dall⟩ := flat_two nd
    obtain ⟨st1, bs, e, so, pr, bo, -⟩ := shareBondsLoop_spec tb.legs ta.legs st inv na dab
    have zip : (ta :: tb :: ts).zip (ta :: tb :: ts).tail = (ta, tb) :: (tb :: ts).zip (tb :: ts).tail := rfl
    rw [zip] at one
    obtain ⟨⟨r, m⟩, hp⟩ := one (ta, tb) (by simp)
    have hrm : (r, m) ∈ sharedPairs st ta.legs tb.legs := by rw [hp]; simp
    rw [mem_sharedPairs] at hrm
    obtain ⟨hr, hpart, hm⟩ := hrm
    simp only at hr hpart hm
    rw [hp] at pr
    obtain ⟨b, rfl⟩ : ∃ b, bs = [b] := by
      rw [← List.length_eq_one_iff, ← List.length_map (f := st1.bond), pr]; rfl
    have hb1 : st1.bond b = (r, m) := by simpa using pr
    have hrb : (st.leg r).bond = some b := by
      obtain ⟨l, hl, hlb⟩ := bo b (by simp)
      obtain ⟨h0, -⟩ := so.inv inv l b (by rw [so.leg]; exact hlb)
      rw [hb1] at h0
      rcases h0 with h0 | h0
      · rw [show r = l from h0]; exact hlb
      · exact absurd hm (by rw [show m = l from h0]; exact dab l hl)
    have s1 : sideLeg st1 ta b = .ok r := by
      unfold sideLeg
      rw [hb1]
      simp [hr]
    have s2 : sideLeg (st1.rename r "r") tb b = .ok m := by
      unfold sideLeg
      rw [show (st1.rename r "r").bond b = st1.bond b from rfl, hb1]
      simp [hm, dab r hr]
    have rel : Relabelled st ((st1.rename r "r").rename m "l") :=
      ((Relabelled.of_orientation so).trans (.rename _ _ _)).trans (.rename _ _ _)
    obtain ⟨st2, cs, e2, rel2, hcs, hn⟩ := renameInner_spec (tb :: ts) _ (rel.inv inv) nd'
      (fun q hq => (oneBond_congr (rel.partner inv) _ _).mpr (one q (List.mem_cons_of_mem _ hq)))
    refine ⟨st2, b :: cs, ?_, rel.trans rel2, ?_, ?_⟩
    · unfold MPS.renameInner
      simp only [shareBonds, e, bind, Except.bind, s1, s2, e2, pure, Except.pure]
    · intro c
      rw [List.mem_cons, hcs, innerPairs_cons, hp, innerPairs_congr (rel.partner inv)]
      simp only [List.mem_append, List.mem_singleton, or_and_right, exists_or, exists_eq_left, hrb, (rel.leg _).2.1,
        Option.some.injEq]
      exact or_congr_left eq_comm
    · intro l
      rw [hn, innerPairs_congr (rel.partner inv), innerPairs_cons, hp]
      simp only [List.singleton_append, List.map_cons, List.mem_cons, rename_name]
      have nml : st1.name l = st.name l := by unfold Store.name; rw [so.leg]
      have f1 : r ∉ (innerPairs st (tb :: ts)).map Prod.fst := by
        rw [List.mem_map]
        rintro ⟨p, hq, rfl⟩
        exact dall _ hr (innerPairs_mem hq).2.1
      have f2 : r ∉ (innerPairs st (tb :: ts)).map Prod.snd := by
        rw [List.mem_map]
        rintro ⟨p, hq, rfl⟩
        exact dall _ hr (innerPairs_mem hq).2.2.2
      have f3 : m ∉ (innerPairs st (tb :: ts)).map Prod.fst := by
        rw [List.mem_map]
        rintro ⟨p, hq, rfl⟩
        have := (innerPairs_mem hq).1
        rw [partner_symm inv hpart] at this
        have := Option.some.inj this
        exact dall _ hr (this ▸ (innerPairs_mem hq).2.2.2)
      have hne : r ≠ m := fun e => dab r hr (e ▸ hm)
      by_cases c1 : l = r
      · subst c1
        simp [f1, f2, hne]
      · by_cases c2 : l = m
        · subst c2
          simp [f3, Ne.symm hne]
        · simp only [if_neg c2, if_neg c1, nml, or_iff_right c1, or_iff_right c2]

theorem renameOuter_spec (inner : List BondId) : ∀ (legs : List LegId) (st : Store),
    Relabelled st (MPS.renameOuter inner legs st) ∧
      ∀ l, (MPS.renameOuter inner legs st).name l =
        if l ∈ legs ∧ ∀ b, (st.leg l).bond = some b → b ∉ inner then "o" else st.name l
  | [], st => ⟨.refl _, by simp [MPS.renameOuter]⟩
  | x :: legs, st => by
    have step : MPS.renameOuter inner (x :: legs) st = MPS.renameOuter inner legs
        (if (match (st.leg x).bond with | none => true | some b => decide (b ∉ inner)) then st.rename x "o" else st) := rfl
    have hc : (match (st.leg x).bond with | none => true | some b => decide (b ∉ inner)) = true ↔
        ∀ b, (st.leg x).bond = some b → b ∉ inner := by
      cases (st.leg x).bond <;> simp
    rw [step]
    by_cases c : ∀ b, (st.leg x).bond = some b → b ∉ inner
    · rw [if_pos (hc.mpr c)]
      obtain ⟨h1, h2⟩ := renameOuter_spec inner legs (st.rename x "o")
      refine ⟨(Relabelled.rename st x "o").trans h1, fun l => ?_⟩
      rw [h2, rename_name]
      simp only [((Relabelled.rename st x "o").leg _).2.1, List.mem_cons]
      by_cases e : l = x
      · subst e
        simp only [true_or, if_true, ite_self]
        rw [if_pos ⟨trivial, c⟩]
      · simp [e]
    · rw [if_neg (fun h => c (hc.mp h))]
      obtain ⟨h1, h2⟩ := renameOuter_spec inner legs st
      refine ⟨h1, fun l => ?_⟩
      rw [h2]
      by_cases e : l = x
      · subst e
        simp [c]
      · simp [e]

/-- Two neighbours of a chain share exactly their bond. -/
theorem ChainLinks.shared [Zero R] {st : Store} {ts : List (Tensor R)} {phys : List LegId} {lft rgt : Nat → LegId}
    (C : ChainLinks st ts phys lft rgt) {i : Nat} (hi : i + 1 < ts.length) {ta tb : Tensor R} (ha : ts[i]? = some ta)
    (hb : ts[i + 1]? = some tb) : sharedPairs st ta.legs tb.legs = [(rgt i, lft (i + 1))] := by
  have hi0 : i < ts.length := by omega
  have ma : ta ∈ ts := List.mem_of_getElem? ha
  have pA := C.legs i ta ha
  have pB := C.legs (i + 1) tb hb
  have inP : ∀ k < ts.length, phys.getD k 0 ∈ phys := fun k hk => (Chain.mem_phys C.len).mpr ⟨k, hk, rfl⟩
  have pl : ∀ k, 0 < k → k < ts.length → st.partner (lft k) = some (rgt (k - 1)) := by
    intro k h0 hk
    obtain ⟨k, rfl⟩ : ∃ m, k = m + 1 := ⟨k - 1, by omega⟩
    exact partner_symm C.wf.inv (C.joined k hk)
  have nd : (sharedPairs st ta.legs tb.legs).Nodup := by
    apply List.Nodup.of_map Prod.fst
    rw [sharedPairs_fst]; exact (C.good ta ma).1.nodup.filter _
  rw [← List.perm_singleton, List.perm_ext_iff_of_nodup nd (List.nodup_singleton _)]
  rintro ⟨l, m⟩
  rw [mem_sharedPairs, List.mem_singleton]
  constructor
  · rintro ⟨h1, he, h3⟩
    simp only at h1 he h3
    have hm' := Chain.mem_siteLegs.mp (pB.mem_iff.mp h3)
    rcases Chain.mem_siteLegs.mp (pA.mem_iff.mp h1) with e | ⟨c, e⟩ | ⟨c0, e⟩
    · exfalso
      rw [e] at he
      rcases hm' with e' | ⟨c, e'⟩ | ⟨c, e'⟩
      · exact C.apart _ (inP i hi0) _ (inP _ hi) (by rw [he, e'])
      · rw [e'] at he
        have := partner_symm C.wf.inv he
        rw [C.joined _ c] at this
        exact C.neqPL hi0 (Nat.succ_pos _) c (Option.some.inj this).symm
      · rw [e'] at he
        have := partner_symm C.wf.inv he
        rw [pl _ c hi] at this
        exact C.neqPR hi0 hi (Option.some.inj this).symm
    · rw [e] at he ⊢
      rw [C.joined i hi] at he
      rw [Option.some.inj he]
    · exfalso
      rw [e, pl i c0 hi0] at he
      have he := Option.some.inj he
      rcases hm' with e' | ⟨c, e'⟩ | ⟨c, e'⟩
      · exact C.neqPR hi (by omega) (e'.symm.trans he.symm)
      · have := C.injR (by omega) c (he.trans e')
        omega
      · exact C.neqRL (by omega) c hi (he.trans e')
  · intro h
    obtain ⟨rfl, rfl⟩ := Prod.mk.inj h
    exact ⟨pA.mem_iff.mpr (Chain.mem_siteLegs.mpr (.inr (.inl ⟨hi, rfl⟩))), C.joined i hi,
      pB.mem_iff.mpr (Chain.mem_siteLegs.mpr (.inr (.inr ⟨Nat.succ_pos _, rfl⟩)))⟩

theorem mem_zip_tail {α : Type} {l : List α} {p : α × α} :
    p ∈ l.zip l.tail ↔ ∃ i, l[i]? = some p.1 ∧ l[i + 1]? = some p.2 := by
  rw [List.mem_iff_getElem?]
  simp only [List.getElem?_zip_eq_some, List.getElem?_tail]

theorem ChainLinks.flat [Zero R] {st : Store} {ts : List (Tensor R)} {phys : List LegId} {lft rgt : Nat → LegId}
    (C : ChainLinks st ts phys lft rgt) : (ts.flatMap fun t => t.legs).Nodup := by
  rw [List.nodup_flatMap]
  refine ⟨fun t ht => (C.good t ht).1.nodup, ?_⟩
  rw [List.pairwise_iff_getElem]
  intro i j hi hj hij x hx hy
  have h1 := (C.legs i _ (List.getElem?_eq_getElem hi)).mem_iff.mp hx
  have h2 := (C.legs j _ (List.getElem?_eq_getElem hj)).mem_iff.mp hy
  exact C.disj i hi j hj (by omega) x h1 h2

theorem ChainLinks.oneBond [Zero R] {st : Store} {ts : List (Tensor R)} {phys : List LegId} {lft rgt : Nat → LegId}
    (C : ChainLinks st ts phys lft rgt) : ∀ p ∈ ts.zip ts.tail, OneBond st p.1 p.2 := by
  intro p hp
  obtain ⟨i, h1, h2⟩ := mem_zip_tail.mp hp
  have := (List.getElem?_eq_some_iff.mp h2).1
  exact ⟨_, C.shared this h1 h2⟩

theorem ChainLinks.mem_inner [Zero R] {st : Store} {ts : List (Tensor R)} {phys : List LegId} {lft rgt : Nat → LegId}
    (C : ChainLinks st ts phys lft rgt) {p : LegId × LegId} :
    p ∈ innerPairs st ts ↔ ∃ i, i + 1 < ts.length ∧ p = (rgt i, lft (i + 1)) := by
  unfold innerPairs
  rw [List.mem_flatMap]
  constructor
  · rintro ⟨q, hq, hp⟩
    obtain ⟨i, h1, h2⟩ := mem_zip_tail.mp hq
    have hi := (List.getElem?_eq_some_iff.mp h2).1
    rw [C.shared hi h1 h2] at hp
    exact ⟨i, hi, List.mem_singleton.mp hp⟩
  · rintro ⟨i, hi, rfl⟩
    have h1 : ts[i]? = some ts[i] := List.getElem?_eq_getElem (by omega)
    have h2 : ts[i + 1]? = some ts[i + 1] := List.getElem?_eq_getElem hi
    refine ⟨(ts[i], ts[i + 1]), mem_zip_tail.mpr ⟨i, h1, h2⟩, ?_⟩
    rw [C.shared hi h1 h2]
    exact List.mem_singleton.mpr rfl

theorem ChainLinks.relabel [Zero R] {st st' : Store} {ts : List (Tensor R)} {phys : List LegId} {lft rgt : Nat → LegId}
    (C : ChainLinks st ts phys lft rgt) (h : Relabelled st st') : ChainLinks st' ts phys lft rgt := by
  refine ⟨h.wf C.wf, C.len, fun t ht => ⟨(C.good t ht).1.congr_dim fun l _ => h.dim l, (C.good t ht).2⟩, C.legs, ?_, C.disj, ?_, ?_⟩
  · intro t ht l hl
    rw [h.nextLeg]
    exact C.old t ht l hl
  · intro i hi
    rw [h.partner C.wf.inv]
    exact C.joined i hi
  · intro p hp q hq
    rw [h.partner C.wf.inv]
    exact C.apart p hp q hq

/-- The names after `renameBonds`. -/
theorem renameBonds_spec [Zero R] {st : Store} {ts : List (Tensor R)} {phys : List LegId} {lft rgt : Nat → LegId}
    (C : ChainLinks st ts phys lft rgt) : ∃ st', MPS.renameBonds st ts = .ok st' ∧ Relabelled st st' ∧
      Chain st' ts phys lft rgt ∧ ∀ l, (∀ t ∈ ts, l ∉ t.legs) → st'.name l = st.name l := by
  obtain ⟨st1, bs, e, rel, hbs, hn⟩ := renameInner_spec ts st C.wf.inv C.flat C.oneBond
  obtain ⟨rel2, hn2⟩ := renameOuter_spec bs (ts.flatMap fun t => t.legs) st1
  have rel' := rel.trans rel2
  have inner : ∀ l, (∃ b, (st1.leg l).bond = some b ∧ b ∈ bs) ↔ ∃ i, i + 1 < ts.length ∧ (l = rgt i ∨ l = lft (i + 1)) := by
    intro l
    constructor
    · rintro ⟨b, h1, h2⟩
      rw [(rel.leg l).2.1] at h1
      obtain ⟨p, hp, h3⟩ := (hbs b).mp h2
      obtain ⟨i, hi, rfl⟩ := C.mem_inner.mp hp
      refine ⟨i, hi, ?_⟩
      obtain ⟨a0, -⟩ := C.wf.inv l b h1
      obtain ⟨b0, -⟩ := C.wf.inv _ b h3
      have hj := C.joined i hi
      unfold Store.partner at hj
      rw [h3] at hj
      have hj := Option.some.inj hj
      by_cases c : (st.bond b).1 = rgt i
      · rw [if_pos c] at hj
        rcases a0 with a0 | a0
        · exact .inl (a0.symm.trans c)
        · exact .inr (a0.symm.trans hj)
      · rw [if_neg c] at hj
        rcases a0 with a0 | a0
        · exact .inr (a0.symm.trans hj)
        · exact .inl (a0.symm.trans (b0.resolve_left c))
    · rintro ⟨i, hi, h⟩
      have hj := C.joined i hi
      obtain ⟨b, hb, hm⟩ := partner_some C.wf.inv hj
      obtain ⟨b0, b1, b2, -⟩ := C.wf.inv _ b hb
      refine ⟨b, ?_, (hbs b).mpr ⟨_, C.mem_inner.mpr ⟨i, hi, rfl⟩, hb⟩⟩
      rw [(rel.leg l).2.1]
      rcases h with rfl | rfl
      · exact hb
      · rw [hm]
        split
        · exact b2
        · exact b1
  have notInner : ∀ l, (∀ b, (st1.leg l).bond = some b → b ∉ bs) ↔ ¬ ∃ i, i + 1 < ts.length ∧ (l = rgt i ∨ l = lft (i + 1)) := by
    intro l
    rw [← inner]
    push Not
    rfl
  have memF : ∀ l, l ∈ (innerPairs st ts).map Prod.fst ↔ ∃ i, i + 1 < ts.length ∧ l = rgt i := by
    intro l
    rw [List.mem_map]
    constructor
    · rintro ⟨p, hp, rfl⟩
      obtain ⟨i, hi, rfl⟩ := C.mem_inner.mp hp
      exact ⟨i, hi, rfl⟩
    · rintro ⟨i, hi, rfl⟩
      exact ⟨_, C.mem_inner.mpr ⟨i, hi, rfl⟩, rfl⟩
  have memS : ∀ l, l ∈ (innerPairs st ts).map Prod.snd ↔ ∃ i, i + 1 < ts.length ∧ l = lft (i + 1) := by
    intro l
    rw [List.mem_map]
    constructor
    · rintro ⟨p, hp, rfl⟩
      obtain ⟨i, hi, rfl⟩ := C.mem_inner.mp hp
      exact ⟨i, hi, rfl⟩
    · rintro ⟨i, hi, rfl⟩
      exact ⟨_, C.mem_inner.mpr ⟨i, hi, rfl⟩, rfl⟩
  have memT : ∀ i < ts.length, ∀ l ∈ siteLegs ts.length phys lft rgt i, l ∈ ts.flatMap fun t => t.legs := by
    intro i hi l hl
    obtain ⟨t, _, h2, h3⟩ := C.site hi
    exact List.mem_flatMap.mpr ⟨t, h2, h3.mem_iff.mpr hl⟩
  refine ⟨_, ?_, rel', ⟨C.relabel rel', ?_, ?_, ?_⟩, ?_⟩
  · unfold MPS.renameBonds
    simp only [e, bind, Except.bind, pure, Except.pure]
  · intro p hp
    obtain ⟨j, hj, rfl⟩ := (Chain.mem_phys C.len).mp hp
    rw [hn2, if_pos]
    refine ⟨memT j hj _ (Chain.mem_siteLegs.mpr (.inl rfl)), (notInner _).mpr ?_⟩
    rintro ⟨i, hi, h | h⟩
    · exact C.neqPR hj hi h
    · exact C.neqPL hj (Nat.succ_pos _) hi h
  · intro i hi
    rw [hn2, if_neg, hn, if_pos ((memF _).mpr ⟨i, hi, rfl⟩)]
    rintro ⟨-, h⟩
    exact (notInner _).mp h ⟨i, hi, .inl rfl⟩
  · intro i hi
    rw [hn2, if_neg, hn, if_neg, if_pos ((memS _).mpr ⟨i, hi, rfl⟩)]
    · rw [memF]
      rintro ⟨j, hj, h⟩
      exact C.neqRL hj (Nat.succ_pos _) hi h.symm
    · rintro ⟨-, h⟩
      exact (notInner _).mp h ⟨i, hi, .inr rfl⟩
  · intro l hl
    have hl' : l ∉ ts.flatMap fun t => t.legs := by
      rw [List.mem_flatMap]
      rintro ⟨t, ht, h⟩
      exact hl t ht h
    rw [hn2, if_neg (fun h => hl' h.1), hn, if_neg, if_neg]
    · rw [memS]
      rintro ⟨i, hi, rfl⟩
      exact hl' (memT _ hi _ (Chain.mem_siteLegs.mpr (.inr (.inr ⟨Nat.succ_pos _, rfl⟩))))
    · rw [memF]
      rintro ⟨i, hi, rfl⟩
      exact hl' (memT i (by omega) _ (Chain.mem_siteLegs.mpr (.inr (.inl ⟨hi, rfl⟩))))

end CTL
