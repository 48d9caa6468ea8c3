import Verif.Lemmas.NewMPS
import Verif.Props.MPS

/-! C47: making a matrix product state. -/

namespace CTL
variable {R : Type}

theorem oneBond_iff {st : Store} {ta tb : Tensor R} (nd : ta.legs.Nodup) :
    OneBond st ta tb ↔ ∃! p : LegId × LegId, p.1 ∈ ta.legs ∧ p.2 ∈ tb.legs ∧ st.partner p.1 = some p.2 := by
  have nds : (sharedPairs st ta.legs tb.legs).Nodup := by
    apply List.Nodup.of_map Prod.fst
    rw [sharedPairs_fst]; exact nd.filter _
  unfold OneBond
  constructor
  · rintro ⟨p, hp⟩
    have h : ∀ q, q ∈ sharedPairs st ta.legs tb.legs ↔ q = p := by simp [hp]
    refine ⟨p, ?_, fun q hq => (h q).mp (mem_sharedPairs.mpr ⟨hq.1, hq.2.2, hq.2.1⟩)⟩
    have := mem_sharedPairs.mp ((h p).mpr rfl)
    exact ⟨this.1, this.2.2, this.2.1⟩
  · rintro ⟨p, hp, hu⟩
    refine ⟨p, ?_⟩
    rw [← List.perm_singleton, List.perm_ext_iff_of_nodup nds (List.nodup_singleton _)]
    intro q
    rw [mem_sharedPairs, List.mem_singleton]
    exact ⟨fun h => hu q ⟨h.1, h.2.2, h.2.1⟩, fun h => h ▸ ⟨hp.1, hp.2.2, hp.2.1⟩⟩

theorem flat_nodup {ts : List (Tensor R)} (nd : (ts.flatMap fun t => t.legs).Nodup) {t : Tensor R} (h : t ∈ ts) :
    t.legs.Nodup := (List.nodup_flatMap.mp nd).1 t h

theorem flat_disj {ts : List (Tensor R)} (nd : (ts.flatMap fun t => t.legs).Nodup) {i j : Nat} {a b : Tensor R}
    (hi : ts[i]? = some a) (hj : ts[j]? = some b) (hij : i ≠ j) {x : LegId} (hx : x ∈ a.legs) : x ∉ b.legs := by
  have hp := List.pairwise_iff_getElem.mp (List.nodup_flatMap.mp nd).2
  obtain ⟨li, rfl⟩ := List.getElem?_eq_some_iff.mp hi
  obtain ⟨lj, rfl⟩ := List.getElem?_eq_some_iff.mp hj
  intro hy
  rcases Nat.lt_or_gt_of_ne hij with c | c
  · exact hp i j li lj c hx hy
  · exact hp j i lj li c hy hx

/-- The leg counts that `checkMPSProperty` looks at. -/
theorem legs_iff {ts : List (Tensor R)} :
    ((¬ (ts.length > 1 ∧ ((ts.map fun t => t.legs.length).head? ≠ some 2 ∨
        (ts.map fun t => t.legs.length).getLast? ≠ some 2))) ∧
      ((ts.drop 1).dropLast.all fun t => t.legs.length == 3) = true) ↔
    (1 < ts.length → ∀ (i : Nat) (t : Tensor R), ts[i]? = some t →
      t.legs.length = 1 + (if i + 1 < ts.length then 1 else 0) + (if 0 < i then 1 else 0)) := by
  have hd : ts.length > 1 → ((ts.map fun t => t.legs.length).head? = some 2 ↔ ∃ t, ts[0]? = some t ∧ t.legs.length = 2) := by
    intro h
    rw [List.head?_map, List.head?_eq_getElem?, Option.map_eq_some_iff]
  have hl : ts.length > 1 → ((ts.map fun t => t.legs.length).getLast? = some 2 ↔
      ∃ t, ts[ts.length - 1]? = some t ∧ t.legs.length = 2) := by
    intro h
    rw [List.getLast?_map, List.getLast?_eq_getElem?, Option.map_eq_some_iff]
  have hm : ((ts.drop 1).dropLast.all fun t => t.legs.length == 3) = true ↔
      ∀ (i : Nat) (t : Tensor R), 0 < i → i + 1 < ts.length → ts[i]? = some t → t.legs.length = 3 := by
    rw [List.all_eq_true]
    simp only [beq_iff_eq, List.mem_iff_getElem?, List.dropLast_eq_take, List.getElem?_take, List.length_drop,
      List.getElem?_drop]
    constructor
    · intro h i t h0 h1 ht
      refine h t ⟨i - 1, ?_⟩
      rw [if_pos (by omega), show 1 + (i - 1) = i by omega]
      exact ht
    · rintro h t ⟨i, hi⟩
      split at hi
      · exact h (1 + i) t (by omega) (by omega) hi
      · cases hi
  rw [hm]
  constructor
  · rintro ⟨h1, h2⟩ hn i t ht
    have hi := (List.getElem?_eq_some_iff.mp ht).1
    push Not at h1
    obtain ⟨g1, g2⟩ := h1 hn
    obtain ⟨t0, e0, l0⟩ := (hd hn).mp g1
    obtain ⟨t1, e1, l1⟩ := (hl hn).mp g2
    by_cases c0 : i = 0
    · subst c0
      rw [e0] at ht
      cases ht
      simp [hn, l0]
    · by_cases c1 : i + 1 < ts.length
      · rw [if_pos c1, if_pos (by omega)]
        exact h2 i t (by omega) c1 ht
      · rw [show i = ts.length - 1 by omega, e1] at ht
        cases ht
        rw [if_neg c1, if_pos (by omega)]
        exact l1
  · intro h
    refine ⟨?_, ?_⟩
    · rintro ⟨hn, hor⟩
      rcases hor with hor | hor
      · rw [ne_eq, hd hn] at hor
        refine hor ⟨ts[0], List.getElem?_eq_getElem (by omega), ?_⟩
        rw [h hn 0 _ (List.getElem?_eq_getElem (by omega))]
        simp [hn]
      · rw [ne_eq, hl hn] at hor
        refine hor ⟨ts[ts.length - 1], List.getElem?_eq_getElem (by omega), ?_⟩
        rw [h hn (ts.length - 1) _ (List.getElem?_eq_getElem (by omega)), if_neg (by omega), if_pos (by omega)]
    · intro i t h0 h1 ht
      rw [h (by omega) i t ht, if_pos h1, if_pos h0]

/-- `checkMPSProperty` decides the shape. -/
theorem checkProperty_spec {st : Store} (inv : BondInv st) {ts : List (Tensor R)} (nd : (ts.flatMap fun t => t.legs).Nodup) :
    ∃ st' b, MPS.checkProperty st ts = .ok (st', b) ∧ SameUpToOrientation st st' ∧ (b = true ↔ MPSShape st ts) := by
  by_cases h0 : ts.length = 0
  · refine ⟨st, false, ?_, .refl _, ?_⟩
    · unfold MPS.checkProperty
      simp only [h0, if_true]
      rfl
    · simp only [Bool.false_eq_true, false_iff]
      exact fun h => h.nonempty (List.length_eq_zero_iff.mp h0)
  · obtain ⟨st1, b, e, so, hb⟩ := neighboursOK_spec ts st inv nd
    have hone : (∀ p ∈ ts.zip ts.tail, OneBond st p.1 p.2) ↔ ∀ (i : Nat) (ta tb : Tensor R), ts[i]? = some ta →
        ts[i + 1]? = some tb → ∃! p : LegId × LegId, p.1 ∈ ta.legs ∧ p.2 ∈ tb.legs ∧ st.partner p.1 = some p.2 := by
      constructor
      · intro h i ta tb ha hb
        exact (oneBond_iff (flat_nodup nd (List.mem_of_getElem? ha))).mp (h (ta, tb) (mem_zip_tail.mpr ⟨i, ha, hb⟩))
      · intro h p hp
        obtain ⟨i, ha, hb⟩ := mem_zip_tail.mp hp
        exact (oneBond_iff (flat_nodup nd (List.mem_of_getElem? ha))).mpr (h i _ _ ha hb)
    have shape : MPSShape st ts ↔ b = true ∧ ((¬ (ts.length > 1 ∧ ((ts.map fun t => t.legs.length).head? ≠ some 2 ∨
        (ts.map fun t => t.legs.length).getLast? ≠ some 2))) ∧
      ((ts.drop 1).dropLast.all fun t => t.legs.length == 3) = true) := by
      rw [legs_iff, hb, hone]
      exact ⟨fun h => ⟨h.one, h.legs⟩, fun h => ⟨fun e => h0 (by rw [e]; rfl), h.1, h.2⟩⟩
    rw [shape]
    unfold MPS.checkProperty
    simp only [h0, if_false, e, bind, Except.bind, pure, Except.pure]
    cases b with
    | false => exact ⟨st1, false, rfl, so, by simp⟩
    | true =>
      simp only [Bool.true_eq_false, if_false, true_and]
      by_cases c : ts.length > 1 ∧ ((ts.map fun t => t.legs.length).head? ≠ some 2 ∨
        (ts.map fun t => t.legs.length).getLast? ≠ some 2)
      · rw [if_pos c]
        exact ⟨st1, false, rfl, so, by simp only [Bool.false_eq_true, false_iff]; exact fun h => h.1 c⟩
      · rw [if_neg c]
        exact ⟨st1, _, rfl, so, by simp only [c, not_false_eq_true, true_and]⟩

theorem MPSShape.oneBond {st : Store} {ts : List (Tensor R)} (S : MPSShape st ts) (nd : (ts.flatMap fun t => t.legs).Nodup) :
    ∀ p ∈ ts.zip ts.tail, OneBond st p.1 p.2 := by
  intro p hp
  obtain ⟨i, ha, hb⟩ := mem_zip_tail.mp hp
  exact (oneBond_iff (flat_nodup nd (List.mem_of_getElem? ha))).mpr (S.one i _ _ ha hb)

/-- C47: which lists of tensors are accepted.  For tensors without a common leg the constructor returns exactly when the
list has the shape of a chain (`MPSShape`), and raises a `ValueError` otherwise.  It keeps the list, takes a given `chi`
(and −1 otherwise, see C34), has no centre, and changes nothing but names of legs of the given tensors. -/
theorem C47_new_iff {st : Store} (inv : BondInv st) {ts : List (Tensor R)} (nd : (ts.flatMap fun t => t.legs).Nodup)
    (chi : Option Int) (hc : ∀ c, chi = some c → -1 ≤ c) :
    (MPSShape st ts → ∃ st' m, MPS.new st ts chi = .ok (st', m) ∧ m.tensors = ts ∧ m.chi = chi.getD (-1) ∧
      m.activeIdx = none ∧ Relabelled st st' ∧
      ∀ l, (∀ t ∈ ts, l ∉ t.legs) → st'.leg l = st.leg l) ∧
    (¬ MPSShape st ts → MPS.new st ts chi = .error .valueError) := by
  obtain ⟨st1, b, e, so, hb⟩ := checkProperty_spec inv nd
  constructor
  · intro S
    have S1 : ∀ p ∈ ts.zip ts.tail, OneBond st1 p.1 p.2 := fun p hp =>
      (oneBond_congr (so.partner inv) _ _).mpr (S.oneBond nd p hp)
    obtain ⟨st2, r, e2, so2⟩ := bondChiLoop_spec ts st1 (-1) (so.inv inv) nd S1
    have hr := bondChiLoop_neg ts st1 (-1) (by decide) e2
    subst hr
    have so3 := so.trans so2
    have S2 : ∀ p ∈ ts.zip ts.tail, OneBond st2 p.1 p.2 := fun p hp =>
      (oneBond_congr (so3.partner inv) _ _).mpr (S.oneBond nd p hp)
    obtain ⟨st3, bs, e3, rel, hbs, hn⟩ := renameInner_spec ts st2 (so3.inv inv) nd S2
    obtain ⟨rel2, hn2⟩ := renameOuter_spec bs (ts.flatMap fun t => t.legs) st3
    have hg : MPS.getChi st1 ts chi = .ok (st2, chi.getD (-1)) := by
      unfold MPS.getChi
      simp only [e2, bind, Except.bind]
      cases chi with
      | none => rfl
      | some c =>
        have := hc c rfl
        simp only [Option.getD_some]
        rw [if_neg (by omega)]
        rfl
    have relT := (Relabelled.of_orientation so3).trans (rel.trans rel2)
    refine ⟨MPS.renameOuter bs (ts.flatMap fun t => t.legs) st3, ⟨ts, chi.getD (-1), none⟩, ?_, rfl, rfl, rfl, relT, ?_⟩
    · unfold MPS.new MPS.renameBonds
      simp only [e, hb.mpr S, Bool.true_eq_false, if_false, hg, e3, bind, Except.bind, pure, Except.pure]
    · intro l hl
      have hl' : l ∉ ts.flatMap fun t => t.legs := by
        rw [List.mem_flatMap]
        rintro ⟨t, ht, h⟩
        exact hl t ht h
      have nm : (MPS.renameOuter bs (ts.flatMap fun t => t.legs) st3).name l = st.name l := by
        rw [hn2, if_neg (fun h => hl' h.1), hn, if_neg, if_neg]
        · unfold Store.name
          rw [so3.leg]
        · rw [List.mem_map]
          rintro ⟨p, hp, rfl⟩
          exact hl' (innerPairs_mem hp).2.2.2
        · rw [List.mem_map]
          rintro ⟨p, hp, rfl⟩
          exact hl' (innerPairs_mem hp).2.1
      obtain ⟨r1, r2, r3⟩ := relT.leg l
      exact LegRec.ext r1 nm r2 r3
  · intro S
    have : b = false := by
      cases b with
      | false => rfl
      | true => exact absurd (hb.mp rfl) S
    unfold MPS.new
    simp only [e, this, if_true, bind, Except.bind, throw, throwThe, MonadExceptOf.throw]

/-- A chain has the shape. -/
theorem ChainLinks.shape [Zero R] {st : Store} {ts : List (Tensor R)} {phys : List LegId} {lft rgt : Nat → LegId}
    (C : ChainLinks st ts phys lft rgt) (h0 : ts ≠ []) : MPSShape st ts := by
  refine ⟨h0, ?_, ?_⟩
  · intro i ta tb ha hb
    exact (oneBond_iff (flat_nodup C.flat (List.mem_of_getElem? ha))).mp (C.oneBond (ta, tb) (mem_zip_tail.mpr ⟨i, ha, hb⟩))
  · intro _ i t ht
    rw [(C.legs i t ht).length_eq]
    unfold siteLegs
    split <;> split <;> rfl

/-- C47: the constructor makes a chain with the names `l`, `r` and `o` of every chain. -/
theorem C47_new [Zero R] {st : Store} {ts : List (Tensor R)} {phys : List LegId} {lft rgt : Nat → LegId}
    (C : ChainLinks st ts phys lft rgt) (h0 : ts ≠ []) (chi : Option Int) (hc : ∀ c, chi = some c → -1 ≤ c) :
    ∃ st' m, MPS.new st ts chi = .ok (st', m) ∧ m.tensors = ts ∧ m.chi = chi.getD (-1) ∧ m.activeIdx = none ∧
      Chain st' m.tensors phys lft rgt ∧ Relabelled st st' ∧ ∀ l, (∀ t ∈ ts, l ∉ t.legs) → st'.leg l = st.leg l := by
  obtain ⟨st', m, e, h1, h2, h3, h4, h5⟩ := (C47_new_iff C.wf.inv C.flat chi hc).1 (C.shape h0)
  refine ⟨st', m, e, h1, h2, h3, ?_, h4, h5⟩
  obtain ⟨st1, b, e1, so, hb⟩ := checkProperty_spec C.wf.inv C.flat
  obtain rfl := hb.mpr (C.shape h0)
  unfold MPS.new at e
  simp only [e1, Bool.true_eq_false, if_false] at e
  have C1 := C.relabel (.of_orientation so)
  have S1 : ∀ p ∈ ts.zip ts.tail, OneBond st1 p.1 p.2 := C1.oneBond
  obtain ⟨st2, r, e2, so2⟩ := bondChiLoop_spec ts st1 (-1) C1.wf.inv C.flat S1
  have C2 := C1.relabel (.of_orientation so2)
  obtain ⟨st3, e3, rel, C3, -⟩ := renameBonds_spec C2
  have hg : ∃ c, MPS.getChi st1 ts chi = .ok (st2, c) := by
    unfold MPS.getChi
    simp only [e2, bind, Except.bind]
    cases chi with
    | none => exact ⟨_, rfl⟩
    | some c =>
      dsimp only
      split
      · exact ⟨_, rfl⟩
      · exact ⟨_, rfl⟩
  obtain ⟨c, hg⟩ := hg
  simp only [hg, e3, bind, Except.bind, pure, Except.pure] at e
  have := Except.ok.inj e
  obtain ⟨rfl, rfl⟩ := Prod.mk.inj this
  exact C3

/-- C47: conversely, two or more tensors that are accepted and have no bonds except those between neighbours are a chain. -/
theorem C47_accepted_chain [Zero R] {st : Store} (w : WFStore st) {ts : List (Tensor R)}
    (good : ∀ t ∈ ts, GoodTensor st t ∧ t.diag = false) (old : ∀ t ∈ ts, ∀ l ∈ t.legs, l < st.nextLeg)
    (nd : (ts.flatMap fun t => t.legs).Nodup) (two : 2 ≤ ts.length)
    (only : ∀ (i j : Nat) (a b : Tensor R), ts[i]? = some a → ts[j]? = some b → ∀ l ∈ a.legs, ∀ m ∈ b.legs,
      st.partner l = some m → j = i + 1 ∨ i = j + 1)
    {chi : Option Int} {st' : Store} {m : MPS R} (h : MPS.new st ts chi = .ok (st', m)) :
    ∃ phys lft rgt, ChainLinks st ts phys lft rgt := by
  have S : MPSShape st ts := by
    by_contra c
    obtain ⟨st1, b, e, so, hb⟩ := checkProperty_spec w.inv nd
    have : b = false := by
      cases b with
      | false => rfl
      | true => exact absurd (hb.mp rfl) c
    unfold MPS.new at h
    simp only [e, this, if_true, bind, Except.bind, throw, throwThe, MonadExceptOf.throw] at h
    cases h
  have hp : ∀ i : Nat, ∃ p : LegId × LegId, ∀ (hi : i + 1 < ts.length),
      p.1 ∈ ts[i].legs ∧ p.2 ∈ ts[i + 1].legs ∧ st.partner p.1 = some p.2 ∧
        ∀ x ∈ ts[i].legs, ∀ y ∈ ts[i + 1].legs, st.partner x = some y → x = p.1 ∧ y = p.2 := by
    intro i
    by_cases hi : i + 1 < ts.length
    · obtain ⟨p, hp, hu⟩ := S.one i _ _ (List.getElem?_eq_getElem (by omega)) (List.getElem?_eq_getElem hi)
      refine ⟨p, fun _ => ⟨hp.1, hp.2.1, hp.2.2, fun x hx y hy hxy => ?_⟩⟩
      have := hu (x, y) ⟨hx, hy, hxy⟩
      exact ⟨congrArg Prod.fst this, congrArg Prod.snd this⟩
    · exact ⟨(0, 0), fun h => absurd h hi⟩
  choose f hf using hp
  let rgt : Nat → LegId := fun i => (f i).1
  let lft : Nat → LegId := fun i => (f (i - 1)).2
  have rmem : ∀ i (hi : i + 1 < ts.length), rgt i ∈ ts[i].legs := fun i hi => (hf i hi).1
  have lmem : ∀ i (h0 : 0 < i) (hi : i < ts.length), lft i ∈ ts[i].legs := by
    intro i h0 hi
    obtain ⟨k, rfl⟩ : ∃ k, i = k + 1 := ⟨i - 1, by omega⟩
    exact (hf k hi).2.1
  have hneq : ∀ i, 0 < i → i + 1 < ts.length → rgt i ≠ lft i := by
    intro i h0 hi he
    obtain ⟨k, rfl⟩ : ∃ k, i = k + 1 := ⟨i - 1, by omega⟩
    have h1 := (hf (k + 1) hi).2.2.1
    have h2 := partner_symm w.inv (hf k (by omega)).2.2.1
    have : (f (k + 1)).1 = (f k).2 := he
    rw [this, h2] at h1
    have h1 := Option.some.inj h1
    refine flat_disj nd (List.getElem?_eq_getElem (by omega)) (List.getElem?_eq_getElem hi) (show k ≠ k + 1 + 1 by omega)
      (hf k (by omega)).1 ?_
    rw [h1]
    exact (hf (k + 1) hi).2.1
  have site : ∀ i : Nat, ∃ p : LegId, ∀ hi : i < ts.length,
      ts[i].legs.Perm (p :: ((if i + 1 < ts.length then [rgt i] else []) ++ (if 0 < i then [lft i] else []))) := by
    intro i
    by_cases hi : i < ts.length
    · have hl := S.legs (by omega) i _ (List.getElem?_eq_getElem hi)
      have ndi := flat_nodup nd (List.getElem_mem hi)
      set q := (if i + 1 < ts.length then [rgt i] else []) ++ (if 0 < i then [lft i] else []) with hq
      have qnd : q.Nodup := by
        rw [hq]
        by_cases c1 : i + 1 < ts.length <;> by_cases c2 : 0 < i
        · simp [c1, c2, hneq i c2 c1]
        · simp [c1, c2]
        · simp [c1, c2]
        · simp [c1, c2]
      have qsub : ∀ x ∈ q, x ∈ ts[i].legs := by
        intro x hx
        rw [hq, List.mem_append] at hx
        rcases hx with hx | hx
        · split at hx
          · rw [List.mem_singleton.mp hx]; exact rmem i (by assumption)
          · cases hx
        · split at hx
          · rw [List.mem_singleton.mp hx]; exact lmem i (by assumption) hi
          · cases hx
      have qlen : ts[i].legs.length = q.length + 1 := by
        rw [hl, hq]
        split <;> split <;> rfl
      obtain ⟨p, hp⟩ := (List.subperm_of_subset qnd qsub).exists_of_length_lt (by omega)
      exact ⟨p, fun _ => (hp.perm_of_length_le (by rw [List.length_cons]; omega)).symm⟩
    · exact ⟨0, fun h => absurd h hi⟩
  choose ph hph using site
  have getph : ∀ i < ts.length, ((List.range ts.length).map ph).getD i 0 = ph i := by
    intro i hi
    simp [List.getD, hi]
  have legsP : ∀ (i : Nat) (hi : i < ts.length),
      ts[i].legs.Perm (siteLegs ts.length ((List.range ts.length).map ph) lft rgt i) := by
    intro i hi
    unfold siteLegs
    rw [getph i hi]
    exact hph i hi
  refine ⟨(List.range ts.length).map ph, lft, rgt, w, by simp, good, ?_, old, ?_, ?_, ?_⟩
  · intro i t ht
    obtain ⟨hi, rfl⟩ := List.getElem?_eq_some_iff.mp ht
    exact legsP i hi
  · intro i hi j hj hij x hx hy
    exact flat_disj nd (List.getElem?_eq_getElem hi) (List.getElem?_eq_getElem hj) hij ((legsP i hi).mem_iff.mpr hx)
      ((legsP j hj).mem_iff.mpr hy)
  · intro i hi
    exact (hf i hi).2.2.1
  · intro p hp q hq he
    have key : ∀ i j, i < ts.length → j < ts.length → st.partner (ph i) = some (ph j) → j = i + 1 → False := by
      rintro i _ hi hj he rfl
      have m1 : ph i ∈ ts[i].legs := (hph i hi).mem_iff.mpr (by simp)
      have m2 : ph (i + 1) ∈ ts[i + 1].legs := (hph (i + 1) hj).mem_iff.mpr (by simp)
      have := (hf i hj).2.2.2 _ m1 _ m2 he
      have nd' := (hph i hi).nodup_iff.mp (flat_nodup nd (List.getElem_mem hi))
      rw [List.nodup_cons] at nd'
      apply nd'.1
      rw [if_pos hj]
      exact List.mem_append_left _ (by rw [this.1]; simp [rgt])
    obtain ⟨i, hi, rfl⟩ := List.mem_map.mp hp
    obtain ⟨j, hj, rfl⟩ := List.mem_map.mp hq
    rw [List.mem_range] at hi hj
    have m1 : ph i ∈ ts[i].legs := (hph i hi).mem_iff.mpr (by simp)
    have m2 : ph j ∈ ts[j].legs := (hph j hj).mem_iff.mpr (by simp)
    rcases only i j _ _ (List.getElem?_eq_getElem hi) (List.getElem?_eq_getElem hj) _ m1 _ m2 he with c | c
    · exact key i j hi hj he c
    · exact key j i hj hi (partner_symm w.inv he) c

/-- A single tensor is accepted whatever its number of legs, and all its legs are named `o`. -/
theorem C47_single {st : Store} (inv : BondInv st) {t : Tensor R} (nd : t.legs.Nodup) (chi : Option Int)
    (hc : ∀ c, chi = some c → -1 ≤ c) :
    ∃ st' m, MPS.new st [t] chi = .ok (st', m) ∧ m.tensors = [t] ∧ Relabelled st st' ∧ (∀ l ∈ t.legs, st'.name l = "o") ∧
      ∀ l, l ∉ t.legs → st'.leg l = st.leg l := by
  have S : MPSShape st [t] := by
    refine ⟨by simp, fun i a b ha hb => ?_, fun h => ?_⟩
    · simp at hb
    · exact absurd h (by simp)
  obtain ⟨st', m, e, h1, -, -, h2, h3⟩ := (C47_new_iff inv (ts := [t]) (by simpa using nd) chi hc).1 S
  refine ⟨st', m, e, h1, h2, ?_, fun l hl => h3 l (by simpa using hl)⟩
  intro l hl
  have R1 : MPS.renameBonds st [t] = .ok (MPS.renameOuter [] t.legs st) := by
    simp [MPS.renameBonds, MPS.renameInner, bind, Except.bind, pure, Except.pure]
  have G : ∃ c, MPS.getChi st [t] chi = .ok (st, c) := by
    unfold MPS.getChi
    cases chi with
    | none => exact ⟨_, rfl⟩
    | some c =>
      rw [show MPS.bondChiLoop st [t] (-1) = .ok (st, -1) from rfl]
      simp only [bind, Except.bind, pure, Except.pure]
      split <;> exact ⟨_, rfl⟩
  have K : MPS.checkProperty st [t] = .ok (st, true) := by
    simp [MPS.checkProperty, MPS.neighboursOK, bind, Except.bind, pure, Except.pure]
  obtain ⟨c, G⟩ := G
  simp only [MPS.new, K, G, R1, bind, Except.bind, pure, Except.pure, Bool.true_eq_false, if_false, Except.ok.injEq,
    Prod.mk.injEq] at e
  rw [← e.1, (renameOuter_spec [] t.legs st).2 l]
  simp [hl]

/-! ### Non-vacuity -/

example : ∃ st' m, MPS.new exChainStore exChain.tensors (some 4) = .ok (st', m) ∧
    Chain st' m.tensors [0, 3, 6] (fun i => if i = 1 then 2 else 5) (fun i => if i = 0 then 1 else 4) := by
  obtain ⟨st', m, h, -, -, -, h1, -⟩ := C47_new exChain_chain.toChainLinks (by decide) (some 4)
    (fun c h => by cases h; decide)
  exact ⟨st', m, h, h1⟩

/-- Two tensors without a bond are refused. -/
example : MPS.new exChainStore [exChain.tensors[0], exChain.tensors[2]] (some 4) = .error .valueError := by
  refine (C47_new_iff exChainStore_wf.inv (by decide) (some 4) (fun c h => by cases h; decide)).2 ?_
  intro S
  obtain ⟨p, ⟨h1, h2, h3⟩, -⟩ := S.one 0 _ _ rfl rfl
  have h1 : p.1 ∈ ([0, 1] : List Nat) := h1
  have h2 : p.2 ∈ ([5, 6] : List Nat) := h2
  simp only [List.mem_cons, List.not_mem_nil, or_false] at h1 h2
  rcases h1 with h1 | h1 <;> rcases h2 with h2 | h2 <;> rw [h1, h2] at h3 <;> exact absurd h3 (by decide)

/-! A ring: the chain of the examples with its two ends joined. -/

def exRingStore : Store :=
  { exChainStore with
    leg := fun l => match l with
      | 0 => ⟨2, "o", some 2, some 0⟩
      | 6 => ⟨2, "o", some 2, some 2⟩
      | l => exChainStore.leg l
    bond := fun b => if b = 2 then (0, 6) else exChainStore.bond b
    nextBond := 3 }

/-- Three sites joined to a ring are accepted with free boundaries. -/
theorem C47_ring_accepted : exRingStore.partner 0 = some 6 ∧
    ∃ st' m, MPS.new exRingStore exChain.tensors (some 4) = .ok (st', m) ∧ m.tensors = exChain.tensors ∧
      st'.partner 0 = some 6 ∧ ¬ ∃ phys lft rgt, ChainLinks st' m.tensors phys lft rgt := by
  have inv : BondInv exRingStore := by
    intro l b h
    match l with
    | 3 => simp [exRingStore, exChainStore] at h
    | 0 | 1 | 2 | 4 | 5 | 6 => simp [exRingStore, exChainStore] at h; subst h; simp [exRingStore, exChainStore, Store.dim]
    | n + 7 => simp [exRingStore, exChainStore] at h
  have S : MPSShape exRingStore exChain.tensors := by
    refine ⟨by decide, ?_, ?_⟩
    · intro i ta tb ha hb
      match i with
      | 0 =>
        cases ha; cases hb
        exact (oneBond_iff (by decide)).mp ⟨(1, 2), by decide⟩
      | 1 =>
        cases ha; cases hb
        exact (oneBond_iff (by decide)).mp ⟨(4, 5), by decide⟩
      | n + 2 => simp [exChain] at hb
    · intro _ i t h
      match i with
      | 0 | 1 | 2 => cases h; decide
      | n + 3 => simp [exChain] at h
  refine ⟨by decide, ?_⟩
  obtain ⟨st', m, e, h1, -, -, rel, -⟩ := (C47_new_iff inv (by decide) (some 4) (fun c h => by cases h; decide)).1 S
  have pp := rel.partner inv
  refine ⟨st', m, e, h1, by rw [pp]; decide, ?_⟩
  rintro ⟨phys, lft, rgt, C⟩
  rw [h1] at C
  have l0 : [0, 1].Perm [phys.getD 0 0, rgt 0] := C.legs 0 _ rfl
  have l1 : [2, 3, 4].Perm [phys.getD 1 0, rgt 1, lft 1] := C.legs 1 _ rfl
  have l2 : [5, 6].Perm [phys.getD 2 0, lft 2] := C.legs 2 _ rfl
  have j0 := C.joined 0 (by decide)
  have j1 := C.joined 1 (by decide)
  rw [pp] at j0 j1
  have m0 : rgt 0 ∈ [0, 1] := l0.mem_iff.mpr (by simp)
  have m1 : lft 1 ∈ [2, 3, 4] := l1.mem_iff.mpr (by simp)
  have m1' : rgt 1 ∈ [2, 3, 4] := l1.mem_iff.mpr (by simp)
  have m2 : lft 2 ∈ [5, 6] := l2.mem_iff.mpr (by simp)
  have p0 : phys.getD 0 0 ∈ [0, 1] := l0.mem_iff.mpr (by simp)
  have p2 : phys.getD 2 0 ∈ [5, 6] := l2.mem_iff.mpr (by simp)
  have n0 : phys.getD 0 0 ≠ rgt 0 := by have := l0.nodup_iff.mp (by decide); simpa using this
  have n2 : phys.getD 2 0 ≠ lft 2 := by have := l2.nodup_iff.mp (by decide); simpa using this
  have len := C.len
  have d0 : phys.getD 0 0 ∈ phys := by
    rw [List.getD_eq_getElem?_getD, List.getElem?_eq_getElem (by rw [len]; decide)]; exact List.getElem_mem _
  have d2 : phys.getD 2 0 ∈ phys := by
    rw [List.getD_eq_getElem?_getD, List.getElem?_eq_getElem (by rw [len]; decide)]; exact List.getElem_mem _
  have ap := C.apart _ d0 _ d2
  rw [pp] at ap
  generalize phys.getD 0 0 = a at *
  generalize phys.getD 2 0 = c at *
  generalize rgt 0 = r0 at *
  generalize rgt 1 = r1 at *
  generalize lft (0 + 1) = x1 at *
  generalize lft (1 + 1) = x2 at *
  have k0 : r0 = 1 := by
    simp only [List.mem_cons, List.not_mem_nil, or_false] at m0 m1
    rcases m0 with rfl | rfl
    · rcases m1 with rfl | rfl | rfl <;> exact absurd j0 (by decide)
    · rfl
  have k2 : x2 = 5 := by
    simp only [List.mem_cons, List.not_mem_nil, or_false] at m1' m2
    rcases m2 with rfl | rfl
    · rfl
    · rcases m1' with rfl | rfl | rfl <;> exact absurd j1 (by decide)
  subst k0 k2
  simp only [List.mem_cons, List.not_mem_nil, or_false] at p0 p2
  rcases p0 with rfl | rfl
  · rcases p2 with rfl | rfl
    · exact n2 rfl
    · exact ap (by decide)
  · exact n0 rfl

example : ∃ st' m, MPS.new exChainStore [exChain.tensors[0]] none = .ok (st', m) ∧ m.tensors = [exChain.tensors[0]] := by
  obtain ⟨st', m, e, h, -⟩ := C47_single exChainStore_wf.inv (t := exChain.tensors[0]) (by decide) none (fun c h => by cases h)
  exact ⟨st', m, e, h⟩

end CTL
