import Verif.Props.FTN

/-! # Property C45: when a finite tensor network searches for a contraction sequence -/

namespace CTL
variable {R : Type}

/-- The search on a dense network returns the sequence of a cheapest tree. -/
theorem generate_cheapest {st : Store} {ts : List (Tensor R)} (c : ClosedNet st ts) (hd : ∀ t ∈ ts, t.diag = false) (hne : ts ≠ [])
    (hpos : ∀ t ∈ ts, ∀ l ∈ t.legs, st.dim l ≠ 0) (hlegs : ∀ t ∈ ts, t.legs ≠ []) {typ : Option Nat}
    (htyp : typ ≠ some 0) {fuel cost : Nat} {q : List (Nat × Nat)}
    (h : generateSequence st ts .capping typ fuel = some (.ok (cost, q))) :
    ∃ G κ, GraphOf st ts G κ ∧ (∀ i, i < G.n → G.diag i = false) ∧ Cheapest G typ q := by
  obtain ⟨g, inp, G, κ, h1, h2, h3, h4⟩ := makeTensorGraph_spec c
  have hdense := graphOf_twoEnds_dense h4 hd
  have hn : G.n ≠ 0 := by
    rw [h4.n]
    intro h0
    exact hne (List.length_eq_zero_iff.mp h0)
  refine ⟨G, κ, h4, hdense, ?_⟩
  unfold generateSequence at h
  rw [h1] at h
  simp only at h
  unfold optimalContractSequence at h
  rw [h2] at h
  simp only at h
  obtain ⟨r0, hr, h'⟩ := Option.map_eq_some_iff.mp h
  obtain ⟨r, hr0, h''⟩ := except_bind_ok.mp h'
  subst hr0
  obtain ⟨c', hc', h3'⟩ := except_bind_ok.mp h''
  injection h3' with h3'
  injection h3' with e1 e2
  subst e1 e2
  have edges : ∀ i (hi : i < ts.length), G.edges i = (ts[i].legs.map κ).toFinset := fun i hi =>
    h4.edges i _ (List.getElem?_eq_getElem hi)
  have hp : ∀ i, i < G.n → ∀ e ∈ G.edges i, 0 < G.dim e := by
    intro i hi e he
    rw [h4.n] at hi
    rw [edges i hi, List.mem_toFinset, List.mem_map] at he
    obtain ⟨l, hl, rfl⟩ := he
    rw [h4.dim _ (List.getElem_mem hi) l hl]
    exact Nat.pos_of_ne_zero (hpos _ (List.getElem_mem hi) l hl)
  have hne' : ∀ i, i < G.n → (G.edges i).Nonempty := by
    intro i hi
    rw [h4.n] at hi
    rw [edges i hi, List.toFinset_nonempty_iff]
    intro e
    exact hlegs _ (List.getElem_mem hi) (List.map_eq_nil_iff.mp e)
  obtain ⟨s, c2, q2, b1, b2, ⟨T, t1, _, t2, t3⟩, best⟩ := C06_capping_optimal h3 (diagUniform_dense hdense) hp htyp hn
    (Or.inr hne') hr
  injection b1 with b1
  subst b1
  refine ⟨T, t1, t2, fun T' hT' => ?_⟩
  rw [t3]
  exact best T' hT' (noDiagOuter_dense hdense T' (complete_iff.mp hT').1)

/-- `loadBondDims`: was any dimension new, and what is recorded afterwards. -/
theorem loadLeg_fold (st : Store) : ∀ (ls : List LegId) (s : Bool × List (String × Nat)), (ls.map st.name).Nodup →
    ((ls.foldl (loadLeg st) s).1 = true ↔ s.1 = true ∨ ∃ l ∈ ls, dictGet s.2 (st.name l) ≠ some (st.dim l)) ∧
    (∀ l ∈ ls, dictGet (ls.foldl (loadLeg st) s).2 (st.name l) = some (st.dim l)) ∧
    ∀ x, x ∉ ls.map st.name → dictGet (ls.foldl (loadLeg st) s).2 x = dictGet s.2 x
  | [], s, _ => ⟨by simp, by simp, fun _ _ => rfl⟩
  | l :: ls, s, hn => by
    rw [List.map_cons, List.nodup_cons] at hn
    obtain ⟨h1, h2, h3⟩ := loadLeg_fold st ls (loadLeg st s l) hn.2
    have hne : ∀ k ∈ ls, st.name l ≠ st.name k := fun k hk e => hn.1 (e ▸ List.mem_map_of_mem hk)
    rw [List.foldl_cons]
    refine ⟨?_, ?_, ?_⟩
    · rw [h1]
      have e : (∃ k ∈ ls, dictGet (loadLeg st s l).2 (st.name k) ≠ some (st.dim k)) ↔
          ∃ k ∈ ls, dictGet s.2 (st.name k) ≠ some (st.dim k) := by
        refine exists_congr fun k => and_congr_right fun hk => ?_
        simp only [loadLeg]
        rw [dictGet_dictSet, if_neg (hne k hk)]
      rw [e, List.exists_mem_cons_iff]
      simp only [loadLeg]
      split
      · rename_i h; simp [h]
      · rename_i h; simp [h]
    · intro k hk
      rcases List.mem_cons.mp hk with rfl | hk
      · rw [h3 _ hn.1]
        simp only [loadLeg]
        rw [dictGet_dictSet, if_pos rfl]
      · exact h2 k hk
    · intro x hx
      rw [List.map_cons, List.mem_cons, not_or] at hx
      rw [h3 x hx.2]
      simp only [loadLeg]
      rw [dictGet_dictSet, if_neg (Ne.symm hx.1)]

theorem contract_frame_ftn [CommSemiring R] (rand : List Nat → List Nat → R) (cast : R → R) (f : FTN) (names : List String)
    (st : Store) (dict : List (String × Tensor R)) (rt : Bool) (fuel : Nat) :
    (f.contract rand cast names st dict rt fuel).1.realCost = f.realCost ∧
      (f.contract rand cast names st dict rt fuel).1.typicalDim = f.typicalDim ∧
      (f.contract rand cast names st dict rt fuel).1.links = f.links ∧
      (f.contract rand cast names st dict rt fuel).1.changeNameBefore = f.changeNameBefore := by
  unfold FTN.contract
  dsimp only
  repeat' (first | exact ⟨rfl, rfl, rfl, rfl⟩ | split)

theorem apply_frame_ftn (f : FTN) (names : List String) (op : NetOp) :
    (f.apply names op).2.1.realCost = f.realCost ∧ (f.apply names op).2.1.typicalDim = f.typicalDim := by
  cases op <;> simp only [FTN.apply, FTN.checked, removeFrom] <;> repeat' (first | exact ⟨rfl, rfl⟩ | exact ⟨trivial, trivial⟩ | split)

/-- C45: a network created with `realCost = True` always searches with the real dimensions. -/
theorem C45_real_dims [CommSemiring R] {rand : List Nat → List Nat → R} {cast : R → R} {b : Bool} {f : FTN} {names : List String}
    (h : FTN.Life rand cast b f names) : f.realCost = true ↔ f.typicalDim = none := by
  induction h with
  | new list names rc td h => cases rc <;> simp [FTN.new]
  | build h op ih => rw [(apply_frame_ftn _ _ op).1, (apply_frame_ftn _ _ op).2, ih]
  | contract h st dict rt fuel ih =>
    rw [(contract_frame_ftn _ _ _ _ _ _ _ _).1, (contract_frame_ftn _ _ _ _ _ _ _ _).2.1, ih]
  | edit h op h1 h2 ih => rw [(apply_frame_ftn _ _ op).1, (apply_frame_ftn _ _ op).2, ih]

/-- C45: after a call, the stored sequence is the one that was stored before, unless there was none or the costs are real
and some dimension is not the recorded one; then it is the sequence of a contraction tree that no other tree beats on the
network of this call.  All dimensions of this call are recorded, all others stay recorded. -/
theorem C45_policy [CommSemiring R] (rand : List Nat → List Nat → R) (cast : R → R) {b : Bool} {f : FTN} {names : List String}
    (life : FTN.Life rand cast b f names) {st : Store} {dict : List (String × Tensor R)} {removeTag : Bool} {A : LArr R}
    (inp : FTNInput st names dict) (hA : f.meaning removeTag (dict.map fun p => (p.1, p.2.labelled st)) = some A) :
    ∃ Cs, f.arrays (dict.map fun p => (p.1, p.2.labelled st)) = some Cs ∧
    ∃ rounds, ∀ fuel, rounds ≤ fuel → ∃ f' q, (f.contract rand cast names st dict removeTag fuel).1 = f' ∧
      f'.optimalSeq = some q ∧
      (f.optimalSeq ≠ none → ¬ (f.realCost = true ∧ Unrecorded f.bondDims Cs) → f.optimalSeq = some q) ∧
      (f.optimalSeq = none ∨ (f.realCost = true ∧ Unrecorded f.bondDims Cs) →
        ∃ G edge, NetGraph names Cs f.links G edge ∧ Cheapest G f.typicalDim q) ∧
      (∀ p ∈ Cs, ∀ x ∈ p.2.labels, dictGet f'.bondDims x = some (p.2.dim x)) ∧
      ∀ x, (∀ p ∈ Cs, x ∉ p.2.labels) → dictGet f'.bondDims x = dictGet f.bondDims x := by
  obtain ⟨-, htyp, -⟩ := life_cache life
  unfold FTN.meaning at hA
  simp only [bind, Option.bind_eq_some_iff] at hA
  obtain ⟨Bs, h1, Cs, h2, hA⟩ := hA
  split at hA
  · obtain ⟨_, e, _⟩ := hA
  rename_i hn
  rw [not_not] at hn
  simp only [Option.bind_eq_some_iff] at hA
  obtain ⟨J, h4, F, h5, G, h6, h7⟩ := hA
  refine ⟨Cs, by rw [FTN.arrays, h1]; exact h2, ?_⟩
  obtain ⟨st1, d, ps, e, W, hkind, part⟩ := prepare_ok rand (f := { f with locked := true }) inp.mixed h1 h2 hn h4
  have hk := keys_of_kinds hkind
  have nd : (d.map Prod.fst).Nodup := W.locals.keys
  obtain ⟨ts, ets, hf2⟩ := orderedTensors_ok nd names fun n h => hk ▸ inp.keys.subset h
  obtain ⟨ts', ets', hperm, hlen⟩ := orderedTensors_perm inp.once (hk ▸ inp.keys)
  have : ts' = ts := Except.ok.inj (ets'.symm.trans ets)
  subst this
  have dense : ∀ t ∈ ts', t.diag = false := by
    intro t ht
    obtain ⟨p, hp', rfl⟩ := List.mem_map.mp (hperm.subset ht)
    obtain ⟨t', h', e'⟩ := kind_mem hkind hp'
    rw [← e']
    exact (inp.good _ h').2
  have hts : ts' ≠ [] := by
    rintro rfl
    exact inp.nonempty (List.length_eq_zero_iff.mp hlen.symm)
  have hpos : ∀ t ∈ ts', ∀ l ∈ t.legs, st1.dim l ≠ 0 := by
    intro t ht l hl
    obtain ⟨p, hp', rfl⟩ := List.mem_map.mp (hperm.subset ht)
    exact W.locals.pos p hp' l hl
  have hlegs : ∀ t ∈ ts', t.legs ≠ [] := by
    intro t ht
    obtain ⟨p, hp', rfl⟩ := List.mem_map.mp (hperm.subset ht)
    exact W.locals.legs p hp'
  obtain ⟨rounds, hr⟩ := capping_returns (wired_closed W hperm) dense hts hpos hlegs htyp
  obtain ⟨l1, l2, l3⟩ := loadLeg_fold st1 (d.flatMap fun p => p.2.legs) (false, f.bondDims) W.names
  have toLeg : ∀ p ∈ Cs, ∀ x ∈ p.2.labels, ∃ q ∈ d, q.1 = p.1 ∧ ∃ l ∈ q.2.legs, st1.name l = x ∧ st1.dim l = p.2.dim x := by
    intro p hp x hx
    obtain ⟨q, hq, e1, rep⟩ := W.reps.get' p hp
    obtain ⟨l, hl, rfl⟩ := List.mem_map.mp (rep.labels.symm.subset hx)
    exact ⟨q, hq, e1, l, hl, rfl, rep.dims l hl⟩
  have toLab : ∀ q ∈ d, ∃ p ∈ Cs, q.1 = p.1 ∧ ∀ l ∈ q.2.legs, st1.name l ∈ p.2.labels ∧ st1.dim l = p.2.dim (st1.name l) := by
    intro q hq
    obtain ⟨p, hp, e1, rep⟩ := W.reps.get q hq
    exact ⟨p, hp, e1, fun l hl => ⟨rep.mem hl, rep.dims l hl⟩⟩
  have changed : (({ f with locked := true } : FTN).loadBondDims st1 d).changed = true ↔ Unrecorded f.bondDims Cs := by
    unfold FTN.loadBondDims
    rw [l1]
    simp only [Bool.false_eq_true, false_or]
    constructor
    · rintro ⟨l, hl, h⟩
      obtain ⟨q, hq, hl⟩ := List.mem_flatMap.mp hl
      obtain ⟨p, hp, _, hp2⟩ := toLab q hq
      obtain ⟨a, b⟩ := hp2 l hl
      exact ⟨p, hp, st1.name l, a, by rw [← b]; exact h⟩
    · rintro ⟨p, hp, x, hx, h⟩
      obtain ⟨q, hq, _, l, hl, rfl, e2⟩ := toLeg p hp x hx
      exact ⟨l, List.mem_flatMap.mpr ⟨q, hq, hl⟩, by rw [e2]; exact h⟩
  have rec1 : ∀ p ∈ Cs, ∀ x ∈ p.2.labels,
      dictGet (({ f with locked := true } : FTN).loadBondDims st1 d).bondDims x = some (p.2.dim x) := by
    intro p hp x hx
    obtain ⟨q, hq, _, l, hl, rfl, e2⟩ := toLeg p hp x hx
    rw [← e2]
    exact l2 l (List.mem_flatMap.mpr ⟨q, hq, hl⟩)
  have rec2 : ∀ x, (∀ p ∈ Cs, x ∉ p.2.labels) →
      dictGet (({ f with locked := true } : FTN).loadBondDims st1 d).bondDims x = dictGet f.bondDims x := by
    intro x hx
    apply l3
    intro hm
    obtain ⟨l, hl, rfl⟩ := List.mem_map.mp hm
    obtain ⟨q, hq, hl⟩ := List.mem_flatMap.mp hl
    obtain ⟨p, hp, _, hp2⟩ := toLab q hq
    exact hx p hp (hp2 l hl).1
  refine ⟨rounds, fun fuel hf => ?_⟩
  obtain ⟨cost, q, hq⟩ := hr fuel hf
  have stale : (({ f with locked := true } : FTN).loadBondDims st1 d).stale = true ↔
      f.optimalSeq = none ∨ (f.realCost = true ∧ Unrecorded f.bondDims Cs) := by
    rw [← changed]
    unfold FTN.stale
    rw [Bool.or_eq_true, Bool.and_eq_true, Option.isNone_iff_eq_none]
    rfl
  unfold FTN.contract
  simp only [e, ets]
  by_cases hs : (({ f with locked := true } : FTN).loadBondDims st1 d).stale = true
  · rw [if_pos hs]
    have e5 : generateSequence st1 ts' .capping (({ f with locked := true } : FTN).loadBondDims st1 d).typicalDim fuel =
        some (.ok (cost, q)) := hq
    rw [e5]
    refine ⟨_, q, rfl, rfl, fun h1 h2 => absurd (stale.mp hs) (by tauto), fun _ => ?_, rec1, rec2⟩
    obtain ⟨G, κ, hG, hdiag, best⟩ := generate_cheapest (wired_closed W hperm) dense hts hpos hlegs htyp hq
    have inj : ∀ p ∈ d, ∀ x ∈ p.2.legs, ∀ q ∈ d, ∀ y ∈ q.2.legs, st1.name x = st1.name y → x = y := by
      intro p hp x hx q hq y hy e
      exact List.inj_on_of_nodup_map W.names (List.mem_flatMap.mpr ⟨p, hp, hx⟩) (List.mem_flatMap.mpr ⟨q, hq, hy⟩) e
    -- the leg of a label
    let leg : String → LegId := fun x => ((d.flatMap fun p => p.2.legs).find? fun l => st1.name l == x).getD 0
    have hleg : ∀ q ∈ d, ∀ l ∈ q.2.legs, leg (st1.name l) = l := by
      intro q hq l hl
      have hm : l ∈ d.flatMap fun p => p.2.legs := List.mem_flatMap.mpr ⟨q, hq, hl⟩
      cases hfind : (d.flatMap fun p => p.2.legs).find? fun k => st1.name k == st1.name l with
      | none =>
        have := List.find?_eq_none.mp hfind l hm
        simp at this
      | some k =>
        have hk1 := List.find?_some hfind
        have hk2 := List.mem_of_find?_eq_some hfind
        simp only [leg, hfind, Option.getD_some]
        exact List.inj_on_of_nodup_map W.names hk2 hm (by simpa using hk1)
    have hin : ∀ q ∈ d, q.2 ∈ ts' := fun q hq => hperm.symm.subset (List.mem_map_of_mem hq)
    refine ⟨G, fun x => κ (leg x), ⟨by rw [hG.n, hlen], ?_, ?_, ?_, hdiag⟩, best⟩
    · intro i name B hi hB
      obtain ⟨u, hu, e1, rep⟩ := W.reps.get' _ hB
      simp only at e1
      have hi' : i < names.length := (List.getElem?_eq_some_iff.mp hi).1
      have hti : i < ts'.length := by rw [hlen]; exact hi'
      have hmem : (names[i], ts'[i]) ∈ d := List.Forall₂.get hf2 hi' hti
      have hname : names[i] = name := (List.getElem?_eq_some_iff.mp hi).2
      rw [hname] at hmem
      have hu2 : u.2 = ts'[i] := by
        have h1 := (dictGet_some nd).mpr hmem
        have h2 : dictGet d name = some u.2 := (dictGet_some nd).mpr (by rw [← e1]; exact hu)
        exact Option.some.inj (h2.symm.trans h1)
      rw [hG.edges i _ (List.getElem?_eq_getElem hti), ← hu2]
      ext z
      simp only [List.mem_toFinset, List.mem_map]
      constructor
      · rintro ⟨l, hl, rfl⟩
        exact ⟨st1.name l, rep.mem hl, by rw [hleg u hu l hl]⟩
      · rintro ⟨x, hx, rfl⟩
        obtain ⟨l, hl, rfl⟩ := List.mem_map.mp (rep.labels.symm.subset hx)
        exact ⟨l, hl, by rw [hleg u hu l hl]⟩
    · intro p hp p' hp' x hx y hy
      obtain ⟨u, hu, _, l, hl, rfl, _⟩ := toLeg p hp x hx
      obtain ⟨u', hu', _, m, hm, rfl, _⟩ := toLeg p' hp' y hy
      rw [hleg u hu l hl, hleg u' hu' m hm, hG.same u.2 (hin u hu) u'.2 (hin u' hu') l hl m hm,
        part u hu l hl u' hu' m hm]
      refine or_congr ⟨fun e => e ▸ rfl, fun e => inj u hu l hl u' hu' m hm e⟩ Iff.rfl
    · intro p hp x hx
      obtain ⟨u, hu, _, l, hl, rfl, e2⟩ := toLeg p hp x hx
      rw [hleg u hu l hl, hG.dim u.2 (hin u hu) l hl, e2]
  · rw [if_neg hs]
    have hs' : ¬ (f.optimalSeq = none ∨ (f.realCost = true ∧ Unrecorded f.bondDims Cs)) := fun h => hs (stale.mpr h)
    rw [not_or] at hs'
    obtain ⟨q', hq'⟩ := Option.ne_none_iff_exists'.mp hs'.1
    exact ⟨_, q', rfl, hq', fun _ _ => hq', fun h => absurd h (by tauto), rec1, rec2⟩

/-- C45: a second call whose axes all occur in the first one with the same dimensions, whatever the entries are, keeps the
sequence of the first. -/
theorem C45_second_call [CommSemiring R] (rand : List Nat → List Nat → R) (cast : R → R) {b : Bool} {f : FTN} {names : List String}
    (life : FTN.Life rand cast b f names) {st st2 : Store} {dict dict2 : List (String × Tensor R)} {rt rt2 : Bool} {A A2 : LArr R}
    (inp : FTNInput st names dict) (hA : f.meaning rt (dict.map fun p => (p.1, p.2.labelled st)) = some A)
    (inp2 : FTNInput st2 names dict2) (hA2 : f.meaning rt2 (dict2.map fun p => (p.1, p.2.labelled st2)) = some A2)
    {Cs Ds : List (String × LArr R)} (hC : f.arrays (dict.map fun p => (p.1, p.2.labelled st)) = some Cs)
    (hD : f.arrays (dict2.map fun p => (p.1, p.2.labelled st2)) = some Ds)
    (same : ∀ p ∈ Ds, ∀ x ∈ p.2.labels, ∃ p' ∈ Cs, x ∈ p'.2.labels ∧ p'.2.dim x = p.2.dim x) :
    ∃ rounds, ∀ fuel, rounds ≤ fuel → ∃ q, (f.contract rand cast names st dict rt fuel).1.optimalSeq = some q ∧
      ∃ rounds2, ∀ fuel2, rounds2 ≤ fuel2 →
        ((f.contract rand cast names st dict rt fuel).1.contract rand cast names st2 dict2 rt2 fuel2).1.optimalSeq = some q := by
  obtain ⟨Cs', hC', n1, h1⟩ := C45_policy rand cast life inp hA
  cases Option.some.inj (hC.symm.trans hC')
  -- the structure of the network is not changed by the first call
  have key : ∀ fuel, ∃ f1, (f.contract rand cast names st dict rt fuel).1 = f1 ∧ f1.links = f.links ∧
      f1.changeNameBefore = f.changeNameBefore ∧ f1.changeNameAfter = f.changeNameAfter ∧
      f1.outProductAfter = f.outProductAfter ∧ f1.typicalDim = f.typicalDim ∧ f1.realCost = f.realCost := by
    intro fuel
    refine ⟨_, rfl, ?_⟩
    unfold FTN.contract
    dsimp only
    repeat' (first | exact ⟨rfl, rfl, rfl, rfl, rfl, rfl⟩ | split)
  refine ⟨n1, fun fuel hf => ?_⟩
  obtain ⟨f', q, e, hq, -, -, rec, -⟩ := h1 fuel hf
  obtain ⟨f1, e1, k1, k2, k3, k4, k5, k6⟩ := key fuel
  have : f1 = f' := e1.symm.trans e
  subst this
  refine ⟨q, by rw [e]; exact hq, ?_⟩
  rw [e]
  have life1 : FTN.Life rand cast true f1 names := e ▸ FTN.Life.contract life st dict rt fuel
  have m1 : f1.meaning rt2 (dict2.map fun p => (p.1, p.2.labelled st2)) = some A2 := by
    rw [← hA2]
    unfold FTN.meaning
    rw [k1, k2, k3, k4]
  have a1 : f1.arrays (dict2.map fun p => (p.1, p.2.labelled st2)) = some Ds := by
    rw [← hD]
    unfold FTN.arrays
    rw [k2]
  obtain ⟨Ds', hD', n2, h2⟩ := C45_policy rand cast life1 inp2 m1
  cases Option.some.inj (a1.symm.trans hD')
  -- whatever the number of rounds, the stored sequence is kept
  have un : ¬ Unrecorded f1.bondDims Ds := by
    rintro ⟨p, hp, x, hx, hne⟩
    obtain ⟨p', hp', hx', e'⟩ := same p hp x hx
    exact hne (by rw [rec p' hp' x hx', e'])
  refine ⟨n2, fun fuel2 hf2 => ?_⟩
  obtain ⟨f2, q2, e2, hq2, keep, -⟩ := h2 fuel2 hf2
  rw [e2, hq2, ← keep (by rw [hq]; simp) (fun h => un h.2), hq]

example : ∃ A Cs, FTN.Life (R := Int) (fun _ _ => 0) id true ftnUsed ftnOpsDone.2 ∧ FTNInput triStore ftnOpsDone.2 ftnInput ∧
    ftnUsed.meaning true (ftnInput.map fun p => (p.1, p.2.labelled triStore)) = some A ∧
    ftnUsed.arrays (ftnInput.map fun p => (p.1, p.2.labelled triStore)) = some Cs ∧ ftnUsed.realCost = true ∧
    ftnUsed.optimalSeq = none := by
  have h : (ftnUsed.meaning true (ftnInput.map fun p => (p.1, p.2.labelled triStore))).isSome := by decide +kernel
  have h' : (ftnUsed.arrays (ftnInput.map fun p => (p.1, p.2.labelled triStore))).isSome := by decide +kernel
  obtain ⟨A, hA⟩ := Option.isSome_iff_exists.mp h
  obtain ⟨Cs, hC⟩ := Option.isSome_iff_exists.mp h'
  exact ⟨A, Cs, .contract (life_build ftnOps (FTN.new 0, []) (.new 0 [] true 10 (Or.inl rfl))) _ _ _ _, ftnInput_ok, hA, hC,
    by decide +kernel, by decide +kernel⟩

/-! ### An axis that goes away is not noticed -/

/-- `A(a, x)`, `B(x, y)`, `C(y, c)`, and `A'(x)`, with `a = 3` and all other dimensions 2. -/
def goneStore : Store where
  leg l := match l with
    | 0 => ⟨3, "a", none, some 0⟩
    | 1 => ⟨2, "x", none, some 0⟩
    | 2 => ⟨2, "x", none, some 1⟩
    | 3 => ⟨2, "y", none, some 1⟩
    | 4 => ⟨2, "y", none, some 2⟩
    | 5 => ⟨2, "c", none, some 2⟩
    | 6 => ⟨2, "x", none, some 3⟩
    | _ => ⟨0, "", none, none⟩
  bond _ := (0, 0)
  nextLeg := 7
  nextBond := 0
  nextTensor := 4

def goneA : Tensor Int := ⟨0, [0, 1], some ⟨[3, 2], [1, 2, 3, 4, 5, 6]⟩, false, false, 0⟩
def goneB : Tensor Int := ⟨1, [2, 3], some ⟨[2, 2], [1, 0, 2, 3]⟩, false, false, 0⟩
def goneC : Tensor Int := ⟨2, [4, 5], some ⟨[2, 2], [1, 1, 0, 2]⟩, false, false, 0⟩
def goneA' : Tensor Int := ⟨3, [6], some ⟨[2], [1, 7]⟩, false, false, 0⟩

def goneNet : FTN :=
  (((FTN.new 0).apply ["A", "B", "C"] (.addLink "A" "x" "B" "x")).2.1.apply ["A", "B", "C"] (.addLink "B" "y" "C" "y")).2.1

def goneContract (f : FTN) (a : Tensor Int) (fuel : Nat) : FTN :=
  (f.contract (fun _ _ => 0) id ["A", "B", "C"] goneStore [("A", a), ("B", goneB), ("C", goneC)] false fuel).1

theorem goneContract_eq (f : FTN) (a : Tensor Int) (fuel : Nat) : goneContract f a fuel =
    (f.contract (fun _ _ => 0) id ["A", "B", "C"] goneStore [("A", a), ("B", goneB), ("C", goneC)] false fuel).1 := rfl

attribute [irreducible] goneContract

/-- What the search is given. -/
def FTN.searchInput (f : FTN) (names : List String) (st : Store) (dict : List (String × Tensor Int)) : Option Input :=
  match f.prepare (fun _ _ => 0) names st dict with
  | .error _ => none
  | .ok (st1, d) => match orderedTensors names d with
    | .error _ => none
    | .ok ts => match makeTensorGraph st1 ts with
      | .error _ => none
      | .ok g => g.input.toOption

theorem first_sequence {f : FTN} (h0 : f.optimalSeq = none) {names : List String} {st : Store} {dict : List (String × Tensor Int)} {rt : Bool}
    {fuel : Nat} {inp : Input} (hi : ({ f with locked := true } : FTN).searchInput names st dict = some inp) {q : List (Nat × Nat)}
    (hq : (capping inp f.typicalDim fuel).bind (fun r => (r.bind fun r => (r.1.getCost (1 <<< inp.edges.length - 1)).map fun _ => r.2).toOption)
      = some q) :
    (f.contract (fun _ _ => 0) id names st dict rt fuel).1.optimalSeq = some q := by
  unfold FTN.searchInput at hi
  unfold FTN.contract
  dsimp only
  split at hi
  · cases hi
  rename_i st1 d hp
  rw [hp]
  dsimp only
  split at hi
  · cases hi
  rename_i ts hts
  rw [hts]
  dsimp only
  split at hi
  · cases hi
  rename_i g hg
  have hst : (({ f with locked := true } : FTN).loadBondDims st1 d).stale = true := by
    simp [FTN.stale, FTN.loadBondDims, h0]
  rw [if_pos hst]
  have hin : g.input = .ok inp := by
    cases h : g.input with
    | error e => rw [h] at hi; cases hi
    | ok i => rw [h] at hi; cases Option.some.inj hi; rfl
  have hs : ∃ c, generateSequence st1 ts .capping (({ f with locked := true } : FTN).loadBondDims st1 d).typicalDim fuel =
      some (.ok (c, q)) := by
    unfold generateSequence optimalContractSequence
    rw [hg]
    dsimp only
    rw [hin]
    dsimp only
    have et : (({ f with locked := true } : FTN).loadBondDims st1 d).typicalDim = f.typicalDim := rfl
    rw [et]
    cases hc : capping inp f.typicalDim fuel with
    | none => rw [hc] at hq; cases hq
    | some r =>
      rw [hc] at hq
      cases r with
      | error e => cases hq
      | ok r =>
        cases hg : r.1.getCost (1 <<< inp.edges.length - 1) with
        | error e => simp [hg, Except.bind, Except.map, Except.toOption] at hq
        | ok c =>
          simp [hg, Except.bind, Except.map, Except.toOption] at hq
          exact ⟨c, by simp [hg, bind, Except.bind, pure, Except.pure, hq]⟩
  obtain ⟨c, hs⟩ := hs
  rw [hs]
  rfl

theorem gone_inputs : ({ goneNet with locked := true } : FTN).searchInput ["A", "B", "C"] goneStore
      [("A", goneA), ("B", goneB), ("C", goneC)] = some ⟨[[0, 1], [1, 2], [2, 3]], [[3, 2], [2, 2], [2, 2]], [false, false, false]⟩ ∧
    ({ goneNet with locked := true } : FTN).searchInput ["A", "B", "C"] goneStore
      [("A", goneA'), ("B", goneB), ("C", goneC)] = some ⟨[[0], [0, 1], [1, 2]], [[2], [2, 2], [2, 2]], [false, false, false]⟩ := by
  decide +kernel

theorem goneStore_wf : WFStore goneStore := by
  have h : ∀ l, (goneStore.leg l).bond = none := by
    intro l
    match l with
    | 0 | 1 | 2 | 3 | 4 | 5 | 6 => rfl
    | n + 7 => rfl
  refine ⟨fun l b hb => ?_, fun l b hb => ?_, fun l b hb => ?_⟩ <;> rw [h l] at hb <;> cases hb

theorem goneInput_ok {a : Tensor Int} (ha : a = goneA ∨ a = goneA') :
    FTNInput goneStore ["A", "B", "C"] [("A", a), ("B", goneB), ("C", goneC)] where
  wf := goneStore_wf
  keys := .refl _
  once := by decide
  nonempty := by decide
  good := by
    intro p hp
    simp only [List.mem_cons, List.not_mem_nil, or_false] at hp
    rcases hp with rfl | rfl | rfl
    · rcases ha with rfl | rfl
      · exact ⟨⟨by decide, rfl, _, rfl, rfl, fun _ => rfl, fun h => by cases h⟩, rfl⟩
      · exact ⟨⟨by decide, rfl, _, rfl, rfl, fun _ => rfl, fun h => by cases h⟩, rfl⟩
    · exact ⟨⟨by decide, rfl, _, rfl, rfl, fun _ => rfl, fun h => by cases h⟩, rfl⟩
    · exact ⟨⟨by decide, rfl, _, rfl, rfl, fun _ => rfl, fun h => by cases h⟩, rfl⟩
  legs := by rcases ha with rfl | rfl <;> decide
  known := by rcases ha with rfl | rfl <;> decide
  labels := by rcases ha with rfl | rfl <;> decide
  pos := by rcases ha with rfl | rfl <;> decide

theorem goneLife : FTN.Life (R := Int) (fun _ _ => 0) id false goneNet ["A", "B", "C"] :=
  ((FTN.Life.new 0 ["A", "B", "C"] true 10 (Or.inl rfl)).build (.addLink "A" "x" "B" "x")).build (.addLink "B" "y" "C" "y")

/-- The labels and dimensions of arrays. -/
def shapesOf (o : Option (List (String × LArr Int))) : Option (List (List (String × Nat))) :=
  o.map fun Cs => Cs.map fun p => p.2.labels.map fun x => (x, p.2.dim x)

theorem gone_arrays : shapesOf (goneNet.arrays ([("A", goneA), ("B", goneB), ("C", goneC)].map fun p => (p.1, p.2.labelled goneStore))) =
      some [[("A-a", 3), ("A-x", 2)], [("B-x", 2), ("B-y", 2)], [("C-y", 2), ("C-c", 2)]] ∧
    shapesOf (goneNet.arrays ([("A", goneA'), ("B", goneB), ("C", goneC)].map fun p => (p.1, p.2.labelled goneStore))) =
      some [[("A-x", 2)], [("B-x", 2), ("B-y", 2)], [("C-y", 2), ("C-c", 2)]] := by
  decide +kernel

/-- The outcome of a search. -/
def searched (inp : Input) (fuel : Nat) : Option (List (Nat × Nat)) :=
  (capping inp none fuel).bind (fun r => (r.bind fun r => (r.1.getCost (1 <<< inp.edges.length - 1)).map fun _ => r.2).toOption)

theorem capLoop_more (typ : Option Nat) (n chi : Nat) : ∀ (fuel k mo mn : Nat) (s : CapState) (r : Except PyErr CapState),
    capLoop typ n chi fuel mo mn s = some r → capLoop typ n chi (fuel + k) mo mn s = some r := by
  intro fuel
  induction fuel with
  | zero =>
    intro k mo mn s r h
    unfold capLoop at h
    split at h
    · rename_i hs
      unfold capLoop
      rw [if_pos hs]
      exact h
    · cases h
  | succ fuel ih =>
    intro k mo mn s r h
    rw [Nat.add_right_comm]
    unfold capLoop at h ⊢
    split at h
    · rename_i hs
      rw [if_pos hs]
      exact h
    · rename_i hs
      rw [if_neg hs]
      dsimp only at h ⊢
      split at h
      · exact h
      · exact ih k _ _ _ r h

/-- More rounds do not change the outcome of a search. -/
theorem searched_more {inp : Input} {fuel : Nat} {q : List (Nat × Nat)} (h : searched inp fuel = some q) (k : Nat) :
    searched inp (fuel + k) = some q := by
  unfold searched at h ⊢
  cases hc : capping inp none fuel with
  | none => rw [hc] at h; cases h
  | some r =>
    have : capping inp none (fuel + k) = some r := by
      unfold capping at hc ⊢
      dsimp only at hc ⊢
      split at hc
      · exact hc
      · split at hc
        · rename_i h0
          rw [if_pos h0]
          exact hc
        · rename_i h0
          rw [if_neg h0]
          obtain ⟨r', hr', e⟩ := Option.map_eq_some_iff.mp hc
          rw [capLoop_more _ _ _ _ k _ _ _ _ hr', Option.map_some, e]
    rw [this, ← hc]
    exact h

theorem gone_searches :
    searched ⟨[[0, 1], [1, 2], [2, 3]], [[3, 2], [2, 2], [2, 2]], [false, false, false]⟩ 100 = some [(1, 2), (0, 1)] ∧
    searched ⟨[[0], [0, 1], [1, 2]], [[2], [2, 2], [2, 2]], [false, false, false]⟩ 100 = some [(0, 1), (2, 0)] := by
  decide +kernel

/-- C45: only dimensions are compared, so an axis that is no longer there goes unnoticed.  The network is contracted with a
matrix `A`, then with a vector `A'`: the second call keeps the sequence of the first (`B` and `C` first, 8 + 4
multiplications), although a new network finds another one for the same tensors (`A'` and `B` first, 4 + 4). -/
theorem C45_lost_axis_unnoticed :
    ∃ rounds, ∀ fuel, rounds ≤ fuel → (goneContract goneNet goneA fuel).optimalSeq = some [(1, 2), (0, 1)] ∧
      (goneContract goneNet goneA' fuel).optimalSeq = some [(0, 1), (2, 0)] ∧
      ∃ rounds2, ∀ fuel2, rounds2 ≤ fuel2 →
        (goneContract (goneContract goneNet goneA fuel) goneA' fuel2).optimalSeq = some [(1, 2), (0, 1)] := by
  have s1 : ∀ k, (goneContract goneNet goneA (100 + k)).optimalSeq = some [(1, 2), (0, 1)] := by
    intro k
    rw [goneContract_eq]
    exact first_sequence rfl gone_inputs.1 (searched_more gone_searches.1 k)
  have s2 : ∀ k, (goneContract goneNet goneA' (100 + k)).optimalSeq = some [(0, 1), (2, 0)] := by
    intro k
    rw [goneContract_eq]
    exact first_sequence rfl gone_inputs.2 (searched_more gone_searches.2 k)
  obtain ⟨Cs, hC⟩ := Option.isSome_iff_exists.mp (show (goneNet.arrays ([("A", goneA), ("B", goneB), ("C", goneC)].map
    fun p => (p.1, p.2.labelled goneStore))).isSome from by decide +kernel)
  obtain ⟨Ds, hD⟩ := Option.isSome_iff_exists.mp (show (goneNet.arrays ([("A", goneA'), ("B", goneB), ("C", goneC)].map
    fun p => (p.1, p.2.labelled goneStore))).isSome from by decide +kernel)
  obtain ⟨A, hA⟩ := Option.isSome_iff_exists.mp (show (goneNet.meaning false ([("A", goneA), ("B", goneB), ("C", goneC)].map
    fun p => (p.1, p.2.labelled goneStore))).isSome from by decide +kernel)
  obtain ⟨A', hA'⟩ := Option.isSome_iff_exists.mp (show (goneNet.meaning false ([("A", goneA'), ("B", goneB), ("C", goneC)].map
    fun p => (p.1, p.2.labelled goneStore))).isSome from by decide +kernel)
  have a1 := gone_arrays.1
  have a2 := gone_arrays.2
  rw [hC] at a1
  rw [hD] at a2
  simp only [shapesOf, Option.map_some, Option.some.injEq] at a1 a2
  have same : ∀ p ∈ Ds, ∀ x ∈ p.2.labels, ∃ p' ∈ Cs, x ∈ p'.2.labels ∧ p'.2.dim x = p.2.dim x := by
    intro p hp x hx
    have m1 : p.2.labels.map (fun x => (x, p.2.dim x)) ∈ Ds.map fun p => p.2.labels.map fun x => (x, p.2.dim x) :=
      List.mem_map_of_mem (f := fun p : String × LArr Int => p.2.labels.map fun x => (x, p.2.dim x)) hp
    have m2 : (x, p.2.dim x) ∈ p.2.labels.map (fun x => (x, p.2.dim x)) := List.mem_map_of_mem (f := fun x => (x, p.2.dim x)) hx
    have m3 : ∃ s ∈ Cs.map fun p => p.2.labels.map fun x => (x, p.2.dim x), (x, p.2.dim x) ∈ s := by
      rw [a2] at m1
      rw [a1]
      generalize p.2.labels.map (fun x => (x, p.2.dim x)) = s at m1 m2
      simp only [List.mem_cons, List.not_mem_nil, or_false] at m1
      rcases m1 with rfl | rfl | rfl
      · exact ⟨_, List.mem_cons_self .., List.mem_cons_of_mem _ m2⟩
      · exact ⟨_, List.mem_cons_of_mem _ (List.mem_cons_self ..), m2⟩
      · exact ⟨_, List.mem_cons_of_mem _ (List.mem_cons_of_mem _ (List.mem_cons_self ..)), m2⟩
    obtain ⟨s, hs, hxs⟩ := m3
    obtain ⟨p', hp', rfl⟩ := List.mem_map.mp hs
    obtain ⟨y, hy, e⟩ := List.mem_map.mp hxs
    obtain ⟨rfl, e2⟩ := Prod.mk.inj e
    exact ⟨p', hp', hy, e2⟩
  obtain ⟨n1, h1⟩ := C45_second_call (fun _ _ => 0) id goneLife (goneInput_ok (Or.inl rfl)) hA (goneInput_ok (Or.inr rfl)) hA'
    hC hD same
  refine ⟨100 + n1, fun fuel hf => ?_⟩
  obtain ⟨k, rfl⟩ := Nat.exists_eq_add_of_le hf
  obtain ⟨q, hq, n2, h2⟩ := h1 (100 + n1 + k) (by omega)
  simp only [← goneContract_eq] at hq h2
  rw [Nat.add_assoc] at hq h2 ⊢
  have e : some q = some [(1, 2), (0, 1)] := hq.symm.trans (s1 _)
  refine ⟨s1 _, s2 _, n2, fun fuel2 hf2 => ?_⟩
  rw [← e]
  exact h2 fuel2 hf2

end CTL
