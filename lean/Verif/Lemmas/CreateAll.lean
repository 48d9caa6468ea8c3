import Verif.Lemmas.ContractSlots

/-! Making the chains of all tensors. -/

namespace CTL
variable {R : Type}

structure StepD [CommSemiring R] (st : Store) (L : List (Tensor R)) (st' : Store) (L' : List (Tensor R)) : Prop where
  wf : WFStore st'
  trail : Trail st L st' L'
  same : SameValue st L st' L'
  kept : LegsKept st st'

theorem OwnedNet.goodNet {st : Store} {L : List (Tensor R)} (h : OwnedNet st L) : GoodNet st L :=
  ⟨h.wf.inv, h.good, flat_of_owner (fun t ht => (h.good t ht).nodup) h.owned.ids fun t ht l hl => (h.owned.legs t ht l hl).2⟩

theorem OwnedNet.perm {st : Store} {L M : List (Tensor R)} (h : OwnedNet st L) (p : L.Perm M) : OwnedNet st M :=
  ⟨h.wf, fun t ht => h.good t (p.mem_iff.mpr ht), h.owned.perm p, fun t ht l hl m hm => by
    obtain ⟨h1, u, hu, h2⟩ := h.inside t (p.mem_iff.mpr ht) l hl m hm
    exact ⟨h1, u, p.mem_iff.mp hu, h2⟩⟩

theorem OwnedNet.sound {st : Store} {L : List (Tensor R)} (h : OwnedNet st L) (d : ∀ t ∈ L, t.diag = false) : Sound st L :=
  ⟨h.wf, h.good, d, h.owned, h.inside⟩

namespace StepD
variable [CommSemiring R] {a b c : Store} {L M K N : List (Tensor R)}

theorem refl (s : OwnedNet a L) : StepD a L a L := ⟨s.wf, .refl _ _, .refl s.goodNet, .refl _⟩

theorem trans (h : StepD a L b M) (h' : StepD b M c K) : StepD a L c K :=
  ⟨h'.wf, h.trail.trans h'.trail, h.same.trans h'.same, h.kept.trans h.trail.nextLeg h'.kept⟩

theorem perm (h : StepD a L b M) {L' M' : List (Tensor R)} (p : L.Perm L') (q : M.Perm M') : StepD a L' b M' :=
  ⟨h.wf, h.trail.perm p q, ((SameValue.of_perm h.same.good p).symm.trans h.same).trans (.of_perm h.same.good' q), h.kept⟩

theorem sound (h : StepD a L b M) (s : OwnedNet a L) : OwnedNet b M := by
  have o := h.trail.own s.owned
  refine ⟨h.wf, h.same.good'.good, o, ?_⟩
  intro t ht l hl m hm
  by_contra c
  have f : FreeLeg b M l := by
    refine ⟨⟨t, ht, hl⟩, fun m' hm' hc => c ?_⟩
    obtain rfl := Option.some.inj (hm.symm.trans hm')
    exact (cross_iff h.same.good'.nodup ht hl).mp hc
  obtain ⟨⟨u, hu, hlu⟩, h2⟩ := (h.same.free l).mp f
  have hold := (s.owned.legs u hu l hlu).1
  rw [(h.kept l hold).2.2] at hm
  exact h2 m hm ((cross_iff s.goodNet.nodup hu hlu).mpr (s.inside u hu l hlu m hm))

theorem step (h : StepD a L b M) (d : ∀ t ∈ M, t.diag = false) : Step a L b M := ⟨h.wf, d, h.trail, h.same, h.kept⟩

end StepD

/-- A step on a part of a network in which other tensors may be diagonal. -/
theorem Step.frameD [CommSemiring R] {a b : Store} {L M N : List (Tensor R)} (h : Step a L b M) (s : OwnedNet a (N ++ L)) :
    StepD a (N ++ L) b (N ++ M) := by
  have tr := h.trail.frame N
  have o := tr.own s.owned
  have oldN : ∀ t ∈ N, ∀ l ∈ t.legs, l < a.nextLeg := fun t ht l hl => (s.owned.legs t (List.mem_append_left _ ht) l hl).1
  have good : ∀ t ∈ N ++ M, GoodTensor b t := by
    intro t ht
    rcases List.mem_append.mp ht with ht | ht
    · exact (s.good t (List.mem_append_left _ ht)).congr_dim fun l hl => (h.kept l (oldN t ht l hl)).1
    · exact h.same.good'.good t ht
  have gM : GoodNet b (N ++ M) :=
    ⟨h.wf.inv, good, flat_of_owner (fun t ht => (good t ht).nodup) o.ids fun t ht l hl => (o.legs t ht l hl).2⟩
  exact ⟨h.wf, tr, h.same.frame s.goodNet gM (fun t ht l hl => (h.kept l (oldN t ht l hl)).1)
    (fun t ht l hl => (h.kept l (oldN t ht l hl)).2.2), h.kept⟩

theorem le_prod_of_mem {f : LegId → Nat} {ls : List LegId} (pos : ∀ l ∈ ls, 0 < f l) {l : LegId} (hl : l ∈ ls) :
    f l ≤ (ls.map f).prod := by
  have hp : 0 < (ls.map f).prod := List.prod_pos fun x hx => by
    obtain ⟨y, hy, rfl⟩ := List.mem_map.mp hx
    exact pos y hy
  exact Nat.le_of_dvd hp (List.dvd_prod (List.mem_map_of_mem hl))

/-- `createMPSFromTensor` is a step. -/
theorem createMPS_step [Field R] [StarRing R] {la : LinAlg R} (hla : GoodAlg la) {castF : R → R} {st : Store} {t : Tensor R}
    {N : List (Tensor R)} (s : OwnedNet st (N ++ [t])) (v : Live st (N ++ [t])) (hc : t.diag = true → ∀ x, castF x = x)
    (some1 : t.legs ≠ []) (two : t.diag = true → 2 ≤ t.legs.length) {chi W : Nat} (hW : (t.legs.map st.dim).prod ≤ W) (hchi : W ≤ chi) :
    ∃ st' m, createMPS la castF st t (some chi) = .ok (st', m) ∧ Step st [t] st' m.tensors ∧ IsChain st' m.tensors t.legs ∧
      m.chi = (chi : Int) ∧ Within st' m.tensors W := by
  have mt : t ∈ N ++ [t] := by simp
  have g := s.good t mt
  have old : ∀ l ∈ t.legs, l < st.nextLeg := fun l hl => (s.owned.legs t mt l hl).1
  have pos : ∀ l ∈ t.legs, 0 < st.dim l := fun l hl => v.pos s.goodNet t mt l hl
  have apart : ∀ p ∈ t.legs, ∀ q ∈ t.legs, st.partner p ≠ some q := fun p hp q hq k => (s.inside t mt p hp q k).1 hq
  have inW : ∀ l ∈ t.legs, st.dim l ≤ W := fun l hl => (le_prod_of_mem pos hl).trans hW
  have net1 : GoodNet st [t] := ⟨s.wf.inv, by simpa using g, by simpa using g.nodup⟩
  by_cases h2 : 2 ≤ t.legs.length
  · obtain ⟨τ, t1, t2⟩ := v.point s.goodNet
    have nz := seesNonZero_of hla.unitary hla.rank hla.nonzero
    have chi0 : chi ≠ 0 := by
      have := List.length_pos_iff.mpr some1
      obtain ⟨l, hl⟩ := List.exists_mem_of_ne_nil _ some1
      have := pos l hl
      have := inW l hl
      omega
    obtain ⟨st', m, lft, rgt, e, hm, -, M⟩ := C47_create hla.exact nz s.wf g hc old h2 (fun l hl => (pos l hl).ne') apart
      (some chi) (.inr ⟨by simpa using chi0, τ, t1 t mt, t2 t mt⟩)
    have tp : ∀ i, ((t.legs.take i).map st.dim).prod ≤ W := by
      intro i
      refine le_trans (Nat.le_of_dvd (List.prod_pos fun x hx => ?_) ?_) hW
      · obtain ⟨y, hy, rfl⟩ := List.mem_map.mp hx
        exact pos y hy
      · conv_rhs => rw [← List.take_append_drop i t.legs]
        rw [List.map_append, List.prod_append]
        exact Dvd.intro _ rfl
    refine ⟨st', m, e, ⟨M.chain.wf, fun u hu => (M.chain.good u hu).2, ?_, M.value hla.rank ?_, M.kept⟩, ⟨lft, rgt, M.chain⟩, ?_, ?_⟩
    · refine ⟨M.grow.1, M.grow.2, ?_, ?_, ?_, ?_⟩
      · intro l hl no
        exact M.other l hl (no t (by simp))
      · intro u hu l hl
        obtain ⟨i, hi, rfl⟩ := List.getElem_of_mem hu
        have := (M.chain.legs i _ (List.getElem?_eq_getElem hi)).mem_iff.mp hl
        rcases Chain.mem_siteLegs.mp this with rfl | ⟨h, rfl⟩ | ⟨h, rfl⟩
        · exact .inr ⟨t, by simp, (Chain.mem_phys M.chain.len).mpr ⟨i, hi, rfl⟩⟩
        · exact .inl (M.isNew i h).1
        · obtain ⟨k, rfl⟩ : ∃ k, i = k + 1 := ⟨i - 1, by omega⟩
          exact .inl (M.isNew k hi).2
      · intro u hu
        exact .inl (M.ids.2 u hu).1
      · intro _
        exact ⟨M.ids.1, fun u hu => (M.ids.2 u hu).2, fun u hu l hl => ⟨M.chain.old u hu l hl, M.owner u hu l hl⟩⟩
    · intro c hc i _ _
      cases hc
      exact (min_le_left _ _).trans ((tp i).trans hchi)
    · rw [hm]; rfl
    · rw [M.chain.within_iff]
      refine ⟨fun p hp => ?_, fun i hi => ?_⟩
      · rw [(M.kept p (old p hp)).1]; exact inW p hp
      · exact (M.rank i hi).trans ((min_le_left _ _).trans (tp _))
  · have d : t.diag = false := by
      cases h : t.diag with
      | false => rfl
      | true => exact absurd (two h) h2
    obtain ⟨l, hl⟩ : ∃ l, t.legs = [l] := List.length_eq_one_iff.mp (by
      have := List.length_pos_iff.mpr some1
      omega)
    have CL : ChainLinks st [t] t.legs (fun _ => 0) (fun _ => 0) := by
      refine ⟨s.wf, by rw [hl]; rfl, by simp [g, d], ?_, by simpa using old, ?_, ?_, apart⟩
      · intro i u hu
        match i with
        | 0 => cases hu; simp [siteLegs, hl]
        | n + 1 => cases hu
      · intro i hi j hj hne
        simp only [List.length_singleton] at hi hj
        omega
      · intro i hi
        simp only [List.length_singleton] at hi
        omega
    obtain ⟨st', m, e, em, ec, -, C, rel, oth⟩ := C47_new CL (by simp) (some (chi : Int)) (by
      intro c hc; cases hc; omega)
    refine ⟨st', m, ?_, ?_, ⟨_, _, C⟩, ec, ?_⟩
    · unfold createMPS
      rw [hl]
      exact e
    · rw [em]
      exact rel.step oth s.wf C.wf (by simp [d]) net1 (by simp)
    · rw [em]
      intro u hu p hp
      rw [List.mem_singleton] at hu
      subst hu
      rw [show st'.dim p = st.dim p from (rel.leg p).1]
      exact inW p hp

/-- The chains of all tensors. -/
theorem createAll_step [Field R] [StarRing R] {la : LinAlg R} (hla : GoodAlg la) {castF : R → R} {chi W : Nat} (hchi : W ≤ chi) :
    ∀ (ts : List (Tensor R)) {N : List (Tensor R)} {st : Store}, OwnedNet st (N ++ ts) → Live st (N ++ ts) →
    (∀ t ∈ ts, t.diag = true → ∀ x, castF x = x) → (∀ t ∈ ts, t.legs ≠ []) → (∀ t ∈ ts, t.diag = true → 2 ≤ t.legs.length) →
    (∀ t ∈ ts, (t.legs.map st.dim).prod ≤ W) →
    ∃ st' ms, createAll la castF chi st ts = .ok (st', ms) ∧ StepD st (N ++ ts) st' (N ++ flat ms) ∧ ms.length = ts.length ∧
      (∀ u ∈ flat ms, u.diag = false) ∧ (∀ l < st.nextLeg, (∀ t ∈ ts, l ∉ t.legs) → st'.leg l = st.leg l) ∧
      ∀ (i : Nat) (t : Tensor R), ts[i]? = some t → ∃ m, ms[i]? = some (.mps m) ∧ IsChain st' m.tensors t.legs ∧
        m.chi = (chi : Int) ∧ Within st' m.tensors W
  | [], N, st, s, _, _, _, _, _ => by
    refine ⟨st, [], rfl, .refl s, rfl, by simp [flat], fun _ _ _ => rfl, by simp⟩
  | t :: ts, N, st, s, v, hc, h1, h2, hW => by
    have p1 : (N ++ t :: ts).Perm ((N ++ ts) ++ [t]) := by
      rw [List.append_assoc]
      exact List.Perm.append_left _ (List.perm_append_comm (l₁ := [t]))
    obtain ⟨st1, m, e1, f1, C1, ch1, w1⟩ := createMPS_step hla (s.perm p1) ((SameValue.of_perm s.goodNet p1).live v)
      (hc t (by simp)) (h1 t (by simp)) (h2 t (by simp)) (hW t (by simp)) hchi
    have F1 := (f1.frameD (s.perm p1)).perm p1.symm (M' := (N ++ m.tensors) ++ ts) (by
      rw [List.append_assoc, List.append_assoc]
      exact List.Perm.append_left _ List.perm_append_comm)
    have s1 := F1.sound s
    have old : ∀ u ∈ ts, ∀ l ∈ u.legs, l < st.nextLeg := fun u hu l hl => (s.owned.legs u (by simp [hu]) l hl).1
    obtain ⟨st2, ms, e2, F2, n2, d2, o2, g2⟩ := createAll_step hla hchi ts s1 (F1.same.live v) (fun u hu => hc u (List.mem_cons_of_mem _ hu))
      (fun u hu => h1 u (List.mem_cons_of_mem _ hu)) (fun u hu => h2 u (List.mem_cons_of_mem _ hu)) (by
        intro u hu
        rw [List.map_congr_left fun l hl => (f1.kept l (old u hu l hl)).1]
        exact hW u (List.mem_cons_of_mem _ hu))
    have ef : flat (.mps m :: ms) = m.tensors ++ flat ms := rfl
    refine ⟨st2, .mps m :: ms, ?_, ?_, by simp [n2], ?_, ?_, ?_⟩
    · simp only [createAll, e1, e2, bind, Except.bind]
      rfl
    · rw [ef, ← List.append_assoc]
      exact F1.trans F2
    · intro u hu
      rw [ef] at hu
      rcases List.mem_append.mp hu with hu | hu
      · exact f1.dense u hu
      · exact d2 u hu
    · intro l hl no
      rw [o2 l (hl.trans_le F1.trail.nextLeg) fun u hu => no u (List.mem_cons_of_mem _ hu)]
      exact f1.trail.other l hl fun u hu => by
        rw [List.mem_singleton] at hu
        subst hu
        exact no _ (by simp)
    · intro i u hu
      match i with
      | 0 =>
        cases hu
        obtain ⟨lf, rg, C⟩ := C1
        refine ⟨m, rfl, ⟨lf, rg, ?_⟩, ch1, w1.kept F2.kept C.old⟩
        refine C.carry F2.wf F2.kept F2.trail.nextLeg fun u hu l hl => ?_
        unfold Store.name
        rw [o2 l (C.old u hu l hl) fun w hw => s1.owned.disj (N := N ++ m.tensors) (List.mem_append_right _ hu) hw hl]
      | i + 1 => exact g2 i u hu

theorem total_legs (ts : List (Tensor R)) :
    total ts.length (fun i => ((ts[i]?).map (·.legs)).getD []) = (ts.map fun t => t.legs.length).sum := by
  have e : ts.map (fun t => t.legs.length) = (List.range ts.length).map fun i => (((ts[i]?).map (·.legs)).getD []).length := by
    apply List.ext_getElem
    · simp
    · intro i h1 h2
      simp only [List.length_map] at h1
      simp [List.getElem?_eq_getElem h1]
  rw [e]
  rfl

theorem createAll_rows [Field R] [StarRing R] {la : LinAlg R} (hla : GoodAlg la) {castF : R → R} {chi W : Nat} {ts : List (Tensor R)}
    {st : Store} (s : OwnedNet st ts) (v : Live st ts) (hc : ∀ t ∈ ts, t.diag = true → ∀ x, castF x = x) (h1 : ∀ t ∈ ts, t.legs ≠ [])
    (h2 : ∀ t ∈ ts, t.diag = true → 2 ≤ t.legs.length) (W1 : 1 ≤ W) (hW : ∀ t ∈ ts, (t.legs.map st.dim).prod ≤ W)
    (hchi : W ^ 2 ^ (ts.map fun t => t.legs.length).sum ≤ chi) :
    ∃ st' ms, createAll la castF chi st ts = .ok (st', ms) ∧ Step st ts st' (flat ms) ∧
      Rows chi st' ms (fun i => ((ts[i]?).map (·.legs)).getD []) ∧ ms.length = ts.length ∧ ∀ i < ts.length, IsMPS ms i := by
  have hWc : W ≤ chi := (Nat.le_self_pow (by positivity) W).trans hchi
  obtain ⟨st', ms, e, F, n, d, -, g⟩ := createAll_step hla hWc ts (N := []) s v hc h1 h2 hW
  rw [List.nil_append, List.nil_append] at F
  have S := F.step d
  have s' := (F.sound s).sound d
  refine ⟨st', ms, e, S, ⟨s', F.same.live v, ?_, W, W1, ?_, ?_⟩, n, ?_⟩
  · intro i
    by_cases hi : i < ts.length
    · obtain ⟨m, em, C, ch, -⟩ := g i _ (List.getElem?_eq_getElem hi)
      have e2 : ms.getD i .gone = .mps m := by rw [List.getD_eq_getElem?_getD, em]; rfl
      rw [e2, List.getElem?_eq_getElem hi]
      refine ⟨C, ch, ?_⟩
      intro k
      obtain ⟨lf, rg, C⟩ := C
      have := C.len
      rw [k] at this
      exact h1 _ (List.getElem_mem hi) (List.length_eq_zero_iff.mp (by simpa using this))
    · rw [List.getD_eq_getElem?_getD, List.getElem?_eq_none (by omega), List.getElem?_eq_none (by omega)]
      exact rfl
  · rw [n, total_legs]
    exact hchi
  · intro i m hm
    have hi : i < ts.length := by
      rw [← n]
      exact (List.getElem?_eq_some_iff.mp hm).1
    obtain ⟨m', em, -, -, w⟩ := g i _ (List.getElem?_eq_getElem hi)
    rw [hm] at em
    cases em
    exact w
  · intro i hi
    obtain ⟨m, em, -⟩ := g i _ (List.getElem?_eq_getElem hi)
    exact ⟨m, em⟩

theorem mem_pairsBelow {n x y : Nat} : (x, y) ∈ pairsBelow n ↔ x < y ∧ y < n := by
  unfold pairsBelow
  simp only [List.mem_flatMap, List.mem_range, List.mem_map, List.mem_range'_1, Prod.mk.injEq]
  constructor
  · rintro ⟨i, hi, j, ⟨h1, h2⟩, rfl, rfl⟩
    omega
  · intro ⟨h1, h2⟩
    exact ⟨x, by omega, y, by omega, rfl, rfl⟩

theorem Joined.symm' {st : Store} (inv : BondInv st) {ts : List (Tensor R)} {i j : Nat} (h : Joined st ts i j) : Joined st ts j i := by
  obtain ⟨t, u, h1, h2, l, hl, m, hm, k⟩ := h
  exact ⟨u, t, h2, h1, m, hm, l, hl, partner_symm inv k⟩

/-- `contractWithMPS` before the loop over the sequence. -/
theorem runMPS_start [Field R] [StarRing R] {la : LinAlg R} (hla : GoodAlg la) (cast : R → R) {castF : R → R} {chi W : Nat}
    {ts : List (Tensor R)}
    {st : Store} (s : OwnedNet st ts) (v : Live st ts) (hc : ∀ t ∈ ts, t.diag = true → ∀ x, castF x = x) (h1 : ∀ t ∈ ts, t.legs ≠ [])
    (h2 : ∀ t ∈ ts, t.diag = true → 2 ≤ t.legs.length) (W1 : 1 ≤ W) (hW : ∀ t ∈ ts, (t.legs.map st.dim).prod ≤ W)
    (hchi : W ^ 2 ^ (ts.map fun t => t.legs.length).sum ≤ chi) (ne : ts ≠ []) :
    ∃ st2 ms2 P2, (∀ seq, runMPS la cast castF chi st ts seq = seq.foldlM (contractSlots la cast castF) (st2, ms2)) ∧
      Step st ts st2 (flat ms2) ∧ Rows chi st2 ms2 P2 ∧
      Tidy (Joined st ts) st2 ms2 P2 (List.range ts.length) (fun i => [i]) := by
  obtain ⟨st1, ms1, e1, F1, r1, n1, i1⟩ := createAll_rows hla s v hc h1 h2 W1 hW hchi
  obtain ⟨st2, ms2, P2, e2, F2, r2, n2, -, i2, c2⟩ := mergeFold_rows hla cast castF (flag := true) (pairsBelow ts.length) r1 (by
    rintro ⟨x, y⟩ hp
    obtain ⟨a, b⟩ := mem_pairsBelow.mp hp
    exact ⟨a.ne, i1 x (a.trans b), i1 y b, .inl rfl⟩)
  have c3 : ∀ x ∈ List.range ts.length, ∀ y ∈ List.range ts.length, x ≠ y → cnt st2 (P2 x) (P2 y) =
      min (cnt st1 (((ts[x]?).map (·.legs)).getD []) (((ts[y]?).map (·.legs)).getD [])) 1 := by
    intro x hx y hy hne
    rw [List.mem_range] at hx hy
    rw [c2 x y hne, if_pos]
    rw [mem_pairsBelow, mem_pairsBelow]
    omega
  have T : Tidy (Joined st ts) st2 ms2 P2 (List.range ts.length) (fun i => [i]) := by
    refine ⟨List.nodup_range, List.mem_range.mpr (List.length_pos_iff.mpr ne), ?_, ?_, ?_, ?_, ?_⟩
    · intro k hk
      rw [List.mem_range] at hk
      rw [List.getD_eq_getElem?_getD, List.getElem?_eq_none (by omega)]
      rfl
    · intro k hk
      obtain ⟨m, hm⟩ := (i2 k).mpr (i1 k (List.mem_range.mp hk))
      exact ⟨_, hm, rfl⟩
    · exact fun _ k hk => (i2 k).mpr (i1 k (List.mem_range.mp hk))
    · intro x hx y hy hne
      rw [c3 x hx y hy hne]
      exact min_le_right _ _
    · intro x hx y hy hne
      rw [c3 x hx y hy hne]
      rw [List.mem_range] at hx hy
      rw [List.getElem?_eq_getElem hx, List.getElem?_eq_getElem hy]
      simp only [Option.map_some, Option.getD_some, List.mem_singleton, exists_eq_left]
      rw [show (0 < min (cnt st1 ts[x].legs ts[y].legs) 1) = (0 < cnt st1 ts[x].legs ts[y].legs) by rw [eq_iff_iff]; omega]
      unfold cnt
      rw [List.countP_pos_iff]
      constructor
      · rintro ⟨l, hl, hm⟩
        obtain ⟨q, hq, k⟩ := meets_iff.mp hm
        refine ⟨_, _, List.getElem?_eq_getElem hx, List.getElem?_eq_getElem hy, l, hl, q, hq, ?_⟩
        rw [← (F1.kept l (s.owned.legs _ (List.getElem_mem hx) l hl).1).2.2]
        exact k
      · rintro ⟨t, u, ht, hu, l, hl, q, hq, k⟩
        rw [List.getElem?_eq_getElem hx] at ht
        rw [List.getElem?_eq_getElem hy] at hu
        cases ht
        cases hu
        refine ⟨l, hl, meets_iff.mpr ⟨q, hq, ?_⟩⟩
        rw [(F1.kept l (s.owned.legs _ (List.getElem_mem hx) l hl).1).2.2]
        exact k
  refine ⟨st2, ms2, P2, fun seq => ?_, F1.trans F2, r2, T⟩
  simp only [runMPS, e1, bind, Except.bind]
  rw [e2]

/-- All of `contractWithMPS` but the final `toTensor`. -/
theorem runMPS_step [Field R] [StarRing R] {la : LinAlg R} (hla : GoodAlg la) (cast : R → R) {castF : R → R} {chi W : Nat}
    {ts : List (Tensor R)}
    {st : Store} (s : OwnedNet st ts) (v : Live st ts) (hc : ∀ t ∈ ts, t.diag = true → ∀ x, castF x = x) (h1 : ∀ t ∈ ts, t.legs ≠ [])
    (h2 : ∀ t ∈ ts, t.diag = true → 2 ≤ t.legs.length) (W1 : 1 ≤ W) (hW : ∀ t ∈ ts, (t.legs.map st.dim).prod ≤ W)
    (hchi : W ^ 2 ^ (ts.map fun t => t.legs.length).sum ≤ chi) (ne : ts ≠ []) {seq : List (Nat × Nat)} (hv : ValidSeq ts.length seq)
    (hl : LinkedSeq st ts seq) :
    ∃ st' ms P, runMPS la cast castF chi st ts seq = .ok (st', ms) ∧ Step st ts st' (flat ms) ∧ Rows chi st' ms P ∧
      (∀ k, k ≠ 0 → ms.getD k .gone = .gone) ∧ ∃ x, ms[0]? = some x ∧ x.present = true := by
  obtain ⟨st2, ms2, P2, e2, F2, r2, T⟩ := runMPS_start hla cast s v hc h1 h2 W1 hW hchi ne
  obtain ⟨st3, ms3, P3, g3, e3, F3, r3, n3, T3⟩ := contractLoop_step hla cast castF (fun i j h => h.symm' s.wf.inv) seq r2 T hv hl
  exact ⟨st3, ms3, P3, (e2 seq).trans e3, F2.trans F3, r3, fun k hk => T3.gone k (by simpa using hk), T3.present 0 (by simp)⟩

end CTL
