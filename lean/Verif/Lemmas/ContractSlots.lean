import Verif.Lemmas.SlotRows
import Verif.Spec.ContractMPS

/-! The loop of `contractWithMPS` over the sequence. -/

namespace CTL
variable {R : Type}

theorem cnt_cons_zero {st : Store} {p q : LegId} {RA Q : List LegId} (h : st.partner p = some q) (hq : q ∉ Q) :
    cnt st (p :: RA) Q = cnt st RA Q := by
  rw [show p :: RA = [p] ++ RA from rfl, cnt_append, cnt_eq_zero, Nat.zero_add]
  intro p' hp m hm k
  rw [List.mem_singleton.mp hp, h] at k
  exact hq (Option.some.inj k ▸ hm)

/-- `contractMPS` on two elements of the list. -/
theorem contractPair_rows [CommSemiring R] {la : LinAlg R} (hla : ExactLinAlg la) (hr : RankRevealing la) (cast castF : R → R)
    {chi : Nat} {st : Store} {ms : List (Slot R)} {P : Nat → List LegId} (r : Rows chi st ms P) {s t : Nat} (hst : s ≠ t)
    {a b : MPS R} (ha : ms[s]? = some (.mps a)) (hb : ms[t]? = some (.mps b)) (one : cnt st (P s) (P t) = 1) :
    ∃ st' c P', contractMPS la cast castF st a b = .ok (st', c) ∧
      Step st (flat ms) st' (flat ((ms.set (min s t) c).set (max s t) .gone)) ∧
      Rows chi st' ((ms.set (min s t) c).set (max s t) .gone) P' ∧
      ((∃ u, c = .tensor u ∧ ∀ y, y ≠ s → y ≠ t → cnt st (P s) (P y) = 0 ∧ cnt st (P t) (P y) = 0) ∨ ∃ m, c = .mps m) ∧
      (∀ y, y ≠ s → y ≠ t → cnt st' (P' (min s t)) (P' y) = cnt st (P s) (P y) + cnt st (P t) (P y)) ∧
      ∀ x y, x ≠ s → x ≠ t → y ≠ s → y ≠ t → cnt st' (P' x) (P' y) = cnt st (P x) (P y) := by
  have hs' := (List.getElem?_eq_some_iff.mp ha).1
  have ht' := (List.getElem?_eq_some_iff.mp hb).1
  have d := r.duo ha hb hst
  obtain ⟨CA, ca, neA⟩ := r.mps ha
  obtain ⟨CB, cb, neB⟩ := r.mps hb
  obtain ⟨D, h1, big, w⟩ := r.room
  have tot := total_split hs' ht' hst P
  have kA := cnt_le_length st (P s) (P t)
  have hDD : D * D ≤ chi := by
    refine le_trans ?_ big
    rw [← Nat.pow_two]
    refine Nat.pow_le_pow_right h1 ?_
    calc 2 = 2 ^ 1 := rfl
      _ ≤ _ := Nat.pow_le_pow_right (by decide) (by omega)
  obtain ⟨st', p, q, RA, RB, pA, pB, kpq, res⟩ :=
    contractMPS_step hla hr cast castF d CA CB ca cb (w s a ha) (w t b hb) h1 hDD one
  have hp : p ∈ P s := pA.mem_iff.mpr (by simp)
  have hq : q ∈ P t := pB.mem_iff.mpr (by simp)
  have kqp := partner_symm r.sound.wf.inv kpq
  have rowS : ∀ y, y ≠ s → y ≠ t → cnt st (P s) (P y) = cnt st RA (P y) := by
    intro y c1 c2
    rw [cnt_perm pA, cnt_cons_zero kpq (r.apart (Ne.symm c2) hq)]
  have rowT : ∀ y, y ≠ s → y ≠ t → cnt st (P t) (P y) = cnt st RB (P y) := by
    intro y c1 c2
    rw [cnt_perm pB, cnt_cons_zero kqp (r.apart (Ne.symm c1) hp)]
  have szA : (P s).length = RA.length + 1 := by rw [pA.length_eq, List.length_cons]
  have szB : (P t).length = RB.length + 1 := by rw [pB.length_eq, List.length_cons]
  -- the new element
  have build : ∀ (c : Slot R) (PC : List LegId), Step st (a.tensors ++ b.tensors) st' c.sites → SlotOK chi st' PC c →
      PC.length ≤ RA.length + RB.length → (∀ m, c = .mps m → Within st' m.tensors (D ^ 2 ^ 1)) →
      (∀ y, y ≠ s → y ≠ t → cnt st' PC (P y) = cnt st (P s) (P y) + cnt st (P t) (P y)) →
      ∃ P', Step st (flat ms) st' (flat ((ms.set (min s t) c).set (max s t) .gone)) ∧
      Rows chi st' ((ms.set (min s t) c).set (max s t) .gone) P' ∧
      (∀ y, y ≠ s → y ≠ t → cnt st' (P' (min s t)) (P' y) = cnt st (P s) (P y) + cnt st (P t) (P y)) ∧
      ∀ x y, x ≠ s → x ≠ t → y ≠ s → y ≠ t → cnt st' (P' x) (P' y) = cnt st (P x) (P y) := by
    intro c PC f okc sz wc row
    have par : ∀ k, ∀ p ∈ P k, st'.partner p = st.partner p := fun k p hp => (f.kept p (r.old hp)).2.2
    have fin : ∀ {i j : Nat}, min s t = i → max s t = j → (i = s ∧ j = t ∨ i = t ∧ j = s) →
        (Step st (flat ms) st' (flat ((ms.set i c).set j .gone)) ∧ Rows chi st' ((ms.set i c).set j .gone) (update2 P i j PC [])) →
        ∃ P', Step st (flat ms) st' (flat ((ms.set (min s t) c).set (max s t) .gone)) ∧
        Rows chi st' ((ms.set (min s t) c).set (max s t) .gone) P' ∧
        (∀ y, y ≠ s → y ≠ t → cnt st' (P' (min s t)) (P' y) = cnt st (P s) (P y) + cnt st (P t) (P y)) ∧
        ∀ x y, x ≠ s → x ≠ t → y ≠ s → y ≠ t → cnt st' (P' x) (P' y) = cnt st (P x) (P y) := by
      rintro i j hi hj hc ⟨f', r'⟩
      rw [hi, hj]
      have hne : i ≠ j := by rcases hc with ⟨rfl, rfl⟩ | ⟨rfl, rfl⟩; exacts [hst, Ne.symm hst]
      have oth : ∀ y, y ≠ s → y ≠ t → update2 P i j PC [] y = P y := by
        intro y c1 c2
        unfold update2
        rcases hc with ⟨rfl, rfl⟩ | ⟨rfl, rfl⟩
        · rw [if_neg c2, if_neg c1]
        · rw [if_neg c1, if_neg c2]
      have own : update2 P i j PC [] i = PC := by unfold update2; rw [if_neg hne, if_pos rfl]
      refine ⟨_, f', r', ?_, ?_⟩
      · intro y c1 c2
        rw [own, oth y c1 c2]; exact row y c1 c2
      · intro x y c1 c2 c3 c4
        rw [oth x c1 c2, oth y c3 c4]
        exact cnt_congr (par x) _
    have f0 : Step st (a.tensors ++ b.tensors) st' (c.sites ++ (Slot.gone : Slot R).sites) := by
      rw [show (Slot.gone : Slot R).sites = [] from rfl, List.append_nil]; exact f
    rcases Nat.lt_or_gt_of_ne hst with lt | lt
    · refine fin (i := s) (j := t) (by omega) (by omega) (.inl ⟨rfl, rfl⟩) ?_
      exact r.update ha hb hst (x := c) (y := .gone) f0 okc rfl (k := 1) h1 big w (by simp only [List.length_nil]; omega) wc
        (fun m hm => by cases hm)
    · refine fin (i := t) (j := s) (by omega) (by omega) (.inr ⟨rfl, rfl⟩) ?_
      exact r.update hb ha (Ne.symm hst) (x := c) (y := .gone) (f0.perm List.perm_append_comm (.refl _)) okc rfl (k := 1) h1 big w
        (by simp only [List.length_nil]; omega) wc (fun m hm => by cases hm)
  rcases res with ⟨rfl, rfl, u, e, f, l0⟩ | ⟨pos, m, e, f, C, cm, W⟩
  · obtain ⟨P', h⟩ := build (.tensor u) [] f ⟨l0, rfl⟩ (Nat.zero_le _) (fun m hm => by cases hm) (by
      intro y c1 c2
      rw [rowS y c1 c2, rowT y c1 c2]
      rfl)
    refine ⟨st', _, P', e, h.1, h.2.1, .inl ⟨u, rfl, ?_⟩, h.2.2⟩
    intro y c1 c2
    rw [rowS y c1 c2, rowT y c1 c2]
    exact ⟨rfl, rfl⟩
  · obtain ⟨P', h⟩ := build (.mps m) (RA ++ RB) f ⟨C, cm, by
        rw [← List.length_pos_iff, ← C.length_eq, List.length_append]; exact pos⟩ (by rw [List.length_append])
      (fun m' hm => by cases hm; rw [show D ^ 2 ^ 1 = D * D from Nat.pow_two D]; exact W) (by
        intro y c1 c2
        rw [rowS y c1 c2, rowT y c1 c2, cnt_append]
        have pa : ∀ x ∈ RA, st'.partner x = st.partner x := fun x hx =>
          (f.kept x (r.old (pA.mem_iff.mpr (List.mem_cons_of_mem _ hx)))).2.2
        have pb : ∀ x ∈ RB, st'.partner x = st.partner x := fun x hx =>
          (f.kept x (r.old (pB.mem_iff.mpr (List.mem_cons_of_mem _ hx)))).2.2
        rw [cnt_congr pa, cnt_congr pb])
    exact ⟨st', _, P', e, h.1, h.2.1, .inr ⟨m, rfl⟩, h.2.2⟩

/-- The elements in `live` are the ones present; they are chains with at most one bond between two of them. -/
structure Tidy (J : Nat → Nat → Prop) (st : Store) (ms : List (Slot R)) (P : Nat → List LegId) (live : List Nat)
    (g : Nat → List Nat) : Prop where
  nodup : live.Nodup
  zero : 0 ∈ live
  gone : ∀ k, k ∉ live → ms.getD k .gone = .gone
  present : ∀ k ∈ live, ∃ x, ms[k]? = some x ∧ x.present = true
  mps : 2 ≤ live.length → ∀ k ∈ live, IsMPS ms k
  one : ∀ x ∈ live, ∀ y ∈ live, x ≠ y → cnt st (P x) (P y) ≤ 1
  links : ∀ x ∈ live, ∀ y ∈ live, x ≠ y → (0 < cnt st (P x) (P y) ↔ ∃ i ∈ g x, ∃ j ∈ g y, J i j)

/-- In a sequence of steps along bonds every element has a bond to another one as long as there are two. -/
theorem linked_neighbour {J : Nat → Nat → Prop} (sym : ∀ i j, J i j → J j i) : ∀ (seq : List (Nat × Nat)) (live : List Nat)
    (g : Nat → List Nat), live.Nodup → validFrom live seq → stepsJoined J g seq → 2 ≤ live.length →
    ∀ x ∈ live, ∃ y ∈ live, y ≠ x ∧ ∃ i ∈ g x, ∃ j ∈ g y, J i j
  | [], live, g, _, hv, _, two, x, _ => by
    have : live.length = 1 := hv
    omega
  | (s, t) :: seq, live, g, nd, ⟨hs, ht, hst, hv⟩, ⟨⟨i, hi, j, hj, hJ⟩, hw⟩, two, x, hx => by
    by_cases c1 : x = s
    · subst c1; exact ⟨t, ht, Ne.symm hst, i, hi, j, hj, hJ⟩
    by_cases c2 : x = t
    · subst c2; exact ⟨s, hs, hst, j, hj, i, hi, sym _ _ hJ⟩
    have hm : max s t ∈ live := by rcases max_choice s t with h | h <;> rw [h] <;> assumption
    have hn : min s t ∈ live := by rcases min_choice s t with h | h <;> rw [h] <;> assumption
    have nm : min s t ≠ max s t := by omega
    have xm : x ≠ max s t := by omega
    have xn : x ≠ min s t := by omega
    have mem : ∀ k, k ∈ live.erase (max s t) ↔ k ≠ max s t ∧ k ∈ live := fun k => nd.mem_erase_iff
    have len : 2 ≤ (live.erase (max s t)).length := by
      have h1 : [x, min s t] ⊆ live.erase (max s t) := by
        intro k hk
        rw [mem]
        simp only [List.mem_cons, List.not_mem_nil, or_false] at hk
        rcases hk with rfl | rfl
        · exact ⟨xm, hx⟩
        · exact ⟨nm, hn⟩
      have h2 : [x, min s t].Nodup := by simp [xn]
      simpa using (h2.subperm h1).length_le
    obtain ⟨y, hy, hyx, i', hi', j', hj', hJ'⟩ := linked_neighbour sym seq _ _ (nd.erase _) hv hw len x ((mem x).mpr ⟨xm, hx⟩)
    rw [if_neg xn] at hi'
    by_cases cy : y = min s t
    · rw [if_pos cy] at hj'
      rcases List.mem_append.mp hj' with h | h
      · exact ⟨s, hs, Ne.symm c1, i', hi', j', h, hJ'⟩
      · exact ⟨t, ht, Ne.symm c2, i', hi', j', h, hJ'⟩
    · rw [if_neg cy] at hj'
      exact ⟨y, ((mem y).mp hy).2, hyx, i', hi', j', hj', hJ'⟩

/-- The groups after a step. -/
def regroup (g : Nat → List Nat) (s t : Nat) : Nat → List Nat := fun k => if k = min s t then g s ++ g t else g k

/-- One round of the loop over the sequence: a result without legs must not be followed by another step. -/
theorem contractSlots_main [Field R] [StarRing R] {la : LinAlg R} (hla : GoodAlg la) (cast castF : R → R) {J : Nat → Nat → Prop}
    (sym : ∀ i j, J i j → J j i)
    {chi : Nat} {st : Store} {ms : List (Slot R)} {P : Nat → List LegId} {live : List Nat} {g : Nat → List Nat}
    (r : Rows chi st ms P) (h : Tidy J st ms P live g) {s t : Nat} (hs : s ∈ live) (ht : t ∈ live) (hst : s ≠ t)
    (hJ : ∃ i ∈ g s, ∃ j ∈ g t, J i j) :
    (∃ st' ms' P', contractSlots la cast castF (st, ms) (s, t) = .ok (st', ms') ∧ Step st (flat ms) st' (flat ms') ∧
      Rows chi st' ms' P' ∧ ms'.length = ms.length ∧ Tidy J st' ms' P' (live.erase (max s t)) (regroup g s t)) ∨
    (contractSlots la cast castF (st, ms) (s, t) = .error .attributeError ∧ 2 ≤ (live.erase (max s t)).length ∧
      ∀ y ∈ live.erase (max s t), y ≠ min s t → ¬ ∃ i ∈ regroup g s t (min s t), ∃ j ∈ regroup g s t y, J i j) := by
  have two : 2 ≤ live.length := by
    have h1 : [s, t] ⊆ live := by intro k hk; simp at hk; rcases hk with rfl | rfl <;> assumption
    have h2 : [s, t].Nodup := by simp [hst]
    simpa using (h2.subperm h1).length_le
  obtain ⟨a, ha⟩ := h.mps two s hs
  obtain ⟨b, hb⟩ := h.mps two t ht
  have hs' := (List.getElem?_eq_some_iff.mp ha).1
  have ht' := (List.getElem?_eq_some_iff.mp hb).1
  have one : cnt st (P s) (P t) = 1 := by
    have h1 := h.one s hs t ht hst
    have h2 := (h.links s hs t ht hst).mpr hJ
    omega
  obtain ⟨st1, c, P1, e1, f1, r1, kind, row, rest⟩ := contractPair_rows hla.exact hla.rank cast castF r hst ha hb one
  have hmx : max s t ∈ live := by rcases max_choice s t with h | h <;> rw [h] <;> assumption
  have hmn : min s t ∈ live := by rcases min_choice s t with h | h <;> rw [h] <;> assumption
  have nm : min s t ≠ max s t := by omega
  have ln : min s t < ms.length := by omega
  have lx : max s t < ms.length := by omega
  have mem : ∀ k, k ∈ live.erase (max s t) ↔ k ≠ max s t ∧ k ∈ live := fun k => h.nodup.mem_erase_iff
  have off : ∀ {k}, k ∈ live.erase (max s t) → k ≠ min s t → k ∈ live ∧ k ≠ s ∧ k ≠ t := by
    intro k hk hne
    have := (mem k).mp hk
    exact ⟨this.2, by omega, by omega⟩
  set ms1 := (ms.set (min s t) c).set (max s t) .gone with hms1
  have get1 : ∀ k, ms1[k]? = if k = max s t then some .gone else if k = min s t then some c else ms[k]? := fun k =>
    getElem?_set2 ln lx c .gone k
  have len1 : ms1.length = ms.length := by rw [hms1]; simp
  have cPres : c.present = true := by
    rcases kind with ⟨u, rfl, -⟩ | ⟨m, rfl⟩ <;> rfl
  have pres1 : ∀ k, k < ms1.length → ((ms1.getD k .gone).present = true ↔ k ∈ live.erase (max s t)) := by
    intro k hk
    rw [List.getD_eq_getElem?_getD, get1]
    by_cases c1 : k = max s t
    · rw [if_pos c1, mem]
      exact ⟨fun h => (by cases h), fun h => absurd c1 h.1⟩
    · rw [if_neg c1]
      by_cases c2 : k = min s t
      · rw [if_pos c2, mem, c2]
        exact ⟨fun _ => ⟨nm, hmn⟩, fun _ => cPres⟩
      · rw [if_neg c2, mem]
        by_cases hk : k ∈ live
        · obtain ⟨x, hx, hp⟩ := h.present k hk
          rw [hx]
          exact ⟨fun _ => ⟨c1, hk⟩, fun _ => hp⟩
        · have := h.gone k hk
          rw [List.getD_eq_getElem?_getD] at this
          rw [this]
          exact ⟨fun h => (by cases h), fun h => absurd h.2 hk⟩
  set ps := ((List.range ms1.length).filter fun i => i ≠ min s t && (ms1.getD i .gone).present).map fun i => (min s t, i) with hps
  have memps : ∀ x y, (x, y) ∈ ps ↔ x = min s t ∧ y ≠ min s t ∧ y ∈ live.erase (max s t) := by
    intro x y
    rw [hps, List.mem_map]
    constructor
    · rintro ⟨k, hk, e⟩
      rw [List.mem_filter, List.mem_range] at hk
      simp only [Prod.mk.injEq] at e
      obtain ⟨rfl, rfl⟩ := e
      simp only [ne_eq, decide_not, Bool.and_eq_true, Bool.not_eq_true', decide_eq_false_iff_not] at hk
      exact ⟨rfl, hk.2.1, (pres1 k hk.1).mp hk.2.2⟩
    · rintro ⟨rfl, h1, h2⟩
      obtain ⟨hl, -, -⟩ := off h2 h1
      obtain ⟨m, hm⟩ := h.mps two y hl
      have hy : y < ms1.length := by rw [len1]; exact (List.getElem?_eq_some_iff.mp hm).1
      refine ⟨y, ?_, rfl⟩
      rw [List.mem_filter, List.mem_range]
      refine ⟨hy, ?_⟩
      simp only [ne_eq, decide_not, Bool.and_eq_true, Bool.not_eq_true', decide_eq_false_iff_not]
      exact ⟨h1, (pres1 y hy).mpr h2⟩
  by_cases bad : (∃ k ∈ live.erase (max s t), k ≠ min s t) ∧ ∃ u, c = .tensor u
  · obtain ⟨⟨k, hk, hne⟩, u, rfl⟩ := bad
    right
    refine ⟨?_, ?_, ?_⟩
    · unfold contractSlots
      simp only [ha, hb, e1, bind, Except.bind]
      show List.foldlM _ (st1, ms1) ps = _
      have hmem := (memps (min s t) k).mpr ⟨rfl, hne, hk⟩
      match hq : ps, hmem with
      | (x, y) :: qs, _ =>
        obtain ⟨rfl, h1, h2⟩ := (memps x y).mp (by simp)
        obtain ⟨hl, y1, y2⟩ := off h2 h1
        obtain ⟨m, hm⟩ := h.mps two y hl
        rw [List.foldlM_cons]
        have g1 : ms1[min s t]? = some (.tensor u) := by rw [get1, if_neg nm, if_pos rfl]
        have g2 : ms1[y]? = some (.mps m) := by rw [get1, if_neg ((mem y).mp h2).1, if_neg h1, hm]
        have : mergeSlots la cast castF false (st1, ms1) (min s t, y) = .error .attributeError := by
          unfold mergeSlots
          simp only [g1, g2]
        rw [this]
        rfl
    · have h1 : [k, min s t] ⊆ live.erase (max s t) := by
        intro x hx
        simp only [List.mem_cons, List.not_mem_nil, or_false] at hx
        rcases hx with rfl | rfl
        · exact hk
        · exact (mem _).mpr ⟨nm, hmn⟩
      have h2 : [k, min s t].Nodup := by simp [hne]
      simpa using (h2.subperm h1).length_le
    · rintro y hy hyn ⟨i, hi, j, hj, hij⟩
      obtain ⟨hyl, y1, y2⟩ := off hy hyn
      rcases kind with ⟨u', -, z⟩ | ⟨m, hm⟩
      · unfold regroup at hi hj
        rw [if_pos rfl] at hi
        rw [if_neg hyn] at hj
        obtain ⟨z1, z2⟩ := z y y1 y2
        rcases List.mem_append.mp hi with hi | hi
        · have := (h.links s hs y hyl (Ne.symm y1)).mpr ⟨i, hi, j, hj, hij⟩
          omega
        · have := (h.links t ht y hyl (Ne.symm y2)).mpr ⟨i, hi, j, hj, hij⟩
          omega
      · cases hm
  left
  have isM : ∀ k ∈ live.erase (max s t), k ≠ min s t → ∃ m, c = .mps m := by
    intro k hk hne
    rcases kind with ⟨u, hu, -⟩ | hm
    · exact absurd ⟨⟨k, hk, hne⟩, u, hu⟩ bad
    · exact hm
  have mps1 : ∀ k ∈ live.erase (max s t), (∃ k' ∈ live.erase (max s t), k' ≠ min s t) → IsMPS ms1 k := by
    rintro k hk ⟨k', hk', hne'⟩
    obtain ⟨m, hm⟩ := isM k' hk' hne'
    by_cases c1 : k = min s t
    · exact ⟨m, by rw [get1, if_neg (by omega), if_pos c1, hm]⟩
    · obtain ⟨hl, -, -⟩ := off hk c1
      obtain ⟨m', hm'⟩ := h.mps two k hl
      exact ⟨m', by rw [get1, if_neg ((mem k).mp hk).1, if_neg c1, hm']⟩
  obtain ⟨st2, ms2, P2, e2, f2, r2, n2, o2, k2, c2⟩ := mergeFold_rows hla cast castF (flag := false) ps r1 (by
    rintro ⟨x, y⟩ hp
    obtain ⟨rfl, h1, h2⟩ := (memps x y).mp hp
    obtain ⟨hl, y1, y2⟩ := off h2 h1
    refine ⟨Ne.symm h1, mps1 _ ((mem _).mpr ⟨nm, hmn⟩) ⟨y, h2, h1⟩, mps1 _ h2 ⟨y, h2, h1⟩, .inr ?_⟩
    dsimp only
    rw [row y y1 y2]
    have := h.one s hs y hl (Ne.symm y1)
    have := h.one t ht y hl (Ne.symm y2)
    omega)
  have cntOther : ∀ x ∈ live.erase (max s t), ∀ y ∈ live.erase (max s t), x ≠ y → x ≠ min s t → y ≠ min s t →
      cnt st2 (P2 x) (P2 y) = cnt st (P x) (P y) := by
    intro x hx y hy hxy x1 y1
    obtain ⟨-, x2, x3⟩ := off hx x1
    obtain ⟨-, y2, y3⟩ := off hy y1
    rw [c2 x y hxy, if_neg, rest x y x2 x3 y2 y3]
    rw [memps, memps]
    rintro (⟨h1, -⟩ | ⟨h1, -⟩)
    · exact x1 h1
    · exact y1 h1
  have cntLoc : ∀ y ∈ live.erase (max s t), y ≠ min s t →
      cnt st2 (P2 (min s t)) (P2 y) = min (cnt st (P s) (P y) + cnt st (P t) (P y)) 1 := by
    intro y hy y1
    obtain ⟨-, y2, y3⟩ := off hy y1
    rw [c2 _ y (Ne.symm y1), if_pos (.inl ((memps _ _).mpr ⟨rfl, y1, hy⟩)), row y y2 y3]
  have linkLoc : ∀ y ∈ live.erase (max s t), y ≠ min s t →
      (0 < cnt st2 (P2 (min s t)) (P2 y) ↔ ∃ i ∈ regroup g s t (min s t), ∃ j ∈ regroup g s t y, J i j) := by
    intro y hy y1
    obtain ⟨hl, y2, y3⟩ := off hy y1
    rw [cntLoc y hy y1]
    have l1 := h.links s hs y hl (Ne.symm y2)
    have l2 := h.links t ht y hl (Ne.symm y3)
    unfold regroup
    rw [if_pos rfl, if_neg y1]
    constructor
    · intro hp
      have : 0 < cnt st (P s) (P y) ∨ 0 < cnt st (P t) (P y) := by omega
      rcases this with q | q
      · obtain ⟨i, hi, hh⟩ := l1.mp q
        exact ⟨i, List.mem_append_left _ hi, hh⟩
      · obtain ⟨i, hi, hh⟩ := l2.mp q
        exact ⟨i, List.mem_append_right _ hi, hh⟩
    · rintro ⟨i, hi, hh⟩
      rcases List.mem_append.mp hi with hi | hi
      · have := l1.mpr ⟨i, hi, hh⟩; omega
      · have := l2.mpr ⟨i, hi, hh⟩; omega
  refine ⟨st2, ms2, P2, ?_, f1.trans f2, r2, n2.trans len1, ⟨h.nodup.erase _, ?_, ?_, ?_, ?_, ?_, ?_⟩⟩
  · unfold contractSlots
    simp only [ha, hb, e1, bind, Except.bind]
    exact e2
  · rw [mem]; exact ⟨by omega, h.zero⟩
  · intro k hk
    rw [List.getD_eq_getElem?_getD, o2 k, get1]
    · by_cases c1 : k = max s t
      · rw [if_pos c1]; rfl
      · rw [if_neg c1]
        have hk' : k ∉ live := fun hh => hk ((mem k).mpr ⟨c1, hh⟩)
        have hne : k ≠ min s t := fun hh => hk' (hh ▸ hmn)
        rw [if_neg hne, ← List.getD_eq_getElem?_getD]
        exact h.gone k hk'
    · rintro ⟨x, y⟩ hp
      obtain ⟨rfl, h1, h2⟩ := (memps x y).mp hp
      exact ⟨fun e => hk (e ▸ (mem _).mpr ⟨nm, hmn⟩), fun e => hk (e ▸ h2)⟩
  · intro k hk
    by_cases hm : IsMPS ms1 k
    · obtain ⟨m, hm⟩ := (k2 k).mpr hm
      exact ⟨_, hm, rfl⟩
    · have no : ∀ k' ∈ live.erase (max s t), k' = min s t := by
        intro k' hk'
        by_contra hne
        exact hm (mps1 k hk ⟨k', hk', hne⟩)
      refine ⟨c, ?_, cPres⟩
      rw [o2 k, get1, no k hk, if_neg nm, if_pos rfl]
      rintro ⟨x, y⟩ hp
      obtain ⟨rfl, h1, h2⟩ := (memps x y).mp hp
      exact absurd (no y h2) h1
  · intro len k hk
    rw [k2]
    refine mps1 k hk ?_
    by_contra no
    push Not at no
    have sub : live.erase (max s t) ⊆ [min s t] := fun x hx => by rw [no x hx]; simp
    have := ((h.nodup.erase _).subperm sub).length_le
    simp only [List.length_singleton] at this
    omega
  · intro x hx y hy hxy
    by_cases x1 : x = min s t
    · subst x1
      rw [cntLoc y hy (Ne.symm hxy)]; omega
    · by_cases y1 : y = min s t
      · subst y1
        rw [r2.symm, cntLoc x hx x1]; omega
      · rw [cntOther x hx y hy hxy x1 y1]
        exact h.one x ((mem x).mp hx).2 y ((mem y).mp hy).2 hxy
  · intro x hx y hy hxy
    by_cases x1 : x = min s t
    · subst x1; exact linkLoc y hy (Ne.symm hxy)
    · by_cases y1 : y = min s t
      · subst y1
        rw [r2.symm, linkLoc x hx x1]
        exact ⟨fun ⟨i, hi, j, hj, hij⟩ => ⟨j, hj, i, hi, sym _ _ hij⟩, fun ⟨i, hi, j, hj, hij⟩ => ⟨j, hj, i, hi, sym _ _ hij⟩⟩
      · rw [cntOther x hx y hy hxy x1 y1]
        unfold regroup
        rw [if_neg x1, if_neg y1]
        exact h.links x ((mem x).mp hx).2 y ((mem y).mp hy).2 hxy

/-- One round of the loop over the sequence. -/
theorem contractSlots_step [Field R] [StarRing R] {la : LinAlg R} (hla : GoodAlg la) (cast castF : R → R) {J : Nat → Nat → Prop}
    (sym : ∀ i j, J i j → J j i)
    {chi : Nat} {st : Store} {ms : List (Slot R)} {P : Nat → List LegId} {live : List Nat} {g : Nat → List Nat}
    (r : Rows chi st ms P) (h : Tidy J st ms P live g) {s t : Nat} (hs : s ∈ live) (ht : t ∈ live) (hst : s ≠ t)
    (hJ : ∃ i ∈ g s, ∃ j ∈ g t, J i j)
    (next : 2 ≤ (live.erase (max s t)).length → ∃ y ∈ live.erase (max s t), y ≠ min s t ∧
      ∃ i ∈ regroup g s t (min s t), ∃ j ∈ regroup g s t y, J i j) :
    ∃ st' ms' P', contractSlots la cast castF (st, ms) (s, t) = .ok (st', ms') ∧ Step st (flat ms) st' (flat ms') ∧
      Rows chi st' ms' P' ∧ ms'.length = ms.length ∧ Tidy J st' ms' P' (live.erase (max s t)) (regroup g s t) := by
  rcases contractSlots_main hla cast castF sym r h hs ht hst hJ with h | ⟨-, two, no⟩
  · exact h
  · obtain ⟨y, hy, hne, hh⟩ := next two
    exact absurd hh (no y hy hne)

/-- The loop over a sequence of steps along bonds. -/
theorem contractLoop_step [Field R] [StarRing R] {la : LinAlg R} (hla : GoodAlg la) (cast castF : R → R) {J : Nat → Nat → Prop}
    (sym : ∀ i j, J i j → J j i) {chi : Nat} : ∀ (seq : List (Nat × Nat)) {st : Store} {ms : List (Slot R)} {P : Nat → List LegId}
    {live : List Nat} {g : Nat → List Nat}, Rows chi st ms P → Tidy J st ms P live g → validFrom live seq → stepsJoined J g seq →
    ∃ st' ms' P' g', seq.foldlM (contractSlots la cast castF) (st, ms) = .ok (st', ms') ∧ Step st (flat ms) st' (flat ms') ∧
      Rows chi st' ms' P' ∧ ms'.length = ms.length ∧ Tidy J st' ms' P' [0] g'
  | [], st, ms, P, live, g, r, h, hv, _ => by
    have : live.length = 1 := hv
    obtain ⟨x, rfl⟩ := List.length_eq_one_iff.mp this
    have := List.mem_singleton.mp h.zero
    subst this
    exact ⟨st, ms, P, g, rfl, .refl r.sound.wf r.sound.dense r.sound.goodNet, r, rfl, h⟩
  | (s, t) :: seq, st, ms, P, live, g, r, h, ⟨hs, ht, hst, hv⟩, ⟨hJ, hw⟩ => by
    have hmn : min s t ∈ live.erase (max s t) := by
      rw [h.nodup.mem_erase_iff]
      refine ⟨by omega, ?_⟩
      rcases min_choice s t with h | h <;> rw [h] <;> assumption
    obtain ⟨st1, ms1, P1, e1, f1, r1, n1, h1⟩ := contractSlots_step hla cast castF sym r h hs ht hst hJ (fun two =>
      linked_neighbour sym seq _ (regroup g s t) (h.nodup.erase _) hv hw two _ hmn)
    obtain ⟨st2, ms2, P2, g2, e2, f2, r2, n2, h2⟩ := contractLoop_step hla cast castF sym seq r1 h1 hv hw
    refine ⟨st2, ms2, P2, g2, ?_, f1.trans f2, r2, n2.trans n1, h2⟩
    rw [List.foldlM_cons, e1]
    exact e2

/-- `contractMPS` refuses chains without a bond between them. -/
theorem contractSlots_unlinked [Field R] [StarRing R] {la : LinAlg R} (cast castF : R → R) {J : Nat → Nat → Prop}
    {chi : Nat} {st : Store} {ms : List (Slot R)} {P : Nat → List LegId} {live : List Nat} {g : Nat → List Nat}
    (r : Rows chi st ms P) (h : Tidy J st ms P live g) {s t : Nat} (hs : s ∈ live) (ht : t ∈ live) (hst : s ≠ t)
    (hJ : ¬ ∃ i ∈ g s, ∃ j ∈ g t, J i j) : contractSlots la cast castF (st, ms) (s, t) = .error .assertionError := by
  have two : 2 ≤ live.length := by
    have h1 : [s, t] ⊆ live := by intro k hk; simp at hk; rcases hk with rfl | rfl <;> assumption
    have h2 : [s, t].Nodup := by simp [hst]
    simpa using (h2.subperm h1).length_le
  obtain ⟨a, ha⟩ := h.mps two s hs
  obtain ⟨b, hb⟩ := h.mps two t ht
  have zero : cnt st (P s) (P t) = 0 := by
    by_contra hne
    exact hJ ((h.links s hs t ht hst).mp (by omega))
  obtain ⟨⟨lA, rA, CA⟩, -, -⟩ := r.mps ha
  obtain ⟨⟨lB, rB, CB⟩, -, -⟩ := r.mps hb
  obtain ⟨l, e0, hl, -⟩ := (r.duo ha hb hst).commonLegs_eq CA CB
  have hlen : l.length = 0 := by
    rw [← zero]
    unfold cnt
    rw [List.countP_eq_length_filter, ← hl, List.length_map]
  obtain rfl := List.length_eq_zero_iff.mp hlen
  unfold contractSlots contractMPS
  simp only [ha, hb, e0, bind, Except.bind]
  rfl

/-- A sequence with a step not along a bond is refused. -/
theorem contractLoop_fails [Field R] [StarRing R] {la : LinAlg R} (hla : GoodAlg la) (cast castF : R → R) {J : Nat → Nat → Prop}
    (sym : ∀ i j, J i j → J j i) {chi : Nat} : ∀ (seq : List (Nat × Nat)) {st : Store} {ms : List (Slot R)} {P : Nat → List LegId}
    {live : List Nat} {g : Nat → List Nat}, Rows chi st ms P → Tidy J st ms P live g → validFrom live seq → ¬ stepsJoined J g seq →
    seq.foldlM (contractSlots la cast castF) (st, ms) = .error .assertionError ∨
      seq.foldlM (contractSlots la cast castF) (st, ms) = .error .attributeError
  | [], st, ms, P, live, g, r, h, hv, no => absurd trivial no
  | (s, t) :: seq, st, ms, P, live, g, r, h, ⟨hs, ht, hst, hv⟩, no => by
    rw [List.foldlM_cons]
    by_cases hJ : ∃ i ∈ g s, ∃ j ∈ g t, J i j
    · rcases contractSlots_main hla cast castF sym r h hs ht hst hJ with ⟨st1, ms1, P1, e1, f1, r1, n1, h1⟩ | ⟨e, -, -⟩
      · rw [e1]
        exact contractLoop_fails hla cast castF sym seq r1 h1 hv fun hw => no ⟨hJ, hw⟩
      · rw [e]
        exact .inr rfl
    · rw [contractSlots_unlinked cast castF r h hs ht hst hJ]
      exact .inl rfl

end CTL
