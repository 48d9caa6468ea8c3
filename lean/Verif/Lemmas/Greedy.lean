import Verif.Lemmas.Capping
import Verif.Lemmas.Steps
import Verif.Lemmas.Contract
import Verif.Props.Lists

/-! Helper lemmas: the greedy search. -/

namespace CTL
variable {G : TGraph}

theorem greedyPick_spec (res : Slots) (ps : List (Nat × Nat)) : ∀ best : Best,
    (∀ c a b, ps.foldl (greedyPick res) best = some (c, a, b) → best = some (c, a, b) ∨
      ((a, b) ∈ ps ∧ isSharingBond (res a) (res b) = true ∧
        c = tupleProduct (calcRes (res a) (res b)).shape)) ∧
    (∀ m, BestLe best m → BestLe (ps.foldl (greedyPick res) best) m) ∧
    (∀ p ∈ ps, isSharingBond (res p.1) (res p.2) = true →
      BestLe (ps.foldl (greedyPick res) best) (tupleProduct (calcRes (res p.1) (res p.2)).shape)) := by
  induction ps with
  | nil => intro best; exact ⟨fun c a b h => Or.inl h, fun m h => h, by simp⟩
  | cons p ps ih =>
    intro best
    rw [List.foldl_cons]
    obtain ⟨i1, i2, i3⟩ := ih (greedyPick res best p)
    have hb : (∀ m, BestLe best m → BestLe (greedyPick res best p) m) ∧ (isSharingBond (res p.1) (res p.2) = true →
        BestLe (greedyPick res best p) (tupleProduct (calcRes (res p.1) (res p.2)).shape)) := by
      unfold greedyPick
      by_cases h : isSharingBond (res p.1) (res p.2) = true
      · rw [if_pos h]
        exact ⟨better_le.2, fun _ => better_le.1⟩
      · rw [if_neg h]
        exact ⟨fun m h => h, fun h' => absurd h' h⟩
    refine ⟨?_, fun m h => i2 m (hb.1 m h), ?_⟩
    · intro c a b h
      rcases i1 c a b h with h | ⟨h1, h2⟩
      · unfold greedyPick at h
        by_cases hs : isSharingBond (res p.1) (res p.2) = true
        · rw [if_pos hs] at h
          have hbet : better best (tupleProduct (calcRes (res p.1) (res p.2)).shape) p.1 p.2 = best ∨
              better best (tupleProduct (calcRes (res p.1) (res p.2)).shape) p.1 p.2
                = some (tupleProduct (calcRes (res p.1) (res p.2)).shape, p.1, p.2) := by
            unfold better
            cases best with
            | none => exact Or.inr rfl
            | some t => simp only; split <;> simp
          rcases hbet with e | e
          · rw [e] at h; exact Or.inl h
          · rw [e] at h
            simp only [Option.some.injEq, Prod.mk.injEq] at h
            obtain ⟨rfl, rfl, rfl⟩ := h
            exact Or.inr ⟨by simp, hs, rfl⟩
        · rw [if_neg hs] at h
          exact Or.inl h
      · exact Or.inr ⟨by simp [h1], h2⟩
    · intro q hq hs
      rw [List.mem_cons] at hq
      rcases hq with rfl | hq
      · exact i2 _ (hb.2 hs)
      · exact i3 q hq hs

/-- The state of the greedy search: `tr` is the tree contracted into each live slot. -/
structure GInv (G : TGraph) (ts : List Nat) (res : Slots) (tr : Nat → CTree) : Prop where
  sorted : ts.Pairwise (· < ·)
  good : ∀ a ∈ ts, Good G (tr a)
  res : ∀ a ∈ ts, ResOK G (tr a).verts (res a)
  disj : ∀ a ∈ ts, ∀ b ∈ ts, a ≠ b → Disjoint (tr a).verts (tr b).verts
  cover : ∀ i, i < G.n → ∃ a ∈ ts, i ∈ (tr a).verts
  conn : ∀ a ∈ ts, ∀ i ∈ (tr a).verts, ∀ j ∈ (tr a).verts, Relation.ReflTransGen G.Adj i j

theorem size_calcRes (h2 : G.TwoEnds) {S T : Finset Nat} (hS : ∀ i ∈ S, i < G.n) (hT : ∀ i ∈ T, i < G.n)
    (hd : Disjoint S T) {a b : CRes} (ha : ResOK G S a) (hb : ResOK G T b) :
    tupleProduct (calcRes a b).shape = G.size (S ∪ T) := by
  have h := calcRes_ok h2 hS hT hd ha hb
  rw [h.shape, tupleProduct_eq, prod_map_toFinset h.nodup, h.edges]
  rfl

theorem pair_sorted {ts : List Nat} (h : ts.Pairwise (· < ·)) {a b : Nat} (hm : (a, b) ∈ pairIterator ts) :
    a ∈ ts ∧ b ∈ ts ∧ a < b := by
  obtain ⟨i, j, hij, h1, h2⟩ := (C37_pairIterator_mem ts a b).mp hm
  refine ⟨List.mem_of_getElem? h1, List.mem_of_getElem? h2, ?_⟩
  obtain ⟨hi, rfl⟩ := List.getElem?_eq_some_iff.mp h1
  obtain ⟨hj, rfl⟩ := List.getElem?_eq_some_iff.mp h2
  exact List.pairwise_iff_getElem.mp h i j hi hj hij

theorem pair_of_sorted {ts : List Nat} (h : ts.Pairwise (· < ·)) {a b : Nat} (ha : a ∈ ts) (hb : b ∈ ts) (hab : a < b) :
    (a, b) ∈ pairIterator ts := by
  obtain ⟨i, hi, rfl⟩ := List.getElem_of_mem ha
  obtain ⟨j, hj, rfl⟩ := List.getElem_of_mem hb
  rw [C37_pairIterator_mem]
  refine ⟨i, j, ?_, List.getElem?_eq_getElem hi, List.getElem?_eq_getElem hj⟩
  by_contra hn
  rcases Nat.eq_or_lt_of_le (Nat.le_of_not_lt hn) with e | e
  · subst e; omega
  · have := List.pairwise_iff_getElem.mp h j i hj hi e
    omega

/-- In a connected graph two of the remaining tensors have a common edge. -/
theorem exists_sharing (h2 : G.TwoEnds) (hc : G.Connected) {ts : List Nat} {res : Slots} {tr : Nat → CTree}
    (inv : GInv G ts res tr) (hl : 1 < ts.length) :
    ∃ a ∈ ts, ∃ b ∈ ts, a ≠ b ∧ ¬ Disjoint (G.openEdges (tr a).verts) (G.openEdges (tr b).verts) := by
  obtain ⟨x, y, ts', rfl⟩ : ∃ x y ts', ts = x :: y :: ts' := by
    match ts, hl with
    | x :: y :: ts', _ => exact ⟨x, y, ts', rfl⟩
  have hxy : x ≠ y := by
    have := (List.pairwise_cons.mp inv.sorted).1 y (by simp)
    omega
  obtain ⟨i, hi⟩ := verts_nonempty (tr x)
  obtain ⟨j, hj⟩ := verts_nonempty (tr y)
  have hx : x ∈ x :: y :: ts' := by simp
  have hy : y ∈ x :: y :: ts' := by simp
  have hin : i < G.n := Proper.lt (inv.good x hx).1 i hi
  have hjn : j < G.n := Proper.lt (inv.good y hy).1 j hj
  have hjx : j ∉ (tr x).verts := fun h => Finset.disjoint_left.mp (inv.disj x hx y hy hxy) h hj
  -- a path that leaves the group crosses its border
  have cross : ∀ u, Relation.ReflTransGen G.Adj i u → u ∉ (tr x).verts →
      ∃ p q, p ∈ (tr x).verts ∧ q ∉ (tr x).verts ∧ G.Adj p q := by
    intro u hu
    induction hu with
    | refl => intro h; exact absurd hi h
    | @tail b c _ hbc ih =>
      intro hcx
      by_cases hb : b ∈ (tr x).verts
      · exact ⟨b, c, hb, hcx, hbc⟩
      · exact ih hb
  obtain ⟨p, q, hp, hq, hpn, hqn, e, hep, heq⟩ := cross j (hc i j hin hjn) hjx
  obtain ⟨z, hz, hqz⟩ := inv.cover q hqn
  refine ⟨x, hx, z, hz, ?_, ?_⟩
  · rintro rfl; exact hq hqz
  · rw [Finset.not_disjoint_iff]
    refine ⟨e, ?_, ?_⟩
    · rw [mem_openEdges]
      refine ⟨p, hp, hep, ?_⟩
      intro k hk hek
      have hkn := Proper.lt (inv.good x hx).1 k hk
      rcases h2 e k p q hkn hpn hqn hek hep heq with h | h | h
      · exact h
      · subst h; exact absurd hk hq
      · subst h; exact absurd hp hq
    · rw [mem_openEdges]
      refine ⟨q, hqz, heq, ?_⟩
      intro k hk hek
      have hkn := Proper.lt (inv.good z hz).1 k hk
      have hzx : z ≠ x := by rintro rfl; exact hq hqz
      rcases h2 e k q p hkn hqn hpn hek heq hep with h | h | h
      · exact h
      · subst h; exact absurd hp (fun hp => Finset.disjoint_left.mp (inv.disj z hz x hx hzx) hk hp)
      · subst h; exact absurd hp hq

theorem adj_symm {i j : Nat} (h : G.Adj i j) : G.Adj j i := ⟨h.2.1, h.1, h.2.2.imp fun _ h => h.symm⟩

theorem reach_symm {i j : Nat} (h : Relation.ReflTransGen G.Adj i j) : Relation.ReflTransGen G.Adj j i := by
  induction h with
  | refl => exact .refl
  | tail _ h ih => exact .trans (.single (adj_symm h)) ih

/-- One step of the search. -/
theorem ginv_step (h2 : G.TwoEnds) {ts : List Nat} {res : Slots} {tr : Nat → CTree}
    (inv : GInv G ts res tr) {a b : Nat} (ha : a ∈ ts) (hb : b ∈ ts) (hab : a < b)
    (hs : ¬ Disjoint (G.openEdges (tr a).verts) (G.openEdges (tr b).verts)) :
    GInv G (ts.erase b) (upd res a (calcRes (res a) (res b))) (upd tr a (.node (tr a) (tr b))) := by
  have nd : ts.Nodup := inv.sorted.imp (fun h => Nat.ne_of_lt h)
  have hmem : ∀ c, c ∈ ts.erase b ↔ c ≠ b ∧ c ∈ ts := fun c => nd.mem_erase_iff
  have hd := inv.disj a ha b hb (by omega)
  have hna := fun i hi => Proper.lt (inv.good a ha).1 i hi
  have hnb := fun i hi => Proper.lt (inv.good b hb).1 i hi
  constructor
  · exact inv.sorted.sublist List.erase_sublist
  · intro c hc
    rw [hmem] at hc
    by_cases h : c = a
    · subst h
      rw [upd_same, good_node]
      exact ⟨inv.good c ha, inv.good b hb, hd, fun h => hs h.2.2⟩
    · rw [upd_ne _ _ h]; exact inv.good c hc.2
  · intro c hc
    rw [hmem] at hc
    by_cases h : c = a
    · subst h
      rw [upd_same, upd_same, verts_node]
      exact calcRes_ok h2 hna hnb hd (inv.res c ha) (inv.res b hb)
    · rw [upd_ne _ _ h, upd_ne _ _ h]; exact inv.res c hc.2
  · intro c hc d hdm hcd
    rw [hmem] at hc hdm
    by_cases h : c = a
    · subst h
      rw [upd_same, upd_ne _ _ (Ne.symm hcd), verts_node, Finset.disjoint_union_left]
      exact ⟨inv.disj c ha d hdm.2 hcd, inv.disj b hb d hdm.2 (Ne.symm hdm.1)⟩
    · rw [upd_ne _ _ h]
      by_cases h' : d = a
      · subst h'
        rw [upd_same, verts_node, Finset.disjoint_union_right]
        exact ⟨inv.disj c hc.2 d ha hcd, inv.disj c hc.2 b hb hc.1⟩
      · rw [upd_ne _ _ h']
        exact inv.disj c hc.2 d hdm.2 hcd
  · intro i hi
    obtain ⟨c, hc, hic⟩ := inv.cover i hi
    by_cases h : c = a ∨ c = b
    · refine ⟨a, (hmem a).mpr ⟨by omega, ha⟩, ?_⟩
      rw [upd_same, verts_node, Finset.mem_union]
      rcases h with rfl | rfl
      · exact Or.inl hic
      · exact Or.inr hic
    · refine ⟨c, (hmem c).mpr ⟨fun h' => h (Or.inr h'), hc⟩, ?_⟩
      rw [upd_ne _ _ (fun h' => h (Or.inl h'))]
      exact hic
  · intro c hc i hi j hj
    rw [hmem] at hc
    by_cases h : c = a
    · subst h
      rw [upd_same, verts_node, Finset.mem_union] at hi hj
      rw [Finset.not_disjoint_iff] at hs
      obtain ⟨e, e1, e2⟩ := hs
      obtain ⟨p, hp, hep, _⟩ := mem_openEdges.mp e1
      obtain ⟨q, hq, heq, _⟩ := mem_openEdges.mp e2
      have hpq : G.Adj p q := ⟨hna p hp, hnb q hq, e, hep, heq⟩
      have key : ∀ i, i ∈ (tr c).verts ∨ i ∈ (tr b).verts → Relation.ReflTransGen G.Adj p i := by
        rintro i (hi | hi)
        · exact inv.conn c ha p hp i hi
        · exact .head hpq (inv.conn b hb q hq i hi)
      exact (reach_symm (key i hi)).trans (key j hj)
    · rw [upd_ne _ _ h] at hi hj
      exact inv.conn c hc.2 i hi j hj

/-- The result of the loop from a given state: the steps made from here on, their cost and the final tree. -/
theorem greedyLoop_spec (h2 : G.TwoEnds) (hu : G.DiagUniform) : ∀ fuel ts res cost seq tr, GInv G ts res tr →
    ts.length < fuel → cost = (ts.map fun a => G.treeCost none (tr a)).sum →
    (G.Connected → ∃ r, greedyLoop fuel ts res cost seq = .ok r) ∧
    ∀ c q, greedyLoop fuel ts res cost seq = .ok (c, q) → ∃ q' tr' live' res', q = seq ++ q' ∧
      G.greedyFrom ts (fun i => (tr i).verts) q' ∧
      c = cost + G.seqCost none (fun i => (tr i).verts) q' ∧
      (ts ≠ [] → validFrom ts q') ∧
      GInv G live' res' tr' ∧ live'.length ≤ 1 ∧ c = (live'.map fun a => G.treeCost none (tr' a)).sum := by
  intro fuel
  induction fuel with
  | zero => intro ts res cost seq tr _ h; omega
  | succ fuel ih =>
    intro ts res cost seq tr inv hf hcost
    unfold greedyLoop
    by_cases hl : ts.length ≤ 1
    · rw [if_pos hl]
      refine ⟨fun _ => ⟨_, rfl⟩, ?_⟩
      intro c q h
      cases h
      refine ⟨[], tr, ts, res, by simp, hl, rfl, ?_, inv, hl, hcost⟩
      intro hne
      have := List.length_pos_of_ne_nil hne
      change ts.length = 1
      omega
    · rw [if_neg hl]
      have nd : ts.Nodup := inv.sorted.imp (fun h => Nat.ne_of_lt h)
      obtain ⟨p1, p2, p3⟩ := greedyPick_spec res (pairIterator ts) none
      have share : ∀ a ∈ ts, ∀ b ∈ ts, a < b → ¬ Disjoint (G.openEdges (tr a).verts) (G.openEdges (tr b).verts) →
          BestLe ((pairIterator ts).foldl (greedyPick res) none) (G.size ((tr a).verts ∪ (tr b).verts)) := by
        intro a ha b hb hab hs
        have := p3 (a, b) (pair_of_sorted inv.sorted ha hb hab)
          ((isSharingBond_iff (inv.res a ha) (inv.res b hb)).mpr hs)
        rwa [size_calcRes h2 (fun i hi => Proper.lt (inv.good a ha).1 i hi)
          (fun i hi => Proper.lt (inv.good b hb).1 i hi) (inv.disj a ha b hb (by omega)) (inv.res a ha)
          (inv.res b hb)] at this
      have share' : ∀ a ∈ ts, ∀ b ∈ ts, a ≠ b → ¬ Disjoint (G.openEdges (tr a).verts) (G.openEdges (tr b).verts) →
          BestLe ((pairIterator ts).foldl (greedyPick res) none) (G.size ((tr a).verts ∪ (tr b).verts)) := by
        intro a ha b hb hab hs
        rcases Nat.lt_or_gt_of_ne hab with h | h
        · exact share a ha b hb h hs
        · rw [Finset.union_comm]
          exact share b hb a ha h (fun hd => hs hd.symm)
      cases hbest : (pairIterator ts).foldl (greedyPick res) none with
      | none =>
        refine ⟨?_, fun c q h => by cases h⟩
        intro hc
        obtain ⟨a, ha, b, hb, hab, hs⟩ := exists_sharing h2 hc inv (by omega)
        obtain ⟨_, _, _, h, _⟩ := share' a ha b hb hab hs
        rw [hbest] at h
        cases h
      | some t =>
        obtain ⟨m, a, b⟩ := t
        rcases p1 m a b hbest with h | ⟨hm, hsh, hmv⟩
        · cases h
        obtain ⟨ha, hb, hab⟩ := pair_sorted inv.sorted hm
        have hs := (isSharingBond_iff (inv.res a ha) (inv.res b hb)).mp hsh
        have hd := inv.disj a ha b hb (by omega)
        have hna := fun i hi => Proper.lt (inv.good a ha).1 i hi
        have hnb := fun i hi => Proper.lt (inv.good b hb).1 i hi
        rw [size_calcRes h2 hna hnb hd (inv.res a ha) (inv.res b hb)] at hmv
        have hcst : getCost (res a) (res b) = .ok (G.stepCost none (tr a).verts (tr b).verts) := by
          refine costFunc_ok none (inv.res a ha) (inv.res b hb) (Or.inr ?_)
          intro d1 d2
          obtain ⟨d, n1, _, u1, _⟩ := good_pair hu (inv.good a ha) (inv.good b hb) (fun h => hs h.2.2) d1 d2
          exact ⟨n1, fun e he e' he' => by rw [u1 e he, u1 e' he']⟩
        simp only [hcst, bind, Except.bind]
        have inv' := ginv_step h2 inv ha hb hab hs
        have hlen : (ts.erase b).length < fuel := by
          rw [List.length_erase_of_mem hb]
          omega
        have ham : a ∈ ts.erase b := nd.mem_erase_iff.mpr ⟨by omega, ha⟩
        have hcost' : cost + G.stepCost none (tr a).verts (tr b).verts
            = ((ts.erase b).map fun i => G.treeCost none (upd tr a (.node (tr a) (tr b)) i)).sum := by
          rw [hcost, ← List.sum_map_erase _ hb, ← List.sum_map_erase _ ham,
            ← List.sum_map_erase (fun i => G.treeCost none (upd tr a (.node (tr a) (tr b)) i)) ham, upd_same]
          have : ((ts.erase b).erase a).map (fun i => G.treeCost none (upd tr a (.node (tr a) (tr b)) i))
              = ((ts.erase b).erase a).map (fun i => G.treeCost none (tr i)) := by
            apply List.map_congr_left
            intro i hi
            rw [upd_ne _ _ ((nd.erase b).mem_erase_iff.mp hi).1]
          rw [this, TGraph.treeCost]
          omega
        have hgrp : (fun i => (upd tr a (.node (tr a) (tr b)) i).verts)
            = fun i => if i = a then (tr a).verts ∪ (tr b).verts else (tr i).verts := by
          funext i
          by_cases h : i = a
          · subst h; rw [upd_same, verts_node, if_pos rfl]
          · rw [upd_ne _ _ h, if_neg h]
        obtain ⟨t1, t2⟩ := ih (ts.erase b) _ (cost + G.stepCost none (tr a).verts (tr b).verts) (seq ++ [(a, b)])
          _ inv' hlen hcost'
        refine ⟨t1, ?_⟩
        intro c q h
        obtain ⟨q', tr', live', res', e1, e2, e3, e4, e5, e6, e7⟩ := t2 c q h
        rw [hgrp] at e2 e3
        refine ⟨(a, b) :: q', tr', live', res', ?_, ?_, ?_, ?_, e5, e6, e7⟩
        · rw [e1, List.append_assoc]; rfl
        · refine ⟨ha, hb, hab, hs, ?_, e2⟩
          intro a' ha' b' hb' hab' hs'
          obtain ⟨c', _, _, hc', hle⟩ := share' a' ha' b' hb' hab' hs'
          rw [hbest] at hc'
          cases hc'
          rw [← hmv]
          exact hle
        · rw [e3, TGraph.seqCost, Nat.min_eq_left hab.le]
          omega
        · intro _
          refine ⟨ha, hb, by omega, ?_⟩
          rw [Nat.max_eq_right hab.le]
          exact e4 (List.ne_nil_of_mem ham)

theorem ginv_init {g : Input} (h : Describes g G) : GInv G (List.range G.n) g.vertex CTree.leaf := by
  constructor
  · exact List.pairwise_lt_range
  · intro a ha
    rw [List.mem_range] at ha
    exact ⟨⟨by simp [CTree.leaves], by simpa [CTree.leaves] using ha⟩, trivial⟩
  · intro a ha
    rw [List.mem_range] at ha
    rw [verts_leaf]
    exact vertex_ok h ha
  · intro a _ b _ hab
    rw [verts_leaf, verts_leaf, Finset.disjoint_singleton]
    exact hab
  · intro i hi
    exact ⟨i, List.mem_range.mpr hi, by rw [verts_leaf]; simp⟩
  · intro a _ i hi j hj
    rw [verts_leaf, Finset.mem_singleton] at hi hj
    subst hi; subst hj
    exact .refl

/-- A list of live slots with one tree each, covering everything, is one complete tree. -/
theorem ginv_final {live : List Nat} {res : Slots} {tr : Nat → CTree} (inv : GInv G live res tr)
    (hl : live.length ≤ 1) (hn : G.n ≠ 0) :
    ∃ a, live = [a] ∧ (tr a).Complete G.n ∧ G.NoDiagOuter (tr a) ∧ G.Connected := by
  obtain ⟨a, ha, _⟩ := inv.cover 0 (by omega)
  obtain rfl : live = [a] := by
    match live, hl with
    | [x], _ => rw [List.mem_singleton] at ha; rw [ha]
    | [], _ => cases ha
  refine ⟨a, rfl, ?_, (inv.good a ha).2, ?_⟩
  · rw [complete_iff]
    refine ⟨(inv.good a ha).1, ?_⟩
    ext i
    rw [Finset.mem_range]
    refine ⟨fun hi => Proper.lt (inv.good a ha).1 i hi, fun hi => ?_⟩
    obtain ⟨b, hb, hib⟩ := inv.cover i hi
    rw [List.mem_singleton] at hb
    rwa [← hb]
  · intro i j hi hj
    obtain ⟨b, hb, hib⟩ := inv.cover i hi
    obtain ⟨c, hc, hjc⟩ := inv.cover j hj
    rw [List.mem_singleton] at hb hc
    subst hb; subst hc
    exact inv.conn c ha i hib j hjc

theorem greedySearch_spec {g : Input} (h : Describes g G) (hu : G.DiagUniform) (hn : G.n ≠ 0) :
    (G.Connected → ∃ r, greedySearch g = .ok r) ∧
    ∀ c q, greedySearch g = .ok (c, q) → G.Connected ∧ ValidSeq G.n q ∧ c = G.seqCost none (fun i => {i}) q ∧
      G.greedyFrom (List.range G.n) (fun i => {i}) q ∧ ∃ T, T.Complete G.n ∧ G.treeCost none T = c := by
  obtain ⟨t1, t2⟩ := greedyLoop_spec h.ends hu (G.n + 1) (List.range G.n) g.vertex 0 [] CTree.leaf (ginv_init h)
    (by rw [List.length_range]; omega) (by
      simp only [TGraph.treeCost]
      simp)
  have e : greedySearch g = greedyLoop (G.n + 1) (List.range G.n) g.vertex 0 [] := by
    unfold greedySearch; rw [h.n]
  rw [e]
  refine ⟨t1, ?_⟩
  intro c q hq
  obtain ⟨q', tr', live', res', e1, e2, e3, e4, e5, e6, e7⟩ := t2 c q hq
  rw [List.nil_append] at e1
  subst e1
  have hv : (fun i => (CTree.leaf i).verts) = fun i => ({i} : Finset Nat) := by funext i; exact verts_leaf i
  rw [hv] at e2 e3
  obtain ⟨a, rfl, hc, _, hco⟩ := ginv_final e5 e6 hn
  refine ⟨hco, e4 (by simpa using hn), by rw [e3, Nat.zero_add], e2, tr' a, hc, ?_⟩
  rw [e7]
  simp

end CTL
