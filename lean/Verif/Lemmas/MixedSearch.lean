import Verif.Spec.Mixed
import Verif.Props.Auto

/-! The capped search on connected networks of dense and diagonal tensors. -/

namespace CTL
variable {R : Type}

theorem stepsSafe_mono {J J' : Nat → Nat → Prop} {D D' : Nat → Prop} (hJ : ∀ i j, J i j → J' i j) (hD : ∀ i, D' i → D i) :
    ∀ (q : List (Nat × Nat)) (g : Nat → List Nat), stepsSafe J D g q → stepsSafe J' D' g q
  | [], _, _ => trivial
  | (s, t) :: q, g, ⟨h1, h2⟩ => by
    refine ⟨?_, stepsSafe_mono hJ hD q _ h2⟩
    rcases h1 with ⟨i, hi, h⟩ | ⟨i, hi, j, hj, h⟩
    · exact Or.inl ⟨i, hi, fun h' => h (hD i h')⟩
    · exact Or.inr ⟨i, hi, j, hj, hJ i j h⟩

/-- The steps of a tree without outer products of diagonals. -/
theorem stepsSafe_steps (G : TGraph) (T : CTree) : ∀ (g : Nat → List Nat) (rest : List (Nat × Nat)),
    T.leaves.Nodup → (∀ i ∈ T.leaves, g i = [i]) → (∀ i ∈ T.leaves, i < G.n) → G.NoDiagOuter T →
    ∃ g', (∀ i, i ∈ g' T.slot ↔ i ∈ T.leaves) ∧ (∀ i, i ∉ T.leaves → g' i = g i) ∧
      (stepsSafe (fun i j => i ≠ j ∧ G.Adj i j) (fun i => G.diag i = true) g' rest →
        stepsSafe (fun i j => i ≠ j ∧ G.Adj i j) (fun i => G.diag i = true) g (T.steps ++ rest)) := by
  induction T with
  | leaf i =>
    intro g rest _ h _ _
    refine ⟨g, ?_, fun _ _ => rfl, fun h => h⟩
    intro k
    rw [show (CTree.leaf i).slot = i from rfl, h i (by simp [CTree.leaves])]
    rfl
  | node l r ihl ihr =>
    intro g rest nd h hn hT
    simp only [CTree.leaves] at nd h hn
    obtain ⟨hTl, hTr, hno⟩ := hT
    obtain ⟨ndl, ndr, dis⟩ := List.nodup_append.mp nd
    obtain ⟨g1, a1, b1, c1⟩ := ihl g (r.steps ++ ((l.slot, r.slot) :: rest)) ndl (fun i hi => h i (by simp [hi]))
      (fun i hi => hn i (by simp [hi])) hTl
    obtain ⟨g2, a2, b2, c2⟩ := ihr g1 ((l.slot, r.slot) :: rest) ndr (fun i hi => by
      rw [b1 i fun hl => dis i hl i hi rfl]
      exact h i (by simp [hi])) (fun i hi => hn i (by simp [hi])) hTr
    have hls : g2 l.slot = g1 l.slot := b2 _ fun hr => dis _ (slot_mem_leaves l) _ hr rfl
    refine ⟨fun i => if i = min l.slot r.slot then g2 l.slot ++ g2 r.slot else g2 i, ?_, ?_, ?_⟩
    · intro i
      simp only [CTree.slot, if_true, CTree.leaves, List.mem_append]
      rw [hls, a1, a2]
    · intro i hi
      simp only [CTree.leaves, List.mem_append, not_or] at hi
      have : i ≠ min l.slot r.slot := by
        rintro rfl
        rcases le_total l.slot r.slot with hle | hle
        · rw [min_eq_left hle] at hi; exact hi.1 (slot_mem_leaves l)
        · rw [min_eq_right hle] at hi; exact hi.2 (slot_mem_leaves r)
      simp only [if_neg this]
      rw [b2 i hi.2, b1 i hi.1]
    · intro hrest
      have e : (CTree.node l r).steps ++ rest = l.steps ++ (r.steps ++ ((l.slot, r.slot) :: rest)) := by
        simp [CTree.steps]
      rw [e]
      refine c1 (c2 ⟨?_, hrest⟩)
      by_cases hd : G.AllDiag l.verts ∧ G.AllDiag r.verts
      · right
        have : ¬ Disjoint (G.openEdges l.verts) (G.openEdges r.verts) := fun h => hno ⟨hd.1, hd.2, h⟩
        rw [Finset.not_disjoint_iff] at this
        obtain ⟨e, h1, h2⟩ := this
        have mem : ∀ {S : Finset Nat}, e ∈ G.openEdges S → ∃ i ∈ S, e ∈ G.edges i := by
          intro S h
          exact Finset.mem_biUnion.mp (Finset.mem_filter.mp h).1
        obtain ⟨i, hi, hei⟩ := mem h1
        obtain ⟨j, hj, hej⟩ := mem h2
        have hi' : i ∈ l.leaves := by simpa [CTree.verts] using hi
        have hj' : j ∈ r.leaves := by simpa [CTree.verts] using hj
        refine ⟨i, ?_, j, (a2 j).mpr hj', fun e => dis i hi' j hj' e, hn i (by simp [hi']), hn j (by simp [hj']), e, hei, hej⟩
        rw [hls]
        exact (a1 i).mpr hi'
      · left
        rw [not_and_or] at hd
        rcases hd with hd | hd <;>
        · unfold TGraph.AllDiag at hd
          simp only [not_forall] at hd
          obtain ⟨i, hi, hd⟩ := hd
          refine ⟨i, ?_, hd⟩
          have hi' : i ∈ _ := List.mem_toFinset.mp hi
          rw [List.mem_append, hls, a1, a2]
          tauto

theorem graph_connected {st : Store} {ts : List (Tensor R)} {G : TGraph} {κ : LegId → Nat} (h4 : GraphOf st ts G κ)
    (hc : NetConnected st ts) : G.Connected := by
  have adj : ∀ i j, Joined st ts i j → G.Adj i j := by
    rintro i j ⟨t, u, ht, hu, l, hl, m, hm, hp⟩
    have hi := (List.getElem?_eq_some_iff.mp ht).1
    have hj := (List.getElem?_eq_some_iff.mp hu).1
    refine ⟨by rw [h4.n]; exact hi, by rw [h4.n]; exact hj, κ l, ?_, ?_⟩
    · rw [h4.edges i t ht, List.mem_toFinset]
      exact List.mem_map.mpr ⟨l, hl, rfl⟩
    · rw [h4.edges j u hu, List.mem_toFinset]
      exact List.mem_map.mpr ⟨m, hm, ((h4.same t (List.mem_of_getElem? ht) u (List.mem_of_getElem? hu) l hl m hm).mpr
        (Or.inr hp)).symm⟩
  intro i j hi hj
  rw [h4.n] at hi hj
  exact Relation.ReflTransGen.mono adj _ _ (hc i j hi hj)

theorem adj_joined {st : Store} {ts : List (Tensor R)} {G : TGraph} {κ : LegId → Nat} (h4 : GraphOf st ts G κ)
    (nd : (ts.flatMap fun t => t.legs).Nodup) {i j : Nat} (h : i ≠ j ∧ G.Adj i j) : Joined st ts i j := by
  obtain ⟨hne, hi, hj, e, hei, hej⟩ := h
  rw [h4.n] at hi hj
  have ei := List.getElem?_eq_getElem hi
  have ej := List.getElem?_eq_getElem hj
  rw [h4.edges i _ ei, List.mem_toFinset, List.mem_map] at hei
  rw [h4.edges j _ ej, List.mem_toFinset, List.mem_map] at hej
  obtain ⟨l, hl, rfl⟩ := hei
  obtain ⟨m, hm, e⟩ := hej
  rcases (h4.same _ (List.getElem_mem hi) _ (List.getElem_mem hj) l hl m hm).mp e.symm with h | h
  · exfalso
    subst h
    have pw := (List.nodup_flatMap.mp nd).2
    rw [List.pairwise_iff_getElem] at pw
    rcases Nat.lt_or_gt_of_ne hne with h | h
    · exact pw i j hi hj h hl hm
    · exact pw j i hj hi h hm hl
  · exact ⟨_, _, ei, ej, l, hl, m, hm, h⟩

/-- On a connected graph there is a tree without outer products. -/
theorem exists_tree {g : Input} {G : TGraph} (h : Describes g G) (hu : G.DiagUniform) (hn : G.n ≠ 0) (hc : G.Connected) :
    ∃ T : CTree, T.Complete G.n ∧ G.NoDiagOuter T := by
  obtain ⟨t1, t2⟩ := greedyLoop_spec h.ends hu (G.n + 1) (List.range G.n) g.vertex 0 [] CTree.leaf (ginv_init h)
    (by rw [List.length_range]; omega) (by
      simp only [TGraph.treeCost]
      simp)
  obtain ⟨⟨c, q⟩, hq⟩ := t1 hc
  obtain ⟨q', tr', live', res', e1, e2, e3, e4, e5, e6, e7⟩ := t2 c q hq
  obtain ⟨a, _, h1, h2, _⟩ := ginv_final e5 e6 hn
  exact ⟨tr' a, h1, h2⟩

theorem graph_diagUniform {st : Store} {ts : List (Tensor R)} {G : TGraph} {κ : LegId → Nat} (h4 : GraphOf st ts G κ)
    (hg : ∀ t ∈ ts, GoodTensor st t) : G.DiagUniform := by
  intro i hi hd e he e' he'
  rw [h4.n] at hi
  have ei := List.getElem?_eq_getElem hi
  rw [h4.diag i _ ei] at hd
  rw [h4.edges i _ ei, List.mem_toFinset, List.mem_map] at he he'
  obtain ⟨l, hl, rfl⟩ := he
  obtain ⟨m, hm, rfl⟩ := he'
  rw [h4.dim _ (List.getElem_mem hi) l hl, h4.dim _ (List.getElem_mem hi) m hm]
  obtain ⟨arr, _, _, _, h⟩ := (hg _ (List.getElem_mem hi)).data
  rcases h hd with ⟨h, _⟩ | ⟨_, _, h⟩
  · rw [h] at hl
    cases hl
  · rw [h l hl, h m hm]

/-- The capped search on a connected network: it returns, and its sequence has no outer product of diagonals. -/
theorem mixed_search {st : Store} {ts : List (Tensor R)} (c : ClosedNet st ts) (hg : ∀ t ∈ ts, GoodTensor st t)
    (hne : ts ≠ []) (hpos : ∀ t ∈ ts, ∀ l ∈ t.legs, st.dim l ≠ 0) (hlegs : ∀ t ∈ ts, t.legs ≠ []) {typ : Option Nat}
    (htyp : typ ≠ some 0) :
    (NetConnected st ts → ∃ rounds, ∀ fuel, rounds ≤ fuel → ∃ cost q,
      generateSequence st ts .capping typ fuel = some (.ok (cost, q))) ∧
    (∀ fuel cost q, generateSequence st ts .capping typ fuel = some (.ok (cost, q)) → NoOuterDiag st ts q) ∧
    ∀ fuel r, generateSequence st ts .capping typ fuel = some r → ∃ cost q, r = .ok (cost, q) := by
  obtain ⟨gr, inp, G, κ, h1, h2, h3, h4⟩ := makeTensorGraph_spec c
  have hu := graph_diagUniform h4 hg
  have hn : G.n ≠ 0 := by
    rw [h4.n]
    intro h0
    exact hne (List.length_eq_zero_iff.mp h0)
  have hp : ∀ i, i < G.n → ∀ e ∈ G.edges i, 0 < G.dim e := by
    intro i hi e he
    rw [h4.n] at hi
    rw [h4.edges i _ (List.getElem?_eq_getElem hi), List.mem_toFinset, List.mem_map] at he
    obtain ⟨l, hl, rfl⟩ := he
    rw [h4.dim _ (List.getElem_mem hi) l hl]
    exact Nat.pos_of_ne_zero (hpos _ (List.getElem_mem hi) l hl)
  have he : ∀ i, i < G.n → (G.edges i).Nonempty := by
    intro i hi
    rw [h4.n] at hi
    rw [h4.edges i _ (List.getElem?_eq_getElem hi), List.toFinset_nonempty_iff]
    intro e
    exact hlegs _ (List.getElem_mem hi) (List.map_eq_nil_iff.mp e)
  refine ⟨?_, ?_, ?_⟩
  · intro hc
    obtain ⟨T, t1, hT⟩ := exists_tree h3 hu hn (graph_connected h4 hc)
    refine ⟨G.treeCost typ T, fun fuel hf => ?_⟩
    obtain ⟨s, q, hr⟩ := C06_capping_terminates h3 hu hp htyp hn (Or.inr he) t1 hT hf
    obtain ⟨s', cost, q', e, b2, _⟩ := C06_capping_optimal h3 hu hp htyp hn (Or.inr he) hr
    injection e with e
    injection e with e1 e2
    subst e1 e2
    refine ⟨cost, q, ?_⟩
    unfold generateSequence
    rw [h1]
    simp only
    unfold optimalContractSequence
    rw [h2]
    simp only [hr, h3.n]
    simp [bind, Except.bind, Tables.getCost, b2, pure, Except.pure]
  · intro fuel cost q h
    unfold generateSequence at h
    rw [h1] at h
    simp only at h
    unfold optimalContractSequence at h
    rw [h2] at h
    simp only at h
    obtain ⟨r0, hr, h'⟩ := Option.map_eq_some_iff.mp h
    obtain ⟨r, hr0, h''⟩ := except_bind_ok.mp h'
    subst hr0
    obtain ⟨c', hc', h3'⟩ := except_bind_ok.mp h''
    injection h3' with h3'
    injection h3' with e1 e2
    subst e1 e2
    obtain ⟨s, c2, q2, b1, b2, ⟨T, t1, t0, t2, t3⟩, _⟩ := C06_capping_optimal h3 hu hp htyp hn (Or.inr he) hr
    injection b1 with b1
    subst b1
    have hT := (complete_iff.mp t1).1
    obtain ⟨g', _, _, k⟩ := stepsSafe_steps G T (fun i => [i]) [] hT.1 (fun _ _ => rfl) hT.2 t0
    have := k trivial
    rw [List.append_nil, t2] at this
    refine stepsSafe_mono (fun i j h => adj_joined h4 c.nodup h) (fun i h => ?_) q2 _ this
    obtain ⟨t, ht, hd⟩ := h
    rw [h4.diag i t ht, hd]
  · intro fuel r h
    unfold generateSequence at h
    rw [h1] at h
    simp only at h
    unfold optimalContractSequence at h
    rw [h2] at h
    simp only at h
    obtain ⟨r0, hr, h'⟩ := Option.map_eq_some_iff.mp h
    obtain ⟨s, c2, q2, b1, b2, _⟩ := C06_capping_optimal h3 hu hp htyp hn (Or.inr he) hr
    subst b1
    refine ⟨c2, q2, ?_⟩
    rw [← h']
    simp [bind, Except.bind, Tables.getCost, h3.n, b2, pure, Except.pure]

/-- If all tensors are diagonal and some sequence is without outer products of diagonals, the network is connected. -/
theorem connected_of_safe {J : Nat → Nat → Prop} (sym : ∀ i j, J i j → J j i) {D : Nat → Prop} {n : Nat} (hD : ∀ i, i < n → D i) :
    ∀ (q : List (Nat × Nat)) (live : List Nat) (g : Nat → List Nat), validFrom live q → stepsSafe J D g q →
    (∀ s ∈ live, ∀ i ∈ g s, i < n) →
    (∀ s ∈ live, ∀ i ∈ g s, ∀ j ∈ g s, Relation.ReflTransGen J i j) → (∀ i, i < n → ∃ s ∈ live, i ∈ g s) →
    ∀ i j, i < n → j < n → Relation.ReflTransGen J i j
  | [], live, g, hv, _, _, hc, hcov, i, j, hi, hj => by
    obtain ⟨x, rfl⟩ := List.length_eq_one_iff.mp hv
    obtain ⟨s, hs, his⟩ := hcov i hi
    obtain ⟨t, ht, hjt⟩ := hcov j hj
    rw [List.mem_singleton] at hs ht
    subst hs ht
    exact hc _ (by simp) i his j hjt
  | (s, t) :: q, live, g, ⟨hs, ht, hne, hv⟩, ⟨h1, h2⟩, hlt, hc, hcov, i, j, hi, hj => by
    have sub : ∀ x ∈ live.erase (max s t), x ∈ live := fun x hx => List.mem_of_mem_erase hx
    have hmin : min s t ∈ live := by rcases le_total s t with h | h <;> simp [h, hs, ht]
    refine connected_of_safe sym hD q _ _ hv h2 ?_ ?_ ?_ i j hi hj
    · intro x hx k hk
      split at hk
      · rcases List.mem_append.mp hk with hk | hk
        · exact hlt s hs k hk
        · exact hlt t ht k hk
      · exact hlt x (sub x hx) k hk
    · intro x hx k hk k' hk'
      split at hk
      · rename_i e
        rw [if_pos e] at hk'
        have flip : ∀ {a b}, Relation.ReflTransGen J a b → Relation.ReflTransGen J b a := by
          intro a b h
          induction h with
          | refl => exact .refl
          | tail _ e ih => exact (Relation.ReflTransGen.single (sym _ _ e)).trans ih
        rcases h1 with ⟨a, ha, h⟩ | ⟨a, ha, b, hb, hab⟩
        · refine absurd (hD a ?_) h
          rcases List.mem_append.mp ha with ha | ha
          · exact hlt s hs a ha
          · exact hlt t ht a ha
        · have bridge : ∀ c ∈ g s, ∀ d ∈ g t, Relation.ReflTransGen J c d := fun c hc' d hd' =>
            ((hc s hs c hc' a ha).tail hab).trans (hc t ht b hb d hd')
          rcases List.mem_append.mp hk with hk | hk <;> rcases List.mem_append.mp hk' with hk' | hk'
          · exact hc s hs k hk k' hk'
          · exact bridge k hk k' hk'
          · exact flip (bridge k' hk' k hk)
          · exact hc t ht k hk k' hk'
      · rename_i e
        rw [if_neg e] at hk'
        exact hc x (sub x hx) k hk k' hk'
    · intro k hk
      obtain ⟨x, hx, hkx⟩ := hcov k hk
      by_cases e : x = s ∨ x = t
      · refine ⟨min s t, (List.mem_erase_of_ne (by omega)).mpr hmin, ?_⟩
        simp only [if_true, List.mem_append]
        rcases e with rfl | rfl
        · exact Or.inl hkx
        · exact Or.inr hkx
      · refine ⟨x, (List.mem_erase_of_ne (by omega)).mpr hx, ?_⟩
        have : x ≠ min s t := by omega
        simp only [if_neg this]
        exact hkx

end CTL
