import Verif.Lemmas.Ising
import Verif.Props.Graph
import Verif.Props.Sequence

/-! C26: the tensor network of the Ising model on a graph. -/

namespace CTL

/-- The graph at the end of a history, as the lemmas see it. -/
theorem history_edges {n : Nat} {d : Option (List Bool)} {ops : List (GraphOp ℝ)} {g : Graph ℝ}
    (h : runGraph (Graph.new n d) ops = .ok g) :
    g.WF ∧ g.CacheOK ∧ g.v.length = n ∧ g.objs = (addedEdges ops).map fun e => ⟨e.1, some e.2.1, e.2.2⟩ := by
  obtain ⟨hw, hc, hl, ho⟩ := runGraph_spec (Graph.new_wf n d) (new_cacheOK n d) h
  refine ⟨hw, hc, by rw [hl]; simp [Graph.new], ?_⟩
  rw [ho]
  simp [Graph.new]

theorem partition_eq {n : Nat} {d : Option (List Bool)} {ops : List (GraphOp ℝ)} {g : Graph ℝ}
    (h : runGraph (Graph.new n d) ops = .ok g) :
    (∑ U ∈ (Finset.range g.v.length).powerset, ((List.range g.objs.length).map fun e =>
      Real.exp (if srcOf g e ∈ U ↔ dstOf g e ∈ U then wOf g e else -wOf g e)).prod) =
    partitionFunction n (addedEdges ops) := by
  obtain ⟨-, -, hl, ho⟩ := history_edges h
  unfold partitionFunction
  rw [hl]
  apply Finset.sum_congr rfl
  intro U _
  congr 1
  apply List.ext_getElem
  · simp [ho]
  · intro i h1 h2
    have hi : i < (addedEdges ops).length := by simpa using h2
    have hoi : g.objs[i]? = some ⟨(addedEdges ops)[i].1, some (addedEdges ops)[i].2.1, (addedEdges ops)[i].2.2⟩ := by
      rw [ho, List.getElem?_map, List.getElem?_eq_getElem hi]
      rfl
    simp [srcOf, dstOf, wOf, hoi]

/-- C26: `exactZFromGraphIsing` is the partition function of the edges that were added, for any couplings. -/
theorem C26_exactZ {n : Nat} {d : Option (List Bool)} {ops : List (GraphOp ℝ)} {g : Graph ℝ}
    (h : runGraph (Graph.new n d) ops = .ok g) : exactZ realFns g = .ok (partitionFunction n (addedEdges ops)) := by
  obtain ⟨hw, hc, -, ho⟩ := history_edges h
  rw [exactZ_ok hw hc (by rw [ho]; intro o hm; obtain ⟨e, -, rfl⟩ := List.mem_map.mp hm; simp), partition_eq h]

/-- C26: for a graph without self loops and without isolated vertices, with couplings that are not negative, the network
is built; it has one dense tensor per vertex and no free leg, and its network sum is the partition function. -/
theorem C26_network {n : Nat} {d : Option (List Bool)} {ops : List (GraphOp ℝ)} {g : Graph ℝ}
    (h : runGraph (Graph.new n d) ops = .ok g) (hloop : ∀ e ∈ addedEdges ops, e.1 ≠ e.2.1)
    (hpos : ∀ e ∈ addedEdges ops, 0 ≤ e.2.2) (hdeg : ∀ k, k < n → ∃ e ∈ addedEdges ops, k = e.1 ∨ k = e.2.1)
    {st : Store} (w : WFStore st) :
    ∃ g' st' ts, isingNetwork realFns st g = .ok (g', st', ts) ∧ ts.length = n ∧ WFStore st' ∧ GoodNet st' ts ∧
      ClosedNet st' ts ∧ (∀ l, ¬ FreeLeg st' ts l) ∧ (∀ t ∈ ts, t.diag = false ∧ ∀ l ∈ t.legs, st'.dim l = 2) ∧
      (∀ l, l < st.nextLeg → st'.leg l = st.leg l) ∧
      ∀ ps, IsBondList st' ts ps → ∀ σ, netSum st' ts ps σ = partitionFunction n (addedEdges ops) := by
  obtain ⟨hw, hc, hl, ho⟩ := history_edges h
  obtain ⟨p1, p2, p3, p4⟩ := getEdges_perm hw hc
  have hw1 := Graph.getEdges_wf hw
  have hobj : ∀ o ∈ g.objs, ∃ e ∈ addedEdges ops, o = ⟨e.1, some e.2.1, e.2.2⟩ := by
    intro o hm
    rw [ho] at hm
    obtain ⟨e, he, rfl⟩ := List.mem_map.mp hm
    exact ⟨e, he, rfl⟩
  have hLF : LoopFree g.getEdges.1 g.getEdges.2 := by
    refine ⟨hw1, by rw [p3]; exact p1, ?_⟩
    intro o hm
    rw [p3] at hm
    obtain ⟨e, he, rfl⟩ := hobj o hm
    exact ⟨e.2.1, rfl, hloop e he⟩
  have hne : ∀ v ∈ List.range g.getEdges.1.v.length, v < g.getEdges.1.v.length ∧ g.getEdges.1.v.getD v [] ≠ [] := by
    intro v hv
    have hv := List.mem_range.mp hv
    refine ⟨hv, ?_⟩
    rw [p4, hl] at hv
    obtain ⟨e, he, hk⟩ := hdeg v hv
    obtain ⟨i, hi, rfl⟩ := List.getElem_of_mem he
    intro hnil
    rw [p4] at hnil
    have := (C28_incident h hv i).mpr ⟨_, _, _, List.getElem?_eq_getElem hi, hk⟩
    rw [hnil] at this
    simp at this
  obtain ⟨st1, ts, e1, B⟩ := sites_ok hw1 hLF.perm hLF.noFree (List.range g.getEdges.1.v.length) st hne
  obtain ⟨st2, e2, K⟩ := B.linked w hLF
  have hidem : g.getEdges.1.getEdges = (g.getEdges.1, g.getEdges.2) := by
    rcases g with ⟨a, b, c, d, e, f, i⟩
    cases c <;> cases d <;> rfl
  have hlen : ts.length = n := by
    have := B.sites.length_eq
    rw [List.length_range, p4, hl] at this
    exact this.symm
  have hvalue := K.value B hLF (by
    intro o hm
    rw [p3] at hm
    obtain ⟨e, he, rfl⟩ := hobj o hm
    exact hpos e he)
  refine ⟨g.getEdges.1, st2, ts, ?_, hlen, K.wf, K.net, ⟨K.net.inv, B.nodup, ?_, ?_, ?_⟩, K.noFree, ?_, ?_, ?_⟩
  · unfold isingNetwork
    simp only [bind, Except.bind, e1, hidem, e2]
    rfl
  · rw [B.ids]
    exact List.nodup_range'
  · intro t ht l hl
    rw [K.tensor]
    exact (B.fresh t ht l hl).2.2.2
  · intro t ht l hl m hm
    have : Cross ts l m := by
      by_contra hno
      exact K.noFree l ⟨⟨t, ht, hl⟩, fun m' hm' => by rw [hm, Option.some.injEq] at hm'; exact hm' ▸ hno⟩
    obtain ⟨⟨u, hu, hlu, hmu⟩, hin⟩ := this
    rw [leg_owner_unique B.nodup ht hu hl hlu]
    exact ⟨hmu, hin⟩
  · intro t ht
    refine ⟨?_, K.dims t ht⟩
    obtain ⟨i, hi, rfl⟩ := List.getElem_of_mem ht
    have hs := (List.forall₂_iff_get.mp K.sites).2 i (by rw [K.sites.length_eq]; exact hi) hi
    exact hs.dense
  · intro l hl'
    rw [K.others l (fun t ht hm => absurd (B.fresh t ht l hm).1 (Nat.not_le.mpr hl')), B.old l hl']
  · intro ps hps σ
    rw [netSum_unique K.net.inv hps K.bonds, hvalue σ, ← partition_eq h, p4]
    apply Finset.sum_congr rfl
    intro U _
    have h1 : srcOf g.getEdges.1 = srcOf g := by funext e; simp only [srcOf, p3]
    have h2 : dstOf g.getEdges.1 = dstOf g := by funext e; simp only [dstOf, p3]
    have h3 : wOf g.getEdges.1 = wOf g := by funext e; simp only [wOf, p3]
    rw [(hLF.perm.map _).prod_eq, p3, h1, h2, h3]

/-- C26: so every contraction sequence contracts the network to a scalar, the value of `exactZFromGraphIsing`. -/
theorem C26_contracts_to_exactZ {n : Nat} {d : Option (List Bool)} {ops : List (GraphOp ℝ)} {g : Graph ℝ}
    (h : runGraph (Graph.new n d) ops = .ok g) (hloop : ∀ e ∈ addedEdges ops, e.1 ≠ e.2.1)
    (hpos : ∀ e ∈ addedEdges ops, 0 ≤ e.2.2) (hdeg : ∀ k, k < n → ∃ e ∈ addedEdges ops, k = e.1 ∨ k = e.2.1)
    {st : Store} (w : WFStore st) {g' : Graph ℝ} {st' : Store} {ts : List (Tensor ℝ)}
    (hnet : isingNetwork realFns st g = .ok (g', st', ts)) (cast : ℝ → ℝ) {seq : List (Nat × Nat)}
    (hv : ValidSeq ts.length seq) :
    ∃ st2 t c z, contractInPlace cast st' ts seq = .ok (st2, t, c) ∧ exactZ realFns g = .ok z ∧ t.legs = [] ∧
      t.a = some ⟨[], [z]⟩ := by
  obtain ⟨g1, st1, ts1, e, -, -, gn, -, nf, hd, -, hval⟩ := C26_network h hloop hpos hdeg w
  obtain ⟨rfl, e'⟩ := Prod.mk.inj (Except.ok.inj (e.symm.trans hnet))
  obtain ⟨rfl, rfl⟩ := Prod.mk.inj e'
  obtain ⟨st2, t, c, h1, h2, h3, h4, h5⟩ := C03_any_valid_sequence cast gn
    (fun l m _ hc => by
      obtain ⟨⟨t, ht, hl, -⟩, -⟩ := hc
      rw [(hd t ht).2 l hl]
      norm_num) hv (Or.inl fun t ht => (hd t ht).1)
  have hlegs : t.legs = [] := by
    rw [List.eq_nil_iff_forall_not_mem]
    intro l hl
    exact nf l ((h4 l).mp hl)
  obtain ⟨ps, hps⟩ := C03_bond_list_exists gn
  have hz := h5 ps hps (fun _ => 0) fun l hl => absurd hl (nf l)
  rw [hval ps hps] at hz
  refine ⟨st2, t, c, _, h1, C26_exactZ h, hlegs, ?_⟩
  obtain ⟨arr, a1, a2, a3, a4⟩ := h3.data
  have hs : arr.shape = [] := by
    cases hdg : t.diag with
    | false => rw [a3 hdg, hlegs]; rfl
    | true =>
      rcases a4 hdg with ⟨-, hs, -⟩ | ⟨hn, -, -⟩
      · exact hs
      · exact absurd hlegs hn
  have he : entry t (fun _ => 0) = arr.get [] := by
    unfold entry
    rw [a1, hlegs]
    cases t.diag <;> rfl
  rw [he] at hz
  rw [a1]
  rcases arr with ⟨sh, data⟩
  simp only at hs
  subst hs
  unfold NDArray.WF at a2
  simp only [List.prod_nil] at a2
  obtain ⟨x, hx⟩ := List.length_eq_one_iff.mp a2
  subst hx
  simp only [NDArray.get, ravel] at hz
  simp only [List.getD_cons_zero] at hz
  rw [hz]

/-- C26: a vertex without edges makes the construction raise `ValueError`, whatever the other edges are. -/
theorem C26_isolated_raises {n : Nat} {d : Option (List Bool)} {ops : List (GraphOp ℝ)} {g : Graph ℝ}
    (h : runGraph (Graph.new n d) ops = .ok g) {k : Nat} (hk : k < n)
    (hiso : ∀ e ∈ addedEdges ops, k ≠ e.1 ∧ k ≠ e.2.1) (st : Store) :
    isingNetwork realFns st g = .error .valueError := by
  obtain ⟨hw, hc, hl, ho⟩ := history_edges h
  obtain ⟨p1, p2, p3, p4⟩ := getEdges_perm hw hc
  have hw1 := Graph.getEdges_wf hw
  have hdst : ∀ o ∈ g.getEdges.1.objs, o.dst ≠ none := by
    rw [p3, ho]
    intro o hm
    obtain ⟨e, -, rfl⟩ := List.mem_map.mp hm
    simp
  have hempty : g.getEdges.1.v.getD k [] = [] := by
    rw [p4, List.eq_nil_iff_forall_not_mem]
    intro e he
    obtain ⟨i, j, x, h1, h2⟩ := (C28_incident h hk e).mp he
    have := hiso _ (List.mem_of_getElem? h1)
    exact h2.elim this.1 this.2
  have hperm : g.getEdges.2.Perm (List.range g.getEdges.1.objs.length) := by rw [p3]; exact p1
  have hlab := fun v (hv : v < g.getEdges.1.v.length) => labels_ok' hw1 hperm hdst hv
  have key : ∀ (vs : List Nat) (st : Store), (∀ v ∈ vs, v < g.getEdges.1.v.length) → k ∈ vs →
      isingSites realFns g.getEdges.1 g.getEdges.2 st vs = .error .valueError := by
    intro vs
    induction vs with
    | nil => intro st _ hm; simp at hm
    | cons v vs ih =>
      intro st hv hm
      have hv1 := hv v (by simp)
      by_cases hz : g.getEdges.1.v.getD v [] = []
      · unfold isingSites
        simp only [weights_ok hw1 hv1, hlab v hv1, bind, Except.bind, hz]
        rfl
      · obtain ⟨st1, t, e1, -⟩ := siteTensor_ok st (ws := (g.getEdges.1.v.getD v []).map (wOf g.getEdges.1)) (by simpa using hz)
          (names := (g.getEdges.1.v.getD v []).map (nameOf g.getEdges.1 g.getEdges.2 v)) (by simp)
        rw [List.length_map] at e1
        have hkv : k ∈ vs := by
          rcases List.mem_cons.mp hm with rfl | hm
          · exact absurd hempty hz
          · exact hm
        unfold isingSites
        simp only [weights_ok hw1 hv1, hlab v hv1, bind, Except.bind, e1,
          ih st1 (fun x hx => hv x (by simp [hx])) hkv]
  unfold isingNetwork
  simp only [bind, Except.bind, key (List.range g.getEdges.1.v.length) st (fun v hv => List.mem_range.mp hv)
    (List.mem_range.mpr (by rw [p4, hl]; exact hk))]

/-- C26: self loops have to be excluded: on one vertex with a self loop both legs get the same name, the link joins the first
leg with itself, and the network is left with a free leg, so it cannot contract to the partition function. -/
theorem C26_self_loop_wrong (w : ℝ) {st : Store} (wf : WFStore st) : ∃ g g' st' ts,
    runGraph (Graph.new 1 none) [GraphOp.addEdge 0 0 w] = .ok g ∧ isingNetwork realFns st g = .ok (g', st', ts) ∧
      ∃ l, FreeLeg st' ts l := by
  have hrun : ∃ g, runGraph (Graph.new 1 none) [GraphOp.addEdge 0 0 w] = .ok g := ⟨_, rfl⟩
  obtain ⟨g, hg⟩ := hrun
  have hv : g.v = [[0, 0]] ∧ g.objs = [⟨0, some 0, w⟩] ∧ g.edges = none := by
    have := Except.ok.inj hg
    rw [← this]
    exact ⟨rfl, rfl, rfl⟩
  obtain ⟨hv, ho, he⟩ := hv
  obtain ⟨hw, hc, -, -⟩ := history_edges hg
  obtain ⟨p1, p2, p3, p4⟩ := getEdges_perm hw hc
  have hes : g.getEdges.2 = [0] := by
    unfold Graph.getEdges
    rw [he, hv]
    rfl
  have hw1 := Graph.getEdges_wf hw
  obtain ⟨st1, ts, e1, B⟩ := sites_ok hw1 (es := g.getEdges.2) (by rw [p3]; exact p1)
    (by rw [p3, ho]; simp) (List.range g.getEdges.1.v.length) st (by rw [p4, hv]; simp)
  have hidem : g.getEdges.1.getEdges = (g.getEdges.1, g.getEdges.2) := by
    rcases g with ⟨a, b, c, d, e, f, i⟩
    cases c <;> cases d <;> rfl
  have hB := B.sites
  rw [p4, hv] at hB
  obtain ⟨t, ht, S⟩ := B.site (v := 0) (by rw [p4, hv]; simp)
  have hlen : ts.length = 1 := by
    have := B.sites.length_eq
    rw [p4, hv] at this
    simpa using this.symm
  have hts : ts = [t] := by
    obtain ⟨x, hx⟩ := List.length_eq_one_iff.mp hlen
    rw [hx] at ht ⊢
    simpa using ht
  have hnm := S.names
  have hsl := S.len
  rw [p4, hv] at hnm hsl
  have hn0 : nameOf g.getEdges.1 g.getEdges.2 0 0 = isingLegName 0 0 := by
    simp [nameOf, p3, ho, otherEnd, hes]
  simp only [List.getD_cons_zero, List.map_cons, List.map_nil, hn0] at hnm
  simp only [List.getD_cons_zero, List.map_cons, List.map_nil, List.length_cons, List.length_nil] at hsl
  obtain ⟨a, b, hab⟩ : ∃ a b, t.legs = [a, b] := by
    match hl : t.legs, hsl with
    | [a, b], _ => exact ⟨a, b, rfl⟩
  rw [hab] at hnm
  simp only [List.map_cons, List.map_nil, List.cons.injEq, and_true] at hnm
  have hget : t.getLeg st1 (isingLegName 0 0) = some a := by
    unfold Tensor.getLeg Tensor.indexOfLabel Tensor.labels
    simp [hab, hnm.1, hnm.2]
  have hlink : isingLinks g.getEdges.1 g.getEdges.2 ts st1 g.getEdges.2 = .ok (bonded st1 a a) := by
    have hml : makeLink st1 [.label (isingLegName 0 0)] [.label (isingLegName 0 0)] (some t) (some t) =
        (bonded st1 a a, .ok [st1.nextBond]) := by
      rw [C10_makeLink_labels st1 t t _ _ [a] [a] (by simp [resolveRef, hget]) (by simp [resolveRef, hget]),
        makeLinkLegs_eq st1 [a] [a] rfl]
      simp only [List.zip_cons_cons, List.zip_nil_right, List.map_cons, List.map_nil, linkLoop, if_true,
        newBond_eq st1 a a rfl]
    rw [hes]
    simp [isingLinks, Graph.edgeObj, p3, ho, bind, Except.bind, edgePos, hts, hml]
  refine ⟨g, g.getEdges.1, bonded st1 a a, ts, hg, ?_, b, ⟨t, by simp [hts], by simp [hab]⟩, ?_⟩
  · unfold isingNetwork
    simp only [bind, Except.bind, e1, hidem, hlink]
    rfl
  · intro m hm
    have hnd := S.good.nodup
    rw [hab] at hnd
    have hne : b ≠ a := by
      rintro rfl
      simp at hnd
    have hf := B.fresh t (by simp [hts]) b (by simp [hab])
    rw [bonded_partner_other (B.grows.wf wf) hne hne] at hm
    unfold Store.partner at hm
    rw [hf.2.2.1] at hm
    cases hm

/-! ### Examples -/

/-- A triangle with one double edge and different couplings; the edges are asked for in between. -/
noncomputable def triangleOps : List (GraphOp ℝ) :=
  [.addEdge 0 1 1, .addEdge 2 1 (1 / 2), .getEdges, .addEdge 2 0 0, .addEdge 0 1 3]

theorem triangle_runs : ∃ g, runGraph (Graph.new 3 none) triangleOps = .ok g := by
  simp [triangleOps, runGraph, Graph.addEdge, Graph.new, Except.bind, Graph.getEdges, List.modify_cons]

theorem triangle_edges : addedEdges triangleOps = [(0, 1, 1), (2, 1, 1 / 2), (2, 0, 0), (0, 1, 3)] := rfl

/-- The hypotheses of `C26_network` and `C26_contracts_to_exactZ` are met: the triangle contracts to the sum over eight
configurations. -/
example : ∃ g g' st' ts st2 t c, runGraph (Graph.new 3 none) triangleOps = .ok g ∧
    isingNetwork realFns Store.empty g = .ok (g', st', ts) ∧
    contractInPlace id st' ts [(2, 0), (1, 0)] = .ok (st2, t, c) ∧
    exactZ realFns g = .ok (partitionFunction 3 [(0, 1, 1), (2, 1, 1 / 2), (2, 0, 0), (0, 1, 3)]) ∧
    t.a = some ⟨[], [partitionFunction 3 [(0, 1, 1), (2, 1, 1 / 2), (2, 0, 0), (0, 1, 3)]]⟩ := by
  obtain ⟨g, hg⟩ := triangle_runs
  have h1 : ∀ e ∈ addedEdges triangleOps, e.1 ≠ e.2.1 := by simp [triangle_edges]
  have h2 : ∀ e ∈ addedEdges triangleOps, 0 ≤ e.2.2 := by simp [triangle_edges]
  have h3 : ∀ k, k < 3 → ∃ e ∈ addedEdges triangleOps, k = e.1 ∨ k = e.2.1 := by
    intro k hk
    rw [triangle_edges]
    interval_cases k
    · exact ⟨(0, 1, 1), by simp, by simp⟩
    · exact ⟨(0, 1, 1), by simp, by simp⟩
    · exact ⟨(2, 0, 0), by simp, by simp⟩
  obtain ⟨g', st', ts, e1, hlen, -⟩ := C26_network hg h1 h2 h3 Reachable.empty.wf
  obtain ⟨st2, t, c, z, e2, e3, -, e4⟩ := C26_contracts_to_exactZ hg h1 h2 h3 Reachable.empty.wf e1 id
    (seq := [(2, 0), (1, 0)]) (by rw [hlen]; decide)
  have e5 := C26_exactZ hg
  obtain rfl := Except.ok.inj (e3.symm.trans e5)
  exact ⟨g, g', st', ts, st2, t, c, hg, e1, e2, e3, e4⟩

/-- The partition function of two spins with one edge, written out. -/
example (w : ℝ) : partitionFunction 2 [(0, 1, w)] = 2 * Real.exp w + 2 * Real.exp (-w) := by
  unfold partitionFunction
  rw [show (Finset.range 2).powerset = {∅, {0}, {1}, {0, 1}} by decide]
  rw [Finset.sum_insert (by decide), Finset.sum_insert (by decide), Finset.sum_insert (by decide), Finset.sum_singleton]
  simp
  ring

/-- A graph with an isolated vertex. -/
example : ∃ g, runGraph (Graph.new 3 none) [GraphOp.addEdge 0 2 (1 : ℝ)] = .ok g ∧
    isingNetwork realFns Store.empty g = .error .valueError := by
  refine ⟨_, rfl, ?_⟩
  exact C26_isolated_raises (n := 3) (d := none) (ops := [GraphOp.addEdge 0 2 (1 : ℝ)]) rfl (k := 1) (by norm_num)
    (by simp [addedEdges]) _

end CTL
