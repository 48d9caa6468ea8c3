import Verif.Lemmas.MakeGraph
import Verif.Model.GraphQuery
import Verif.Props.Search
import Verif.Props.Auto

/-! C61: what a tensor graph answers: the optimal cost, and the graph of the network. -/

namespace CTL
variable {R : Type}

/-! ### `optimalCostResult` -/

/-- A call of `optimalContractSequence`. -/
structure SearchCall where
  mode : Mode
  typ : Option Nat
  fuel : Nat

/-- The object after calls, whose exceptions are caught; `none` if one of them does not return. -/
def GraphObj.after (o : GraphObj) : List SearchCall → Option GraphObj
  | [] => some o
  | c :: cs => (o.search c.mode c.typ c.fuel).bind fun r => r.1.after cs

theorem addEdgeIndex_twice (g : Graph) : g.addEdgeIndex.addEdgeIndex = g.addEdgeIndex := by
  unfold Graph.addEdgeIndex
  by_cases h : g.indexed = true
  · simp [h]
  · simp [h]

theorem input_addEdgeIndex (g : Graph) : g.addEdgeIndex.input = g.input := by
  unfold Graph.input
  rw [addEdgeIndex_twice]

theorem addEdgeIndex_v (g : Graph) : g.addEdgeIndex.v = g.v := by
  unfold Graph.addEdgeIndex
  split
  · rfl
  · unfold Graph.getEdges
    split <;> rfl

theorem input_shapes {g : Graph} {inp : Input} (h : g.input = .ok inp) : inp.shapes.length = g.v.length := by
  unfold Graph.input Graph.edgeTable at h
  simp only [bind, Except.bind] at h
  split at h
  · cases h
  · next x hx =>
    split at hx
    · cases hx
    · cases hx
      cases h
      simp [addEdgeIndex_v]

theorem search_graph {o : GraphObj} {mode : Mode} {typ : Option Nat} {fuel : Nat} {r} (h : o.search mode typ fuel = some r) :
    r.1.g = o.g.addEdgeIndex := by
  unfold GraphObj.search at h
  dsimp only at h
  split at h
  · cases h; rfl
  · next inp _ =>
    cases mode with
    | greedy => cases h; rfl
    | bruteForce =>
      simp only [Option.some.injEq] at h
      subst h
      cases bruteForce inp typ <;> rfl
    | capping =>
      simp only [Option.map_eq_some_iff] at h
      obtain ⟨x, -, rfl⟩ := h
      cases x <;> rfl

theorem after_append (o : GraphObj) (cs ds : List SearchCall) : o.after (cs ++ ds) = (o.after cs).bind fun o => o.after ds := by
  induction cs generalizing o with
  | nil => rfl
  | cons c cs ih =>
    show ((o.search c.mode c.typ c.fuel).bind fun r => r.1.after (cs ++ ds)) =
      ((o.search c.mode c.typ c.fuel).bind fun r => r.1.after cs).bind fun o => o.after ds
    cases o.search c.mode c.typ c.fuel with
    | none => rfl
    | some r => exact ih r.1

theorem after_graph {o o' : GraphObj} {cs : List SearchCall} (h : o.after cs = some o') : o'.g.v = o.g.v ∧ o'.g.input = o.g.input := by
  induction cs generalizing o with
  | nil => cases h; exact ⟨rfl, rfl⟩
  | cons c cs ih =>
    obtain ⟨r, hr, h⟩ := Option.bind_eq_some_iff.mp h
    obtain ⟨h1, h2⟩ := ih h
    rw [search_graph hr] at h1 h2
    exact ⟨h1.trans (addEdgeIndex_v _), h2.trans (input_addEdgeIndex _)⟩

theorem after_greedy {o o' : GraphObj} {cs : List SearchCall} (hg : ∀ c ∈ cs, c.mode = .greedy) (h : o.after cs = some o') :
    o'.optimalCost = o.optimalCost := by
  induction cs generalizing o with
  | nil => cases h; rfl
  | cons c cs ih =>
    obtain ⟨r, hr, h⟩ := Option.bind_eq_some_iff.mp h
    rw [ih (fun d hd => hg d (by simp [hd])) h]
    unfold GraphObj.search at hr
    dsimp only at hr
    rw [hg c (by simp)] at hr
    split at hr <;> cases hr <;> rfl

/-- C61: on a graph for which no sequence has been asked for, and after greedy searches only, `optimalCostResult` raises AttributeError instead of
searching: the attribute it compares with None does not exist. -/
theorem C61_without_search_raises (g : Graph) {cs : List SearchCall} {o : GraphObj} (hg : ∀ c ∈ cs, c.mode = .greedy)
    (h : (GraphObj.new g).after cs = some o) : o.optimalCostResult = .error .attributeError := by
  have : o.optimalCost = none := after_greedy hg h
  unfold GraphObj.optimalCostResult
  rw [this]

/-- C61: after any calls the result is the smallest cost of all contraction trees in the sense of the last search that was not greedy: with the real
dimensions or the typical one, as that search was told; the capped search leaves out outer products of diagonal tensors.

Missing from the claim: graphs on which no such search has returned normally (`C61_without_search_raises`, `C61_after_exception`). -/
theorem C61_cost_partial {g : Graph} {inp : Input} {G : TGraph} (hi : g.input = .ok inp) (D : Describes inp G) (hn : G.n ≠ 0)
    {pre post : List SearchCall} {c : SearchCall} (hc : c.mode ≠ .greedy) (hpost : ∀ d ∈ post, d.mode = .greedy)
    (hbf : c.mode = .bruteForce → G.DiagDims c.typ)
    (hcap : c.mode = .capping → G.DiagUniform ∧ (∀ i, i < G.n → ∀ e ∈ G.edges i, 0 < G.dim e) ∧ c.typ ≠ some 0 ∧
      (c.typ.isSome ∨ ∀ i, i < G.n → (G.edges i).Nonempty))
    {o : GraphObj} (h : (GraphObj.new g).after (pre ++ c :: post) = some o) :
    ∃ m, o.optimalCostResult = .ok (some m) ∧
      (∃ T : CTree, T.Complete G.n ∧ (c.mode = .capping → G.NoDiagOuter T) ∧ G.treeCost c.typ T = m) ∧
      ∀ T : CTree, T.Complete G.n → (c.mode = .capping → G.NoDiagOuter T) → m ≤ G.treeCost c.typ T := by
  rw [after_append] at h
  obtain ⟨o1, h1, h⟩ := Option.bind_eq_some_iff.mp h
  obtain ⟨r, hr, h⟩ := Option.bind_eq_some_iff.mp h
  obtain ⟨v1, i1⟩ := after_graph h1
  obtain ⟨v2, -⟩ := after_graph h
  have hco := after_greedy hpost h
  have hinp : o1.g.input = .ok inp := i1.trans hi
  have hlen : o.g.v.length = G.n := by
    rw [v2, search_graph hr, addEdgeIndex_v, v1]
    show g.v.length = G.n
    rw [← input_shapes hi, D.shapes]
  have key : ∀ s : Tables, r.1.optimalCost = some s.cost → ∀ m, s.cost (1 <<< G.n - 1) = some m → o.optimalCostResult = .ok (some m) := by
    intro s hs m hm
    unfold GraphObj.optimalCostResult
    rw [hco, hs]
    simp only [hlen, hm]
  unfold GraphObj.search at hr
  rw [hinp] at hr
  dsimp only at hr
  rcases hm : c.mode with _ | _ | _
  · exact absurd hm hc
  · rw [hm] at hr
    obtain ⟨s, m, q, e1, e2, ⟨T, t1, -, t3⟩, t4⟩ := C05_bruteForce_optimal D (hbf hm) hn
    simp only [e1, Option.some.injEq] at hr
    subst hr
    exact ⟨m, key s rfl m e2, ⟨T, t1, by simp, t3⟩, fun T' h1 _ => t4 T' h1⟩
  · rw [hm] at hr
    obtain ⟨u1, u2, u3, u4⟩ := hcap hm
    simp only [Option.map_eq_some_iff] at hr
    obtain ⟨x, ex, rfl⟩ := hr
    obtain ⟨s, m, q, rfl, e2, ⟨T, t1, t2, -, t3⟩, t4⟩ := C06_capping_optimal D u1 u2 u3 hn u4 ex
    exact ⟨m, key s rfl m e2, ⟨T, t1, fun _ => t2, t3⟩, fun T' h1 h2 => t4 T' h1 (h2 rfl)⟩

theorem mapM_length {α β : Type} {f : α → Except PyErr β} : ∀ {l : List α} {r : List β}, l.mapM f = .ok r → r.length = l.length
  | [], r, h => by
    rw [List.mapM_nil] at h
    cases h
    rfl
  | a :: l, r, h => by
    rw [List.mapM_cons] at h
    simp only [bind, Except.bind] at h
    split at h
    · cases h
    · split at h
      · cases h
      · next x hx =>
        cases h
        rw [List.length_cons, List.length_cons, mapM_length hx]

theorem input_edges {g : Graph} {inp : Input} (h : g.input = .ok inp) : inp.edges.length = g.v.length := by
  unfold Graph.input Graph.edgeTable at h
  simp only [bind, Except.bind] at h
  split at h
  · cases h
  · next x hx =>
    split at hx
    · cases hx
    · next y hy =>
      cases hx
      cases h
      show y.length = _
      rw [mapM_length hy, addEdgeIndex_v]

theorem init_full {inp : Input} (h : inp.edges.length ≠ 1) : (initTables inp).cost (1 <<< inp.edges.length - 1) = none := by
  unfold initTables
  simp only [Option.map_eq_none_iff, List.find?_eq_none, List.mem_range, decide_eq_true_eq, Nat.one_shiftLeft]
  intro i hi e
  obtain ⟨k, hk⟩ : ∃ k, inp.edges.length = k + 2 := ⟨inp.edges.length - 2, by omega⟩
  rw [hk] at hi e
  have h1 : 2 ^ i ≤ 2 ^ (k + 1) := Nat.pow_le_pow_right (by omega) (by omega)
  have h2 : 2 ^ (k + 2) = 2 * 2 ^ (k + 1) := by rw [Nat.pow_succ]; omega
  have h3 : 2 ≤ 2 ^ (k + 1) := by
    have := Nat.pow_le_pow_right (n := 2) (by omega) (show 1 ≤ k + 1 by omega)
    simpa using this
  omega

/-- C61: after a search that raised, the result is `None`, also if an earlier search had returned. -/
theorem C61_after_exception {g : Graph} {inp : Input} (hi : g.input = .ok inp) (hn : g.v.length ≠ 1) {pre post : List SearchCall}
    {mode : Mode} (hm : mode ≠ .greedy) (hpost : ∀ d ∈ post, d.mode = .greedy) {typ : Option Nat} {fuel : Nat} {o1 o2 o : GraphObj} {e : PyErr}
    (h1 : (GraphObj.new g).after pre = some o1) (hr : o1.search mode typ fuel = some (o2, .error e)) (h : o2.after post = some o) :
    o.optimalCostResult = .ok none := by
  obtain ⟨v1, i1⟩ := after_graph h1
  obtain ⟨v2, -⟩ := after_graph h
  have hco := after_greedy hpost h
  have hinp : o1.g.input = .ok inp := i1.trans hi
  have hlen : o.g.v.length = inp.edges.length := by
    rw [v2, show o2.g = _ from search_graph hr, addEdgeIndex_v, v1, input_edges hi]
    rfl
  have key : o2.optimalCost = some (initTables inp).cost := by
    unfold GraphObj.search at hr
    rw [hinp] at hr
    dsimp only at hr
    cases mode with
    | greedy => exact absurd rfl hm
    | bruteForce =>
      simp only [Option.some.injEq] at hr
      cases hb : bruteForce inp typ with
      | error e' => rw [hb] at hr; cases hr; rfl
      | ok r => rw [hb] at hr; cases hr
    | capping =>
      simp only [Option.map_eq_some_iff] at hr
      obtain ⟨x, -, hx⟩ := hr
      cases x with
      | error e' => cases hx; rfl
      | ok r => cases hx
  unfold GraphObj.optimalCostResult
  rw [hco, key]
  simp only [hlen]
  rw [init_full (by rw [input_edges hi]; exact hn)]

/-- The graph of the test: dimensions 300, 4, 5 and 6. -/
def queryGraph : Graph :=
  ⟨[[0, 1, 2], [0, 3], [1, 3, 2]], [⟨0, some 1, 300⟩, ⟨0, some 2, 4⟩, ⟨0, some 2, 5⟩, ⟨1, some 2, 6⟩], none, true, [none, none, none, none], false,
    [false, false, false]⟩

/-- C61: the result is not the exact cost of contraction if the search was told a typical dimension, as it is by default. -/
theorem C61_not_exact_cost :
    (((GraphObj.new queryGraph).after [⟨.capping, none, 40000⟩]).map GraphObj.optimalCostResult) = some (.ok (some 36120)) ∧
    (((GraphObj.new queryGraph).after [⟨.capping, none, 40000⟩, ⟨.capping, some 10, 40000⟩]).map GraphObj.optimalCostResult) = some (.ok (some 10100)) ∧
    (((GraphObj.new queryGraph).after [⟨.bruteForce, some 10, 0⟩, ⟨.greedy, none, 0⟩]).map GraphObj.optimalCostResult) = some (.ok (some 10100)) := by
  refine ⟨?_, ?_, ?_⟩ <;> decide +kernel

/-- A history as in `C61_cost_partial`. -/
example : ∃ inp o, queryGraph.input = .ok inp ∧ Describes inp (inp.graph fun e => [300, 4, 5, 6].getD e 0) ∧
    (inp.graph fun e => [300, 4, 5, 6].getD e 0).DiagDims none ∧
    (GraphObj.new queryGraph).after ([⟨.greedy, none, 0⟩] ++ ⟨.bruteForce, none, 0⟩ :: [⟨.greedy, none, 0⟩]) = some o := by
  cases ho : (GraphObj.new queryGraph).after ([⟨.greedy, none, 0⟩] ++ ⟨.bruteForce, none, 0⟩ :: [⟨.greedy, none, 0⟩]) with
  | none => exact absurd ho (by decide +kernel)
  | some o =>
    refine ⟨⟨[[0, 1, 2], [0, 3], [1, 3, 2]], [[300, 4, 5], [300, 6], [4, 6, 5]], [false, false, false]⟩, o, ?_, ?_, diagDims_of_dense ?_ none, rfl⟩
    · rfl
    · apply describes_of_check <;> decide +kernel
    · rintro (_ | _ | _ | n) <;> rfl

/-- A tensor without legs makes the capped search with real dimensions raise. -/
def scalarGraph : Graph := ⟨[[0], [0], []], [⟨0, some 1, 2⟩], none, true, [none], false, [false, false, false]⟩

example : ∃ inp o2, scalarGraph.input = .ok inp ∧ scalarGraph.v.length ≠ 1 ∧
    (GraphObj.new scalarGraph).search .capping none 5 = some (o2, .error .valueError) := ⟨_, _, rfl, by decide, rfl⟩

example : (GraphObj.new queryGraph).after [⟨.greedy, none, 0⟩] ≠ none := by decide +kernel

/-! ### `tensorNetworkGraph` -/

/-- The edge `o` joins the vertices `a` and `b`. -/
def GEdge.Joins (o : GEdge) (a b : Nat) : Prop := (o.src = a ∧ o.dst = some b) ∨ (o.src = b ∧ o.dst = some a)

theorem nxLoop_spec (objs : List GEdge) : ∀ (es : List Nat) (G : NxGraph),
    (nxLoop objs es G).nodes = G.nodes ∧
    (∀ a b w, (nxLoop objs es G).weight a b = some w → G.weight a b = some w ∨ ∃ e ∈ es, ∃ o, objs[e]? = some o ∧ o.Joins a b ∧ o.weight = w) ∧
    ∀ a b, ((∃ w, G.weight a b = some w) ∨ ∃ e ∈ es, ∃ o, objs[e]? = some o ∧ o.Joins a b) → ∃ w, (nxLoop objs es G).weight a b = some w
  | [], G => ⟨rfl, fun a b w h => Or.inl h, fun a b h => by
      rcases h with h | ⟨e, he, -⟩
      · exact h
      · cases he⟩
  | e :: es, G => by
    unfold nxLoop
    cases ho : objs[e]? with
    | none =>
      obtain ⟨h1, h2, h3⟩ := nxLoop_spec objs es G
      refine ⟨h1, fun a b w h => ?_, fun a b h => h3 a b ?_⟩
      · rcases h2 a b w h with h | ⟨e', he, h⟩
        · exact Or.inl h
        · exact Or.inr ⟨e', by simp [he], h⟩
      · rcases h with h | ⟨e', he, o, h, h'⟩
        · exact Or.inl h
        · rcases List.mem_cons.mp he with rfl | he
          · rw [ho] at h; cases h
          · exact Or.inr ⟨e', he, o, h, h'⟩
    | some o =>
      dsimp only
      cases hd : o.dst with
      | none =>
        obtain ⟨h1, h2, h3⟩ := nxLoop_spec objs es G
        refine ⟨h1, fun a b w h => ?_, fun a b h => h3 a b ?_⟩
        · rcases h2 a b w h with h | ⟨e', he, h⟩
          · exact Or.inl h
          · exact Or.inr ⟨e', by simp [he], h⟩
        · rcases h with h | ⟨e', he, o', h, h'⟩
          · exact Or.inl h
          · rcases List.mem_cons.mp he with rfl | he
            · rw [ho] at h
              cases h
              unfold GEdge.Joins at h'
              rw [hd] at h'
              rcases h' with ⟨_, h'⟩ | ⟨_, h'⟩ <;> cases h'
            · exact Or.inr ⟨e', he, o', h, h'⟩
      | some j =>
        dsimp only
        obtain ⟨h1, h2, h3⟩ := nxLoop_spec objs es (G.addEdge o.src j o.weight)
        refine ⟨h1, fun a b w h => ?_, fun a b h => h3 a b ?_⟩
        · rcases h2 a b w h with h | ⟨e', he, h⟩
          · unfold NxGraph.addEdge at h
            dsimp only at h
            split at h
            · next c =>
              refine Or.inr ⟨e, by simp, o, ho, ?_, Option.some.inj h⟩
              rcases c with ⟨c1, c2⟩ | ⟨c1, c2⟩
              · exact Or.inl ⟨c1.symm, by rw [hd, c2]⟩
              · exact Or.inr ⟨c2.symm, by rw [hd, c1]⟩
            · exact Or.inl h
          · exact Or.inr ⟨e', by simp [he], h⟩
        · rcases h with ⟨w, h⟩ | ⟨e', he, o', h, h'⟩
          · left
            unfold NxGraph.addEdge
            dsimp only
            split
            · exact ⟨_, rfl⟩
            · exact ⟨w, h⟩
          · rcases List.mem_cons.mp he with rfl | he
            · rw [ho] at h
              cases h
              left
              refine ⟨o.weight, ?_⟩
              unfold NxGraph.addEdge
              dsimp only
              rw [if_pos]
              unfold GEdge.Joins at h'
              rw [hd] at h'
              rcases h' with ⟨c1, c2⟩ | ⟨c1, c2⟩
              · exact Or.inl ⟨c1.symm, (Option.some.inj c2).symm⟩
              · exact Or.inr ⟨(Option.some.inj c2).symm, c1.symm⟩
            · exact Or.inr ⟨e', he, o', h, h'⟩

/-- Leg `l` of tensor `a` is joined to a leg of tensor `b`. -/
def JoinedBy (st : Store) (ts : List (Tensor R)) (a b : Nat) (l : LegId) : Prop :=
  ∃ t u m, ts[a]? = some t ∧ ts[b]? = some u ∧ l ∈ t.legs ∧ m ∈ u.legs ∧ st.partner l = some m

theorem ownIndex {st : Store} {ts : List (Tensor R)} (c : ClosedNet st ts) {i j : Nat} {t u : Tensor R} {l : LegId} (ht : ts[i]? = some t)
    (hu : ts[j]? = some u) (hl : l ∈ t.legs) (hl' : l ∈ u.legs) : i = j := by
  have o1 := c.owner t (List.mem_of_getElem? ht) l hl
  have o2 := c.owner u (List.mem_of_getElem? hu) l hl'
  have e : t.id = u.id := Option.some.inj (o1.symm.trans o2)
  have i1 := (idxDict_spec c.ids t.id i).mpr ⟨t, ht, rfl⟩
  have i2 := (idxDict_spec c.ids t.id j).mpr ⟨u, hu, e.symm⟩
  exact Option.some.inj (i1.symm.trans i2)

theorem assignIndex_length : ∀ (es : List Nat) (i : Nat) (idx : List (Option Nat)), (assignIndex es i idx).length = idx.length
  | [], _, _ => rfl
  | e :: es, i, idx => by
    unfold assignIndex
    rw [assignIndex_length, List.length_set]

theorem addEdgeIndex_wf {g : Graph} (h : g.WF) (hc : g.CacheOK) : g.addEdgeIndex.WF ∧ g.addEdgeIndex.CacheOK := by
  have h1 := Graph.getEdges_wf h
  obtain ⟨-, h2, -, -⟩ := getEdges_perm h hc
  unfold Graph.addEdgeIndex
  split
  · exact ⟨h, hc⟩
  · exact ⟨⟨h1.ends, h1.count, (assignIndex_length _ _ _).trans h1.index⟩, h2⟩

theorem addEdgeIndex_indexed {g : Graph} : g.addEdgeIndex.indexed = true := by
  unfold Graph.addEdgeIndex
  split
  · assumption
  · rfl

theorem input_getEdges {g : Graph} (h : g.indexed = true) : g.getEdges.1.input = g.input := by
  have hi : g.getEdges.1.indexed = true := by
    unfold Graph.getEdges
    split <;> exact h
  unfold Graph.input
  rw [show g.getEdges.1.addEdgeIndex = g.getEdges.1 from if_pos hi, show g.addEdgeIndex = g from if_pos h]
  unfold Graph.getEdges
  split <;> rfl

/-- C61: the networkx graph of a network: one node per tensor, an edge between two nodes if and only if the tensors have a bond, its weight the
dimension of such a bond, of the bond if there is only one; free legs do not appear. -/
theorem C61_network {st : Store} {ts : List (Tensor R)} (c : ClosedNet st ts) :
    ∃ g, makeTensorGraph st ts = .ok g ∧ g.tensorNetworkGraph.2.nodes = List.range ts.length ∧
      (∀ a b, (∃ w, g.tensorNetworkGraph.2.weight a b = some w) ↔ ∃ l, JoinedBy st ts a b l) ∧
      (∀ a b w, g.tensorNetworkGraph.2.weight a b = some w → ∃ l, JoinedBy st ts a b l ∧ st.dim l = w) ∧
      (∀ a b l, JoinedBy st ts a b l → (∀ l', JoinedBy st ts a b l' → l' = l) → g.tensorNetworkGraph.2.weight a b = some (st.dim l)) ∧
      g.tensorNetworkGraph.1.input = g.input := by
  obtain ⟨g, reps, bs, hg, inv⟩ := makeTensorGraph_inv c
  have hobjs : g.addEdgeIndex.objs = g.objs := by
    unfold Graph.addEdgeIndex
    split
    · rfl
    · unfold Graph.getEdges
      split <;> rfl
  obtain ⟨wf, cache⟩ := addEdgeIndex_wf inv.wf (show g.CacheOK from fun es h => by rw [inv.cache] at h; cases h)
  obtain ⟨hp, -, -, -⟩ := getEdges_perm wf cache
  obtain ⟨h1, h2, h3⟩ := nxLoop_spec g.addEdgeIndex.objs g.addEdgeIndex.getEdges.2 ⟨List.range g.addEdgeIndex.v.length, fun _ _ => none⟩
  -- edges of the graph
  have joins : ∀ r ∈ reps, ∀ a b, (edgeOf st ts r).Joins a b → ∃ l, JoinedBy st ts a b l ∧ st.dim l = (edgeOf st ts r).weight := by
    intro r hr a b hj
    obtain ⟨t, ht, hl⟩ := mem_legPairs.mp (show (r.1, r.2) ∈ legPairs ts from inv.sub r hr)
    have hd : ∀ j, (edgeOf st ts r).dst = some j → ∃ m u, ts[j]? = some u ∧ m ∈ u.legs ∧ st.partner r.2 = some m := by
      intro j hj
      unfold edgeOf at hj
      obtain ⟨m, hm, hj⟩ := Option.bind_eq_some_iff.mp hj
      obtain ⟨j', u, hu, hmu, hjd⟩ := owner_index c (List.mem_of_getElem? ht) hl hm
      rw [hjd] at hj
      obtain rfl := Option.some.inj hj
      exact ⟨m, u, hu, hmu, hm⟩
    rcases hj with ⟨h1, h2⟩ | ⟨h1, h2⟩
    · obtain ⟨m, u, hu, hmu, hm⟩ := hd _ h2
      exact ⟨r.2, ⟨t, u, m, h1 ▸ ht, hu, hl, hmu, hm⟩, rfl⟩
    · obtain ⟨m, u, hu, hmu, hm⟩ := hd _ h2
      exact ⟨m, ⟨u, t, r.2, hu, h1 ▸ ht, hmu, hl, partner_symm c.inv hm⟩, partner_dim c.inv hm⟩
  have made : ∀ a b l, JoinedBy st ts a b l → ∃ r ∈ reps, (edgeOf st ts r).Joins a b := by
    rintro a b l ⟨t, u, m, ht, hu, hl, hm, hp⟩
    obtain ⟨r, hr, hrep⟩ := inv.cover (a, l) (mem_legPairs.mpr ⟨t, ht, hl⟩)
    obtain ⟨v, hv, hrl⟩ := mem_legPairs.mp (show (r.1, r.2) ∈ legPairs ts from inv.sub r hr)
    refine ⟨r, hr, ?_⟩
    rcases hrep with e | e
    · have e : r.2 = l := e
      left
      refine ⟨ownIndex c hv ht hrl (e ▸ hl), ?_⟩
      unfold edgeOf
      rw [e]
      show (st.partner l).bind _ = some b
      rw [hp]
      obtain ⟨j, u', hu', hmu, hjd⟩ := owner_index c (List.mem_of_getElem? ht) hl hp
      rw [Option.bind_some, hjd, ownIndex c hu' hu hmu hm]
    · have e : st.partner r.2 = some l := e
      right
      have e2 : r.2 = m := by
        have := partner_symm c.inv e
        rw [hp] at this
        exact (Option.some.inj this).symm
      refine ⟨ownIndex c hv hu hrl (e2 ▸ hm), ?_⟩
      unfold edgeOf
      show (st.partner r.2).bind _ = some a
      rw [e]
      obtain ⟨j, u', hu', hmu, hjd⟩ := owner_index c (List.mem_of_getElem? hv) hrl e
      rw [Option.bind_some, hjd, ownIndex c hu' ht hmu hl]
  have objs : g.addEdgeIndex.objs = reps.map (edgeOf st ts) := hobjs.trans inv.objs
  have found : ∀ a b w, g.addEdgeIndex.tensorNetworkGraph.2.weight a b = some w → ∃ l, JoinedBy st ts a b l ∧ st.dim l = w := by
    intro a b w h
    rcases h2 a b w h with h | ⟨e, -, o, ho, hj, rfl⟩
    · cases h
    · rw [objs, List.getElem?_map, Option.map_eq_some_iff] at ho
      obtain ⟨r, hr, rfl⟩ := ho
      exact joins r (List.mem_of_getElem? hr) a b hj
  have there : ∀ a b l, JoinedBy st ts a b l → ∃ w, g.addEdgeIndex.tensorNetworkGraph.2.weight a b = some w := by
    intro a b l h
    obtain ⟨r, hr, hj⟩ := made a b l h
    obtain ⟨e, he, rfl⟩ := List.getElem_of_mem hr
    refine h3 a b (Or.inr ⟨e, ?_, edgeOf st ts reps[e], ?_, hj⟩)
    · rw [hp.mem_iff, List.mem_range, objs, List.length_map]
      exact he
    · rw [objs, List.getElem?_map, List.getElem?_eq_getElem he]
      rfl
  refine ⟨g.addEdgeIndex, hg, ?_, ?_, found, ?_, ?_⟩
  · show (nxLoop _ _ _).nodes = _
    rw [h1, addEdgeIndex_v, inv.len]
  · intro a b
    exact ⟨fun ⟨w, h⟩ => by obtain ⟨l, hl, -⟩ := found a b w h; exact ⟨l, hl⟩, fun ⟨l, hl⟩ => there a b l hl⟩
  · intro a b l hl hu
    obtain ⟨w, hw⟩ := there a b l hl
    obtain ⟨l', hl', rfl⟩ := found a b w hw
    rw [hw, hu l' hl']
  · exact input_getEdges addEdgeIndex_indexed

/-- Two tensors with two bonds, of dimensions 2 and 3. -/
def parallelGraph : Graph := ⟨[[0, 1], [0, 1]], [⟨0, some 1, 2⟩, ⟨0, some 1, 3⟩], none, true, [none, none], false, [false, false]⟩

/-- C61: of several bonds between the same tensors only the last one is seen. -/
theorem C61_parallel_bonds_lost : parallelGraph.tensorNetworkGraph.2.weight 0 1 = some 3 ∧ parallelGraph.tensorNetworkGraph.2.weight 1 0 = some 3 := by
  decide

example : ClosedNet triStore triNet ∧ JoinedBy triStore triNet 0 1 1 := ⟨triNet_closed, triA, triB, 4, rfl, rfl, by decide, by decide, by decide⟩

end CTL
