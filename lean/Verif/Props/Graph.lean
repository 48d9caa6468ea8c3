import Verif.Spec.Graph
import Verif.Lemmas.Graph

/-! # C28: undirected graphs -/

namespace CTL

variable {W : Type}

theorem runGraph_spec {ops : List (GraphOp W)} : ∀ {g g' : Graph W}, g.WF → g.CacheOK → runGraph g ops = .ok g' →
    g'.WF ∧ g'.CacheOK ∧ g'.v.length = g.v.length ∧
      g'.objs = g.objs ++ (addedEdges ops).map fun e => ⟨e.1, some e.2.1, e.2.2⟩ := by
  induction ops with
  | nil =>
    intro g g' h hc hr
    simp only [runGraph, Except.ok.injEq] at hr
    subst hr
    exact ⟨h, hc, rfl, by simp [addedEdges]⟩
  | cons o ops ih =>
    intro g g' h hc hr
    cases o with
    | addEdge i j w =>
      simp only [runGraph] at hr
      cases hg : g.addEdge i j w with
      | error e => rw [hg] at hr; cases hr
      | ok g1 =>
        rw [hg] at hr
        have hr' : runGraph g1 ops = .ok g' := hr
        have hw := Graph.addEdge_wf h hg
        obtain ⟨hi, hj, e1⟩ := Graph.addEdge_ok hg
        have hc1 : g1.CacheOK := by
          intro es _ hu
          rw [e1] at hu
          cases hu
        obtain ⟨a, b, c, d⟩ := ih hw hc1 hr'
        refine ⟨a, b, ?_, ?_⟩
        · rw [c, e1]; simp
        · rw [d, e1]; simp [addedEdges]
    | getEdges =>
      simp only [runGraph] at hr
      obtain ⟨_, h2, h3, h4⟩ := getEdges_perm h hc
      obtain ⟨a, b, c, d⟩ := ih (Graph.getEdges_wf h) h2 hr
      refine ⟨a, b, by rw [c, h4], ?_⟩
      rw [d, h3]
      simp [addedEdges]

theorem new_cacheOK (n : Nat) (d : Option (List Bool)) : (Graph.new (W := W) n d).CacheOK := by
  intro es h
  cases h

/-- At any point of any history of `addEdge` and `getEdges`, `getEdges` returns exactly the edges added so far:
as edge objects every one once, and their ends and weights are those of the `addEdge` calls. -/
theorem C28_getEdges {n : Nat} {d : Option (List Bool)} {ops : List (GraphOp W)} {g : Graph W}
    (h : runGraph (Graph.new n d) ops = .ok g) :
    g.getEdges.2.Nodup ∧ (g.getEdges.2.filterMap fun e => g.objs[e]?).Perm
      ((addedEdges ops).map fun e => ⟨e.1, some e.2.1, e.2.2⟩) := by
  obtain ⟨hw, hc, _, ho⟩ := runGraph_spec (Graph.new_wf n d) (new_cacheOK n d) h
  obtain ⟨hp, _⟩ := getEdges_perm hw hc
  refine ⟨hp.nodup_iff.mpr List.nodup_range, ?_⟩
  have e : (g.getEdges.2.filterMap fun e => g.objs[e]?).Perm
      ((List.range g.objs.length).filterMap fun e => g.objs[e]?) := hp.filterMap _
  have e2 : ((List.range g.objs.length).filterMap fun e => g.objs[e]?) = g.objs := by
    have : ∀ l : List (GEdge W), ((List.range l.length).filterMap fun e => l[e]?) = l := by
      intro l
      induction l with
      | nil => rfl
      | cons a l ih =>
        rw [List.length_cons, List.range_succ_eq_map, List.filterMap_cons]
        simp [List.filterMap_map, Function.comp_def, ih]
    exact this g.objs
  rw [e2] at e
  rw [ho] at e
  rw [ho]
  simpa [Graph.new] using e

/-- A history succeeds exactly if every edge connects existing vertices; otherwise it raises `AssertionError`. -/
theorem C28_addEdge_bounds (n : Nat) (d : Option (List Bool)) (ops : List (GraphOp W)) :
    ((∃ g, runGraph (Graph.new n d) ops = .ok g) ↔ ∀ e ∈ addedEdges ops, e.1 < n ∧ e.2.1 < n) ∧
      ∀ x, runGraph (Graph.new n d) ops = .error x → x = .assertionError := by
  have key : ∀ (ops : List (GraphOp W)) (g : Graph W),
      ((∃ g', runGraph g ops = .ok g') ↔ ∀ e ∈ addedEdges ops, e.1 < g.v.length ∧ e.2.1 < g.v.length) ∧
        ∀ x, runGraph g ops = .error x → x = .assertionError := by
    intro ops
    induction ops with
    | nil => intro g; simp [runGraph, addedEdges]
    | cons o ops ih =>
      intro g
      cases o with
      | addEdge i j w =>
        simp only [runGraph]
        by_cases hij : i < g.v.length ∧ j < g.v.length
        · obtain ⟨g1, hg⟩ : ∃ g1, g.addEdge i j w = .ok g1 := by
            unfold Graph.addEdge
            rw [if_pos hij]
            exact ⟨_, rfl⟩
          obtain ⟨_, _, e1⟩ := Graph.addEdge_ok hg
          have hl : g1.v.length = g.v.length := by rw [e1]; simp
          rw [hg]
          show ((∃ g', runGraph g1 ops = .ok g') ↔ _) ∧ ∀ x, runGraph g1 ops = .error x → _
          refine ⟨?_, (ih g1).2⟩
          rw [(ih g1).1, hl]
          simp only [addedEdges, List.filterMap_cons, List.mem_cons, forall_eq_or_imp, hij, and_self, true_and]
        · have hg : g.addEdge i j w = .error .assertionError := by
            unfold Graph.addEdge
            rw [if_neg hij]
          rw [hg]
          constructor
          · constructor
            · rintro ⟨g', h⟩; cases h
            · intro h
              exact absurd (h (i, j, w) (by simp [addedEdges])) hij
          · intro x hx
            injection hx with hx
            exact hx.symm
      | getEdges =>
        simp only [runGraph]
        have hv : g.getEdges.1.v = g.v := by
          unfold Graph.getEdges
          split <;> rfl
        refine ⟨?_, (ih _).2⟩
        rw [(ih _).1, hv]
        simp [addedEdges]
  have := key ops (Graph.new n d)
  simpa [Graph.new] using this

/-- The degree of a vertex is the number of ends of added edges at it: a self loop counts twice, parallel edges count
separately. -/
theorem C28_degree {n : Nat} {d : Option (List Bool)} {ops : List (GraphOp W)} {g : Graph W}
    (h : runGraph (Graph.new n d) ops = .ok g) {k : Nat} (hk : k < n) :
    g.degree k = ((addedEdges ops).map fun e => [e.1, e.2.1].count k).sum := by
  obtain ⟨hw, hc, hl, ho⟩ := runGraph_spec (Graph.new_wf n d) (new_cacheOK n d) h
  have hk' : k < g.v.length := by rw [hl]; simpa [Graph.new] using hk
  unfold Graph.degree
  have hsum : ∀ (m : Nat) (l : List Nat), (∀ e ∈ l, e < m) → l.length = ((List.range m).map fun e => l.count e).sum := by
    intro m
    induction m with
    | zero =>
      intro l hl
      cases l with
      | nil => rfl
      | cons a l => exact absurd (hl a (by simp)) (by omega)
    | succ m ih =>
      intro l hl
      rw [List.range_succ, List.map_append, List.sum_append]
      have h1 := ih (l.filter (· ≠ m)) (by
        intro e he
        simp only [ne_eq, decide_not, List.mem_filter, Bool.not_eq_eq_eq_not, Bool.not_true,
          decide_eq_false_iff_not] at he
        have := hl e he.1
        omega)
      have h2 : ((List.range m).map fun e => (l.filter (· ≠ m)).count e) = (List.range m).map fun e => l.count e := by
        apply List.map_congr_left
        intro e he
        rw [List.count_filter]
        have := List.mem_range.mp he
        simp; omega
      rw [← h2, ← h1]
      have h3 := List.length_eq_length_filter_add (l := l) (fun x => decide (x ≠ m))
      simp only [List.map_cons, List.map_nil, List.sum_cons, List.sum_nil, add_zero]
      rw [h3]
      congr 1
      rw [List.count, List.countP_eq_length_filter]
      congr 1
      apply List.filter_congr
      intro x _
      by_cases hx : x = m <;> simp [hx]
  rw [hsum g.objs.length (g.v.getD k []) (by
    intro e he
    obtain ⟨o, hoe, _⟩ := (mem_vertex hw hk').mp he
    exact (List.getElem?_eq_some_iff.mp hoe).1)]
  have e1 : ((List.range g.objs.length).map fun e => (g.v.getD k []).count e) = g.objs.map fun o => o.ends.count k := by
    apply List.ext_getElem
    · simp
    · intro i h1 h2
      have hi : i < g.objs.length := by simpa using h1
      rw [List.getElem_map, List.getElem_map, hw.count k hk', List.getElem_range, List.getElem?_eq_getElem hi]
      rfl
  rw [e1, ho]
  simp only [Graph.new, List.nil_append, List.map_map]
  congr 1

/-- The sum of the degrees is twice the number of edges. -/
theorem C28_degree_sum {n : Nat} {d : Option (List Bool)} {ops : List (GraphOp W)} {g : Graph W}
    (h : runGraph (Graph.new n d) ops = .ok g) :
    ((List.range n).map g.degree).sum = 2 * (addedEdges ops).length := by
  obtain ⟨hw, _, hl, ho⟩ := runGraph_spec (Graph.new_wf n d) (new_cacheOK n d) h
  have e := sum_degrees hw
  have hn : g.v.length = n := by rw [hl]; simp [Graph.new]
  rw [hn] at e
  rw [e, ho]
  simp only [Graph.new, List.nil_append, List.map_map]
  induction addedEdges ops with
  | nil => rfl
  | cons a l ih =>
    simp only [List.map_cons, List.sum_cons, ih, List.length_cons]
    simp only [Function.comp, GEdge.ends, Option.toList, List.length_cons, List.length_nil]
    omega

/-- Two vertices are neighbours in the lists held by the vertices exactly if an edge between them was added. -/
theorem C28_incident {n : Nat} {d : Option (List Bool)} {ops : List (GraphOp W)} {g : Graph W}
    (h : runGraph (Graph.new n d) ops = .ok g) {k : Nat} (hk : k < n) (e : Nat) :
    e ∈ g.v.getD k [] ↔ ∃ i j w, (addedEdges ops)[e]? = some (i, j, w) ∧ (k = i ∨ k = j) := by
  obtain ⟨hw, _, hl, ho⟩ := runGraph_spec (Graph.new_wf n d) (new_cacheOK n d) h
  have hk' : k < g.v.length := by rw [hl]; simpa [Graph.new] using hk
  rw [mem_vertex hw hk', ho]
  simp only [Graph.new, List.nil_append, List.getElem?_map, Option.map_eq_some_iff]
  constructor
  · rintro ⟨o, ⟨⟨i, j, w⟩, h1, rfl⟩, h2⟩
    exact ⟨i, j, w, h1, by simpa [GEdge.ends] using h2⟩
  · rintro ⟨i, j, w, h1, h2⟩
    exact ⟨_, ⟨_, h1, rfl⟩, by simpa [GEdge.ends] using h2⟩

/-- A self loop, two parallel edges, and a `getEdges` in between. -/
def loopOps : List GraphOp :=
  [.addEdge 0 1 5, .getEdges, .addEdge 1 1 7, .addEdge 0 1 5, .getEdges, .getEdges, .addEdge 2 0 1]

example : ∃ g, runGraph (Graph.new 3 none) loopOps = .ok g ∧ g.getEdges.2 = [0, 2, 3, 1] ∧
    (List.range 3).map g.degree = [3, 4, 1] := ⟨_, rfl, by decide, by decide⟩

/-- `addFreeEdge` of the tensor graph does not invalidate the cache: a free edge added after `getEdges` is not
reported. -/
theorem C28_free_edge_stale :
    ∃ g g' : Graph, g.WF ∧ g.CacheOK ∧ g.addFreeEdge 0 2 = .ok g' ∧ g'.objs = [⟨0, some 1, 3⟩, ⟨0, none, 2⟩] ∧
      g'.getEdges.2 = [0] := by
  obtain ⟨g, hg⟩ : ∃ g, runGraph (Graph.new 2 none) [.addEdge 0 1 3, .getEdges] = .ok g := ⟨_, rfl⟩
  obtain ⟨hw, hc, _, _⟩ := runGraph_spec (Graph.new_wf 2 none) (new_cacheOK 2 none) hg
  have e : runGraph (Graph.new 2 none) [.addEdge 0 1 3, .getEdges] =
      .ok ⟨[[0], [0]], [⟨0, some 1, 3⟩], some [0], false, [none], false, [false, false]⟩ := by rfl
  rw [e] at hg
  injection hg with hg
  subst hg
  exact ⟨_, _, hw, hc, rfl, rfl, rfl⟩

end CTL
