import Verif.Lemmas.Greedy
import Verif.Lemmas.Valid
import Verif.Props.Sequence

/-! # The searches for a contraction sequence (C04, C05, C06, C07) -/

namespace CTL

/-! ### Concrete graphs -/

/-- The graph that an input table describes, for given edge dimensions. -/
def Input.graph (g : Input) (dim : Nat → Nat) : TGraph :=
  ⟨g.edges.length, fun i => (g.edges.getD i []).toFinset, dim, fun i => g.diag.getD i false⟩

/-- A finite check that no edge has three ends. -/
def twoEndsCheck (g : Input) : Bool :=
  let r := List.range g.edges.length
  g.edges.flatten.all fun e => r.all fun i => r.all fun j => r.all fun k =>
    !(decide (e ∈ g.edges.getD i []) && decide (e ∈ g.edges.getD j []) && decide (e ∈ g.edges.getD k [])) ||
      i == j || i == k || j == k

/-- A finite check that suffices for `Describes`. -/
theorem describes_of_check (g : Input) (dim : Nat → Nat)
    (h1 : g.shapes.length = g.edges.length) (h2 : g.diag.length = g.edges.length)
    (h3 : ∀ i, i < g.edges.length → (g.edges.getD i []).Nodup ∧ g.shapes.getD i [] = (g.edges.getD i []).map dim)
    (h4 : twoEndsCheck g = true) :
    Describes g (g.graph dim) := by
  refine ⟨rfl, h1, h2, fun i hi => ⟨(h3 i hi).1, rfl⟩, fun i hi => (h3 i hi).2, fun i _ => rfl, ?_⟩
  intro e i j k hi hj hk ei ej ek
  simp only [Input.graph, List.mem_toFinset] at ei ej ek
  have he : e ∈ g.edges.flatten := by
    rw [List.mem_flatten]
    refine ⟨_, ?_, ei⟩
    rw [List.getD_eq_getElem?_getD, List.getElem?_eq_getElem hi, Option.getD_some]
    exact List.getElem_mem _
  unfold twoEndsCheck at h4
  simp only [List.all_eq_true] at h4
  have := h4 e he i (List.mem_range.mpr hi) j (List.mem_range.mpr hj) k (List.mem_range.mpr hk)
  rw [decide_eq_true ei, decide_eq_true ej, decide_eq_true ek] at this
  simpa [or_assoc] using this

/-- A triangle with one free edge per tensor; dimensions 2, 3, 5 on the bonds 0, 1, 2. -/
def triInput : Input := ⟨[[0, 2, 3], [0, 1, 4], [1, 2, 5]], [[2, 5, 2], [2, 3, 2], [3, 5, 2]], [false, false, false]⟩
def triDim (e : Nat) : Nat := [2, 3, 5, 2, 2, 2].getD e 1

theorem triInput_describes : Describes triInput (triInput.graph triDim) := by
  apply describes_of_check <;> decide +kernel

/-- A chain dense – diagonal – diagonal – dense with bonds of dimension 4. -/
def chainInput : Input := ⟨[[0], [0, 1], [1, 2], [2, 3]], [[4], [4, 4], [4, 4], [4, 6]], [false, true, true, false]⟩
def chainDim (e : Nat) : Nat := [4, 4, 4, 6].getD e 1

theorem chainInput_describes : Describes chainInput (chainInput.graph chainDim) := by
  apply describes_of_check <;> decide +kernel

theorem triInput_dense : ∀ i, (triInput.graph triDim).diag i = false := by
  intro i
  match i with
  | 0 => rfl
  | 1 => rfl
  | 2 => rfl
  | n + 3 => rfl

/-- A graph without diagonal tensors satisfies the condition on diagonal dimensions. -/
theorem diagDims_of_dense {G : TGraph} (h : ∀ i, G.diag i = false) (typ : Option Nat) : G.DiagDims typ := by
  right
  intro S T hS _ _ _ _ hd
  obtain ⟨i, hi⟩ := hS
  have := hd i hi
  rw [h i] at this
  cases this

/-! ### C04: whatever the input, a returned sequence is valid and complete -/

/-- Brute force: for every input on which it returns, the sequence has one step less than there are tensors, and
every step names two distinct slots that hold live tensors. -/
theorem C04_bruteForce_valid {g : Input} {typ : Option Nat} {s : Tables} {q : List (Nat × Nat)}
    (h : bruteForce g typ = .ok (s, q)) : ValidSeq g.edges.length q ∧ q.length + 1 = g.edges.length := by
  obtain ⟨T, hT, rfl⟩ := bruteForce_tree h
  exact ⟨complete_valid hT, C03_valid_length (complete_valid hT)⟩

example : ((bruteForce triInput none).toOption.map fun r => r.2) = some [(0, 2), (1, 0)] := by decide +kernel

/-- Capped search: the same. -/
theorem C04_capping_valid {g : Input} {typ : Option Nat} {fuel : Nat} {s : Tables} {q : List (Nat × Nat)}
    (h : capping g typ fuel = some (.ok (s, q))) : ValidSeq g.edges.length q ∧ q.length + 1 = g.edges.length := by
  obtain ⟨T, hT, rfl⟩ := capping_tree h
  exact ⟨complete_valid hT, C03_valid_length (complete_valid hT)⟩

example : ((capping chainInput none 4).bind fun r => r.toOption.map fun r => r.2) = some [(1, 2), (0, 1), (3, 0)] := by
  decide +kernel

/-- The sequence is that of a contraction tree in which every tensor occurs exactly once. -/
theorem C04_each_tensor_once {g : Input} {typ : Option Nat} {q : List (Nat × Nat)}
    (h : (∃ s, bruteForce g typ = .ok (s, q)) ∨ ∃ fuel s, capping g typ fuel = some (.ok (s, q))) :
    ∃ T : CTree, T.leaves.Perm (List.range g.edges.length) ∧ T.steps = q := by
  rcases h with ⟨s, h⟩ | ⟨fuel, s, h⟩
  · exact bruteForce_tree h
  · exact capping_tree h

example : ∃ s, bruteForce triInput none = .ok (s, [(0, 2), (1, 0)]) := by
  obtain ⟨s, c, q, h, -⟩ := bruteForce_spec triInput_describes (diagDims_of_dense triInput_dense none) (by decide)
  have e : ((bruteForce triInput none).toOption.map fun r => r.2) = some [(0, 2), (1, 0)] := by decide +kernel
  rw [h] at e
  simp only [Except.toOption, Option.map_some, Option.some.injEq] at e
  exact ⟨s, by rw [h, e]⟩

/-- Brute force always returns on a graph with at least one tensor (with real dimensions, if the dimension of a
diagonal result is always defined). -/
theorem C04_bruteForce_returns {g : Input} {G : TGraph} (h : Describes g G) {typ : Option Nat}
    (hd : G.DiagDims typ) (hn : G.n ≠ 0) :
    ∃ s q, bruteForce g typ = .ok (s, q) ∧ ValidSeq G.n q := by
  obtain ⟨s, c, q, h1, _, _⟩ := bruteForce_spec h hd hn
  refine ⟨s, q, h1, ?_⟩
  rw [← h.n]
  exact (C04_bruteForce_valid h1).1

example : Describes triInput (triInput.graph triDim) ∧ (triInput.graph triDim).DiagDims none ∧
    (triInput.graph triDim).n ≠ 0 := ⟨triInput_describes, diagDims_of_dense triInput_dense none, by decide⟩

/-- The documentation promises `a < b` in every step; the searches do not keep this promise (the result then goes
to slot `min(a, b)`, which is what `contractAndCostWithSequence` uses). -/
theorem C04_steps_not_ordered :
    ∃ (g : Input) (G : TGraph) (s : Tables) (q : List (Nat × Nat)), Describes g G ∧
      bruteForce g none = .ok (s, q) ∧ ∃ p ∈ q, ¬ p.1 < p.2 := by
  obtain ⟨s, c, q, h, -⟩ := bruteForce_spec triInput_describes (diagDims_of_dense triInput_dense none) (by decide)
  have e : ((bruteForce triInput none).toOption.map fun r => r.2) = some [(0, 2), (1, 0)] := by decide +kernel
  rw [h] at e
  simp only [Except.toOption, Option.map_some, Option.some.injEq] at e
  exact ⟨triInput, _, s, q, triInput_describes, h, (1, 0), by rw [e]; simp, by decide⟩

/-- Without tensors brute force raises. -/
theorem C04_no_tensors (typ : Option Nat) (shapes : List (List Nat)) (diag : List Bool) :
    bruteForce ⟨[], shapes, diag⟩ typ = .error .typeError := rfl

/-! ### C05: brute force is optimal -/

/-- The cost brute force records for the full set is the total cost of the returned sequence, this sequence is
that of a contraction tree with this total cost, and no contraction tree has a smaller one. -/
theorem C05_bruteForce_optimal {g : Input} {G : TGraph} (h : Describes g G) {typ : Option Nat}
    (hd : G.DiagDims typ) (hn : G.n ≠ 0) :
    ∃ s c q, bruteForce g typ = .ok (s, q) ∧ s.cost (1 <<< G.n - 1) = some c ∧
      (∃ T : CTree, T.Complete G.n ∧ T.steps = q ∧ G.treeCost typ T = c) ∧
      ∀ T : CTree, T.Complete G.n → c ≤ G.treeCost typ T := by
  obtain ⟨s, c, q, h1, h2, T, t1, t2, t3, t4, t5⟩ := bruteForce_spec h hd hn
  refine ⟨s, c, q, h1, h2, ⟨T, complete_iff.mpr ⟨t1, t2⟩, t4, t3⟩, ?_⟩
  intro T' hT'
  obtain ⟨p, v⟩ := complete_iff.mp hT'
  exact t5 T' p v

example : Describes triInput (triInput.graph triDim) ∧ (triInput.graph triDim).DiagDims (some 10) ∧
    (triInput.graph triDim).DiagDims none ∧
    ((bruteForce triInput none).toOption.bind fun r => r.1.cost 7) = some (2 * 5 * 2 * 3 * 2 + 2 * 2 * 2 * 3 * 2) := by
  refine ⟨triInput_describes, Or.inl rfl, diagDims_of_dense triInput_dense none, by decide +kernel⟩

/-- With a typical dimension there is no condition on diagonal tensors. -/
theorem C05_bruteForce_optimal_typical {g : Input} {G : TGraph} (h : Describes g G) (d : Nat) (hn : G.n ≠ 0) :
    ∃ s c q, bruteForce g (some d) = .ok (s, q) ∧ s.cost (1 <<< G.n - 1) = some c ∧
      (∃ T : CTree, T.Complete G.n ∧ T.steps = q ∧ G.treeCost (some d) T = c) ∧
      ∀ T : CTree, T.Complete G.n → c ≤ G.treeCost (some d) T :=
  C05_bruteForce_optimal h (Or.inl rfl) hn

example : Describes chainInput (chainInput.graph chainDim) ∧ (chainInput.graph chainDim).n ≠ 0 :=
  ⟨chainInput_describes, by decide⟩

/-- Two diagonal tensors joined by their only edge, and a third one on its own. -/
def closedInput : Input := ⟨[[0], [0], [1]], [[2], [2], [3]], [true, true, true]⟩

/-- The condition on diagonal tensors is needed: with real dimensions, brute force raises on a network of three
diagonal tensors two of which form a closed component. -/
theorem C05_closed_diagonal_raises :
    Describes closedInput (closedInput.graph fun e => if e = 0 then 2 else 3) ∧
    (bruteForce closedInput none).toOption.isNone := by
  refine ⟨?_, by decide +kernel⟩
  apply describes_of_check <;> decide +kernel

/-- Two disconnected diagonal tensors of dimensions 2 and 5, in both orders. -/
def outerInput : Input := ⟨[[0], [1]], [[2], [5]], [true, true]⟩
def outerInput' : Input := ⟨[[1], [0]], [[5], [2]], [true, true]⟩

/-- The cost of a diagonal outer product depends on the order of the operands, so the reported minimum depends on
the numbering of the tensors. -/
theorem C05_diagonal_outer_cost_depends_on_order :
    ((bruteForce outerInput none).toOption.bind fun r => r.1.cost 3) = some 2 ∧
    ((bruteForce outerInput' none).toOption.bind fun r => r.1.cost 3) = some 5 := by
  decide +kernel

/-! ### C06: the capped search -/

/-- Whenever the capped search returns, it returns normally, and the sequence and the recorded cost are those of a
tree without outer products of diagonal tensors which is cheapest among all such trees. -/
theorem C06_capping_optimal {g : Input} {G : TGraph} (h : Describes g G) {typ : Option Nat} (hu : G.DiagUniform)
    (hp : ∀ i, i < G.n → ∀ e ∈ G.edges i, 0 < G.dim e) (ht : typ ≠ some 0) (hn : G.n ≠ 0)
    (hne : typ.isSome ∨ ∀ i, i < G.n → (G.edges i).Nonempty) {fuel : Nat} {r}
    (hr : capping g typ fuel = some r) :
    ∃ s c q, r = .ok (s, q) ∧ s.cost (1 <<< G.n - 1) = some c ∧
      (∃ T : CTree, T.Complete G.n ∧ G.NoDiagOuter T ∧ T.steps = q ∧ G.treeCost typ T = c) ∧
      ∀ T : CTree, T.Complete G.n → G.NoDiagOuter T → c ≤ G.treeCost typ T := by
  have H : CapHyp G typ := by
    refine ⟨h.ends, hu, ?_, ht⟩
    intro i hi e he
    cases typ with
    | none => exact hp i hi e he
    | some d => exact Nat.pos_of_ne_zero fun h0 => ht (by rw [← h0]; rfl)
  obtain ⟨s, c, q, h1, h2, T, t1, t2, t3, t4, t5⟩ := (capping_spec H h hn hne).1 fuel r hr
  exact ⟨s, c, q, h1, h2, ⟨T, t1, t2, t4, t3⟩, t5⟩

/-- The capped search returns after at most as many rounds as the cost of any tree without outer products of
diagonal tensors. -/
theorem C06_capping_terminates {g : Input} {G : TGraph} (h : Describes g G) {typ : Option Nat} (hu : G.DiagUniform)
    (hp : ∀ i, i < G.n → ∀ e ∈ G.edges i, 0 < G.dim e) (ht : typ ≠ some 0) (hn : G.n ≠ 0)
    (hne : typ.isSome ∨ ∀ i, i < G.n → (G.edges i).Nonempty) {T : CTree} (hT : T.Complete G.n)
    (hT' : G.NoDiagOuter T) {fuel : Nat} (hf : G.treeCost typ T ≤ fuel) :
    ∃ s q, capping g typ fuel = some (.ok (s, q)) := by
  have H : CapHyp G typ := by
    refine ⟨h.ends, hu, ?_, ht⟩
    intro i hi e he
    cases typ with
    | none => exact hp i hi e he
    | some d => exact Nat.pos_of_ne_zero fun h0 => ht (by rw [← h0]; rfl)
  obtain ⟨r, hr⟩ := Option.isSome_iff_exists.mp ((capping_spec H h hn hne).2 T hT hT' fuel hf)
  obtain ⟨s, c, q, rfl, _⟩ := C06_capping_optimal h hu hp ht hn hne hr
  exact ⟨s, q, hr⟩

theorem chain_hyps : (chainInput.graph chainDim).DiagUniform ∧
    (∀ i, i < (chainInput.graph chainDim).n → ∀ e ∈ (chainInput.graph chainDim).edges i,
      0 < (chainInput.graph chainDim).dim e) ∧
    ∀ i, i < (chainInput.graph chainDim).n → ((chainInput.graph chainDim).edges i).Nonempty := by
  refine ⟨?_, ?_, ?_⟩
  · show ∀ i, i < 4 → (chainInput.graph chainDim).diag i = true → ∀ e ∈ (chainInput.graph chainDim).edges i,
      ∀ e' ∈ (chainInput.graph chainDim).edges i, chainDim e = chainDim e'
    decide +kernel
  · show ∀ i, i < 4 → ∀ e ∈ (chainInput.graph chainDim).edges i, 0 < chainDim e
    decide +kernel
  · show ∀ i, i < 4 → ((chainInput.graph chainDim).edges i).Nonempty
    decide +kernel

/-- The tree ((0 1) 2) 3. -/
def chainTree : CTree := .node (.node (.node (.leaf 0) (.leaf 1)) (.leaf 2)) (.leaf 3)

theorem chainTree_ok : chainTree.Complete (chainInput.graph chainDim).n ∧ (chainInput.graph chainDim).NoDiagOuter chainTree := by
  refine ⟨by unfold CTree.Complete; decide, ⟨⟨trivial, trivial, ?_⟩, trivial, ?_⟩, trivial, ?_⟩
  · rintro ⟨h, _⟩
    have := h 0 (by decide)
    cases this
  · rintro ⟨h, _⟩
    have := h 0 (by decide)
    cases this
  · rintro ⟨h, _⟩
    have := h 0 (by decide)
    cases this

example : ∃ s q, capping chainInput none 40 = some (.ok (s, q)) :=
  C06_capping_terminates chainInput_describes chain_hyps.1 chain_hyps.2.1 (by decide) (by decide)
    (Or.inr chain_hyps.2.2) chainTree_ok.1 chainTree_ok.2 (by decide +kernel)

/-- If every tree contains an outer product of diagonal tensors, the capped search runs forever. -/
theorem C06_capping_diverges {g : Input} {G : TGraph} (h : Describes g G) {typ : Option Nat} (hu : G.DiagUniform)
    (hp : ∀ i, i < G.n → ∀ e ∈ G.edges i, 0 < G.dim e) (ht : typ ≠ some 0) (hn : G.n ≠ 0)
    (hne : typ.isSome ∨ ∀ i, i < G.n → (G.edges i).Nonempty)
    (hno : ∀ T : CTree, T.Complete G.n → ¬ G.NoDiagOuter T) (fuel : Nat) : capping g typ fuel = none := by
  cases hr : capping g typ fuel with
  | none => rfl
  | some r =>
    obtain ⟨s, c, q, _, _, ⟨T, h1, h2, _⟩, _⟩ := C06_capping_optimal h hu hp ht hn hne hr
    exact absurd h2 (hno T h1)

/-- In particular on two disconnected diagonal tensors, for every cap. -/
theorem C06_disconnected_diagonals_diverge (fuel : Nat) : capping outerInput (some 10) fuel = none := by
  have hd : Describes outerInput (outerInput.graph fun e => if e = 0 then 2 else 5) := by
    apply describes_of_check <;> decide +kernel
  refine C06_capping_diverges hd ?_ ?_ (by decide) (by decide) (Or.inl rfl) ?_ fuel
  · show ∀ i, i < 2 → (outerInput.graph fun e => if e = 0 then 2 else 5).diag i = true →
      ∀ e ∈ (outerInput.graph fun e => if e = 0 then 2 else 5).edges i,
      ∀ e' ∈ (outerInput.graph fun e => if e = 0 then 2 else 5).edges i, (if e = 0 then 2 else 5) = if e' = 0 then 2 else 5
    decide +kernel
  · show ∀ i, i < 2 → ∀ e ∈ (outerInput.graph fun e => if e = 0 then 2 else 5).edges i, 0 < if e = 0 then 2 else 5
    decide +kernel
  · intro T hT hno
    obtain ⟨hp, hv⟩ := complete_iff.mp hT
    have hlen : T.leaves.length = 2 := by rw [hT.length_eq, List.length_range]; rfl
    have leaf : ∀ t : CTree, t.leaves.length = 1 → ∃ i, t = .leaf i := by
      intro t ht
      cases t with
      | leaf i => exact ⟨i, rfl⟩
      | node l r =>
        have e : (CTree.node l r).leaves = l.leaves ++ r.leaves := rfl
        rw [e, List.length_append] at ht
        have := steps_length l
        have := steps_length r
        omega
    cases T with
    | leaf i => simp [CTree.leaves] at hlen
    | node l r =>
      have e : (CTree.node l r).leaves = l.leaves ++ r.leaves := rfl
      rw [e, List.length_append] at hlen
      have h1 := steps_length l
      have h2 := steps_length r
      obtain ⟨i, rfl⟩ := leaf l (by omega)
      obtain ⟨j, rfl⟩ := leaf r (by omega)
      obtain ⟨_, _, dis⟩ := Proper.node.mp hp
      have hi : i < 2 := hp.2 i (by simp [CTree.leaves])
      have hj : j < 2 := hp.2 j (by simp [CTree.leaves])
      apply hno.2.2
      rw [verts_leaf, verts_leaf] at *
      have hij : i ≠ j := by simpa using dis
      rw [openEdges_singleton, openEdges_singleton]
      have : (i = 0 ∧ j = 1) ∨ (i = 1 ∧ j = 0) := by omega
      rcases this with ⟨rfl, rfl⟩ | ⟨rfl, rfl⟩
      · exact ⟨by intro k hk; rw [Finset.mem_singleton] at hk; subst hk; rfl,
          by intro k hk; rw [Finset.mem_singleton] at hk; subst hk; rfl, by decide⟩
      · exact ⟨by intro k hk; rw [Finset.mem_singleton] at hk; subst hk; rfl,
          by intro k hk; rw [Finset.mem_singleton] at hk; subst hk; rfl, by decide⟩

/-- With real dimensions, a tensor without legs makes the capped search raise before it starts. -/
theorem C06_scalar_raises (fuel : Nat) :
    capping ⟨[[0], [0], []], [[2], [2], []], [false, false, false]⟩ none fuel = some (.error .valueError) := rfl

/-- Two dense tensors joined by an edge of dimension 0. -/
def zeroInput : Input := ⟨[[0], [0]], [[0], [0]], [false, false]⟩

/-- Positive dimensions are needed: a step of cost 0 is never accepted, so the capped search runs forever on two
tensors joined by an edge of dimension 0. -/
theorem C06_zero_cost_diverges (fuel : Nat) : capping zeroInput none fuel = none := by
  have step : ∀ (s : CapState) mo mn, s.tab.cost 1 = some 0 → s.tab.cost 2 = some 0 →
      s.tab.res 1 = some ⟨[0], [0], false⟩ → s.tab.res 2 = some ⟨[0], [0], false⟩ → s.objs 1 = [1, 2] →
      s.objs 2 = [] → ∃ s', capRound none 2 mo mn s = .ok s' ∧ s'.tab.cost = s.tab.cost ∧
        s'.tab.res 1 = s.tab.res 1 ∧ s'.tab.res 2 = s.tab.res 2 ∧ s'.objs = s.objs := by
    intro s mo mn h1 h2 h3 h4 h5 h6
    have hc : costFunc none ⟨[0], [0], false⟩ ⟨[0], [0], false⟩ = .ok 0 := by decide +kernel
    have hr : capRound none 2 mo mn s = capPair none mo mn 2 s (1, 2) := by
      unfold capRound
      simp only [show List.range' 2 1 = [2] from rfl, List.foldlM_cons, List.foldlM_nil,
        show 2 / 2 = 1 from rfl, show List.range' 1 1 = [1] from rfl, objPairs, if_true, h5,
        show objPairsSame [1, 2] = [(1, 2)] from rfl, show 2 - 1 = 1 from rfl]
      cases capPair none mo mn 2 s (1, 2) <;> rfl
    rw [hr]
    unfold capPair
    rw [if_neg (by decide)]
    have hd : isDiagonalOuterProduct ⟨[0], [0], false⟩ ⟨[0], [0], false⟩ = false := rfl
    by_cases hres : (s.tab.res (1 ||| 2)).isNone = true
    · simp only [Tables.getRes, h3, h4, bind, Except.bind, hd, if_pos hres, Tables.getCost, h1, h2, hc, Nat.add_zero,
        Nat.not_lt_zero, if_false, pure, Except.pure]
      have u1 := upd_ne s.tab.res (x := 1 ||| 2) (y := 1) (some (calcRes ⟨[0], [0], false⟩ ⟨[0], [0], false⟩)) (by decide)
      have u2 := upd_ne s.tab.res (x := 1 ||| 2) (y := 2) (some (calcRes ⟨[0], [0], false⟩ ⟨[0], [0], false⟩)) (by decide)
      generalize upd s.tab.res (1 ||| 2) (some (calcRes ⟨[0], [0], false⟩ ⟨[0], [0], false⟩)) = u at u1 u2 ⊢
      exact ⟨_, rfl, rfl, u1.trans h3, u2.trans h4, rfl⟩
    · simp only [Tables.getRes, h3, h4, bind, Except.bind, hd, if_neg hres, Tables.getCost, h1, h2, hc, Nat.add_zero,
        Nat.not_lt_zero, if_false, pure, Except.pure]
      exact ⟨_, rfl, rfl, by rw [h3], by rw [h4], rfl⟩
  have loop : ∀ fuel mo mn (s : CapState), s.tab.cost 1 = some 0 → s.tab.cost 2 = some 0 →
      s.tab.res 1 = some ⟨[0], [0], false⟩ → s.tab.res 2 = some ⟨[0], [0], false⟩ → s.objs 1 = [1, 2] →
      s.objs 2 = [] → capLoop none 2 2 fuel mo mn s = none := by
    intro fuel
    induction fuel with
    | zero =>
      intro mo mn s _ _ _ _ _ h6
      unfold capLoop
      rw [if_neg (by rw [h6]; simp)]
    | succ fuel ih =>
      intro mo mn s h1 h2 h3 h4 h5 h6
      obtain ⟨s', e, c, r1, r2, o⟩ := step s mo mn h1 h2 h3 h4 h5 h6
      unfold capLoop
      rw [if_neg (by rw [h6]; simp)]
      simp only [e]
      exact ih _ _ _ (by rw [(clearNew_tab 2 s').1, c]; exact h1) (by rw [(clearNew_tab 2 s').1, c]; exact h2)
        (by rw [(clearNew_tab 2 s').1, r1]; exact h3) (by rw [(clearNew_tab 2 s').1, r2]; exact h4)
        (by rw [(clearNew_tab 2 s').2, o]; exact h5) (by rw [(clearNew_tab 2 s').2, o]; exact h6)
  have hcm : chiMin zeroInput none = .ok 2 := rfl
  unfold capping
  rw [hcm]
  simp only [show zeroInput.edges.length = 2 from rfl]
  rw [loop fuel 0 1 _ rfl rfl rfl rfl rfl rfl]
  rfl

/-! ### C07: greedy search -/

/-- On a connected graph the greedy search returns a valid sequence of `n - 1` steps with `a < b` in every step. -/
theorem C07_greedy_valid {g : Input} {G : TGraph} (h : Describes g G) (hu : G.DiagUniform) (hn : G.n ≠ 0)
    (hc : G.Connected) :
    ∃ c q, greedySearch g = .ok (c, q) ∧ ValidSeq G.n q ∧ q.length + 1 = G.n ∧ ∀ p ∈ q, p.1 < p.2 := by
  obtain ⟨h1, h2⟩ := greedySearch_spec h hu hn
  obtain ⟨⟨c, q⟩, hr⟩ := h1 hc
  obtain ⟨_, hv, _, hg, _⟩ := h2 c q hr
  refine ⟨c, q, hr, hv, C03_valid_length hv, ?_⟩
  have : ∀ (q : List (Nat × Nat)) live grp, G.greedyFrom live grp q → ∀ p ∈ q, p.1 < p.2 := by
    intro q
    induction q with
    | nil => intro _ _ _ p hp; cases hp
    | cons p q ih =>
      intro live grp hg p' hp'
      obtain ⟨a, b⟩ := p
      obtain ⟨_, _, hab, _, _, hrest⟩ := hg
      rw [List.mem_cons] at hp'
      rcases hp' with rfl | hp'
      · exact hab
      · exact ih _ _ hrest p' hp'
  exact this q _ _ hg

theorem triInput_connected : (triInput.graph triDim).Connected := by
  intro i j hi hj
  have hi' : i < 3 := hi
  have hj' : j < 3 := hj
  by_cases hij : i = j
  · subst hij; exact .refl
  · apply Relation.ReflTransGen.single
    refine ⟨hi, hj, ?_⟩
    have h0 : 0 ∈ (triInput.graph triDim).edges 0 ∧ 0 ∈ (triInput.graph triDim).edges 1 := by decide
    have h1 : 1 ∈ (triInput.graph triDim).edges 1 ∧ 1 ∈ (triInput.graph triDim).edges 2 := by decide
    have h2 : 2 ∈ (triInput.graph triDim).edges 0 ∧ 2 ∈ (triInput.graph triDim).edges 2 := by decide
    have : (i = 0 ∧ j = 1) ∨ (i = 1 ∧ j = 0) ∨ (i = 1 ∧ j = 2) ∨ (i = 2 ∧ j = 1) ∨ (i = 0 ∧ j = 2) ∨ (i = 2 ∧ j = 0) := by
      omega
    rcases this with ⟨rfl, rfl⟩ | ⟨rfl, rfl⟩ | ⟨rfl, rfl⟩ | ⟨rfl, rfl⟩ | ⟨rfl, rfl⟩ | ⟨rfl, rfl⟩
    · exact ⟨0, h0⟩
    · exact ⟨0, h0.symm⟩
    · exact ⟨1, h1⟩
    · exact ⟨1, h1.symm⟩
    · exact ⟨2, h2⟩
    · exact ⟨2, h2.symm⟩

theorem triInput_uniform : (triInput.graph triDim).DiagUniform := by
  intro i _ h
  rw [triInput_dense i] at h
  cases h

example : Describes triInput (triInput.graph triDim) ∧ (triInput.graph triDim).DiagUniform ∧
    (triInput.graph triDim).n ≠ 0 ∧ (triInput.graph triDim).Connected ∧
    greedySearch triInput = .ok (120 + 48, [(0, 2), (0, 1)]) := by
  refine ⟨triInput_describes, triInput_uniform, by decide, triInput_connected, by decide +kernel⟩

/-- On a graph that is not connected it does not return. -/
theorem C07_greedy_disconnected {g : Input} {G : TGraph} (h : Describes g G) (hu : G.DiagUniform)
    (hc : ¬ G.Connected) : ∃ e, greedySearch g = .error e := by
  have hn : G.n ≠ 0 := by
    intro h0
    apply hc
    intro i j hi
    omega
  cases hr : greedySearch g with
  | error e => exact ⟨e, rfl⟩
  | ok r => exact absurd ((greedySearch_spec h hu hn).2 r.1 r.2 hr).1 hc

theorem outerInput_not_connected : ¬ (outerInput.graph fun e => if e = 0 then 2 else 5).Connected := by
  intro h
  have key : ∀ u, Relation.ReflTransGen (outerInput.graph fun e => if e = 0 then 2 else 5).Adj 0 u → u = 0 := by
    intro u hu
    induction hu with
    | refl => rfl
    | @tail b c _ hbc ih =>
      subst ih
      obtain ⟨_, hc, e, h1, h2⟩ := hbc
      have hc' : c < 2 := hc
      match c, hc' with
      | 0, _ => rfl
      | 1, _ =>
        simp [Input.graph, outerInput] at h1 h2
        omega
  have := key 1 (h 0 1 (by decide) (by decide))
  cases this

example : Describes outerInput (outerInput.graph fun e => if e = 0 then 2 else 5) ∧
    ¬ (outerInput.graph fun e => if e = 0 then 2 else 5).Connected :=
  ⟨by apply describes_of_check <;> decide +kernel, outerInput_not_connected⟩

/-- What "greedy" means: every step contracts two live tensors with a common edge such that no other such pair has
a result with fewer entries; and the reported cost is the total cost of the steps, which is also that of a
contraction tree. -/
theorem C07_greedy_choice {g : Input} {G : TGraph} (h : Describes g G) (hu : G.DiagUniform) (hn : G.n ≠ 0)
    {c : Nat} {q : List (Nat × Nat)} (hr : greedySearch g = .ok (c, q)) :
    G.greedyFrom (List.range G.n) (fun i => {i}) q ∧ c = G.seqCost none (fun i => {i}) q ∧
      ∃ T : CTree, T.Complete G.n ∧ G.treeCost none T = c := by
  obtain ⟨_, _, h3, h4, h5⟩ := (greedySearch_spec h hu hn).2 c q hr
  exact ⟨h4, h3, h5⟩

example : Describes chainInput (chainInput.graph chainDim) ∧ (chainInput.graph chainDim).DiagUniform ∧
    greedySearch chainInput = .ok (4 + 4 + 24, [(0, 1), (0, 2), (0, 3)]) :=
  ⟨chainInput_describes, chain_hyps.1, by decide +kernel⟩

end CTL
