import Verif.Model.Lattice
import Verif.Spec.Lattice
import Verif.Spec.Graph
import Verif.Lemmas.Graph
import Verif.Props.Graph
import Mathlib.Data.List.ProdSigma
import Mathlib.Data.List.Range

namespace CTL

variable {W : Type}

theorem runGraph_append (a b : List (GraphOp W)) : ∀ g, runGraph g (a ++ b) = (runGraph g a).bind fun g => runGraph g b := by
  induction a with
  | nil => intro g; rfl
  | cons o a ih =>
    intro g
    cases o with
    | addEdge i j w =>
      simp only [List.cons_append, runGraph]
      cases g.addEdge i j w with
      | error e => rfl
      | ok g1 => exact ih g1
    | getEdges => exact ih _

theorem foldlM_runGraph {α : Type} (body : Graph W → α → Except PyErr (Graph W)) (ops : α → List (GraphOp W)) :
    ∀ (l : List α), (∀ a ∈ l, ∀ g, body g a = runGraph g (ops a)) → ∀ g, l.foldlM body g = runGraph g (l.flatMap ops) := by
  intro l
  induction l with
  | nil => intro _ g; rfl
  | cons a l ih =>
    intro h g
    rw [List.foldlM_cons, List.flatMap_cons, runGraph_append, h a (by simp)]
    show (runGraph g (ops a)).bind _ = _
    cases runGraph g (ops a) with
    | error e => rfl
    | ok g1 => exact ih (fun b hb => h b (by simp [hb])) g1

/-- The operations that add the edges of a list. -/
def addOps (es : List (Nat × Nat × W)) : List (GraphOp W) := es.map fun e => .addEdge e.1 e.2.1 e.2.2

theorem addedEdges_addOps (es : List (Nat × Nat × W)) : addedEdges (addOps es) = es := by
  induction es with
  | nil => rfl
  | cons e es ih =>
    simp only [addOps, addedEdges, List.map_cons, List.filterMap_cons] at ih ⊢
    rw [ih]

theorem flatMap_addOps {α : Type} (l : List α) (f : α → List (Nat × Nat × W)) :
    (l.flatMap fun a => addOps (f a)) = addOps (l.flatMap f) := by
  simp only [addOps, List.map_flatMap]

theorem addEdgeInt_nat (g : Graph W) (i j : Nat) (w : W) : g.addEdgeInt (i : Int) (j : Int) w = g.addEdge i j w := by
  unfold Graph.addEdgeInt
  rw [if_pos ⟨by omega, by omega⟩]
  simp

/-- All pairs of coordinates. -/
def grid (n m : Nat) : List (Nat × Nat) := (List.range n) ×ˢ (List.range m)

theorem mem_grid {n m : Nat} {p : Nat × Nat} : p ∈ grid n m ↔ p.1 < n ∧ p.2 < m := by
  obtain ⟨x, y⟩ := p
  unfold grid
  rw [List.mem_product]
  simp

theorem grid_nodup (n m : Nat) : (grid n m).Nodup := List.nodup_range.product List.nodup_range

theorem grid_length (n m : Nat) : (grid n m).length = n * m := by
  unfold grid
  rw [List.length_product]
  simp

theorem latticeLoop_run (n m : Nat) (body : Graph W → Nat → Nat → Except PyErr (Graph W))
    (es : Nat × Nat → List (Nat × Nat × W))
    (h : ∀ x y, x < n → y < m → ∀ g, body g x y = runGraph g (addOps (es (x, y)))) (g : Graph W) :
    latticeLoop n m body g = runGraph g (addOps ((grid n m).flatMap es)) := by
  unfold latticeLoop
  rw [foldlM_runGraph _ (fun x => addOps ((List.range m).flatMap fun y => es (x, y)))]
  · rw [flatMap_addOps]
    show _ = runGraph g (addOps (((List.range n).flatMap fun a => (List.range m).map (Prod.mk a)).flatMap es))
    rw [List.flatMap_assoc]
    congr 3
    funext x
    rw [List.flatMap_map]
  · intro x hx g
    rw [foldlM_runGraph _ (fun y => addOps (es (x, y)))]
    · rw [flatMap_addOps]
    · intro y hy g
      exact h x y (List.mem_range.mp hx) (List.mem_range.mp hy) g

/-- The graph obtained by adding the edges `es` to `N` vertices. -/
def Built (N : Nat) (es : List (Nat × Nat × W)) (g : Graph W) : Prop :=
  runGraph (Graph.new N none) (addOps es) = .ok g

theorem built_exists {N : Nat} {es : List (Nat × Nat × W)} (h : ∀ e ∈ es, e.1 < N ∧ e.2.1 < N) : ∃ g, Built N es g :=
  ((C28_addEdge_bounds N none (addOps es)).1).mpr (by rw [addedEdges_addOps]; exact h)

/-- Weights of the edges stored with first end `i` and second end `j`. -/
def weightsFrom (es : List (Nat × Nat × W)) (i j : Nat) : List W :=
  (es.filter fun e => e.1 = i ∧ e.2.1 = j).map fun e => e.2.2

theorem Built.reported {N : Nat} {es : List (Nat × Nat × W)} {g : Graph W} (h : Built N es g) :
    g.reported.Perm (es.map fun e => ⟨e.1, some e.2.1, e.2.2⟩) := by
  have := (C28_getEdges h).2
  rwa [addedEdges_addOps] at this

theorem Built.edges {N : Nat} {es : List (Nat × Nat × W)} {g : Graph W} (h : Built N es g) :
    g.getEdges.2.length = es.length := by
  obtain ⟨hw, hc, _, ho⟩ := runGraph_spec (Graph.new_wf N none) (new_cacheOK N none) h
  rw [(getEdges_perm hw hc).1.length_eq, ho, addedEdges_addOps]
  simp [Graph.new]

theorem Built.vertices {N : Nat} {es : List (Nat × Nat × W)} {g : Graph W} (h : Built N es g) : g.v.length = N := by
  obtain ⟨hw, hc, hl, ho⟩ := runGraph_spec (Graph.new_wf N none) (new_cacheOK N none) h
  rw [hl]
  simp [Graph.new]

theorem Built.degree {N : Nat} {es : List (Nat × Nat × W)} {g : Graph W} (h : Built N es g) {k : Nat} (hk : k < N) :
    g.degree k = (es.map fun e => e.1).count k + (es.map fun e => e.2.1).count k := by
  rw [C28_degree h hk, addedEdges_addOps]
  clear h
  induction es with
  | nil => rfl
  | cons e es ih =>
    rw [List.map_cons, List.map_cons, List.map_cons, List.sum_cons, ih, List.count_cons, List.count_cons]
    simp only [List.count_cons, List.count_nil, beq_iff_eq]
    omega

theorem filter_or_perm {α : Type} (p q : α → Prop) [DecidablePred p] [DecidablePred q] (l : List α)
    (h : ∀ a ∈ l, ¬ (p a ∧ q a)) :
    (l.filter fun a => p a ∨ q a).Perm (l.filter (fun a => p a) ++ l.filter fun a => q a) := by
  induction l with
  | nil => simp
  | cons a l ih =>
    have ih := ih fun b hb => h b (by simp [hb])
    have ha := h a (by simp)
    by_cases hp : p a
    · have hq : ¬ q a := fun hq => ha ⟨hp, hq⟩
      simp only [List.filter_cons, hp, hq, or_false, decide_true, if_true, decide_false, Bool.false_eq_true, if_false,
        List.cons_append]
      exact ih.cons a
    · by_cases hq : q a
      · simp only [List.filter_cons, hp, hq, or_true, decide_true, if_true, decide_false, Bool.false_eq_true, if_false]
        exact (ih.cons a).trans List.perm_middle.symm
      · simp only [List.filter_cons, hp, hq, or_self, decide_false, Bool.false_eq_true, if_false]
        exact ih

theorem Built.between {N : Nat} {es : List (Nat × Nat × W)} {g : Graph W} (h : Built N es g) {i j : Nat} (hij : i ≠ j) :
    (g.weightsBetween i j).Perm (weightsFrom es i j ++ weightsFrom es j i) := by
  unfold Graph.weightsBetween
  refine ((h.reported.filter _).map _).trans ?_
  rw [List.filter_map, List.map_map]
  have e : (es.filter fun e => (e.1 = i ∧ e.2.1 = j) ∨ (e.1 = j ∧ e.2.1 = i)).Perm _ :=
    filter_or_perm (fun e => e.1 = i ∧ e.2.1 = j) (fun e => e.1 = j ∧ e.2.1 = i) es (by
      rintro a - ⟨⟨h1, _⟩, ⟨h2, _⟩⟩
      exact hij (h1.symm.trans h2))
  have e2 := e.map fun e => e.2.2
  rw [List.map_append] at e2
  simpa [Function.comp_def, weightsFrom] using e2

theorem Built.loops {N : Nat} {es : List (Nat × Nat × W)} {g : Graph W} (h : Built N es g) (i : Nat) :
    (g.weightsBetween i i).Perm (weightsFrom es i i) := by
  unfold Graph.weightsBetween
  refine ((h.reported.filter _).map _).trans ?_
  rw [List.filter_map, List.map_map]
  simp [Function.comp_def, weightsFrom]

theorem weightsFrom_perm {es fs : List (Nat × Nat × W)} (h : es.Perm fs) (i j : Nat) :
    (weightsFrom es i j).Perm (weightsFrom fs i j) := (h.filter _).map _

theorem weightsFrom_append (es fs : List (Nat × Nat × W)) (i j : Nat) :
    weightsFrom (es ++ fs) i j = weightsFrom es i j ++ weightsFrom fs i j := by
  simp [weightsFrom]

theorem weightsFrom_nil {es : List (Nat × Nat × W)} {i j : Nat} (h : ∀ e ∈ es, ¬ (e.1 = i ∧ e.2.1 = j)) :
    weightsFrom es i j = [] := by
  unfold weightsFrom
  rw [List.filter_eq_nil_iff.mpr, List.map_nil]
  intro e he
  simpa using h e he

/-- If every element of `l` adds at most one edge, from an end that belongs to it alone. -/
theorem weightsFrom_family {α : Type} (l : List α) (hl : l.Nodup) (src : α → Nat)
    (inj : ∀ a ∈ l, ∀ b ∈ l, src a = src b → a = b) (f : α → Option (Nat × W)) {a : α} (ha : a ∈ l) (t : Nat) :
    weightsFrom (l.flatMap fun a => (f a).toList.map fun d => (src a, d.1, d.2)) (src a) t =
      ((f a).filter fun d => d.1 = t).toList.map fun d => d.2 := by
  induction l with
  | nil => cases ha
  | cons b l ih =>
    rw [List.nodup_cons] at hl
    rw [List.flatMap_cons, weightsFrom_append]
    have one : ∀ c, src c = src a → weightsFrom ((f c).toList.map fun d => (src c, d.1, d.2)) (src a) t =
        ((f c).filter fun d => d.1 = t).toList.map fun d => d.2 := by
      intro c hc
      cases hf : f c with
      | none => simp [weightsFrom]
      | some d =>
        by_cases hd : d.1 = t <;> simp [weightsFrom, hc, hd, Option.filter]
    rcases List.mem_cons.mp ha with rfl | ha'
    · rw [one a rfl, weightsFrom_nil (es := l.flatMap _), List.append_nil]
      rintro e he ⟨h1, _⟩
      simp only [List.mem_flatMap, List.mem_map] at he
      obtain ⟨c, hc, d, _, rfl⟩ := he
      have := inj c (by simp [hc]) a (by simp) h1
      subst this
      exact hl.1 hc
    · rw [ih hl.2 (fun x hx y hy => inj x (by simp [hx]) y (by simp [hy])) ha', weightsFrom_nil, List.nil_append]
      rintro e he ⟨h1, _⟩
      simp only [List.mem_map] at he
      obtain ⟨d, _, rfl⟩ := he
      have := inj b (by simp) a ha h1
      subst this
      exact hl.1 ha'

theorem siteIndex_lt {n m x y : Nat} (hx : x < n) (hy : y < m) : siteIndex m x y < n * m := by
  unfold siteIndex
  have : (x + 1) * m ≤ n * m := Nat.mul_le_mul_right m hx
  rw [Nat.add_mul, Nat.one_mul] at this
  omega

theorem siteIndex_inj {m x y x' y' : Nat} (hy : y < m) (hy' : y' < m) :
    siteIndex m x y = siteIndex m x' y' ↔ x = x' ∧ y = y' := by
  constructor
  · intro h
    unfold siteIndex at h
    have h1 : (x * m + y) / m = x := by
      rw [Nat.mul_comm, Nat.mul_add_div (by omega), Nat.div_eq_of_lt hy, Nat.add_zero]
    have h2 : (x' * m + y') / m = x' := by
      rw [Nat.mul_comm, Nat.mul_add_div (by omega), Nat.div_eq_of_lt hy', Nat.add_zero]
    have hx : x = x' := by rw [← h1, h, h2]
    subst hx
    exact ⟨rfl, by omega⟩
  · rintro ⟨rfl, rfl⟩; rfl

/-- A list without repetitions of `N` numbers below `N` contains each of them once. -/
theorem count_one {l : List Nat} {N : Nat} (hn : l.Nodup) (hl : l.length = N) (hb : ∀ k ∈ l, k < N) {k : Nat} (hk : k < N) :
    l.count k = 1 := by
  have hs : l ⊆ List.range N := fun k h => List.mem_range.mpr (hb k h)
  have hp : l.Perm (List.range N) :=
    (List.subperm_of_subset hn hs).perm_of_length_le (by simp [hl])
  rw [hp.count_eq, List.count_eq_one_of_mem List.nodup_range (List.mem_range.mpr hk)]

end CTL
