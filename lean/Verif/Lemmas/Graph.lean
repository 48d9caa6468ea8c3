import Verif.Spec.Graph
import Mathlib.Data.List.Perm.Basic
import Mathlib.Data.List.Nodup
import Mathlib.Algebra.BigOperators.Group.List.Basic
import Mathlib.Data.Fintype.Basic
import Mathlib.Algebra.Order.Group.Nat

/-! Invariants of the graph operations. -/

namespace CTL

variable {W : Type}

/-- The lists at the vertices hold every edge as often as it ends there. -/
structure Graph.WF {W : Type} (g : Graph W) : Prop where
  ends : ∀ o ∈ g.objs, ∀ x ∈ o.ends, x < g.v.length
  count : ∀ k, k < g.v.length → ∀ e, (g.v.getD k []).count e = ((g.objs[e]?).map fun o => o.ends.count k).getD 0
  index : g.index.length = g.objs.length

theorem Graph.new_wf (n : Nat) (d : Option (List Bool)) : (Graph.new (W := W) n d).WF := by
  refine ⟨by simp [Graph.new], ?_, by simp [Graph.new]⟩
  intro k hk e
  simp only [Graph.new, List.length_replicate] at hk
  simp [Graph.new, List.getD_eq_getElem?_getD, List.getElem?_replicate, hk]

theorem getD_modify {α : Type} (l : List α) (i k : Nat) (f : α → α) (d : α) (hk : k < l.length) :
    (l.modify i f).getD k d = if i = k then f (l.getD k d) else l.getD k d := by
  rw [List.getD_eq_getElem?_getD, List.getElem?_modify, List.getElem?_eq_getElem hk,
    List.getD_eq_getElem?_getD, List.getElem?_eq_getElem hk]
  by_cases h : i = k <;> simp [h]

theorem count_new {g : Graph W} (h : g.WF) {k : Nat} (hk : k < g.v.length) :
    (g.v.getD k []).count g.objs.length = 0 := by
  rw [h.count k hk]; simp

theorem objs_push (objs : List (GEdge W)) (o : GEdge W) (e : Nat) :
    (objs ++ [o])[e]? = if e = objs.length then some o else objs[e]? := by
  rw [List.getElem?_append]
  by_cases h : e < objs.length
  · rw [if_pos h, if_neg (by omega)]
  · rw [if_neg h]
    by_cases h' : e = objs.length
    · subst h'; simp
    · rw [if_neg h', List.getElem?_eq_none (by simp; omega), List.getElem?_eq_none (by omega)]

theorem Graph.addEdge_ok {g : Graph W} {i j : Nat} {w : W} {g' : Graph W} (h : g.addEdge i j w = .ok g') :
    i < g.v.length ∧ j < g.v.length ∧ g' = { g with
      v := (g.v.modify i (· ++ [g.objs.length])).modify j (· ++ [g.objs.length]), objs := g.objs ++ [⟨i, some j, w⟩],
      index := g.index ++ [none], updated := true } := by
  unfold Graph.addEdge at h
  split at h
  · rename_i hij
    injection h with h
    exact ⟨hij.1, hij.2, h.symm⟩
  · cases h

theorem Graph.addEdge_wf {g : Graph W} (h : g.WF) {i j : Nat} {w : W} {g' : Graph W} (hg : g.addEdge i j w = .ok g') : g'.WF := by
  obtain ⟨hi, hj, rfl⟩ := Graph.addEdge_ok hg
  refine ⟨?_, ?_, ?_⟩
  · intro o ho x hx
    simp only [List.length_modify]
    simp only [List.mem_append, List.mem_singleton] at ho
    rcases ho with ho | rfl
    · exact h.ends o ho x hx
    · simp [GEdge.ends] at hx
      rcases hx with rfl | rfl
      · exact hi
      · exact hj
  · intro k hk e
    simp only [List.length_modify] at hk
    simp only [objs_push]
    rw [getD_modify _ _ _ _ _ (by rwa [List.length_modify]), getD_modify _ _ _ _ _ hk]
    have hc := h.count k hk e
    by_cases he : e = g.objs.length
    · subst he
      rw [if_pos rfl]
      have h0 := count_new h hk
      simp only [Option.map_some, Option.getD_some, GEdge.ends, Option.toList_some]
      generalize g.v.getD k [] = L at h0 ⊢
      by_cases h1 : i = k <;> by_cases h2 : j = k <;> simp [h1, h2, h0, List.count_append]
    · rw [if_neg he, ← hc]
      have : List.count e [g.objs.length] = 0 := by
        rw [List.count_eq_zero]; simpa using he
      generalize g.v.getD k [] = L
      by_cases h1 : i = k <;> by_cases h2 : j = k <;> simp [h1, h2, this, List.count_append, List.count_cons, Ne.symm he]
  · simp [h.index]

theorem Graph.addFreeEdge_ok {g : Graph W} {i : Nat} {w : W} {g' : Graph W} (h : g.addFreeEdge i w = .ok g') :
    i < g.v.length ∧ g' = { g with
      v := g.v.modify i (· ++ [g.objs.length]), objs := g.objs ++ [⟨i, none, w⟩], index := g.index ++ [none] } := by
  unfold Graph.addFreeEdge at h
  split at h
  · rename_i hi
    injection h with h
    exact ⟨hi, h.symm⟩
  · cases h

theorem Graph.addFreeEdge_wf {g : Graph W} (h : g.WF) {i : Nat} {w : W} {g' : Graph W} (hg : g.addFreeEdge i w = .ok g') :
    g'.WF := by
  obtain ⟨hi, rfl⟩ := Graph.addFreeEdge_ok hg
  refine ⟨?_, ?_, ?_⟩
  · intro o ho x hx
    simp only [List.length_modify]
    simp only [List.mem_append, List.mem_singleton] at ho
    rcases ho with ho | rfl
    · exact h.ends o ho x hx
    · simp [GEdge.ends] at hx
      rcases hx with rfl
      exact hi
  · intro k hk e
    simp only [List.length_modify] at hk
    simp only [objs_push]
    rw [getD_modify _ _ _ _ _ hk]
    have hc := h.count k hk e
    by_cases he : e = g.objs.length
    · subst he
      rw [if_pos rfl]
      have h0 := count_new h hk
      simp only [Option.map_some, Option.getD_some, GEdge.ends, Option.toList_none]
      generalize g.v.getD k [] = L at h0 ⊢
      by_cases h1 : i = k <;> simp [h1, h0, List.count_append]
    · rw [if_neg he, ← hc]
      have : List.count e [g.objs.length] = 0 := by
        rw [List.count_eq_zero]; simpa using he
      generalize g.v.getD k [] = L
      by_cases h1 : i = k <;> simp [h1, this, List.count_append]
  · simp [h.index]

theorem Graph.getEdges_wf {g : Graph W} (h : g.WF) : g.getEdges.1.WF := by
  unfold Graph.getEdges
  split
  · exact h
  · exact ⟨h.ends, h.count, h.index⟩

theorem collectEdges_spec (es : List Nat) : ∀ res : List Nat, res.Nodup →
    (collectEdges es res).Nodup ∧ ∀ e, e ∈ collectEdges es res ↔ e ∈ res ∨ e ∈ es := by
  induction es with
  | nil => intro res h; exact ⟨h, by simp [collectEdges]⟩
  | cons x es ih =>
    intro res h
    unfold collectEdges
    by_cases hx : x ∈ res
    · rw [if_pos hx]
      obtain ⟨h1, h2⟩ := ih res h
      refine ⟨h1, ?_⟩
      intro e
      rw [h2, List.mem_cons]
      constructor
      · rintro (h | h) <;> tauto
      · rintro (h | rfl | h)
        · exact Or.inl h
        · exact Or.inl hx
        · exact Or.inr h
    · rw [if_neg hx]
      obtain ⟨h1, h2⟩ := ih (res ++ [x]) (by
        rw [List.nodup_append]
        refine ⟨h, by simp, ?_⟩
        rintro a ha b hb rfl
        rw [List.mem_singleton] at hb
        exact hx (hb ▸ ha))
      refine ⟨h1, ?_⟩
      intro e
      rw [h2, List.mem_cons, List.mem_append, List.mem_singleton]
      tauto

theorem mem_vertex {g : Graph W} (h : g.WF) {k e : Nat} (hk : k < g.v.length) :
    e ∈ g.v.getD k [] ↔ ∃ o, g.objs[e]? = some o ∧ k ∈ o.ends := by
  rw [← List.count_pos_iff, h.count k hk]
  cases ho : g.objs[e]? with
  | none => simp
  | some o => simp [List.count_pos_iff]

theorem mem_flatten_v {g : Graph W} (h : g.WF) (e : Nat) : e ∈ g.v.flatten ↔ e < g.objs.length := by
  rw [List.mem_flatten]
  constructor
  · rintro ⟨l, hl, he⟩
    obtain ⟨k, hk, rfl⟩ := List.getElem_of_mem hl
    have : e ∈ g.v.getD k [] := by rw [List.getD_eq_getElem?_getD, List.getElem?_eq_getElem hk]; exact he
    obtain ⟨o, ho, _⟩ := (mem_vertex h hk).mp this
    exact (List.getElem?_eq_some_iff.mp ho).1
  · intro he
    have hs : g.objs[e].src < g.v.length := h.ends _ (List.getElem_mem he) _ (by simp [GEdge.ends])
    refine ⟨g.v[g.objs[e].src], List.getElem_mem hs, ?_⟩
    have : e ∈ g.v.getD g.objs[e].src [] :=
      (mem_vertex h hs).mpr ⟨_, List.getElem?_eq_getElem he, by simp [GEdge.ends]⟩
    rwa [List.getD_eq_getElem?_getD, List.getElem?_eq_getElem hs] at this

/-- A recomputed edge list holds every edge once. -/
theorem collect_perm {g : Graph W} (h : g.WF) : (collectEdges g.v.flatten []).Perm (List.range g.objs.length) := by
  obtain ⟨h1, h2⟩ := collectEdges_spec g.v.flatten [] List.nodup_nil
  rw [List.perm_ext_iff_of_nodup h1 List.nodup_range]
  intro e
  rw [h2, mem_flatten_v h, List.mem_range]
  simp

/-- The cache is valid. -/
def Graph.CacheOK {W : Type} (g : Graph W) : Prop :=
  ∀ es, g.edges = some es → g.updated = false → es.Perm (List.range g.objs.length)

theorem getEdges_perm {g : Graph W} (h : g.WF) (hc : g.CacheOK) :
    g.getEdges.2.Perm (List.range g.objs.length) ∧ g.getEdges.1.CacheOK ∧ g.getEdges.1.objs = g.objs ∧
      g.getEdges.1.v = g.v := by
  unfold Graph.getEdges
  split
  · rename_i es he hu
    exact ⟨hc es he hu, hc, rfl, rfl⟩
  · refine ⟨collect_perm h, ?_, rfl, rfl⟩
    intro es he _
    injection he with he
    rw [← he]
    exact collect_perm h

/-- The sum over the vertices of the list lengths is the number of edge ends. -/
theorem sum_degrees {g : Graph W} (h : g.WF) :
    ((List.range g.v.length).map g.degree).sum = (g.objs.map fun o => o.ends.length).sum := by
  have e1 : (List.range g.v.length).map g.degree = g.v.map List.length := by
    apply List.ext_getElem
    · simp
    · intro i h1 h2
      simp only [List.length_map, List.length_range] at h1
      simp [Graph.degree, List.getD_eq_getElem?_getD, List.getElem?_eq_getElem h1]
  rw [e1, ← List.length_flatten]
  -- flatten is a permutation of the edges repeated by their ends
  have e2 : g.v.flatten.Perm (g.objs.zipIdx.flatMap fun p => List.replicate p.1.ends.length p.2) := by
    rw [List.perm_iff_count]
    intro e
    have c1 : g.v.flatten.count e = ((List.range g.v.length).map fun k => (g.v.getD k []).count e).sum := by
      rw [List.count_flatten]
      congr 1
      apply List.ext_getElem
      · simp
      · intro i h1 h2
        simp only [List.length_map] at h1
        simp [List.getD_eq_getElem?_getD, List.getElem?_eq_getElem h1]
    have c2 : ((List.range g.v.length).map fun k => (g.v.getD k []).count e) =
        (List.range g.v.length).map fun k => ((g.objs[e]?).map fun o => o.ends.count k).getD 0 := by
      apply List.map_congr_left
      intro k hk
      exact h.count k (by simpa using hk) e
    have c3 : ∀ (l : List Nat) (n : Nat), (∀ x ∈ l, x < n) → ((List.range n).map fun k => l.count k).sum = l.length := by
      intro l n hl
      induction l with
      | nil => simp
      | cons x l ih =>
        have hx : x < n := hl x (by simp)
        have hx' := ih fun y hy => hl y (by simp [hy])
        simp only [List.count_cons, List.length_cons]
        rw [List.sum_map_add, hx']
        congr 1
        have : (fun k => if (x == k) = true then 1 else 0) = fun k => if k = x then 1 else 0 := by
          funext k; by_cases h : x = k
          · simp [h]
          · simp [h, Ne.symm h]
        rw [this]
        have hm : x ∈ List.range n := by simpa using hx
        have key : ∀ l : List Nat, (l.map fun k => if k = x then 1 else 0).sum = l.count x := by
          intro l
          induction l with
          | nil => rfl
          | cons y l ih => simp only [List.map_cons, List.sum_cons, ih, List.count_cons, beq_iff_eq]; omega
        rw [key, List.count_eq_one_of_mem List.nodup_range hm]
    have c4 : ∀ (os : List (GEdge W)) (s : Nat), ((os.zipIdx s).flatMap fun p => List.replicate p.1.ends.length p.2).count e =
        if s ≤ e then ((os[e - s]?).map fun o => o.ends.length).getD 0 else 0 := by
      intro os
      induction os with
      | nil => intro s; simp
      | cons o os ih =>
        intro s
        rw [List.zipIdx_cons, List.flatMap_cons, List.count_append, ih (s + 1), List.count_replicate]
        by_cases h1 : s = e
        · subst h1; simp
        · by_cases h2 : s + 1 ≤ e
          · have : e - s = (e - (s + 1)) + 1 := by omega
            rw [if_pos h2, if_pos (by omega : s ≤ e), this]
            simp [h1]
          · rw [if_neg h2, if_neg (by omega : ¬ s ≤ e)]
            simp [h1]
    rw [c1, c2, c4 g.objs 0]
    simp only [Nat.zero_le, if_true, Nat.sub_zero]
    cases ho : g.objs[e]? with
    | none => simp
    | some o =>
      simp only [Option.map_some, Option.getD_some]
      exact c3 o.ends _ (h.ends o (List.mem_of_getElem? ho))
  rw [e2.length_eq, List.length_flatMap]
  congr 1
  apply List.ext_getElem
  · simp
  · intro i h1 h2
    simp

end CTL
