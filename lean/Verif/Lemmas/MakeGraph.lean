import Verif.Lemmas.Graph
import Verif.Lemmas.Predict
import Verif.Lemmas.Link
import Verif.Model.MakeGraph

/-! The graph that `makeTensorGraph` builds describes the network. -/

namespace CTL
variable {R : Type}

theorem assignIndex_spec (es : List Nat) : ∀ (i : Nat) (idx : List (Option Nat)), es.Nodup → (∀ x ∈ es, x < idx.length) →
    ∀ e, (assignIndex es i idx).getD e none = if e ∈ es then some (i + es.idxOf e) else idx.getD e none := by
  induction es with
  | nil => intro i idx _ _ e; simp [assignIndex]
  | cons x es ih =>
    intro i idx nd hlen e
    obtain ⟨hx, nd'⟩ := List.nodup_cons.mp nd
    unfold assignIndex
    rw [ih (i + 1) _ nd' (by intro y hy; rw [List.length_set]; exact hlen y (by simp [hy])) e]
    by_cases he : e ∈ es
    · have hne : x ≠ e := fun h => hx (h ▸ he)
      rw [if_pos he, if_pos (by simp [he]), List.idxOf_cons_ne _ hne]
      congr 1; omega
    · rw [if_neg he]
      by_cases hxe : e = x
      · subst hxe
        rw [if_pos (by simp), List.getD_eq_getElem?_getD, List.getElem?_set_self (hlen e (by simp))]
        simp
      · rw [if_neg (by simp [he, hxe]), List.getD_eq_getElem?_getD, List.getElem?_set_ne (Ne.symm hxe),
          ← List.getD_eq_getElem?_getD]

theorem mapM_ok {α β : Type} (l : List α) (f : α → Except PyErr β) (g : α → β) (h : ∀ x ∈ l, f x = .ok (g x)) :
    l.mapM f = .ok (l.map g) := by
  induction l with
  | nil => rfl
  | cons x l ih =>
    rw [List.mapM_cons, h x (by simp), ih fun y hy => h y (by simp [hy])]
    rfl

/-- The search input read off an indexed graph: edge objects are renumbered injectively. -/
theorem input_spec {g : Graph} (h : g.WF) (hc : g.CacheOK) (hi : g.indexed = false) :
    ∃ π : Nat → Nat, (∀ e e', e < g.objs.length → e' < g.objs.length → π e = π e' → e = e') ∧
      g.addEdgeIndex.input = .ok ⟨g.v.map fun l => l.map π,
        g.v.map (fun l => l.map fun e => ((g.objs[e]?).map (·.weight)).getD 0), g.diagonalFlags⟩ := by
  obtain ⟨hp, _, ho, hv⟩ := getEdges_perm h hc
  have hdf : g.getEdges.1.diagonalFlags = g.diagonalFlags := by unfold Graph.getEdges; split <;> rfl
  have hix : g.getEdges.1.index = g.index := by unfold Graph.getEdges; split <;> rfl
  have nd : g.getEdges.2.Nodup := (List.Perm.nodup_iff hp).mpr List.nodup_range
  have mem : ∀ e, e ∈ g.getEdges.2 ↔ e < g.objs.length := by
    intro e; rw [hp.mem_iff, List.mem_range]
  refine ⟨fun e => g.getEdges.2.idxOf e, ?_, ?_⟩
  · intro e e' he he' h
    exact (List.idxOf_inj ((mem e).mpr he)).mp h
  · have e1 : g.addEdgeIndex = { g.getEdges.1 with
        index := assignIndex g.getEdges.2 0 g.getEdges.1.index, indexed := true } := by
      unfold Graph.addEdgeIndex; rw [hi]; rfl
    have e2 : g.addEdgeIndex.addEdgeIndex = g.addEdgeIndex := by
      have : g.addEdgeIndex.indexed = true := by rw [e1]
      unfold Graph.addEdgeIndex at this ⊢
      rw [if_pos this]
    unfold Graph.input
    rw [e2]
    unfold Graph.edgeTable
    rw [mapM_ok _ _ (fun l => l.map fun e => g.getEdges.2.idxOf e)]
    · rw [e1]
      simp only [hv, ho, hdf]
      rfl
    · intro l hl
      have hl' : l ∈ g.v := by rw [e1] at hl; simpa [hv] using hl
      apply mapM_ok
      intro e he
      have hlt : e < g.objs.length := (mem_flatten_v h e).mp (List.mem_flatten.mpr ⟨l, hl', he⟩)
      have : g.addEdgeIndex.index.getD e none = some (g.getEdges.2.idxOf e) := by
        rw [e1]
        simp only [hix]
        rw [assignIndex_spec _ _ _ nd (by intro x hx; rw [h.index]; exact (mem x).mp hx), if_pos ((mem e).mpr hlt)]
        simp
      rw [this]
      rfl

theorem dictGet_append {κ ν : Type} [DecidableEq κ] (d d' : List (κ × ν)) (k : κ) :
    dictGet (d ++ d') k = (dictGet d k).or (dictGet d' k) := by
  induction d with
  | nil => simp [dictGet]
  | cons p d ih =>
    obtain ⟨k', v⟩ := p
    simp only [List.cons_append, dictGet]
    by_cases h : k' = k
    · rw [if_pos h, if_pos h]; rfl
    · rw [if_neg h, if_neg h, ih]

theorem dictGet_some {κ ν : Type} [DecidableEq κ] {d : List (κ × ν)} (nd : (d.map Prod.fst).Nodup) {k : κ} {v : ν} :
    dictGet d k = some v ↔ (k, v) ∈ d := by
  induction d with
  | nil => simp [dictGet]
  | cons p d ih =>
    obtain ⟨k', v'⟩ := p
    simp only [List.map_cons, List.nodup_cons] at nd
    simp only [dictGet, List.mem_cons, Prod.mk.injEq]
    by_cases h : k' = k
    · subst h
      rw [if_pos rfl]
      constructor
      · intro h; injection h with h; exact Or.inl ⟨rfl, h.symm⟩
      · rintro (⟨_, h⟩ | h)
        · rw [h]
        · exact absurd (List.mem_map.mpr ⟨_, h, rfl⟩) nd.1
    · rw [if_neg h, ih nd.2]
      constructor
      · exact Or.inr
      · rintro (⟨h', _⟩ | h')
        · exact absurd h'.symm h
        · exact h'

theorem idxDict_spec {ts : List (Tensor R)} (nd : (ts.map fun t => t.id).Nodup) (x : TensorId) (i : Nat) :
    idxDict ts x = some i ↔ ∃ t, ts[i]? = some t ∧ t.id = x := by
  unfold idxDict
  have e : (((ts.zipIdx.map fun p => (p.1.id, p.2)).reverse).map Prod.fst) = (ts.map fun t => t.id).reverse := by
    rw [List.map_reverse, List.map_map]
    congr 1
    have : (Prod.fst ∘ fun p : Tensor R × Nat => (p.1.id, p.2)) = (fun t : Tensor R => t.id) ∘ Prod.fst := rfl
    rw [this, ← List.map_map, List.zipIdx_map_fst]
  rw [dictGet_some (by rw [e, List.nodup_reverse]; exact nd), List.mem_reverse, List.mem_map]
  constructor
  · rintro ⟨⟨t, j⟩, hm, he⟩
    rw [List.mem_zipIdx_iff_getElem?] at hm
    simp only [Prod.mk.injEq] at he
    exact ⟨t, he.2 ▸ hm, he.1⟩
  · rintro ⟨t, ht, hx⟩
    exact ⟨(t, i), by rw [List.mem_zipIdx_iff_getElem?]; exact ht, by rw [hx]⟩

section make
variable {st : Store} {ts : List (Tensor R)}

/-- The positions and legs in the order of the double loop. -/
def legPairs (ts : List (Tensor R)) : List (Nat × LegId) := ts.zipIdx.flatMap fun p => p.1.legs.map fun l => (p.2, l)

theorem mem_legPairs {i : Nat} {l : LegId} : (i, l) ∈ legPairs ts ↔ ∃ t, ts[i]? = some t ∧ l ∈ t.legs := by
  unfold legPairs
  simp only [List.mem_flatMap, List.mem_map, Prod.mk.injEq]
  constructor
  · rintro ⟨⟨t, j⟩, hm, l', hl, rfl, rfl⟩
    rw [List.mem_zipIdx_iff_getElem?] at hm
    exact ⟨t, hm, hl⟩
  · rintro ⟨t, ht, hl⟩
    exact ⟨(t, i), by rw [List.mem_zipIdx_iff_getElem?]; exact ht, l, hl, rfl, rfl⟩

/-- The edge made for leg `l` of tensor `i`. -/
def edgeOf (st : Store) (ts : List (Tensor R)) (p : Nat × LegId) : GEdge :=
  ⟨p.1, (st.partner p.2).bind fun m => (st.leg m).tensor.bind (idxDict ts), st.dim p.2⟩

/-- Leg `l` is one end of the edge made for `r`. -/
def Reps (st : Store) (r l : LegId) : Prop := r = l ∨ st.partner r = some l

/-- The loop of `makeTensorGraph` after the legs `Q`: the edges made are those of `reps`. -/
structure MakeInv (st : Store) (ts : List (Tensor R)) (Q : List (Nat × LegId)) (s : Graph × List BondId)
    (reps : List (Nat × LegId)) : Prop where
  wf : s.1.WF
  len : s.1.v.length = ts.length
  cache : s.1.edges = none
  indexed : s.1.indexed = false
  flags : s.1.diagonalFlags = ts.map fun t => t.diag
  objs : s.1.objs = reps.map (edgeOf st ts)
  sub : ∀ r ∈ reps, r ∈ Q
  cover : ∀ p ∈ Q, ∃ r ∈ reps, Reps st r.2 p.2
  uniq : reps.Pairwise fun r r' => r.2 ≠ r'.2 ∧ st.partner r.2 ≠ some r'.2
  bonds : ∀ b, b ∈ s.2 ↔ ∃ p ∈ Q, (st.leg p.2).bond = some b

theorem partner_eq_another (inv : BondInv st) {l : LegId} {b : BondId} (hb : (st.leg l).bond = some b) :
    ∃ m, st.bondAnotherSide b l = .ok m ∧ st.partner l = some m := by
  have h := anotherSide_eq inv l
  unfold Store.anotherSide at h
  rw [hb] at h
  simp only at h
  cases hh : st.bondAnotherSide b l with
  | error e => rw [hh] at h; cases h
  | ok m =>
    rw [hh] at h
    injection h with h
    exact ⟨m, rfl, h.symm⟩

theorem bond_of_partner (inv : BondInv st) {l m : LegId} {b : BondId} (hb : (st.leg l).bond = some b)
    (h : st.partner l = some m) : (st.leg m).bond = some b := by
  obtain ⟨h0, h1, h2, _⟩ := inv l b hb
  unfold Store.partner at h
  rw [hb] at h
  simp only [Option.some.injEq] at h
  rw [← h]
  split
  · exact h2
  · exact h1

theorem partner_of_bond (inv : BondInv st) {l m : LegId} {b : BondId} (hb : (st.leg l).bond = some b)
    (hm : (st.leg m).bond = some b) (hne : l ≠ m) : st.partner l = some m := by
  obtain ⟨h0, _⟩ := inv l b hb
  obtain ⟨h0', _⟩ := inv m b hm
  unfold Store.partner
  rw [hb]
  simp only [Option.some.injEq]
  split
  · rename_i h
    rcases h0' with h' | h'
    · exact absurd (h.symm.trans h') hne
    · exact h'
  · rename_i h
    rcases h0' with h' | h'
    · exact h'
    · rcases h0 with h'' | h''
      · exact absurd h'' h
      · exact absurd (h''.symm.trans h') hne

theorem partner_none_of_bond {l : LegId} (hb : (st.leg l).bond = none) : st.partner l = none := by
  unfold Store.partner; rw [hb]

/-- The tensor owning the other side of a bond is found in the dictionary. -/
theorem owner_index (c : ClosedNet st ts) {t : Tensor R} (ht : t ∈ ts) {l m : LegId} (hl : l ∈ t.legs)
    (h : st.partner l = some m) :
    ∃ j u, ts[j]? = some u ∧ m ∈ u.legs ∧ (st.leg m).tensor.bind (idxDict ts) = some j := by
  obtain ⟨_, u, hu, hm⟩ := c.inside t ht l hl m h
  obtain ⟨j, hj, rfl⟩ := List.getElem_of_mem hu
  refine ⟨j, ts[j], List.getElem?_eq_getElem hj, hm, ?_⟩
  rw [c.owner _ hu m hm]
  exact (idxDict_spec c.ids _ _).mpr ⟨_, List.getElem?_eq_getElem hj, rfl⟩

theorem graphLeg_spec (c : ClosedNet st ts) {Q : List (Nat × LegId)} {s : Graph × List BondId}
    {reps : List (Nat × LegId)} (h : MakeInv st ts Q s reps) (hQ : ∀ q ∈ Q, q ∈ legPairs ts) {i : Nat} {l : LegId}
    (hp : (i, l) ∈ legPairs ts) (hl : ∀ q ∈ Q, q.2 ≠ l) :
    ∃ s', graphLeg st ts i s l = .ok s' ∧ ∃ reps', MakeInv st ts (Q ++ [(i, l)]) s' reps' := by
  obtain ⟨t, ht, hlt⟩ := mem_legPairs.mp hp
  have hi : i < ts.length := (List.getElem?_eq_some_iff.mp ht).1
  have htm : t ∈ ts := List.mem_of_getElem? ht
  have hcov : ∀ p ∈ Q ++ [(i, l)], ∃ r ∈ reps ++ [(i, l)], Reps st r.2 p.2 := by
    intro p hp
    rw [List.mem_append, List.mem_singleton] at hp
    rcases hp with hp | rfl
    · obtain ⟨r, hr, h'⟩ := h.cover p hp
      exact ⟨r, by simp [hr], h'⟩
    · exact ⟨(i, l), by simp, Or.inl rfl⟩
  have hsub : ∀ r ∈ reps ++ [(i, l)], r ∈ Q ++ [(i, l)] := by
    intro r hr
    rw [List.mem_append] at hr ⊢
    exact hr.imp (h.sub r) id
  have huniq : (∀ r ∈ reps, st.partner r.2 ≠ some l) →
      (reps ++ [(i, l)]).Pairwise fun r r' => r.2 ≠ r'.2 ∧ st.partner r.2 ≠ some r'.2 := by
    intro hh
    rw [List.pairwise_append]
    refine ⟨h.uniq, by simp, ?_⟩
    intro r hr r' hr'
    rw [List.mem_singleton] at hr'
    subst hr'
    exact ⟨hl r (h.sub r hr), hh r hr⟩
  unfold graphLeg
  cases hb : (st.leg l).bond with
  | none =>
    have hpn := partner_none_of_bond hb
    obtain ⟨g1, e⟩ : ∃ g1, s.1.addFreeEdge i (st.dim l) = .ok g1 := by
      unfold Graph.addFreeEdge
      rw [if_pos (by rw [h.len]; exact hi)]
      exact ⟨_, rfl⟩
    obtain ⟨-, hg1⟩ := Graph.addFreeEdge_ok e
    refine ⟨(g1, s.2), by simp only [e]; rfl, reps ++ [(i, l)], Graph.addFreeEdge_wf h.wf e, ?_,
      by subst hg1; exact h.cache, by subst hg1; exact h.indexed, by subst hg1; exact h.flags, ?_, hsub,
      hcov, huniq ?_, ?_⟩
    · subst hg1; simp [h.len]
    · subst hg1; simp [h.objs, edgeOf, hpn]
    · intro r hr e
      have := partner_symm c.inv e
      rw [hpn] at this
      cases this
    · intro b
      rw [h.bonds]
      constructor
      · rintro ⟨p, hp, hpb⟩; exact ⟨p, by simp [hp], hpb⟩
      · rintro ⟨p, hp, hpb⟩
        rw [List.mem_append, List.mem_singleton] at hp
        rcases hp with hp | rfl
        · exact ⟨p, hp, hpb⟩
        · rw [hb] at hpb; cases hpb
  | some b =>
    simp only
    by_cases hbs : b ∈ s.2
    · rw [if_pos hbs]
      obtain ⟨p, hpQ, hpb⟩ := (h.bonds b).mp hbs
      have hpl := partner_of_bond c.inv hpb hb (hl p hpQ)
      refine ⟨s, rfl, reps, h.wf, h.len, h.cache, h.indexed, h.flags, h.objs, fun r hr => by simp [h.sub r hr], ?_, h.uniq,
        ?_⟩
      · intro q hq
        rw [List.mem_append, List.mem_singleton] at hq
        rcases hq with hq | rfl
        · exact h.cover q hq
        · obtain ⟨r, hr, h'⟩ := h.cover p hpQ
          refine ⟨r, hr, ?_⟩
          rcases h' with h' | h'
          · exact Or.inr (h' ▸ hpl)
          · have := partner_symm c.inv h'
            rw [hpl] at this
            exact Or.inl (Option.some.inj this).symm
      · intro b'
        rw [h.bonds]
        constructor
        · rintro ⟨p, hp, hpb⟩; exact ⟨p, by simp [hp], hpb⟩
        · rintro ⟨q, hq, hqb⟩
          rw [List.mem_append, List.mem_singleton] at hq
          rcases hq with hq | rfl
          · exact ⟨q, hq, hqb⟩
          · rw [hb] at hqb
            injection hqb with hqb
            exact ⟨p, hpQ, hqb ▸ hpb⟩
    · rw [if_neg hbs]
      obtain ⟨m, hm1, hm2⟩ := partner_eq_another c.inv hb
      obtain ⟨j, u, hj, hmu, hjd⟩ := owner_index c htm hlt hm2
      have hj' : j < ts.length := (List.getElem?_eq_some_iff.mp hj).1
      obtain ⟨g1, e⟩ : ∃ g1, s.1.addEdge i j (st.dim l) = .ok g1 := by
        unfold Graph.addEdge
        rw [if_pos (by rw [h.len]; exact ⟨hi, hj'⟩)]
        exact ⟨_, rfl⟩
      obtain ⟨-, -, hg1⟩ := Graph.addEdge_ok e
      refine ⟨(g1, b :: s.2), by simp only [hm1, bind, Except.bind, hjd, e]; rfl, reps ++ [(i, l)],
        Graph.addEdge_wf h.wf e, ?_, by subst hg1; exact h.cache, by subst hg1; exact h.indexed,
        by subst hg1; exact h.flags, ?_, hsub, hcov, huniq ?_, ?_⟩
      · subst hg1; simp [h.len]
      · subst hg1; simp [h.objs, edgeOf, hm2, hjd]
      · intro r hr e
        apply hbs
        have := bond_of_partner c.inv hb (partner_symm c.inv e)
        exact (h.bonds b).mpr ⟨r, h.sub r hr, this⟩
      · intro b'
        rw [List.mem_cons, h.bonds]
        constructor
        · rintro (rfl | ⟨p, hp, hpb⟩)
          · exact ⟨(i, l), by simp, hb⟩
          · exact ⟨p, by simp [hp], hpb⟩
        · rintro ⟨p, hp, hpb⟩
          rw [List.mem_append, List.mem_singleton] at hp
          rcases hp with hp | rfl
          · exact Or.inr ⟨p, hp, hpb⟩
          · rw [hb] at hpb
            exact Or.inl (Option.some.inj hpb).symm

theorem graphLoop_spec (c : ClosedNet st ts) (P : List (Nat × LegId)) : ∀ (Q : List (Nat × LegId)) s reps,
    MakeInv st ts Q s reps → (∀ q ∈ Q, q ∈ legPairs ts) → (∀ q ∈ P, q ∈ legPairs ts) →
    ((Q ++ P).map Prod.snd).Nodup →
    ∃ s', P.foldlM (fun s p => graphLeg st ts p.1 s p.2) s = .ok s' ∧ ∃ reps', MakeInv st ts (Q ++ P) s' reps' := by
  induction P with
  | nil => intro Q s reps h _ _ _; exact ⟨s, rfl, reps, by simpa using h⟩
  | cons p P ih =>
    intro Q s reps h hQ hP nd
    obtain ⟨i, l⟩ := p
    have e : Q ++ (i, l) :: P = (Q ++ [(i, l)]) ++ P := by simp
    have hl : ∀ q ∈ Q, q.2 ≠ l := by
      rw [List.map_append, List.nodup_append] at nd
      intro q hq
      exact nd.2.2 q.2 (List.mem_map.mpr ⟨q, hq, rfl⟩) l (List.mem_map.mpr ⟨(i, l), List.mem_cons_self, rfl⟩)
    obtain ⟨s1, h1, reps1, m1⟩ := graphLeg_spec c h hQ (hP _ List.mem_cons_self) hl
    obtain ⟨s2, h2, reps2, m2⟩ := ih (Q ++ [(i, l)]) s1 reps1 m1
      (by
        intro q hq
        rw [List.mem_append, List.mem_singleton] at hq
        rcases hq with hq | rfl
        · exact hQ q hq
        · exact hP _ List.mem_cons_self)
      (fun q hq => hP q (List.mem_cons_of_mem _ hq)) (by rwa [e] at nd)
    refine ⟨s2, ?_, reps2, by rw [e]; exact m2⟩
    rw [List.foldlM_cons, h1]
    exact h2

theorem legPairs_snd : (legPairs ts).map Prod.snd = ts.flatMap fun t => t.legs := by
  unfold legPairs
  rw [List.map_flatMap]
  have : (fun p : Tensor R × Nat => List.map Prod.snd (List.map (fun l => (p.2, l)) p.1.legs)) =
      (fun t : Tensor R => t.legs) ∘ Prod.fst := by
    funext p
    simp [Function.comp_def]
  rw [this]
  have h2 := List.zipIdx_map_fst 0 ts
  conv_rhs => rw [← h2]
  rw [List.flatMap_map]
  rfl

/-- The graph of a network. -/
theorem makeTensorGraph_inv (c : ClosedNet st ts) :
    ∃ g reps bs, makeTensorGraph st ts = .ok g.addEdgeIndex ∧ MakeInv st ts (legPairs ts) (g, bs) reps := by
  have h0 : MakeInv st ts [] (Graph.new ts.length (some (ts.map fun t => t.diag)), []) [] :=
    ⟨Graph.new_wf _ _, by simp [Graph.new], rfl, rfl, rfl, rfl, by simp, by simp, by simp, by simp⟩
  obtain ⟨s, h1, reps, h2⟩ := graphLoop_spec c (legPairs ts) [] _ _ h0 (by simp) (fun _ h => h)
    (by rw [List.nil_append, legPairs_snd]; exact c.nodup)
  refine ⟨s.1, reps, s.2, ?_, h2⟩
  unfold makeTensorGraph
  have e : (ts.zipIdx.flatMap fun p => p.1.legs.map fun l => (p.2, l)) = legPairs ts := rfl
  rw [e, h1]
  rfl

/-- What the search sees of a network is a graph with the tensors as vertices and the legs, joined ones identified, as
edges. -/
theorem makeTensorGraph_spec (c : ClosedNet st ts) :
    ∃ g inp G κ, makeTensorGraph st ts = .ok g ∧ g.input = .ok inp ∧ Describes inp G ∧ GraphOf st ts G κ := by
  obtain ⟨g, reps, bs, hg, inv⟩ := makeTensorGraph_inv c
  obtain ⟨π, hπ, hin⟩ := input_spec inv.wf (fun es h => by rw [inv.cache] at h; cases h) inv.indexed
  have hobj : ∀ e : Nat, g.objs[e]? = (reps[e]?).map (edgeOf st ts) := by
    intro e
    have := inv.objs
    simp only at this
    rw [this, List.getElem?_map]
  have hlen : g.objs.length = reps.length := by
    have := congrArg List.length inv.objs
    simpa using this
  -- the edge object of a leg
  have hcov : ∀ i l, (i, l) ∈ legPairs ts → ∃ (e : Nat) (r : Nat × LegId), reps[e]? = some r ∧ Reps st r.2 l := by
    intro i l h
    obtain ⟨r, hr, h'⟩ := inv.cover _ h
    obtain ⟨e, he, rfl⟩ := List.getElem_of_mem hr
    exact ⟨e, _, List.getElem?_eq_getElem he, h'⟩
  have huniq : ∀ l (e : Nat) r (e' : Nat) r', reps[e]? = some r → reps[e']? = some r' → Reps st r.2 l → Reps st r'.2 l → e = e' := by
    have key : ∀ l (e : Nat) r (e' : Nat) r', reps[e]? = some r → reps[e']? = some r' → Reps st r.2 l → Reps st r'.2 l → e < e' → False := by
      intro l e r e' r' h h' a a' hlt
      obtain ⟨he, rfl⟩ := List.getElem?_eq_some_iff.mp h
      obtain ⟨he', rfl⟩ := List.getElem?_eq_some_iff.mp h'
      obtain ⟨u1, u2⟩ := List.pairwise_iff_getElem.mp inv.uniq e e' he he' hlt
      rcases a with a | a <;> rcases a' with a' | a'
      · exact u1 (a.trans a'.symm)
      · rw [← a] at a'; exact u2 (partner_symm c.inv a')
      · rw [← a'] at a; exact u2 a
      · have := (partner_symm c.inv a).symm.trans (partner_symm c.inv a')
        exact u1 (Option.some.inj this)
    intro l e r e' r' h h' a a'
    rcases Nat.lt_trichotomy e e' with hlt | heq | hgt
    · exact (key l e r e' r' h h' a a' hlt).elim
    · exact heq
    · exact (key l e' r' e r h' h a' a hgt).elim
  classical
  let eOf : LegId → Nat := fun l => if h : ∃ (e : Nat) (r : Nat × LegId), reps[e]? = some r ∧ Reps st r.2 l then h.choose else 0
  have heOf : ∀ i l, (i, l) ∈ legPairs ts → ∃ r, reps[eOf l]? = some r ∧ Reps st r.2 l := by
    intro i l h
    have hh := hcov i l h
    simp only [eOf, dif_pos hh]
    exact hh.choose_spec
  have heq : ∀ i l (e : Nat) r, (i, l) ∈ legPairs ts → reps[e]? = some r → Reps st r.2 l → eOf l = e := by
    intro i l e r h he hr
    obtain ⟨r', h1, h2⟩ := heOf i l h
    exact huniq l _ _ _ _ h1 he h2 hr
  have heLt : ∀ i l, (i, l) ∈ legPairs ts → eOf l < g.objs.length := by
    intro i l h
    obtain ⟨r', h1, h2⟩ := heOf i l h
    rw [hlen]
    exact (List.getElem?_eq_some_iff.mp h1).1
  -- which edges are at which vertex
  have ownIdx : ∀ i j l, (i, l) ∈ legPairs ts → (j, l) ∈ legPairs ts → i = j := by
    intro i j l h h'
    obtain ⟨t, ht, hl⟩ := mem_legPairs.mp h
    obtain ⟨u, hu, hl'⟩ := mem_legPairs.mp h'
    have o1 := c.owner t (List.mem_of_getElem? ht) l hl
    have o2 := c.owner u (List.mem_of_getElem? hu) l hl'
    have e : t.id = u.id := Option.some.inj (o1.symm.trans o2)
    have i1 := (idxDict_spec c.ids t.id i).mpr ⟨t, ht, rfl⟩
    have i2 := (idxDict_spec c.ids t.id j).mpr ⟨u, hu, e.symm⟩
    exact Option.some.inj (i1.symm.trans i2)
  have hends : ∀ (e : Nat) r i, reps[e]? = some r → (i ∈ (edgeOf st ts r).ends ↔
      ∃ l, (i, l) ∈ legPairs ts ∧ Reps st r.2 l) := by
    intro e r i he
    have hr : (r.1, r.2) ∈ legPairs ts := inv.sub r (List.mem_of_getElem? he)
    obtain ⟨t, ht, hlt⟩ := mem_legPairs.mp hr
    simp only [GEdge.ends, edgeOf, List.mem_cons, Option.mem_toList]
    constructor
    · rintro (rfl | h)
      · exact ⟨r.2, hr, Or.inl rfl⟩
      · cases hp : st.partner r.2 with
        | none => rw [hp] at h; cases h
        | some m =>
          obtain ⟨j, u, hj, hmu, hjd⟩ := owner_index c (List.mem_of_getElem? ht) hlt hp
          rw [hp] at h
          simp only [Option.bind_some] at h
          rw [hjd, Option.some.injEq] at h
          subst h
          exact ⟨m, mem_legPairs.mpr ⟨u, hj, hmu⟩, Or.inr hp⟩
    · rintro ⟨l, hl, h | h⟩
      · exact Or.inl (ownIdx _ _ l hl (h ▸ hr))
      · right
        obtain ⟨j, u, hj, hmu, hjd⟩ := owner_index c (List.mem_of_getElem? ht) hlt h
        rw [h]
        simp only [Option.bind_some]
        rw [hjd, ownIdx i j l hl (mem_legPairs.mpr ⟨u, hj, hmu⟩)]
  have hv : ∀ i e, i < ts.length → (e ∈ g.v.getD i [] ↔ ∃ l, (i, l) ∈ legPairs ts ∧ eOf l = e) := by
    intro i e hi
    have hi' : i < g.v.length := by have := inv.len; simp only at this; omega
    rw [mem_vertex inv.wf hi']
    simp only
    rw [hobj]
    constructor
    · rintro ⟨o, ho, hio⟩
      cases hr : reps[e]? with
      | none => rw [hr] at ho; cases ho
      | some r =>
        rw [hr, Option.map_some, Option.some.injEq] at ho
        subst ho
        obtain ⟨l, hl, h⟩ := (hends e r i hr).mp hio
        exact ⟨l, hl, heq i l e r hl hr h⟩
    · rintro ⟨l, hl, rfl⟩
      obtain ⟨r, hr, h⟩ := heOf i l hl
      exact ⟨_, by rw [hr]; rfl, (hends _ r i hr).mpr ⟨l, hl, h⟩⟩
  have hvnd : ∀ i, i < ts.length → (g.v.getD i []).Nodup := by
    intro i hi
    have hi' : i < g.v.length := by have := inv.len; simp only at this; omega
    rw [List.nodup_iff_count_le_one]
    intro e
    rw [inv.wf.count i hi']
    simp only
    rw [hobj]
    cases hr : reps[e]? with
    | none => simp
    | some r =>
      simp only [Option.map_some, Option.getD_some]
      have hr' : (r.1, r.2) ∈ legPairs ts := inv.sub r (List.mem_of_getElem? hr)
      obtain ⟨t, ht, hlt⟩ := mem_legPairs.mp hr'
      have : (edgeOf st ts r).ends.Nodup := by
        simp only [GEdge.ends, edgeOf]
        cases hp : st.partner r.2 with
        | none => simp
        | some m =>
          obtain ⟨j, u, hj, hmu, hjd⟩ := owner_index c (List.mem_of_getElem? ht) hlt hp
          simp only [Option.bind_some]
          rw [hjd]
          have hne : r.1 ≠ j := by
            rintro rfl
            rw [ht] at hj
            injection hj with hj
            subst hj
            exact (c.inside t (List.mem_of_getElem? ht) r.2 hlt m hp).1 hmu
          simpa using hne
      exact List.nodup_iff_count_le_one.mp this i
  have hvlt : ∀ i e, i < ts.length → e ∈ g.v.getD i [] → e < g.objs.length := by
    intro i e hi he
    obtain ⟨l, hl, rfl⟩ := (hv i e hi).mp he
    exact heLt i l hl
  let wt : Nat → Nat := fun e => ((g.objs[e]?).map (·.weight)).getD 0
  let dimf : Nat → Nat := fun x => if h : ∃ e, e < g.objs.length ∧ π e = x then wt h.choose else 0
  have hdimf : ∀ e, e < g.objs.length → dimf (π e) = wt e := by
    intro e he
    have hh : ∃ e', e' < g.objs.length ∧ π e' = π e := ⟨e, he, rfl⟩
    simp only [dimf, dif_pos hh]
    rw [hπ _ _ hh.choose_spec.1 he hh.choose_spec.2]
  have hglen : g.v.length = ts.length := inv.len
  have hgetv : ∀ i, (g.v.map fun l => l.map π).getD i [] = (g.v.getD i []).map π := by
    intro i
    rw [List.getD_eq_getElem?_getD, List.getD_eq_getElem?_getD, List.getElem?_map]
    cases g.v[i]? <;> rfl
  have hgetw : ∀ i, (g.v.map fun l => l.map fun e => ((g.objs[e]?).map (·.weight)).getD 0).getD i [] =
      (g.v.getD i []).map wt := by
    intro i
    rw [List.getD_eq_getElem?_getD, List.getD_eq_getElem?_getD, List.getElem?_map]
    cases g.v[i]? <;> rfl
  have hflags : g.diagonalFlags = ts.map fun t => t.diag := inv.flags
  let G : TGraph := ⟨ts.length, fun i => ((g.v.getD i []).map π).toFinset, dimf,
    fun i => (ts.map fun t => t.diag).getD i false⟩
  have hGe : ∀ i x, i < ts.length → (x ∈ G.edges i ↔ ∃ l, (i, l) ∈ legPairs ts ∧ π (eOf l) = x) := by
    intro i x hi
    simp only [G, List.mem_toFinset, List.mem_map]
    constructor
    · rintro ⟨e, he, rfl⟩
      obtain ⟨l, hl, rfl⟩ := (hv i e hi).mp he
      exact ⟨l, hl, rfl⟩
    · rintro ⟨l, hl, rfl⟩
      exact ⟨eOf l, (hv i _ hi).mpr ⟨l, hl, rfl⟩, rfl⟩
  have hrepdim : ∀ r l, Reps st r l → st.dim r = st.dim l := by
    rintro r l (rfl | h)
    · rfl
    · exact (partner_dim c.inv h).symm
  refine ⟨_, _, G, fun l => π (eOf l), hg, hin, ⟨?_, ?_, ?_, ?_, ?_, ?_, ?_⟩, ⟨rfl, ?_, ?_, ?_, ?_⟩⟩
  · simp [G, hglen]
  · simp [G, hglen]
  · simp [G, hflags]
  · intro i hi
    simp only
    rw [hgetv]
    refine ⟨?_, rfl⟩
    rw [List.nodup_map_iff_inj_on (hvnd i hi)]
    intro x hx y hy e
    exact hπ x y (hvlt i x hi hx) (hvlt i y hi hy) e
  · intro i hi
    simp only
    rw [hgetv, hgetw, List.map_map]
    apply List.map_congr_left
    intro e he
    exact (hdimf e (hvlt i e hi he)).symm
  · intro i hi
    simp only [G, hflags]
  · intro x i j k hi hj hk h1 h2 h3
    obtain ⟨l1, m1, e1⟩ := (hGe i x hi).mp h1
    obtain ⟨l2, m2, e2⟩ := (hGe j x hj).mp h2
    obtain ⟨l3, m3, e3⟩ := (hGe k x hk).mp h3
    have q2 : eOf l1 = eOf l2 := hπ _ _ (heLt i l1 m1) (heLt j l2 m2) (e1.trans e2.symm)
    have q3 : eOf l1 = eOf l3 := hπ _ _ (heLt i l1 m1) (heLt k l3 m3) (e1.trans e3.symm)
    obtain ⟨r, hr, a1⟩ := heOf i l1 m1
    obtain ⟨r2, hr2, a2⟩ := heOf j l2 m2
    obtain ⟨r3, hr3, a3⟩ := heOf k l3 m3
    rw [← q2, hr] at hr2
    rw [← q3, hr] at hr3
    injection hr2 with hr2
    injection hr3 with hr3
    subst hr2 hr3
    have two : ∀ a b : LegId, st.partner r.2 = some a → st.partner r.2 = some b → a = b := by
      intro a b h h'
      exact Option.some.inj (h.symm.trans h')
    rcases a1 with a1 | a1 <;> rcases a2 with a2 | a2 <;> rcases a3 with a3 | a3
    · exact Or.inl (ownIdx i j l1 m1 ((a1.symm.trans a2) ▸ m2))
    · exact Or.inl (ownIdx i j l1 m1 ((a1.symm.trans a2) ▸ m2))
    · exact Or.inr (Or.inl (ownIdx i k l1 m1 ((a1.symm.trans a3) ▸ m3)))
    · exact Or.inr (Or.inr (ownIdx j k l2 m2 ((two _ _ a2 a3) ▸ m3)))
    · exact Or.inr (Or.inr (ownIdx j k l2 m2 ((a2.symm.trans a3) ▸ m3)))
    · exact Or.inr (Or.inl (ownIdx i k l1 m1 ((two _ _ a1 a3) ▸ m3)))
    · exact Or.inl (ownIdx i j l1 m1 ((two _ _ a1 a2) ▸ m2))
    · exact Or.inl (ownIdx i j l1 m1 ((two _ _ a1 a2) ▸ m2))
  · intro i t ht
    have hi : i < ts.length := (List.getElem?_eq_some_iff.mp ht).1
    ext x
    rw [hGe i x hi]
    simp only [List.mem_toFinset, List.mem_map]
    constructor
    · rintro ⟨l, hl, e⟩
      obtain ⟨t', ht', hl'⟩ := mem_legPairs.mp hl
      rw [ht] at ht'
      injection ht' with ht'
      subst ht'
      exact ⟨l, hl', e⟩
    · rintro ⟨l, hl, e⟩
      exact ⟨l, mem_legPairs.mpr ⟨t, ht, hl⟩, e⟩
  · intro t ht u hu l hl m hm
    obtain ⟨i, hi, rfl⟩ := List.getElem_of_mem ht
    obtain ⟨j, hj, rfl⟩ := List.getElem_of_mem hu
    have pl : (i, l) ∈ legPairs ts := mem_legPairs.mpr ⟨_, List.getElem?_eq_getElem hi, hl⟩
    have pm : (j, m) ∈ legPairs ts := mem_legPairs.mpr ⟨_, List.getElem?_eq_getElem hj, hm⟩
    obtain ⟨r, hr, a⟩ := heOf i l pl
    constructor
    · intro e
      have q : eOf l = eOf m := hπ _ _ (heLt i l pl) (heLt j m pm) e
      obtain ⟨r', hr', a'⟩ := heOf j m pm
      rw [← q, hr] at hr'
      injection hr' with hr'
      subst hr'
      rcases a with a | a <;> rcases a' with a' | a'
      · exact Or.inl (a.symm.trans a')
      · exact Or.inr (a ▸ a')
      · exact Or.inr (a' ▸ partner_symm c.inv a)
      · exact Or.inl (Option.some.inj (a.symm.trans a'))
    · rintro (rfl | h)
      · rfl
      · have : Reps st r.2 m := by
          rcases a with a | a
          · exact Or.inr (a ▸ h)
          · left
            have := partner_symm c.inv a
            exact Option.some.inj (this.symm.trans h)
        show π (eOf l) = π (eOf m)
        rw [heq j m (eOf l) r pm hr this]
  · intro t ht l hl
    obtain ⟨i, hi, rfl⟩ := List.getElem_of_mem ht
    have pl : (i, l) ∈ legPairs ts := mem_legPairs.mpr ⟨_, List.getElem?_eq_getElem hi, hl⟩
    obtain ⟨r, hr, a⟩ := heOf i l pl
    show dimf (π (eOf l)) = _
    rw [hdimf _ (heLt i l pl)]
    simp only [wt]
    rw [hobj, hr]
    exact hrepdim r.2 l a
  · intro i t ht
    simp only [G]
    rw [List.getD_eq_getElem?_getD, List.getElem?_map, ht]
    rfl

end make
end CTL
