import Verif.Lemmas.BruteForce
import Mathlib.Algebra.Order.BigOperators.GroupWithZero.Finset
import Mathlib.Algebra.Order.Ring.Nat

/-! Helper lemmas: the capped search. -/

namespace CTL
variable {G : TGraph} {typ : Option Nat}

/-- The two sets may be contracted by the capped search. -/
def Allowed (G : TGraph) (S T : Finset Nat) : Prop :=
  ¬ (G.AllDiag S ∧ G.AllDiag T ∧ Disjoint (G.openEdges S) (G.openEdges T))

theorem Allowed.symm {S T : Finset Nat} (h : Allowed G S T) : Allowed G T S :=
  fun h' => h ⟨h'.2.1, h'.1, h'.2.2.symm⟩

/-- A tree the capped search may produce. -/
def Good (G : TGraph) (T : CTree) : Prop := T.Proper G.n ∧ G.NoDiagOuter T

theorem good_node {l r : CTree} : Good G (.node l r) ↔
    Good G l ∧ Good G r ∧ Disjoint l.verts r.verts ∧ Allowed G l.verts r.verts := by
  unfold Good
  rw [Proper.node]
  constructor
  · rintro ⟨⟨h1, h2, h3⟩, h4, h5, h6⟩
    exact ⟨⟨h1, h4⟩, ⟨h2, h5⟩, h3, h6⟩
  · rintro ⟨⟨h1, h4⟩, ⟨h2, h5⟩, h3, h6⟩
    exact ⟨⟨h1, h2, h3⟩, h4, h5, h6⟩

/-- A good tree of diagonal tensors is connected, so all its edges have the same dimension. -/
theorem good_uniform (hu : G.DiagUniform) {T : CTree} (hT : Good G T) (hd : G.AllDiag T.verts) :
    ∀ i ∈ T.verts, ∀ e ∈ G.edges i, ∀ j ∈ T.verts, ∀ e' ∈ G.edges j, G.dim e = G.dim e' := by
  induction T with
  | leaf k =>
    rw [verts_leaf] at hd ⊢
    intro i hi e he j hj e' he'
    rw [Finset.mem_singleton] at hi hj
    subst hi; subst hj
    have hk : j < G.n := hT.1.2 j (by simp [CTree.leaves])
    exact hu j hk (hd j (by simp)) e he e' he'
  | node l r ihl ihr =>
    obtain ⟨gl, gr, _, al⟩ := good_node.mp hT
    rw [verts_node] at hd ⊢
    obtain ⟨dl, dr⟩ := allDiag_union.mp hd
    have al' : ¬ Disjoint (G.openEdges l.verts) (G.openEdges r.verts) := fun h => al ⟨dl, dr, h⟩
    rw [Finset.not_disjoint_iff] at al'
    obtain ⟨e0, h1, h2⟩ := al'
    obtain ⟨i0, hi0, he0, _⟩ := mem_openEdges.mp h1
    obtain ⟨j0, hj0, hf0, _⟩ := mem_openEdges.mp h2
    have key : ∀ i ∈ l.verts ∪ r.verts, ∀ e ∈ G.edges i, G.dim e = G.dim e0 := by
      intro i hi e he
      rw [Finset.mem_union] at hi
      rcases hi with hi | hi
      · exact ihl gl dl i hi e he i0 hi0 e0 he0
      · exact ihr gr dr i hi e he j0 hj0 e0 hf0
    intro i hi e he j hj e' he'
    rw [key i hi e he, key j hj e' he']

/-- For two good trees that may be contracted, the dimension of a diagonal result is well defined. -/
theorem good_pair (hu : G.DiagUniform) {l r : CTree} (hl : Good G l) (hr : Good G r)
    (ha : Allowed G l.verts r.verts) (d1 : G.AllDiag l.verts) (d2 : G.AllDiag r.verts) :
    ∃ d, (G.openEdges l.verts).Nonempty ∧ (G.openEdges r.verts).Nonempty ∧
      (∀ e ∈ G.openEdges l.verts, G.dim e = d) ∧ ∀ e ∈ G.openEdges r.verts, G.dim e = d := by
  have ha' : ¬ Disjoint (G.openEdges l.verts) (G.openEdges r.verts) := fun h => ha ⟨d1, d2, h⟩
  rw [Finset.not_disjoint_iff] at ha'
  obtain ⟨e0, h1, h2⟩ := ha'
  obtain ⟨i0, hi0, he0, _⟩ := mem_openEdges.mp h1
  obtain ⟨j0, hj0, hf0, _⟩ := mem_openEdges.mp h2
  refine ⟨G.dim e0, ⟨e0, h1⟩, ⟨e0, h2⟩, ?_, ?_⟩
  · intro e he
    obtain ⟨i, hi, hei, _⟩ := mem_openEdges.mp he
    exact good_uniform hu hl d1 i hi e hei i0 hi0 e0 he0
  · intro e he
    obtain ⟨i, hi, hei, _⟩ := mem_openEdges.mp he
    exact good_uniform hu hr d2 i hi e hei j0 hj0 e0 hf0

/-- All dimensions that enter the cost are positive. -/
def PosDims (G : TGraph) (typ : Option Nat) : Prop :=
  ∀ i, i < G.n → ∀ e ∈ G.edges i, 0 < G.d typ e

theorem stepCost_pos (hu : G.DiagUniform) (hp : PosDims G typ) (ht : typ ≠ some 0) {l r : CTree} (hl : Good G l)
    (hr : Good G r) (ha : Allowed G l.verts r.verts) : 0 < G.stepCost typ l.verts r.verts := by
  have pl : ∀ e ∈ G.openEdges l.verts, 0 < G.d typ e := by
    intro e he
    obtain ⟨i, hi, hei, _⟩ := mem_openEdges.mp he
    exact hp i (Proper.lt hl.1 i hi) e hei
  have pr : ∀ e ∈ G.openEdges r.verts, 0 < G.d typ e := by
    intro e he
    obtain ⟨i, hi, hei, _⟩ := mem_openEdges.mp he
    exact hp i (Proper.lt hr.1 i hi) e hei
  unfold TGraph.stepCost
  split
  · rename_i h
    cases typ with
    | some D => simp only [Option.getD_some]; exact Nat.pos_of_ne_zero fun h => ht (by rw [h])
    | none =>
      obtain ⟨d, ⟨e, he⟩, _⟩ := good_pair hu hl hr ha h.1 h.2
      simp only [Option.getD_none]
      exact lt_of_lt_of_le (pl e he) (Finset.le_sup (f := G.dim) he)
  · split
    · apply Finset.prod_pos
      intro e he
      rw [Finset.mem_symmDiff] at he
      rcases he with he | he
      · exact pl e he.1
      · exact pr e he.1
    · apply Finset.prod_pos
      intro e he
      rw [Finset.mem_union] at he
      rcases he with he | he
      · exact pl e he
      · exact pr e he

/-- Standing assumptions on the graph. -/
structure CapHyp (G : TGraph) (typ : Option Nat) : Prop where
  ends : G.TwoEnds
  uni : G.DiagUniform
  pos : PosDims G typ
  typ : typ ≠ some 0

/-- The state is sound: recorded costs and sequences come from good trees. -/
structure CapOK (G : TGraph) (typ : Option Nat) (s : CapState) : Prop where
  cost : ∀ x c, s.tab.cost x = some c → ∃ q r T, s.tab.seq x = some q ∧ s.tab.res x = some r ∧ Good G T ∧
    T.verts = bits x ∧ G.treeCost typ T = c ∧ T.steps = q
  res : ∀ x r, s.tab.res x = some r → ResOK G (bits x) r
  objs : ∀ x k, x ∈ s.objs k ↔ (s.tab.cost x).isSome ∧ (bits x).card = k

/-- Recorded costs only decrease. -/
def Mono (s s' : CapState) : Prop := ∀ x c, s.tab.cost x = some c → ∃ c', c' ≤ c ∧ s'.tab.cost x = some c'

theorem Mono.refl (s : CapState) : Mono s s := fun _ c h => ⟨c, le_refl _, h⟩
theorem Mono.trans {a b c : CapState} (h1 : Mono a b) (h2 : Mono b c) : Mono a c := by
  intro x k h
  obtain ⟨k1, l1, e1⟩ := h1 x k h
  obtain ⟨k2, l2, e2⟩ := h2 x k1 e1
  exact ⟨k2, by omega, e2⟩

/-- Nothing changed for sets of fewer than `c` tensors. -/
def SameBelow (c : Nat) (s s' : CapState) : Prop :=
  (∀ x, (bits x).card < c → s'.tab.cost x = s.tab.cost x) ∧ ∀ k, k < c → s'.objs k = s.objs k

theorem SameBelow.refl (c : Nat) (s : CapState) : SameBelow c s s := ⟨fun _ _ => rfl, fun _ _ => rfl⟩
theorem SameBelow.trans {c : Nat} {s1 s2 s3 : CapState} (h1 : SameBelow c s1 s2) (h2 : SameBelow c s2 s3) :
    SameBelow c s1 s3 :=
  ⟨fun x h => (h2.1 x h).trans (h1.1 x h), fun k h => (h2.2 k h).trans (h1.2 k h)⟩
theorem SameBelow.mono {c c' : Nat} {s1 s2 : CapState} (h1 : SameBelow c s1 s2) (h : c' ≤ c) : SameBelow c' s1 s2 :=
  ⟨fun x hx => h1.1 x (by omega), fun k hk => h1.2 k (by omega)⟩

/-- The state `s` within a round that began with state `s0`. -/
structure RoundInv (G : TGraph) (typ : Option Nat) (muNew : Nat) (s0 s : CapState) : Prop where
  ok : CapOK G typ s
  flags : ∀ x, s.new x = false → s.tab.cost x = s0.tab.cost x ∧ s0.new x = false
  mono : Mono s0 s
  bound : ∀ x c, s.tab.cost x = some c → c ≤ muNew

/-- The candidate given by a pair has been taken into account. -/
def Done (G : TGraph) (typ : Option Nat) (muNew : Nat) (s : CapState) (t1 t2 : Nat) : Prop :=
  ∀ c1 c2, s.tab.cost t1 = some c1 → s.tab.cost t2 = some c2 → t1 &&& t2 = 0 → Allowed G (bits t1) (bits t2) →
    c1 + c2 + G.stepCost typ (bits t1) (bits t2) ≤ muNew →
    ∃ c', c' ≤ c1 + c2 + G.stepCost typ (bits t1) (bits t2) ∧ s.tab.cost (t1 ||| t2) = some c'

/-- Pairs of sets whose flags are both off were taken into account in an earlier round. -/
def Closed (G : TGraph) (typ : Option Nat) (muOld : Nat) (s : CapState) : Prop :=
  ∀ t1 t2, s.new t1 = false → s.new t2 = false → Done G typ muOld s t1 t2

theorem Done.keep {muNew c : Nat} {s s' : CapState} {t1 t2 : Nat} (h : Done G typ muNew s t1 t2)
    (hs : SameBelow c s s') (hm : Mono s s') (h1 : (bits t1).card < c) (h2 : (bits t2).card < c) :
    Done G typ muNew s' t1 t2 := by
  intro c1 c2 e1 e2 hd ha hle
  rw [hs.1 t1 h1] at e1
  rw [hs.1 t2 h2] at e2
  obtain ⟨c', l, e⟩ := h c1 c2 e1 e2 hd ha hle
  obtain ⟨c'', l', e'⟩ := hm _ _ e
  exact ⟨c'', by omega, e'⟩

theorem Done.symm {muNew : Nat} {s : CapState} (hu : G.DiagUniform) (hok : CapOK G typ s) {t1 t2 : Nat}
    (h : Done G typ muNew s t1 t2) : Done G typ muNew s t2 t1 := by
  intro c2 c1 e2 e1 hd ha hle
  have hd' : t1 &&& t2 = 0 := by rw [Nat.land_comm]; exact hd
  obtain ⟨_, _, T1, _, _, g1, v1, _⟩ := hok.cost _ _ e1
  obtain ⟨_, _, T2, _, _, g2, v2, _⟩ := hok.cost _ _ e2
  have hsym : G.stepCost typ (bits t2) (bits t1) = G.stepCost typ (bits t1) (bits t2) := by
    have := stepCost_symm (typ := typ) T2.verts T1.verts (Or.inr (good_pair hu g2 g1 (by rw [v1, v2]; exact ha)))
    rwa [v1, v2] at this
  rw [hsym] at hle ⊢
  obtain ⟨c', l, e⟩ := h c1 c2 e1 e2 hd' ha.symm (by omega)
  exact ⟨c', by omega, by rw [Nat.lor_comm]; exact e⟩

theorem card_lor {a b : Nat} (h : a &&& b = 0) : (bits (a ||| b)).card = (bits a).card + (bits b).card := by
  rw [bits_lor, Finset.card_union_of_disjoint (bits_disjoint.mpr h)]

theorem card_pos {x c : Nat} {s : CapState} (hok : CapOK G typ s) (h : s.tab.cost x = some c) :
    0 < (bits x).card := by
  obtain ⟨_, _, T, _, _, _, v, _⟩ := hok.cost _ _ h
  rw [← v]
  exact Finset.card_pos.mpr (verts_nonempty T)

/-- One pass through the loop body. -/
theorem capPair_spec (H : CapHyp G typ) {muOld muNew : Nat} {s0 s : CapState} (hcl : Closed G typ muOld s0)
    (inv : RoundInv G typ muNew s0 s) {c t1 t2 : Nat}
    (h1 : (s.tab.cost t1).isSome) (h2 : (s.tab.cost t2).isSome) (hc : (bits t1).card + (bits t2).card = c) :
    ∃ s', capPair typ muOld muNew c s (t1, t2) = .ok s' ∧ RoundInv G typ muNew s0 s' ∧ Mono s s' ∧
      SameBelow c s s' ∧ Done G typ muNew s' t1 t2 := by
  obtain ⟨c1, e1⟩ := Option.isSome_iff_exists.mp h1
  obtain ⟨c2, e2⟩ := Option.isSome_iff_exists.mp h2
  by_cases hdis : t1 &&& t2 = 0
  swap
  · refine ⟨s, by simp [capPair, hdis], inv, Mono.refl s, SameBelow.refl c s, ?_⟩
    intro _ _ _ _ hd
    exact absurd hd hdis
  obtain ⟨q1, r1, T1, hq1, hr1, g1, v1, tc1, st1⟩ := inv.ok.cost _ _ e1
  obtain ⟨q2, r2, T2, hq2, hr2, g2, v2, tc2, st2⟩ := inv.ok.cost _ _ e2
  have ok1 := inv.ok.res _ _ hr1
  have ok2 := inv.ok.res _ _ hr2
  have hban : isDiagonalOuterProduct r1 r2 = true ↔ ¬ Allowed G (bits t1) (bits t2) := by
    unfold isDiagonalOuterProduct Allowed
    have hsh := isSharingBond_iff ok1 ok2
    rw [Bool.and_eq_true, (both_diag_cases ok1 ok2).1, Bool.not_eq_true', not_not, ← and_assoc]
    have : isSharingBond r1 r2 = false ↔ Disjoint (G.openEdges (bits t1)) (G.openEdges (bits t2)) := by
      rw [← Bool.not_eq_true, hsh, not_not]
    rw [this]
  have ht1 : 0 < (bits t1).card := card_pos inv.ok e1
  have ht2 : 0 < (bits t2).card := card_pos inv.ok e2
  by_cases hall : Allowed G (bits t1) (bits t2)
  swap
  · refine ⟨s, ?_, inv, Mono.refl s, SameBelow.refl c s, ?_⟩
    · unfold capPair Tables.getRes
      simp only [hdis, ne_eq, not_true_eq_false, if_false, hr1, hr2, bind, Except.bind, hban.mpr hall, if_true]
      rfl
    · intro _ _ _ _ _ ha
      exact absurd ha hall
  have hban' : isDiagonalOuterProduct r1 r2 = false := by
    rw [← Bool.not_eq_true, hban, not_not]; exact hall
  have lt1 : ∀ i ∈ bits t1, i < G.n := by rw [← v1]; exact Proper.lt g1.1
  have lt2 : ∀ i ∈ bits t2, i < G.n := by rw [← v2]; exact Proper.lt g2.1
  have hds := bits_disjoint.mpr hdis
  have hcost : costFunc typ r1 r2 = .ok (G.stepCost typ (bits t1) (bits t2)) := by
    apply costFunc_ok typ ok1 ok2
    right
    intro d1 d2
    rw [← v1, ← v2] at *
    obtain ⟨d, n1, _, u1, _⟩ := good_pair H.uni g1 g2 hall d1 d2
    exact ⟨n1, fun e he e' he' => by rw [u1 e he, u1 e' he']⟩
  have hpos : 0 < G.stepCost typ (bits t1) (bits t2) := by
    have := stepCost_pos H.uni H.pos H.typ g1 g2 (by rw [v1, v2]; exact hall)
    rwa [v1, v2] at this
  set step := G.stepCost typ (bits t1) (bits t2) with hstep
  set tt := t1 ||| t2 with htt
  have hcard : (bits tt).card = c := by rw [htt, card_lor hdis, hc]
  have htree : Good G (.node T1 T2) := good_node.mpr ⟨g1, g2, by rw [v1, v2]; exact hds, by rw [v1, v2]; exact hall⟩
  -- the state after filling in `contractRes`
  obtain ⟨s1, hs1, hs1c, hs1q, hs1n, hs1o, hs1r, hs1i, hs1k⟩ : ∃ s1 : CapState, s1 = (if (s.tab.res tt).isNone then
      { s with tab := { s.tab with res := upd s.tab.res tt (some (calcRes r1 r2)) } } else s) ∧
      s1.tab.cost = s.tab.cost ∧ s1.tab.seq = s.tab.seq ∧ s1.new = s.new ∧ s1.objs = s.objs ∧
      (∀ x r, s1.tab.res x = some r → ResOK G (bits x) r) ∧ (s1.tab.res tt).isSome ∧
      ∀ x r, s.tab.res x = some r → s1.tab.res x = some r := by
    refine ⟨_, rfl, ?_⟩
    by_cases hn : (s.tab.res tt).isNone
    · rw [if_pos hn]
      refine ⟨rfl, rfl, rfl, rfl, ?_, by simp [upd], ?_⟩
      · intro x r hx
        by_cases hxt : x = tt
        · rw [hxt] at hx ⊢
          simp only [upd_same] at hx
          cases hx
          rw [htt, bits_lor]
          exact calcRes_ok H.ends lt1 lt2 hds ok1 ok2
        · simp only [upd_ne _ _ hxt] at hx
          exact inv.ok.res x r hx
      · intro x r hx
        by_cases hxt : x = tt
        · rw [hxt] at hx
          rw [hx] at hn
          cases hn
        · simp only [upd_ne _ _ hxt]
          exact hx
    · rw [if_neg hn]
      refine ⟨rfl, rfl, rfl, rfl, inv.ok.res, ?_, fun _ _ h => h⟩
      cases h : s.tab.res tt with
      | none => rw [h] at hn; simp at hn
      | some r => rfl
  have inv1 : RoundInv G typ muNew s0 s1 := by
    refine ⟨⟨?_, hs1r, ?_⟩, ?_, ?_, ?_⟩
    · intro x k hx
      rw [hs1c] at hx
      obtain ⟨q, r, T, a1, a2, a3⟩ := inv.ok.cost x k hx
      exact ⟨q, r, T, by rw [hs1q]; exact a1, hs1k x r a2, a3⟩
    · rw [hs1c, hs1o]; exact inv.ok.objs
    · rw [hs1n, hs1c]; exact inv.flags
    · intro x k hx; rw [hs1c]; exact inv.mono x k hx
    · rw [hs1c]; exact inv.bound
  have sb1 : SameBelow c s s1 := ⟨fun x _ => by rw [hs1c], fun k _ => by rw [hs1o]⟩
  have m1 : Mono s s1 := fun x k hx => ⟨k, le_refl _, by rw [hs1c]; exact hx⟩
  have e1' : s1.tab.cost t1 = some c1 := by rw [hs1c]; exact e1
  have e2' : s1.tab.cost t2 = some c2 := by rw [hs1c]; exact e2
  by_cases hbig : muNew < c1 + c2 + step
  · refine ⟨s1, ?_, inv1, m1, sb1, ?_⟩
    · unfold capPair
      simp only [hdis, ne_eq, not_true_eq_false, if_false, Tables.getRes, hr1, hr2, bind, Except.bind, hban',
        Bool.false_eq_true, ← htt, ← hs1, Tables.getCost, e1', e2', hcost, hbig, if_true]
      rfl
    · intro k1 k2 f1 f2 _ _ hle
      rw [e1'] at f1; rw [e2'] at f2
      cases f1; cases f2
      omega
  by_cases hmu0 : (if s1.new t1 || s1.new t2 then 0 else muOld) < c1 + c2 + step
  swap
  · refine ⟨s1, ?_, inv1, m1, sb1, ?_⟩
    · unfold capPair
      simp only [hdis, ne_eq, not_true_eq_false, if_false, Tables.getRes, hr1, hr2, bind, Except.bind, hban',
        Bool.false_eq_true, ← htt, ← hs1, Tables.getCost, e1', e2', hcost, hbig, hmu0]
      rfl
    · intro k1 k2 f1 f2 hd ha _
      rw [e1'] at f1; rw [e2'] at f2
      cases f1; cases f2
      by_cases hfl : (s1.new t1 || s1.new t2) = true
      · rw [if_pos hfl] at hmu0
        omega
      · rw [if_neg hfl] at hmu0
        have n1 : s1.new t1 = false := by cases h : s1.new t1 <;> simp_all
        have n2 : s1.new t2 = false := by cases h : s1.new t2 <;> simp_all
        obtain ⟨w1, w2⟩ := inv1.flags t1 n1
        obtain ⟨w3, w4⟩ := inv1.flags t2 n2
        rw [e1'] at w1
        rw [e2'] at w3
        obtain ⟨c', l', ec'⟩ := hcl t1 t2 w2 w4 c1 c2 w1.symm w3.symm hdis hall (by omega)
        obtain ⟨c'', l'', ec''⟩ := inv1.mono _ _ ec'
        exact ⟨c'', by omega, ec''⟩
  -- the candidate is considered
  obtain ⟨s2, hs2, hs2t, hs2n, hs2o, hs2o'⟩ : ∃ s2 : CapState, s2 = (if (s1.tab.cost tt).isNone then
      { s1 with objs := upd s1.objs c (s1.objs c ++ [tt]) } else s1) ∧ s2.tab = s1.tab ∧ s2.new = s1.new ∧
      (∀ k, k ≠ c → s2.objs k = s1.objs k) ∧
      (∀ x, x ∈ s2.objs c ↔ x ∈ s1.objs c ∨ x = tt ∧ (s1.tab.cost tt).isNone) := by
    refine ⟨_, rfl, ?_⟩
    by_cases hn : (s1.tab.cost tt).isNone
    · rw [if_pos hn]
      refine ⟨rfl, rfl, ?_, ?_⟩
      · intro k hk; simp only [upd_ne _ _ hk]
      · intro x
        simp only [upd_same, List.mem_append, List.mem_singleton, hn, and_true]
    · rw [if_neg hn]
      refine ⟨rfl, rfl, fun _ _ => rfl, ?_⟩
      intro x
      simp [hn]
  have hne1 : tt ≠ t1 := by
    intro h
    have := card_lor hdis
    rw [← htt, h] at this
    omega
  have hne2 : tt ≠ t2 := by
    intro h
    have := card_lor hdis
    rw [← htt, h] at this
    omega
  by_cases hbet : (s2.tab.cost tt).all (fun old => decide (c1 + c2 + step < old)) = true
  · -- update
    set mu := c1 + c2 + step with hmudef
    let s3 : CapState := { s2 with
      tab := { s2.tab with cost := upd s2.tab.cost tt (some mu),
                           seq := upd s2.tab.seq tt (some (q1 ++ q2 ++ [(lowbitI t1, lowbitI t2)])) },
      new := upd s2.new tt true }
    have mono3 : Mono s1 s3 := by
      intro x k hx
      by_cases hxt : x = tt
      · rw [hxt] at hx ⊢
        refine ⟨mu, ?_, by simp [s3, upd]⟩
        rw [hs2t, hx] at hbet
        simp only [Option.all_some, decide_eq_true_eq] at hbet
        omega
      · exact ⟨k, le_refl _, by simp only [s3, upd_ne _ _ hxt, hs2t]; exact hx⟩
    refine ⟨s3, ?_, ⟨⟨?_, ?_, ?_⟩, ?_, ?_, ?_⟩, m1.trans mono3, sb1.trans ⟨?_, ?_⟩, ?_⟩
    · unfold capPair
      simp only [hdis, ne_eq, not_true_eq_false, if_false, Tables.getRes, hr1, hr2, bind, Except.bind, hban',
        Bool.false_eq_true, ← htt, ← hs1, Tables.getCost, e1', e2', hcost, ← hmudef, hbig, hmu0, if_true, ← hs2,
        Tables.getSeq, hs2t, hs1q, hq1, hq2]
      rw [hs2t] at hbet
      rw [if_pos hbet]
      simp only [s3, hs2t, hs1q]
      rfl
    · intro x k hx
      by_cases hxt : x = tt
      · rw [hxt] at hx ⊢
        simp only [s3, upd_same] at hx ⊢
        cases hx
        obtain ⟨rx, hrx⟩ := Option.isSome_iff_exists.mp hs1i
        refine ⟨_, rx, .node T1 T2, rfl, by rw [hs2t]; exact hrx, htree, ?_, ?_, ?_⟩
        · rw [verts_node, v1, v2, htt, bits_lor]
        · simp only [TGraph.treeCost, tc1, tc2, v1, v2, ← hstep]; exact hmudef.symm
        · simp only [CTree.steps, st1, st2, slot_eq_lowbitI T1 v1, slot_eq_lowbitI T2 v2]
      · simp only [s3, upd_ne _ _ hxt, hs2t] at hx ⊢
        exact inv1.ok.cost x k hx
    · simp only [s3, hs2t]; exact inv1.ok.res
    · intro x k
      have : s3.objs = s2.objs := rfl
      rw [this]
      have hc3 : (s3.tab.cost x).isSome ↔ (s1.tab.cost x).isSome ∨ x = tt := by
        by_cases hxt : x = tt
        · simp [s3, hxt, upd]
        · simp only [s3, upd_ne _ _ hxt, hs2t, hxt, or_false]
      rw [hc3]
      have hcost_or : x = tt → ((s1.tab.cost tt).isNone ∨ (s1.tab.cost x).isSome) := by
        rintro rfl
        cases s1.tab.cost tt <;> simp
      by_cases hk : k = c
      · subst hk
        rw [hs2o', inv1.ok.objs]
        constructor
        · rintro (⟨a, b⟩ | ⟨a, b⟩)
          · exact ⟨Or.inl a, b⟩
          · exact ⟨Or.inr a, by rw [a]; exact hcard⟩
        · rintro ⟨a | a, b⟩
          · exact Or.inl ⟨a, b⟩
          · rcases hcost_or a with h | h
            · exact Or.inr ⟨a, h⟩
            · exact Or.inl ⟨h, b⟩
      · rw [hs2o k hk, inv1.ok.objs]
        constructor
        · rintro ⟨a, b⟩; exact ⟨Or.inl a, b⟩
        · rintro ⟨a | a, b⟩
          · exact ⟨a, b⟩
          · rw [a, hcard] at b
            exact absurd b.symm hk
    · intro x hx
      by_cases hxt : x = tt
      · simp [s3, hxt, upd] at hx
      · simp only [s3, upd_ne _ _ hxt, hs2t, hs2n] at hx ⊢
        exact inv1.flags x hx
    · exact inv1.mono.trans mono3
    · intro x k hx
      by_cases hxt : x = tt
      · simp only [s3, hxt, upd_same] at hx
        cases hx
        omega
      · simp only [s3, upd_ne _ _ hxt, hs2t] at hx
        exact inv1.bound x k hx
    · intro x hx
      have hxt : x ≠ tt := by rintro rfl; omega
      simp only [s3, upd_ne _ _ hxt, hs2t]
    · intro k hk
      change s2.objs k = s1.objs k
      exact hs2o k (by omega)
    · intro k1 k2 f1 f2 _ _ _
      simp only [s3, upd_ne _ _ hne1.symm, upd_ne _ _ hne2.symm, hs2t] at f1 f2
      rw [e1'] at f1; rw [e2'] at f2
      cases f1; cases f2
      exact ⟨mu, le_refl _, by simp only [s3]; exact upd_same _ _ _⟩
  · -- not better than what is known
    have hsome : ∃ old, s1.tab.cost tt = some old ∧ old ≤ c1 + c2 + step := by
      rw [hs2t] at hbet
      cases h : s1.tab.cost tt with
      | none => rw [h] at hbet; simp at hbet
      | some old =>
        rw [h] at hbet
        simp only [Option.all_some, decide_eq_true_eq, not_lt] at hbet
        exact ⟨old, rfl, hbet⟩
    obtain ⟨old, hold, hle⟩ := hsome
    have hs21 : s2 = s1 := by rw [hs2, hold]; rfl
    rw [hs21] at hs2 hbet
    refine ⟨s1, ?_, inv1, m1, sb1, ?_⟩
    · unfold capPair
      simp only [hdis, ne_eq, not_true_eq_false, if_false, Tables.getRes, hr1, hr2, bind, Except.bind, hban',
        Bool.false_eq_true, ← htt, ← hs1, Tables.getCost, e1', e2', hcost, hbig, hmu0, if_true, ← hs2,
        hbet]
      rfl
    · intro k1 k2 f1 f2 _ _ _
      rw [e1'] at f1; rw [e2'] at f2
      cases f1; cases f2
      exact ⟨old, hle, hold⟩


theorem objPairs_sound {objs : Nat → List Nat} {c1 c2 : Nat} {p : Nat × Nat} (h : p ∈ objPairs objs c1 c2) :
    p.1 ∈ objs c1 ∧ p.2 ∈ objs c2 := by
  unfold objPairs at h
  split at h
  · rename_i hc
    subst hc
    simp only [objPairsSame, List.mem_flatMap, List.mem_range, List.mem_map] at h
    obtain ⟨i, hi, j, hj, rfl⟩ := h
    simp only [List.getD_eq_getElem?_getD, List.getElem?_eq_getElem hi,
      List.getElem?_eq_getElem (show j < (objs c1).length by omega), Option.getD_some]
    exact ⟨List.getElem_mem _, List.getElem_mem _⟩
  · simp only [objPairsDiff, List.mem_flatMap, List.mem_map] at h
    obtain ⟨a, ha, b, hb, rfl⟩ := h
    exact ⟨ha, hb⟩

theorem objPairs_complete {objs : Nat → List Nat} {c1 c2 t1 t2 : Nat} (h1 : t1 ∈ objs c1) (h2 : t2 ∈ objs c2)
    (hne : t1 ≠ t2) : (t1, t2) ∈ objPairs objs c1 c2 ∨ (t2, t1) ∈ objPairs objs c1 c2 := by
  unfold objPairs
  split
  · rename_i hc
    subst hc
    obtain ⟨i, hi, rfl⟩ := List.getElem_of_mem h1
    obtain ⟨j, hj, rfl⟩ := List.getElem_of_mem h2
    simp only [objPairsSame, List.mem_flatMap, List.mem_range, List.mem_map]
    have hij : i ≠ j := by rintro rfl; exact hne rfl
    rcases Nat.lt_or_gt_of_ne hij with h | h
    · left
      exact ⟨j, hj, i, h, by simp [List.getD_eq_getElem?_getD, List.getElem?_eq_getElem hi, List.getElem?_eq_getElem hj]⟩
    · right
      exact ⟨i, hi, j, h, by simp [List.getD_eq_getElem?_getD, List.getElem?_eq_getElem hi, List.getElem?_eq_getElem hj]⟩
  · left
    simp only [objPairsDiff, List.mem_flatMap, List.mem_map]
    exact ⟨t1, h1, t2, h2, rfl⟩

/-- The innermost loop. -/
theorem capPairs_spec (H : CapHyp G typ) {muOld muNew : Nat} {s0 : CapState} (hcl : Closed G typ muOld s0) {c : Nat}
    (ps : List (Nat × Nat)) : ∀ s, RoundInv G typ muNew s0 s →
    (∀ p ∈ ps, (s.tab.cost p.1).isSome ∧ (s.tab.cost p.2).isSome ∧ (bits p.1).card + (bits p.2).card = c) →
    ∃ s', ps.foldlM (capPair typ muOld muNew c) s = .ok s' ∧ RoundInv G typ muNew s0 s' ∧ Mono s s' ∧
      SameBelow c s s' ∧ ∀ p ∈ ps, Done G typ muNew s' p.1 p.2 := by
  induction ps with
  | nil => intro s inv _; exact ⟨s, rfl, inv, Mono.refl s, SameBelow.refl c s, by simp⟩
  | cons p ps ih =>
    intro s inv hp
    obtain ⟨a1, a2, a3⟩ := hp p (by simp)
    obtain ⟨s1, e1, inv1, m1, sb1, d1⟩ := capPair_spec H hcl inv a1 a2 a3
    have isome : ∀ x, (s.tab.cost x).isSome → (s1.tab.cost x).isSome := by
      intro x hx
      obtain ⟨k, hk⟩ := Option.isSome_iff_exists.mp hx
      obtain ⟨k', _, hk'⟩ := m1 x k hk
      rw [hk']; rfl
    obtain ⟨s2, e2, inv2, m2, sb2, d2⟩ := ih s1 inv1 (by
      intro q hq
      obtain ⟨b1, b2, b3⟩ := hp q (by simp [hq])
      exact ⟨isome _ b1, isome _ b2, b3⟩)
    refine ⟨s2, ?_, inv2, m1.trans m2, sb1.trans sb2, ?_⟩
    · rw [List.foldlM_cons]
      simp only [e1, bind, Except.bind]
      exact e2
    · intro q hq
      rw [List.mem_cons] at hq
      rcases hq with rfl | hq
      · obtain ⟨k1, hk1⟩ := Option.isSome_iff_exists.mp a1
        obtain ⟨k2, hk2⟩ := Option.isSome_iff_exists.mp a2
        have := card_pos inv.ok hk1
        have := card_pos inv.ok hk2
        exact d1.keep sb2 m2 (by omega) (by omega)
      · exact d2 q hq

/-- The loop over the sizes of the two parts. -/
theorem capSizes_spec (H : CapHyp G typ) {muOld muNew : Nat} {s0 : CapState} (hcl : Closed G typ muOld s0) {c : Nat}
    (cs : List Nat) (hcs : ∀ c1 ∈ cs, 0 < c1 ∧ c1 < c) : ∀ s, RoundInv G typ muNew s0 s →
    ∃ s', cs.foldlM (fun s c1 => (objPairs s.objs c1 (c - c1)).foldlM (capPair typ muOld muNew c) s) s = .ok s' ∧
      RoundInv G typ muNew s0 s' ∧ Mono s s' ∧ SameBelow c s s' ∧
      ∀ c1 ∈ cs, ∀ t1 t2, (s'.tab.cost t1).isSome → (s'.tab.cost t2).isSome → (bits t1).card = c1 →
        (bits t2).card = c - c1 → Done G typ muNew s' t1 t2 := by
  induction cs with
  | nil => intro s inv; exact ⟨s, rfl, inv, Mono.refl s, SameBelow.refl c s, by simp⟩
  | cons c1 cs ih =>
    intro s inv
    obtain ⟨hc0, hc1⟩ := hcs c1 (by simp)
    obtain ⟨s1, e1, inv1, m1, sb1, d1⟩ := capPairs_spec H hcl (c := c) (objPairs s.objs c1 (c - c1)) s inv (by
      intro p hp
      obtain ⟨a, b⟩ := objPairs_sound hp
      obtain ⟨a1, a2⟩ := (inv.ok.objs _ _).mp a
      obtain ⟨b1, b2⟩ := (inv.ok.objs _ _).mp b
      exact ⟨a1, b1, by omega⟩)
    obtain ⟨s2, e2, inv2, m2, sb2, d2⟩ := ih (fun k hk => hcs k (by simp [hk])) s1 inv1
    refine ⟨s2, ?_, inv2, m1.trans m2, sb1.trans sb2, ?_⟩
    · rw [List.foldlM_cons]
      simp only [e1, bind, Except.bind]
      exact e2
    · intro k hk t1 t2 i1 i2 k1 k2
      rw [List.mem_cons] at hk
      rcases hk with rfl | hk
      · have sb := sb1.trans sb2
        rw [sb.1 t1 (by omega)] at i1
        rw [sb.1 t2 (by omega)] at i2
        have o1 := (inv.ok.objs t1 _).mpr ⟨i1, k1⟩
        have o2 := (inv.ok.objs t2 _).mpr ⟨i2, k2⟩
        by_cases hne : t1 = t2
        · subst hne
          intro x1 x2 f1 _ hd
          rw [Nat.and_self] at hd
          subst hd
          have := card_pos inv2.ok f1
          rw [bits_zero] at this
          simp at this
        · rcases objPairs_complete o1 o2 hne with h | h
          · exact (d1 _ h).keep sb2 m2 (by show (bits t1).card < c; omega) (by show (bits t2).card < c; omega)
          · exact ((d1 _ h).symm H.uni inv1.ok).keep sb2 m2 (by show (bits t1).card < c; omega)
              (by show (bits t2).card < c; omega)
      · exact d2 k hk t1 t2 i1 i2 k1 k2

/-- A whole round. -/
theorem capRound_spec (H : CapHyp G typ) {muOld muNew : Nat} {s0 : CapState} (hcl : Closed G typ muOld s0)
    (inv0 : RoundInv G typ muNew s0 s0) :
    ∃ s, capRound typ G.n muOld muNew s0 = .ok s ∧ RoundInv G typ muNew s0 s ∧
      ∀ t1 t2, Done G typ muNew s t1 t2 := by
  have main : ∀ k, ∃ s, (List.range' 2 k).foldlM (fun s c =>
      (List.range' 1 (c / 2)).foldlM (fun s c1 =>
        (objPairs s.objs c1 (c - c1)).foldlM (capPair typ muOld muNew c) s) s) s0 = .ok s ∧
      RoundInv G typ muNew s0 s ∧
      ∀ t1 t2, (bits t1).card + (bits t2).card < 2 + k → Done G typ muNew s t1 t2 := by
    intro k
    induction k with
    | zero =>
      refine ⟨s0, rfl, inv0, ?_⟩
      intro t1 t2 hk c1 c2 e1 e2
      have := card_pos inv0.ok e1
      have := card_pos inv0.ok e2
      omega
    | succ k ih =>
      obtain ⟨s, e, inv, d⟩ := ih
      obtain ⟨s', e', inv', m', sb', d'⟩ := capSizes_spec H hcl (c := 2 + k) (List.range' 1 ((2 + k) / 2)) (by
        intro c1 h
        rw [List.mem_range'_1] at h
        omega) s inv
      refine ⟨s', ?_, inv', ?_⟩
      · rw [List.range'_concat, List.foldlM_append, e]
        simp only [bind, Except.bind, List.foldlM_cons, List.foldlM_nil, pure, Except.pure, one_mul]
        rw [e']
      · intro t1 t2 hk
        by_cases hlt : (bits t1).card + (bits t2).card < 2 + k
        · intro c1 c2 e1 e2
          have p1 := card_pos inv'.ok e1
          have p2 := card_pos inv'.ok e2
          exact ((d t1 t2 hlt).keep sb' m' (by omega) (by omega)) c1 c2 e1 e2
        · intro c1 c2 e1 e2
          have p1 := card_pos inv'.ok e1
          have p2 := card_pos inv'.ok e2
          have i1 : (s'.tab.cost t1).isSome := by rw [e1]; rfl
          have i2 : (s'.tab.cost t2).isSome := by rw [e2]; rfl
          rcases Nat.le_total (bits t1).card (bits t2).card with h | h
          · exact d' _ (by rw [List.mem_range'_1]; omega) t1 t2 i1 i2 rfl (by omega) c1 c2 e1 e2
          · exact (d' _ (by rw [List.mem_range'_1]; omega) t2 t1 i2 i1 rfl (by omega)).symm H.uni inv'.ok
              c1 c2 e1 e2
  obtain ⟨s, e, inv, d⟩ := main (G.n - 1)
  refine ⟨s, e, inv, ?_⟩
  intro t1 t2 c1 c2 e1 e2 hd
  refine d t1 t2 ?_ c1 c2 e1 e2 hd
  obtain ⟨_, _, T1, _, _, g1, v1, _⟩ := inv.ok.cost _ _ e1
  obtain ⟨_, _, T2, _, _, g2, v2, _⟩ := inv.ok.cost _ _ e2
  have hsub : bits (t1 ||| t2) ⊆ Finset.range G.n := by
    intro i hi
    rw [bits_lor, Finset.mem_union, ← v1, ← v2] at hi
    rw [Finset.mem_range]
    rcases hi with hi | hi
    · exact Proper.lt g1.1 i hi
    · exact Proper.lt g2.1 i hi
  have hle := Finset.card_le_card hsub
  rw [card_lor hd, Finset.card_range] at hle
  have := card_pos inv.ok e1
  have := card_pos inv.ok e2
  omega

/-- Everything reachable with cost at most `mu` has been found. -/
def Found (G : TGraph) (typ : Option Nat) (mu : Nat) (s : CapState) : Prop :=
  ∀ T, Good G T → G.treeCost typ T ≤ mu → ∃ c, c ≤ G.treeCost typ T ∧ s.tab.cost T.mask = some c

theorem found_of_done {mu : Nat} {s : CapState}
    (hleaf : ∀ i, i < G.n → (s.tab.cost (2 ^ i)).isSome ∧ ∀ c, s.tab.cost (2 ^ i) = some c → c = 0)
    (hd : ∀ t1 t2, Done G typ mu s t1 t2) : Found G typ mu s := by
  intro T
  induction T with
  | leaf i =>
    intro hg _
    have hi : i < G.n := hg.1.2 i (by simp [CTree.leaves])
    obtain ⟨h1, h2⟩ := hleaf i hi
    obtain ⟨c, hc⟩ := Option.isSome_iff_exists.mp h1
    exact ⟨c, by rw [h2 c hc]; exact Nat.zero_le _, hc⟩
  | node l r ihl ihr =>
    intro hg hle
    obtain ⟨gl, gr, dlr, al⟩ := good_node.mp hg
    simp only [TGraph.treeCost] at hle ⊢
    obtain ⟨cl, ll, el⟩ := ihl gl (by omega)
    obtain ⟨cr, lr, er⟩ := ihr gr (by omega)
    have := hd l.mask r.mask cl cr el er (by rw [← bits_disjoint, bits_mask, bits_mask]; exact dlr)
      (by rw [bits_mask, bits_mask]; exact al)
    rw [bits_mask, bits_mask] at this
    obtain ⟨c, lc, ec⟩ := this (by omega)
    exact ⟨c, by omega, ec⟩

/-- The state between two rounds. -/
structure LoopInv (G : TGraph) (typ : Option Nat) (muOld muNew : Nat) (s : CapState) : Prop where
  ok : CapOK G typ s
  closed : Closed G typ muOld s
  bound : ∀ x c, s.tab.cost x = some c → c ≤ muOld
  found : Found G typ muOld s
  leaf : ∀ i, i < G.n → (s.tab.cost (2 ^ i)).isSome ∧ ∀ c, s.tab.cost (2 ^ i) = some c → c = 0
  lt : muOld < muNew

theorem clearNew_tab (n : Nat) (s : CapState) : (clearNew n s).tab = s.tab ∧ (clearNew n s).objs = s.objs := ⟨rfl, rfl⟩

theorem round_step (H : CapHyp G typ) {muOld muNew chi : Nat} (hchi : 2 ≤ chi) {s : CapState}
    (h : LoopInv G typ muOld muNew s) :
    ∃ s', capRound typ G.n muOld muNew s = .ok s' ∧
      LoopInv G typ muNew (max muNew (muNew * chi)) (clearNew G.n s') := by
  have inv0 : RoundInv G typ muNew s s :=
    ⟨h.ok, fun x hx => ⟨rfl, hx⟩, Mono.refl s, fun x c hx => by have := h.bound x c hx; have := h.lt; omega⟩
  obtain ⟨s', e, inv, d⟩ := capRound_spec H h.closed inv0
  have hleaf : ∀ i, i < G.n → (s'.tab.cost (2 ^ i)).isSome ∧ ∀ c, s'.tab.cost (2 ^ i) = some c → c = 0 := by
    intro i hi
    obtain ⟨h1, h2⟩ := h.leaf i hi
    obtain ⟨c, hc⟩ := Option.isSome_iff_exists.mp h1
    obtain ⟨c', l', e'⟩ := inv.mono _ _ hc
    refine ⟨by rw [e']; rfl, ?_⟩
    intro k hk
    rw [e'] at hk
    cases hk
    have := h2 c hc
    omega
  refine ⟨s', e, ⟨⟨inv.ok.cost, inv.ok.res, inv.ok.objs⟩, ?_, inv.bound, ?_, hleaf, ?_⟩⟩
  · intro t1 t2 _ _
    exact d t1 t2
  · exact found_of_done hleaf d
  · have := h.lt
    have : muNew * 2 ≤ muNew * chi := Nat.mul_le_mul_left _ hchi
    omega

theorem full_present {muOld muNew : Nat} {s : CapState} (h : LoopInv G typ muOld muNew s) :
    (s.objs G.n).length ≠ 0 ↔ (s.tab.cost (1 <<< G.n - 1)).isSome := by
  constructor
  · intro hl
    obtain ⟨x, hx⟩ := List.exists_mem_of_length_pos (Nat.pos_of_ne_zero hl)
    obtain ⟨h1, h2⟩ := (h.ok.objs x _).mp hx
    obtain ⟨c, hc⟩ := Option.isSome_iff_exists.mp h1
    obtain ⟨_, _, T, _, _, g, v, _⟩ := h.ok.cost _ _ hc
    have hsub : bits x ⊆ Finset.range G.n := by
      intro i hi
      rw [← v] at hi
      rw [Finset.mem_range]
      exact Proper.lt g.1 i hi
    have : bits x = Finset.range G.n := Finset.eq_of_subset_of_card_le hsub (by simp [h2])
    rw [← bits_full] at this
    rw [← bits_inj this]
    exact h1
  · intro hs
    have : (1 <<< G.n - 1) ∈ s.objs G.n := (h.ok.objs _ _).mpr ⟨hs, by rw [bits_full]; simp⟩
    exact (List.length_pos_of_mem this).ne'

/-- What the loop returns. -/
theorem capLoop_sound (H : CapHyp G typ) {chi : Nat} (hchi : 2 ≤ chi) :
    ∀ fuel muOld muNew s, LoopInv G typ muOld muNew s → ∀ r, capLoop typ G.n chi fuel muOld muNew s = some r →
    ∃ s' mo mn, r = .ok s' ∧ LoopInv G typ mo mn s' ∧ (s'.tab.cost (1 <<< G.n - 1)).isSome := by
  intro fuel
  induction fuel with
  | zero =>
    intro muOld muNew s h r hr
    unfold capLoop at hr
    split at hr
    · rename_i hl
      cases hr
      exact ⟨s, muOld, muNew, rfl, h, (full_present h).mp hl⟩
    · cases hr
  | succ fuel ih =>
    intro muOld muNew s h r hr
    unfold capLoop at hr
    split at hr
    · rename_i hl
      cases hr
      exact ⟨s, muOld, muNew, rfl, h, (full_present h).mp hl⟩
    · obtain ⟨s', e, h'⟩ := round_step H hchi h
      simp only [e] at hr
      exact ih _ _ _ h' r hr

/-- The loop terminates as soon as the cap exceeds the cost of some good tree. -/
theorem capLoop_terminates (H : CapHyp G typ) {chi : Nat} (hchi : 2 ≤ chi) {T : CTree} (hT : Good G T)
    (hv : T.verts = Finset.range G.n) :
    ∀ fuel muOld muNew s, LoopInv G typ muOld muNew s → G.treeCost typ T ≤ fuel + muOld →
    ∃ r, capLoop typ G.n chi fuel muOld muNew s = some r := by
  have hm : T.mask = 1 <<< G.n - 1 := bits_inj (by rw [bits_mask, bits_full, hv])
  intro fuel
  induction fuel with
  | zero =>
    intro muOld muNew s h hle
    obtain ⟨c, _, hc⟩ := h.found T hT (by omega)
    unfold capLoop
    rw [if_pos ((full_present h).mpr (by rw [← hm, hc]; rfl))]
    exact ⟨_, rfl⟩
  | succ fuel ih =>
    intro muOld muNew s h hle
    unfold capLoop
    split
    · exact ⟨_, rfl⟩
    · obtain ⟨s', e, h'⟩ := round_step H hchi h
      simp only [e]
      apply ih _ _ _ h'
      have := h.lt
      omega

theorem capInit_inv (H : CapHyp G typ) {g : Input} (h : Describes g G) :
    LoopInv G typ 0 1 ⟨initTables g, fun _ => true,
      fun c => if c = 1 then (List.range g.edges.length).map (1 <<< ·) else []⟩ := by
  obtain ⟨h1, h2, h3⟩ := initTables_spec h
  have hn := h.n
  refine ⟨⟨?_, ?_, ?_⟩, ?_, ?_, ?_, ?_, by omega⟩
  · intro x c hx
    obtain ⟨i, hi, rfl, rfl⟩ := h1 x c hx
    obtain ⟨_, h5, r, h6⟩ := h3 i hi
    refine ⟨_, r, .leaf i, h5, h6, ⟨⟨by simp [CTree.leaves], by simpa [CTree.leaves] using hi⟩, trivial⟩, ?_, rfl, rfl⟩
    rw [verts_leaf, bits_two_pow]
  · intro x r hx
    obtain ⟨i, hi, rfl, h4⟩ := h2 x r hx
    rw [bits_two_pow]
    exact h4
  · intro x k
    constructor
    · intro hx
      by_cases hk : k = 1
      · simp only [if_pos hk, List.mem_map] at hx
        obtain ⟨i, hi, rfl⟩ := hx
        rw [List.mem_range, hn] at hi
        rw [Nat.one_shiftLeft, bits_two_pow, (h3 i hi).1]
        simp [hk]
      · simp only [if_neg hk, List.not_mem_nil] at hx
    · rintro ⟨hs, hk⟩
      obtain ⟨c, hc⟩ := Option.isSome_iff_exists.mp hs
      obtain ⟨i, hi, rfl, rfl⟩ := h1 x c hc
      rw [bits_two_pow, Finset.card_singleton] at hk
      simp only [if_pos hk.symm, List.mem_map]
      exact ⟨i, by rw [List.mem_range, hn]; exact hi, Nat.one_shiftLeft i⟩
  · intro t1 t2 hf
    cases hf
  · intro x c hx
    obtain ⟨i, hi, rfl, rfl⟩ := h1 x c hx
    exact le_refl _
  · intro T hT hle
    cases T with
    | leaf i =>
      have hi : i < G.n := hT.1.2 i (by simp [CTree.leaves])
      exact ⟨0, Nat.zero_le _, (h3 i hi).1⟩
    | node l r =>
      obtain ⟨gl, gr, _, al⟩ := good_node.mp hT
      have := stepCost_pos H.uni H.pos H.typ gl gr al
      simp only [TGraph.treeCost] at hle
      omega
  · intro i hi
    rw [(h3 i hi).1]
    exact ⟨rfl, fun c hc => by cases hc; rfl⟩

theorem pyMin_ok {l : List Nat} (h : l ≠ []) : ∃ m, pyMin l = .ok m := by
  cases l with
  | nil => exact absurd rfl h
  | cons x xs => exact ⟨_, rfl⟩

theorem chiMin_ok {g : Input} (h : Describes g G) (hn : G.n ≠ 0)
    (hne : typ.isSome ∨ ∀ i, i < G.n → (G.edges i).Nonempty) : ∃ chi, chiMin g typ = .ok chi ∧ 2 ≤ chi := by
  unfold chiMin
  cases typ with
  | some d => exact ⟨_, rfl, by omega⟩
  | none =>
    have hne' := hne.resolve_left (by simp)
    have main : ∀ ls : List (List Nat), (∀ l ∈ ls, l ≠ []) → ∃ ms, ls.mapM pyMin = .ok ms ∧ ms.length = ls.length := by
      intro ls
      induction ls with
      | nil => intro _; exact ⟨[], rfl, rfl⟩
      | cons l ls ih =>
        intro hl
        obtain ⟨m, hm⟩ := pyMin_ok (hl l (by simp))
        obtain ⟨ms, e, len⟩ := ih (fun l' h' => hl l' (by simp [h']))
        refine ⟨m :: ms, ?_, by simp [len]⟩
        rw [List.mapM_cons, hm, e]
        rfl
    obtain ⟨ms, e, len⟩ := main g.shapes (by
      intro l hl
      obtain ⟨i, hi, rfl⟩ := List.getElem_of_mem hl
      rw [h.shapes] at hi
      have hs := h.shape i hi
      rw [List.getD_eq_getElem?_getD, List.getElem?_eq_getElem (by rw [h.shapes]; exact hi), Option.getD_some] at hs
      rw [hs]
      obtain ⟨x, hx⟩ := hne' i hi
      rw [← (h.edges i hi).2, List.mem_toFinset] at hx
      intro hnil
      rw [List.map_eq_nil_iff] at hnil
      rw [hnil] at hx
      cases hx)
    obtain ⟨m, hm⟩ := pyMin_ok (l := ms) (by
      intro hnil
      rw [hnil, h.shapes] at len
      exact hn len.symm)
    refine ⟨max m 2, ?_, by omega⟩
    simp only [e, hm, bind, Except.bind, pure, Except.pure]

/-- The result of the capped search: best among the trees without diagonal outer products. -/
def CapOptimal (G : TGraph) (typ : Option Nat) (c : Nat) (q : List (Nat × Nat)) : Prop :=
  ∃ T : CTree, T.Complete G.n ∧ G.NoDiagOuter T ∧ G.treeCost typ T = c ∧ T.steps = q ∧
    ∀ T' : CTree, T'.Complete G.n → G.NoDiagOuter T' → c ≤ G.treeCost typ T'

theorem capping_spec (H : CapHyp G typ) {g : Input} (h : Describes g G) (hn : G.n ≠ 0)
    (hne : typ.isSome ∨ ∀ i, i < G.n → (G.edges i).Nonempty) :
    (∀ fuel r, capping g typ fuel = some r → ∃ s c q, r = .ok (s, q) ∧ s.cost (1 <<< G.n - 1) = some c ∧
      CapOptimal G typ c q) ∧
    ∀ T : CTree, T.Complete G.n → G.NoDiagOuter T →
      ∀ fuel, G.treeCost typ T ≤ fuel → (capping g typ fuel).isSome := by
  obtain ⟨chi, hchi, h2⟩ := chiMin_ok (typ := typ) h hn hne
  have hinit := capInit_inv H h
  have e : ∀ fuel, capping g typ fuel = (capLoop typ G.n chi fuel 0 1 ⟨initTables g, fun _ => true,
      fun c => if c = 1 then (List.range g.edges.length).map (1 <<< ·) else []⟩).map (fun r => (do
        let s ← r
        let q ← s.tab.getSeq (1 <<< G.n - 1)
        pure (s.tab, q))) := by
    intro fuel
    unfold capping
    rw [hchi]
    simp only [h.n, if_neg hn]
  constructor
  · intro fuel r hr
    rw [e, Option.map_eq_some_iff] at hr
    obtain ⟨r', hr', rfl⟩ := hr
    obtain ⟨s, mo, mn, rfl, inv, hf⟩ := capLoop_sound H h2 fuel _ _ _ hinit r' hr'
    obtain ⟨c, hc⟩ := Option.isSome_iff_exists.mp hf
    obtain ⟨q, _, T, hq, _, hg, hv, hcost, hst⟩ := inv.ok.cost _ _ hc
    rw [bits_full] at hv
    refine ⟨s.tab, c, q, ?_, hc, T, complete_iff.mpr ⟨hg.1, hv⟩, hg.2, hcost, hst, ?_⟩
    · simp only [bind, Except.bind, Tables.getSeq, hq, pure, Except.pure]
    · intro T' hT' hno
      by_contra hlt
      obtain ⟨hp, hv'⟩ := complete_iff.mp hT'
      have hb := inv.bound _ _ hc
      obtain ⟨c', hle, hc'⟩ := inv.found T' ⟨hp, hno⟩ (by omega)
      have hm : T'.mask = 1 <<< G.n - 1 := bits_inj (by rw [bits_mask, bits_full, hv'])
      rw [hm, hc] at hc'
      cases hc'
      omega
  · intro T hT hno fuel hf
    obtain ⟨hp, hv⟩ := complete_iff.mp hT
    obtain ⟨r, hr⟩ := capLoop_terminates H h2 ⟨hp, hno⟩ hv fuel 0 1 _ hinit (by omega)
    rw [e, hr]
    rfl

end CTL
