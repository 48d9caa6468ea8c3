import Verif.Spec.Search
import Verif.Props.Subsets
import Verif.Props.Lists
import Mathlib.Tactic.Ring
import Mathlib.Tactic.NormNum

/-! Helper lemmas about the contraction-order search: results and costs of single contractions. -/

namespace CTL

/-! ### Masks as sets -/

/-- The set of tensors of a mask. -/
def bits (x : Nat) : Finset Nat := (Finset.range (x + 1)).filter fun i => x.testBit i = true

theorem mem_bits {x i : Nat} : i ∈ bits x ↔ x.testBit i = true := by
  unfold bits
  rw [Finset.mem_filter, Finset.mem_range]
  constructor
  · exact fun h => h.2
  · intro h
    refine ⟨?_, h⟩
    by_contra hc
    have : x < 2 ^ i := lt_of_lt_of_le (by omega : x < i) (Nat.lt_two_pow_self).le
    rw [Nat.testBit_lt_two_pow this] at h
    cases h

theorem bits_inj {x y : Nat} (h : bits x = bits y) : x = y := by
  apply Nat.eq_of_testBit_eq
  intro i
  have : i ∈ bits x ↔ i ∈ bits y := by rw [h]
  rw [mem_bits, mem_bits] at this
  cases hx : x.testBit i <;> cases hy : y.testBit i <;> simp_all

theorem bits_zero : bits 0 = ∅ := by
  ext i; simp [mem_bits]

theorem bits_nonempty {x : Nat} : (bits x).Nonempty ↔ x ≠ 0 := by
  rw [Finset.nonempty_iff_ne_empty, ne_eq, ne_eq, ← bits_zero]
  constructor
  · intro h e; exact h (by rw [e])
  · intro h e; exact h (bits_inj e)

theorem bits_two_pow (i : Nat) : bits (2 ^ i) = {i} := by
  ext j
  rw [mem_bits, Nat.testBit_two_pow, Finset.mem_singleton]
  simp [eq_comm]

theorem bits_lor (a b : Nat) : bits (a ||| b) = bits a ∪ bits b := by
  ext i; simp [mem_bits]

theorem bits_land (a b : Nat) : bits (a &&& b) = bits a ∩ bits b := by
  ext i; simp [mem_bits]

theorem bits_disjoint {a b : Nat} : Disjoint (bits a) (bits b) ↔ a &&& b = 0 := by
  rw [Finset.disjoint_iff_inter_eq_empty, ← bits_land, ← bits_zero]
  exact ⟨fun h => bits_inj h, fun h => by rw [h]⟩

theorem isSplit_iff {x a b : Nat} :
    IsSplit x a b ↔ (bits a).Nonempty ∧ (bits b).Nonempty ∧ bits x = bits a ∪ bits b ∧ Disjoint (bits a) (bits b) := by
  unfold IsSplit
  rw [bits_nonempty, bits_nonempty]
  constructor
  · rintro ⟨h1, h2, h3⟩
    refine ⟨h1, h2, ?_, ?_⟩
    · ext i
      rw [Finset.mem_union, mem_bits, mem_bits, mem_bits, (h3 i).1]
      have := (h3 i).2
      cases ha : a.testBit i <;> cases hb : b.testBit i <;> simp_all
    · rw [Finset.disjoint_left]
      intro i hi hj
      rw [mem_bits] at hi hj
      exact (h3 i).2 ⟨hi, hj⟩
  · rintro ⟨h1, h2, h3, h4⟩
    refine ⟨h1, h2, ?_⟩
    intro i
    have e : i ∈ bits x ↔ i ∈ bits a ∪ bits b := by rw [h3]
    have d := fun h : i ∈ bits a => Finset.disjoint_left.mp h4 h
    rw [Finset.mem_union, mem_bits, mem_bits, mem_bits] at e
    rw [mem_bits, mem_bits] at d
    cases hx : x.testBit i <;> cases ha : a.testBit i <;> cases hb : b.testBit i <;> simp_all

theorem bits_full (n : Nat) : bits (1 <<< n - 1) = Finset.range n := by
  ext i
  rw [mem_bits, Nat.one_shiftLeft, Nat.testBit_two_pow_sub_one]
  simp

theorem bits_lt {n x : Nat} : x < 2 ^ n ↔ ∀ i ∈ bits x, i < n := by
  constructor
  · intro h i hi
    rw [mem_bits] at hi
    by_contra hc
    have := Nat.testBit_lt_two_pow (lt_of_lt_of_le h (Nat.pow_le_pow_right (by norm_num) (by omega : n ≤ i)))
    rw [this] at hi; cases hi
  · intro h
    apply Nat.lt_pow_two_of_testBit
    intro i hi
    by_contra hc
    have := h i (mem_bits.mpr (by simpa using hc))
    omega

/-- The mask of a tree. -/
def CTree.mask : CTree → Nat
  | .leaf i => 2 ^ i
  | .node l r => l.mask ||| r.mask

theorem verts_node (l r : CTree) : (CTree.node l r).verts = l.verts ∪ r.verts := by
  simp [CTree.verts, CTree.leaves]

theorem verts_leaf (i : Nat) : (CTree.leaf i).verts = {i} := by
  simp [CTree.verts, CTree.leaves]

theorem bits_mask (t : CTree) : bits t.mask = t.verts := by
  induction t with
  | leaf i => rw [verts_leaf]; exact bits_two_pow i
  | node l r ihl ihr => rw [verts_node, ← ihl, ← ihr]; exact bits_lor _ _

theorem verts_nonempty (t : CTree) : t.verts.Nonempty := by
  induction t with
  | leaf i => rw [verts_leaf]; simp
  | node l r ihl ihr => rw [verts_node]; exact ihl.mono Finset.subset_union_left

theorem slot_spec (t : CTree) : t.slot ∈ t.verts ∧ ∀ i ∈ t.verts, t.slot ≤ i := by
  induction t with
  | leaf i => rw [verts_leaf]; simp [CTree.slot]
  | node l r ihl ihr =>
    rw [verts_node]
    unfold CTree.slot
    constructor
    · rw [Finset.mem_union]
      rcases Nat.le_total l.slot r.slot with h | h
      · rw [min_eq_left h]; exact Or.inl ihl.1
      · rw [min_eq_right h]; exact Or.inr ihr.1
    · intro i hi
      rw [Finset.mem_union] at hi
      rcases hi with hi | hi
      · exact le_trans (min_le_left _ _) (ihl.2 i hi)
      · exact le_trans (min_le_right _ _) (ihr.2 i hi)

theorem slot_eq_lowbitI (t : CTree) {x : Nat} (h : t.verts = bits x) : lowbitI x = t.slot := by
  have hx : 0 < x := by
    have := verts_nonempty t
    rw [h, bits_nonempty] at this
    omega
  obtain ⟨h1, h2⟩ := C09_lowbitI x hx
  obtain ⟨h3, h4⟩ := slot_spec t
  apply Nat.le_antisymm
  · rw [h, mem_bits] at h3
    exact h2 _ h3
  · exact h4 _ (by rw [h, mem_bits]; exact h1)

theorem Proper.node {n : Nat} {l r : CTree} :
    (CTree.node l r).Proper n ↔ l.Proper n ∧ r.Proper n ∧ Disjoint l.verts r.verts := by
  have e : (CTree.node l r).leaves = l.leaves ++ r.leaves := rfl
  unfold CTree.Proper
  rw [e, List.nodup_append, Finset.disjoint_left]
  simp only [List.mem_append, CTree.verts, List.mem_toFinset]
  constructor
  · rintro ⟨⟨h1, h2, h3⟩, h4⟩
    exact ⟨⟨h1, fun i hi => h4 i (Or.inl hi)⟩, ⟨h2, fun i hi => h4 i (Or.inr hi)⟩,
      fun i hi hj => h3 i hi i hj rfl⟩
  · rintro ⟨⟨h1, h2⟩, ⟨h3, h4⟩, h5⟩
    refine ⟨⟨h1, h3, ?_⟩, ?_⟩
    · intro a ha b hb e
      subst e
      exact h5 ha hb
    · rintro i (hi | hi)
      · exact h2 i hi
      · exact h4 i hi

theorem Proper.lt {n : Nat} {t : CTree} (h : t.Proper n) : ∀ i ∈ t.verts, i < n := by
  intro i hi
  exact h.2 i (by simpa [CTree.verts] using hi)

theorem complete_iff {n : Nat} {t : CTree} : t.Complete n ↔ t.Proper n ∧ t.verts = Finset.range n := by
  unfold CTree.Complete CTree.Proper CTree.verts
  constructor
  · intro h
    refine ⟨⟨h.nodup_iff.mpr List.nodup_range, fun i hi => by simpa using h.mem_iff.mp hi⟩, ?_⟩
    ext i
    rw [List.mem_toFinset, h.mem_iff]; simp
  · rintro ⟨⟨h1, h2⟩, h3⟩
    rw [List.perm_ext_iff_of_nodup h1 List.nodup_range]
    intro i
    rw [← List.mem_toFinset, h3]; simp

/-! ### Open edges -/

variable {G : TGraph}

theorem mem_openEdges {S : Finset Nat} {e : Nat} :
    e ∈ G.openEdges S ↔ ∃ i ∈ S, e ∈ G.edges i ∧ ∀ j ∈ S, e ∈ G.edges j → j = i := by
  unfold TGraph.openEdges
  rw [Finset.mem_filter, Finset.mem_biUnion]
  constructor
  · rintro ⟨⟨i, hi, he⟩, h⟩
    exact ⟨i, hi, he, fun j hj hej => h j hj i hi hej he⟩
  · rintro ⟨i, hi, he, h⟩
    refine ⟨⟨i, hi, he⟩, ?_⟩
    intro j hj k hk hej hek
    rw [h j hj hej, h k hk hek]

theorem openEdges_singleton (i : Nat) : G.openEdges {i} = G.edges i := by
  ext e
  rw [mem_openEdges]
  simp

theorem openEdges_union (h2 : G.TwoEnds) {S T : Finset Nat} (hS : ∀ i ∈ S, i < G.n) (hT : ∀ i ∈ T, i < G.n)
    (hd : Disjoint S T) : G.openEdges (S ∪ T) = symmDiff (G.openEdges S) (G.openEdges T) := by
  rw [Finset.disjoint_left] at hd
  ext e
  rw [Finset.mem_symmDiff]
  have key : ∀ {A B : Finset Nat}, (∀ i ∈ A, i < G.n) → (∀ i ∈ B, i < G.n) → (∀ i ∈ A, i ∉ B) →
      ∀ i ∈ A, e ∈ G.edges i → e ∉ G.openEdges B → ∀ j ∈ B, e ∉ G.edges j := by
    intro A B hA hB hAB i hi he hno j hj hej
    apply hno
    rw [mem_openEdges]
    refine ⟨j, hj, hej, ?_⟩
    intro k hk hek
    rcases h2 e i j k (hA i hi) (hB j hj) (hB k hk) he hej hek with h | h | h
    · exact absurd hj (h ▸ hAB i hi)
    · exact absurd hk (h ▸ hAB i hi)
    · exact h.symm
  constructor
  · intro h
    rw [mem_openEdges] at h
    obtain ⟨i, hi, he, hu⟩ := h
    rw [Finset.mem_union] at hi
    rcases hi with hi | hi
    · left
      refine ⟨mem_openEdges.mpr ⟨i, hi, he, fun j hj => hu j (Finset.mem_union_left _ hj)⟩, ?_⟩
      intro h
      obtain ⟨j, hj, hej, _⟩ := mem_openEdges.mp h
      have := hu j (Finset.mem_union_right _ hj) hej
      subst this
      exact hd hi hj
    · right
      refine ⟨mem_openEdges.mpr ⟨i, hi, he, fun j hj => hu j (Finset.mem_union_right _ hj)⟩, ?_⟩
      intro h
      obtain ⟨j, hj, hej, _⟩ := mem_openEdges.mp h
      have := hu j (Finset.mem_union_left _ hj) hej
      subst this
      exact hd hj hi
  · rintro (⟨h, hno⟩ | ⟨h, hno⟩)
    · obtain ⟨i, hi, he, hu⟩ := mem_openEdges.mp h
      refine mem_openEdges.mpr ⟨i, Finset.mem_union_left _ hi, he, ?_⟩
      intro j hj hej
      rw [Finset.mem_union] at hj
      rcases hj with hj | hj
      · exact hu j hj hej
      · exact absurd hej (key hS hT (fun i hi => hd hi) i hi he hno j hj)
    · obtain ⟨i, hi, he, hu⟩ := mem_openEdges.mp h
      refine mem_openEdges.mpr ⟨i, Finset.mem_union_right _ hi, he, ?_⟩
      intro j hj hej
      rw [Finset.mem_union] at hj
      rcases hj with hj | hj
      · exact absurd hej (key hT hS (fun i hi hi' => hd hi' hi) i hi he hno j hj)
      · exact hu j hj hej

theorem allDiag_union {S T : Finset Nat} : G.AllDiag (S ∪ T) ↔ G.AllDiag S ∧ G.AllDiag T := by
  unfold TGraph.AllDiag
  constructor
  · intro h
    exact ⟨fun i hi => h i (Finset.mem_union_left _ hi), fun i hi => h i (Finset.mem_union_right _ hi)⟩
  · rintro ⟨h1, h2⟩ i hi
    rw [Finset.mem_union] at hi
    exact hi.elim (h1 i) (h2 i)

/-! ### Entries of `contractRes` -/

/-- The entry describes the tensor that the set `S` contracts to. -/
structure ResOK (G : TGraph) (S : Finset Nat) (r : CRes) : Prop where
  nodup : r.edges.Nodup
  edges : r.edges.toFinset = G.openEdges S
  shape : r.shape = r.edges.map G.dim
  diag : r.diag = true ↔ G.AllDiag S

theorem zip_map_self {α β : Type} (l : List α) (f : α → β) : l.zip (l.map f) = l.map fun e => (e, f e) := by
  induction l with
  | nil => rfl
  | cons x l ih => simp [ih]

theorem lookup_map (l : List Nat) (f : Nat → Nat) (e : Nat) (h : e ∈ l) :
    (l.map fun e => (e, f e)).lookup e = some (f e) := by
  induction l with
  | nil => cases h
  | cons x l ih =>
    rw [List.map_cons, List.lookup_cons]
    by_cases hx : e = x
    · subst hx; simp
    · have : (e == x) = false := by simp [hx]
      rw [this]
      exact ih (by simpa [hx] using h)

theorem zip_res {S T : Finset Nat} {a b : CRes} (ha : ResOK G S a) (hb : ResOK G T b) :
    (a.edges ++ b.edges).zip (a.shape ++ b.shape) = (a.edges ++ b.edges).map fun e => (e, G.dim e) := by
  rw [ha.shape, hb.shape, ← List.map_append, zip_map_self]

theorem mem_edges {S : Finset Nat} {r : CRes} (h : ResOK G S r) {e : Nat} : e ∈ r.edges ↔ e ∈ G.openEdges S := by
  rw [← h.edges, List.mem_toFinset]

theorem calcRes_ok (h2 : G.TwoEnds) {S T : Finset Nat} (hS : ∀ i ∈ S, i < G.n) (hT : ∀ i ∈ T, i < G.n)
    (hd : Disjoint S T) {a b : CRes} (ha : ResOK G S a) (hb : ResOK G T b) : ResOK G (S ∪ T) (calcRes a b) := by
  obtain ⟨nd, hm⟩ := C37_listSymmetricDifference a.edges b.edges
  refine ⟨nd, ?_, ?_, ?_⟩
  · ext e
    rw [List.mem_toFinset, openEdges_union h2 hS hT hd, Finset.mem_symmDiff, ← mem_edges ha, ← mem_edges hb]
    exact hm e
  · unfold calcRes
    simp only
    apply List.map_congr_left
    intro e he
    rw [zip_res ha hb]
    unfold lastValue
    rw [← List.map_reverse, lookup_map]
    · rfl
    · have := (hm e).mp he
      simp only [List.mem_reverse, List.mem_append]
      rcases this with h | h
      · exact Or.inl h.1
      · exact Or.inr h.1
  · rw [allDiag_union, ← ha.diag, ← hb.diag]
    simp [calcRes]

theorem mem_common {x y : List Nat} {e : Nat} : e ∈ commonElements x y ↔ e ∈ x ∧ e ∈ y := by
  rw [← List.count_pos_iff, C37_commonElements, lt_min_iff, List.count_pos_iff, List.count_pos_iff]

theorem roundSqrt_sq (k : Nat) : roundSqrt (k * k) = k := by
  unfold roundSqrt
  rw [show 4 * (k * k) = (2 * k) * (2 * k) by ring, Nat.sqrt_eq]
  omega

theorem costSq_eq (common : List Nat) (dg : Bool) (l : List Nat) (f : Nat → Nat) :
    costSq common dg (l.map fun e => (e, f e)) =
      (l.map fun e => if e ∈ common then (if dg then 1 else f e) else f e * f e).prod := by
  induction l with
  | nil => rfl
  | cons x l ih => simp [costSq, ih]

theorem prod_map_toFinset {l : List Nat} (h : l.Nodup) (f : Nat → Nat) :
    (l.map f).prod = ∏ e ∈ l.toFinset, f e := by
  rw [List.prod_toFinset f h]

theorem prod_sdiff_inter (u v : Finset Nat) (f : Nat → Nat) :
    ∏ e ∈ u, f e = (∏ e ∈ u \ v, f e) * ∏ e ∈ u ∩ v, f e := by
  rw [← Finset.prod_union (Finset.disjoint_sdiff_inter u v), Finset.sdiff_union_inter]

theorem prod_union_split (u v : Finset Nat) (f : Nat → Nat) :
    ∏ e ∈ u ∪ v, f e = (∏ e ∈ u \ v, f e) * (∏ e ∈ u ∩ v, f e) * ∏ e ∈ v \ u, f e := by
  rw [← prod_sdiff_inter, ← Finset.union_sdiff_self_eq_union, Finset.prod_union Finset.disjoint_sdiff]

theorem prod_symm_split (u v : Finset Nat) (f : Nat → Nat) :
    ∏ e ∈ symmDiff u v, f e = (∏ e ∈ u \ v, f e) * ∏ e ∈ v \ u, f e := by
  rw [symmDiff_def, Finset.sup_eq_union, Finset.prod_union disjoint_sdiff_sdiff]

theorem both_diag_cases {S T : Finset Nat} {a b : CRes} (ha : ResOK G S a) (hb : ResOK G T b) :
    ((a.diag && b.diag) = true ↔ G.AllDiag S ∧ G.AllDiag T) ∧
    ((a.diag || b.diag) = true ↔ G.AllDiag S ∨ G.AllDiag T) := by
  rw [← ha.diag, ← hb.diag]
  simp

/-- The cost function computes the cost of the step. -/
theorem costFunc_ok (typ : Option Nat) {S T : Finset Nat} {a b : CRes} (ha : ResOK G S a) (hb : ResOK G T b)
    (hdiag : typ.isSome ∨ (G.AllDiag S → G.AllDiag T →
      (G.openEdges S).Nonempty ∧ ∀ e ∈ G.openEdges S, ∀ e' ∈ G.openEdges S, G.dim e = G.dim e')) :
    costFunc typ a b = .ok (G.stepCost typ S T) := by
  obtain ⟨c1, c2⟩ := both_diag_cases ha hb
  cases typ with
  | none =>
    unfold costFunc getCost TGraph.stepCost
    simp only [Option.getD_none]
    by_cases h1 : (a.diag && b.diag) = true
    · have h1' := c1.mp h1
      rw [if_pos h1, if_pos h1']
      obtain ⟨hne, huni⟩ := (hdiag.resolve_left (by simp)) h1'.1 h1'.2
      cases he : a.edges with
      | nil =>
        rw [← ha.edges, he] at hne
        simp at hne
      | cons e es =>
        rw [ha.shape, he]
        simp only [List.map_cons]
        have hee : e ∈ G.openEdges S := by rw [← mem_edges ha, he]; simp
        congr 1
        apply Nat.le_antisymm
        · exact Finset.le_sup (f := G.dim) hee
        · apply Finset.sup_le
          intro e' he'
          exact (huni e' he' e hee).le
    · have h1' : ¬ _ := fun h => h1 (c1.mpr h)
      rw [if_neg h1, if_neg h1', zip_res ha hb, costSq_eq]
      congr 1
      have hsplit : ∀ f : Nat → Nat, ((a.edges ++ b.edges).map f).prod
          = (∏ e ∈ G.openEdges S, f e) * ∏ e ∈ G.openEdges T, f e := by
        intro f
        rw [List.map_append, List.prod_append, prod_map_toFinset ha.nodup, prod_map_toFinset hb.nodup, ha.edges,
          hb.edges]
      have hcm : ∀ e, e ∈ commonElements a.edges b.edges ↔ e ∈ G.openEdges S ∧ e ∈ G.openEdges T := by
        intro e
        rw [mem_common, mem_edges ha, mem_edges hb]
      rw [hsplit]
      set u := G.openEdges S
      set v := G.openEdges T
      rw [prod_sdiff_inter u v, prod_sdiff_inter v u]
      simp only [hcm]
      have d1 : ∀ g : Nat → Nat, ∏ e ∈ u \ v, (if e ∈ u ∧ e ∈ v then g e else G.dim e * G.dim e)
          = (∏ e ∈ u \ v, G.dim e) * ∏ e ∈ u \ v, G.dim e := by
        intro g
        rw [← Finset.prod_mul_distrib]
        apply Finset.prod_congr rfl
        intro e he
        rw [Finset.mem_sdiff] at he
        rw [if_neg (fun h => he.2 h.2)]
      have d2 : ∀ g : Nat → Nat, ∏ e ∈ v \ u, (if e ∈ u ∧ e ∈ v then g e else G.dim e * G.dim e)
          = (∏ e ∈ v \ u, G.dim e) * ∏ e ∈ v \ u, G.dim e := by
        intro g
        rw [← Finset.prod_mul_distrib]
        apply Finset.prod_congr rfl
        intro e he
        rw [Finset.mem_sdiff] at he
        rw [if_neg (fun h => he.2 h.1)]
      have d3 : ∀ g : Nat → Nat, ∏ e ∈ u ∩ v, (if e ∈ u ∧ e ∈ v then g e else G.dim e * G.dim e)
          = ∏ e ∈ u ∩ v, g e := by
        intro g
        apply Finset.prod_congr rfl
        intro e he
        rw [Finset.mem_inter] at he
        rw [if_pos he]
      rw [Finset.inter_comm v u]
      simp only [TGraph.d, Option.getD_none]
      by_cases h3 : (a.diag || b.diag) = true
      · rw [if_pos (c2.mp h3)]
        simp only [h3, if_true]
        rw [d1 (fun _ => 1), d2 (fun _ => 1), d3 (fun _ => 1), prod_symm_split, Finset.prod_const_one]
        refine Eq.trans ?_ (roundSqrt_sq _)
        congr 1
        ring
      · rw [if_neg (fun h => h3 (c2.mpr h))]
        simp only [h3, if_false, Bool.false_eq_true]
        rw [d1 G.dim, d2 G.dim, d3 G.dim, prod_union_split]
        refine Eq.trans ?_ (roundSqrt_sq _)
        congr 1
        ring
  | some D =>
    unfold costFunc getCostTypical TGraph.stepCost
    simp only [Option.getD_some, TGraph.d, Finset.prod_const]
    congr 1
    have la : a.edges.length = (G.openEdges S).card := by rw [← ha.edges, List.toFinset_card_of_nodup ha.nodup]
    have lb : b.edges.length = (G.openEdges T).card := by rw [← hb.edges, List.toFinset_card_of_nodup hb.nodup]
    have lc : (commonElements a.edges b.edges).eraseDups.length = (G.openEdges S ∩ G.openEdges T).card := by
      rw [← List.toFinset_card_of_nodup (nodup_eraseDups _)]
      congr 1
      ext e
      rw [List.mem_toFinset, List.mem_eraseDups, mem_common, Finset.mem_inter, mem_edges ha, mem_edges hb]
    rw [la, lb, lc]
    set u := G.openEdges S
    set v := G.openEdges T
    have e1 := Finset.card_sdiff_add_card_inter u v
    have e2 := Finset.card_sdiff_add_card_inter v u
    have e3 := Finset.card_union_add_card_inter u v
    have e4 : (symmDiff u v).card = (u \ v).card + (v \ u).card := by
      rw [symmDiff_def, Finset.sup_eq_union, Finset.card_union_of_disjoint disjoint_sdiff_sdiff]
    rw [Finset.inter_comm v u] at e2
    by_cases h1 : (a.diag && b.diag) = true
    · rw [if_pos h1, if_pos (c1.mp h1), pow_one]
    · rw [if_neg h1, if_neg (fun h => h1 (c1.mpr h))]
      by_cases h3 : (a.diag || b.diag) = true
      · rw [if_pos h3, if_pos (c2.mp h3)]
        congr 1
        omega
      · rw [if_neg h3, if_neg (fun h => h3 (c2.mpr h))]
        congr 1
        omega

theorem stepCost_symm {typ : Option Nat} (S T : Finset Nat) (h : typ.isSome ∨ (G.AllDiag S → G.AllDiag T →
      ∃ d, (G.openEdges S).Nonempty ∧ (G.openEdges T).Nonempty ∧
      (∀ e ∈ G.openEdges S, G.dim e = d) ∧ ∀ e ∈ G.openEdges T, G.dim e = d)) :
    G.stepCost typ S T = G.stepCost typ T S := by
  unfold TGraph.stepCost
  by_cases h1 : G.AllDiag S ∧ G.AllDiag T
  · rw [if_pos h1, if_pos h1.symm]
    cases typ with
    | some D => rfl
    | none =>
      obtain ⟨d, n1, n2, h3, h4⟩ := h.resolve_left (by simp) h1.1 h1.2
      simp only [Option.getD_none]
      have : ∀ u : Finset Nat, u.Nonempty → (∀ e ∈ u, G.dim e = d) → u.sup G.dim = d := by
        intro u hu hd
        obtain ⟨e, he⟩ := hu
        apply Nat.le_antisymm
        · exact Finset.sup_le fun e he => (hd e he).le
        · rw [← hd e he]; exact Finset.le_sup he
      rw [this _ n1 h3, this _ n2 h4]
  · rw [if_neg h1, if_neg (c := G.AllDiag T ∧ G.AllDiag S) (fun h => h1 h.symm)]
    rw [symmDiff_comm, Finset.union_comm]
    by_cases h2 : G.AllDiag S ∨ G.AllDiag T
    · rw [if_pos h2, if_pos h2.symm]
    · rw [if_neg h2, if_neg (fun h => h2 h.symm)]

theorem vertex_ok {g : Input} (h : Describes g G) {i : Nat} (hi : i < G.n) : ResOK G {i} (g.vertex i) := by
  obtain ⟨h1, h2⟩ := h.edges i hi
  refine ⟨h1, by rw [openEdges_singleton]; exact h2, h.shape i hi, ?_⟩
  unfold TGraph.AllDiag
  simp only [Finset.mem_singleton, forall_eq]
  rw [← h.diag i hi]
  rfl

theorem isSharingBond_iff {S T : Finset Nat} {a b : CRes} (ha : ResOK G S a) (hb : ResOK G T b) :
    isSharingBond a b = true ↔ ¬ Disjoint (G.openEdges S) (G.openEdges T) := by
  unfold isSharingBond
  rw [decide_eq_true_eq, List.length_pos_iff_exists_mem, Finset.not_disjoint_iff]
  simp only [mem_common, mem_edges ha, mem_edges hb]

end CTL
