import Verif.Lemmas.Search

/-! Helper lemmas: the brute-force search solves every set of tensors optimally. -/

namespace CTL
variable {G : TGraph} {typ : Option Nat}

/-- `c` is the least cost of a tree over `S`, and `q` are the steps of a tree with that cost. -/
def Optimal (G : TGraph) (typ : Option Nat) (S : Finset Nat) (c : Nat) (q : List (Nat × Nat)) : Prop :=
  ∃ T : CTree, T.Proper G.n ∧ T.verts = S ∧ G.treeCost typ T = c ∧ T.steps = q ∧
    ∀ T' : CTree, T'.Proper G.n → T'.verts = S → c ≤ G.treeCost typ T'

theorem Optimal.unique {S : Finset Nat} {c c' : Nat} {q q'} (h : Optimal G typ S c q) (h' : Optimal G typ S c' q') :
    c = c' := by
  obtain ⟨T, a1, a2, a3, _, a5⟩ := h
  obtain ⟨T', b1, b2, b3, _, b5⟩ := h'
  have := a5 T' b1 b2
  have := b5 T a1 a2
  omega

/-- The tables are correct as far as they are filled in. -/
structure TabOK (G : TGraph) (typ : Option Nat) (s : Tables) : Prop where
  cost : ∀ x c, s.cost x = some c → ∃ q r, s.seq x = some q ∧ s.res x = some r ∧ Optimal G typ (bits x) c q
  res : ∀ x r, s.res x = some r → ResOK G (bits x) r
  single : ∀ i, i < G.n → (s.cost (2 ^ i)).isSome

/-- Known costs stay. -/
def Ext (s s' : Tables) : Prop := ∀ x c, s.cost x = some c → s'.cost x = some c

theorem Ext.refl (s : Tables) : Ext s s := fun _ _ h => h
theorem Ext.trans {a b c : Tables} (h1 : Ext a b) (h2 : Ext b c) : Ext a c := fun x y h => h2 x y (h1 x y h)

theorem initTables_at {α : Type} (n : Nat) (f : Nat → α) (x : Nat) :
    (((List.range n).find? fun i => x = 1 <<< i).map f = none ∧ ∀ i < n, x ≠ 2 ^ i) ∨
    ∃ i < n, x = 2 ^ i ∧ ((List.range n).find? fun i => x = 1 <<< i).map f = some (f i) := by
  cases h : (List.range n).find? fun i => x = 1 <<< i with
  | none =>
    left
    refine ⟨rfl, ?_⟩
    intro i hi e
    have := List.find?_eq_none.mp h i (by simpa using hi)
    simp [Nat.one_shiftLeft] at this
    exact this e
  | some i =>
    right
    have h1 := List.find?_some h
    have h2 := List.mem_of_find?_eq_some h
    simp [Nat.one_shiftLeft] at h1
    exact ⟨i, by simpa using h2, h1, rfl⟩

theorem leaf_optimal {i : Nat} (hi : i < G.n) : Optimal G typ {i} 0 [] := by
  refine ⟨.leaf i, ⟨by simp [CTree.leaves], by simpa [CTree.leaves] using hi⟩, verts_leaf i, rfl, rfl, ?_⟩
  intro T' _ _
  exact Nat.zero_le _

theorem initTables_spec {g : Input} (h : Describes g G) :
    (∀ x c, (initTables g).cost x = some c → ∃ i < G.n, x = 2 ^ i ∧ c = 0) ∧
    (∀ x r, (initTables g).res x = some r → ∃ i < G.n, x = 2 ^ i ∧ ResOK G {i} r) ∧
    ∀ i < G.n, (initTables g).cost (2 ^ i) = some 0 ∧ (initTables g).seq (2 ^ i) = some [] ∧
      ∃ r, (initTables g).res (2 ^ i) = some r := by
  have hn := h.n
  refine ⟨?_, ?_, ?_⟩
  · intro x c hx
    simp only [initTables] at hx
    rcases initTables_at g.edges.length (fun _ => 0) x with ⟨h1, _⟩ | ⟨i, hi, he, h1⟩
    · rw [h1] at hx; cases hx
    · rw [h1] at hx
      cases hx
      exact ⟨i, hn ▸ hi, he, rfl⟩
  · intro x r hx
    simp only [initTables] at hx
    rcases initTables_at g.edges.length g.vertex x with ⟨h1, _⟩ | ⟨i, hi, he, h1⟩
    · rw [h1] at hx; cases hx
    · rw [h1] at hx
      cases hx
      exact ⟨i, hn ▸ hi, he, vertex_ok h (hn ▸ hi)⟩
  · intro i hi
    rw [← hn] at hi
    refine ⟨?_, ?_, ?_⟩
    · simp only [initTables]
      rcases initTables_at g.edges.length (fun _ => 0) (2 ^ i) with ⟨_, h1⟩ | ⟨j, hj, he, h1⟩
      · exact absurd rfl (h1 i hi)
      · exact h1
    · simp only [initTables]
      rcases initTables_at g.edges.length (fun _ => ([] : List (Nat × Nat))) (2 ^ i) with ⟨_, h1⟩ | ⟨j, hj, he, h1⟩
      · exact absurd rfl (h1 i hi)
      · exact h1
    · simp only [initTables]
      rcases initTables_at g.edges.length g.vertex (2 ^ i) with ⟨_, h1⟩ | ⟨j, hj, he, h1⟩
      · exact absurd rfl (h1 i hi)
      · exact ⟨_, h1⟩

theorem initTables_ok {g : Input} (h : Describes g G) : TabOK G typ (initTables g) := by
  obtain ⟨h1, h2, h3⟩ := initTables_spec h
  refine ⟨?_, ?_, ?_⟩
  · intro x c hx
    obtain ⟨i, hi, rfl, rfl⟩ := h1 x c hx
    obtain ⟨_, h5, r, h6⟩ := h3 i hi
    exact ⟨_, r, h5, h6, by rw [bits_two_pow]; exact leaf_optimal hi⟩
  · intro x r hx
    obtain ⟨i, hi, rfl, h4⟩ := h2 x r hx
    rw [bits_two_pow]
    exact h4
  · intro i hi
    rw [(h3 i hi).1]; rfl

theorem upd_same {α : Type} (f : Nat → α) (x : Nat) (a : α) : upd f x a x = a := by simp [upd]
theorem upd_ne {α : Type} (f : Nat → α) {x y : Nat} (a : α) (h : y ≠ x) : upd f x a y = f y := by simp [upd, h]

/-- Facts about a split of `x` into masks below `2 ^ n`. -/
theorem split_facts {x a : Nat} (hx : x < 2 ^ G.n) (ha : a ∈ subsetIterator x) :
    a ≠ 0 ∧ x - a ≠ 0 ∧ a < x ∧ x - a < x ∧ (∀ i ∈ bits a, i < G.n) ∧ (∀ i ∈ bits (x - a), i < G.n) ∧
      bits x = bits a ∪ bits (x - a) ∧ Disjoint (bits a) (bits (x - a)) := by
  have hs := (C09_split_sound x).1 a ha
  obtain ⟨h1, h2, h3, h4⟩ := isSplit_iff.mp hs
  obtain ⟨m1, m2, m3⟩ := (mem_subsetIterator x a).mp ha
  have hb := bits_lt.mp hx
  refine ⟨by omega, by omega, by omega, by omega, ?_, ?_, h3, h4⟩
  · intro i hi; exact hb i (by rw [h3]; exact Finset.mem_union_left _ hi)
  · intro i hi; exact hb i (by rw [h3]; exact Finset.mem_union_right _ hi)

/-- What is known about the best split so far. -/
def BestOK (G : TGraph) (typ : Option Nat) (x : Nat) (s : Tables) (best : Best) : Prop :=
  ∀ c a b, best = some (c, a, b) → a ∈ subsetIterator x ∧ b = x - a ∧ ∃ ca cb, s.cost a = some ca ∧
    s.cost b = some cb ∧ c = ca + cb + G.stepCost typ (bits a) (bits b)

/-- The value recorded in `best` is at most `m`. -/
def BestLe (best : Best) (m : Nat) : Prop := ∃ c a b, best = some (c, a, b) ∧ c ≤ m

theorem better_le {best : Best} {c a b : Nat} : BestLe (better best c a b) c ∧
    ∀ m, BestLe best m → BestLe (better best c a b) m := by
  unfold better
  cases best with
  | none => exact ⟨⟨c, a, b, rfl, le_refl _⟩, fun m h => by obtain ⟨_, _, _, h, _⟩ := h; cases h⟩
  | some t =>
    obtain ⟨m, a', b'⟩ := t
    simp only
    by_cases h : c < m
    · rw [if_pos h]
      refine ⟨⟨c, a, b, rfl, le_refl _⟩, ?_⟩
      rintro k ⟨_, _, _, he, hk⟩
      cases he
      exact ⟨c, a, b, rfl, by omega⟩
    · rw [if_neg h]
      exact ⟨⟨m, a', b', rfl, by omega⟩, fun k hk => hk⟩

theorem splitStep_spec (h2 : G.TwoEnds) (hd : G.DiagDims typ) {x a : Nat} (hx : x < 2 ^ G.n)
    (ha : a ∈ subsetIterator x) {s : Tables} (hs : TabOK G typ s) {best : Best} (hb : BestOK G typ x s best)
    {ca cb : Nat} (hca : s.cost a = some ca) (hcb : s.cost (x - a) = some cb) :
    ∃ s' best', splitStep typ x a s best = .ok (s', best') ∧ TabOK G typ s' ∧ Ext s s' ∧
      BestOK G typ x s' best' ∧ (s'.res x).isSome ∧
      BestLe best' (ca + cb + G.stepCost typ (bits a) (bits (x - a))) ∧ ∀ m, BestLe best m → BestLe best' m := by
  obtain ⟨f1, f2, f3, f4, f5, f6, f7, f8⟩ := split_facts hx ha
  obtain ⟨qa, ra, _, hra, _⟩ := hs.cost a ca hca
  obtain ⟨qb, rb, _, hrb, _⟩ := hs.cost (x - a) cb hcb
  have oka := hs.res _ _ hra
  have okb := hs.res _ _ hrb
  have hcost : costFunc typ ra rb = .ok (G.stepCost typ (bits a) (bits (x - a))) := by
    apply costFunc_ok typ oka okb
    rcases hd with hd | hd
    · exact Or.inl hd
    · right
      intro d1 d2
      obtain ⟨d, n1, _, e1, _⟩ := hd _ _ (bits_nonempty.mpr f1) (bits_nonempty.mpr f2) f5 f6 f8 d1 d2
      exact ⟨n1, fun e he e' he' => by rw [e1 e he, e1 e' he']⟩
  obtain ⟨s', hs'e, hcs, hsq, hok', hri⟩ : ∃ s', s' = (if (s.res x).isNone then
      { s with res := upd s.res x (some (calcRes ra rb)) } else s) ∧ s'.cost = s.cost ∧ s'.seq = s.seq ∧
      TabOK G typ s' ∧ (s'.res x).isSome := by
    refine ⟨_, rfl, ?_⟩
    by_cases hn : (s.res x).isNone
    · rw [if_pos hn]
      refine ⟨rfl, rfl, ⟨?_, ?_, hs.single⟩, by simp [upd]⟩
      · intro y c hy
        obtain ⟨q, r, h3, h4, h5⟩ := hs.cost y c hy
        refine ⟨q, r, h3, ?_, h5⟩
        have : y ≠ x := by
          rintro rfl
          rw [h4] at hn
          cases hn
        simp only
        rw [upd_ne _ _ this, h4]
      · intro y r hy
        by_cases hyx : y = x
        · subst hyx
          simp only at hy
          rw [upd_same] at hy
          cases hy
          rw [f7]
          exact calcRes_ok h2 f5 f6 f8 oka okb
        · simp only at hy
          rw [upd_ne _ _ hyx] at hy
          exact hs.res y r hy
    · rw [if_neg hn]
      refine ⟨rfl, rfl, hs, ?_⟩
      cases h : s.res x with
      | none => rw [h] at hn; simp at hn
      | some r => rfl
  refine ⟨s', better best (ca + cb + G.stepCost typ (bits a) (bits (x - a))) a (x - a), ?_, hok', ?_, ?_, hri,
    better_le.1, better_le.2⟩
  · unfold splitStep Tables.getRes
    simp only [hra, hrb, bind, Except.bind, hcost, ← hs'e, Tables.getCost, hcs, hca, hcb, pure, Except.pure]
  · intro y c h; rw [hcs]; exact h
  · intro c a' b' he
    unfold better at he
    have hnew : some (ca + cb + G.stepCost typ (bits a) (bits (x - a)), a, x - a) = some (c, a', b') →
        a' ∈ subsetIterator x ∧ b' = x - a' ∧ ∃ ca cb, s'.cost a' = some ca ∧
          s'.cost b' = some cb ∧ c = ca + cb + G.stepCost typ (bits a') (bits b') := by
      intro e
      cases e
      exact ⟨ha, rfl, ca, cb, by rw [hcs]; exact hca, by rw [hcs]; exact hcb, rfl⟩
    cases best with
    | none => exact hnew he
    | some t =>
      obtain ⟨m, a1, b1⟩ := t
      simp only at he
      by_cases h : ca + cb + G.stepCost typ (bits a) (bits (x - a)) < m
      · rw [if_pos h] at he
        exact hnew he
      · rw [if_neg h] at he
        obtain ⟨k1, k2, ca', cb', k3, k4, k5⟩ := hb c a' b' he
        exact ⟨k1, k2, ca', cb', by rw [hcs]; exact k3, by rw [hcs]; exact k4, k5⟩

theorem BestOK.ext {x : Nat} {s s' : Tables} {best : Best} (h : BestOK G typ x s best) (e : Ext s s') :
    BestOK G typ x s' best := by
  intro c a b hb
  obtain ⟨k1, k2, ca, cb, k3, k4, k5⟩ := h c a b hb
  exact ⟨k1, k2, ca, cb, e _ _ k3, e _ _ k4, k5⟩

/-- The recursive calls behave. -/
def Solves (G : TGraph) (typ : Option Nat) (solve : Nat → Tables → Except PyErr Tables) (x : Nat) : Prop :=
  ∀ y s, y < x → y ≠ 0 → TabOK G typ s →
    ∃ s', solve y s = .ok s' ∧ TabOK G typ s' ∧ Ext s s' ∧ (s'.cost y).isSome

theorem splitLoop_spec (h2 : G.TwoEnds) (hd : G.DiagDims typ) {x : Nat} (hx : x < 2 ^ G.n)
    {solve : Nat → Tables → Except PyErr Tables} (hsol : Solves G typ solve x) :
    ∀ (as : List Nat), (∀ a ∈ as, a ∈ subsetIterator x) → ∀ (s : Tables) (best : Best), TabOK G typ s →
      BestOK G typ x s best →
      ∃ s' best', splitLoop typ solve x as s best = .ok (s', best') ∧ TabOK G typ s' ∧ Ext s s' ∧
        BestOK G typ x s' best' ∧ (as ≠ [] → (s'.res x).isSome) ∧
        (∀ a ∈ as, ∀ ca cb, s'.cost a = some ca → s'.cost (x - a) = some cb →
          BestLe best' (ca + cb + G.stepCost typ (bits a) (bits (x - a)))) ∧
        (∀ m, BestLe best m → BestLe best' m) ∧ ((s.res x).isSome → (s'.res x).isSome) ∧
        ∀ a ∈ as, (s'.cost a).isSome ∧ (s'.cost (x - a)).isSome := by
  intro as
  induction as with
  | nil =>
    intro _ s best hs hb
    exact ⟨s, best, rfl, hs, Ext.refl s, hb, by simp, by simp, fun _ h => h, id, by simp⟩
  | cons a as ih =>
    intro hmem s best hs hb
    have ha := hmem a (by simp)
    obtain ⟨f1, f2, f3, f4, _⟩ := split_facts hx ha
    obtain ⟨s1, e1, ok1, x1, i1⟩ := hsol a s f3 f1 hs
    obtain ⟨s2, e2, ok2, x2, i2⟩ := hsol (x - a) s1 f4 f2 ok1
    obtain ⟨ca, hca1⟩ := Option.isSome_iff_exists.mp i1
    obtain ⟨cb, hcb⟩ := Option.isSome_iff_exists.mp i2
    have hca := x2 _ _ hca1
    obtain ⟨s3, best3, e3, ok3, x3, b3, r3, l3, m3⟩ := splitStep_spec h2 hd hx ha ok2
      ((hb.ext x1).ext x2) hca hcb
    obtain ⟨s4, best4, e4, ok4, x4, b4, r4, l4, m4, k4, c4⟩ := ih (fun a h => hmem a (by simp [h])) s3 best3 ok3 b3
    refine ⟨s4, best4, ?_, ok4, ((x1.trans x2).trans x3).trans x4, b4, fun _ => k4 r3, ?_, ?_, ?_, ?_⟩
    · unfold splitLoop
      simp only [e1, e2, e3, bind, Except.bind]
      exact e4
    · intro a' ha' ca' cb' hca' hcb'
      rw [List.mem_cons] at ha'
      rcases ha' with rfl | ha'
      · have u1 := x4 _ _ (x3 _ _ hca)
        have u2 := x4 _ _ (x3 _ _ hcb)
        rw [u1] at hca'; rw [u2] at hcb'
        cases hca'; cases hcb'
        exact m4 _ l3
      · exact l4 a' ha' ca' cb' hca' hcb'
    · intro m hm; exact m4 m (m3 m hm)
    · intro h
      exact k4 r3
    · intro a' ha'
      rw [List.mem_cons] at ha'
      rcases ha' with rfl | ha'
      · rw [x4 _ _ (x3 _ _ hca), x4 _ _ (x3 _ _ hcb)]
        exact ⟨rfl, rfl⟩
      · exact c4 a' ha'

/-- Every mask of at least two tensors has a split. -/
theorem subsetIterator_ne_nil {x : Nat} (h0 : x ≠ 0) (h1 : ∀ i, x ≠ 2 ^ i) : subsetIterator x ≠ [] := by
  obtain ⟨l1, l2, l3⟩ := lowbit_spec x (by omega)
  have hle := subMask_le l1
  have hpow : lowbit x = 2 ^ lowbitI x := by
    have ht := C09_lowbitI x (by omega)
    apply Nat.le_antisymm
    · exact l3 _ (by
        intro i hi
        rw [Nat.testBit_two_pow] at hi
        simp at hi
        rw [← hi]; exact ht.1) (by positivity)
    · have hb : (bits (lowbit x)).Nonempty := bits_nonempty.mpr (by omega)
      obtain ⟨i, hi⟩ := hb
      rw [mem_bits] at hi
      have := ht.2 i (l1 i hi)
      calc 2 ^ lowbitI x ≤ 2 ^ i := Nat.pow_le_pow_right (by norm_num) this
        _ ≤ lowbit x := Nat.ge_two_pow_of_testBit hi
  have hlt : lowbit x ≠ x := fun e => h1 (lowbitI x) (by rw [← hpow, e])
  have hsplit : IsSplit x (lowbit x) (x - lowbit x) := by
    refine ⟨by omega, by omega, ?_⟩
    intro i
    rw [testBit_sub_subMask l1]
    have := l1 i
    cases h4 : (lowbit x).testBit i <;> cases h5 : x.testBit i <;> simp_all
  rcases (C09_split_complete _ _ _ hsplit).1 with h | h
  · intro e; rw [e] at h; simp at h
  · intro e; rw [e] at h; simp at h

theorem solveSet_spec (h2 : G.TwoEnds) (hd : G.DiagDims typ) :
    ∀ fuel x s, x < fuel → x ≠ 0 → x < 2 ^ G.n → TabOK G typ s →
      ∃ s', solveSet typ fuel x s = .ok s' ∧ TabOK G typ s' ∧ Ext s s' ∧ (s'.cost x).isSome := by
  intro fuel
  induction fuel with
  | zero => intro x s h; omega
  | succ fuel ih =>
    intro x s hf h0 hx hs
    unfold solveSet
    by_cases hc : (s.cost x).isSome
    · rw [if_pos hc]
      exact ⟨s, rfl, hs, Ext.refl s, hc⟩
    · rw [if_neg hc]
      have hsol : Solves G typ (solveSet typ fuel) x := by
        intro y s1 hy hy0 hs1
        exact ih y s1 (by omega) hy0 (by omega) hs1
      obtain ⟨s1, best, e1, ok1, x1, b1, r1, l1, _, _, c1⟩ :=
        splitLoop_spec h2 hd hx hsol (subsetIterator x) (fun _ h => h) s none hs (by intro _ _ _ h; cases h)
      have hne : subsetIterator x ≠ [] := by
        apply subsetIterator_ne_nil h0
        intro i e
        have hi : i < G.n := by
          apply bits_lt.mp hx
          rw [e, bits_two_pow]; simp
        have := hs.single i hi
        rw [← e] at this
        exact hc this
      obtain ⟨a0, ha0⟩ := List.exists_mem_of_ne_nil _ hne
      obtain ⟨i1, i2⟩ := c1 a0 ha0
      obtain ⟨ca0, hca0⟩ := Option.isSome_iff_exists.mp i1
      obtain ⟨cb0, hcb0⟩ := Option.isSome_iff_exists.mp i2
      obtain ⟨c, a, b, hbest, _⟩ := l1 a0 ha0 ca0 cb0 hca0 hcb0
      obtain ⟨ha, hb, ca, cb, hca, hcb, hcc⟩ := b1 c a b hbest
      obtain ⟨f1, f2, f3, f4, f5, f6, f7, f8⟩ := split_facts hx ha
      rw [← hb] at f2 f6 f7 f8
      obtain ⟨qa, ra, hqa, hra, Ta, pa, va, ta, sa, oa⟩ := ok1.cost a ca hca
      obtain ⟨qb, rb, hqb, hrb, Tb, pb, vb, tb, sb, ob⟩ := ok1.cost b cb hcb
      have hcx : s1.cost x = none ∨ (s1.cost x).isSome := by
        cases s1.cost x <;> simp
      refine ⟨{ s1 with cost := upd s1.cost x (some c),
                        seq := upd s1.seq x (some (qa ++ qb ++ [(lowbitI a, lowbitI b)])) }, by
        simp only [e1, bind, Except.bind, storeBest, hbest, Tables.getSeq, hqa, hqb, pure, Except.pure],
        ⟨?_, ok1.res, ?_⟩, ?_, by simp [upd]⟩
      · intro y c' hy
        by_cases hyx : y = x
        · subst hyx
          simp only [upd_same] at hy ⊢
          cases hy
          obtain ⟨rx, hrx⟩ := Option.isSome_iff_exists.mp (r1 hne)
          refine ⟨_, rx, rfl, hrx, .node Ta Tb, ?_, ?_, ?_, ?_, ?_⟩
          · rw [Proper.node, va, vb]; exact ⟨pa, pb, f8⟩
          · rw [verts_node, va, vb, f7]
          · simp only [TGraph.treeCost, ta, tb, va, vb]; omega
          · simp only [CTree.steps, sa, sb, slot_eq_lowbitI Ta va, slot_eq_lowbitI Tb vb]
          · intro T' hp hv
            cases T' with
            | leaf i =>
              exfalso
              rw [verts_leaf, f7] at hv
              have u1 : a = 2 ^ i := bits_inj (by
                rw [bits_two_pow]
                exact (Finset.Nonempty.subset_singleton_iff (bits_nonempty.mpr f1)).mp
                  (by rw [hv]; exact Finset.subset_union_left))
              have u2 : b = 2 ^ i := bits_inj (by
                rw [bits_two_pow]
                exact (Finset.Nonempty.subset_singleton_iff (bits_nonempty.mpr f2)).mp
                  (by rw [hv]; exact Finset.subset_union_right))
              rw [u1, u2, bits_two_pow] at f8
              simp at f8
            | node l r =>
              obtain ⟨pl, pr, dlr⟩ := Proper.node.mp hp
              rw [verts_node] at hv
              have hspl : IsSplit y l.mask r.mask := by
                rw [isSplit_iff, bits_mask, bits_mask]
                exact ⟨verts_nonempty l, verts_nonempty r, hv.symm, dlr⟩
              obtain ⟨hmem, hsub⟩ := C09_split_complete _ _ _ hspl
              have hmem' : (l.mask ∈ subsetIterator y) ∨ (r.mask ∈ subsetIterator y ∧ y - r.mask = l.mask) := by
                rcases hmem with h | h
                · exact Or.inl h.1
                · refine Or.inr ⟨h.1, ?_⟩
                  have hle := subMask_le ((mem_subsetIterator y r.mask).mp h.1).1
                  have : l.mask ≤ y := by
                    apply subMask_le
                    intro i hi
                    have : i ∈ bits y := by
                      rw [← hv, Finset.mem_union, ← bits_mask, mem_bits]; exact Or.inl hi
                    exact mem_bits.mp this
                  omega
              have hsym : G.stepCost typ r.verts l.verts = G.stepCost typ l.verts r.verts := by
                apply stepCost_symm
                rcases hd with hd | hd
                · exact Or.inl hd
                · right
                  intro d1 d2
                  exact hd _ _ (verts_nonempty r) (verts_nonempty l) (Proper.lt pr) (Proper.lt pl) dlr.symm d1 d2
              have fin : ∀ {u v : CTree}, u.Proper G.n → v.Proper G.n → u.mask ∈ subsetIterator y →
                  y - u.mask = v.mask →
                  c ≤ G.treeCost typ u + G.treeCost typ v + G.stepCost typ u.verts v.verts := by
                intro u v pu pv hm hsb
                obtain ⟨j1, j2⟩ := c1 _ hm
                obtain ⟨cu, hcu⟩ := Option.isSome_iff_exists.mp j1
                obtain ⟨cv, hcv⟩ := Option.isSome_iff_exists.mp j2
                obtain ⟨c', a', b', hb', hle⟩ := l1 _ hm cu cv hcu hcv
                rw [hbest] at hb'
                cases hb'
                rw [hsb] at hcv hle
                obtain ⟨_, _, _, _, _, _, _, _, _, ou⟩ := ok1.cost _ _ hcu
                obtain ⟨_, _, _, _, _, _, _, _, _, ov⟩ := ok1.cost _ _ hcv
                have g1 := ou u pu (bits_mask u).symm
                have g2 := ov v pv (bits_mask v).symm
                rw [bits_mask, bits_mask] at hle
                omega
              simp only [TGraph.treeCost]
              rcases hmem' with h | ⟨h, hs'⟩
              · exact fin pl pr h hsub
              · have := fin pr pl h hs'
                rw [hsym] at this
                omega
        · simp only [upd_ne _ _ hyx] at hy ⊢
          exact ok1.cost y c' hy
      · intro i hi
        simp only
        by_cases hyx : 2 ^ i = x
        · rw [hyx, upd_same]; rfl
        · rw [upd_ne _ _ hyx]; exact ok1.single i hi
      · intro y c' hy
        have hyx : y ≠ x := by
          rintro rfl
          rw [hy] at hc
          exact hc rfl
        simp only [upd_ne _ _ hyx]
        exact x1 y c' hy

theorem bruteForce_spec {g : Input} (h : Describes g G) (hd : G.DiagDims typ) (hn : G.n ≠ 0) :
    ∃ s c q, bruteForce g typ = .ok (s, q) ∧ s.cost (1 <<< G.n - 1) = some c ∧
      Optimal G typ (Finset.range G.n) c q := by
  have hp : 1 <<< G.n - 1 < 2 ^ G.n := by
    rw [Nat.one_shiftLeft]
    have := Nat.pow_pos (n := G.n) (show 0 < 2 by norm_num)
    omega
  have h0 : 1 <<< G.n - 1 ≠ 0 := by
    rw [Nat.one_shiftLeft]
    have : 2 ^ 1 ≤ 2 ^ G.n := Nat.pow_le_pow_right (by norm_num) (by omega)
    omega
  obtain ⟨s, e, ok, _, hi⟩ := solveSet_spec h.ends hd (1 <<< G.n - 1 + 1) (1 <<< G.n - 1) (initTables g) (by omega)
    h0 hp (initTables_ok h)
  obtain ⟨c, hc⟩ := Option.isSome_iff_exists.mp hi
  obtain ⟨q, r, hq, _, ho⟩ := ok.cost _ c hc
  rw [bits_full] at ho
  refine ⟨s, c, q, ?_, hc, ho⟩
  unfold bruteForce
  simp only [h.n, e, bind, Except.bind, Tables.getSeq, hq, pure, Except.pure]

end CTL
