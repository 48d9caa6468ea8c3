import Verif.Lemmas.CTMRGStep

/-! Histories of a `CTMRG` object. -/

namespace CTL
variable {K : Type}

open Finset (range)

/-- Three lists of equal length, tensor with scale: `P i` holds of the numbers and scales number `i`; and of the present ones. -/
structure CTMRGState.Tracked [Zero K] (P : Nat → Numbers K → Trio K → Prop) (s : CTMRGState K) (V H : Nat) : Prop where
  lenH : s.records.hEdge.length = s.records.corner.length
  lenV : s.records.vEdge.length = s.records.corner.length
  past : ∀ (i : Nat) x y z, s.records.corner[i]? = some x → s.records.hEdge[i]? = some y → s.records.vEdge[i]? = some z →
    ∃ N, Trio.Is s.st ⟨x.1, y.1, z.1⟩ V H N ∧ P i N ⟨x.2, y.2, z.2⟩
  now : ∃ N, s.tensors.Is s.st V H N ∧ P s.records.corner.length N s.logScale

section
variable [Field K] [LinearOrder K] [Star K] {p : RGParams K} {la : LinAlg K} {V H chi : Nat} {w : Nat → Nat → Nat → Nat → K}
  {P : Nat → Numbers K → Trio K → Prop} {log exp : K → K}

/-- What one more step does to a statement about numbers and scales. -/
def StepClosed (la : LinAlg K) (chi : Nat) (w : Nat → Nat → Nat → Nat → K) (V H : Nat) (log : K → K) (P : Nat → Numbers K → Trio K → Prop) : Prop :=
  ∀ i N S x y z, P i N S → (N.step la chi w V H).Norms V H x y z →
    P (i + 1) ((N.step la chi w V H).over x y z) ⟨log x + S.corner + S.hEdge + S.vEdge, log y + S.hEdge, log z + S.vEdge⟩

theorem tracked_same {s s' : CTMRGState K} (T : s.Tracked P V H) (k : LegsUnchanged s.st s'.st) (hr : s'.records = s.records)
    (ht : s'.tensors = s.tensors) (hl : s'.logScale = s.logScale) : s'.Tracked P V H := by
  refine ⟨by rw [hr]; exact T.lenH, by rw [hr]; exact T.lenV, ?_, ?_⟩
  · rw [hr]
    intro i x y z hx hy hz
    obtain ⟨N, h, hP⟩ := T.past i x y z hx hy hz
    exact ⟨N, IsTrio.kept h k, hP⟩
  · obtain ⟨N, h, hP⟩ := T.now
    rw [hr, ht, hl]
    exact ⟨N, IsTrio.kept h k, hP⟩

/-- What is assumed about the arithmetic of a run. -/
structure RunParams (p : RGParams K) (la : LinAlg K) : Prop where
  svd : ∀ (a : NDArray K) n m, a.WF → a.shape = [n, m] → IsSVD a n m (la.svd a)
  cast : ∀ x, p.cast x = x
  norm : TriangleTRGState.TrueNorm p.norm

theorem iterate_tracked (R : RunParams p la) {s : CTMRGState K} (g : s.Good p V H w) (hc : s.chi = chi) (hP : StepClosed la chi w V H log P)
    (T : s.Tracked P V H) :
    ∃ s', Settles (fun fuel => s.iterate p la fuel log) s' ∧ s'.Good p V H w ∧ s'.chi = chi ∧ s'.Tracked P V H ∧
      s'.records.corner.length = s.records.corner.length + 1 := by
  obtain ⟨N, TN, PN⟩ := T.now
  obtain ⟨s', t', x, y, z, e, g', k, ec, T', hN, es, er, Tt, -⟩ := iterate_ok R.svd R.cast R.norm log g TN
  rw [hc] at T' hN
  have el : s'.records.corner.length = s.records.corner.length + 1 := by rw [er]; simp
  refine ⟨s', e, g', ec.trans hc, ⟨?_, ?_, ?_, ?_⟩, el⟩
  · rw [er]
    simp [T.lenH]
  · rw [er]
    simp [T.lenV]
  · rw [er]
    intro i a b c ha hb hc'
    simp only at ha hb hc'
    by_cases hi : i < s.records.corner.length
    · rw [List.getElem?_append_left hi] at ha
      rw [List.getElem?_append_left (by rw [T.lenH]; exact hi)] at hb
      rw [List.getElem?_append_left (by rw [T.lenV]; exact hi)] at hc'
      obtain ⟨N', h, hP'⟩ := T.past i a b c ha hb hc'
      exact ⟨N', IsTrio.kept h k, hP'⟩
    · have hi' : i = s.records.corner.length := by
        have := (List.getElem?_eq_some_iff.mp ha).1
        rw [List.length_append, List.length_singleton] at this
        omega
      subst hi'
      rw [List.getElem?_concat_length] at ha
      rw [← T.lenH, List.getElem?_concat_length] at hb
      rw [← T.lenV, List.getElem?_concat_length] at hc'
      obtain rfl := Option.some.inj ha
      obtain rfl := Option.some.inj hb
      obtain rfl := Option.some.inj hc'
      exact ⟨N, Tt, PN⟩
  · refine ⟨_, T', ?_⟩
    rw [el, es]
    exact hP _ _ _ _ _ _ PN hN

theorem grow_tracked (R : RunParams p la) (hP : StepClosed la chi w V H log P) (n : Int) : ∀ (k : Nat) {s : CTMRGState K}, s.Good p V H w → s.chi = chi →
    s.Tracked P V H → n - s.records.corner.length ≤ k →
    ∃ s' F, (∀ fuel, F ≤ fuel → ∀ rounds, k ≤ rounds → s.grow p la fuel log n rounds = .ok s') ∧ s'.Good p V H w ∧ s'.chi = chi ∧
      s'.Tracked P V H ∧ n ≤ s'.records.corner.length := by
  intro k
  induction k with
  | zero =>
    intro s g hc T hk
    have : ¬ (s.records.corner.length : Int) < n := by omega
    refine ⟨s, 0, fun fuel _ rounds _ => ?_, g, hc, T, by omega⟩
    cases rounds with
    | zero => rw [CTMRGState.grow, if_neg this]
    | succ r => rw [CTMRGState.grow, if_neg this]
  | succ k ih =>
    intro s g hc T hk
    by_cases hl : (s.records.corner.length : Int) < n
    · obtain ⟨s1, ⟨F1, e1⟩, g1, c1, T1, l1⟩ := iterate_tracked R g hc hP T
      obtain ⟨s2, F2, e2, g2, c2, T2, l2⟩ := ih g1 c1 T1 (by rw [l1]; omega)
      refine ⟨s2, max F1 F2, fun fuel hf rounds hr => ?_, g2, c2, T2, l2⟩
      obtain ⟨r, rfl⟩ : ∃ r, rounds = r + 1 := ⟨rounds - 1, by omega⟩
      rw [CTMRGState.grow, if_pos hl]
      simp only [e1 fuel (le_trans (le_max_left _ _) hf), bind, Except.bind]
      exact e2 fuel (le_trans (le_max_right _ _) hf) r (by omega)
    · refine ⟨s, 0, fun fuel _ rounds _ => ?_, g, hc, T, by omega⟩
      cases rounds with
      | zero => rw [CTMRGState.grow, if_neg hl]
      | succ r => rw [CTMRGState.grow, if_neg hl]

theorem pyGet_nat {α : Type} {l : List α} {i : Nat} {x : α} (h : l[i]? = some x) : pyGet l (i : Int) = .ok x := by
  unfold pyGet
  have h0 : ¬ ((i : Int) < 0) := Int.not_lt.mpr (Int.natCast_nonneg i)
  simp only [if_neg h0, Int.toNat_natCast, h, if_pos (Int.natCast_nonneg i)]

/-- The tensors that `fetch` copies. -/
theorem recorded {s : CTMRGState K} (T : s.Tracked P V H) {i : Nat} (hi : i ≤ s.records.corner.length) :
    ∃ x y z N, CTMRGState.recordAt s.records.corner (s.tensors.corner, s.logScale.corner) ((s.records.corner.length : Int) = i) i = .ok x ∧
      CTMRGState.recordAt s.records.hEdge (s.tensors.hEdge, s.logScale.hEdge) ((s.records.corner.length : Int) = i) i = .ok y ∧
      CTMRGState.recordAt s.records.vEdge (s.tensors.vEdge, s.logScale.vEdge) ((s.records.corner.length : Int) = i) i = .ok z ∧
      Trio.Is s.st ⟨x.1, y.1, z.1⟩ V H N ∧ P i N ⟨x.2, y.2, z.2⟩ := by
  rcases Nat.lt_or_eq_of_le hi with h | h
  · have e : decide ((s.records.corner.length : Int) = i) = false := by
      rw [decide_eq_false_iff_not]
      omega
    have hx := List.getElem?_eq_getElem h
    have hy := List.getElem?_eq_getElem (l := s.records.hEdge) (i := i) (by rw [T.lenH]; exact h)
    have hz := List.getElem?_eq_getElem (l := s.records.vEdge) (i := i) (by rw [T.lenV]; exact h)
    obtain ⟨N, TN, PN⟩ := T.past i _ _ _ hx hy hz
    unfold CTMRGState.recordAt
    simp only [e, Bool.false_eq_true, if_false, pyGet_nat hx, pyGet_nat hy, pyGet_nat hz]
    exact ⟨_, _, _, N, rfl, rfl, rfl, TN, PN⟩
  · obtain ⟨N, TN, PN⟩ := T.now
    have e : decide ((s.records.corner.length : Int) = i) = true := by
      rw [decide_eq_true_iff]
      omega
    unfold CTMRGState.recordAt
    simp only [e, if_true]
    refine ⟨_, _, _, N, rfl, rfl, rfl, TN, ?_⟩
    rw [h]
    exact PN

theorem even_value {st : Store} {c : Tensor K} {N : Numbers K} (h : IsDiagonal st c "u" "r" N.n N.c) :
    (evenZArr st c c c c).val (fun _ => 0) = N.even := by
  simp only [evenZArr, h.dx, h.dy, Numbers.even]
  have one : ∀ m ∈ range N.n, ∀ k ∈ range N.n, (∑ j ∈ range N.n, ∑ i ∈ range N.n,
      c.at st [("u", i), ("r", k)] * c.at st [("u", i), ("r", m)] * c.at st [("u", j), ("r", k)] * c.at st [("u", j), ("r", m)]) =
      if m = k then N.c k ^ 4 else 0 := by
    intro m hm k hk
    have hm' := Finset.mem_range.mp hm
    have hk' := Finset.mem_range.mp hk
    rw [Finset.sum_eq_single_of_mem k hk, Finset.sum_eq_single_of_mem k hk]
    · rw [h.val k hk' k hk', h.val k hk' m hm', if_pos rfl]
      by_cases e : m = k
      · rw [if_pos e, if_pos e.symm]
        ring
      · rw [if_neg e, if_neg (Ne.symm e)]
        ring
    · intro i hi hne
      rw [h.val i (Finset.mem_range.mp hi) k hk', if_neg hne]
      ring
    · intro j hj hne
      refine Finset.sum_eq_zero fun i hi => ?_
      rw [h.val j (Finset.mem_range.mp hj) k hk', if_neg hne]
      ring
  rw [Finset.sum_congr rfl fun m hm => Finset.sum_congr rfl fun k hk => one m hm k hk]
  refine Finset.sum_congr rfl fun m hm => ?_
  rw [Finset.sum_ite_eq, if_pos hm]

theorem odd_value {st : Store} {c h v a : Tensor K} {N : Numbers K} (T : Trio.Is st ⟨c, h, v⟩ V H N) (ha : IsCenter st a V H w) :
    (oddArr st c c c c h h v v a).val (fun _ => 0) = N.odd w V H := by
  have hc : IsDiagonal st c "u" "r" N.n N.c := T.corner
  have hh : IsEdge st h "l" "u" "r" N.n V N.h := T.hEdge
  have hv : IsEdge st v "u" "r" "d" N.n H N.v := T.vEdge
  show (∑ q ∈ range (h.dimOf st "u"), ∑ d ∈ range (h.dimOf st "u"), ∑ g ∈ range (v.dimOf st "r"),
    ∑ f ∈ range (v.dimOf st "r"), ∑ e ∈ range (v.dimOf st "d"), ∑ b ∈ range (v.dimOf st "u"),
    ∑ a' ∈ range (v.dimOf st "d"), ∑ n ∈ range (v.dimOf st "u"), ∑ m ∈ range (h.dimOf st "r"),
    ∑ k ∈ range (h.dimOf st "l"), ∑ j ∈ range (h.dimOf st "r"), ∑ i ∈ range (h.dimOf st "l"),
      c.at st [("u", n), ("r", i)] * c.at st [("u", a'), ("r", k)] * c.at st [("u", b), ("r", j)] *
      c.at st [("u", e), ("r", m)] * h.at st [("l", i), ("u", q), ("r", j)] *
      h.at st [("l", k), ("u", d), ("r", m)] * v.at st [("u", n), ("r", f), ("d", a')] *
      v.at st [("u", b), ("r", g), ("d", e)] * a.at st [("u", q), ("l", f), ("d", d), ("r", g)]) = _
  rw [hh.dx, hh.dy, hh.dz, hv.dx, hv.dy, hv.dz, Numbers.odd]
  refine Finset.sum_congr rfl fun q hq => Finset.sum_congr rfl fun d hd => Finset.sum_congr rfl fun g hg => Finset.sum_congr rfl fun f hf => ?_
  have hq' := Finset.mem_range.mp hq
  have hd' := Finset.mem_range.mp hd
  have hg' := Finset.mem_range.mp hg
  have hf' := Finset.mem_range.mp hf
  have collapse : ∀ (X : Nat → Nat → Nat → Nat → Nat → Nat → Nat → Nat → K),
      (∀ e < N.n, ∀ b < N.n, ∀ a < N.n, ∀ n < N.n, ∀ m < N.n, ∀ k < N.n, ∀ j < N.n, ∀ i < N.n, ¬ (e = m ∧ b = j ∧ a = k ∧ n = i) → X e b a n m k j i = 0) →
      (∑ e ∈ range N.n, ∑ b ∈ range N.n, ∑ a ∈ range N.n, ∑ n ∈ range N.n, ∑ m ∈ range N.n, ∑ k ∈ range N.n, ∑ j ∈ range N.n, ∑ i ∈ range N.n,
        X e b a n m k j i) =
      ∑ m ∈ range N.n, ∑ k ∈ range N.n, ∑ j ∈ range N.n, ∑ i ∈ range N.n, X m j k i m k j i := by
    intro X hX
    refine Finset.sum_congr rfl fun e he => ?_
    have he' := Finset.mem_range.mp he
    have : ∀ b ∈ range N.n, ∀ a ∈ range N.n, ∀ n ∈ range N.n, (∑ m ∈ range N.n, ∑ k ∈ range N.n, ∑ j ∈ range N.n, ∑ i ∈ range N.n, X e b a n m k j i) =
        X e b a n e a b n := by
      intro b hb a ha n hn
      have hb' := Finset.mem_range.mp hb
      have ha' := Finset.mem_range.mp ha
      have hn' := Finset.mem_range.mp hn
      have big : ∀ m < N.n, ∀ k < N.n, ∀ j < N.n, ∀ i < N.n, ¬ (e = m ∧ b = j ∧ a = k ∧ n = i) → X e b a n m k j i = 0 :=
        fun m hm k hk j hj i hi => hX e he' b hb' a ha' n hn' m hm k hk j hj i hi
      rw [Finset.sum_eq_single_of_mem e he, Finset.sum_eq_single_of_mem a ha, Finset.sum_eq_single_of_mem b hb, Finset.sum_eq_single_of_mem n hn]
      · exact fun i hi hne => big e he' a ha' b hb' i (Finset.mem_range.mp hi) fun h => hne h.2.2.2.symm
      · exact fun j hj hne => Finset.sum_eq_zero fun i hi => big e he' a ha' j (Finset.mem_range.mp hj) i (Finset.mem_range.mp hi) fun h => hne h.2.1.symm
      · exact fun k hk hne => Finset.sum_eq_zero fun j hj => Finset.sum_eq_zero fun i hi =>
          big e he' k (Finset.mem_range.mp hk) j (Finset.mem_range.mp hj) i (Finset.mem_range.mp hi) fun h => hne h.2.2.1.symm
      · exact fun m hm hne => Finset.sum_eq_zero fun k hk => Finset.sum_eq_zero fun j hj => Finset.sum_eq_zero fun i hi =>
          big m (Finset.mem_range.mp hm) k (Finset.mem_range.mp hk) j (Finset.mem_range.mp hj) i (Finset.mem_range.mp hi) fun h => hne h.1.symm
    rw [Finset.sum_congr rfl fun b hb => Finset.sum_congr rfl fun a ha => Finset.sum_congr rfl fun n hn => this b hb a ha n hn]
    rw [Finset.sum_comm]
  rw [collapse]
  · refine Finset.sum_congr rfl fun m hm => Finset.sum_congr rfl fun k hk => Finset.sum_congr rfl fun j hj => Finset.sum_congr rfl fun i hi => ?_
    have hm' := Finset.mem_range.mp hm
    have hk' := Finset.mem_range.mp hk
    have hj' := Finset.mem_range.mp hj
    have hi' := Finset.mem_range.mp hi
    rw [hc.val i hi' i hi', hc.val k hk' k hk', hc.val j hj' j hj', hc.val m hm' m hm', if_pos rfl, if_pos rfl, if_pos rfl, if_pos rfl,
      hh.val q hq' i hi' j hj', hh.val d hd' k hk' m hm', hv.val f hf' i hi' k hk', hv.val g hg' j hj' m hm', ha.val q hq' f hf' d hd' g hg']
  · intro e he b hb a' ha' n hn m hm k hk j hj i hi hne
    rw [hc.val n hn i hi, hc.val a' ha' k hk, hc.val b hb j hj, hc.val e he m hm]
    by_cases h1 : n = i
    · by_cases h2 : a' = k
      · by_cases h3 : b = j
        · by_cases h4 : e = m
          · exact absurd ⟨h4, h3, h2, h1⟩ hne
          · rw [if_neg h4]
            ring
        · rw [if_neg h3]
          ring
      · rw [if_neg h2]
        ring
    · rw [if_neg h1]
      ring

/-- What `getZ` returns for more than one site, in terms of the numbers of step `L / 2`. -/
def valueOf (exp : K → K) (w : Nat → Nat → Nat → Nat → K) (V H : Nat) (L : Nat) (N : Numbers K) (S : Trio K) : K :=
  if L % 2 = 1 then N.odd w V H * exp (4 * S.corner + 2 * S.hEdge + 2 * S.vEdge) else N.even * exp (4 * S.corner)

theorem getZ_more (R : RunParams p la) (hP : StepClosed la chi w V H log P) {s : CTMRGState K} (g : s.Good p V H w) (hc : s.chi = chi)
    (T : s.Tracked P V H) {L : Nat} (hL : 2 ≤ L) :
    ∃ s' N S, Settles (fun fuel => s.getZ p la fuel log exp L) (s', valueOf exp w V H L N S) ∧ s'.Good p V H w ∧ s'.chi = chi ∧ s'.Tracked P V H ∧
      P (L / 2 - 1) N S := by
  have hidx : ((L : Int) / 2 - 1) = ((L / 2 - 1 : Nat) : Int) := by omega
  obtain ⟨s1, F, e1, g1, c1, T1, l1⟩ := grow_tracked (log := log) R hP ((L : Int) / 2 - 1) L g hc T (by omega)
  obtain ⟨x, y, z, N, ex, ey, ez, TN, PN⟩ := recorded T1 (i := L / 2 - 1) (by omega)
  have hx : IsDiagonal s1.st x.1 "u" "r" N.n N.c := TN.corner
  have hy : IsEdge s1.st y.1 "l" "u" "r" N.n V N.h := TN.hEdge
  have hz : IsEdge s1.st z.1 "u" "r" "d" N.n H N.v := TN.vEdge
  have hG : Settles (fun fuel => s.grow p la fuel log ((L : Int) / 2 - 1) fuel) s1 :=
    ⟨max F L, fun fuel hf => e1 fuel (le_trans (le_max_left _ _) hf) fuel (le_trans (le_max_right _ _) hf)⟩
  have hne : ¬ ((L : Int) = 1) := by omega
  obtain ⟨st2, c, f2, w2, k2, S2⟩ := copy_same p.rand hx.labels (by simp) g1.wf
  have hc2 := S2.diagonal hx
  by_cases ho : L % 2 = 1
  · have ho' : decide ((L : Int) % 2 = 1) = true := by rw [decide_eq_true_iff]; omega
    obtain ⟨st3, h, f3, w3, k3, S3⟩ := copy_same p.rand (hy.kept k2).labels.any (by simp) w2
    obtain ⟨st4, v, f4, w4, k4, S4⟩ := copy_same p.rand (hz.kept (k2.trans k3)).labels.any (by simp) w3
    have hh := (S3.edge (hy.kept k2)).kept k4
    have hv := S4.edge (hz.kept (k2.trans k3))
    have hcc := hc2.kept (k3.trans k4)
    have ha := g1.site.kept ((k2.trans k3).trans k4)
    obtain ⟨net, st5, t, e5, n5, w5, k5, v5⟩ := odd_settles R.cast w4 g1.nets.oddZ hcc.labels hcc.diag hh.labels hv.labels ha.labels
      (by rw [hh.dx, hcc.dy]) (by rw [hh.dy, hcc.dy]) (by rw [hv.dx, hcc.dx]) (by rw [hv.dy, hcc.dx]) (by rw [hv.dz, ha.dl]) (by rw [hv.dz, ha.dr])
      (by rw [hh.dz, ha.dd]) (by rw [hh.dz, ha.du])
    rw [odd_value (N := N) (V := V) (H := H) (w := w) ⟨hcc, hh, hv⟩ ha] at v5
    have kk := ((k2.trans k3).trans k4).trans k5
    refine ⟨{ s1 with st := st5, nets := { s1.nets with oddZ := net } }, N, ⟨x.2, y.2, z.2⟩, ?_, ⟨w5, g1.site.kept kk, ⟨g1.nets.hEdgeExtend,
      g1.nets.vEdgeExtend, g1.nets.cornerExtend, g1.nets.vBuild, g1.nets.hBuild, g1.nets.evenZ, n5⟩, g1.chi⟩, c1, tracked_same T1 kk rfl rfl rfl, PN⟩
    unfold CTMRGState.getZ
    simp only [if_neg hne]
    refine hG.bind ?_
    have hf : s1.fetch p ((L : Int) / 2 - 1) (decide ((L : Int) % 2 = 1)) = .ok (st4, (c, x.2), some ((h, y.2), (v, z.2))) := by
      unfold CTMRGState.fetch
      rw [hidx, ho']
      simp only [ex, ey, ez, f2, f3, f4, bind, Except.bind, pure, Except.pure, if_true]
    refine (Settles.const hf).bind ?_
    unfold CTMRGState.value
    refine e5.bind (Settles.const ?_)
    simp only [v5, bind, Except.bind, pure, Except.pure, valueOf, if_pos ho]
  · have ho' : decide ((L : Int) % 2 = 1) = false := by rw [decide_eq_false_iff_not]; omega
    obtain ⟨net, st5, t, e5, n5, w5, k5, v5⟩ := evenZ_settles R.cast w2 g1.nets.evenZ hc2.labels hc2.diag
    rw [even_value hc2] at v5
    have kk := k2.trans k5
    refine ⟨{ s1 with st := st5, nets := { s1.nets with evenZ := net } }, N, ⟨x.2, y.2, z.2⟩, ?_, ⟨w5, g1.site.kept kk, ⟨g1.nets.hEdgeExtend,
      g1.nets.vEdgeExtend, g1.nets.cornerExtend, g1.nets.vBuild, g1.nets.hBuild, n5, g1.nets.oddZ⟩, g1.chi⟩, c1, tracked_same T1 kk rfl rfl rfl, PN⟩
    unfold CTMRGState.getZ
    simp only [if_neg hne]
    refine hG.bind ?_
    have hf : s1.fetch p ((L : Int) / 2 - 1) (decide ((L : Int) % 2 = 1)) = .ok (st2, (c, x.2), none) := by
      unfold CTMRGState.fetch
      rw [hidx, ho']
      simp only [ex, f2, bind, Except.bind, pure, Except.pure, Bool.false_eq_true, if_false]
    refine (Settles.const hf).bind ?_
    unfold CTMRGState.value
    refine e5.bind (Settles.const ?_)
    simp only [v5, bind, Except.bind, pure, Except.pure, valueOf, if_neg ho]

/-- The sum of all entries of a site. -/
def sumOf (w : Nat → Nat → Nat → Nat → K) (V H : Nat) : K := ∑ l ∈ range H, ∑ r ∈ range H, ∑ u ∈ range V, ∑ d ∈ range V, w l r u d

theorem getZ_one {s : CTMRGState K} (g : s.Good p V H w) (hc : s.chi = chi) (T : s.Tracked P V H) :
    ∃ s', Settles (fun fuel => s.getZ p la fuel log exp (1 : Nat)) (s', sumOf w V H) ∧ s'.Good p V H w ∧ s'.chi = chi ∧ s'.Tracked P V H := by
  obtain ⟨st1, a, e1, w1, k1, S1⟩ := copy_same p.rand g.site.labels.any (by simp) g.wf
  have ha := S1.site g.site
  obtain ⟨a1, f1, l1, d1, v1⟩ := sumOut_label ha.labels (by decide) (x := "l") (by decide)
  obtain ⟨a2, f2, l2, d2, v2⟩ := sumOut_label l1 (by decide) (x := "r") (by decide)
  obtain ⟨a3, f3, l3, d3, v3⟩ := sumOut_label l2 (by decide) (x := "u") (by decide)
  obtain ⟨a4, f4, l4, d4, v4⟩ := sumOut_label l3 (by decide) (x := "d") (by decide)
  have l4 : HasLabels st1 a4 [] := ⟨l4.good, l4.dense, l4.known, l4.pos, l4.labels.trans (by decide)⟩
  have hl : a4.legs = [] := by
    have := l4.labels.eq_nil
    simpa using this
  have hs : a4.single st1 = .ok (a4.at st1 []) := by
    obtain ⟨arr, ea, wa, sa, -⟩ := l4.good.data
    have ea0 : arr.shape = [] := by rw [sa l4.dense, hl]; rfl
    unfold Tensor.single Tensor.at entry
    simp [ea0, l4.good.notLike, ea, Tensor.shape, hl, l4.dense, pyAssert, bind, Except.bind, pure, Except.pure]
  have hv : a4.at st1 [] = sumOf w V H := by
    rw [v4 _ (by intro y hy; exact absurd (show y ∈ ([] : List String) from hy) (by simp)), d3 _ (by decide), d2 _ (by decide), d1 _ (by decide), ha.dd]
    have step : ∀ d < V, a3.at st1 [("d", d)] = ∑ u ∈ range V, ∑ r ∈ range H, ∑ l ∈ range H, w l r u d := by
      intro d hd
      rw [v3 _ (by
        intro y hy
        have hy : y ∈ ["d"] := hy
        rw [List.mem_singleton] at hy
        subst hy
        rw [d2 _ (by decide), d1 _ (by decide), ha.dd]; simpa [indexAt]), d2 _ (by decide), d1 _ (by decide), ha.du]
      refine Finset.sum_congr rfl fun u hu => ?_
      rw [Finset.mem_range] at hu
      rw [v2 _ (by
        intro y hy
        have hy : y ∈ ["u", "d"] := hy
        simp only [List.mem_cons, List.not_mem_nil, or_false] at hy
        rcases hy with rfl | rfl
        · rw [d1 _ (by decide), ha.du]; simpa [indexAt]
        · rw [d1 _ (by decide), ha.dd]; simpa [indexAt]), d1 _ (by decide), ha.dr]
      refine Finset.sum_congr rfl fun r hr => ?_
      rw [Finset.mem_range] at hr
      rw [v1 _ (by
        intro y hy
        have hy : y ∈ ["u", "d", "r"] := hy
        simp only [List.mem_cons, List.not_mem_nil, or_false] at hy
        rcases hy with rfl | rfl | rfl
        · rw [ha.du]; simpa [indexAt]
        · rw [ha.dd]; simpa [indexAt]
        · rw [ha.dr]; simpa [indexAt]), ha.dl]
      refine Finset.sum_congr rfl fun l hl => ?_
      rw [Finset.mem_range] at hl
      rw [at_ext ha.labels (ys := [("u", u), ("l", l), ("d", d), ("r", r)]) (by simp [indexAt]), ha.val u hu l hl d hd r hr]
    rw [Finset.sum_congr rfl fun d hd => step d (Finset.mem_range.mp hd), sumOf]
    calc ∑ d ∈ range V, ∑ u ∈ range V, ∑ r ∈ range H, ∑ l ∈ range H, w l r u d
        = ∑ l ∈ range H, ∑ r ∈ range H, ∑ d ∈ range V, ∑ u ∈ range V, w l r u d := by
          have : ∀ d ∈ range V, (∑ u ∈ range V, ∑ r ∈ range H, ∑ l ∈ range H, w l r u d) = ∑ l ∈ range H, ∑ r ∈ range H, ∑ u ∈ range V, w l r u d := by
            intro d _
            rw [Finset.sum_comm, Finset.sum_congr rfl fun r _ => Finset.sum_comm, Finset.sum_comm]
          rw [Finset.sum_congr rfl this, Finset.sum_comm]
          exact Finset.sum_congr rfl fun l _ => Finset.sum_comm
      _ = _ := Finset.sum_congr rfl fun l _ => Finset.sum_congr rfl fun r _ => Finset.sum_comm
  refine ⟨{ s with st := st1 }, ⟨0, fun fuel _ => ?_⟩, ⟨w1, g.site.kept k1, g.nets, g.chi⟩, hc, tracked_same T k1 rfl rfl rfl⟩
  beta_reduce
  unfold CTMRGState.getZ
  rw [if_pos (by rfl)]
  unfold CTMRGState.single
  have hg : a.sumOutLegByLabelList st1 ["l", "r", "u", "d"] false none = (a4, .ok ()) := by
    rw [(C22_sumOutLegByLabel_list st1 a false none "l" _ a1 f1).1, (C22_sumOutLegByLabel_list st1 a1 false none "r" _ a2 f2).1,
      (C22_sumOutLegByLabel_list st1 a2 false none "u" _ a3 f3).1, (C22_sumOutLegByLabel_list st1 a3 false none "d" [] a4 f4).1,
      (C22_sumOutLegByLabel_list st1 a4 false none "" [] a4 (by
          refine ((C22_sumOutLegByLabel st1 a4 "" false none).1 fun hm => ?_)
          have := l4.labels.subset hm
          simp at this)).2]
  simp only [e1, hg, changed, hs, hv, bind, Except.bind, pure, Except.pure]

theorem getZ_tracked (R : RunParams p la) (hP : StepClosed la chi w V H log P) {s : CTMRGState K} (g : s.Good p V H w) (hc : s.chi = chi)
    (T : s.Tracked P V H) {L : Nat} (hL : 1 ≤ L) :
    ∃ s' x, Settles (fun fuel => s.getZ p la fuel log exp L) (s', x) ∧ s'.Good p V H w ∧ s'.chi = chi ∧ s'.Tracked P V H := by
  rcases Nat.lt_or_eq_of_le hL with h | rfl
  · obtain ⟨s', N, S, e, g', c', T', -⟩ := getZ_more (exp := exp) R hP g hc T h
    exact ⟨s', _, e, g', c', T'⟩
  · obtain ⟨s', e, g', c', T'⟩ := getZ_one (la := la) (log := log) (exp := exp) g hc T
    exact ⟨s', _, e, g', c', T'⟩

theorem queries_tracked (R : RunParams p la) (hP : StepClosed la chi w V H log P) : ∀ (Ls : List Nat) {s : CTMRGState K}, s.Good p V H w → s.chi = chi →
    s.Tracked P V H → (∀ L ∈ Ls, 1 ≤ L) →
    ∃ s', Settles (fun fuel => s.queries p la fuel log exp (Ls.map fun (L : Nat) => (L : Int))) s' ∧ s'.Good p V H w ∧ s'.chi = chi ∧ s'.Tracked P V H
  | [], s, g, hc, T, _ => ⟨s, Settles.const rfl, g, hc, T⟩
  | L :: Ls, s, g, hc, T, h => by
    obtain ⟨s1, x, e1, g1, c1, T1⟩ := getZ_tracked (exp := exp) R hP g hc T (h L (by simp))
    obtain ⟨s2, e2, g2, c2, T2⟩ := queries_tracked R hP Ls g1 c1 T1 fun L' hL' => h L' (by simp [hL'])
    exact ⟨s2, e1.bind e2, g2, c2, T2⟩

end

end CTL
