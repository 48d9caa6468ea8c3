import Verif.Lemmas.Traces

/-!
C49: the traces of `contractExp.py`.
-/

namespace CTL
variable {R : Type}

open Finset (range)

theorem entry_dense [Zero R] {t : Tensor R} (dg : t.diag = false) (σ : Assign) :
    entry t σ = (t.a.map fun arr => arr.get (t.legs.map σ)).getD 0 := by
  unfold entry
  cases t.a <;> simp [dg]

/-- C49: `selfTrace` of a dense tensor is a number: the sum of the squares of the entries.  The tensor is left alone. -/
theorem C49_selfTrace [CommSemiring R] (rand : List Nat → List Nat → R) (cast : R → R) {st : Store} (w : WFStore st) {t : Tensor R}
    (g : GoodTensor st t) (dense : t.diag = false) (known : ∀ l ∈ t.legs, l < st.nextLeg) :
    ∃ st' r, selfTrace rand cast st t = .ok (st', r) ∧ r.legs = [] ∧ GoodTensor st' r ∧ InputsKept st st' ∧ WFStore st' ∧ st.nextLeg ≤ st'.nextLeg ∧
      ∀ σ, entry r σ = sumLegs st.dim t.legs (fun τ => entry t τ * entry t τ) σ := by
  obtain ⟨st1, ca, st2, cb, e1, e2, w2, Fa, Fb, disj, old, le⟩ := copy_two rand w g g dense dense known
  have len : ca.legs.length = cb.legs.length := by
    have h1 := congrArg List.length Fa.dims
    have h2 := congrArg List.length Fb.dims
    simp only [List.length_map] at h1 h2
    rw [h1, h2]
  have pa : (ca.legs.zip cb.legs).map Prod.fst = ca.legs := List.map_fst_zip (by omega)
  have pb : (ca.legs.zip cb.legs).map Prod.snd = cb.legs := List.map_snd_zip (by omega)
  have hd : ∀ p ∈ ca.legs.zip cb.legs, st2.dim p.1 = st2.dim p.2 := by
    have e : ((ca.legs.zip cb.legs).map fun p => st2.dim p.1) = (ca.legs.zip cb.legs).map fun p => st2.dim p.2 := by
      have f1 : ((ca.legs.zip cb.legs).map fun p => st2.dim p.1) = ((ca.legs.zip cb.legs).map Prod.fst).map st2.dim := by
        rw [List.map_map]; rfl
      have f2 : ((ca.legs.zip cb.legs).map fun p => st2.dim p.2) = ((ca.legs.zip cb.legs).map Prod.snd).map st2.dim := by
        rw [List.map_map]; rfl
      rw [f1, f2, pa, pb, Fa.dims, Fb.dims]
    exact List.map_inj_left.mp e
  obtain ⟨w3, g1, g2, ok, hp, ho⟩ := bondAll_contract cast w2 Fa.good Fb.good Fa.dense Fb.dense
    (fun l hl => ⟨Fa.free l hl, (Fa.new l hl).2⟩) (fun l hl => ⟨Fb.free l hl, (Fb.new l hl).2⟩) disj (ca.legs.zip cb.legs)
    (by rw [pa]) (by rw [pb]) hd
  obtain ⟨o, eo, lo, _, C⟩ := contract_dense cast w3.inv g1 g2 Fa.dense Fb.dense disj
  have hs : sharedPairs (bondAll st2 (ca.legs.zip cb.legs)) ca.legs cb.legs = ca.legs.zip cb.legs :=
    shared_zip _ pa (fun p hp => pb ▸ List.mem_map_of_mem hp) hp
  rw [hs] at lo C
  rw [rest_nil (by rw [pa]) (by rw [pb])] at lo
  refine ⟨o.store, o.result, ?_, lo, C.good, ?_, C.same.wf w3, by rw [C.same.nextLeg, bondAll_nextLeg]; exact le, fun σ => ?_⟩
  · unfold selfTrace Tensor.copyN Tensor.copyN Tensor.copyN
    simp only [bind, Except.bind, pure, Except.pure, e1, e2, linkFold_bondAll _ _ hd, eo]
  · refine inputs_kept w old (fun l hl => (Fa.new l hl).1) (fun l hl => (Fb.new l hl).1) ho ?_ fun l => C.same.partner w3.inv l
    exact (contract_frame cast Fa.dense Fb.dense eo).2.2.2.2
  · rw [C.entry σ (by rw [lo]; exact fun l hl => absurd hl List.not_mem_nil)]
    have ea : ∀ τ : Assign, entry ca τ = (t.a.map fun arr => arr.get ((ca.legs.zip cb.legs).map fun p => τ p.1)).getD 0 := by
      intro τ
      rw [entry_dense Fa.dense, Fa.data]
      have : ((ca.legs.zip cb.legs).map fun p => τ p.1) = ca.legs.map τ := by
        conv_rhs => rw [← pa, List.map_map]
        rfl
      rw [this]
    have eb : ∀ τ : Assign, entry cb τ = (t.a.map fun arr => arr.get ((ca.legs.zip cb.legs).map fun p => τ p.2)).getD 0 := by
      intro τ
      rw [entry_dense Fb.dense, Fb.data]
      have : ((ca.legs.zip cb.legs).map fun p => τ p.2) = cb.legs.map τ := by
        conv_rhs => rw [← pb, List.map_map]
        rfl
      rw [this]
    simp only [ea, eb]
    have h1 := sumBonds_tuples (bondAll st2 (ca.legs.zip cb.legs)).dim
      (fun x y => (t.a.map fun arr => arr.get x).getD 0 * (t.a.map fun arr => arr.get y).getD 0) (ca.legs.zip cb.legs) [] σ
      ok.nodup
    have h2 := sumLegs_tuples st.dim
      (fun x => (t.a.map fun arr => arr.get x).getD 0 * (t.a.map fun arr => arr.get x).getD 0) t.legs [] σ g.nodup
    simp only [List.nil_append, List.map_nil] at h1 h2
    rw [h1]
    simp only [entry_dense dense]
    rw [h2]
    congr 1
    rw [← Fa.dims]
    conv_rhs => rw [← pa, List.map_map]
    exact List.map_congr_left fun p _ => bondAll_dim ..

/-- C49: `triangleTensorTrace` of two dense tensors with the labels 1, 2, 3 contracts the legs with the same label. -/
theorem C49_triangleTrace [CommSemiring R] (rand : List Nat → List Nat → R) (cast : R → R) {st : Store} (w : WFStore st)
    {a b : Tensor R} (la : HasLabels st a ["1", "2", "3"]) (lb : HasLabels st b ["1", "2", "3"])
    (h1 : a.dimOf st "1" = b.dimOf st "1") (h2 : a.dimOf st "2" = b.dimOf st "2") (h3 : a.dimOf st "3" = b.dimOf st "3") :
    ∃ st' r, triangleTensorTrace rand cast st a b = .ok (st', r) ∧ r.legs = [] ∧ GoodTensor st' r ∧ InputsKept st st' ∧ WFStore st' ∧ st.nextLeg ≤ st'.nextLeg ∧
      ∀ σ, entry r σ = ∑ i ∈ range (a.dimOf st "1"), ∑ j ∈ range (a.dimOf st "2"), ∑ k ∈ range (a.dimOf st "3"),
        a.at st [("1", i), ("2", j), ("3", k)] * b.at st [("1", i), ("2", j), ("3", k)] := by
  obtain ⟨st1, ca, st2, cb, e1, e2, w2, Fa, Fb, disj, old, le⟩ :=
    copy_two rand w la.good lb.good la.dense lb.dense lb.known
  have key : ∀ {t c : Tensor R}, HasLabels st t ["1", "2", "3"] → FreshTensor st t c st2 →
      ∃ l1 l2 l3, [l1, l2, l3].Perm c.legs ∧ st2.name l1 = "1" ∧ st2.name l2 = "2" ∧ st2.name l3 = "3" ∧
        c.getLeg st2 "1" = some l1 ∧ c.getLeg st2 "2" = some l2 ∧ c.getLeg st2 "3" = some l3 ∧
        st2.dim l1 = t.dimOf st "1" ∧ st2.dim l2 = t.dimOf st "2" ∧ st2.dim l3 = t.dimOf st "3" ∧
        ∀ (τ : Assign), entry c τ = t.at st [("1", τ l1), ("2", τ l2), ("3", τ l3)] := by
    intro t c h F
    obtain ⟨ls, hn, hp, hg⟩ := legs_of_labels (st := st2) (t := c) (labels := ["1", "2", "3"]) (by decide) F.good.nodup
      (by rw [F.labels]; exact h.labels)
    obtain ⟨l1, l2, l3, rfl⟩ := List.length_eq_three.mp (by simpa using congrArg List.length hn : ls.length = 3)
    simp only [List.map_cons, List.map_nil, List.cons.injEq, and_true] at hn
    obtain ⟨n1, n2, n3⟩ := hn
    have q1 := hg l1 (by simp)
    have q2 := hg l2 (by simp)
    have q3 := hg l3 (by simp)
    rw [n1] at q1
    rw [n2] at q2
    rw [n3] at q3
    have dims : ∀ (cs ts : List LegId), cs.map st2.name = ts.map st.name → cs.map st2.dim = ts.map st.dim → ∀ l ∈ cs,
        (∀ m ∈ cs, st2.name m = st2.name l → m = l) →
        st2.dim l = ((ts.find? fun m => st.name m == st2.name l).map st.dim).getD 0 := by
      intro cs
      induction cs with
      | nil => intro _ _ _ l hl; cases hl
      | cons c cs ih =>
        intro ts hn hd l hl hu
        cases ts with
        | nil => cases hn
        | cons m ts =>
          simp only [List.map_cons, List.cons.injEq] at hn hd
          rw [List.find?_cons]
          by_cases e : st2.name c = st2.name l
          · have := hu c (List.mem_cons_self ..) e
            subst this
            rw [hn.1, beq_self_eq_true]
            simp [hd.1]
          · have : (st.name m == st2.name l) = false := by
              rw [← hn.1]
              simpa using e
            rw [this]
            refine ih ts hn.2 hd.2 l ?_ fun k hk => hu k (List.mem_cons_of_mem _ hk)
            rcases List.mem_cons.mp hl with rfl | hl
            · exact absurd rfl e
            · exact hl
    have ndn : (c.legs.map st2.name).Nodup := by
      rw [F.labels]
      exact h.labels.nodup_iff.mpr (by decide)
    have dimOf : ∀ l ∈ c.legs, st2.dim l = t.dimOf st (st2.name l) := fun l hl =>
      dims c.legs t.legs F.labels F.dims l hl fun m hm e => List.inj_on_of_nodup_map ndn hm hl e
    have m1 : l1 ∈ c.legs := hp.subset (by simp)
    have m2 : l2 ∈ c.legs := hp.subset (by simp)
    have m3 : l3 ∈ c.legs := hp.subset (by simp)
    refine ⟨l1, l2, l3, hp, n1, n2, n3, q1, q2, q3, n1 ▸ dimOf l1 m1, n2 ▸ dimOf l2 m2, n3 ▸ dimOf l3 m3, fun τ => ?_⟩
    unfold Tensor.at
    rw [entry_dense F.dense, entry_dense h.dense, F.data]
    have : c.legs.map τ = t.legs.map fun l => indexAt [("1", τ l1), ("2", τ l2), ("3", τ l3)] (st.name l) := by
      have f1 : (t.legs.map fun l => indexAt [("1", τ l1), ("2", τ l2), ("3", τ l3)] (st.name l)) =
          (t.legs.map st.name).map (indexAt [("1", τ l1), ("2", τ l2), ("3", τ l3)]) := by
        rw [List.map_map]; rfl
      rw [f1, ← F.labels, List.map_map]
      refine List.map_congr_left fun l hl => ?_
      have : l = l1 ∨ l = l2 ∨ l = l3 := by simpa using hp.symm.subset hl
      rcases this with rfl | rfl | rfl
      · simp [indexAt, n1]
      · simp [indexAt, n2]
      · simp [indexAt, n3]
    rw [this]
  obtain ⟨a1, a2, a3, pa, na1, na2, na3, ga1, ga2, ga3, da1, da2, da3, ea⟩ := key la Fa
  obtain ⟨b1, b2, b3, pb, nb1, nb2, nb3, gb1, gb2, gb3, db1, db2, db3, eb⟩ := key lb Fb
  have k1 : st2.dim a1 = st2.dim b1 := by rw [da1, db1, h1]
  have k2 : st2.dim a2 = st2.dim b2 := by rw [da2, db2, h2]
  have k3 : st2.dim a3 = st2.dim b3 := by rw [da3, db3, h3]
  have hd : ∀ p ∈ [(a1, b1), (a2, b2), (a3, b3)], st2.dim p.1 = st2.dim p.2 := by
    simp [k1, k2, k3]
  obtain ⟨w3, g1, g2, ok, hp, ho⟩ := bondAll_contract cast w2 Fa.good Fb.good Fa.dense Fb.dense
    (fun l hl => ⟨Fa.free l hl, (Fa.new l hl).2⟩) (fun l hl => ⟨Fb.free l hl, (Fb.new l hl).2⟩) disj
    [(a1, b1), (a2, b2), (a3, b3)] pa pb hd
  have hbp : bondPairs (bondAll st2 [(a1, b1), (a2, b2), (a3, b3)]) (List.range' st2.nextBond 3) =
      [(a1, b1), (a2, b2), (a3, b3)] := bondAll_pairs [(a1, b1), (a2, b2), (a3, b3)] st2
  obtain ⟨o, eo, lo, _, C⟩ := contract_dense_bonds cast g1 g2 Fa.dense Fb.dense (List.range' st2.nextBond 3)
    (by rw [hbp]; exact ok)
  rw [hbp] at lo C
  rw [rest_nil (ps := [(a1, b1), (a2, b2), (a3, b3)]) pa pb] at lo
  have fold := labelFold ca cb (fun x => if x = "1" then a1 else if x = "2" then a2 else a3)
    (fun x => if x = "1" then b1 else if x = "2" then b2 else b3) ["1", "2", "3"] st2 []
    (by simp [ga1, ga2, ga3, gb1, gb2, gb3, k1, k2, k3])
  refine ⟨o.store, o.result, ?_, lo, C.good, ?_, C.same.wf w3, by rw [C.same.nextLeg, bondAll_nextLeg]; exact le, fun σ => ?_⟩
  · unfold triangleTensorTrace
    simp only [bind, Except.bind, pure, Except.pure, e1, e2]
    rw [fold]
    simp only [List.map_cons, List.map_nil, List.nil_append, List.length_cons, List.length_nil, if_true, String.reduceEq, if_false]
    rw [eo]
  · refine inputs_kept w old (fun l hl => (Fa.new l hl).1) (fun l hl => (Fb.new l hl).1) ho ?_ fun l => C.same.partner w3.inv l
    exact contract_frame_bonds cast Fa.dense Fb.dense eo
  · rw [C.entry σ (by rw [lo]; exact fun l hl => absurd hl List.not_mem_nil)]
    have nd := ok.nodup
    simp only [List.map_cons, List.map_nil, List.cons_append, List.nil_append, List.nodup_cons, List.mem_cons,
      List.not_mem_nil, or_false, not_or] at nd
    obtain ⟨⟨x1, x2, x3, x4, x5⟩, ⟨y2, y3, y4, y5⟩, ⟨z3, z4, z5⟩, ⟨u4, u5⟩, v5, _⟩ := nd
    simp only [sumBonds, bondAll_dim, ea, eb, Assign.set, list_range_sum, da1, da2, da3]
    simp [x1, x2, x3, x4, x5, y2, y3, y4, y5, z3, z4, z5, u4, u5, v5,
      Ne.symm x1, Ne.symm x2, Ne.symm x3, Ne.symm x4, Ne.symm x5, Ne.symm y2, Ne.symm y3, Ne.symm y4, Ne.symm y5, Ne.symm z3, Ne.symm z4, Ne.symm z5, Ne.symm u4, Ne.symm u5, Ne.symm v5]

/-- C49: `squareTrace` sums over equal indices of opposite legs. -/
theorem C49_squareTrace [CommSemiring R] {st : Store} {a : Tensor R} (la : HasLabels st a ["u", "l", "d", "r"])
    (h1 : a.dimOf st "u" = a.dimOf st "d") (h2 : a.dimOf st "l" = a.dimOf st "r") :
    squareTrace st a = .ok (∑ i ∈ range (a.dimOf st "u"), ∑ j ∈ range (a.dimOf st "l"),
      a.at st [("u", i), ("l", j), ("d", i), ("r", j)]) := by
  obtain ⟨ls, hn, hp, hg⟩ := legs_of_labels (labels := ["u", "l", "d", "r"]) (by decide) la.good.nodup la.labels
  obtain ⟨u, l, d, r, rfl⟩ : ∃ u l d r, ls = [u, l, d, r] := by
    match ls, (by simpa using congrArg List.length hn : ls.length = 4) with
    | [u, l, d, r], _ => exact ⟨u, l, d, r, rfl⟩
  simp only [List.map_cons, List.map_nil, List.cons.injEq, and_true] at hn
  obtain ⟨nu, nl, nd, nr⟩ := hn
  have gu := hg u (by simp)
  have gl := hg l (by simp)
  have gd := hg d (by simp)
  have gr := hg r (by simp)
  rw [nu] at gu
  rw [nl] at gl
  rw [nd] at gd
  rw [nr] at gr
  have ndn : (a.legs.map st.name).Nodup := la.labels.nodup_iff.mpr (by decide)
  have dimOf : ∀ m ∈ a.legs, st.dim m = a.dimOf st (st.name m) := by
    intro m hm
    unfold Tensor.dimOf
    have hf : (a.legs.find? fun k => st.name k == st.name m) = some m := by
      rcases hf : a.legs.find? fun k => st.name k == st.name m with _ | k
      · have := List.find?_eq_none.mp hf m hm
        simp at this
      · have e := List.find?_some hf
        rw [beq_iff_eq] at e
        rw [List.inj_on_of_nodup_map ndn (List.mem_of_find?_eq_some hf) hm e]
    rw [hf]
    rfl
  have du : st.dim u = a.dimOf st "u" := nu ▸ dimOf u (hp.subset (by simp))
  have dl : st.dim l = a.dimOf st "l" := nl ▸ dimOf l (hp.subset (by simp))
  have dd : st.dim d = a.dimOf st "d" := nd ▸ dimOf d (hp.subset (by simp))
  have dr : st.dim r = a.dimOf st "r" := nr ▸ dimOf r (hp.subset (by simp))
  unfold squareTrace Tensor.legsOfLabels
  simp only [List.map_cons, List.map_nil, gu, gl, gd, gr, Option.getD_some]
  rw [C40_trace_dense la.good la.dense [u, l] [d, r] (by simp) hp (by simp [du, dl, dd, dr, h1, h2]) fun _ => 0]
  have nd' : [u, l, d, r].Nodup := hp.nodup_iff.mpr la.good.nodup
  simp only [List.nodup_cons, List.mem_cons, List.not_mem_nil, or_false, not_or] at nd'
  obtain ⟨⟨x1, x2, x3⟩, ⟨y2, y3⟩, z3, _⟩ := nd'
  have en : ∀ τ : Assign, entry a τ = a.at st [("u", τ u), ("l", τ l), ("d", τ d), ("r", τ r)] := by
    intro τ
    refine entry_congr a fun m hm => ?_
    have : m = u ∨ m = l ∨ m = d ∨ m = r := by simpa using hp.symm.subset hm
    rcases this with rfl | rfl | rfl | rfl
    · simp [indexAt, nu]
    · simp [indexAt, nl]
    · simp [indexAt, nd]
    · simp [indexAt, nr]
  simp only [List.zip_cons_cons, List.zip_nil_right, sumBonds, list_range_sum, du, dl, en, Assign.set]
  simp [x1, x2, x3, y2, y3, z3, Ne.symm y2]

end CTL
