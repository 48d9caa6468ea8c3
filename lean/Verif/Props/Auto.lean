import Verif.Lemmas.MakeGraph
import Verif.Props.Search
import Verif.Props.Sequence

/-! # Properties C03 and C08 for sequences found by the search -/

namespace CTL
variable {R : Type}

theorem graphOf_twoEnds_dense {st : Store} {ts : List (Tensor R)} {G : TGraph} {κ : LegId → Nat}
    (h : GraphOf st ts G κ) (hd : ∀ t ∈ ts, t.diag = false) : ∀ i, i < G.n → G.diag i = false := by
  intro i hi
  rw [h.n] at hi
  rw [h.diag i _ (List.getElem?_eq_getElem hi)]
  exact hd _ (List.getElem_mem hi)

theorem diagDims_dense {G : TGraph} (h : ∀ i, i < G.n → G.diag i = false) (typ : Option Nat) : G.DiagDims typ := by
  right
  rintro S T ⟨i, hi⟩ _ hS _ _ hd
  have := hd i hi
  rw [h i (hS i hi)] at this
  cases this

theorem diagUniform_dense {G : TGraph} (h : ∀ i, i < G.n → G.diag i = false) : G.DiagUniform := by
  intro i hi hd
  rw [h i hi] at hd
  cases hd

theorem noDiagOuter_dense {G : TGraph} (h : ∀ i, i < G.n → G.diag i = false) :
    ∀ T : CTree, T.Proper G.n → G.NoDiagOuter T := by
  intro T
  induction T with
  | leaf i => intro _; trivial
  | node l r ihl ihr =>
    intro hp
    have hp' := Proper.node.mp hp
    refine ⟨ihl hp'.1, ihr hp'.2.1, ?_⟩
    rintro ⟨hd, _⟩
    obtain ⟨i, hi⟩ := verts_nonempty l
    have := hd i hi
    rw [h i (Proper.lt hp'.1 i hi)] at this
    cases this

theorem mapM_pyMin_nonempty : ∀ (ls : List (List Nat)) ms, ls.mapM pyMin = .ok ms → ∀ l ∈ ls, l ≠ [] := by
  intro ls
  induction ls with
  | nil => intro _ _ l h; cases h
  | cons x ls ih =>
    intro ms h l hl
    rw [List.mapM_cons] at h
    obtain ⟨a, ha, h⟩ := except_bind_ok.mp h
    obtain ⟨as, has, _⟩ := except_bind_ok.mp h
    rcases List.mem_cons.mp hl with rfl | hl
    · rintro rfl; cases ha
    · exact ih as has l hl

/-- If the capped search with real dimensions returns normally, every tensor has an edge. -/
theorem capping_ok_nonempty {g : Input} {G : TGraph} (h : Describes g G) {fuel : Nat} {r}
    (hr : capping g none fuel = some (.ok r)) : ∀ i, i < G.n → (G.edges i).Nonempty := by
  intro i hi
  have hc : ∃ c, chiMin g none = .ok c := by
    unfold capping at hr
    cases hch : chiMin g none with
    | error e => rw [hch] at hr; simp at hr
    | ok c => exact ⟨c, rfl⟩
  obtain ⟨c, hc⟩ := hc
  unfold chiMin at hc
  simp only at hc
  obtain ⟨ms, hms, _⟩ := except_bind_ok.mp hc
  have hl : i < g.shapes.length := by rw [h.shapes]; exact hi
  have hne := mapM_pyMin_nonempty _ _ hms g.shapes[i] (List.getElem_mem hl)
  have hs := h.shape i hi
  rw [List.getD_eq_getElem?_getD, List.getElem?_eq_getElem hl] at hs
  simp only [Option.getD_some] at hs
  rw [← (h.edges i hi).2]
  rw [hs] at hne
  rw [List.toFinset_nonempty_iff]
  rintro e
  apply hne
  rw [e]
  rfl

section
variable {st : Store} {ts : List (Tensor R)}

/-- What a search returns on a dense network. -/
theorem generate_spec (c : ClosedNet st ts) (hd : ∀ t ∈ ts, t.diag = false) (hne : ts ≠ []) {mode : Mode}
    {typ : Option Nat} {fuel cost : Nat} {q : List (Nat × Nat)}
    (h : generateSequence st ts mode typ fuel = some (.ok (cost, q))) :
    ValidSeq ts.length q ∧ ((mode = .capping → ∀ t ∈ ts, ∀ l ∈ t.legs, st.dim l ≠ 0) →
      (mode ≠ .greedy → typ = none) → seqCost st (ts.map fun t => t.legs) q = cost) := by
  obtain ⟨g, inp, G, κ, h1, h2, h3, h4⟩ := makeTensorGraph_spec c
  have hdense := graphOf_twoEnds_dense h4 hd
  have hn : G.n ≠ 0 := by
    rw [h4.n]
    intro h0
    exact hne (List.length_eq_zero_iff.mp h0)
  have hself : ∀ t ∈ ts, ∀ l ∈ t.legs, ∀ m ∈ t.legs, st.partner l ≠ some m := by
    intro t ht l hl m hm e
    exact (c.inside t ht l hl m e).1 hm
  have net : ∀ {q}, ValidSeq ts.length q → seqCost st (ts.map fun t => t.legs) q = G.seqCost none (fun i => {i}) q :=
    fun hv => seqCost_network h4 c.nodup h3.ends hdense hself hv
  unfold generateSequence at h
  rw [h1] at h
  simp only at h
  unfold optimalContractSequence at h
  rw [h2] at h
  simp only at h
  have hlen : inp.edges.length = ts.length := by rw [h3.n, h4.n]
  cases mode with
  | greedy =>
    replace h := Option.some.inj h
    obtain ⟨_, hv, hc, _, _⟩ := (greedySearch_spec h3 (diagUniform_dense hdense) hn).2 cost q h
    rw [h4.n] at hv
    refine ⟨hv, fun _ _ => ?_⟩
    rw [net hv, hc]
  | bruteForce =>
    replace h := Option.some.inj h
    obtain ⟨r, hr, h⟩ := except_bind_ok.mp h
    obtain ⟨c', hc', h⟩ := except_bind_ok.mp h
    simp only [except_pure_ok, Prod.mk.injEq] at h
    obtain ⟨rfl, rfl⟩ := h
    have hv : ValidSeq ts.length r.2 := by rw [← hlen]; exact (C04_bruteForce_valid (s := r.1) hr).1
    refine ⟨hv, fun _ ht => ?_⟩
    obtain rfl := ht (by decide)
    obtain ⟨s, c2, q2, b1, b2, ⟨T, t1, t2, t3⟩, _⟩ := C05_bruteForce_optimal h3 (diagDims_dense hdense none) hn
    rw [b1] at hr
    injection hr with hr
    subst hr
    rw [h3.n] at hc'
    unfold Tables.getCost at hc'
    rw [b2] at hc'
    injection hc' with hc'
    rw [net hv, ← hc', ← t3, ← seqCost_complete G none t1, t2]
  | capping =>
    obtain ⟨r0, hr, h'⟩ := Option.map_eq_some_iff.mp h
    obtain ⟨r, hr0, h''⟩ := except_bind_ok.mp h'
    subst hr0
    obtain ⟨c', hc', h3'⟩ := except_bind_ok.mp h''
    injection h3' with h3'
    injection h3' with e1 e2
    subst e1 e2
    have hv : ValidSeq ts.length r.2 := by rw [← hlen]; exact (C04_capping_valid (s := r.1) hr).1
    refine ⟨hv, fun hpos ht => ?_⟩
    obtain rfl := ht (by decide)
    have hp : ∀ i, i < G.n → ∀ e ∈ G.edges i, 0 < G.dim e := by
      intro i hi e he
      rw [h4.n] at hi
      rw [h4.edges i _ (List.getElem?_eq_getElem hi), List.mem_toFinset, List.mem_map] at he
      obtain ⟨l, hl, rfl⟩ := he
      rw [h4.dim _ (List.getElem_mem hi) l hl]
      exact Nat.pos_of_ne_zero (hpos rfl _ (List.getElem_mem hi) l hl)
    obtain ⟨s, c2, q2, b1, b2, ⟨T, t1, _, t2, t3⟩, _⟩ := C06_capping_optimal h3 (diagUniform_dense hdense) hp (by simp) hn
      (Or.inr (capping_ok_nonempty h3 hr)) hr
    injection b1 with b1
    subst b1
    rw [h3.n] at hc'
    unfold Tables.getCost at hc'
    rw [b2] at hc'
    injection hc' with hc'
    rw [net hv, ← hc', ← t3, ← seqCost_complete G none t1, t2]

end

/-! ### C08 -/

/-- The cost that the search reports is the cost that is accumulated when the sequence it found is executed: any of
the three searches, dense tensors, real dimensions. -/
theorem C08_predicted_eq_incurred [CommSemiring R] (cast : R → R) {st : Store} {ts : List (Tensor R)}
    (g : GoodNet st ts) (c : ClosedNet st ts) (hd : ∀ t ∈ ts, t.diag = false) (hne : ts ≠ [])
    (hpos : ∀ l m, st.partner l = some m → Cross ts l m → st.dim l ≠ 0) {mode : Mode}
    (hposc : mode = .capping → ∀ t ∈ ts, ∀ l ∈ t.legs, st.dim l ≠ 0) {fuel cost : Nat} {q : List (Nat × Nat)}
    (h : generateSequence st ts mode none fuel = some (.ok (cost, q))) :
    ∃ st' t, contractInPlace cast st ts q = .ok (st', t, cost) := by
  obtain ⟨hv, hc⟩ := generate_spec c hd hne h
  obtain ⟨st', t, h'⟩ := C08_incurred_cost cast g hpos hd hv
  rw [hc hposc fun _ => rfl] at h'
  exact ⟨st', t, h'⟩

theorem triNet_closed : ClosedNet triStore triNet := by
  refine ⟨triStore_inv, by decide, by decide, ?_, ?_⟩
  · decide
  · intro t ht l hl m hm
    have hm' : m ∈ [0, 1, 2, 3, 4, 5, 6, 7, 8] := by
      simp only [triNet, List.mem_cons, List.not_mem_nil, or_false] at ht
      rcases ht with rfl | rfl | rfl <;>
        (simp only [triA, triB, triC, List.mem_cons, List.not_mem_nil, or_false] at hl
         rcases hl with rfl | rfl | rfl <;> (simp [Store.partner, triStore] at hm; try (subst hm; simp)))
    have key : ∀ m ∈ [0, 1, 2, 3, 4, 5, 6, 7, 8], ∀ t ∈ triNet, ∀ l ∈ t.legs, triStore.partner l = some m →
        m ∉ t.legs ∧ ∃ u ∈ triNet, m ∈ u.legs := by decide
    exact key m hm' t ht l hl hm

example : GoodNet triStore triNet ∧ ClosedNet triStore triNet ∧
    (∀ t ∈ triNet, ∀ l ∈ t.legs, triStore.dim l ≠ 0) ∧
    generateSequence triStore triNet .bruteForce none 0 = some (.ok (20, [(1, 2), (0, 1)])) ∧
    generateSequence triStore triNet .greedy none 0 = some (.ok (20, [(1, 2), (0, 1)])) ∧
    generateSequence triStore triNet .capping none 10 = some (.ok (20, [(1, 2), (0, 1)])) :=
  ⟨triNet_good, triNet_closed, by decide, by decide +kernel, by decide +kernel, by decide +kernel⟩

/-! ### C03 with a sequence found by the search -/

/-- Whatever sequence a search returns, executing it gives the network sum. -/
theorem C03_search_sequence [CommSemiring R] (cast : R → R) {st : Store} {ts : List (Tensor R)}
    (g : GoodNet st ts) (c : ClosedNet st ts) (hd : ∀ t ∈ ts, t.diag = false) (hne : ts ≠ [])
    (hpos : ∀ l m, st.partner l = some m → Cross ts l m → st.dim l ≠ 0) {mode : Mode} {typ : Option Nat}
    {fuel cost : Nat} {q : List (Nat × Nat)}
    (h : generateSequence st ts mode typ fuel = some (.ok (cost, q))) :
    ∃ st' t k, contractAuto cast st ts mode typ fuel = some (.ok (st', t, k)) ∧ SameNet st st' ∧ GoodTensor st' t ∧
      (∀ l, l ∈ t.legs ↔ FreeLeg st ts l) ∧
      ∀ ps, IsBondList st ts ps → ∀ σ, (∀ l, FreeLeg st ts l → σ l < st.dim l) →
        entry t σ = netSum st ts ps σ := by
  obtain ⟨st', t, k, h1, h2⟩ := C03_any_valid_sequence cast g hpos (generate_spec c hd hne h).1 (Or.inl hd)
  refine ⟨st', t, k, ?_, h2⟩
  unfold contractAuto
  rw [h]
  show some (contractInPlace cast st ts q) = _
  rw [h1]

/-- `contractTensorList` (brute force) always returns on a dense network, with the network sum as value, for any
typical dimension. -/
theorem C03_contract_bruteForce [CommSemiring R] (cast : R → R) {st : Store} {ts : List (Tensor R)}
    (g : GoodNet st ts) (c : ClosedNet st ts) (hd : ∀ t ∈ ts, t.diag = false) (hne : ts ≠ [])
    (hpos : ∀ l m, st.partner l = some m → Cross ts l m → st.dim l ≠ 0) (typ : Option Nat) (fuel : Nat) :
    ∃ st' t k, contractAuto cast st ts .bruteForce typ fuel = some (.ok (st', t, k)) ∧ SameNet st st' ∧
      GoodTensor st' t ∧ (∀ l, l ∈ t.legs ↔ FreeLeg st ts l) ∧
      ∀ ps, IsBondList st ts ps → ∀ σ, (∀ l, FreeLeg st ts l → σ l < st.dim l) →
        entry t σ = netSum st ts ps σ := by
  obtain ⟨gr, inp, G, κ, h1, h2, h3, h4⟩ := makeTensorGraph_spec c
  have hdense := graphOf_twoEnds_dense h4 hd
  have hn : G.n ≠ 0 := by
    rw [h4.n]
    intro h0
    exact hne (List.length_eq_zero_iff.mp h0)
  obtain ⟨s, cost, q, b1, b2, _⟩ := C05_bruteForce_optimal h3 (diagDims_dense hdense typ) hn
  refine C03_search_sequence cast g c hd hne hpos (cost := cost) (q := q) ?_
  unfold generateSequence
  rw [h1]
  simp only
  unfold optimalContractSequence
  rw [h2]
  simp only [b1, h3.n]
  simp [bind, Except.bind, Tables.getCost, b2, pure, Except.pure]

/-- The capped search returns after finitely many rounds on every dense network in which every tensor has a leg and no leg
has dimension 0. -/
theorem capping_returns {st : Store} {ts : List (Tensor R)} (c : ClosedNet st ts) (hd : ∀ t ∈ ts, t.diag = false)
    (hne : ts ≠ []) (hpos : ∀ t ∈ ts, ∀ l ∈ t.legs, st.dim l ≠ 0) (hlegs : ∀ t ∈ ts, t.legs ≠ []) {typ : Option Nat}
    (htyp : typ ≠ some 0) :
    ∃ rounds, ∀ fuel, rounds ≤ fuel → ∃ cost q, generateSequence st ts .capping typ fuel = some (.ok (cost, q)) := by
  obtain ⟨gr, inp, G, κ, h1, h2, h3, h4⟩ := makeTensorGraph_spec c
  have hdense := graphOf_twoEnds_dense h4 hd
  have hn : G.n ≠ 0 := by
    rw [h4.n]
    intro h0
    exact hne (List.length_eq_zero_iff.mp h0)
  have hp : ∀ i, i < G.n → ∀ e ∈ G.edges i, 0 < G.dim e := by
    intro i hi e he
    rw [h4.n] at hi
    rw [h4.edges i _ (List.getElem?_eq_getElem hi), List.mem_toFinset, List.mem_map] at he
    obtain ⟨l, hl, rfl⟩ := he
    rw [h4.dim _ (List.getElem_mem hi) l hl]
    exact Nat.pos_of_ne_zero (hpos _ (List.getElem_mem hi) l hl)
  have he : ∀ i, i < G.n → (G.edges i).Nonempty := by
    intro i hi
    rw [h4.n] at hi
    rw [h4.edges i _ (List.getElem?_eq_getElem hi), List.toFinset_nonempty_iff]
    intro e
    exact hlegs _ (List.getElem_mem hi) (List.map_eq_nil_iff.mp e)
  obtain ⟨_, _, _, _, _, ⟨T, t1, _, _⟩, _⟩ := C05_bruteForce_optimal h3 (diagDims_dense hdense none) hn
  have hT := noDiagOuter_dense hdense T (complete_iff.mp t1).1
  refine ⟨G.treeCost typ T, fun fuel hf => ?_⟩
  obtain ⟨s, q, hr⟩ := C06_capping_terminates h3 (diagUniform_dense hdense) hp htyp hn (Or.inr he) t1 hT hf
  obtain ⟨s', cost, q', e, b2, _⟩ := C06_capping_optimal h3 (diagUniform_dense hdense) hp htyp hn (Or.inr he) hr
  injection e with e
  injection e with e1 e2
  subst e1 e2
  refine ⟨cost, q, ?_⟩
  unfold generateSequence
  rw [h1]
  simp only
  unfold optimalContractSequence
  rw [h2]
  simp only [hr, h3.n]
  simp [bind, Except.bind, Tables.getCost, b2, pure, Except.pure]

/-- The capped search (the default) returns after finitely many rounds on every dense network in which every tensor
has a leg and no leg has dimension 0. -/
theorem C03_contract_capping [CommSemiring R] (cast : R → R) {st : Store} {ts : List (Tensor R)}
    (g : GoodNet st ts) (c : ClosedNet st ts) (hd : ∀ t ∈ ts, t.diag = false) (hne : ts ≠ [])
    (hpos : ∀ t ∈ ts, ∀ l ∈ t.legs, st.dim l ≠ 0) (hlegs : ∀ t ∈ ts, t.legs ≠ []) {typ : Option Nat}
    (htyp : typ ≠ some 0) :
    ∃ rounds, ∀ fuel, rounds ≤ fuel → ∃ st' t k, contractAuto cast st ts .capping typ fuel = some (.ok (st', t, k)) ∧
      SameNet st st' ∧ GoodTensor st' t ∧ (∀ l, l ∈ t.legs ↔ FreeLeg st ts l) ∧
      ∀ ps, IsBondList st ts ps → ∀ σ, (∀ l, FreeLeg st ts l → σ l < st.dim l) →
        entry t σ = netSum st ts ps σ := by
  obtain ⟨rounds, h⟩ := capping_returns c hd hne hpos hlegs htyp
  refine ⟨rounds, fun fuel hf => ?_⟩
  obtain ⟨cost, q, hr⟩ := h fuel hf
  exact C03_search_sequence cast g c hd hne
    (fun l m _ hx => by
      obtain ⟨⟨t, ht, hl, _⟩, _⟩ := hx
      exact hpos t ht l hl) hr

/-- The greedy search returns on every connected dense network. -/
theorem C03_contract_greedy [CommSemiring R] (cast : R → R) {st : Store} {ts : List (Tensor R)}
    (g : GoodNet st ts) (c : ClosedNet st ts) (hd : ∀ t ∈ ts, t.diag = false) (hne : ts ≠ [])
    (hpos : ∀ l m, st.partner l = some m → Cross ts l m → st.dim l ≠ 0) (hc : NetConnected st ts)
    (typ : Option Nat) (fuel : Nat) :
    ∃ st' t k, contractAuto cast st ts .greedy typ fuel = some (.ok (st', t, k)) ∧ SameNet st st' ∧
      GoodTensor st' t ∧ (∀ l, l ∈ t.legs ↔ FreeLeg st ts l) ∧
      ∀ ps, IsBondList st ts ps → ∀ σ, (∀ l, FreeLeg st ts l → σ l < st.dim l) →
        entry t σ = netSum st ts ps σ := by
  obtain ⟨gr, inp, G, κ, h1, h2, h3, h4⟩ := makeTensorGraph_spec c
  have hdense := graphOf_twoEnds_dense h4 hd
  have hn : G.n ≠ 0 := by
    rw [h4.n]
    intro h0
    exact hne (List.length_eq_zero_iff.mp h0)
  have adj : ∀ i j, Joined st ts i j → G.Adj i j := by
    rintro i j ⟨t, u, ht, hu, l, hl, m, hm, hp⟩
    have hi := (List.getElem?_eq_some_iff.mp ht).1
    have hj := (List.getElem?_eq_some_iff.mp hu).1
    refine ⟨by rw [h4.n]; exact hi, by rw [h4.n]; exact hj, κ l, ?_, ?_⟩
    · rw [h4.edges i t ht, List.mem_toFinset]
      exact List.mem_map.mpr ⟨l, hl, rfl⟩
    · rw [h4.edges j u hu, List.mem_toFinset]
      exact List.mem_map.mpr ⟨m, hm, ((h4.same t (List.mem_of_getElem? ht) u (List.mem_of_getElem? hu) l hl m hm).mpr
        (Or.inr hp)).symm⟩
  have hconn : G.Connected := by
    intro i j hi hj
    rw [h4.n] at hi hj
    exact Relation.ReflTransGen.mono adj _ _ (hc i j hi hj)
  obtain ⟨cost, q, hr, _⟩ := C07_greedy_valid h3 (diagUniform_dense hdense) hn hconn
  refine C03_search_sequence cast g c hd hne hpos (cost := cost) (q := q) ?_
  unfold generateSequence
  rw [h1]
  simp only
  unfold optimalContractSequence
  rw [h2]
  simp only [hr]

theorem triNet_connected : NetConnected triStore triNet := by
  intro i j hi hj
  by_cases hij : i = j
  · subst hij; exact .refl
  · apply Relation.ReflTransGen.single
    have hi' : i < 3 := hi
    have hj' : j < 3 := hj
    have : (i = 0 ∧ j = 1) ∨ (i = 1 ∧ j = 0) ∨ (i = 1 ∧ j = 2) ∨ (i = 2 ∧ j = 1) ∨ (i = 0 ∧ j = 2) ∨ (i = 2 ∧ j = 0) := by
      omega
    rcases this with ⟨rfl, rfl⟩ | ⟨rfl, rfl⟩ | ⟨rfl, rfl⟩ | ⟨rfl, rfl⟩ | ⟨rfl, rfl⟩ | ⟨rfl, rfl⟩
    · exact ⟨triA, triB, rfl, rfl, 1, by decide, 4, by decide, by decide⟩
    · exact ⟨triB, triA, rfl, rfl, 4, by decide, 1, by decide, by decide⟩
    · exact ⟨triB, triC, rfl, rfl, 5, by decide, 8, by decide, by decide⟩
    · exact ⟨triC, triB, rfl, rfl, 8, by decide, 5, by decide, by decide⟩
    · exact ⟨triA, triC, rfl, rfl, 2, by decide, 7, by decide, by decide⟩
    · exact ⟨triC, triA, rfl, rfl, 7, by decide, 2, by decide, by decide⟩

example : GoodNet triStore triNet ∧ ClosedNet triStore triNet ∧ (∀ t ∈ triNet, t.diag = false) ∧
    (∀ t ∈ triNet, ∀ l ∈ t.legs, triStore.dim l ≠ 0) ∧ (∀ t ∈ triNet, t.legs ≠ []) ∧ NetConnected triStore triNet ∧
    ((contractAuto id triStore triNet .capping none 10).bind fun r => r.toOption.map fun r =>
      (r.2.1.legs, r.2.1.a, r.2.2)) = some ([0, 3, 6], some ⟨[2, 1, 2], [13, 24, 29, 58]⟩, 20) :=
  ⟨triNet_good, triNet_closed, by decide, by decide, by decide, triNet_connected, by decide +kernel⟩

/-! ### Where the graph construction fails -/

/-- A bond that leaves the list makes the automatic modes raise `KeyError` (while executing a given sequence works). -/
theorem C03_outgoing_bond_raises :
    ∃ ts : List (Tensor Int), GoodNet triStore ts ∧ ValidSeq ts.length [(0, 1)] ∧
      (∀ mode typ fuel, contractAuto id triStore ts mode typ fuel = some (.error .keyError)) ∧
      ∃ r, contractInPlace id triStore ts [(0, 1)] = .ok r := by
  refine ⟨[triA, triB], ⟨triStore_inv, ?_, by decide⟩, by decide, ?_, ?_⟩
  · intro t ht
    exact triNet_good.good t (by
      simp only [List.mem_cons, List.not_mem_nil, or_false] at ht
      rcases ht with rfl | rfl <;> simp [triNet])
  · intro mode typ fuel
    rfl
  · obtain ⟨st', t, k, h, _⟩ := C03_any_valid_sequence (ts := [triA, triB]) id
      ⟨triStore_inv, fun t ht => triNet_good.good t (by
        simp only [List.mem_cons, List.not_mem_nil, or_false] at ht
        rcases ht with rfl | rfl <;> simp [triNet]), by decide⟩ (seq := [(0, 1)])
      (by
        rintro l m - ⟨⟨t, ht, hl, -⟩, -⟩
        simp only [List.mem_cons, List.not_mem_nil, or_false] at ht
        rcases ht with rfl | rfl <;>
          (simp only [triA, triB, List.mem_cons, List.not_mem_nil, or_false] at hl
           rcases hl with rfl | rfl | rfl <;> decide)) (by decide) (Or.inl (by decide))
    exact ⟨_, h⟩

end CTL
