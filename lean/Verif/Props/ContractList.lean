import Verif.Model.ContractList
import Verif.Props.Copy
import Verif.Props.Auto

/-! C62: `contractTensorList`. -/

namespace CTL
variable {R : Type}

/-- A network that can be contracted: well-formed, with dense tensors that have legs, positive dimensions, and no bonds to other tensors. -/
structure Contractable (st : Store) (ts : List (Tensor R)) : Prop where
  wf : WFStore st
  closed : ClosedNet st ts
  good : ∀ t ∈ ts, GoodTensor st t ∧ t.diag = false
  known : ∀ t ∈ ts, ∀ l ∈ t.legs, l < st.nextLeg
  pos : ∀ t ∈ ts, ∀ l ∈ t.legs, st.dim l ≠ 0
  legs : ∀ t ∈ ts, t.legs ≠ []
  nonempty : ts ≠ []

theorem Contractable.list {st : Store} {ts : List (Tensor R)} (h : Contractable st ts) : TensorList st ts where
  wf := h.wf
  good := by
    intro t ht
    obtain ⟨g, d⟩ := h.good t ht
    obtain ⟨arr, a1, a2, a3, a4⟩ := g.data
    refine ⟨g.nodup, fun e => ?_, fun _ => ⟨arr, a1, a3, fun e => ?_⟩, fun e => ?_⟩
    · rw [g.notLike] at e; cases e
    · rw [d] at e; cases e
    · rw [d] at e; cases e
  ids := h.closed.ids
  known := fun t ht l hl => ⟨h.known t ht l hl, h.closed.owner t ht l hl⟩
  inside := by
    intro t ht l hl m hm u hu ho
    obtain ⟨-, v, hv, hmv⟩ := h.closed.inside t ht l hl m hm
    have := h.closed.owner v hv m hmv
    rw [ho] at this
    have e : u.id = v.id := Option.some.inj this
    obtain rfl : u = v := by
      obtain ⟨i, hi, rfl⟩ := List.getElem_of_mem hu
      obtain ⟨j, hj, rfl⟩ := List.getElem_of_mem hv
      have := (List.Nodup.getElem_inj_iff h.closed.ids (hi := by simpa using hi) (hj := by simpa using hj)).mp (by simpa using e)
      subst this
      rfl
    exact hmv

theorem Contractable.net {st : Store} {ts : List (Tensor R)} (h : Contractable st ts) : GoodNet st ts :=
  ⟨h.wf.inv, fun t ht => (h.good t ht).1, h.closed.nodup⟩

/-! ### The cost of contracting the copies -/

theorem filter_copy {f : LegId → LegId} {p : LegId → Bool} {q : LegId → Bool} {ls : List LegId} (h : ∀ l ∈ ls, q (f l) = p l) :
    (ls.map f).filter q = (ls.filter p).map f := by
  rw [List.filter_map]
  congr 1
  exact List.filter_congr fun l hl => h l hl

theorem seqCost_copy {st st1 : Store} {f : LegId → LegId} {S : LegId → Prop} (hd : ∀ l, S l → st1.dim (f l) = st.dim l)
    (hp : ∀ l m, S l → S m → (st1.partner (f l) = some (f m) ↔ st.partner l = some m)) : ∀ (seq : List (Nat × Nat)) (L : List (List LegId)),
    (∀ ls ∈ L, ∀ l ∈ ls, S l) → seqCost st1 (L.map fun ls => ls.map f) seq = seqCost st L seq
  | [], L, _ => rfl
  | (s, t) :: seq, L, h => by
    have hg : ∀ i, (L.map fun ls => ls.map f).getD i [] = (L.getD i []).map f := by
      intro i
      rw [List.getD_eq_getElem?_getD, List.getD_eq_getElem?_getD, List.getElem?_map]
      cases L[i]? <;> rfl
    have hS : ∀ i, ∀ l ∈ L.getD i [], S l := by
      intro i l hl
      rw [List.getD_eq_getElem?_getD] at hl
      cases e : L[i]? with
      | none => rw [e] at hl; cases hl
      | some ls => rw [e] at hl; exact h ls (List.mem_of_getElem? e) l hl
    have hf : ∀ i j, ((L.getD i []).map f).filter (fun m => decide (∀ l ∈ (L.getD j []).map f, st1.partner m ≠ some l)) =
        ((L.getD i []).filter fun m => decide (∀ l ∈ L.getD j [], st.partner m ≠ some l)).map f := by
      intro i j
      refine filter_copy fun l hl => ?_
      apply Bool.decide_congr
      rw [List.forall_mem_map]
      exact forall₂_congr fun m hm => not_congr (hp l m (hS i l hl) (hS j m hm))
    have hdim : ∀ ls : List LegId, (∀ l ∈ ls, S l) → (ls.map f).map st1.dim = ls.map st.dim := by
      intro ls hls
      rw [List.map_map]
      exact List.map_congr_left fun l hl => hd l (hls l hl)
    show pairCost st1 _ _ + seqCost st1 _ seq = pairCost st _ _ + seqCost st _ seq
    rw [hg, hg]
    congr 1
    · unfold pairCost
      rw [hf, hdim _ (hS s), hdim]
      exact fun l hl => hS t l (List.mem_of_mem_filter hl)
    · have : mergeLegLists st1 ((L.getD s []).map f) ((L.getD t []).map f) = (mergeLegLists st (L.getD s []) (L.getD t [])).map f := by
        unfold mergeLegLists
        rw [hf, hf, List.map_append]
      rw [this, ← List.map_set (f := fun ls : List LegId => ls.map f)]
      refine seqCost_copy hd hp seq _ ?_
      intro ls hls l hl
      rcases List.mem_or_eq_of_mem_set hls with hls | rfl
      · exact h ls hls l hl
      · unfold mergeLegLists at hl
        rcases List.mem_append.mp hl with hl | hl
        · exact hS s l (List.mem_of_mem_filter hl)
        · exact hS t l (List.mem_of_mem_filter hl)

/-- The contraction of the copies: what it costs and what becomes of the store. -/
theorem copied_cost [CommSemiring R] (rand : List Nat → List Nat → R) (cast : R → R) {st : Store} {ts : List (Tensor R)} (h : Contractable st ts)
    {seq : List (Nat × Nat)} (hv : ValidSeq ts.length seq) {st' : Store} {t : Tensor R} {c : Nat}
    (e : contractCopied rand cast st ts seq = .ok (st', t, c)) :
    c = seqCost st (ts.map fun t => t.legs) seq ∧ WFStore st' ∧ st.nextLeg ≤ st'.nextLeg := by
  obtain ⟨st1, cs, e1, copies, links, inner, ids, nodup, old, wf⟩ := C12_copyTensorList_partial rand h.list false
  unfold contractCopied at e
  rw [e1] at e
  have e : contractInPlace cast st1 cs seq = .ok (st', t, c) := e
  have hlen := copies.length_eq
  -- the copy of a leg
  let f : LegId → LegId := fun l => (((twinLegs ts cs).find? fun p => p.1 == l).map Prod.snd).getD 0
  have fp : ∀ i p l, legOf ts i p = some l → legOf cs i p = some (f l) := by
    intro i p l hl
    obtain ⟨n, hn, -⟩ := (twins_place copies i p).1 l hl
    have hm : (l, n) ∈ twinLegs ts cs := mem_twinLegs.mpr ⟨i, p, hl, hn⟩
    show _ = some ((((twinLegs ts cs).find? fun p => p.1 == l).map Prod.snd).getD 0)
    cases hf : (twinLegs ts cs).find? fun p => p.1 == l with
    | none =>
      have := List.find?_eq_none.mp hf _ hm
      simp at this
    | some q =>
      have h1 := List.find?_some hf
      have h2 := List.mem_of_find?_eq_some hf
      obtain ⟨l', n'⟩ := q
      simp only [beq_iff_eq] at h1
      subst h1
      obtain ⟨j, q, b1, b2⟩ := mem_twinLegs.mp h2
      obtain ⟨rfl, rfl⟩ := legOf_inj h.closed.nodup hl b1
      exact b2
  have legs : (cs.map fun t => t.legs) = (ts.map fun t => t.legs).map fun ls => ls.map f := by
    apply List.ext_getElem (by simp [hlen])
    intro i h1 h2
    simp only [List.length_map] at h1 h2
    simp only [List.getElem_map]
    have P := (List.forall₂_iff_get.mp copies).2 i h2 h1
    simp only [List.get_eq_getElem] at P
    have hl : cs[i].legs.length = ts[i].legs.length := by simpa using congrArg List.length P.dims
    apply List.ext_getElem (by simp [hl])
    intro p q1 q2
    have a : legOf ts i p = some (ts[i].legs[p]'(hl ▸ q1)) := legOf_some.mpr ⟨ts[i], by simp [h2], by simp [hl ▸ q1]⟩
    obtain ⟨c', hc', hp'⟩ := legOf_some.mp (fp i p _ a)
    rw [List.getElem?_eq_getElem h1] at hc'
    obtain rfl := Option.some.inj hc'
    rw [List.getElem?_eq_getElem q1] at hp'
    rw [List.getElem_map]
    exact Option.some.inj hp'
  have back : ∀ d ∈ cs, ∀ n ∈ d.legs, ∃ i p l, legOf ts i p = some l ∧ n = f l := by
    intro d hd n hn
    obtain ⟨i, p, e⟩ := mem_legOf hd hn
    obtain ⟨l, e'⟩ := (twins_place copies i p).2 n e
    exact ⟨i, p, l, e', Option.some.inj (e.symm.trans (fp i p l e'))⟩
  have hdim : ∀ l, (∃ t ∈ ts, l ∈ t.legs) → st1.dim (f l) = st.dim l := by
    rintro l ⟨t, ht, hl⟩
    obtain ⟨i, p, e⟩ := mem_legOf ht hl
    obtain ⟨n, hn, h1, -⟩ := (twins_place copies i p).1 l e
    rw [fp i p l e] at hn
    obtain rfl := Option.some.inj hn
    exact h1
  have g : GoodNet st1 cs := by
    refine ⟨wf.inv, fun c hc => ?_, nodup⟩
    obtain ⟨t, ht, P⟩ := forall₂_right copies c hc
    obtain ⟨gt, dt⟩ := h.good t ht
    obtain ⟨arr, a1, a2, a3, _⟩ := gt.data
    refine ⟨(List.nodup_flatMap.mp nodup).1 c hc, by rw [P.like, gt.notLike]; rfl, arr, P.data.trans (by simpa using a1), a2, ?_, ?_⟩
    · intro _
      rw [P.dims]
      exact a3 dt
    · intro hh
      rw [P.diag, dt] at hh
      cases hh
  have dense : ∀ c ∈ cs, c.diag = false := by
    intro c hc
    obtain ⟨t, ht, P⟩ := forall₂_right copies c hc
    rw [P.diag, (h.good t ht).2]
  have pos : ∀ k k', st1.partner k = some k' → Cross cs k k' → st1.dim k ≠ 0 := by
    rintro k k' - ⟨⟨d, hd, hk, -⟩, -⟩
    obtain ⟨i, p, l, e, rfl⟩ := back d hd k hk
    obtain ⟨u, hu, hl⟩ := legOf_mem e
    rw [hdim l ⟨u, hu, hl⟩]
    exact h.pos u hu l hl
  obtain ⟨st2, t2, e2⟩ := C08_incurred_cost cast g pos dense (hlen ▸ hv)
  obtain ⟨st3, t3, c3, e3, same, -⟩ := C03_any_valid_sequence cast g pos (hlen ▸ hv) (Or.inl dense)
  refine ⟨?_, ?_, ?_⟩
  · rw [e] at e2
    cases e2
    rw [legs]
    refine seqCost_copy (S := fun l => ∃ t ∈ ts, l ∈ t.legs) hdim ?_ seq _ ?_
    · rintro l m ⟨t, ht, hl⟩ ⟨u, hu, hm⟩
      obtain ⟨i, p, a⟩ := mem_legOf ht hl
      obtain ⟨j, q, b⟩ := mem_legOf hu hm
      exact links i p j q l m _ _ a b (fp i p l a) (fp j q m b)
    · intro ls hls l hl
      obtain ⟨t, ht, rfl⟩ := List.mem_map.mp hls
      exact ⟨t, ht, hl⟩
  · rw [e] at e3
    cases e3
    exact same.wf wf
  · rw [e] at e3
    cases e3
    rw [same.nextLeg]
    cases ts with
    | nil => exact absurd rfl h.nonempty
    | cons t ts =>
      cases cs with
      | nil => cases hlen
      | cons c cs =>
        have P := (List.forall₂_cons.mp copies).1
        obtain ⟨l, hl⟩ := List.exists_mem_of_ne_nil _ (h.legs t (by simp))
        have hne : c.legs ≠ [] := by
          intro e0
          have := P.dims
          rw [e0] at this
          have : t.legs = [] := by simpa using this.symm
          exact h.legs t (by simp) this
        obtain ⟨n, hn⟩ := List.exists_mem_of_ne_nil _ hne
        obtain ⟨h1, h2, -⟩ := P.newLegs n hn
        exact le_of_lt (lt_of_le_of_lt h1 h2)

/-- The result of contracting the network `ts`: a new tensor, whose legs stand for the free legs of the network (with their names and dimensions)
and whose entries are the sums over all bonds; all legs and links that there were are as before. -/
structure ContractedTo [CommSemiring R] (st : Store) (ts : List (Tensor R)) (st' : Store) (t : Tensor R) (copyOf : LegId → LegId) : Prop where
  good : GoodTensor st' t
  wf : WFStore st'
  grows : st.nextLeg ≤ st'.nextLeg
  kept : InputsKept st st'
  inj : ∀ l, FreeLeg st ts l → ∀ m, FreeLeg st ts m → copyOf l = copyOf m → l = m
  legs : ∀ n, n ∈ t.legs ↔ ∃ l, FreeLeg st ts l ∧ copyOf l = n
  new : ∀ l, FreeLeg st ts l → st.nextLeg ≤ copyOf l ∧ st'.name (copyOf l) = st.name l ∧ st'.dim (copyOf l) = st.dim l
  value : ∀ ps, IsBondList st ts ps → ∀ τ : Assign, (∀ n ∈ t.legs, τ n < st'.dim n) → entry t τ = netSum st ts ps fun l => τ (copyOf l)

/-- C62: `contractAndCostWithSequence` with `inplace = False`, whatever sequence is given or found: the network sum on new legs, at the cost of
the sequence, which is the reported one for real dimensions. -/
theorem C62_sequence [CommSemiring R] (rand : List Nat → List Nat → R) (cast : R → R) {st : Store} {ts : List (Tensor R)} (h : Contractable st ts)
    (mode : Mode) (typ : Option Nat) (fuel : Nat) :
    (∀ q, ValidSeq ts.length q → ∃ st' t, ∃ copyOf : LegId → LegId,
      contractAndCostWithSequence rand cast st ts (some q) mode typ false fuel = some (.ok (st', t, seqCost st (ts.map fun t => t.legs) q)) ∧
      ContractedTo st ts st' t copyOf) ∧
    ∀ cost q, generateSequence st ts mode typ fuel = some (.ok (cost, q)) → ∃ st' t k, ∃ copyOf : LegId → LegId,
      contractAndCostWithSequence rand cast st ts none mode typ false fuel = some (.ok (st', t, k)) ∧
      ContractedTo st ts st' t copyOf ∧ ((mode ≠ .greedy → typ = none) → k = cost) := by
  have hpos : ∀ l m, st.partner l = some m → Cross ts l m → st.dim l ≠ 0 := by
    rintro l m - ⟨⟨t, ht, hl, -⟩, -⟩
    exact h.pos t ht l hl
  have key : ∀ q, ValidSeq ts.length q → ∃ st' t, ∃ copyOf : LegId → LegId,
      contractCopied rand cast st ts q = .ok (st', t, seqCost st (ts.map fun t => t.legs) q) ∧ ContractedTo st ts st' t copyOf := by
    intro q hv
    obtain ⟨st', t, c, copyOf, e, h1, h2, h3, h4, h5, h6⟩ := C12_contract_copied rand cast h.list h.good hpos hv
    obtain ⟨rfl, wf, gr⟩ := copied_cost rand cast h hv e
    exact ⟨st', t, copyOf, e, h1, wf, gr, h2, h3, h4, h5, h6⟩
  refine ⟨fun q hv => ?_, fun cost q hq => ?_⟩
  · obtain ⟨st', t, copyOf, e, hc⟩ := key q hv
    exact ⟨st', t, copyOf, congrArg some e, hc⟩
  · obtain ⟨hv, hcost⟩ := generate_spec h.closed (fun t ht => (h.good t ht).2) h.nonempty hq
    obtain ⟨st', t, copyOf, e, hc⟩ := key q hv
    refine ⟨st', t, _, copyOf, ?_, hc, fun ht => hcost (fun _ => h.pos) ht⟩
    unfold contractAndCostWithSequence
    rw [hq]
    exact congrArg some e

/-- C62: `contractTensorList` returns on every such network, after finitely many rounds of the search. -/
theorem C62_contractTensorList [CommSemiring R] (rand : List Nat → List Nat → R) (cast : R → R) {st : Store} {ts : List (Tensor R)}
    (h : Contractable st ts) : ∃ rounds, ∀ fuel, rounds ≤ fuel → ∃ st' t, ∃ copyOf : LegId → LegId,
      contractTensorList rand cast st ts fuel = some (.ok (st', t)) ∧ ContractedTo st ts st' t copyOf := by
  obtain ⟨rounds, hr⟩ := capping_returns h.closed (fun t ht => (h.good t ht).2) h.nonempty h.pos h.legs (typ := some 10) (by simp)
  refine ⟨rounds, fun fuel hf => ?_⟩
  obtain ⟨cost, q, hq⟩ := hr fuel hf
  obtain ⟨st', t, k, copyOf, e, hc, -⟩ := (C62_sequence rand cast h .capping (some 10) fuel).2 cost q hq
  refine ⟨st', t, copyOf, ?_, hc⟩
  unfold contractTensorList contractWithSequence
  rw [show (if false = true then Mode.bruteForce else Mode.capping) = Mode.capping from rfl, e]
  rfl

/-- C62: afterwards the tensors are the same network as before, so it can be contracted again, with the same result. -/
theorem C62_again [CommSemiring R] {st : Store} {ts : List (Tensor R)} (h : Contractable st ts) {st' : Store} {t : Tensor R}
    {copyOf : LegId → LegId} (hc : ContractedTo st ts st' t copyOf) :
    Contractable st' ts ∧ (∀ l, FreeLeg st' ts l ↔ FreeLeg st ts l) ∧ ∀ ps, IsBondList st ts ps → IsBondList st' ts ps ∧
      ∀ σ, netSum st' ts ps σ = netSum st ts ps σ := by
  have hleg : ∀ u ∈ ts, ∀ l ∈ u.legs, st'.leg l = st.leg l := fun u hu l hl => hc.kept.leg l (h.known u hu l hl)
  have hdim : ∀ u ∈ ts, ∀ l ∈ u.legs, st'.dim l = st.dim l := fun u hu l hl => by
    unfold Store.dim
    rw [hleg u hu l hl]
  have hpart : ∀ u ∈ ts, ∀ l ∈ u.legs, st'.partner l = st.partner l := fun u hu l hl => hc.kept.partner l (h.known u hu l hl)
  have hmap : ∀ u ∈ ts, u.legs.map st'.dim = u.legs.map st.dim := fun u hu => List.map_congr_left (hdim u hu)
  refine ⟨⟨hc.wf, ⟨hc.wf.inv, h.closed.nodup, h.closed.ids, ?_, ?_⟩, ?_, ?_, ?_, h.legs, h.nonempty⟩, ?_, ?_⟩
  · intro u hu l hl
    rw [hleg u hu l hl]
    exact h.closed.owner u hu l hl
  · intro u hu l hl m hm
    rw [hpart u hu l hl] at hm
    exact h.closed.inside u hu l hl m hm
  · intro u hu
    obtain ⟨g, d⟩ := h.good u hu
    obtain ⟨arr, a1, a2, a3, -⟩ := g.data
    refine ⟨⟨g.nodup, g.notLike, arr, a1, a2, fun e => ?_, fun e => ?_⟩, d⟩
    · rw [hmap u hu]; exact a3 e
    · rw [d] at e; cases e
  · exact fun u hu l hl => lt_of_lt_of_le (h.known u hu l hl) hc.grows
  · intro u hu l hl
    rw [hdim u hu l hl]
    exact h.pos u hu l hl
  · intro l
    constructor
    · rintro ⟨⟨u, hu, hl⟩, h2⟩
      exact ⟨⟨u, hu, hl⟩, by rw [← hpart u hu l hl]; exact h2⟩
    · rintro ⟨⟨u, hu, hl⟩, h2⟩
      exact ⟨⟨u, hu, hl⟩, by rw [hpart u hu l hl]; exact h2⟩
  · intro ps hps
    refine ⟨⟨hps.once, fun l m => ?_⟩, fun σ => ?_⟩
    · rw [hps.exact]
      refine and_congr_left fun hx => ?_
      obtain ⟨⟨u, hu, hl, -⟩, -⟩ := hx
      rw [hpart u hu l hl]
    · have hin : ∀ p ∈ ps, st'.dim p.1 = st.dim p.1 := by
        intro p hp
        obtain ⟨-, ⟨u, hu, hl, -⟩, -⟩ := (hps.exact p.1 p.2).mp (Or.inl hp)
        exact hdim u hu _ hl
      unfold netSum
      clear hps
      generalize (fun τ => (ts.map fun t => entry t τ).prod) = F
      induction ps generalizing σ with
      | nil => rfl
      | cons p ps ih =>
        obtain ⟨l, m⟩ := p
        show ((List.range (st'.dim l)).map _).sum = ((List.range (st.dim l)).map _).sum
        rw [hin (l, m) (by simp)]
        congr 1
        exact List.map_congr_left fun k _ => ih _ fun q hq => hin q (by simp [hq])

/-- The network of three tensors of C03. -/
theorem triNet_contractable : Contractable triStore triNet where
  wf := triStore_wf
  closed := triNet_closed
  good := by
    intro t ht
    refine ⟨triNet_good.good t ht, ?_⟩
    revert t
    decide
  known := by decide
  pos := by decide
  legs := by decide
  nonempty := by decide

example : Contractable triStore triNet ∧ ValidSeq triNet.length [(1, 2), (0, 1)] ∧
    generateSequence triStore triNet .capping none 10 = some (.ok (20, [(1, 2), (0, 1)])) :=
  ⟨triNet_contractable, by decide, by decide +kernel⟩

/-- The result of contracting it. -/
example : ∃ fuel st' t copyOf, contractTensorList (fun _ _ => 0) id triStore triNet fuel = some (.ok (st', t)) ∧
    ContractedTo triStore triNet st' t copyOf := by
  obtain ⟨rounds, h⟩ := C62_contractTensorList (fun _ _ => 0) id triNet_contractable
  obtain ⟨st', t, copyOf, h1, h2⟩ := h rounds (le_refl _)
  exact ⟨rounds, st', t, copyOf, h1, h2⟩

end CTL
