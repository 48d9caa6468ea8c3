import Verif.Lemmas.CreateAll
import Verif.Props.Copy

/-! # C48: contracting a network by matrix product states -/

namespace CTL
variable {R : Type}

section
variable [Field R] [StarRing R] {la : LinAlg R} {chi D : Nat} {N : List (Tensor R)} {st : Store} {a b : MPS R}
  {PA PB : List LegId}

private theorem duo_of (s : OwnedNet st (N ++ (a.tensors ++ b.tensors))) (dense : ∀ t ∈ N ++ (a.tensors ++ b.tensors), t.diag = false)
    (v : Live st (N ++ (a.tensors ++ b.tensors))) : Duo st N a.tensors b.tensors := ⟨s.sound dense, v⟩

private theorem OwnedNet.of {st : Store} {L : List (Tensor R)} (s : Sound st L) : OwnedNet st L := ⟨s.wf, s.good, s.owned, s.inside⟩

/-- `doubleMerge` replaces two bonds between two neighbouring pairs of sites of two chains in a network by one. -/
theorem C48_doubleMerge (hla : GoodAlg la) (cast castF : R → R) (s : OwnedNet st (N ++ (a.tensors ++ b.tensors)))
    (dense : ∀ t ∈ N ++ (a.tensors ++ b.tensors), t.diag = false) (v : Live st (N ++ (a.tensors ++ b.tensors)))
    (CA : IsChain st a.tensors PA) (CB : IsChain st b.tensors PB) (ca : a.chi = chi) (cb : b.chi = chi) {i j : Nat}
    (hi : i + 1 < PA.length) (hj : j + 1 < PB.length) {w0 w1 : LegId} (k0 : st.partner (PA.getD i 0) = some w0)
    (k1 : st.partner (PA.getD (i + 1) 0) = some w1) (w : [w0, w1].Perm [PB.getD j 0, PB.getD (j + 1) 0])
    (wA : Within st a.tensors D) (wB : Within st b.tensors D)
    (big : st.dim (PA.getD i 0) * st.dim (PA.getD (i + 1) 0) ≤ D) (hD : D ≤ chi) :
    ∃ st' a' b' c x y, doubleMerge la cast castF st a b i j = .ok (st', a', b', c) ∧
      SameValue st (N ++ (a.tensors ++ b.tensors)) st' (N ++ (a'.tensors ++ b'.tensors)) ∧
      OwnedNet st' (N ++ (a'.tensors ++ b'.tensors)) ∧ (∀ t ∈ a'.tensors ++ b'.tensors, t.diag = false) ∧
      IsChain st' a'.tensors (PA.take i ++ x :: PA.drop (i + 2)) ∧ IsChain st' b'.tensors (PB.take j ++ y :: PB.drop (j + 2)) ∧
      st'.partner x = some y ∧ (st'.leg x).bond = some c ∧ a'.chi = chi ∧ b'.chi = chi ∧
      Within st' a'.tensors D ∧ Within st' b'.tensors D := by
  have d := duo_of s dense v
  obtain ⟨st', a', b', c, x, y, e, f, C1, C2, k, hb, -, -, h⟩ := doubleMerge_step hla cast castF d CA CB ca cb
    (by rw [← CA.length_eq]; exact hi) (by rw [← CB.length_eq]; exact hj) k0 k1 w wA wB big hD
  have F := f.frame d.sound
  exact ⟨st', a', b', c, x, y, e, F.same, .of (F.sound d.sound), f.dense, C1, C2, k, hb, h⟩

/-- `mergeMPS` leaves one bond between two chains of a network. -/
theorem C48_mergeMPS (hla : GoodAlg la) (cast castF : R → R) (s : OwnedNet st (N ++ (a.tensors ++ b.tensors)))
    (dense : ∀ t ∈ N ++ (a.tensors ++ b.tensors), t.diag = false) (v : Live st (N ++ (a.tensors ++ b.tensors)))
    (CA : IsChain st a.tensors PA) (CB : IsChain st b.tensors PB) (ca : a.chi = chi) (cb : b.chi = chi)
    (wA : Within st a.tensors D) (wB : Within st b.tensors D) (h1 : 1 ≤ D) (big : D ^ (2 ^ (cnt st PA PB - 1)) ≤ chi)
    {flag : Bool} (few : flag = true ∨ cnt st PA PB ≤ 2) :
    ∃ st' a' b' PA' PB', mergeMPS la cast castF st a b flag = .ok (st', a', b') ∧
      SameValue st (N ++ (a.tensors ++ b.tensors)) st' (N ++ (a'.tensors ++ b'.tensors)) ∧
      OwnedNet st' (N ++ (a'.tensors ++ b'.tensors)) ∧ (∀ t ∈ a'.tensors ++ b'.tensors, t.diag = false) ∧
      IsChain st' a'.tensors PA' ∧ IsChain st' b'.tensors PB' ∧ cnt st' PA' PB' = min (cnt st PA PB) 1 ∧
      PA'.length + (cnt st PA PB - 1) = PA.length ∧ PB'.length + (cnt st PA PB - 1) = PB.length ∧ a'.chi = chi ∧ b'.chi = chi ∧
      Within st' a'.tensors (D ^ (2 ^ (cnt st PA PB - 1))) ∧ Within st' b'.tensors (D ^ (2 ^ (cnt st PA PB - 1))) := by
  have d := duo_of s dense v
  obtain ⟨st', a', b', PA', PB', e, f, C1, C2, one, -, -, h⟩ := mergeMPS_step hla cast castF d CA CB ca cb wA wB h1 big few
  have F := f.frame d.sound
  exact ⟨st', a', b', PA', PB', e, F.same, .of (F.sound d.sound), f.dense, C1, C2, one, h⟩

/-- Later calls of `mergeMPS` refuse chains with three or more common bonds. -/
theorem C48_mergeMPS_refused (la : LinAlg R) (cast castF : R → R) (s : OwnedNet st (N ++ (a.tensors ++ b.tensors)))
    (dense : ∀ t ∈ N ++ (a.tensors ++ b.tensors), t.diag = false) (v : Live st (N ++ (a.tensors ++ b.tensors)))
    (CA : IsChain st a.tensors PA) (CB : IsChain st b.tensors PB) (many : 2 < cnt st PA PB) :
    mergeMPS la cast castF st a b false = .error .assertionError := by
  have d := duo_of s dense v
  obtain ⟨_, _, CA⟩ := CA
  obtain ⟨_, _, CB⟩ := CB
  unfold cnt at many
  rw [List.countP_eq_length_filter] at many
  unfold mergeMPS
  simp only [d.commonBonds_eq CA CB, bind, Except.bind, List.length_map]
  rw [if_neg (by omega), show decide ((PA.filter (meets st PB)).length = 2) = false from decide_eq_false (by omega)]
  rfl

/-- `contractMPS` contracts two chains of a network with one bond between them. -/
theorem C48_contractMPS (hla : GoodAlg la) (cast castF : R → R) (s : OwnedNet st (N ++ (a.tensors ++ b.tensors)))
    (dense : ∀ t ∈ N ++ (a.tensors ++ b.tensors), t.diag = false) (v : Live st (N ++ (a.tensors ++ b.tensors)))
    (CA : IsChain st a.tensors PA) (CB : IsChain st b.tensors PB) (ca : a.chi = chi) (cb : b.chi = chi)
    (wA : Within st a.tensors D) (wB : Within st b.tensors D) (h1 : 1 ≤ D) (big : D * D ≤ chi) (one : cnt st PA PB = 1) :
    ∃ st' c p q RA RB, contractMPS la cast castF st a b = .ok (st', c) ∧ PA.Perm (p :: RA) ∧ PB.Perm (q :: RB) ∧
      st.partner p = some q ∧ ∃ us, SameValue st (N ++ (a.tensors ++ b.tensors)) st' (N ++ us) ∧ OwnedNet st' (N ++ us) ∧
      (∀ t ∈ us, t.diag = false) ∧
      ((RA = [] ∧ RB = [] ∧ ∃ t, c = .tensor t ∧ us = [t] ∧ t.legs = []) ∨
       (0 < RA.length + RB.length ∧ ∃ m, c = .mps m ∧ us = m.tensors ∧ IsChain st' m.tensors (RA ++ RB) ∧ m.chi = chi ∧
        Within st' m.tensors (D * D))) := by
  have d := duo_of s dense v
  obtain ⟨st', p, q, RA, RB, pA, pB, k, ⟨h1, h2, t, e, f, l0⟩ | ⟨h1, m, e, f, C, cm, W⟩⟩ :=
    contractMPS_step hla.exact hla.rank cast castF d CA CB ca cb wA wB h1 big one
  · have F := f.frame d.sound
    exact ⟨st', _, p, q, RA, RB, e, pA, pB, k, [t], F.same, .of (F.sound d.sound), f.dense, .inl ⟨h1, h2, t, rfl, rfl, l0⟩⟩
  · have F := f.frame d.sound
    exact ⟨st', _, p, q, RA, RB, e, pA, pB, k, _, F.same, .of (F.sound d.sound), f.dense, .inr ⟨h1, m, rfl, rfl, C, cm, W⟩⟩

/-- `contractMPS` refuses chains with no bond or with several bonds between them. -/
theorem C48_contractMPS_refused (la : LinAlg R) (cast castF : R → R) (s : OwnedNet st (N ++ (a.tensors ++ b.tensors)))
    (dense : ∀ t ∈ N ++ (a.tensors ++ b.tensors), t.diag = false) (v : Live st (N ++ (a.tensors ++ b.tensors)))
    (CA : IsChain st a.tensors PA) (CB : IsChain st b.tensors PB) (not1 : cnt st PA PB ≠ 1) :
    contractMPS la cast castF st a b = .error .assertionError := by
  have d := duo_of s dense v
  obtain ⟨_, _, CA⟩ := CA
  obtain ⟨_, _, CB⟩ := CB
  obtain ⟨l, e0, hl, -⟩ := d.commonLegs_eq CA CB
  have hlen : l.length ≠ 1 := by
    intro h
    apply not1
    unfold cnt
    rw [List.countP_eq_length_filter, ← hl, List.length_map, h]
  unfold contractMPS
  simp only [e0, bind, Except.bind]
  match l, hlen with
  | [], _ => rfl
  | [_], h => exact absurd rfl h
  | _ :: _ :: _, _ => rfl

end

/-- In a chain the free legs are the physical ones that are not joined. -/
theorem Chain.free_mem [Zero R] {st : Store} {ts : List (Tensor R)} {phys : List LegId} {lft rgt : Nat → LegId}
    (C : Chain st ts phys lft rgt) {l : LegId} (h : FreeLeg st ts l) : l ∈ phys := by
  obtain ⟨⟨t, ht, hl⟩, no⟩ := h
  obtain ⟨i, hi, rfl⟩ := List.getElem_of_mem ht
  have g := C.goodNet
  have site : ∀ j (hj : j < ts.length), ∀ m, m ∈ (ts[j]).legs ↔ m ∈ siteLegs ts.length phys lft rgt j := fun j hj m =>
    (C.legs j _ (List.getElem?_eq_getElem hj)).mem_iff
  have key : ∀ m, st.partner l = some m → ∀ j, j ≠ i → ∀ hj : j < ts.length, m ∈ (ts[j]).legs → False := by
    intro m k j hne hj hm
    refine no m k ⟨⟨_, List.getElem_mem hi, hl, ?_⟩, _, List.getElem_mem hj, hm⟩
    intro hm'
    exact C.disj i hi j hj (Ne.symm hne) m ((site i hi m).mp hm') ((site j hj m).mp hm)
  rcases Chain.mem_siteLegs.mp ((site i hi l).mp hl) with rfl | ⟨h, rfl⟩ | ⟨h, rfl⟩
  · exact (Chain.mem_phys C.len).mpr ⟨i, hi, rfl⟩
  · exfalso
    exact key _ (C.joined i h) (i + 1) (by omega) h ((site _ h _).mpr (Chain.mem_siteLegs.mpr (.inr (.inr ⟨by omega, rfl⟩))))
  · exfalso
    obtain ⟨k, rfl⟩ : ∃ k, i = k + 1 := ⟨i - 1, by omega⟩
    exact key _ (partner_symm C.wf.inv (C.joined k hi)) k (by omega) (by omega)
      ((site _ (by omega) _).mpr (Chain.mem_siteLegs.mpr (.inr (.inl ⟨hi, rfl⟩))))

theorem Sound.tensorList {st : Store} {L : List (Tensor R)} (s : Sound st L) : TensorList st L := by
  refine ⟨s.wf, ?_, s.owned.ids, s.owned.legs, ?_⟩
  · intro t ht
    obtain ⟨nd, nl, arr, h1, -, h2, -⟩ := s.good t ht
    have d := s.dense t ht
    exact ⟨nd, fun h => (by rw [nl] at h; cases h), fun _ => ⟨arr, h1, h2, fun h => (by rw [d] at h; cases h)⟩,
      fun h => (by rw [d] at h; cases h)⟩
  · intro t ht l hl m hm u hu e
    obtain ⟨-, u', hu', hmu⟩ := s.inside t ht l hl m hm
    have e' := (s.owned.legs u' hu' m hmu).2
    have : u.id = u'.id := Option.some.inj (e.symm.trans e')
    rw [show u = u' from List.inj_on_of_nodup_map s.owned.ids hu hu' this]
    exact hmu

section
variable [Field R] [StarRing R] {la : LinAlg R} {castF : R → R} {chi W : Nat} {st : Store} {ts : List (Tensor R)}

private theorem width_pos (s : OwnedNet st ts) (v : Live st ts) (ne : ts ≠ []) (hW : ∀ t ∈ ts, (t.legs.map st.dim).prod ≤ W) : 1 ≤ W := by
  obtain ⟨t, ht⟩ := List.exists_mem_of_ne_nil _ ne
  refine le_trans (Nat.succ_le_of_lt (List.prod_pos fun x hx => ?_)) (hW t ht)
  obtain ⟨y, hy, rfl⟩ := List.mem_map.mp hx
  exact v.pos s.goodNet t ht y hy

/-- With room for all bond dimensions, `contractWithMPS` returns the value of the network. -/
theorem C48_contractWithMPS (hla : GoodAlg la) (rand : List Nat → List Nat → R) (cast : R → R)
    {order : Store → List (Tensor R) → List (Nat × Nat)} (ho : ∀ st us, us ≠ [] → ValidSeq us.length (order st us))
    (s : OwnedNet st ts) (v : Live st ts) (ne : ts ≠ []) (h1 : ∀ t ∈ ts, t.legs ≠ [])
    (h2 : ∀ t ∈ ts, t.diag = true → 2 ≤ t.legs.length ∧ ∀ x, castF x = x)
    (hW : ∀ t ∈ ts, (t.legs.map st.dim).prod ≤ W) (hchi : W ^ 2 ^ (ts.map fun t => t.legs.length).sum ≤ chi)
    {seq : List (Nat × Nat)} (hv : ValidSeq ts.length seq) (hl : LinkedSeq st ts seq) :
    ∃ st' t, ∃ copyOf : LegId → LegId, contractWithMPS la rand cast castF order chi st ts seq = .ok (st', t) ∧ GoodTensor st' t ∧
      (∀ l, FreeLeg st ts l → ∀ m, FreeLeg st ts m → copyOf l = copyOf m → l = m) ∧
      (∀ n, n ∈ t.legs ↔ ∃ l, FreeLeg st ts l ∧ copyOf l = n) ∧
      (∀ l, FreeLeg st ts l → st.nextLeg ≤ copyOf l ∧ st'.name (copyOf l) = "o" ∧ st'.dim (copyOf l) = st.dim l) ∧
      ∀ ps, IsBondList st ts ps → ∀ τ : Assign, (∀ n ∈ t.legs, τ n < st'.dim n) →
        entry t τ = netSum st ts ps (fun l => τ (copyOf l)) := by
  obtain ⟨st1, ms, P, e, F, r, gone, x, hx, px⟩ := runMPS_step hla cast s v (fun t ht hd => (h2 t ht hd).2) h1
    (fun t ht hd => (h2 t ht hd).1) (width_pos s v ne hW) hW hchi ne hv hl
  match ms, hx with
  | x :: rest, rfl =>
  have fl : flat (x :: rest) = x.sites := by
    have : rest.flatMap Slot.sites = [] := by
      rw [List.flatMap_eq_nil_iff]
      intro y hy
      obtain ⟨i, hi, rfl⟩ := List.getElem_of_mem hy
      have := gone (i + 1) (by omega)
      rw [List.getD_cons_succ, List.getD_eq_getElem _ _ hi] at this
      rw [this]; rfl
    unfold flat
    rw [List.flatMap_cons, this, List.append_nil]
  rw [fl] at F
  have S := r.sound
  have V := r.live
  rw [fl] at S V
  have ok := r.slot 0
  match x, px with
  | .mps m, _ =>
    have F : Step st ts st1 m.tensors := F
    have S : Sound st1 m.tensors := S
    have V : Live st1 m.tensors := V
    obtain ⟨⟨lf, rg, C⟩, -, nem⟩ : IsChain st1 m.tensors (P 0) ∧ m.chi = (chi : Int) ∧ m.tensors ≠ [] := ok
    obtain ⟨st2, t, c, copyOf, e2, g2, -, inj, legs, new, val⟩ := C12_contract_copied rand cast S.tensorList
      (fun t ht => ⟨S.good t ht, S.dense t ht⟩) (by
        rintro l m' - ⟨⟨t, ht, hlt, -⟩, -⟩
        exact (V.pos S.goodNet t ht l hlt).ne') (ho st1 m.tensors nem)
    refine ⟨st2, t, copyOf, ?_, g2, ?_, ?_, ?_, ?_⟩
    · simp only [contractWithMPS, e, bind, Except.bind, e2]
      rfl
    · exact fun l hl m' hm => inj l ((F.same.free l).mpr hl) m' ((F.same.free m').mpr hm)
    · intro n
      rw [legs]
      simp only [F.same.free]
    · intro l hl
      have hl' := (F.same.free l).mpr hl
      obtain ⟨n1, n2, n3⟩ := new l hl'
      exact ⟨F.trail.nextLeg.trans n1, n2.trans (C.nameP l (C.free_mem hl')), n3.trans (F.same.dims l hl)⟩
    · intro ps hps τ hτ
      obtain ⟨ps', hps'⟩ := exists_bondList F.same.good'
      rw [val ps' hps' τ hτ]
      refine F.same.value ps ps' hps hps' _ fun l hl => ?_
      have hl' := (F.same.free l).mpr hl
      rw [← F.same.dims l hl, ← (new l hl').2.2]
      exact hτ _ ((legs _).mpr ⟨l, hl', rfl⟩)
  | .tensor t, _ =>
    have F : Step st ts st1 [t] := F
    obtain ⟨l0, -⟩ : t.legs = [] ∧ P 0 = [] := ok
    have none : ∀ l, ¬ FreeLeg st ts l := by
      intro l hl
      obtain ⟨⟨u, hu, hlu⟩, -⟩ := (F.same.free l).mpr hl
      rw [List.mem_singleton.mp hu, l0] at hlu
      cases hlu
    refine ⟨st1, t, id, ?_, F.same.good'.good t (by simp), fun l hl => absurd hl (none l), ?_, fun l hl => absurd hl (none l), ?_⟩
    · simp only [contractWithMPS, e, bind, Except.bind]
      rfl
    · intro n
      rw [l0]
      exact ⟨fun h => (by cases h), fun ⟨l, hl, _⟩ => absurd hl (none l)⟩
    · intro ps hps τ hτ
      obtain ⟨ps', hps'⟩ := exists_bondList F.same.good'
      rw [show (fun l => τ (id l)) = τ from rfl, ← F.same.value ps ps' hps hps' τ fun l hl => absurd hl (none l)]
      have : ps' = [] := by
        match ps', hps' with
        | [], _ => rfl
        | (p, q) :: _, hp =>
          obtain ⟨-, ⟨u, hu, hpu, -⟩, -⟩ := (hp.exact p q).mp (.inl (by simp))
          rw [List.mem_singleton.mp hu, l0] at hpu
          cases hpu
      subst this
      simp [netSum, sumBonds]

/-- A sequence with a step between two groups of tensors without a bond is refused. -/
theorem C48_contractWithMPS_unlinked (hla : GoodAlg la) (rand : List Nat → List Nat → R) (cast : R → R)
    (order : Store → List (Tensor R) → List (Nat × Nat))
    (s : OwnedNet st ts) (v : Live st ts) (ne : ts ≠ []) (h1 : ∀ t ∈ ts, t.legs ≠ [])
    (h2 : ∀ t ∈ ts, t.diag = true → 2 ≤ t.legs.length ∧ ∀ x, castF x = x)
    (hW : ∀ t ∈ ts, (t.legs.map st.dim).prod ≤ W) (hchi : W ^ 2 ^ (ts.map fun t => t.legs.length).sum ≤ chi)
    {seq : List (Nat × Nat)} (hv : ValidSeq ts.length seq) (hl : ¬ LinkedSeq st ts seq) :
    contractWithMPS la rand cast castF order chi st ts seq = .error .assertionError ∨
      contractWithMPS la rand cast castF order chi st ts seq = .error .attributeError := by
  obtain ⟨st2, ms2, P2, e2, F2, r2, T⟩ := runMPS_start hla cast s v (fun t ht hd => (h2 t ht hd).2) h1
    (fun t ht hd => (h2 t ht hd).1) (width_pos s v ne hW) hW hchi ne
  rcases contractLoop_fails hla cast castF (fun i j h => h.symm' s.wf.inv) seq r2 T hv hl with e | e
  · left
    simp only [contractWithMPS, e2, e, bind, Except.bind]
  · right
    simp only [contractWithMPS, e2, e, bind, Except.bind]

omit [StarRing R] in
theorem createAll_error {la : LinAlg R} {castF : R → R} {chi : Nat} {t : Tensor R} {post : List (Tensor R)} {e : PyErr}
    {st1 : Store} (h : createMPS la castF st1 t (some chi) = .error e) : ∀ (pre : List (Tensor R)) {st : Store} {ms : List (Slot R)},
    createAll la castF chi st pre = .ok (st1, ms) → createAll la castF chi st (pre ++ t :: post) = .error e
  | [], st, ms, h0 => by
    obtain ⟨rfl, -⟩ := Prod.mk.inj (Except.ok.inj h0)
    simp only [List.nil_append, createAll, h, bind, Except.bind]
  | u :: pre, st, ms, h0 => by
    rw [List.cons_append]
    unfold createAll at h0 ⊢
    cases h1 : createMPS la castF st u (some chi) with
    | error e' => rw [h1] at h0; cases h0
    | ok q =>
      obtain ⟨st2, m⟩ := q
      rw [h1] at h0
      simp only [bind, Except.bind] at h0 ⊢
      cases h2 : createAll la castF chi st2 pre with
      | error e' => rw [h2] at h0; cases h0
      | ok q =>
        obtain ⟨st3, ms'⟩ := q
        rw [h2] at h0
        simp only [pure, Except.pure, Except.ok.injEq, Prod.mk.injEq] at h0
        obtain ⟨rfl, -⟩ := h0
        rw [createAll_error h pre h2]

/-- A network with a tensor without legs is refused. -/
theorem C48_contractWithMPS_scalar (hla : GoodAlg la) (rand : List Nat → List Nat → R) (cast : R → R)
    (order : Store → List (Tensor R) → List (Nat × Nat)) {pre post : List (Tensor R)} {t : Tensor R}
    (s : OwnedNet st (pre ++ t :: post)) (v : Live st (pre ++ t :: post)) (h0 : t.legs = []) (h1 : ∀ t ∈ pre, t.legs ≠ [])
    (h2 : ∀ t ∈ pre, t.diag = true → 2 ≤ t.legs.length ∧ ∀ x, castF x = x)
    (hW : ∀ t ∈ pre, (t.legs.map st.dim).prod ≤ chi) (seq : List (Nat × Nat)) :
    contractWithMPS la rand cast castF order chi st (pre ++ t :: post) seq = .error .assertionError := by
  have p := List.perm_append_comm (l₁ := pre) (l₂ := t :: post)
  obtain ⟨st1, ms, e, -⟩ := createAll_step hla (le_refl chi) pre (s.perm p) ((SameValue.of_perm s.goodNet p).live v)
    (fun t ht hd => (h2 t ht hd).2) h1 (fun t ht hd => (h2 t ht hd).1) hW
  have e2 : createMPS la castF st1 t (some chi) = .error .assertionError := by
    unfold createMPS
    rw [h0]
    rfl
  simp only [contractWithMPS, runMPS, createAll_error e2 pre e, bind, Except.bind]

end

/-! ### Non-vacuity: two tensors with three bonds between them, and a free leg -/

/-- Legs 0, 1, 2, 6 of tensor 0 and legs 3, 4, 5 of tensor 1; bonds 0-3, 1-4, 2-5. -/
def exTripleStore : Store where
  leg := fun l => match l with
    | 0 => ⟨2, "x", some 0, some 0⟩
    | 1 => ⟨2, "y", some 1, some 0⟩
    | 2 => ⟨2, "z", some 2, some 0⟩
    | 3 => ⟨2, "u", some 0, some 1⟩
    | 4 => ⟨2, "v", some 1, some 1⟩
    | 5 => ⟨2, "w", some 2, some 1⟩
    | 6 => ⟨2, "f", none, some 0⟩
    | _ => ⟨0, "", none, none⟩
  bond := fun b => match b with
    | 0 => (0, 3)
    | 1 => (4, 1)
    | 2 => (2, 5)
    | _ => (0, 0)
  nextLeg := 7
  nextBond := 3
  nextTensor := 2

noncomputable def exTripleA : Tensor ℝ :=
  ⟨0, [0, 1, 2, 6], some ⟨[2, 2, 2, 2], [1, 2, 3, 4, 5, 6, 7, 8, 9, 10, 11, 12, 13, 14, 15, 16]⟩, false, false, 0⟩
noncomputable def exTripleB : Tensor ℝ := ⟨1, [3, 4, 5], some ⟨[2, 2, 2], [1, 0, 2, 0, 3, 0, 4, 0]⟩, false, false, 0⟩

theorem exTripleStore_wf : WFStore exTripleStore := by
  refine ⟨?_, ?_, ?_⟩ <;> intro l b h
  · match l with
    | 0 | 1 | 2 | 3 | 4 | 5 => simp [exTripleStore] at h; subst h; simp [exTripleStore, Store.dim]
    | 6 => simp [exTripleStore] at h
    | n + 7 => simp [exTripleStore] at h
  · match l with
    | 0 | 1 | 2 | 3 | 4 | 5 | 6 => simp [exTripleStore]
    | n + 7 => simp [exTripleStore] at h
  · match l with
    | 0 | 1 | 2 | 3 | 4 | 5 => simp [exTripleStore] at h; subst h; simp [exTripleStore]
    | 6 => simp [exTripleStore] at h
    | n + 7 => simp [exTripleStore] at h

theorem exTriple_partner : ∀ l m, exTripleStore.partner l = some m ↔
    (l, m) ∈ [(0, 3), (1, 4), (2, 5)] ∨ (m, l) ∈ [(0, 3), (1, 4), (2, 5)] := by
  intro l m
  match l with
  | 0 | 1 | 2 | 3 | 4 | 5 | 6 => simp [Store.partner, exTripleStore, eq_comm]
  | n + 7 => simp [Store.partner, exTripleStore]

theorem exTriple_net : OwnedNet exTripleStore [exTripleA, exTripleB] := by
  refine ⟨exTripleStore_wf, ?_, ⟨by simp [exTripleA, exTripleB], ?_, ?_⟩, ?_⟩
  · intro t ht
    simp only [List.mem_cons, List.not_mem_nil, or_false] at ht
    rcases ht with rfl | rfl
    · exact ⟨by show ([0, 1, 2, 6] : List Nat).Nodup; decide, rfl, _, rfl, rfl, fun _ => rfl, fun h => by cases h⟩
    · exact ⟨by show ([3, 4, 5] : List Nat).Nodup; decide, rfl, _, rfl, rfl, fun _ => rfl, fun h => by cases h⟩
  · intro t ht
    simp only [List.mem_cons, List.not_mem_nil, or_false] at ht
    rcases ht with rfl | rfl <;> simp [exTripleA, exTripleB, exTripleStore]
  · intro t ht
    simp only [List.mem_cons, List.not_mem_nil, or_false] at ht
    rcases ht with rfl | rfl <;> simp [exTripleA, exTripleB, exTripleStore]
  · intro t ht l hl m hm
    rw [exTriple_partner] at hm
    simp only [List.mem_cons, List.not_mem_nil, or_false] at ht
    simp only [List.mem_cons, List.not_mem_nil, or_false, Prod.mk.injEq] at hm
    rcases hm with (⟨rfl, rfl⟩ | ⟨rfl, rfl⟩ | ⟨rfl, rfl⟩) | (⟨rfl, rfl⟩ | ⟨rfl, rfl⟩ | ⟨rfl, rfl⟩) <;>
      rcases ht with rfl | rfl <;> simp [exTripleA, exTripleB] at hl ⊢

theorem exTriple_live : Live exTripleStore [exTripleA, exTripleB] := by
  refine ⟨[(0, 3), (1, 4), (2, 5)], fun _ => 0, ⟨by decide, ?_⟩, ?_, ?_⟩
  · intro l m
    rw [exTriple_partner]
    constructor
    · intro h
      refine ⟨h, ?_⟩
      simp only [List.mem_cons, List.not_mem_nil, or_false, Prod.mk.injEq] at h
      rcases h with (⟨rfl, rfl⟩ | ⟨rfl, rfl⟩ | ⟨rfl, rfl⟩) | (⟨rfl, rfl⟩ | ⟨rfl, rfl⟩ | ⟨rfl, rfl⟩) <;>
        simp [Cross, exTripleA, exTripleB]
    · exact fun h => h.1
  · rintro l ⟨⟨t, ht, hl⟩, -⟩
    simp only [List.mem_cons, List.not_mem_nil, or_false] at ht
    rcases ht with rfl | rfl <;> simp [exTripleA, exTripleB] at hl
    · rcases hl with rfl | rfl | rfl | rfl <;> simp [Store.dim, exTripleStore]
    · rcases hl with rfl | rfl | rfl <;> simp [Store.dim, exTripleStore]
  · simp [netSum, sumBonds, exTripleStore, Store.dim, exTripleA, exTripleB, entry, NDArray.get, ravel, List.range_succ, Assign.set]
    norm_num

theorem exTriple_joined : Joined exTripleStore [exTripleA, exTripleB] 0 1 :=
  ⟨_, _, rfl, rfl, 0, by simp [exTripleA], 3, by simp [exTripleB], (exTriple_partner 0 3).mpr (by simp)⟩

theorem exTriple_legs : ∀ t ∈ [exTripleA, exTripleB], t.legs ≠ [] := by
  intro t ht
  simp only [List.mem_cons, List.not_mem_nil, or_false] at ht
  rcases ht with rfl | rfl <;> simp [exTripleA, exTripleB]

theorem exTriple_dense : ∀ t ∈ [exTripleA, exTripleB], t.diag = false := by
  intro t ht
  simp only [List.mem_cons, List.not_mem_nil, or_false] at ht
  rcases ht with rfl | rfl <;> rfl

theorem exTriple_width : ∀ t ∈ [exTripleA, exTripleB], (t.legs.map exTripleStore.dim).prod ≤ 16 := by
  intro t ht
  simp only [List.mem_cons, List.not_mem_nil, or_false] at ht
  rcases ht with rfl | rfl <;> simp [exTripleA, exTripleB, exTripleStore, Store.dim]

theorem exists_goodAlg : ∃ la : LinAlg ℝ, GoodAlg la := by
  obtain ⟨la, h1, h2, h3, h4⟩ := exists_linAlg ℝ
  exact ⟨la, h1, h2, h3, fun z => (h4 z).mp⟩

theorem exTriple_room : 16 ^ 2 ^ ([exTripleA, exTripleB].map fun t => t.legs.length).sum ≤ 16 ^ 2 ^ 7 := by
  simp [exTripleA, exTripleB]

/-- A contraction sequence for `n + 1` tensors. -/
def starSeq : Nat → List (Nat × Nat)
  | 0 => []
  | n + 1 => (0, n + 1) :: starSeq n

theorem starSeq_valid : ∀ n, validFrom (List.range (n + 1)) (starSeq n)
  | 0 => rfl
  | n + 1 => by
    refine ⟨by simp, by simp, by omega, ?_⟩
    rw [show max 0 (n + 1) = n + 1 by omega, List.range_succ, List.erase_append_right _ (by simp)]
    simpa using starSeq_valid n

theorem exTriple_free (l : LegId) : FreeLeg exTripleStore [exTripleA, exTripleB] l ↔ l = 6 := by
  constructor
  · rintro ⟨⟨t, ht, hl⟩, no⟩
    have h : ∀ m, exTripleStore.partner l = some m → False := fun m hm => no m hm (by
      obtain ⟨ps, -, hp, -⟩ := exTriple_live
      obtain ⟨h1, u, hu, hmu⟩ := exTriple_net.inside t ht l hl m hm
      exact ⟨⟨t, ht, hl, h1⟩, u, hu, hmu⟩)
    simp only [exTriple_partner] at h
    simp only [List.mem_cons, List.not_mem_nil, or_false] at ht
    rcases ht with rfl | rfl <;> simp only [exTripleA, exTripleB, List.mem_cons, List.not_mem_nil, or_false] at hl
    · rcases hl with rfl | rfl | rfl | rfl
      · exact (h 3 (by simp)).elim
      · exact (h 4 (by simp)).elim
      · exact (h 5 (by simp)).elim
      · rfl
    · rcases hl with rfl | rfl | rfl
      · exact (h 0 (by simp)).elim
      · exact (h 1 (by simp)).elim
      · exact (h 2 (by simp)).elim
  · rintro rfl
    refine ⟨⟨exTripleA, by simp, by simp [exTripleA]⟩, fun m hm => ?_⟩
    rw [exTriple_partner] at hm
    simp at hm

theorem exTriple_linked : LinkedSeq exTripleStore [exTripleA, exTripleB] [(0, 1)] :=
  ⟨⟨0, by simp, 1, by simp, exTriple_joined⟩, trivial⟩

theorem exTriple_bonds : IsBondList exTripleStore [exTripleA, exTripleB] [(0, 3), (1, 4), (2, 5)] := by
  refine ⟨by decide, fun l m => ?_⟩
  rw [exTriple_partner]
  constructor
  · intro h
    refine ⟨h, ?_⟩
    simp only [List.mem_cons, List.not_mem_nil, or_false, Prod.mk.injEq] at h
    rcases h with (⟨rfl, rfl⟩ | ⟨rfl, rfl⟩ | ⟨rfl, rfl⟩) | (⟨rfl, rfl⟩ | ⟨rfl, rfl⟩ | ⟨rfl, rfl⟩) <;>
      simp [Cross, exTripleA, exTripleB]
  · exact fun h => h.1

/-- The two tensors are contracted to a tensor with one leg, whose first entry is that of the network. -/
example (rand : List Nat → List Nat → ℝ) : ∃ (la : LinAlg ℝ) (st' : Store) (t : Tensor ℝ) (n : LegId),
    contractWithMPS la rand id id (fun _ us => starSeq (us.length - 1)) (16 ^ 2 ^ 7) exTripleStore
      [exTripleA, exTripleB] [(0, 1)] = .ok (st', t) ∧ (∀ m, m ∈ t.legs ↔ m = n) ∧ st'.name n = "o" ∧ entry t (fun _ => 0) = 90 := by
  obtain ⟨la, hla⟩ := exists_goodAlg
  obtain ⟨st', t, copyOf, e, -, -, legs, new, val⟩ := C48_contractWithMPS hla rand id (castF := id)
    (order := fun _ us => starSeq (us.length - 1)) (fun _ us h => by
      obtain ⟨n, hn⟩ : ∃ n, us.length = n + 1 := ⟨us.length - 1, by have := List.length_pos_iff.mpr h; omega⟩
      unfold ValidSeq
      rw [hn]
      exact starSeq_valid n) exTriple_net exTriple_live (by simp) exTriple_legs
    (fun t ht h => by rw [exTriple_dense t ht] at h; cases h) exTriple_width exTriple_room (seq := [(0, 1)]) (by decide) exTriple_linked
  obtain ⟨-, n2, n3⟩ := new 6 ((exTriple_free 6).mpr rfl)
  have legs' : ∀ m, m ∈ t.legs ↔ m = copyOf 6 := by
    intro m
    rw [legs]
    simp only [exTriple_free, exists_eq_left]
    exact eq_comm
  refine ⟨la, st', t, copyOf 6, e, legs', n2, ?_⟩
  rw [val _ exTriple_bonds (fun _ => 0) (fun n hn => by
    rw [(legs' n).mp hn, n3]
    simp [exTripleStore, Store.dim])]
  simp [netSum, sumBonds, exTripleStore, Store.dim, exTripleA, exTripleB, entry, NDArray.get, ravel, List.range_succ, Assign.set]
  norm_num

/-- The chains of the two tensors have three bonds between them: they can be merged, after which they can be contracted,
but not before. -/
example : ∃ (la : LinAlg ℝ) (st : Store) (a b : MPS ℝ) (st1 : Store) (a1 b1 : MPS ℝ) (st2 : Store) (m : MPS ℝ),
    mergeMPS la id id st a b true = .ok (st1, a1, b1) ∧ contractMPS la id id st1 a1 b1 = .ok (st2, .mps m) ∧
    mergeMPS la id id st a b false = .error .assertionError ∧ contractMPS la id id st a b = .error .assertionError ∧
    ∃ r, doubleMerge la id id st a b 0 0 = .ok r := by
  obtain ⟨la, hla⟩ := exists_goodAlg
  obtain ⟨st, ms, -, F, r, n, isM⟩ := createAll_rows hla (castF := id) (chi := 16 ^ 2 ^ 7) exTriple_net exTriple_live (fun _ _ _ _ => rfl)
    exTriple_legs (fun t ht h => by rw [exTriple_dense t ht] at h; cases h) (by decide) exTriple_width exTriple_room
  obtain ⟨a, ha⟩ := isM 0 (by simp)
  obtain ⟨b, hb⟩ := isM 1 (by simp)
  have d := r.duo ha hb (by decide)
  obtain ⟨CA, ca, -⟩ := r.mps ha
  obtain ⟨CB, cb, -⟩ := r.mps hb
  have CA : IsChain st a.tensors [0, 1, 2, 6] := CA
  have CB : IsChain st b.tensors [3, 4, 5] := CB
  have s : OwnedNet st _ := ⟨d.sound.wf, d.sound.good, d.sound.owned, d.sound.inside⟩
  obtain ⟨D, h1, big, w⟩ := r.room
  have wA := w 0 a ha
  have wB := w 1 b hb
  have tot : total ms.length (fun i => (([exTripleA, exTripleB][i]?).map (·.legs)).getD []) = 7 := by
    rw [n]; rfl
  rw [tot] at big
  have par : ∀ l < 7, st.partner l = exTripleStore.partner l := fun l hl => (F.kept l hl).2.2
  have dm : ∀ l < 7, st.dim l = exTripleStore.dim l := fun l hl => (F.kept l hl).1
  have p0 : st.partner 0 = some 3 := (par 0 (by decide)).trans ((exTriple_partner 0 3).mpr (by simp))
  have p1 : st.partner 1 = some 4 := (par 1 (by decide)).trans ((exTriple_partner 1 4).mpr (by simp))
  have p2 : st.partner 2 = some 5 := (par 2 (by decide)).trans ((exTriple_partner 2 5).mpr (by simp))
  have p6 : st.partner 6 = none := (par 6 (by decide)).trans rfl
  have three : cnt st [0, 1, 2, 6] [3, 4, 5] = 3 := by
    simp [cnt, meets, p0, p1, p2, p6]
  have up : ∀ k ≤ 7, D ^ 2 ^ k ≤ 16 ^ 2 ^ 7 := fun k hk =>
    (Nat.pow_le_pow_right h1 (Nat.pow_le_pow_right (by decide) hk)).trans big
  obtain ⟨st1, a1, b1, PA', PB', e1, sv, s1, d1, C1, C2, one, n1, -, ca1, cb1, wA1, wB1⟩ := C48_mergeMPS hla id id s d.sound.dense d.live
    CA CB ca cb wA wB h1 (by rw [three]; exact up 2 (by decide)) (flag := true) (.inl rfl)
  rw [three] at one n1 wA1 wB1
  obtain ⟨st2, c, p, q, RA, RB, e2, pA, -, -, us, -, -, -, res⟩ := C48_contractMPS hla id id s1 (fun t ht => by
    rcases List.mem_append.mp ht with ht | ht
    · exact d.sound.dense t (List.mem_append_left _ ht)
    · exact d1 t ht) (sv.live d.live) C1 C2 ca1 cb1 wA1 wB1 (Nat.one_le_pow _ _ h1) (by
      rw [← pow_add]; exact up 3 (by decide)) one
  rcases res with ⟨rfl, -⟩ | ⟨-, m, rfl, -⟩
  · have := pA.length_eq
    simp only [List.length_cons, List.length_nil] at this n1
    omega
  refine ⟨la, st, a, b, st1, a1, b1, st2, m, e1, e2, C48_mergeMPS_refused la id id s d.sound.dense d.live CA CB (by rw [three]; decide),
    C48_contractMPS_refused la id id s d.sound.dense d.live CA CB (by rw [three]; decide), ?_⟩
  obtain ⟨_, _, _, _, _, _, e3, -⟩ := C48_doubleMerge hla id id s d.sound.dense d.live CA CB ca cb (D := max D 4) (i := 0) (j := 0)
    (by decide) (by decide) p0 p1 (.refl _) (fun t ht l hl => (wA t ht l hl).trans (le_max_left _ _))
    (fun t ht l hl => (wB t ht l hl).trans (le_max_left _ _)) (by
      show st.dim 0 * st.dim 1 ≤ _
      rw [dm 0 (by decide), dm 1 (by decide)]
      exact le_max_right _ _) (by
      refine max_le (by simpa using up 0 (by decide)) ?_
      norm_num)
  exact ⟨_, e3⟩

/-- Two vectors without a bond between them. -/
def exApartStore : Store where
  leg := fun l => match l with
    | 0 => ⟨2, "x", none, some 0⟩
    | 1 => ⟨3, "y", none, some 1⟩
    | _ => ⟨0, "", none, none⟩
  bond := fun _ => (0, 0)
  nextLeg := 2
  nextBond := 0
  nextTensor := 3

theorem exApartStore_free (l : LegId) : (exApartStore.leg l).bond = none := by
  match l with
  | 0 | 1 => rfl
  | n + 2 => rfl

theorem exApartStore_partner (l : LegId) : exApartStore.partner l = none := by
  unfold Store.partner; rw [exApartStore_free]

noncomputable def exApartA : Tensor ℝ := ⟨0, [0], some ⟨[2], [1, 2]⟩, false, false, 0⟩
noncomputable def exApartB : Tensor ℝ := ⟨1, [1], some ⟨[3], [1, 2, 3]⟩, false, false, 0⟩
noncomputable def exApartC : Tensor ℝ := ⟨2, [], some ⟨[], [5]⟩, false, false, 0⟩

theorem exApart_net : OwnedNet exApartStore [exApartA, exApartB, exApartC] := by
  refine ⟨(by refine ⟨?_, ?_, ?_⟩ <;> intro l b h <;> rw [exApartStore_free] at h <;> cases h), ?_,
    ⟨by simp [exApartA, exApartB, exApartC], ?_, ?_⟩, ?_⟩
  · intro t ht
    simp only [List.mem_cons, List.not_mem_nil, or_false] at ht
    rcases ht with rfl | rfl | rfl
    · exact ⟨by show ([0] : List Nat).Nodup; decide, rfl, _, rfl, rfl, fun _ => rfl, fun h => by cases h⟩
    · exact ⟨by show ([1] : List Nat).Nodup; decide, rfl, _, rfl, rfl, fun _ => rfl, fun h => by cases h⟩
    · exact ⟨by show ([] : List Nat).Nodup; decide, rfl, _, rfl, rfl, fun _ => rfl, fun h => by cases h⟩
  · intro t ht
    simp only [List.mem_cons, List.not_mem_nil, or_false] at ht
    rcases ht with rfl | rfl | rfl <;> simp [exApartA, exApartB, exApartC, exApartStore]
  · intro t ht
    simp only [List.mem_cons, List.not_mem_nil, or_false] at ht
    rcases ht with rfl | rfl | rfl <;> simp [exApartA, exApartB, exApartC, exApartStore]
  · intro t ht l hl m hm
    rw [exApartStore_partner] at hm
    cases hm

theorem exApart_live {L : List (Tensor ℝ)} (h : ∀ t ∈ L, t ∈ [exApartA, exApartB, exApartC]) : Live exApartStore L := by
  refine ⟨[], fun _ => 0, ⟨by simp, ?_⟩, ?_, ?_⟩
  · intro l m
    rw [exApartStore_partner]
    simp
  · rintro l ⟨⟨t, ht, hl⟩, -⟩
    have := h t ht
    simp only [List.mem_cons, List.not_mem_nil, or_false] at this
    rcases this with rfl | rfl | rfl <;> simp [exApartA, exApartB, exApartC] at hl <;> subst hl <;> simp [Store.dim, exApartStore]
  · simp only [netSum, sumBonds]
    rw [ne_eq, List.prod_eq_zero_iff]
    simp only [List.mem_map, not_exists, not_and]
    intro t ht
    have := h t ht
    simp only [List.mem_cons, List.not_mem_nil, or_false] at this
    rcases this with rfl | rfl | rfl <;> simp [exApartA, exApartB, exApartC, entry, NDArray.get, ravel]

/-- The product of two vectors is refused. -/
example (rand : List Nat → List Nat → ℝ) (order : Store → List (Tensor ℝ) → List (Nat × Nat)) : ∃ la : LinAlg ℝ,
    contractWithMPS la rand id id order (3 ^ 2 ^ 2) exApartStore [exApartA, exApartB] [(0, 1)] = .error .assertionError ∨
    contractWithMPS la rand id id order (3 ^ 2 ^ 2) exApartStore [exApartA, exApartB] [(0, 1)] = .error .attributeError := by
  obtain ⟨la, hla⟩ := exists_goodAlg
  have net : OwnedNet exApartStore [exApartA, exApartB] := by
    refine ⟨exApart_net.wf, fun t ht => exApart_net.good t (by simp at ht ⊢; tauto), ⟨by simp [exApartA, exApartB],
      fun t ht => exApart_net.owned.old t (by simp at ht ⊢; tauto), fun t ht => exApart_net.owned.legs t (by simp at ht ⊢; tauto)⟩, ?_⟩
    intro t ht l hl m hm
    rw [exApartStore_partner] at hm
    cases hm
  refine ⟨la, C48_contractWithMPS_unlinked hla rand id order net (exApart_live (by simp)) (by simp)
    (by simp [exApartA, exApartB]) (by simp [exApartA, exApartB]) (W := 3) (by simp [exApartA, exApartB, exApartStore, Store.dim])
    (by simp [exApartA, exApartB]) (by decide) ?_⟩
  rintro ⟨⟨i, -, j, -, t, u, -, -, l, -, m, -, h⟩, -⟩
  rw [exApartStore_partner] at h
  cases h

/-- A network with a number in it is refused. -/
example (rand : List Nat → List Nat → ℝ) (order : Store → List (Tensor ℝ) → List (Nat × Nat)) : ∃ la : LinAlg ℝ,
    contractWithMPS la rand id id order 16 exApartStore [exApartA, exApartB, exApartC] [(0, 1), (0, 2)] = .error .assertionError := by
  obtain ⟨la, hla⟩ := exists_goodAlg
  exact ⟨la, C48_contractWithMPS_scalar hla rand id order (pre := [exApartA, exApartB]) (t := exApartC) (post := []) exApart_net
    (exApart_live (by simp)) rfl (by simp [exApartA, exApartB]) (by simp [exApartA, exApartB])
    (by simp [exApartA, exApartB, exApartStore, Store.dim]) _⟩

end CTL
