import Verif.Lemmas.Copy
import Verif.Props.FTN

/-! C12: copies of lists of tensors. -/

namespace CTL
variable {R : Type}

theorem legOf_some {ts : List (Tensor R)} {i p : Nat} {l : LegId} :
    legOf ts i p = some l ↔ ∃ t, ts[i]? = some t ∧ t.legs[p]? = some l := by
  unfold legOf
  rw [Option.bind_eq_some_iff]

theorem legOf_mem {ts : List (Tensor R)} {i p : Nat} {l : LegId} (h : legOf ts i p = some l) : ∃ t ∈ ts, l ∈ t.legs := by
  obtain ⟨t, h1, h2⟩ := legOf_some.mp h
  exact ⟨t, List.mem_of_getElem? h1, List.mem_of_getElem? h2⟩

theorem mem_legOf {ts : List (Tensor R)} {t : Tensor R} (ht : t ∈ ts) {l : LegId} (hl : l ∈ t.legs) :
    ∃ i p, legOf ts i p = some l := by
  obtain ⟨i, hi⟩ := List.mem_iff_getElem?.mp ht
  obtain ⟨p, hp⟩ := List.mem_iff_getElem?.mp hl
  exact ⟨i, p, legOf_some.mpr ⟨t, hi, hp⟩⟩

theorem legOf_inj {ts : List (Tensor R)} (nd : (ts.flatMap (·.legs)).Nodup) {i j p q : Nat} {l : LegId}
    (h1 : legOf ts i p = some l) (h2 : legOf ts j q = some l) : i = j ∧ p = q := by
  obtain ⟨n1, n2⟩ := List.nodup_flatMap.mp nd
  obtain ⟨t, ht, hl⟩ := legOf_some.mp h1
  obtain ⟨u, hu, hl'⟩ := legOf_some.mp h2
  obtain ⟨hi, rfl⟩ := List.getElem?_eq_some_iff.mp ht
  obtain ⟨hj, rfl⟩ := List.getElem?_eq_some_iff.mp hu
  have hij : i = j := by
    rcases Nat.lt_trichotomy i j with h | h | h
    · exact absurd (List.mem_of_getElem? hl') (List.pairwise_iff_getElem.mp n2 i j hi hj h (List.mem_of_getElem? hl))
    · exact h
    · exact absurd (List.mem_of_getElem? hl) (List.pairwise_iff_getElem.mp n2 j i hj hi h (List.mem_of_getElem? hl'))
  subst hij
  refine ⟨rfl, ?_⟩
  obtain ⟨hp, e1⟩ := List.getElem?_eq_some_iff.mp hl
  obtain ⟨hq, e2⟩ := List.getElem?_eq_some_iff.mp hl'
  exact (n1 _ (List.getElem_mem hi)).getElem_inj_iff.mp (e1.trans e2.symm)

theorem mem_twinLegs {ts cs : List (Tensor R)} {l n : LegId} :
    (l, n) ∈ twinLegs ts cs ↔ ∃ i p, legOf ts i p = some l ∧ legOf cs i p = some n := by
  unfold twinLegs
  rw [List.mem_flatMap]
  constructor
  · rintro ⟨⟨t, c⟩, h1, h2⟩
    obtain ⟨i, hi⟩ := List.mem_iff_getElem?.mp h1
    obtain ⟨p, hp⟩ := List.mem_iff_getElem?.mp h2
    rw [List.getElem?_zip_eq_some] at hi hp
    exact ⟨i, p, legOf_some.mpr ⟨t, hi.1, hp.1⟩, legOf_some.mpr ⟨c, hi.2, hp.2⟩⟩
  · rintro ⟨i, p, h1, h2⟩
    obtain ⟨t, ht, hl⟩ := legOf_some.mp h1
    obtain ⟨c, hc, hn⟩ := legOf_some.mp h2
    exact ⟨(t, c), List.mem_of_getElem? (List.getElem?_zip_eq_some.mpr ⟨ht, hc⟩),
      List.mem_of_getElem? (List.getElem?_zip_eq_some.mpr ⟨hl, hn⟩)⟩

theorem TensorList.nodup {st : Store} {ts : List (Tensor R)} (h : TensorList st ts) : (ts.flatMap (·.legs)).Nodup := by
  rw [List.nodup_flatMap]
  refine ⟨fun t ht => (h.good t ht).nodup, ?_⟩
  rw [List.pairwise_iff_getElem]
  intro i j hi hj hij l h1 h2
  have e1 := (h.known _ (List.getElem_mem hi) l h1).2
  have e2 := (h.known _ (List.getElem_mem hj) l h2).2
  rw [e1] at e2
  have := h.ids.getElem_inj_iff (hi := by simpa using hi) (hj := by simpa using hj) |>.mp
    (by simpa using Option.some.inj e2)
  omega

/-- A leg of a copy and of its original at the same place. -/
theorem twins_place {st st' : Store} {flag : Bool} {ts cs : List (Tensor R)} (h : List.Forall₂ (CopyOf st st' flag) ts cs)
    (i p : Nat) : (∀ l, legOf ts i p = some l → ∃ n, legOf cs i p = some n ∧ st'.dim n = st.dim l ∧ st'.name n = st.name l) ∧
      ∀ n, legOf cs i p = some n → ∃ l, legOf ts i p = some l := by
  have hlen := h.length_eq
  by_cases hi : i < ts.length
  · have hc : i < cs.length := hlen ▸ hi
    have P := (List.forall₂_iff_get.mp h).2 i hi hc
    simp only [List.get_eq_getElem] at P
    have hl : cs[i].legs.length = ts[i].legs.length := by simpa using congrArg List.length P.dims
    constructor
    · intro l e
      obtain ⟨t, ht, e⟩ := legOf_some.mp e
      rw [List.getElem?_eq_getElem hi] at ht
      cases Option.some.inj ht
      obtain ⟨hp, rfl⟩ := List.getElem?_eq_some_iff.mp e
      have hp' : p < cs[i].legs.length := hl ▸ hp
      refine ⟨cs[i].legs[p], legOf_some.mpr ⟨cs[i], List.getElem?_eq_getElem hc, List.getElem?_eq_getElem hp'⟩, ?_, ?_⟩
      · have := congrArg (fun l => l[p]?) P.dims
        simpa [hp, hp'] using this
      · have := congrArg (fun l => l[p]?) P.labels
        simpa [hp, hp'] using this
    · intro n e
      obtain ⟨c, hc', e⟩ := legOf_some.mp e
      rw [List.getElem?_eq_getElem hc] at hc'
      cases Option.some.inj hc'
      obtain ⟨hp, rfl⟩ := List.getElem?_eq_some_iff.mp e
      exact ⟨ts[i].legs[p]'(hl ▸ hp), legOf_some.mpr ⟨ts[i], List.getElem?_eq_getElem hi, List.getElem?_eq_getElem _⟩⟩
  · constructor
    · intro l e
      obtain ⟨t, ht, _⟩ := legOf_some.mp e
      rw [List.getElem?_eq_none (not_lt.mp hi)] at ht
      cases ht
    · intro n e
      obtain ⟨t, ht, _⟩ := legOf_some.mp e
      rw [List.getElem?_eq_none (hlen ▸ not_lt.mp hi)] at ht
      cases ht

theorem twins_ok {st st1 : Store} {flag : Bool} {ts cs : List (Tensor R)} (h : TensorList st ts)
    (U : Unlinked st st1 flag ts cs) : Twins st st1 (ts.zip cs) (twinLegs ts cs) := by
  have hlen := U.copies.length_eq
  refine ⟨h.wf, ?_, ?_, ?_, ?_⟩
  · rintro ⟨l, n⟩ h1 ⟨l', n'⟩ h2 (rfl : l = l')
    obtain ⟨i, p, a1, a2⟩ := mem_twinLegs.mp h1
    obtain ⟨j, q, b1, b2⟩ := mem_twinLegs.mp h2
    obtain ⟨rfl, rfl⟩ := legOf_inj h.nodup a1 b1
    rw [Option.some.inj (a2.symm.trans b2)]
  · rintro ⟨l, n⟩ h1 ⟨l', n'⟩ h2 (rfl : n = n')
    obtain ⟨i, p, a1, a2⟩ := mem_twinLegs.mp h1
    obtain ⟨j, q, b1, b2⟩ := mem_twinLegs.mp h2
    obtain ⟨rfl, rfl⟩ := legOf_inj U.nodup a2 b2
    rw [Option.some.inj (a1.symm.trans b1)]
  · rintro ⟨l, n⟩ h1
    obtain ⟨i, p, a1, a2⟩ := mem_twinLegs.mp h1
    obtain ⟨t, ht, hl⟩ := legOf_mem a1
    obtain ⟨c, hc, hn⟩ := legOf_mem a2
    obtain ⟨u, _, P⟩ := forall₂_right U.copies c hc
    obtain ⟨n', e, hd, _⟩ := (twins_place U.copies i p).1 l a1
    cases Option.some.inj (a2.symm.trans e)
    exact ⟨(h.known t ht l hl).1, (P.newLegs n hn).1, (P.newLegs n hn).2.1, hd⟩
  · rintro ⟨l, n⟩ h1 m hm
    obtain ⟨i, p, a1, a2⟩ := mem_twinLegs.mp h1
    obtain ⟨t, ht, hl⟩ := legOf_mem a1
    simp only at hm
    by_cases hin : ∃ u ∈ ts, (st.leg m).tensor = some u.id
    · obtain ⟨u, hu, e⟩ := hin
      have hmu := h.inside t ht l hl m hm u hu e
      obtain ⟨j, hj⟩ := List.mem_iff_getElem?.mp hu
      obtain ⟨hj', -⟩ := List.getElem?_eq_some_iff.mp hj
      have hjc : j < cs.length := hlen ▸ hj'
      have hz : (u, cs[j]) ∈ ts.zip cs :=
        List.mem_of_getElem? (i := j) (List.getElem?_zip_eq_some.mpr ⟨hj, List.getElem?_eq_getElem hjc⟩)
      obtain ⟨q, hq⟩ : ∃ q, u.legs.idxOf? m = some q := by
        rcases hq : u.legs.idxOf? m with _ | q
        · rw [List.idxOf?_eq_none_iff] at hq
          exact absurd hmu hq
        · exact ⟨q, rfl⟩
      have hqm : u.legs[q]? = some m := by
        have := (List.idxOf?_eq_some_iff.mp hq)
        obtain ⟨h1, h2, _⟩ := this
        exact List.getElem?_eq_some_iff.mpr ⟨h1, by simpa using h2⟩
      have hmo : legOf ts j q = some m := legOf_some.mpr ⟨u, hj, hqm⟩
      obtain ⟨k, hk, _⟩ := (twins_place U.copies j q).1 m hmo
      refine Or.inr ⟨(u, cs[j]), q, k, ?_, hq, ?_, mem_twinLegs.mpr ⟨j, q, hmo, hk⟩⟩
      · rw [e]
        exact copiedAs_zip h.ids hlen hz
      · obtain ⟨c, hc, hk⟩ := legOf_some.mp hk
        rw [List.getElem?_eq_getElem hjc] at hc
        cases Option.some.inj hc
        exact hk
    · refine Or.inl ⟨?_, ?_⟩
      · rcases hto : (st.leg m).tensor with _ | id
        · rfl
        · rw [Option.bind_some]
          unfold copiedAs
          rw [List.find?_eq_none]
          rintro ⟨u, c⟩ hx
          rw [List.mem_reverse] at hx
          simp only [beq_iff_eq]
          rintro rfl
          exact hin ⟨u, (List.of_mem_zip hx).1, hto⟩
      · rintro ⟨m', k⟩ hq (rfl : m' = m)
        obtain ⟨j, q, b1, _⟩ := mem_twinLegs.mp hq
        obtain ⟨u, hu, hmu⟩ := legOf_mem b1
        exact hin ⟨u, hu, (h.known u hu m' hmu).2⟩

/-- C12: copying a list of tensors gives tensors with the same labels, dimensions and data in the same positions; two
copied legs are linked if and only if the originals were; a copied leg is linked to nothing else; and nothing about the
legs and bonds that existed before changes.

Missing from the claim for all lists: a `DiagonalTensor` with data but without legs, for which `copy` raises
(`C12_scalar_diagonal_raises`), and lists that name one tensor twice (`C12_repeated_tensor`). -/
theorem C12_copyTensorList_partial [Zero R] [One R] (rand : List Nat → List Nat → R) {st : Store} {ts : List (Tensor R)}
    (h : TensorList st ts) (shapeOnly : Bool) :
    ∃ st' cs, copyTensorList rand st ts shapeOnly = .ok (st', cs) ∧ List.Forall₂ (CopyOf st st' shapeOnly) ts cs ∧
      (∀ i p j q l m n k, legOf ts i p = some l → legOf ts j q = some m → legOf cs i p = some n → legOf cs j q = some k →
        (st'.partner n = some k ↔ st.partner l = some m)) ∧
      (∀ c ∈ cs, ∀ n ∈ c.legs, ∀ k, st'.partner n = some k → ∃ d ∈ cs, k ∈ d.legs) ∧
      (cs.map (·.id)).Nodup ∧ (cs.flatMap (·.legs)).Nodup ∧ Untouched st st' ∧ WFStore st' := by
  obtain ⟨st1, cs, e1, U⟩ := copyEach_ok rand shapeOnly ts st h.good fun t ht l hl => (h.known t ht l hl).1
  have hlen := U.copies.length_eq
  have T := twins_ok h U
  have free : ∀ p ∈ twinLegs ts cs, (st1.leg p.2).bond = none := by
    rintro ⟨l, n⟩ hp
    obtain ⟨i, p, _, a2⟩ := mem_twinLegs.mp hp
    obtain ⟨c, hc, hn⟩ := legOf_mem a2
    exact U.free c hc n hn
  have S0 : LinkState st st1 (twinLegs ts cs) [] (st1, []) := by
    refine ⟨U.grows.wf h.wf, U.old, rfl, rfl, le_of_eq U.nextBond.symm, fun _ => ⟨rfl, rfl, rfl⟩, ?_, by simp, ?_, by simp⟩
    · intro p hp k hk
      unfold Store.partner at hk
      rw [free p hp] at hk
      cases hk
    · exact fun p hp _ => free p hp
  obtain ⟨s, e2, S⟩ := copyBonds_ok T (twinLegs ts cs) [] (st1, []) (fun p hp => hp) S0
  refine ⟨s.1, cs, ?_, ?_, ?_, ?_, U.ids, U.nodup, S.old, S.wf⟩
  · unfold copyTensorList
    simp only [e1, bind, Except.bind, copyPairs_eq h.ids hlen]
    rw [show (twinLegs ts cs).foldlM (copyBond (ts.zip cs)) (st1, []) = .ok s from e2]
    rfl
  · refine U.copies.imp fun t c P => ?_
    refine ⟨?_, ?_, P.data, P.like, P.diag, P.length, by rw [S.nextTensor]; exact P.newId, ?_⟩
    · rw [← P.labels]
      exact List.map_congr_left fun l _ => (S.attr l).2.1
    · rw [← P.dims]
      exact List.map_congr_left fun l _ => (S.attr l).1
    · intro l hl
      rw [S.nextLeg, (S.attr l).2.2]
      exact P.newLegs l hl
  · intro i p j q l m n k hl hm hn hk
    have c1 : (l, n) ∈ twinLegs ts cs := mem_twinLegs.mpr ⟨i, p, hl, hn⟩
    have c2 : (m, k) ∈ twinLegs ts cs := mem_twinLegs.mpr ⟨j, q, hm, hk⟩
    constructor
    · intro e
      obtain ⟨m', h1, h2⟩ := S.sound _ c1 k e
      have := T.left _ h1 _ c2 rfl
      simp only [Prod.mk.injEq, and_true] at this
      rw [← this]
      exact h2
    · intro e
      obtain ⟨b, hb, _⟩ := partner_some h.wf.inv e
      exact S.made _ c1 _ c2 e b (S.seen _ (by simpa using c1) b hb) hb
  · intro c hc n hn k hk
    obtain ⟨i, p, e⟩ := mem_legOf hc hn
    obtain ⟨l, hl⟩ := (twins_place U.copies i p).2 n e
    obtain ⟨m, h1, _⟩ := S.sound _ (mem_twinLegs.mpr ⟨i, p, hl, e⟩) k hk
    obtain ⟨j, q, _, h2⟩ := mem_twinLegs.mp h1
    exact legOf_mem h2

/-- Two tensors of the triangle; both have a bond that leaves the list. -/
theorem triPair_list : TensorList triStore [triA, triB] where
  wf := triStore_wf
  good := by
    intro t ht
    simp only [List.mem_cons, List.not_mem_nil, or_false] at ht
    rcases ht with rfl | rfl
    · exact ⟨by decide, by decide, fun _ => ⟨_, rfl, fun _ => by decide, by decide⟩, by decide⟩
    · exact ⟨by decide, by decide, fun _ => ⟨_, rfl, fun _ => by decide, by decide⟩, by decide⟩
  ids := by decide
  known := by decide
  inside := by
    intro t ht l hl m hm u hu e
    simp only [List.mem_cons, List.not_mem_nil, or_false] at ht hu
    rcases ht with rfl | rfl <;> simp only [triA, triB, List.mem_cons, List.not_mem_nil, or_false] at hl <;>
      rcases hl with rfl | rfl | rfl <;> first
        | (simp [Store.partner, triStore] at hm; done)
        | (simp [Store.partner, triStore] at hm; subst hm; rcases hu with rfl | rfl <;> revert e <;> decide)

example : TensorList triStore [triA, triB] ∧ triStore.partner 1 = some 4 ∧ triStore.partner 2 = some 7 ∧
    (∀ t ∈ [triA, triB], GoodTensor triStore t ∧ t.diag = false) ∧
    (∀ l m, triStore.partner l = some m → Cross [triA, triB] l m → triStore.dim l ≠ 0) ∧ ValidSeq 2 [(1, 0)] := by
  refine ⟨triPair_list, by decide, by decide, ?_, ?_, by decide⟩
  · intro t ht
    simp only [List.mem_cons, List.not_mem_nil, or_false] at ht
    rcases ht with rfl | rfl
    · exact ⟨triNet_good.good _ (by decide), rfl⟩
    · exact ⟨triNet_good.good _ (by decide), rfl⟩
  · rintro l m - ⟨⟨t, ht, hl, -⟩, -⟩
    simp only [List.mem_cons, List.not_mem_nil, or_false] at ht
    rcases ht with rfl | rfl <;>
      (simp only [triA, triB, List.mem_cons, List.not_mem_nil, or_false] at hl
       rcases hl with rfl | rfl | rfl <;> decide)

/-- A diagonal tensor without legs (the result of a full contraction) can not be copied. -/
theorem C12_scalar_diagonal_raises [Zero R] [One R] (rand : List Nat → List Nat → R) (st : Store) (t : Tensor R)
    (hd : t.diag = true) (hl : t.legs = []) (hlike : t.like = false) (x : R) (ha : t.a = some (NDArray.scalar x))
    (ts : List (Tensor R)) : copyTensorList rand st (t :: ts) = .error .indexError := by
  have e : t.copy rand st = .error .indexError := by
    unfold Tensor.copy Tensor.shape Tensor.labels constructDiag deduceShapeDiag
    simp only [hd, hl, ha, hlike, if_true, List.length_nil, List.replicate_zero, List.map_nil]
    rfl
  unfold copyTensorList copyEach
  simp only [e, Bool.false_eq_true, if_false, bind, Except.bind]

/-- A tensor that occurs twice in the list has two copies, but only the last one gets the links. -/
theorem C12_repeated_tensor : ∃ st' cs, copyTensorList (fun _ _ => (0 : Int)) triStore [triA, triA, triB] = .ok (st', cs) ∧
    ((legOf cs 0 1).bind st'.partner) = none ∧ ((legOf cs 1 1).bind st'.partner) = legOf cs 2 1 ∧
    (legOf cs 0 1).isSome ∧ (legOf cs 2 1).isSome :=
  ⟨_, _, rfl, by decide, by decide, by decide, by decide⟩

/-! ### Contraction that is not in place -/

theorem sumBonds_twins [AddMonoid R] {cor : List (LegId × LegId)} {dim dim' : LegId → Nat}
    (right : ∀ p ∈ cor, ∀ q ∈ cor, p.1 = q.1 → p = q) (left : ∀ p ∈ cor, ∀ q ∈ cor, p.2 = q.2 → p = q)
    (hd : ∀ p ∈ cor, dim' p.2 = dim p.1) {f g : Assign → R}
    (hf : ∀ σ τ : Assign, (∀ p ∈ cor, σ p.1 = τ p.2) → f σ = g τ) :
    ∀ (ps qs : List (LegId × LegId)), List.Forall₂ (fun p q => (p.1, q.1) ∈ cor ∧ (p.2, q.2) ∈ cor) ps qs →
      ∀ σ τ : Assign, (∀ p ∈ cor, σ p.1 = τ p.2) → sumBonds dim ps f σ = sumBonds dim' qs g τ := by
  intro ps qs h
  induction h with
  | nil => exact hf
  | @cons p q ps qs hpq _ ih =>
    intro σ τ hστ
    obtain ⟨l, m⟩ := p
    obtain ⟨l', m'⟩ := q
    simp only at hpq
    simp only [sumBonds]
    rw [hd _ hpq.1]
    congr 1
    apply List.map_congr_left
    intro k _
    apply ih
    rintro ⟨x, y⟩ hxy
    have key : ∀ a b, (a, b) ∈ cor → (x = a ↔ y = b) := by
      intro a b hab
      constructor
      · rintro rfl
        exact congrArg Prod.snd (right _ hxy _ hab rfl)
      · rintro rfl
        exact congrArg Prod.fst (left _ hxy _ hab rfl)
    simp only [Assign.set]
    rw [if_congr (key _ _ hpq.2) rfl rfl, if_congr (key _ _ hpq.1) rfl (hστ _ hxy)]

theorem entry_twins [Zero R] {st st' : Store} {t c : Tensor R} (P : CopyOf st st' false t c) {σ τ : Assign}
    (h : ∀ p ∈ t.legs.zip c.legs, σ p.1 = τ p.2) : entry t σ = entry c τ := by
  have hlen : c.legs.length = t.legs.length := by simpa using congrArg List.length P.dims
  have hmap : t.legs.map σ = c.legs.map τ := by
    apply List.ext_getElem (by simp [hlen])
    intro i h1 h2
    simp only [List.length_map] at h1 h2
    simp only [List.getElem_map]
    exact h (t.legs[i], c.legs[i]) (List.mem_of_getElem? (i := i) (List.getElem?_zip_eq_some.mpr ⟨by simp [h1], by simp [h2]⟩))
  unfold entry
  rw [P.data, P.diag]
  simp only [Bool.false_eq_true, if_false]
  rcases t.a with _ | arr
  · rfl
  · simp only
    split
    · rcases ht : t.legs with _ | ⟨l, ls⟩ <;> rcases hc : c.legs with _ | ⟨n, ns⟩ <;> rw [ht, hc] at hmap <;>
        simp only [List.map_cons, List.map_nil, List.cons.injEq, reduceCtorEq] at hmap
      · have : (∀ m ∈ ls, σ m = σ l) ↔ ∀ m ∈ ns, τ m = τ n := by
          rw [← hmap.1]
          have e : ∀ {α : Type} (f : α → Nat) (xs : List α) (v : Nat), (∀ m ∈ xs, f m = v) ↔ ∀ y ∈ xs.map f, y = v := by
            simp
          rw [e σ, e τ, hmap.2]
        simp only
        rw [← hmap.1, if_congr this rfl rfl, hmap.1]
    · rw [hmap]

/-- C12: so a contraction that is not in place computes the network sum of the original tensors, on new legs that stand
for the free legs of the network, and leaves legs and links of the originals alone. -/
theorem C12_contract_copied [CommSemiring R] (rand : List Nat → List Nat → R) (cast : R → R) {st : Store}
    {ts : List (Tensor R)} (h : TensorList st ts) (good : ∀ t ∈ ts, GoodTensor st t ∧ t.diag = false)
    (pos : ∀ l m, st.partner l = some m → Cross ts l m → st.dim l ≠ 0) {seq : List (Nat × Nat)}
    (hv : ValidSeq ts.length seq) :
    ∃ st' t c, ∃ copyOf : LegId → LegId, contractCopied rand cast st ts seq = .ok (st', t, c) ∧ GoodTensor st' t ∧
      InputsKept st st' ∧
      (∀ l, FreeLeg st ts l → ∀ m, FreeLeg st ts m → copyOf l = copyOf m → l = m) ∧
      (∀ n, n ∈ t.legs ↔ ∃ l, FreeLeg st ts l ∧ copyOf l = n) ∧
      (∀ l, FreeLeg st ts l → st.nextLeg ≤ copyOf l ∧ st'.name (copyOf l) = st.name l ∧ st'.dim (copyOf l) = st.dim l) ∧
      ∀ ps, IsBondList st ts ps → ∀ τ : Assign, (∀ n ∈ t.legs, τ n < st'.dim n) →
        entry t τ = netSum st ts ps (fun l => τ (copyOf l)) := by
  obtain ⟨st1, cs, e1, copies, links, inner, ids, nodup, old, wf⟩ := C12_copyTensorList_partial rand h false
  set cor := twinLegs ts cs with hcor
  have hlen := copies.length_eq
  have right : ∀ p ∈ cor, ∀ q ∈ cor, p.1 = q.1 → p = q := by
    rintro ⟨l, n⟩ h1 ⟨l', n'⟩ h2 (rfl : l = l')
    obtain ⟨i, p, a1, a2⟩ := mem_twinLegs.mp h1
    obtain ⟨j, q, b1, b2⟩ := mem_twinLegs.mp h2
    obtain ⟨rfl, rfl⟩ := legOf_inj h.nodup a1 b1
    rw [Option.some.inj (a2.symm.trans b2)]
  have left : ∀ p ∈ cor, ∀ q ∈ cor, p.2 = q.2 → p = q := by
    rintro ⟨l, n⟩ h1 ⟨l', n'⟩ h2 (rfl : n = n')
    obtain ⟨i, p, a1, a2⟩ := mem_twinLegs.mp h1
    obtain ⟨j, q, b1, b2⟩ := mem_twinLegs.mp h2
    obtain ⟨rfl, rfl⟩ := legOf_inj nodup a2 b2
    rw [Option.some.inj (a1.symm.trans b1)]
  -- the copy of a leg
  let copyOf : LegId → LegId := fun l => ((cor.find? fun p => p.1 == l).map Prod.snd).getD 0
  have copyOf_eq : ∀ p ∈ cor, copyOf p.1 = p.2 := by
    intro p hp
    rcases hf : cor.find? (fun q => q.1 == p.1) with _ | q
    · rw [List.find?_eq_none] at hf
      exact absurd (hf p hp) (by simp)
    · have h1 := List.find?_some hf
      have h2 := List.mem_of_find?_eq_some hf
      simp only [beq_iff_eq] at h1
      have := right q h2 p hp h1
      simp only [copyOf, hf, Option.map_some, Option.getD_some, this]
  have has : ∀ t ∈ ts, ∀ l ∈ t.legs, (l, copyOf l) ∈ cor := by
    intro t ht l hl
    obtain ⟨i, p, e⟩ := mem_legOf ht hl
    obtain ⟨n, e', _⟩ := (twins_place copies i p).1 l e
    have hm : (l, n) ∈ cor := mem_twinLegs.mpr ⟨i, p, e, e'⟩
    rw [show copyOf l = n from copyOf_eq _ hm]
    exact hm
  have attr : ∀ p ∈ cor, st1.dim p.2 = st.dim p.1 ∧ st1.name p.2 = st.name p.1 := by
    rintro ⟨l, n⟩ hp
    obtain ⟨i, p, a1, a2⟩ := mem_twinLegs.mp hp
    obtain ⟨n', e, h1, h2⟩ := (twins_place copies i p).1 l a1
    cases Option.some.inj (a2.symm.trans e)
    exact ⟨h1, h2⟩
  have back : ∀ c ∈ cs, ∀ n ∈ c.legs, ∃ t ∈ ts, ∃ l ∈ t.legs, (l, n) ∈ cor := by
    intro c hc n hn
    obtain ⟨i, p, e⟩ := mem_legOf hc hn
    obtain ⟨l, e'⟩ := (twins_place copies i p).2 n e
    obtain ⟨t, ht, hl⟩ := legOf_mem e'
    exact ⟨t, ht, l, hl, mem_twinLegs.mpr ⟨i, p, e', e⟩⟩
  have fwd : ∀ p ∈ cor, ∃ (i : Nat) (t c : Tensor R), ts[i]? = some t ∧ cs[i]? = some c ∧ p.1 ∈ t.legs ∧ p.2 ∈ c.legs := by
    rintro ⟨l, n⟩ hp
    obtain ⟨i, p, a1, a2⟩ := mem_twinLegs.mp hp
    obtain ⟨t, ht, hl⟩ := legOf_some.mp a1
    obtain ⟨c, hc, hn⟩ := legOf_some.mp a2
    exact ⟨i, t, c, ht, hc, List.mem_of_getElem? hl, List.mem_of_getElem? hn⟩
  have partner : ∀ p ∈ cor, ∀ q ∈ cor, (st1.partner p.2 = some q.2 ↔ st.partner p.1 = some q.1) := by
    rintro ⟨l, n⟩ hp ⟨m, k⟩ hq
    obtain ⟨i, p, a1, a2⟩ := mem_twinLegs.mp hp
    obtain ⟨j, q, b1, b2⟩ := mem_twinLegs.mp hq
    exact links i p j q l m n k a1 b1 a2 b2
  -- two legs are on the same tensor iff their copies are
  have own : ∀ p ∈ cor, ∀ (i : Nat) c, cs[i]? = some c → p.2 ∈ c.legs → ∃ t, ts[i]? = some t ∧ p.1 ∈ t.legs := by
    rintro ⟨l, n⟩ hp i c hc hn
    obtain ⟨r, hr⟩ := List.mem_iff_getElem?.mp hn
    have hn' : legOf cs i r = some n := legOf_some.mpr ⟨c, hc, hr⟩
    obtain ⟨j, q, b1, b2⟩ := mem_twinLegs.mp hp
    obtain ⟨rfl, rfl⟩ := legOf_inj nodup hn' b2
    obtain ⟨t, ht, hl⟩ := legOf_some.mp b1
    exact ⟨t, ht, List.mem_of_getElem? hl⟩
  have own' : ∀ p ∈ cor, ∀ (i : Nat) t, ts[i]? = some t → p.1 ∈ t.legs → ∃ c, cs[i]? = some c ∧ p.2 ∈ c.legs := by
    rintro ⟨l, n⟩ hp i t ht hl
    obtain ⟨r, hr⟩ := List.mem_iff_getElem?.mp hl
    have hl' : legOf ts i r = some l := legOf_some.mpr ⟨t, ht, hr⟩
    obtain ⟨j, q, b1, b2⟩ := mem_twinLegs.mp hp
    obtain ⟨rfl, rfl⟩ := legOf_inj h.nodup hl' b1
    obtain ⟨c, hc, hn⟩ := legOf_some.mp b2
    exact ⟨c, hc, List.mem_of_getElem? hn⟩
  have cross : ∀ p ∈ cor, ∀ q ∈ cor, (Cross cs p.2 q.2 ↔ Cross ts p.1 q.1) := by
    intro p hp q hq
    constructor
    · rintro ⟨⟨c, hc, hpc, hqc⟩, _⟩
      obtain ⟨i, hi⟩ := List.mem_iff_getElem?.mp hc
      obtain ⟨t, ht, hpt⟩ := own p hp i c hi hpc
      obtain ⟨_, u, _, hu, _, hqu, _⟩ := fwd q hq
      refine ⟨⟨t, List.mem_of_getElem? ht, hpt, fun hqt => ?_⟩, u, List.mem_of_getElem? hu, hqu⟩
      obtain ⟨c', hc', hqc'⟩ := own' q hq i t ht hqt
      rw [hi] at hc'
      exact hqc (Option.some.inj hc' ▸ hqc')
    · rintro ⟨⟨t, ht, hpt, hqt⟩, _⟩
      obtain ⟨i, hi⟩ := List.mem_iff_getElem?.mp ht
      obtain ⟨c, hc, hpc⟩ := own' p hp i t hi hpt
      obtain ⟨_, _, d, _, hd, _, hqd⟩ := fwd q hq
      refine ⟨⟨c, List.mem_of_getElem? hc, hpc, fun hqc => ?_⟩, d, List.mem_of_getElem? hd, hqd⟩
      obtain ⟨t', ht', hqt'⟩ := own q hq i c hc hqc
      rw [hi] at ht'
      exact hqt (Option.some.inj ht' ▸ hqt')
  have g : GoodNet st1 cs := by
    refine ⟨wf.inv, fun c hc => ?_, nodup⟩
    obtain ⟨t, ht, P⟩ := forall₂_right copies c hc
    obtain ⟨gt, dt⟩ := good t ht
    obtain ⟨arr, a1, a2, a3, _⟩ := gt.data
    refine ⟨(List.nodup_flatMap.mp nodup).1 c hc, by rw [P.like, gt.notLike]; rfl, arr, P.data.trans (by simpa using a1), a2, ?_, ?_⟩
    · intro _
      rw [P.dims]
      exact a3 dt
    · intro hh
      rw [P.diag, dt] at hh
      cases hh
  have dense : ∀ c ∈ cs, c.diag = false := by
    intro c hc
    obtain ⟨t, ht, P⟩ := forall₂_right copies c hc
    rw [P.diag, (good t ht).2]
  have free : ∀ p ∈ cor, (FreeLeg st1 cs p.2 ↔ FreeLeg st ts p.1) := by
    intro p hp
    obtain ⟨i, t, c, ht, hc, hl, hn⟩ := fwd p hp
    constructor
    · rintro ⟨_, h2⟩
      refine ⟨⟨t, List.mem_of_getElem? ht, hl⟩, fun m hm hx => ?_⟩
      obtain ⟨_, u, hu, hmu⟩ := id hx
      have hq := has u hu m hmu
      exact h2 _ ((partner p hp _ hq).mpr hm) ((cross p hp _ hq).mpr hx)
    · rintro ⟨_, h2⟩
      refine ⟨⟨c, List.mem_of_getElem? hc, hn⟩, fun k hk hx => ?_⟩
      obtain ⟨_, d, hd, hkd⟩ := id hx
      obtain ⟨u, hu, m, hm, hq⟩ := back d hd k hkd
      exact h2 m ((partner p hp _ hq).mp hk) ((cross p hp _ hq).mp hx)
  obtain ⟨st', t, c, e2, same, gt, hlegs, hval⟩ := C03_any_valid_sequence cast g (by
    intro k k' hk hx
    obtain ⟨⟨c, hc, hkc, _⟩, d, hd, hkd⟩ := id hx
    obtain ⟨u, hu, l, hl, hp⟩ := back c hc k hkc
    obtain ⟨v, hv, m, hm, hq⟩ := back d hd k' hkd
    rw [(attr _ hp).1]
    exact pos l m ((partner _ hp _ hq).mp hk) ((cross _ hp _ hq).mp hx)) (hlen ▸ hv) (Or.inl dense)
  obtain ⟨_, frame⟩ := contractInPlace_frame cast dense e2
  have newLeg : ∀ c ∈ cs, ∀ n ∈ c.legs, st.nextLeg ≤ n := by
    intro c hc n hn
    obtain ⟨t, _, P⟩ := forall₂_right copies c hc
    exact (P.newLegs n hn).1
  have isNew : ∀ p ∈ cor, st.nextLeg ≤ p.2 := by
    intro p hp
    obtain ⟨_, _, c, _, hc, _, hn⟩ := fwd p hp
    exact newLeg c (List.mem_of_getElem? hc) _ hn
  refine ⟨st', t, c, copyOf, ?_, gt, ?_, ?_, ?_, ?_, ?_⟩
  · unfold contractCopied
    rw [e1]
    exact e2
  · refine ⟨fun l hl => ?_, fun l hl => ?_⟩
    · rw [frame l fun u hu hlu => absurd (newLeg u hu l hlu) (not_le.mpr hl)]
      exact old.leg l hl
    · rw [same.partner wf.inv, old.partner h.wf hl]
  · rintro l ⟨⟨t, ht, hl⟩, _⟩ m ⟨⟨u, hu, hm⟩, _⟩ e
    exact congrArg Prod.fst (left _ (has t ht l hl) _ (has u hu m hm) e)
  · intro n
    rw [hlegs]
    constructor
    · intro hf
      obtain ⟨⟨d, hd, hn⟩, _⟩ := id hf
      obtain ⟨u, hu, l, hl, hp⟩ := back d hd n hn
      exact ⟨l, (free _ hp).mp hf, copyOf_eq _ hp⟩
    · rintro ⟨l, hf, rfl⟩
      obtain ⟨⟨u, hu, hl⟩, _⟩ := id hf
      exact (free _ (has u hu l hl)).mpr hf
  · rintro l ⟨⟨u, hu, hl⟩, _⟩
    have hp := has u hu l hl
    refine ⟨isNew _ hp, ?_, ?_⟩
    · rw [same.name]
      exact (attr _ hp).2
    · rw [same.dim]
      exact (attr _ hp).1
  · intro ps hps τ hτ
    have hin : ∀ p ∈ ps, (p.1, copyOf p.1) ∈ cor ∧ (p.2, copyOf p.2) ∈ cor := by
      intro p hp
      obtain ⟨_, ⟨⟨t, ht, hl, _⟩, u, hu, hm⟩⟩ := (hps.exact p.1 p.2).mp (Or.inl hp)
      exact ⟨has t ht _ hl, has u hu _ hm⟩
    have bl : IsBondList st1 cs (ps.map fun p => (copyOf p.1, copyOf p.2)) := by
      constructor
      · have : ((ps.map fun p => (copyOf p.1, copyOf p.2)).flatMap fun p => [p.1, p.2])
            = (ps.flatMap fun p => [p.1, p.2]).map copyOf := by
          rw [List.flatMap_map, List.map_flatMap]
          rfl
        rw [this]
        refine List.Nodup.map_on ?_ hps.once
        intro x hx y hy e
        have mem : ∀ x, x ∈ ps.flatMap (fun p => [p.1, p.2]) → (x, copyOf x) ∈ cor := by
          intro x hx
          obtain ⟨p, hp, hx⟩ := List.mem_flatMap.mp hx
          simp only [List.mem_cons, List.not_mem_nil, or_false] at hx
          rcases hx with rfl | rfl
          · exact (hin p hp).1
          · exact (hin p hp).2
        exact congrArg Prod.fst (left _ (mem x hx) _ (mem y hy) e)
      · intro n k
        have imp : ∀ n k, (n, k) ∈ ps.map (fun p => (copyOf p.1, copyOf p.2)) →
            (st1.partner n = some k ∧ Cross cs n k) ∧ (st1.partner k = some n ∧ Cross cs k n) := by
          intro n k hnk
          obtain ⟨⟨l, m⟩, hp, e⟩ := List.mem_map.mp hnk
          obtain ⟨rfl, rfl⟩ := Prod.mk.inj e
          obtain ⟨h1, h2⟩ := hin _ hp
          obtain ⟨a1, a2⟩ := (hps.exact l m).mp (Or.inl hp)
          obtain ⟨b1, b2⟩ := (hps.exact m l).mp (Or.inr hp)
          exact ⟨⟨(partner _ h1 _ h2).mpr a1, (cross _ h1 _ h2).mpr a2⟩, (partner _ h2 _ h1).mpr b1, (cross _ h2 _ h1).mpr b2⟩
        constructor
        · rintro (hh | hh)
          · exact (imp n k hh).1
          · exact (imp k n hh).2
        · rintro ⟨h1, h2⟩
          obtain ⟨⟨c, hc, hn, _⟩, d, hd, hk⟩ := id h2
          obtain ⟨u, hu, l, hl, hp⟩ := back c hc n hn
          obtain ⟨v, hv, m, hm, hq⟩ := back d hd k hk
          have el : copyOf l = n := copyOf_eq _ hp
          have em : copyOf m = k := copyOf_eq _ hq
          rcases (hps.exact l m).mpr ⟨(partner _ hp _ hq).mp h1, (cross _ hp _ hq).mp h2⟩ with hh | hh
          · exact Or.inl (List.mem_map.mpr ⟨(l, m), hh, by rw [← el, ← em]⟩)
          · exact Or.inr (List.mem_map.mpr ⟨(m, l), hh, by rw [← el, ← em]⟩)
    rw [hval _ bl τ (fun n hn => by
      have := hτ n ((hlegs n).mpr hn)
      rwa [same.dim] at this)]
    unfold netSum
    symm
    refine sumBonds_twins right left (fun p hp => (attr p hp).1) ?_ _ _ ?_ _ _ ?_
    · intro σ τ' hh
      have : ts.map (fun t => entry t σ) = cs.map (fun c => entry c τ') := by
        apply List.ext_getElem (by simp [hlen])
        intro i h1 h2
        simp only [List.length_map] at h1 h2
        simp only [List.getElem_map]
        have P := (List.forall₂_iff_get.mp copies).2 i h1 h2
        simp only [List.get_eq_getElem] at P
        refine entry_twins P fun p hp => hh p ?_
        exact List.mem_flatMap.mpr ⟨(ts[i], cs[i]),
          List.mem_of_getElem? (i := i) (List.getElem?_zip_eq_some.mpr ⟨by simp [h1], by simp [h2]⟩), hp⟩
      rw [this]
    · clear hps bl
      induction ps with
      | nil => exact .nil
      | cons p ps ih => exact .cons (hin p (by simp)) (ih fun q hq => hin q (by simp [hq]))
    · intro p hp
      rw [copyOf_eq p hp]

/-- A diagonal tensor without legs. -/
example : copyTensorList (fun _ _ => (0 : Int)) Store.empty [{ legs := [], a := some (NDArray.scalar 7), like := false, diag := true, length := 1, id := 0 }] =
    .error .indexError :=
  C12_scalar_diagonal_raises _ _ _ rfl rfl rfl 7 rfl []

end CTL
