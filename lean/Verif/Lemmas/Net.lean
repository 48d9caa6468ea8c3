import Verif.Spec.Sequence
import Verif.Model.Sequence
import Verif.Lemmas.Link
import Verif.Lemmas.SumBonds

/-! Helper lemmas about networks. -/

namespace CTL
variable {R : Type}

/-- Flipping pairs does not change a sum over bonds. -/
theorem sumBonds_flip [AddMonoid R] (dim : LegId → Nat) (g : LegId × LegId → LegId × LegId)
    (ps : List (LegId × LegId)) (hg : ∀ p ∈ ps, g p = p ∨ g p = p.swap)
    (hd : ∀ p ∈ ps, dim p.2 = dim p.1) (f : Assign → R) (σ : Assign) :
    sumBonds dim (ps.map g) f σ = sumBonds dim ps f σ := by
  induction ps generalizing σ with
  | nil => rfl
  | cons p ps ih =>
    obtain ⟨l, m⟩ := p
    have ih := ih (fun p hp => hg p (by simp [hp])) (fun p hp => hd p (by simp [hp]))
    have hdd : dim m = dim l := hd (l, m) (by simp)
    rcases hg (l, m) (by simp) with h | h
    · rw [List.map_cons, h]
      simp only [sumBonds, ih]
    · rw [List.map_cons, h]
      simp only [Prod.swap, sumBonds, ih, hdd]
      congr 1
      apply List.map_congr_left
      intro k _
      rw [set_comm_same]

theorem IsBondList.perm {st : Store} {L L' : List (Tensor R)} (h : L.Perm L') {ps}
    (b : IsBondList st L ps) : IsBondList st L' ps := by
  refine ⟨b.once, fun l m => ?_⟩
  rw [b.exact]
  simp only [Cross, h.mem_iff]

theorem GoodNet.perm {st : Store} {L L' : List (Tensor R)} (h : L.Perm L') (g : GoodNet st L) :
    GoodNet st L' :=
  ⟨g.inv, fun t ht => g.good t (h.mem_iff.mpr ht), (h.flatMap_right _).nodup_iff.mp g.nodup⟩

theorem netSum_perm [CommSemiring R] (st : Store) {L L' : List (Tensor R)} (h : L.Perm L') (ps) (σ : Assign) :
    netSum st L ps σ = netSum st L' ps σ := by
  unfold netSum
  congr 1
  funext τ
  exact (h.map _).prod_eq

theorem mem_pairLegs {ps : List (LegId × LegId)} {x : LegId} :
    x ∈ (ps.flatMap fun p => [p.1, p.2]) ↔ ∃ p ∈ ps, x = p.1 ∨ x = p.2 := by
  simp [List.mem_flatMap]

theorem bondList_dims {st : Store} (inv : BondInv st) {L : List (Tensor R)} {ps} (b : IsBondList st L ps) :
    ∀ p ∈ ps, st.dim p.2 = st.dim p.1 := by
  intro p hp
  exact partner_dim inv ((b.exact p.1 p.2).mp (Or.inl hp)).1

theorem pairLegs_nodup_list {ps : List (LegId × LegId)} (h : (ps.flatMap fun p => [p.1, p.2]).Nodup) :
    ps.Nodup := by
  have := (pairLegs_perm ps).nodup_iff.mp h
  exact List.Nodup.of_map _ (List.nodup_append.mp this).1

theorem pairLegs_ne {ps : List (LegId × LegId)} (h : (ps.flatMap fun p => [p.1, p.2]).Nodup) {p q}
    (hp : p ∈ ps) (hq : q ∈ ps) : p.1 ≠ q.2 := by
  have := (pairLegs_perm ps).nodup_iff.mp h
  rw [List.nodup_append] at this
  exact this.2.2 _ (List.mem_map_of_mem hp) _ (List.mem_map_of_mem hq)

/-- The network sum does not depend on the order or orientation in which the bonds are listed. -/
theorem netSum_unique [CommSemiring R] {st : Store} (inv : BondInv st) {L : List (Tensor R)} {ps qs}
    (hp : IsBondList st L ps) (hq : IsBondList st L qs) (σ : Assign) :
    netSum st L ps σ = netSum st L qs σ := by
  let g : LegId × LegId → LegId × LegId := fun p => if p ∈ qs then p else p.swap
  have hgmem : ∀ p ∈ ps, g p ∈ qs := by
    intro p hp'
    have := (hq.exact p.1 p.2).mpr ((hp.exact p.1 p.2).mp (Or.inl hp'))
    by_cases h : p ∈ qs
    · simp only [g, h, if_true]
    · simp only [g, h, if_false]
      rcases this with h' | h'
      · exact absurd h' h
      · exact h'
  have hperm : (ps.map g).Perm qs := by
    have n1 : (ps.map g).Nodup := by
      rw [List.nodup_map_iff_inj_on (pairLegs_nodup_list hp.once)]
      intro p h1 q h2 he
      by_cases c1 : p ∈ qs <;> by_cases c2 : q ∈ qs <;> simp only [g, c1, c2, if_true, if_false] at he
      · exact he
      · exfalso
        have := pairLegs_ne hp.once h1 h2
        rw [he] at this; exact this rfl
      · exfalso
        have := pairLegs_ne hp.once h2 h1
        rw [← he] at this; exact this rfl
      · exact Prod.swap_injective he
    rw [List.perm_ext_iff_of_nodup n1 (pairLegs_nodup_list hq.once)]
    intro q
    rw [List.mem_map]
    constructor
    · rintro ⟨p, h1, rfl⟩; exact hgmem p h1
    · intro h1
      have := (hp.exact q.1 q.2).mpr ((hq.exact q.1 q.2).mp (Or.inl h1))
      rcases this with h | h
      · exact ⟨q, h, by simp [g, h1]⟩
      · refine ⟨(q.2, q.1), h, ?_⟩
        have hn : (q.2, q.1) ∉ qs := by
          intro h3
          exact pairLegs_ne hq.once h1 h3 rfl
        simp only [g, hn, if_false, Prod.swap]
  have nd : (pairLegs (ps.map g)).Nodup := by
    refine (List.Perm.nodup_iff ?_).mp hq.once
    exact (hperm.symm.flatMap_right _)
  unfold netSum
  rw [← sumBonds_perm st.dim hperm nd]
  rw [sumBonds_flip st.dim g ps (fun p _ => by
    by_cases h : p ∈ qs
    · left; simp [g, h]
    · right; simp [g, h]) (bondList_dims inv hp)]

theorem leg_owner_unique {L : List (Tensor R)} (nd : (L.flatMap fun t => t.legs).Nodup) {t t' : Tensor R}
    (ht : t ∈ L) (ht' : t' ∈ L) {l : LegId} (hl : l ∈ t.legs) (hl' : l ∈ t'.legs) : t = t' := by
  induction L with
  | nil => cases ht
  | cons x L ih =>
    rw [List.flatMap_cons, List.nodup_append] at nd
    rw [List.mem_cons] at ht ht'
    rcases ht with rfl | ht <;> rcases ht' with rfl | ht'
    · rfl
    · exact absurd rfl (nd.2.2 l hl l (List.mem_flatMap.mpr ⟨t', ht', hl'⟩))
    · exact absurd rfl (nd.2.2 l hl' l (List.mem_flatMap.mpr ⟨t, ht, hl⟩))
    · exact ih nd.2.1 ht ht'

/-- A bond list exists. -/
theorem exists_bondList {st : Store} {L : List (Tensor R)} (g : GoodNet st L) : ∃ ps, IsBondList st L ps := by
  classical
  let cond : LegId → Option (LegId × LegId) := fun l =>
    match st.partner l with
    | none => none
    | some m => if l < m ∧ Cross L l m then some (l, m) else none
  have key : ∀ l p, cond l = some p ↔ p.1 = l ∧ st.partner l = some p.2 ∧ l < p.2 ∧ Cross L l p.2 := by
    intro l p
    simp only [cond]
    cases h : st.partner l with
    | none => simp
    | some m =>
      simp only
      by_cases hc : l < m ∧ Cross L l m
      · simp only [hc, and_self, if_true, Option.some.injEq]
        constructor
        · rintro rfl; exact ⟨rfl, rfl, hc⟩
        · rintro ⟨h1, h2, _⟩; exact Prod.ext h1.symm h2
      · simp only [hc, if_false, Option.some.injEq]
        constructor
        · intro h; cases h
        · rintro ⟨h1, h2, h3⟩; subst h2; exact absurd h3 hc
  have cross_symm : ∀ l m, Cross L l m → Cross L m l := by
    rintro l m ⟨⟨t, ht, hl, hm⟩, t', ht', hm'⟩
    refine ⟨⟨t', ht', hm', ?_⟩, t, ht, hl⟩
    intro hl'
    have hne : t ≠ t' := by rintro rfl; exact hm hm'
    exact hne (leg_owner_unique g.nodup ht ht' hl hl')
  refine ⟨(L.flatMap fun t => t.legs).filterMap cond, ?_, ?_⟩
  · have hfst : ((L.flatMap fun t => t.legs).filterMap cond).map Prod.fst
        = (L.flatMap fun t => t.legs).filter (fun l => (cond l).isSome) := by
      generalize (L.flatMap fun t => t.legs) = ls
      induction ls with
      | nil => rfl
      | cons l ls ih =>
        cases h : cond l with
        | none => simp [h, ih]
        | some p =>
          simp [h, ih, ((key l p).mp h).1]
    have n1 : (((L.flatMap fun t => t.legs).filterMap cond).map Prod.fst).Nodup := by
      rw [hfst]; exact g.nodup.filter _
    have nl := List.Nodup.of_map _ n1
    refine (pairLegs_perm _).nodup_iff.mpr ?_
    rw [List.nodup_append]
    refine ⟨n1, ?_, ?_⟩
    · rw [List.nodup_map_iff_inj_on nl]
      intro p hp q hq he
      rw [List.mem_filterMap] at hp hq
      obtain ⟨l, _, h1⟩ := hp
      obtain ⟨l', _, h2⟩ := hq
      rw [key] at h1 h2
      have a1 := partner_symm g.inv h1.2.1
      have a2 := partner_symm g.inv h2.2.1
      rw [he, a2, Option.some.injEq] at a1
      exact Prod.ext (h1.1.trans (a1.symm.trans h2.1.symm)) he
    · intro a ha b hb he
      rw [List.mem_map] at ha hb
      obtain ⟨p, hp, rfl⟩ := ha
      obtain ⟨q, hq, rfl⟩ := hb
      rw [List.mem_filterMap] at hp hq
      obtain ⟨l, _, h1⟩ := hp
      obtain ⟨l', _, h2⟩ := hq
      rw [key] at h1 h2
      -- p.1 < p.2 and q.1 < q.2 = p.1, with q.1 = partner of p.1 = p.2
      have a2 := partner_symm g.inv h2.2.1
      rw [← he, h1.1, h1.2.1, Option.some.injEq] at a2
      have l1 := h1.2.2.1
      have l2 := h2.2.2.1
      rw [← he, h1.1, ← a2] at l2
      exact absurd l1 (Nat.lt_asymm l2)
  · intro l m
    simp only [List.mem_filterMap, key]
    constructor
    · rintro (⟨x, hx, h1, h2, h3, h4⟩ | ⟨x, hx, h1, h2, h3, h4⟩)
      · subst h1; exact ⟨h2, h4⟩
      · subst h1; exact ⟨partner_symm g.inv h2, cross_symm _ _ h4⟩
    · rintro ⟨h1, h2⟩
      have hne : l ≠ m := by
        rintro rfl
        obtain ⟨⟨t, _, a, b⟩, _⟩ := h2
        exact b a
      rcases Nat.lt_or_gt_of_ne hne with h | h
      · left
        obtain ⟨⟨t, ht, a, _⟩, _⟩ := id h2
        exact ⟨l, List.mem_flatMap.mpr ⟨t, ht, a⟩, rfl, h1, h, h2⟩
      · right
        obtain ⟨_, t, ht, a⟩ := id h2
        exact ⟨m, List.mem_flatMap.mpr ⟨t, ht, a⟩, rfl, partner_symm g.inv h1, h, cross_symm _ _ h2⟩

section step
variable {st : Store} {a b : Tensor R} {L : List (Tensor R)}

theorem GoodNet.split (g : GoodNet st (a :: b :: L)) :
    (∀ x ∈ a.legs, x ∉ b.legs) ∧ (∀ x ∈ a.legs, ∀ t ∈ L, x ∉ t.legs) ∧ (∀ x ∈ b.legs, ∀ t ∈ L, x ∉ t.legs) ∧
    (L.flatMap fun t => t.legs).Nodup := by
  have := g.nodup
  rw [List.flatMap_cons, List.flatMap_cons, List.nodup_append, List.nodup_append] at this
  obtain ⟨_, ⟨_, h3, h4⟩, h5⟩ := this
  refine ⟨?_, ?_, ?_, h3⟩
  · intro x hx hx'; exact h5 x hx x (by simp [hx']) rfl
  · intro x hx t ht hx'
    exact h5 x hx x (by rw [List.mem_append, List.mem_flatMap]; exact Or.inr ⟨t, ht, hx'⟩) rfl
  · intro x hx t ht hx'
    exact h4 x hx x (by rw [List.mem_flatMap]; exact ⟨t, ht, hx'⟩) rfl

variable [CommSemiring R] {o : ContractOut R}

theorem mem_result (h : Contracted st a b (sharedPairs st a.legs b.legs) o) (inv : BondInv st) (l : LegId) :
    l ∈ o.result.legs ↔ (l ∈ a.legs ∧ ∀ m, st.partner l = some m → m ∉ b.legs) ∨
      (l ∈ b.legs ∧ ∀ m, st.partner l = some m → m ∉ a.legs) := by
  rw [h.legs.mem_iff, List.mem_append]
  unfold restA restB
  simp only [List.mem_filter, decide_eq_true_eq, List.mem_map, not_exists, not_and]
  constructor
  · rintro (⟨h1, h2⟩ | ⟨h1, h2⟩)
    · left
      refine ⟨h1, fun m hm hmb => h2 (l, m) ((mem_sharedPairs (p := (l, m))).mpr ⟨h1, hm, hmb⟩) rfl⟩
    · right
      refine ⟨h1, fun m hm hma => h2 (m, l) ((mem_sharedPairs (p := (m, l))).mpr
        ⟨hma, partner_symm inv hm, h1⟩) rfl⟩
  · rintro (⟨h1, h2⟩ | ⟨h1, h2⟩)
    · left
      refine ⟨h1, ?_⟩
      rintro p hp rfl
      rw [mem_sharedPairs] at hp
      exact h2 _ hp.2.1 hp.2.2
    · right
      refine ⟨h1, ?_⟩
      rintro p hp rfl
      rw [mem_sharedPairs] at hp
      exact h2 _ (partner_symm inv hp.2.1) hp.1

theorem step_goodNet (g : GoodNet st (a :: b :: L))
    (h : Contracted st a b (sharedPairs st a.legs b.legs) o) : GoodNet o.store (o.result :: L) := by
  obtain ⟨dab, daL, dbL, nL⟩ := g.split
  refine ⟨h.same.inv g.inv, ?_, ?_⟩
  · intro t ht
    rw [List.mem_cons] at ht
    rcases ht with rfl | ht
    · exact h.good
    · exact (g.good t (by simp [ht])).congr h.same
  · rw [List.flatMap_cons, List.nodup_append]
    refine ⟨h.good.nodup, nL, ?_⟩
    intro x hx y hy he
    subst he
    rw [List.mem_flatMap] at hy
    obtain ⟨t, ht, hx'⟩ := hy
    rw [mem_result h g.inv] at hx
    rcases hx with hx | hx
    · exact daL x hx.1 t ht hx'
    · exact dbL x hx.1 t ht hx'

theorem cross_step (g : GoodNet st (a :: b :: L))
    (h : Contracted st a b (sharedPairs st a.legs b.legs) o) {l m : LegId} (hp : st.partner l = some m) :
    Cross (a :: b :: L) l m ↔ ((l ∈ a.legs ∧ m ∈ b.legs) ∨ (l ∈ b.legs ∧ m ∈ a.legs)) ∨
      Cross (o.result :: L) l m := by
  obtain ⟨dab, daL, dbL, nL⟩ := g.split
  have hmr := mem_result h g.inv
  have hp' := partner_symm g.inv hp
  have notc : ∀ x t, t ∈ L → x ∈ t.legs → x ∉ o.result.legs := by
    intro x t ht hx hx'
    rw [hmr] at hx'
    rcases hx' with h1 | h1
    · exact daL x h1.1 t ht hx
    · exact dbL x h1.1 t ht hx
  have ina : ∀ x y t, st.partner x = some y → x ∈ a.legs → t ∈ L → y ∈ t.legs → x ∈ o.result.legs := by
    intro x y t hxy hx ht hy
    rw [hmr]; left
    refine ⟨hx, fun z hz hzb => ?_⟩
    rw [hxy, Option.some.injEq] at hz
    exact dbL z hzb t ht (hz ▸ hy)
  have inb : ∀ x y t, st.partner x = some y → x ∈ b.legs → t ∈ L → y ∈ t.legs → x ∈ o.result.legs := by
    intro x y t hxy hx ht hy
    rw [hmr]; right
    refine ⟨hx, fun z hz hza => ?_⟩
    rw [hxy, Option.some.injEq] at hz
    exact daL z hza t ht (hz ▸ hy)
  constructor
  · rintro ⟨⟨t, ht, hl, hm⟩, t', ht', hm'⟩
    simp only [List.mem_cons] at ht ht'
    rcases ht with rfl | rfl | ht <;> rcases ht' with rfl | rfl | ht'
    · exact absurd hm' hm
    · exact Or.inl (Or.inl ⟨hl, hm'⟩)
    · right
      exact ⟨⟨o.result, by simp, ina l m t' hp hl ht' hm', notc m t' ht' hm'⟩, t', by simp [ht'], hm'⟩
    · exact Or.inl (Or.inr ⟨hl, hm'⟩)
    · exact absurd hm' hm
    · right
      exact ⟨⟨o.result, by simp, inb l m t' hp hl ht' hm', notc m t' ht' hm'⟩, t', by simp [ht'], hm'⟩
    · right
      exact ⟨⟨t, by simp [ht], hl, hm⟩, o.result, by simp, ina m l t hp' hm' ht hl⟩
    · right
      exact ⟨⟨t, by simp [ht], hl, hm⟩, o.result, by simp, inb m l t hp' hm' ht hl⟩
    · right
      exact ⟨⟨t, by simp [ht], hl, hm⟩, t', by simp [ht'], hm'⟩
  · rintro ((⟨h1, h2⟩ | ⟨h1, h2⟩) | ⟨⟨t, ht, hl, hm⟩, t', ht', hm'⟩)
    · exact ⟨⟨a, by simp, h1, fun h' => dab m h' h2⟩, b, by simp, h2⟩
    · exact ⟨⟨b, by simp, h1, fun h' => dab m h2 h'⟩, a, by simp, h2⟩
    · simp only [List.mem_cons] at ht ht'
      rcases ht with rfl | ht <;> rcases ht' with rfl | ht'
      · exact absurd hm' hm
      · rw [hmr] at hl
        rcases hl with hl | hl
        · exact ⟨⟨a, by simp, hl.1, fun h' => daL m h' t' ht' hm'⟩, t', by simp [ht'], hm'⟩
        · exact ⟨⟨b, by simp, hl.1, fun h' => dbL m h' t' ht' hm'⟩, t', by simp [ht'], hm'⟩
      · rw [hmr] at hm'
        rcases hm' with hm' | hm'
        · exact ⟨⟨t, by simp [ht], hl, hm⟩, a, by simp, hm'.1⟩
        · exact ⟨⟨t, by simp [ht], hl, hm⟩, b, by simp, hm'.1⟩
      · exact ⟨⟨t, by simp [ht], hl, hm⟩, t', by simp [ht'], hm'⟩

/-- The bonds of the network before a step: those between the two operands, and those of the network after. -/
theorem step_bondList (g : GoodNet st (a :: b :: L))
    (h : Contracted st a b (sharedPairs st a.legs b.legs) o) {ps} (hb : IsBondList o.store (o.result :: L) ps) :
    IsBondList st (a :: b :: L) (sharedPairs st a.legs b.legs ++ ps) := by
  obtain ⟨dab, daL, dbL, nL⟩ := g.split
  have hpart := h.same.partner g.inv
  have na := (g.good a (by simp)).nodup
  have hsh := sharedPairs_nodup g.inv na dab
  constructor
  · rw [List.flatMap_append, List.nodup_append]
    refine ⟨(pairLegs_perm _).nodup_iff.mpr hsh, hb.once, ?_⟩
    intro x hx y hy he
    subst he
    rw [mem_pairLegs] at hx hy
    obtain ⟨p, hp, hxp⟩ := hx
    obtain ⟨q, hq, hxq⟩ := hy
    rw [mem_sharedPairs] at hp
    -- the partner of x is the other leg of p, and q joins x to that partner across c :: L
    have hq' := (hb.exact q.1 q.2).mp (Or.inl hq)
    have hq'' := (hb.exact q.2 q.1).mp (Or.inr hq)
    have hmr := mem_result h g.inv
    have contra : ∀ x y, st.partner x = some y → (x ∈ a.legs ∧ y ∈ b.legs ∨ x ∈ b.legs ∧ y ∈ a.legs) →
        ∀ t ∈ o.result :: L, x ∉ t.legs := by
      intro x y hxy hc t ht hx
      rw [List.mem_cons] at ht
      rcases ht with rfl | ht
      · rw [hmr] at hx
        rcases hx with hx | hx <;> rcases hc with hc | hc
        · exact hx.2 y hxy hc.2
        · exact dab x hx.1 hc.1
        · exact dab x hc.1 hx.1
        · exact hx.2 y hxy hc.2
      · rcases hc with hc | hc
        · exact daL x hc.1 t ht hx
        · exact dbL x hc.1 t ht hx
    have hx1 : ∃ t ∈ o.result :: L, x ∈ t.legs := by
      rcases hxq with rfl | rfl
      · obtain ⟨⟨t, ht, hl, _⟩, _⟩ := hq'.2; exact ⟨t, ht, hl⟩
      · obtain ⟨⟨t, ht, hl, _⟩, _⟩ := hq''.2; exact ⟨t, ht, hl⟩
    obtain ⟨t, ht, hxt⟩ := hx1
    rcases hxp with rfl | rfl
    · exact contra _ _ hp.2.1 (Or.inl ⟨hp.1, hp.2.2⟩) t ht hxt
    · exact contra _ _ (partner_symm g.inv hp.2.1) (Or.inr ⟨hp.2.2, hp.1⟩) t ht hxt
  · intro l m
    simp only [List.mem_append, mem_sharedPairs]
    have hbe := hb.exact l m
    rw [hpart] at hbe
    constructor
    · intro hh
      have : (st.partner l = some m) ∧ (((l ∈ a.legs ∧ m ∈ b.legs) ∨ (l ∈ b.legs ∧ m ∈ a.legs)) ∨
          Cross (o.result :: L) l m) := by
        rcases hh with (hh | hh) | (hh | hh)
        · exact ⟨hh.2.1, Or.inl (Or.inl ⟨hh.1, hh.2.2⟩)⟩
        · have := hbe.mp (Or.inl hh); exact ⟨this.1, Or.inr this.2⟩
        · exact ⟨partner_symm g.inv hh.2.1, Or.inl (Or.inr ⟨hh.2.2, hh.1⟩)⟩
        · have := hbe.mp (Or.inr hh); exact ⟨this.1, Or.inr this.2⟩
      exact ⟨this.1, (cross_step g h this.1).mpr this.2⟩
    · rintro ⟨h1, h2⟩
      rcases (cross_step g h h1).mp h2 with (h3 | h3) | h3
      · exact Or.inl (Or.inl ⟨h3.1, h1, h3.2⟩)
      · exact Or.inr (Or.inl ⟨h3.2, partner_symm g.inv h1, h3.1⟩)
      · rcases hbe.mpr ⟨h1, h3⟩ with h4 | h4
        · exact Or.inl (Or.inr h4)
        · exact Or.inr (Or.inr h4)

theorem step_free (g : GoodNet st (a :: b :: L))
    (h : Contracted st a b (sharedPairs st a.legs b.legs) o) (l : LegId) :
    FreeLeg o.store (o.result :: L) l ↔ FreeLeg st (a :: b :: L) l := by
  have hpart := h.same.partner g.inv
  have hmr := mem_result h g.inv
  unfold FreeLeg
  rw [hpart]
  constructor
  · rintro ⟨⟨t, ht, hl⟩, h2⟩
    rw [List.mem_cons] at ht
    have key : ∀ m, st.partner l = some m → ¬ ((l ∈ a.legs ∧ m ∈ b.legs) ∨ (l ∈ b.legs ∧ m ∈ a.legs)) := by
      intro m hm hc
      obtain ⟨dab, daL, dbL, _⟩ := g.split
      rcases ht with rfl | ht
      · rw [hmr] at hl
        rcases hl with hl | hl <;> rcases hc with hc | hc
        · exact hl.2 m hm hc.2
        · exact dab l hl.1 hc.1
        · exact dab l hc.1 hl.1
        · exact hl.2 m hm hc.2
      · rcases hc with hc | hc
        · exact daL l hc.1 t ht hl
        · exact dbL l hc.1 t ht hl
    refine ⟨?_, ?_⟩
    · rcases ht with rfl | ht
      · rw [hmr] at hl
        rcases hl with hl | hl
        · exact ⟨a, by simp, hl.1⟩
        · exact ⟨b, by simp, hl.1⟩
      · exact ⟨t, by simp [ht], hl⟩
    · intro m hm hc
      rcases (cross_step g h hm).mp hc with h3 | h3
      · exact key m hm h3
      · exact h2 m hm h3
  · rintro ⟨⟨t, ht, hl⟩, h2⟩
    refine ⟨?_, fun m hm hc => h2 m hm ((cross_step g h hm).mpr (Or.inr hc))⟩
    simp only [List.mem_cons] at ht
    rcases ht with rfl | rfl | ht
    · refine ⟨o.result, by simp, (hmr l).mpr (Or.inl ⟨hl, fun m hm hmb => ?_⟩)⟩
      exact h2 m hm ((cross_step g h hm).mpr (Or.inl (Or.inl ⟨hl, hmb⟩)))
    · refine ⟨o.result, by simp, (hmr l).mpr (Or.inr ⟨hl, fun m hm hma => ?_⟩)⟩
      exact h2 m hm ((cross_step g h hm).mpr (Or.inl (Or.inr ⟨hl, hma⟩)))
    · exact ⟨t, by simp [ht], hl⟩

theorem prod_entries_congr (ts : List (Tensor R)) {σ τ : Assign} (h : ∀ t ∈ ts, ∀ l ∈ t.legs, σ l = τ l) :
    (ts.map fun t => entry t σ).prod = (ts.map fun t => entry t τ).prod := by
  congr 1
  apply List.map_congr_left
  intro t ht
  exact entry_congr t (h t ht)

/-- One contraction does not change the network sum. -/
theorem step_value (g : GoodNet st (a :: b :: L))
    (h : Contracted st a b (sharedPairs st a.legs b.legs) o) {ps} (hb : IsBondList o.store (o.result :: L) ps)
    (σ : Assign) (hσ : ∀ l, FreeLeg st (a :: b :: L) l → σ l < st.dim l) :
    netSum st (a :: b :: L) (sharedPairs st a.legs b.legs ++ ps) σ = netSum o.store (o.result :: L) ps σ := by
  obtain ⟨dab, daL, dbL, nL⟩ := g.split
  have hbl := step_bondList g h hb
  unfold netSum
  rw [h.same.dim, sumBonds_perm st.dim List.perm_append_comm hbl.once, sumBonds_append]
  apply sumBonds_congr
  intro idx hv
  set τ := assign σ ps idx with hτ
  simp only [List.map_cons, List.prod_cons]
  have e1 : (fun ρ => entry a ρ * (entry b ρ * (L.map fun t => entry t ρ).prod))
      = fun ρ => (L.map fun t => entry t ρ).prod * (entry a ρ * entry b ρ) := by
    funext ρ; ring
  rw [e1, sumBonds_mul_left]
  · rw [mul_comm, h.entry]
    -- τ is in range on the legs of the result
    rw [hτ]
    apply assign_inRange st.dim o.result.legs σ ps idx hv
    · have := bondList_dims (h.same.inv g.inv) hb
      rw [h.same.dim] at this
      exact this
    · intro l hl h1 h2
      apply hσ
      rw [← step_free g h]
      refine ⟨⟨o.result, by simp, hl⟩, fun m hm hc => ?_⟩
      rcases (hb.exact l m).mpr ⟨hm, hc⟩ with h3 | h3
      · exact h1 (List.mem_map.mpr ⟨_, h3, rfl⟩)
      · exact h2 (List.mem_map.mpr ⟨_, h3, rfl⟩)
  · intro idx' _
    apply prod_entries_congr
    intro t ht l hl
    apply assign_other
    · intro hm
      rw [List.mem_map] at hm
      obtain ⟨p, hp, rfl⟩ := hm
      rw [mem_sharedPairs] at hp
      exact daL _ hp.1 t ht hl
    · intro hm
      rw [List.mem_map] at hm
      obtain ⟨p, hp, rfl⟩ := hm
      rw [mem_sharedPairs] at hp
      exact dbL _ hp.2.2 t ht hl

end step
end CTL
