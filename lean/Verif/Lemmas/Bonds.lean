import Verif.Lemmas.Contract

/-! Helper lemmas about legs, bonds and `shareBonds`. -/

namespace CTL
variable {R : Type}

theorem partner_some {st : Store} (_inv : BondInv st) {l m : LegId} (h : st.partner l = some m) :
    ∃ b, (st.leg l).bond = some b ∧ m = (if (st.bond b).1 = l then (st.bond b).2 else (st.bond b).1) := by
  unfold Store.partner at h
  split at h
  · cases h
  · rename_i b hb
    exact ⟨b, hb, by simpa using h.symm⟩

theorem bondAnotherSide_eq {st : Store} (inv : BondInv st) {l : LegId} {b : BondId}
    (hb : (st.leg l).bond = some b) :
    st.bondAnotherSide b l = .ok (if (st.bond b).1 = l then (st.bond b).2 else (st.bond b).1) := by
  unfold Store.bondAnotherSide
  obtain ⟨h, _⟩ := inv l b hb
  by_cases h1 : (st.bond b).1 = l
  · simp [h1]
  · have h2 : (st.bond b).2 = l := by tauto
    simp [h1, h2]

theorem partner_symm {st : Store} (inv : BondInv st) {l m : LegId} (h : st.partner l = some m) :
    st.partner m = some l := by
  obtain ⟨b, hb, rfl⟩ := partner_some inv h
  obtain ⟨h0, h1, h2, _⟩ := inv l b hb
  by_cases hl : (st.bond b).1 = l
  · simp only [hl, if_true]
    unfold Store.partner
    rw [h2]
    simp only [Option.some.injEq]
    by_cases hxy : (st.bond b).1 = (st.bond b).2
    · rw [if_pos hxy]; rw [← hxy, hl]
    · rw [if_neg hxy, hl]
  · simp only [hl, if_false]
    unfold Store.partner
    rw [h1]
    simp only [if_true, Option.some.injEq]
    tauto

theorem partner_dim {st : Store} (inv : BondInv st) {l m : LegId} (h : st.partner l = some m) :
    st.dim m = st.dim l := by
  obtain ⟨b, hb, rfl⟩ := partner_some inv h
  obtain ⟨h0, h1, h2, h3⟩ := inv l b hb
  by_cases hl : (st.bond b).1 = l
  · simp only [hl, if_true]; rw [← h3, hl]
  · have : (st.bond b).2 = l := by tauto
    simp only [hl, if_false]; rw [h3, this]

theorem mem_sharedPairs {st : Store} {la lb : List LegId} {p : LegId × LegId} :
    p ∈ sharedPairs st la lb ↔ p.1 ∈ la ∧ st.partner p.1 = some p.2 ∧ p.2 ∈ lb := by
  unfold sharedPairs
  rw [List.mem_filterMap]
  constructor
  · rintro ⟨l, hl, h⟩
    split at h
    · rename_i m hm
      split at h
      · rename_i hmb
        simp only [Option.some.injEq] at h
        subst h
        exact ⟨hl, hm, hmb⟩
      · cases h
    · cases h
  · rintro ⟨h1, h2, h3⟩
    exact ⟨p.1, h1, by rw [h2]; simp [h3]⟩

theorem sharedPairs_fst (st : Store) (la lb : List LegId) :
    (sharedPairs st la lb).map Prod.fst = la.filter (fun l => decide (∃ m, st.partner l = some m ∧ m ∈ lb)) := by
  induction la with
  | nil => rfl
  | cons l la ih =>
    unfold sharedPairs at ih ⊢
    cases h : st.partner l with
    | none => simp [h, ih]
    | some m =>
      by_cases hm : m ∈ lb
      · simp [h, hm, ih]
      · simp [h, hm, ih]

theorem sharedPairs_nodup {st : Store} (inv : BondInv st) {la lb : List LegId} (na : la.Nodup)
    (hd : ∀ x ∈ la, x ∉ lb) :
    ((sharedPairs st la lb).map Prod.fst ++ (sharedPairs st la lb).map Prod.snd).Nodup := by
  have n1 : ((sharedPairs st la lb).map Prod.fst).Nodup := by
    rw [sharedPairs_fst]; exact na.filter _
  rw [List.nodup_append]
  refine ⟨n1, ?_, ?_⟩
  · have hp : (sharedPairs st la lb).Nodup := List.Nodup.of_map _ n1
    rw [List.nodup_map_iff_inj_on hp]
    intro p hp q hq h
    rw [mem_sharedPairs] at hp hq
    have h1 := partner_symm inv hp.2.1
    have h2 := partner_symm inv hq.2.1
    rw [h] at h1
    rw [h1] at h2
    simp only [Option.some.injEq] at h2
    exact Prod.ext h2 h
  · intro a ha b hb he
    rw [List.mem_map] at ha hb
    obtain ⟨p, hp, rfl⟩ := ha
    obtain ⟨q, hq, rfl⟩ := hb
    rw [mem_sharedPairs] at hp hq
    exact hd _ hp.1 (he ▸ hq.2.2)

/-- Two stores that differ at most in the orientation of bonds. -/
structure SameUpToOrientation (st st' : Store) : Prop where
  leg : st'.leg = st.leg
  bond : ∀ b, st'.bond b = st.bond b ∨ st'.bond b = ((st.bond b).2, (st.bond b).1)
  nextLeg : st'.nextLeg = st.nextLeg
  nextBond : st'.nextBond = st.nextBond
  nextTensor : st'.nextTensor = st.nextTensor

theorem SameUpToOrientation.refl (st : Store) : SameUpToOrientation st st :=
  ⟨rfl, fun _ => Or.inl rfl, rfl, rfl, rfl⟩

theorem SameUpToOrientation.trans {a b c : Store} (h1 : SameUpToOrientation a b)
    (h2 : SameUpToOrientation b c) : SameUpToOrientation a c := by
  refine ⟨h2.leg.trans h1.leg, ?_, h2.nextLeg.trans h1.nextLeg, h2.nextBond.trans h1.nextBond,
    h2.nextTensor.trans h1.nextTensor⟩
  intro x
  rcases h1.bond x with e1 | e1 <;> rcases h2.bond x with e2 | e2 <;> rw [e2, e1] <;> simp

theorem SameUpToOrientation.partner {a b : Store} (h : SameUpToOrientation a b) (inv : BondInv a)
    (l : LegId) : b.partner l = a.partner l := by
  unfold Store.partner
  rw [h.leg]
  split
  · rfl
  · rename_i x hx
    obtain ⟨h0, _⟩ := inv l x hx
    rcases h.bond x with e | e
    · rw [e]
    · rw [e]
      simp only [Option.some.injEq]
      by_cases h1 : (a.bond x).1 = l <;> by_cases h2 : (a.bond x).2 = l
      · simp [h1, h2]
      · simp [h1, h2]
      · simp [h1, h2]
      · tauto

theorem SameUpToOrientation.dim {a b : Store} (h : SameUpToOrientation a b) : b.dim = a.dim := by
  funext l; unfold Store.dim; rw [h.leg]

theorem SameUpToOrientation.inv {a b : Store} (h : SameUpToOrientation a b) (inv : BondInv a) :
    BondInv b := by
  intro l x hx
  rw [h.leg] at hx
  obtain ⟨h0, h1, h2, h3⟩ := inv l x hx
  rw [h.dim, h.leg]
  rcases h.bond x with e | e
  · rw [e]; exact ⟨h0, h1, h2, h3⟩
  · rw [e]; exact ⟨h0.symm, h2, h1, h3.symm⟩

theorem sharedPairs_congr {a b : Store} (h : ∀ l, b.partner l = a.partner l) (la lb : List LegId) :
    sharedPairs b la lb = sharedPairs a la lb := by
  unfold sharedPairs
  simp only [h]

theorem shareBondsLoop_spec (lb : List LegId) :
    ∀ (la : List LegId) (st : Store), BondInv st → la.Nodup → (∀ x ∈ la, x ∉ lb) →
    ∃ st' bs, shareBondsLoop lb la st = .ok (st', bs) ∧ SameUpToOrientation st st' ∧
      bs.map st'.bond = sharedPairs st la lb ∧
      (∀ b, b ∈ bs → ∃ l ∈ la, (st.leg l).bond = some b) ∧
      (∀ b, b ∉ bs → st'.bond b = st.bond b) := by
  intro la
  induction la with
  | nil =>
    intro st _ _ _
    exact ⟨st, [], rfl, .refl st, rfl, by simp, fun _ _ => rfl⟩
  | cons l la ih =>
    intro st inv nd hd
    rw [List.nodup_cons] at nd
    have hd' : ∀ x ∈ la, x ∉ lb := fun x hx => hd x (by simp [hx])
    unfold shareBondsLoop
    cases hb : (st.leg l).bond with
    | none =>
      obtain ⟨st', bs, h1, h2, h3, h4, h5⟩ := ih st inv nd.2 hd'
      refine ⟨st', bs, h1, h2, ?_, fun b hbs => ?_, h5⟩
      · rw [h3]; unfold sharedPairs; simp [Store.partner, hb]
      · obtain ⟨x, hx, hx'⟩ := h4 b hbs; exact ⟨x, by simp [hx], hx'⟩
    | some b =>
      simp only [bondAnotherSide_eq inv hb]
      obtain ⟨e0, e1, e2, e3⟩ := inv l b hb
      set m := (if (st.bond b).1 = l then (st.bond b).2 else (st.bond b).1) with hm
      have hpm : st.partner l = some m := by unfold Store.partner; rw [hb]
      by_cases hmem : m ∈ lb
      · have hml : m ≠ l := fun h => hd l (by simp) (h ▸ hmem)
        simp only [Except.bind, bind, hmem, if_true]
        set st1 := (if l = (st.bond b).2 then st.setBond b ((st.bond b).2, (st.bond b).1) else st) with hst1
        have hst1b : st1.bond b = (l, m) := by
          rw [hst1]
          by_cases hl2 : l = (st.bond b).2
          · rw [if_pos hl2]
            have hne : (st.bond b).1 ≠ l := by
              intro h; apply hml; rw [hm, if_pos h]; exact hl2.symm
            simp [Store.setBond, hm, hne, ← hl2]
          · have : (st.bond b).1 = l := by
              rcases e0 with h | h
              · exact h
              · exact absurd h.symm hl2
            rw [if_neg hl2, hm, if_pos this, ← this]
        have hst1o : ∀ c, c ≠ b → st1.bond c = st.bond c := by
          intro c hc
          rw [hst1]
          split
          · simp [Store.setBond, hc]
          · rfl
        have hs1 : SameUpToOrientation st st1 := by
          rw [hst1]
          split
          · refine ⟨rfl, fun c => ?_, rfl, rfl, rfl⟩
            by_cases hc : c = b
            · subst hc; right; simp [Store.setBond]
            · left; simp [Store.setBond, hc]
          · exact .refl st
        obtain ⟨st', bs, h1, h2, h3, h4, h5⟩ := ih st1 (hs1.inv inv) nd.2 hd'
        have hbn : b ∉ bs := by
          intro hbs
          obtain ⟨x, hx, hxb⟩ := h4 b hbs
          rw [hs1.leg] at hxb
          obtain ⟨f0, _⟩ := inv x b hxb
          -- x is one of the two ends of b, so it is l or m
          have : x = l ∨ x = m := by
            rw [hm]
            by_cases hl : (st.bond b).1 = l
            · rw [if_pos hl]; rcases f0 with f | f
              · left; rw [← f, hl]
              · right; exact f.symm
            · have hl2 : (st.bond b).2 = l := by tauto
              rw [if_neg hl]; rcases f0 with f | f
              · right; exact f.symm
              · left; rw [← f, hl2]
          rcases this with h | h
          · exact nd.1 (h ▸ hx)
          · exact hd' x hx (h ▸ hmem)
        rw [h1]
        refine ⟨st', b :: bs, rfl, hs1.trans h2, ?_, ?_, ?_⟩
        · rw [List.map_cons, h3, h5 b hbn, hst1b]
          rw [sharedPairs_congr (hs1.partner inv)]
          unfold sharedPairs
          simp [hpm, hmem]
        · intro c hc
          rw [List.mem_cons] at hc
          rcases hc with rfl | hc
          · exact ⟨l, by simp, hb⟩
          · obtain ⟨x, hx, hx'⟩ := h4 c hc
            rw [hs1.leg] at hx'
            exact ⟨x, by simp [hx], hx'⟩
        · intro c hc
          rw [List.mem_cons, not_or] at hc
          rw [h5 c hc.2, hst1o c hc.1]
      · obtain ⟨st', bs, h1, h2, h3, h4, h5⟩ := ih st inv nd.2 hd'
        simp only [Except.bind, bind, hmem, if_false]
        refine ⟨st', bs, h1, h2, ?_, fun b hbs => ?_, h5⟩
        · rw [h3]; unfold sharedPairs; simp [hpm, hmem]
        · obtain ⟨x, hx, hx'⟩ := h4 b hbs; exact ⟨x, by simp [hx], hx'⟩

end CTL
