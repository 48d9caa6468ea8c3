import Verif.Spec.Links
import Verif.Lemmas.Dense

/-! Helper lemmas about links. -/

namespace CTL
variable {R : Type}

/-- The store after `Bond(l, m)`. -/
def bonded (st : Store) (l m : LegId) : Store :=
  { leg := fun x => if x = l ∨ x = m then { st.leg x with bond := some st.nextBond } else st.leg x
    bond := fun b => if b = st.nextBond then (l, m) else st.bond b
    nextLeg := st.nextLeg
    nextBond := st.nextBond + 1
    nextTensor := st.nextTensor }

theorem newBond_eq (st : Store) (l m : LegId) (h : st.dim l = st.dim m) :
    st.newBond l m = .ok (bonded st l m, st.nextBond) := by
  unfold Store.newBond
  rw [if_pos h]
  simp only [Except.ok.injEq, Prod.mk.injEq, and_true]
  unfold bonded Store.setLeg Store.setBond
  simp only [Store.mk.injEq, and_true, true_and]
  funext x
  by_cases h1 : x = m
  · subst h1
    by_cases h2 : x = l
    · subst h2; simp
    · simp [h2]
  · by_cases h2 : x = l
    · subst h2; simp [h1]
    · simp [h1, h2]

theorem bonded_dim (st : Store) (l m x : LegId) : (bonded st l m).dim x = st.dim x := by
  unfold Store.dim bonded
  by_cases h : x = l ∨ x = m <;> simp [h]

theorem bonded_name (st : Store) (l m x : LegId) : (bonded st l m).name x = st.name x := by
  unfold Store.name bonded
  by_cases h : x = l ∨ x = m <;> simp [h]

theorem bonded_tensor (st : Store) (l m x : LegId) : ((bonded st l m).leg x).tensor = (st.leg x).tensor := by
  unfold bonded
  by_cases h : x = l ∨ x = m <;> simp [h]

theorem bonded_other (st : Store) (l m x : LegId) (h1 : x ≠ l) (h2 : x ≠ m) :
    (bonded st l m).leg x = st.leg x := by
  simp [bonded, h1, h2]

theorem bonded_wf {st : Store} (w : WFStore st) {l m : LegId} (hd : st.dim l = st.dim m)
    (fl : (st.leg l).bond = none) (fm : (st.leg m).bond = none) (al : l < st.nextLeg) (am : m < st.nextLeg) :
    WFStore (bonded st l m) := by
  have key : ∀ x b, ((bonded st l m).leg x).bond = some b →
      ((x = l ∨ x = m) ∧ b = st.nextBond) ∨ (x ≠ l ∧ x ≠ m ∧ (st.leg x).bond = some b) := by
    intro x b hb
    by_cases h : x = l ∨ x = m
    · left
      simp only [bonded, h, if_true, Option.some.injEq] at hb
      exact ⟨h, hb.symm⟩
    · right
      simp only [bonded, h, if_false] at hb
      exact ⟨fun e => h (Or.inl e), fun e => h (Or.inr e), hb⟩
  refine ⟨?_, ?_, ?_⟩
  · intro x b hb
    rcases key x b hb with ⟨h, rfl⟩ | ⟨h1, h2, h3⟩
    · have hbb : (bonded st l m).bond st.nextBond = (l, m) := by simp [bonded]
      rw [hbb]
      refine ⟨?_, by simp [bonded], by simp [bonded], ?_⟩
      · rcases h with h | h
        · exact Or.inl h.symm
        · exact Or.inr h.symm
      · simp only [bonded_dim]; exact hd
    · have hlt := w.freshBond x b h3
      have hbb : (bonded st l m).bond b = st.bond b := by
        simp [bonded, hlt.ne]
      rw [hbb]
      obtain ⟨e0, e1, e2, e3⟩ := w.inv x b h3
      have ne : ∀ y, (st.leg y).bond = some b → y ≠ l ∧ y ≠ m := by
        intro y hy
        refine ⟨?_, ?_⟩
        · rintro rfl; rw [fl] at hy; cases hy
        · rintro rfl; rw [fm] at hy; cases hy
      refine ⟨e0, ?_, ?_, ?_⟩
      · rw [bonded_other st l m _ (ne _ e1).1 (ne _ e1).2]; exact e1
      · rw [bonded_other st l m _ (ne _ e2).1 (ne _ e2).2]; exact e2
      · simp only [bonded_dim]; exact e3
  · intro x b hb
    rcases key x b hb with ⟨h, rfl⟩ | ⟨h1, h2, h3⟩
    · rcases h with rfl | rfl
      · exact al
      · exact am
    · exact w.freshLeg x b h3
  · intro x b hb
    rcases key x b hb with ⟨h, rfl⟩ | ⟨h1, h2, h3⟩
    · exact Nat.lt_succ_self _
    · exact Nat.lt_succ_of_lt (w.freshBond x b h3)

theorem bonded_partner {st : Store} (l m : LegId) :
    (bonded st l m).partner l = some m ∧ (bonded st l m).partner m = some l := by
  constructor
  · simp [Store.partner, bonded]
  · by_cases h : l = m
    · subst h; simp [Store.partner, bonded]
    · simp [Store.partner, bonded, h]

theorem bonded_partner_other {st : Store} (w : WFStore st) {l m x : LegId} (h1 : x ≠ l) (h2 : x ≠ m) :
    (bonded st l m).partner x = st.partner x := by
  unfold Store.partner
  rw [bonded_other st l m x h1 h2]
  cases hb : (st.leg x).bond with
  | none => rfl
  | some b =>
    have := w.freshBond x b hb
    simp [bonded, this.ne]

theorem FreePairs.step {st : Store} {l m : LegId} {ps : List (Option LegId × Option LegId)}
    (h : FreePairs st ((some l, some m) :: ps)) : FreePairs (bonded st l m) ps := by
  have hd := h.disj
  rw [List.pairwise_cons] at hd
  refine ⟨?_, hd.2⟩
  intro p hp x hx
  have hnl : x ≠ l := by
    rintro rfl; exact hd.1 p hp x (Or.inl rfl) hx
  have hnm : x ≠ m := by
    rintro rfl; exact hd.1 p hp x (Or.inr rfl) hx
  have := h.free p (by simp [hp]) x hx
  rw [bonded_other st l m x hnl hnm]
  exact this

theorem linkLoop_wf (ps : List (Option LegId × Option LegId)) :
    ∀ st, WFStore st → FreePairs st ps → WFStore (linkLoop st ps).1 := by
  induction ps with
  | nil => intro st w _; exact w
  | cons p ps ih =>
    intro st w f
    obtain ⟨a, b⟩ := p
    cases a with
    | none => unfold linkLoop; exact w
    | some l =>
      cases b with
      | none => unfold linkLoop; exact w
      | some m =>
        unfold linkLoop
        by_cases hd : st.dim l = st.dim m
        · simp only [hd, if_true]
          rw [newBond_eq st l m hd]
          simp only
          have h1 := f.free _ (List.mem_cons_self ..) l (Or.inl rfl)
          have h2 := f.free _ (List.mem_cons_self ..) m (Or.inr rfl)
          have := ih (bonded st l m) (bonded_wf w hd h1.1 h2.1 h1.2 h2.2) f.step
          split <;> rename_i heq <;> rw [heq] at this <;> exact this
        · simp only [hd, if_false]; exact w

/-- What a run of the loop over good pairs does. -/
theorem linkLoop_ok (ps : List (LegId × LegId)) :
    ∀ st, WFStore st → FreePairs st (ps.map fun p => (some p.1, some p.2)) →
      (∀ p ∈ ps, st.dim p.1 = st.dim p.2) →
    ∃ st' bs, linkLoop st (ps.map fun p => (some p.1, some p.2)) = (st', .ok bs) ∧ bs.length = ps.length ∧
      WFStore st' ∧
      (∀ p ∈ ps, st'.partner p.1 = some p.2 ∧ st'.partner p.2 = some p.1) ∧
      (∀ x, (∀ p ∈ ps, x ≠ p.1 ∧ x ≠ p.2) → st'.partner x = st.partner x ∧ st'.leg x = st.leg x) ∧
      (∀ x, st'.dim x = st.dim x ∧ st'.name x = st.name x ∧ (st'.leg x).tensor = (st.leg x).tensor) ∧
      st'.nextLeg = st.nextLeg ∧ st'.nextTensor = st.nextTensor ∧
      (∀ p ∈ ps.zip bs, (st'.leg p.1.1).bond = some p.2 ∧ (st'.leg p.1.2).bond = some p.2) := by
  induction ps with
  | nil => intro st w _ _; exact ⟨st, [], rfl, rfl, w, by simp, by simp, by simp, rfl, rfl, by simp⟩
  | cons p ps ih =>
    intro st w f hdim
    obtain ⟨l, m⟩ := p
    have hd : st.dim l = st.dim m := hdim (l, m) (by simp)
    rw [List.map_cons] at f ⊢
    have h1 := f.free _ (List.mem_cons_self ..) l (Or.inl rfl)
    have h2 := f.free _ (List.mem_cons_self ..) m (Or.inr rfl)
    have hw := bonded_wf w hd h1.1 h2.1 h1.2 h2.2
    obtain ⟨st', bs, e1, e2, e3, e4, e5, e6, e7, e8, e9⟩ := ih (bonded st l m) hw f.step
      (fun p hp => by rw [bonded_dim, bonded_dim]; exact hdim p (by simp [hp]))
    have hdj := f.disj
    rw [List.pairwise_cons] at hdj
    have hl : ∀ q ∈ ps, l ≠ q.1 ∧ l ≠ q.2 := by
      intro q hq
      have := hdj.1 (some q.1, some q.2) (List.mem_map.mpr ⟨q, hq, rfl⟩) l (Or.inl rfl)
      exact ⟨fun e => this (Or.inl (by simp [e])), fun e => this (Or.inr (by simp [e]))⟩
    have hm : ∀ q ∈ ps, m ≠ q.1 ∧ m ≠ q.2 := by
      intro q hq
      have := hdj.1 (some q.1, some q.2) (List.mem_map.mpr ⟨q, hq, rfl⟩) m (Or.inr rfl)
      exact ⟨fun e => this (Or.inl (by simp [e])), fun e => this (Or.inr (by simp [e]))⟩
    refine ⟨st', st.nextBond :: bs, ?_, by simp [e2], e3, ?_, ?_, ?_, e7, e8, ?_⟩
    · simp only [linkLoop]
      rw [newBond_eq st l m hd]
      simp only [hd, if_true, e1]
    · intro q hq
      rw [List.mem_cons] at hq
      rcases hq with rfl | hq
      · rw [(e5 l hl).1, (e5 m hm).1]
        exact bonded_partner l m
      · exact e4 q hq
    · intro x hx
      have hx0 := hx (l, m) (by simp)
      have hx1 := e5 x (fun q hq => hx q (by simp [hq]))
      rw [hx1.1, hx1.2]
      exact ⟨bonded_partner_other w hx0.1 hx0.2, bonded_other st l m x hx0.1 hx0.2⟩
    · intro x
      rw [(e6 x).1, (e6 x).2.1, (e6 x).2.2]
      exact ⟨bonded_dim .., bonded_name .., bonded_tensor ..⟩
    · intro q hq
      rw [List.zip_cons_cons, List.mem_cons] at hq
      rcases hq with rfl | hq
      · simp only
        rw [(e5 l hl).2, (e5 m hm).2]
        simp [bonded]
      · exact e9 q hq

theorem mapM_resolve_leg (st : Store) (t : Option (Tensor R)) (ls : List LegId) :
    (ls.map LegRef.leg).mapM (resolveRef st t) = .ok (ls.map some) := by
  induction ls with
  | nil => rfl
  | cons l ls ih =>
    rw [List.map_cons, List.mapM_cons, ih]
    rfl

theorem zip_map_some (la lb : List LegId) :
    (la.map some).zip (lb.map some) = (la.zip lb).map fun p => (some p.1, some p.2) := by
  rw [List.zip_map]
  rfl

theorem makeLinkLegs_eq (st : Store) (la lb : List LegId) (h : la.length = lb.length) :
    makeLinkLegs st la lb = linkLoop st ((la.zip lb).map fun p => (some p.1, some p.2)) := by
  unfold makeLinkLegs makeLink
  simp only [mapM_resolve_leg, List.length_map, h, if_true, zip_map_some]

theorem anotherSide_eq {st : Store} (inv : BondInv st) (l : LegId) :
    st.anotherSide l = .ok (st.partner l) := by
  unfold Store.anotherSide Store.partner
  cases hb : (st.leg l).bond with
  | none => rfl
  | some b => simp only [bondAnotherSide_eq inv hb, Except.map]

theorem WFStore.newLeg {st : Store} (w : WFStore st) (t : Option TensorId) (d : Nat) (n : String) :
    WFStore (st.newLeg t d n).1 := by
  have hleg : ∀ x, x ≠ st.nextLeg → ((st.newLeg t d n).1).leg x = st.leg x := by
    intro x hx; simp [Store.newLeg, Store.setLeg, hx]
  have key : ∀ x b, (((st.newLeg t d n).1).leg x).bond = some b → x ≠ st.nextLeg ∧ (st.leg x).bond = some b := by
    intro x b hb
    by_cases h : x = st.nextLeg
    · subst h; simp [Store.newLeg, Store.setLeg] at hb
    · rw [hleg x h] at hb; exact ⟨h, hb⟩
  refine ⟨?_, ?_, ?_⟩
  · intro x b hb
    obtain ⟨hx, h3⟩ := key x b hb
    obtain ⟨e0, e1, e2, e3⟩ := w.inv x b h3
    change ((st.bond b).1 = x ∨ (st.bond b).2 = x) ∧ (((st.newLeg t d n).1).leg (st.bond b).1).bond = some b ∧
      (((st.newLeg t d n).1).leg (st.bond b).2).bond = some b ∧
      (((st.newLeg t d n).1).leg (st.bond b).1).dim = (((st.newLeg t d n).1).leg (st.bond b).2).dim
    rw [hleg _ (w.freshLeg _ b e1).ne, hleg _ (w.freshLeg _ b e2).ne]
    exact ⟨e0, e1, e2, e3⟩
  · intro x b hb
    obtain ⟨hx, h3⟩ := key x b hb
    exact Nat.lt_succ_of_lt (w.freshLeg x b h3)
  · intro x b hb
    exact w.freshBond x b (key x b hb).2

/-- A store whose legs keep dimension and bond. -/
theorem WFStore.congr {st st' : Store} (w : WFStore st) (h : ∀ l, st'.dim l = st.dim l ∧
    (st'.leg l).bond = (st.leg l).bond) (hb : st'.bond = st.bond) (hn : st.nextLeg ≤ st'.nextLeg)
    (hm : st.nextBond ≤ st'.nextBond) : WFStore st' := by
  refine ⟨?_, ?_, ?_⟩
  · intro x b hx
    rw [(h x).2] at hx
    obtain ⟨e0, e1, e2, e3⟩ := w.inv x b hx
    rw [hb, (h _).2, (h _).2, (h _).1, (h _).1]
    exact ⟨e0, e1, e2, e3⟩
  · intro x b hx
    rw [(h x).2] at hx
    exact lt_of_lt_of_le (w.freshLeg x b hx) hn
  · intro x b hx
    rw [(h x).2] at hx
    exact lt_of_lt_of_le (w.freshBond x b hx) hm

theorem SameNet.wf {st st' : Store} (h : SameNet st st') (w : WFStore st) : WFStore st' := by
  refine ⟨h.inv w.inv, ?_, ?_⟩
  · intro x b hx
    rw [h.bondOf] at hx
    rw [h.nextLeg]; exact w.freshLeg x b hx
  · intro x b hx
    rw [h.bondOf] at hx
    rw [h.nextBond]; exact w.freshBond x b hx

theorem rename_leg (st : Store) (l : LegId) (n : String) (x : LegId) :
    (st.rename l n).dim x = st.dim x ∧ ((st.rename l n).leg x).bond = (st.leg x).bond ∧
    ((st.rename l n).leg x).tensor = (st.leg x).tensor := by
  unfold Store.dim Store.rename Store.setLeg
  by_cases h : x = l
  · subst h; simp
  · simp [h]

theorem Reachable.wf {st : Store} (h : Reachable st) : WFStore st := by
  induction h with
  | empty => exact ⟨fun l b h => by simp [Store.empty] at h, fun l b h => by simp [Store.empty] at h,
      fun l b h => by simp [Store.empty] at h⟩
  | newLeg _ t d n ih => exact ih.newLeg t d n
  | link _ ta tb legA legB la lb ha hb free ih =>
    unfold makeLink
    simp only [ha, hb]
    split
    · exact linkLoop_wf _ _ ih free
    · exact ih
  | rename _ l n ih =>
    exact ih.congr (fun x => ⟨(rename_leg _ l n x).1, (rename_leg _ l n x).2.1⟩) rfl le_rfl le_rfl
  | @owner st _ ls t ih => exact (sameNet_setOwner st ls t (st.setOwner ls t).nextTensor).wf ih
  | share _ ta tb bs na disj hs ih =>
    obtain ⟨st', bs', h1, h2, _⟩ := shareBondsLoop_spec tb.legs ta.legs _ ih.inv na disj
    unfold shareBonds at hs
    rw [h1] at hs
    simp only [Except.ok.injEq, Prod.mk.injEq] at hs
    rw [← hs.1]
    exact h2.sameNet.wf ih

theorem entry_congr [Zero R] (t : Tensor R) {σ τ : Assign} (h : ∀ l ∈ t.legs, σ l = τ l) :
    entry t σ = entry t τ := by
  unfold entry
  cases t.a with
  | none => rfl
  | some arr =>
    simp only
    split
    · cases hl : t.legs with
      | nil => rfl
      | cons l ls =>
        simp only
        have h0 := h l (by simp [hl])
        have : (∀ m ∈ ls, σ m = σ l) ↔ (∀ m ∈ ls, τ m = τ l) := by
          constructor
          · intro hh m hm; rw [← h m (by simp [hl, hm]), ← h0]; exact hh m hm
          · intro hh m hm; rw [h m (by simp [hl, hm]), h0]; exact hh m hm
        rw [if_congr this rfl rfl, h0]
    · rw [List.map_congr_left h]

theorem GoodTensor.congr_dim {st st' : Store} {t : Tensor R} (g : GoodTensor st t)
    (h : ∀ l ∈ t.legs, st'.dim l = st.dim l) : GoodTensor st' t := by
  obtain ⟨arr, h1, h2, h3, h4⟩ := g.data
  refine ⟨g.nodup, g.notLike, arr, h1, h2, fun hd => ?_, fun hd => ?_⟩
  · rw [h3 hd]; exact (List.map_congr_left h).symm
  · rcases h4 hd with h5 | ⟨h5, h6, h7⟩
    · exact Or.inl h5
    · exact Or.inr ⟨h5, h6, fun l hl => by rw [h l hl, h7 l hl]⟩

end CTL
