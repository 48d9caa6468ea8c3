import Verif.Model.CopyOut
import Verif.Lemmas.Copy

/-! The loop of `copyTensorList` that takes over outgoing bonds. -/

namespace CTL
variable {R : Type}

/-- Both legs of a bond without it. -/
def cut (st : Store) (l m : LegId) : Store := { st with leg := fun x => if x = l ∨ x = m then { st.leg x with bond := none } else st.leg x }

theorem cut_wf {st : Store} (w : WFStore st) {l m : LegId} (h : st.partner l = some m) : WFStore (cut st l m) := by
  have hm := partner_symm w.inv h
  have leg : ∀ x, x ≠ l → x ≠ m → (cut st l m).leg x = st.leg x := by
    intro x h1 h2
    simp [cut, h1, h2]
  have dim : ∀ x, (cut st l m).dim x = st.dim x := by
    intro x
    unfold Store.dim cut
    by_cases c : x = l ∨ x = m <;> simp [c]
  have key : ∀ x b, ((cut st l m).leg x).bond = some b → x ≠ l ∧ x ≠ m ∧ (st.leg x).bond = some b := by
    intro x b hx
    unfold cut at hx
    by_cases c : x = l ∨ x = m
    · simp [c] at hx
    · rw [not_or] at c
      simp only [c.1, c.2, or_self, if_false] at hx
      exact ⟨c.1, c.2, hx⟩
  refine ⟨fun x b hx => ?_, fun x b hx => w.freshLeg x b (key x b hx).2.2, fun x b hx => w.freshBond x b (key x b hx).2.2⟩
  obtain ⟨h1, h2, hx⟩ := key x b hx
  obtain ⟨i1, i2, i3, i4⟩ := w.inv x b hx
  -- neither side of `b` is `l` or `m`
  have no : ∀ y, (st.leg y).bond = some b → ((st.bond b).1 = y ∨ (st.bond b).2 = y) → y ≠ l ∧ y ≠ m := by
    have other : ∀ y z, st.partner y = some z → (st.leg y).bond = some b → x = y ∨ x = z := by
      intro y z hyz hy
      unfold Store.partner at hyz
      rw [hy] at hyz
      simp only [Option.some.injEq] at hyz
      have := (w.inv y b hy).1
      split at hyz
      · next e => 
        rcases i1 with i | i
        · exact Or.inl (i.symm.trans e)
        · exact Or.inr (i.symm.trans hyz)
      · next e => 
        rcases i1 with i | i
        · exact Or.inr (i.symm.trans hyz)
        · exact Or.inl (i.symm.trans (by tauto))
    intro y hy _
    constructor
    · rintro rfl
      rcases other y m h hy with e | e
      · exact h1 e
      · exact h2 e
    · rintro rfl
      rcases other y l hm hy with e | e
      · exact h2 e
      · exact h1 e
  have n1 := no _ i2 (Or.inl rfl)
  have n2 := no _ i3 (Or.inr rfl)
  show ((st.bond b).1 = x ∨ (st.bond b).2 = x) ∧ ((cut st l m).leg (st.bond b).1).bond = some b ∧
    ((cut st l m).leg (st.bond b).2).bond = some b ∧ (cut st l m).dim (st.bond b).1 = (cut st l m).dim (st.bond b).2
  rw [leg _ n1.1 n1.2, leg _ n2.1 n2.2, dim, dim]
  exact ⟨i1, i2, i3, i4⟩

/-- Taking the bond away from `l` and joining `n` to `m` is cutting the bond first. -/
theorem bonded_delBond (st : Store) {l m n : LegId} : bonded (st.delBond l) n m = bonded (cut st l m) n m := by
  unfold bonded Store.delBond Store.setLeg cut
  simp only [Store.mk.injEq, and_true]
  funext x
  by_cases h1 : x = n ∨ x = m
  · simp only [h1, if_true]
    by_cases h2 : x = l
    · simp [h2]
    · by_cases h3 : x = m
      · subst h3
        simp [h2]
      · simp [h2, h3]
  · rw [not_or] at h1
    simp only [h1.1, h1.2, or_self, if_false]
    by_cases h2 : x = l <;> simp [h2]

/-- The state of the loop after the pairs `done`. -/
structure OutInv (st st1 : Store) (g0 : List LegId) (cor done : List (LegId × LegId)) (s : OutState) : Prop where
  wf : WFStore s.store
  nextLeg : s.store.nextLeg = st1.nextLeg
  nextTensor : s.store.nextTensor = st1.nextTensor
  nextBond : st.nextBond ≤ s.store.nextBond
  bond : ∀ b < st.nextBond, s.store.bond b = st.bond b
  attr : ∀ x, s.store.dim x = st1.dim x ∧ s.store.name x = st1.name x ∧ (s.store.leg x).tensor = (st1.leg x).tensor
  /-- Legs whose bond has not been looked at. -/
  later : ∀ x < st.nextLeg, (∀ b ∈ s.added, (st.leg x).bond ≠ some b) → s.store.leg x = st.leg x
  inner : ∀ p ∈ cor, ∀ q ∈ cor, st.partner p.1 = some q.1 → ∀ b ∈ s.added, (st.leg p.1).bond = some b →
    s.store.partner p.2 = some q.2 ∧ s.store.leg p.1 = st.leg p.1
  outer : ∀ p ∈ cor, ∀ m, st.partner p.1 = some m → (∀ q ∈ cor, q.1 ≠ m) → ∀ b ∈ s.added, (st.leg p.1).bond = some b →
    s.store.partner p.2 = some m ∧ s.store.partner m = some p.2 ∧ (s.store.leg p.1).bond = none ∧ p.1 ∈ s.gone
  free : ∀ p ∈ cor, (∀ b ∈ s.added, (st.leg p.1).bond ≠ some b) → (s.store.leg p.2).bond = none
  keep : ∀ x ∈ g0, x ∈ s.gone
  onlyGone : ∀ x ∈ s.gone, x ∈ g0 ∨ ∃ p ∈ done, p ∈ cor ∧ p.1 = x ∧ ∃ m, st.partner x = some m ∧ (∀ q ∈ cor, q.1 ≠ m) ∧ ∃ b ∈ s.added, (st.leg x).bond = some b
  seen : ∀ p ∈ done, ∀ b, (st.leg p.1).bond = some b → b ∈ s.added
  added : ∀ b ∈ s.added, ∃ p ∈ cor, (st.leg p.1).bond = some b

theorem on_bond {st : Store} (w : BondInv st) {l m : LegId} {b : BondId} (hb : (st.leg l).bond = some b) (hm : st.partner l = some m) :
    ∀ x, (st.leg x).bond = some b → x = l ∨ x = m := by
  intro x hx
  have h1 := (w l b hb).1
  have h2 := (w x b hx).1
  unfold Store.partner at hm
  rw [hb] at hm
  simp only [Option.some.injEq] at hm
  split at hm
  · next e =>
    rcases h2 with i | i
    · exact Or.inl (i.symm.trans e)
    · exact Or.inr (i.symm.trans hm)
  · next e =>
    rcases h2 with i | i
    · exact Or.inr (i.symm.trans hm)
    · exact Or.inl (i.symm.trans (by tauto))

theorem copyBondOut_step {st st1 : Store} {ps : List (Tensor R × Tensor R)} {cor done : List (LegId × LegId)} {s : OutState} {g0 : List LegId} (T : Twins st st1 ps cor)
    (S : OutInv st st1 g0 cor done s) {p : LegId × LegId} (hp : p ∈ cor) (hnew : ∀ q ∈ done, q.1 ≠ p.1) (hg0 : p.1 ∉ g0) :
    ∃ s', copyBondOut ps s p = .ok s' ∧ OutInv st st1 g0 cor (p :: done) s' := by
  obtain ⟨k1, k2, k3, k4⟩ := T.known p hp
  have hgone : p.1 ∉ s.gone := by
    intro h
    rcases S.onlyGone _ h with h | ⟨q, hq, -, e, -⟩
    · exact hg0 h
    · exact hnew q hq e
  have goneD : ∀ {d' : List (LegId × LegId)} {A : List BondId}, (∀ q ∈ done, q ∈ d') → (∀ b ∈ s.added, b ∈ A) → ∀ x ∈ s.gone,
      x ∈ g0 ∨ ∃ p ∈ d', p ∈ cor ∧ p.1 = x ∧ ∃ m, st.partner x = some m ∧ (∀ q ∈ cor, q.1 ≠ m) ∧ ∃ b ∈ A, (st.leg x).bond = some b := by
    intro d' A h1 h2 x hx
    rcases S.onlyGone x hx with h | ⟨q, a1, a2, a3, m, a4, a5, b, a6, a7⟩
    · exact Or.inl h
    exact Or.inr ⟨q, h1 q a1, a2, a3, m, a4, a5, b, h2 b a6, a7⟩
  unfold copyBondOut
  rw [if_neg hgone]
  rcases hb : (st.leg p.1).bond with _ | b
  · have hleg : s.store.leg p.1 = st.leg p.1 := S.later _ k1 fun b _ => by rw [hb]; simp
    rw [hleg, hb]
    refine ⟨s, rfl, ⟨S.wf, S.nextLeg, S.nextTensor, S.nextBond, S.bond, S.attr, S.later, S.inner, S.outer, S.free, S.keep,
      goneD (fun q hq => List.mem_cons_of_mem _ hq) (fun _ h => h), ?_, S.added⟩⟩
    intro q hq b hbq
    rcases List.mem_cons.mp hq with rfl | hq
    · rw [hb] at hbq; cases hbq
    · exact S.seen q hq b hbq
  obtain ⟨m, hm, hside, hmb⟩ := bond_partner T.wf.inv hb
  have seen' : ∀ q ∈ p :: done, ∀ b', (st.leg q.1).bond = some b' → b' ∈ b :: s.added := by
    intro q hq b' hbq
    rcases List.mem_cons.mp hq with rfl | hq
    · rw [hb] at hbq
      simp [Option.some.inj hbq]
    · exact List.mem_cons_of_mem _ (S.seen q hq b' hbq)
  have onb := on_bond T.wf.inv hb hm
  have psym : st.partner m = some p.1 := partner_symm T.wf.inv hm
  have added' : ∀ b' ∈ b :: s.added, ∃ p ∈ cor, (st.leg p.1).bond = some b' := by
    intro b' hb'
    rcases List.mem_cons.mp hb' with rfl | hb'
    · exact ⟨p, hp, hb⟩
    · exact S.added b' hb'
  by_cases hin : b ∈ s.added
  · -- the other leg has been there before, so it is inside
    have hleg : s.store.leg p.1 = st.leg p.1 := by
      by_cases c : ∃ q ∈ cor, q.1 = m
      · obtain ⟨q, hq, rfl⟩ := c
        exact (S.inner p hp q hq hm b hin hb).2
      · push Not at c
        exact absurd (S.outer p hp m hm c b hin hb).2.2.2 hgone
    rw [hleg, hb]
    simp only
    rw [if_pos hin]
    refine ⟨s, rfl, ⟨S.wf, S.nextLeg, S.nextTensor, S.nextBond, S.bond, S.attr, S.later, S.inner, S.outer, S.free, S.keep,
      goneD (fun q hq => List.mem_cons_of_mem _ hq) (fun _ h => h), ?_, S.added⟩⟩
    intro q hq b' hbq
    rcases List.mem_cons.mp hq with rfl | hq
    · rw [hb] at hbq
      exact Option.some.inj hbq ▸ hin
    · exact S.seen q hq b' hbq
  have notin : ∀ x, (st.leg x).bond = some b → ∀ b' ∈ s.added, (st.leg x).bond ≠ some b' := by
    intro x hx b' hb' h
    rw [hx] at h
    exact hin (Option.some.inj h ▸ hb')
  have hleg : s.store.leg p.1 = st.leg p.1 := S.later _ k1 (notin _ hb)
  have hmk : m < st.nextLeg := T.wf.freshLeg _ _ hmb
  have hmleg : s.store.leg m = st.leg m := S.later _ hmk (notin _ hmb)
  rw [hleg, hb]
  simp only
  rw [if_neg hin]
  have hside' : s.store.bondAnotherSide b p.1 = .ok m := by
    rw [← hside]
    unfold Store.bondAnotherSide
    rw [S.bond b (T.wf.freshBond _ _ hb)]
  simp only [hside', bind, Except.bind, hmleg]
  have fn : (s.store.leg p.2).bond = none := S.free p hp (notin _ hb)
  have ln : p.2 < s.store.nextLeg := by rw [S.nextLeg]; exact k3
  rcases T.find p hp m hm with ⟨e, hno⟩ | ⟨q, i, k, e1, e2, e3, hmk'⟩
  · rw [e]
    have sp : s.store.partner p.1 = some m := by
      rw [← hm]
      unfold Store.partner
      rw [hleg, hb]
      simp only [S.bond b (T.wf.freshBond _ _ hb)]
    have wc := cut_wf S.wf sp
    have oldm : m < s.store.nextLeg := S.wf.freshLeg m b (by rw [hmleg, hmb])
    have pm : p.2 ≠ m := (hmk.trans_le k2).ne'
    have pl : p.2 ≠ p.1 := (k1.trans_le k2).ne'
    have lm : p.1 ≠ m := hno p hp
    have ddim : (s.store.delBond p.1).dim p.2 = (s.store.delBond p.1).dim m := by
      have : ∀ x, (s.store.delBond p.1).dim x = s.store.dim x := by
        intro x
        unfold Store.dim Store.delBond Store.setLeg
        by_cases c : x = p.1 <;> simp [c]
      rw [this, this, (S.attr _).1, k4, partner_dim S.wf.inv sp]
      unfold Store.dim
      rw [hleg]
    rw [linkOr_two _ p.2 m ddim]
    simp only [linkOr, pure, Except.pure]
    rw [bonded_delBond]
    have cdim : ∀ x, (cut s.store p.1 m).dim x = s.store.dim x ∧ (cut s.store p.1 m).name x = s.store.name x ∧
        ((cut s.store p.1 m).leg x).tensor = (s.store.leg x).tensor := by
      intro x
      unfold Store.dim Store.name cut
      by_cases c : x = p.1 ∨ x = m <;> simp [c]
    have cleg : ∀ x, x ≠ p.1 → x ≠ m → (cut s.store p.1 m).leg x = s.store.leg x := by
      intro x h1 h2
      simp [cut, h1, h2]
    have cpart : ∀ x, x ≠ p.1 → x ≠ m → (cut s.store p.1 m).partner x = s.store.partner x := by
      intro x h1 h2
      unfold Store.partner
      rw [cleg x h1 h2]
      rfl
    have cfree : ∀ x, x = p.1 ∨ x = m → ((cut s.store p.1 m).leg x).bond = none := by
      intro x h
      simp [cut, h]
    have w' : WFStore (bonded (cut s.store p.1 m) p.2 m) := by
      refine bonded_wf wc ?_ (by rw [cleg _ pl pm]; exact fn) (cfree m (Or.inr rfl)) ln oldm
      rw [(cdim _).1, (cdim _).1, (S.attr _).1, k4, partner_dim S.wf.inv sp]
      unfold Store.dim
      rw [hleg]
    have outOf : ∀ x ∈ cor, x.1 ≠ m := hno
    refine ⟨_, rfl, ⟨w', S.nextLeg, S.nextTensor, S.nextBond.trans (Nat.le_succ _), ?_, ?_, ?_, ?_, ?_, ?_, fun x hx => List.mem_cons_of_mem _ (S.keep x hx), ?_, seen', added'⟩⟩
    · intro b' hb'
      rw [← S.bond b' hb']
      unfold bonded cut
      simp only
      rw [if_neg (hb'.trans_le S.nextBond).ne]
    · intro x
      rw [bonded_dim, bonded_name, bonded_tensor, (cdim x).1, (cdim x).2.1, (cdim x).2.2]
      exact S.attr x
    · intro x hx h
      have h1 : x ≠ p.1 := fun e => h b (by simp) (e ▸ hb)
      have h2 : x ≠ m := fun e => h b (by simp) (e ▸ hmb)
      rw [bonded_other _ _ _ _ (hx.trans_le k2).ne h2, cleg x h1 h2]
      exact S.later x hx fun b' hb' => h b' (List.mem_cons_of_mem _ hb')
    · intro x hx y hy hxy b' hb' hbx
      have hxl := T.known x hx
      have hyl := T.known y hy
      have xb : (st.leg x.1).bond ≠ some b := by
        intro hxb
        rcases onb _ hxb with h | h
        · rw [h, hm] at hxy
          exact hno y hy (Option.some.inj hxy).symm
        · exact hno x hx h
      have x1 : x.1 ≠ p.1 := fun e => xb (e ▸ hb)
      have x2 : x.2 ≠ p.2 := fun e => x1 (congrArg Prod.fst (T.left x hx p hp e))
      have x3 : x.2 ≠ m := (hmk.trans_le hxl.2.1).ne'
      have x4 : x.2 ≠ p.1 := (k1.trans_le hxl.2.1).ne'
      have hb'' : b' ∈ s.added := by
        rcases List.mem_cons.mp hb' with rfl | h
        · exact absurd hbx xb
        · exact h
      rw [bonded_partner_other wc x2 x3, cpart _ x4 x3, bonded_other _ _ _ _ (hxl.1.trans_le k2).ne (hno x hx), cleg _ x1 (hno x hx)]
      exact S.inner x hx y hy hxy b' hb'' hbx
    · intro x hx m' hm' hout b' hb' hbx
      have hxl := T.known x hx
      by_cases c : x.1 = p.1
      · obtain rfl := T.right x hx p hp c
        obtain rfl := Option.some.inj (hm.symm.trans hm')
        refine ⟨(bonded_partner _ _).1, (bonded_partner _ _).2, ?_, by simp⟩
        rw [bonded_other _ _ _ _ pl.symm lm]
        exact cfree _ (Or.inl rfl)
      · have xb : (st.leg x.1).bond ≠ some b := by
          intro hxb
          rcases onb _ hxb with h | h
          · exact c h
          · exact hno x hx h
        have x2 : x.2 ≠ p.2 := fun e => c (congrArg Prod.fst (T.left x hx p hp e))
        have x3 : x.2 ≠ m := (hmk.trans_le hxl.2.1).ne'
        have x4 : x.2 ≠ p.1 := (k1.trans_le hxl.2.1).ne'
        have hb'' : b' ∈ s.added := by
          rcases List.mem_cons.mp hb' with rfl | h
          · exact absurd hbx xb
          · exact h
        have hm'b : (st.leg m').bond = some b' := by
          obtain ⟨m2, a1, -, a3⟩ := bond_partner T.wf.inv hbx
          rw [hm'] at a1
          rw [Option.some.inj a1]
          exact a3
        have m1 : m' ≠ m := fun e => xb (by rw [hbx, ← hm'b, e, hmb])
        have m2 : m' ≠ p.1 := fun e => xb (by rw [hbx, ← hm'b, e, hb])
        have m3 : m' ≠ p.2 := ((T.wf.freshLeg _ _ hm'b).trans_le k2).ne
        obtain ⟨o1, o2, o3, o4⟩ := S.outer x hx m' hm' hout b' hb'' hbx
        rw [bonded_partner_other wc x2 x3, cpart _ x4 x3, bonded_partner_other wc m3 m1, cpart _ m2 m1,
          bonded_other _ _ _ _ (hxl.1.trans_le k2).ne (hno x hx), cleg _ c (hno x hx)]
        exact ⟨o1, o2, o3, List.mem_cons_of_mem _ o4⟩
    · intro x hx h
      have hxl := T.known x hx
      have c : x.1 ≠ p.1 := fun e => h b (by simp) (e ▸ hb)
      have x2 : x.2 ≠ p.2 := fun e => c (congrArg Prod.fst (T.left x hx p hp e))
      have x3 : x.2 ≠ m := (hmk.trans_le hxl.2.1).ne'
      have x4 : x.2 ≠ p.1 := (k1.trans_le hxl.2.1).ne'
      rw [bonded_other _ _ _ _ x2 x3, cleg _ x4 x3]
      exact S.free x hx fun b' hb' => h b' (List.mem_cons_of_mem _ hb')
    · intro x hx
      rcases List.mem_cons.mp hx with rfl | hx
      · exact Or.inr ⟨p, by simp, hp, rfl, m, hm, hno, b, by simp, hb⟩
      · exact goneD (fun q hq => List.mem_cons_of_mem _ hq) (fun _ h => List.mem_cons_of_mem _ h) x hx
  · rw [e1]
    simp only [e2, e3]
    obtain ⟨m1, m2, m3, m4⟩ := T.known _ hmk'
    simp only at m1 m2 m3 m4
    have hdim : s.store.dim p.2 = s.store.dim k := by
      rw [(S.attr _).1, (S.attr _).1, k4, m4, partner_dim T.wf.inv hm]
    have fk : (s.store.leg k).bond = none := S.free _ hmk' (notin _ hmb)
    rw [linkOr_two s.store p.2 k hdim]
    simp only [linkOr, pure, Except.pure]
    have lk : k < s.store.nextLeg := by rw [S.nextLeg]; exact m3
    have oldleg : ∀ x < st.nextLeg, (bonded s.store p.2 k).leg x = s.store.leg x := fun x hx =>
      bonded_other _ _ _ _ (hx.trans_le k2).ne (hx.trans_le m2).ne
    refine ⟨_, rfl, ⟨bonded_wf S.wf hdim fn fk ln lk, S.nextLeg, S.nextTensor, S.nextBond.trans (Nat.le_succ _), ?_, ?_, ?_, ?_, ?_, ?_, S.keep,
      goneD (fun q hq => List.mem_cons_of_mem _ hq) (fun _ h => List.mem_cons_of_mem _ h), seen', added'⟩⟩
    · intro b' hb'
      rw [← S.bond b' hb']
      unfold bonded
      simp only
      rw [if_neg (hb'.trans_le S.nextBond).ne]
    · intro x
      rw [bonded_dim, bonded_name, bonded_tensor]
      exact S.attr x
    · intro x hx h
      rw [oldleg x hx]
      exact S.later x hx fun b' hb' => h b' (List.mem_cons_of_mem _ hb')
    · intro x hx y hy hxy b' hb' hbx
      rw [oldleg _ (T.known x hx).1]
      by_cases h1 : x.2 = p.2
      · obtain rfl := T.left x hx p hp h1
        rw [(bonded_partner x.2 k).1]
        rw [hm] at hxy
        rw [← T.right (m, k) hmk' y hy (Option.some.inj hxy)]
        exact ⟨rfl, hleg⟩
      · by_cases h2 : x.2 = k
        · obtain rfl := T.left x hx (m, k) hmk' h2
          rw [(bonded_partner p.2 k).2]
          rw [psym] at hxy
          rw [T.right p hp y hy (Option.some.inj hxy)]
          exact ⟨rfl, hmleg⟩
        · rw [bonded_partner_other S.wf h1 h2]
          rcases List.mem_cons.mp hb' with rfl | hb'
          · rcases onb _ hbx with h | h
            · exact absurd (congrArg Prod.snd (T.right x hx p hp h)) h1
            · exact absurd (congrArg Prod.snd (T.right x hx (m, k) hmk' h)) h2
          · exact S.inner x hx y hy hxy b' hb' hbx
    · intro x hx m' hm' hout b' hb' hbx
      have xb : (st.leg x.1).bond ≠ some b := by
        intro hxb
        rcases onb _ hxb with h | h
        · rw [h, hm] at hm'
          exact hout _ hmk' (Option.some.inj hm')
        · rw [h, psym] at hm'
          exact hout p hp (Option.some.inj hm')
      have hb'' : b' ∈ s.added := by
        rcases List.mem_cons.mp hb' with rfl | h
        · exact absurd hbx xb
        · exact h
      have x1 : x.2 ≠ p.2 := fun e => xb (by rw [T.left x hx p hp e]; exact hb)
      have x2 : x.2 ≠ k := fun e => xb (by rw [T.left x hx (m, k) hmk' e]; exact hmb)
      have hm'b : m' < st.nextLeg := by
        obtain ⟨m2, a1, -, a3⟩ := bond_partner T.wf.inv hbx
        rw [hm'] at a1
        rw [Option.some.inj a1]
        exact T.wf.freshLeg _ _ a3
      rw [bonded_partner_other S.wf x1 x2, bonded_partner_other S.wf (hm'b.trans_le k2).ne (hm'b.trans_le m2).ne, oldleg _ (T.known x hx).1]
      exact S.outer x hx m' hm' hout b' hb'' hbx
    · intro x hx h
      have h1 : x.2 ≠ p.2 := by
        intro e
        obtain rfl := T.left x hx p hp e
        exact h b (by simp) hb
      have h2 : x.2 ≠ k := by
        intro e
        obtain rfl := T.left x hx (m, k) hmk' e
        exact h b (by simp) hmb
      rw [bonded_other _ _ _ _ h1 h2]
      exact S.free x hx fun b' hb' => h b' (List.mem_cons_of_mem _ hb')

theorem copyBondsOut_ok {st st1 : Store} {ps : List (Tensor R × Tensor R)} {cor : List (LegId × LegId)} {g0 : List LegId}
    (T : Twins st st1 ps cor) : ∀ (todo done : List (LegId × LegId)) (s : OutState), (∀ p ∈ todo, p ∈ cor ∧ p.1 ∉ g0) →
    (todo.map Prod.fst).Nodup → (∀ p ∈ todo, ∀ q ∈ done, q.1 ≠ p.1) → OutInv st st1 g0 cor done s →
    ∃ s', todo.foldlM (copyBondOut ps) s = .ok s' ∧ OutInv st st1 g0 cor (todo.reverse ++ done) s'
  | [], done, s, _, _, _, S => ⟨s, rfl, S⟩
  | p :: todo, done, s, h, nd, hd, S => by
    rw [List.map_cons, List.nodup_cons] at nd
    obtain ⟨s1, e1, S1⟩ := copyBondOut_step T S (h p (by simp)).1 (hd p (by simp)) (h p (by simp)).2
    obtain ⟨s2, e2, S2⟩ := copyBondsOut_ok T todo (p :: done) s1 (fun q hq => h q (by simp [hq])) nd.2 (fun q hq r hr => by
      rcases List.mem_cons.mp hr with rfl | hr
      · exact fun e => nd.1 (e ▸ List.mem_map_of_mem hq)
      · exact hd q (by simp [hq]) r hr) S1
    refine ⟨s2, ?_, by simpa using S2⟩
    rw [List.foldlM_cons, e1]
    exact e2

end CTL
