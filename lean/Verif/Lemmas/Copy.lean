import Verif.Lemmas.CopyOne
import Verif.Lemmas.FTN

/-! Copies of lists of tensors. -/

namespace CTL
variable {R : Type}

/-- The copies, before they are linked. -/
structure Unlinked (st st' : Store) (shapeOnly : Bool) (ts cs : List (Tensor R)) : Prop where
  copies : List.Forall₂ (CopyOf st st' shapeOnly) ts cs
  ids : (cs.map (·.id)).Nodup
  nodup : (cs.flatMap (·.legs)).Nodup
  free : ∀ c ∈ cs, ∀ l ∈ c.legs, (st'.leg l).bond = none
  old : Untouched st st'
  grows : Grows st st'
  nextBond : st'.nextBond = st.nextBond
  nextTensor : st.nextTensor ≤ st'.nextTensor

theorem Copyable.congr {st st' : Store} {t : Tensor R} (h : Copyable st t) (hd : ∀ l ∈ t.legs, st'.dim l = st.dim l) :
    Copyable st' t := by
  refine ⟨h.nodup, h.nodata, ?_, ?_⟩
  · rw [List.map_congr_left hd]
    exact h.data
  · intro hh
    exact ⟨fun l hl => (hd l hl).trans ((h.length hh).1 l hl), (h.length hh).2⟩

theorem forall₂_right {α β : Type} {P : α → β → Prop} {as : List α} {bs : List β} (h : List.Forall₂ P as bs) :
    ∀ b ∈ bs, ∃ a ∈ as, P a b := by
  induction h with
  | nil => intro b hb; cases hb
  | cons e _ ih =>
    intro b hb
    rcases List.mem_cons.mp hb with rfl | hb
    · exact ⟨_, by simp, e⟩
    · obtain ⟨a, ha, e⟩ := ih b hb
      exact ⟨a, by simp [ha], e⟩

theorem copyEach_ok [Zero R] [One R] (rand : List Nat → List Nat → R) (shapeOnly : Bool) : ∀ (ts : List (Tensor R)) (st : Store),
    (∀ t ∈ ts, Copyable st t) → (∀ t ∈ ts, ∀ l ∈ t.legs, l < st.nextLeg) →
    ∃ st' cs, copyEach rand shapeOnly st ts = .ok (st', cs) ∧ Unlinked st st' shapeOnly ts cs
  | [], st, _, _ => ⟨st, [], rfl, .nil, by simp, by simp, by simp, .refl _, .refl _, rfl, le_rfl⟩
  | t :: ts, st, hc, hk => by
    obtain ⟨st1, c, e1, K⟩ := copyOne_ok rand (hc t (by simp)) shapeOnly
    obtain ⟨st2, cs, e2, U⟩ := copyEach_ok rand shapeOnly ts st1
      (fun u hu => (hc u (by simp [hu])).congr fun l hl => K.grows.dim l (hk u (by simp [hu]) l hl))
      (fun u hu l hl => (hk u (by simp [hu]) l hl).trans_le K.grows.le)
    refine ⟨st2, c :: cs, ?_, ?_⟩
    · unfold copyEach
      cases shapeOnly <;> simp only [Bool.false_eq_true, if_false, if_true] at e1 ⊢ <;>
        simp only [e1, e2, bind, Except.bind, pure, Except.pure]
    have later : ∀ l ∈ c.legs, st2.leg l = st1.leg l := fun l hl => U.old.leg l (K.copy.newLegs l hl).2.1
    have fresh : ∀ d ∈ cs, st1.nextTensor ≤ d.id ∧ ∀ l ∈ d.legs, st1.nextLeg ≤ l := by
      intro d hd
      obtain ⟨u, _, P⟩ := forall₂_right U.copies d hd
      exact ⟨P.newId.1, fun l hl => (P.newLegs l hl).1⟩
    refine ⟨.cons ?_ ?_, ?_, ?_, ?_, ?_, K.grows.trans U.grows, U.nextBond.trans K.nextBond, ?_⟩
    · have P := K.copy
      refine ⟨?_, ?_, P.data, P.like, P.diag, P.length, ⟨P.newId.1, P.newId.2.trans_le U.nextTensor⟩, ?_⟩
      · rw [← P.labels]
        exact List.map_congr_left fun l hl => by unfold Store.name; rw [later l hl]
      · rw [← P.dims]
        exact List.map_congr_left fun l hl => by unfold Store.dim; rw [later l hl]
      · intro l hl
        obtain ⟨h1, h2, h3⟩ := P.newLegs l hl
        exact ⟨h1, h2.trans_le U.grows.le, by rw [later l hl, h3]⟩
    · have : ∀ (us ds : List (Tensor R)), List.Forall₂ (CopyOf st1 st2 shapeOnly) us ds →
          (∀ u ∈ us, ∀ l ∈ u.legs, l < st.nextLeg) → List.Forall₂ (CopyOf st st2 shapeOnly) us ds := by
        intro us ds h
        induction h with
        | nil => exact fun _ => .nil
        | @cons u d us ds P _ ih =>
          intro hk
          refine .cons ?_ (ih fun u hu => hk u (by simp [hu]))
          have hl1 : ∀ l ∈ u.legs, st1.leg l = st.leg l := fun l hl => K.old.leg l (hk u (by simp) l hl)
          refine ⟨?_, ?_, P.data, P.like, P.diag, P.length, ⟨(Nat.le_of_lt K.copy.newId.2 |>.trans' K.copy.newId.1).trans P.newId.1, P.newId.2⟩, ?_⟩
          · rw [P.labels]
            exact List.map_congr_left fun l hl => by unfold Store.name; rw [hl1 l hl]
          · rw [P.dims]
            exact List.map_congr_left fun l hl => by unfold Store.dim; rw [hl1 l hl]
          · intro l hl
            obtain ⟨h1, h2, h3⟩ := P.newLegs l hl
            exact ⟨K.grows.le.trans h1, h2, h3⟩
      exact this ts cs U.copies fun u hu => hk u (by simp [hu])
    · rw [List.map_cons, List.nodup_cons]
      refine ⟨fun hm => ?_, U.ids⟩
      obtain ⟨d, hd, e⟩ := List.mem_map.mp hm
      have h1 := (fresh d hd).1
      have h2 := K.copy.newId.2
      rw [e] at h1
      exact absurd h2 (not_lt.mpr h1)
    · rw [List.flatMap_cons, List.nodup_append]
      refine ⟨K.nodup, U.nodup, ?_⟩
      rintro x hx y hy rfl
      obtain ⟨d, hd, hy⟩ := List.mem_flatMap.mp hy
      exact absurd (K.copy.newLegs x hx).2.1 (not_lt.mpr ((fresh d hd).2 x hy))
    · intro d hd l hl
      rcases List.mem_cons.mp hd with rfl | hd
      · rw [later l hl]
        exact K.free l hl
      · exact U.free d hd l hl
    · refine ⟨fun l hl => ?_, fun b hb => ?_⟩
      · rw [U.old.leg l (hl.trans_le K.grows.le), K.old.leg l hl]
      · rw [U.old.bond b (by rw [K.nextBond]; exact hb), K.old.bond b hb]
    · exact (le_of_lt K.copy.newId.2 |>.trans' K.copy.newId.1).trans U.nextTensor

/-! ### The links -/

/-- The pairs of a leg and its copy. -/
def twinLegs (ts cs : List (Tensor R)) : List (LegId × LegId) := (ts.zip cs).flatMap fun p => p.1.legs.zip p.2.legs

theorem copiedAs_zip {ts cs : List (Tensor R)} (ids : (ts.map (·.id)).Nodup) (hlen : ts.length = cs.length)
    {p : Tensor R × Tensor R} (hp : p ∈ ts.zip cs) : copiedAs (ts.zip cs) p.1.id = some p := by
  unfold copiedAs
  refine find?_key (fun q : Tensor R × Tensor R => q.1.id) _ ?_ p (List.mem_reverse.mpr hp)
  rw [List.map_reverse, List.nodup_reverse]
  have : (ts.zip cs).map (fun q => q.1.id) = ts.map (·.id) := by
    rw [show (fun q : Tensor R × Tensor R => q.1.id) = (fun t : Tensor R => t.id) ∘ Prod.fst from rfl, ← List.map_map,
      List.map_fst_zip (le_of_eq hlen)]
  rw [this]
  exact ids

theorem copyPairs_eq {ts cs : List (Tensor R)} (ids : (ts.map (·.id)).Nodup) (hlen : ts.length = cs.length) :
    copyPairs (ts.zip cs) ts = twinLegs ts cs := by
  have key : ∀ f : Tensor R → List (LegId × LegId), ts.flatMap f = (ts.zip cs).flatMap fun p => f p.1 := by
    intro f
    conv_lhs => rw [show ts = (ts.zip cs).map Prod.fst from (List.map_fst_zip (le_of_eq hlen)).symm]
    rw [List.flatMap_map]
  unfold copyPairs twinLegs
  rw [key]
  refine List.flatMap_congr fun p hp => ?_
  rw [copiedAs_zip ids hlen hp]

/-- What the loop knows: the legs and their copies correspond one to one. -/
structure Twins (st st1 : Store) (ps : List (Tensor R × Tensor R)) (cor : List (LegId × LegId)) : Prop where
  wf : WFStore st
  right : ∀ p ∈ cor, ∀ q ∈ cor, p.1 = q.1 → p = q
  left : ∀ p ∈ cor, ∀ q ∈ cor, p.2 = q.2 → p = q
  known : ∀ p ∈ cor, p.1 < st.nextLeg ∧ st.nextLeg ≤ p.2 ∧ p.2 < st1.nextLeg ∧ st1.dim p.2 = st.dim p.1
  find : ∀ p ∈ cor, ∀ m, st.partner p.1 = some m →
    ((st.leg m).tensor.bind (copiedAs ps) = none ∧ ∀ q ∈ cor, q.1 ≠ m) ∨
    ∃ q i k, (st.leg m).tensor.bind (copiedAs ps) = some q ∧ q.1.legs.idxOf? m = some i ∧ q.2.legs[i]? = some k ∧ (m, k) ∈ cor

/-- The state of the loop after the pairs `done`. -/
structure LinkState (st st1 : Store) (cor done : List (LegId × LegId)) (s : Store × List BondId) : Prop where
  wf : WFStore s.1
  old : Untouched st s.1
  nextLeg : s.1.nextLeg = st1.nextLeg
  nextTensor : s.1.nextTensor = st1.nextTensor
  nextBond : st.nextBond ≤ s.1.nextBond
  attr : ∀ x, s.1.dim x = st1.dim x ∧ s.1.name x = st1.name x ∧ (s.1.leg x).tensor = (st1.leg x).tensor
  sound : ∀ p ∈ cor, ∀ k, s.1.partner p.2 = some k → ∃ m, (m, k) ∈ cor ∧ st.partner p.1 = some m
  made : ∀ p ∈ cor, ∀ q ∈ cor, st.partner p.1 = some q.1 → ∀ b ∈ s.2, (st.leg p.1).bond = some b → s.1.partner p.2 = some q.2
  free : ∀ p ∈ cor, (∀ b ∈ s.2, (st.leg p.1).bond ≠ some b) → (s.1.leg p.2).bond = none
  seen : ∀ p ∈ done, ∀ b, (st.leg p.1).bond = some b → b ∈ s.2

theorem bond_partner {st : Store} {l : LegId} {b : BondId} (w : BondInv st) (h : (st.leg l).bond = some b) :
    ∃ m, st.partner l = some m ∧ st.bondAnotherSide b l = .ok m ∧ (st.leg m).bond = some b := by
  obtain ⟨h1, h2, h3, _⟩ := w l b h
  unfold Store.partner Store.bondAnotherSide
  rw [h]
  by_cases e : (st.bond b).1 = l
  · exact ⟨(st.bond b).2, by simp [e], by simp [e], h3⟩
  · have e2 : (st.bond b).2 = l := by tauto
    exact ⟨(st.bond b).1, by simp [e], by simp [e, e2], h2⟩

theorem copyBond_step {st st1 : Store} {ps : List (Tensor R × Tensor R)} {cor done : List (LegId × LegId)}
    {s : Store × List BondId} (T : Twins st st1 ps cor) (S : LinkState st st1 cor done s) {p : LegId × LegId} (hp : p ∈ cor) :
    ∃ s', copyBond ps s p = .ok s' ∧ LinkState st st1 cor (p :: done) s' := by
  obtain ⟨k1, k2, k3, k4⟩ := T.known p hp
  have hleg : s.1.leg p.1 = st.leg p.1 := S.old.leg _ k1
  unfold copyBond
  rw [hleg]
  rcases hb : (st.leg p.1).bond with _ | b
  · refine ⟨s, rfl, ⟨S.wf, S.old, S.nextLeg, S.nextTensor, S.nextBond, S.attr, S.sound, S.made, S.free, ?_⟩⟩
    intro q hq b hbq
    rcases List.mem_cons.mp hq with rfl | hq
    · rw [hb] at hbq; cases hbq
    · exact S.seen q hq b hbq
  simp only
  by_cases hin : b ∈ s.2
  · rw [if_pos hin]
    refine ⟨s, rfl, ⟨S.wf, S.old, S.nextLeg, S.nextTensor, S.nextBond, S.attr, S.sound, S.made, S.free, ?_⟩⟩
    intro q hq b' hbq
    rcases List.mem_cons.mp hq with rfl | hq
    · rw [hb] at hbq
      exact Option.some.inj hbq ▸ hin
    · exact S.seen q hq b' hbq
  rw [if_neg hin]
  obtain ⟨m, hm, hside, hmb⟩ := bond_partner T.wf.inv hb
  have hside' : s.1.bondAnotherSide b p.1 = .ok m := by
    rw [← hside]
    unfold Store.bondAnotherSide
    rw [S.old.bond b (T.wf.freshBond _ _ hb)]
  have hmk : m < st.nextLeg := T.wf.freshLeg _ _ hmb
  have hmleg : s.1.leg m = st.leg m := S.old.leg _ hmk
  have seen' : ∀ q ∈ p :: done, ∀ b', (st.leg q.1).bond = some b' → b' ∈ b :: s.2 := by
    intro q hq b' hbq
    rcases List.mem_cons.mp hq with rfl | hq
    · rw [hb] at hbq
      simp [Option.some.inj hbq]
    · exact List.mem_cons_of_mem _ (S.seen q hq b' hbq)
  simp only [hside', bind, Except.bind, hmleg]
  -- the legs on bond `b`
  have onb : ∀ x, (st.leg x).bond = some b → x = p.1 ∨ x = m := by
    intro x hx
    obtain ⟨h1, _⟩ := T.wf.inv _ _ hb
    obtain ⟨h1', _⟩ := T.wf.inv _ _ hx
    unfold Store.bondAnotherSide at hside
    by_cases e : (st.bond b).1 = p.1
    · rw [if_pos e] at hside
      have := Except.ok.inj hside
      rcases h1' with h | h
      · exact Or.inl (h.symm.trans e)
      · exact Or.inr (h.symm.trans this)
    · rw [if_neg e, if_pos (by tauto)] at hside
      have := Except.ok.inj hside
      rcases h1' with h | h
      · exact Or.inr (h.symm.trans this)
      · exact Or.inl (h.symm.trans (by tauto))
  rcases T.find p hp m hm with ⟨e, hno⟩ | ⟨q, i, k, e1, e2, e3, hmk'⟩
  · rw [e]
    refine ⟨_, rfl, ⟨S.wf, S.old, S.nextLeg, S.nextTensor, S.nextBond, S.attr, S.sound, ?_, ?_, seen'⟩⟩
    · intro x hx y hy hxy b' hb' hbx
      rcases List.mem_cons.mp hb' with rfl | hb'
      · rcases onb _ hbx with h | h
        · rw [h, hm] at hxy
          exact absurd (Option.some.inj hxy).symm (hno y hy)
        · exact absurd h (hno x hx)
      · exact S.made x hx y hy hxy b' hb' hbx
    · exact fun x hx h => S.free x hx fun b' hb' => h b' (List.mem_cons_of_mem _ hb')
  · rw [e1]
    simp only [e2, e3]
    obtain ⟨m1, m2, m3, m4⟩ := T.known _ hmk'
    simp only at m1 m2 m3 m4
    have hdim : s.1.dim p.2 = s.1.dim k := by
      rw [(S.attr _).1, (S.attr _).1, k4, m4, partner_dim T.wf.inv hm]
    have notin : ∀ x, (st.leg x).bond = some b → ∀ b' ∈ s.2, (st.leg x).bond ≠ some b' := by
      intro x hx b' hb' h
      rw [hx] at h
      exact hin (Option.some.inj h ▸ hb')
    have fn : (s.1.leg p.2).bond = none := S.free p hp (notin _ hb)
    have fk : (s.1.leg k).bond = none := S.free _ hmk' (notin _ hmb)
    rw [linkOr_two s.1 p.2 k hdim]
    simp only [linkOr, pure, Except.pure]
    have ln : p.2 < s.1.nextLeg := by rw [S.nextLeg]; exact k3
    have lk : k < s.1.nextLeg := by rw [S.nextLeg]; exact m3
    have psym : st.partner m = some p.1 := partner_symm T.wf.inv hm
    refine ⟨_, rfl, ⟨bonded_wf S.wf hdim fn fk ln lk, ⟨?_, ?_⟩, S.nextLeg, S.nextTensor, S.nextBond.trans (Nat.le_succ _),
      ?_, ?_, ?_, ?_, seen'⟩⟩
    · intro l hl
      rw [bonded_other _ _ _ _ (hl.trans_le k2).ne (hl.trans_le m2).ne]
      exact S.old.leg l hl
    · intro b' hb'
      rw [← S.old.bond b' hb']
      unfold bonded
      simp only
      rw [if_neg (hb'.trans_le S.nextBond).ne]
    · intro x
      rw [bonded_dim, bonded_name, bonded_tensor]
      exact S.attr x
    · intro x hx y hy
      by_cases h1 : x.2 = p.2
      · obtain rfl := T.left x hx p hp h1
        rw [(bonded_partner x.2 k).1] at hy
        exact ⟨m, Option.some.inj hy ▸ hmk', hm⟩
      · by_cases h2 : x.2 = k
        · obtain rfl := T.left x hx (m, k) hmk' h2
          rw [(bonded_partner p.2 k).2] at hy
          exact ⟨p.1, Option.some.inj hy ▸ hp, psym⟩
        · rw [bonded_partner_other S.wf h1 h2] at hy
          exact S.sound x hx y hy
    · intro x hx y hy hxy b' hb' hbx
      by_cases h1 : x.2 = p.2
      · obtain rfl := T.left x hx p hp h1
        rw [(bonded_partner x.2 k).1]
        rw [hm] at hxy
        rw [← T.right (m, k) hmk' y hy (Option.some.inj hxy)]
      · by_cases h2 : x.2 = k
        · obtain rfl := T.left x hx (m, k) hmk' h2
          rw [(bonded_partner p.2 k).2]
          rw [psym] at hxy
          rw [T.right p hp y hy (Option.some.inj hxy)]
        · rw [bonded_partner_other S.wf h1 h2]
          rcases List.mem_cons.mp hb' with rfl | hb'
          · rcases onb _ hbx with h | h
            · exact absurd (congrArg Prod.snd (T.right x hx p hp h)) h1
            · exact absurd (congrArg Prod.snd (T.right x hx (m, k) hmk' h)) h2
          · exact S.made x hx y hy hxy b' hb' hbx
    · intro x hx h
      have h1 : x.2 ≠ p.2 := by
        intro e
        obtain rfl := T.left x hx p hp e
        exact h b (by simp) hb
      have h2 : x.2 ≠ k := by
        intro e
        obtain rfl := T.left x hx (m, k) hmk' e
        exact h b (by simp) hmb
      rw [bonded_other _ _ _ _ h1 h2]
      exact S.free x hx fun b' hb' => h b' (List.mem_cons_of_mem _ hb')

theorem copyBonds_ok {st st1 : Store} {ps : List (Tensor R × Tensor R)} {cor : List (LegId × LegId)}
    (T : Twins st st1 ps cor) : ∀ (todo done : List (LegId × LegId)) (s : Store × List BondId), (∀ p ∈ todo, p ∈ cor) →
    LinkState st st1 cor done s →
    ∃ s', todo.foldlM (copyBond ps) s = .ok s' ∧ LinkState st st1 cor (todo.reverse ++ done) s'
  | [], done, s, _, S => ⟨s, rfl, S⟩
  | p :: todo, done, s, h, S => by
    obtain ⟨s1, e1, S1⟩ := copyBond_step T S (h p (by simp))
    obtain ⟨s2, e2, S2⟩ := copyBonds_ok T todo (p :: done) s1 (fun q hq => h q (by simp [hq])) S1
    refine ⟨s2, ?_, by simpa using S2⟩
    rw [List.foldlM_cons, e1]
    exact e2

end CTL
