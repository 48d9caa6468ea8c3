import Verif.Spec.TextNet
import Verif.Lemmas.Construct
import Verif.Lemmas.Link
import Verif.Lemmas.MakeGraph
import Verif.Props.Text

/-! Reading a network from its text. -/

namespace CTL

/-! ### Joining the legs -/

theorem setDim_leg (st : Store) (l k : LegId) (d : Nat) :
    (st.setDim l d).leg k = if k = l then { st.leg l with dim := d } else st.leg k := rfl

theorem setDim_wf {st : Store} (w : WFStore st) {l : LegId} (f : (st.leg l).bond = none) (d : Nat) : WFStore (st.setDim l d) := by
  have hb : ∀ k, ((st.setDim l d).leg k).bond = (st.leg k).bond := by
    intro k
    rw [setDim_leg]
    split
    · next h => rw [h]
    · rfl
  have hd : ∀ k, k ≠ l → (st.setDim l d).dim k = st.dim k := by
    intro k h
    unfold Store.dim
    rw [setDim_leg, if_neg h]
  refine ⟨fun k b h => ?_, fun k b h => ?_, fun k b h => ?_⟩
  · rw [hb] at h
    obtain ⟨h1, h2, h3, h4⟩ := w.inv k b h
    have n1 : (st.bond b).1 ≠ l := by rintro e; rw [e, f] at h2; cases h2
    have n2 : (st.bond b).2 ≠ l := by rintro e; rw [e, f] at h3; cases h3
    refine ⟨h1, (hb _).trans h2, (hb _).trans h3, ?_⟩
    show (st.setDim l d).dim (st.bond b).1 = (st.setDim l d).dim (st.bond b).2
    rw [hd _ n1, hd _ n2]
    exact h4
  · rw [hb] at h
    exact w.freshLeg k b h
  · rw [hb] at h
    exact w.freshBond k b h

/-- What joining two legs does. -/
structure JoinedPair (st st' : Store) (l m : LegId) : Prop where
  wf : WFStore st'
  nextLeg : st'.nextLeg = st.nextLeg
  nextTensor : st'.nextTensor = st.nextTensor
  nextBond : st.nextBond ≤ st'.nextBond
  bond : ∀ b < st.nextBond, st'.bond b = st.bond b
  name : ∀ k, st'.name k = st.name k
  owner : ∀ k, (st'.leg k).tensor = (st.leg k).tensor
  other : ∀ k, k ≠ l → k ≠ m → st'.leg k = st.leg k
  left : st'.partner l = some m
  right : st'.partner m = some l
  dimLeft : st'.dim l = if st.dim l = 0 then st.dim m else st.dim l
  dimRight : st'.dim m = if st.dim l = 0 then st.dim m else st.dim l

theorem completeDims_spec (st : Store) {l m : LegId} (hlm : l ≠ m) :
    (completeDims st l m).dim l = (if st.dim l = 0 then st.dim m else st.dim l) ∧
    (completeDims st l m).dim m = (if st.dim m = 0 then st.dim l else st.dim m) := by
  unfold completeDims
  by_cases h : st.dim l = 0
  · rw [if_pos h, if_pos h]
    refine ⟨?_, ?_⟩
    · unfold Store.dim
      rw [setDim_leg, if_pos rfl]
    · unfold Store.dim
      rw [setDim_leg, if_neg hlm.symm]
      split
      · next h2 =>
        unfold Store.dim at h
        rw [h2, h]
      · rfl
  · rw [if_neg h, if_neg h]
    by_cases h2 : st.dim m = 0
    · rw [if_pos h2, if_pos h2]
      refine ⟨?_, ?_⟩
      · unfold Store.dim
        rw [setDim_leg, if_neg hlm]
      · unfold Store.dim
        rw [setDim_leg, if_pos rfl]
    · rw [if_neg h2, if_neg h2]
      exact ⟨rfl, rfl⟩

theorem completeDims_wf {st : Store} (w : WFStore st) {l m : LegId} (fl : (st.leg l).bond = none) (fm : (st.leg m).bond = none) :
    WFStore (completeDims st l m) := by
  unfold completeDims
  split
  · exact setDim_wf w fl _
  · split
    · exact setDim_wf w fm _
    · exact w

/-- Only the dimensions of the two legs may change. -/
theorem completeDims_leg (st : Store) (l m k : LegId) : ∃ d, (completeDims st l m).leg k = { st.leg k with dim := d } ∧
    (k ≠ l → k ≠ m → d = st.dim k) := by
  unfold completeDims
  have key : ∀ x d, ∃ d', (st.setDim x d).leg k = { st.leg k with dim := d' } ∧ (k ≠ x → d' = st.dim k) := by
    intro x d
    rw [setDim_leg]
    split
    · next h => subst h; exact ⟨d, rfl, fun h => absurd rfl h⟩
    · exact ⟨st.dim k, rfl, fun _ => rfl⟩
  split
  · obtain ⟨d, h1, h2⟩ := key l (st.dim m)
    exact ⟨d, h1, fun h _ => h2 h⟩
  · split
    · obtain ⟨d, h1, h2⟩ := key m (st.dim l)
      exact ⟨d, h1, fun _ h => h2 h⟩
    · exact ⟨st.dim k, rfl, fun _ _ => rfl⟩

theorem completeDims_rest (st : Store) (l m : LegId) : (completeDims st l m).bond = st.bond ∧ (completeDims st l m).nextLeg = st.nextLeg ∧
    (completeDims st l m).nextBond = st.nextBond ∧ (completeDims st l m).nextTensor = st.nextTensor := by
  unfold completeDims
  split
  · exact ⟨rfl, rfl, rfl, rfl⟩
  · split
    · exact ⟨rfl, rfl, rfl, rfl⟩
    · exact ⟨rfl, rfl, rfl, rfl⟩

theorem makeLinkLegs_one (st : Store) (l m : LegId) : makeLinkLegs st [l] [m] =
    if st.dim l = st.dim m then (bonded st l m, .ok [st.nextBond]) else (st, .error .assertionError) := by
  have e : makeLinkLegs st [l] [m] = linkLoop st [(some l, some m)] := rfl
  rw [e]
  unfold linkLoop
  split
  · next h =>
    rw [newBond_eq st l m h]
    rfl
  · rfl

theorem joinPair_ok {st : Store} (w : WFStore st) {l m : LegId} (hlm : l ≠ m) (fl : (st.leg l).bond = none) (fm : (st.leg m).bond = none)
    (al : l < st.nextLeg) (am : m < st.nextLeg) (hd : st.dim l = 0 ∨ st.dim m = 0 ∨ st.dim l = st.dim m) :
    ∃ st' b, makeLinkLegs (completeDims st l m) [l] [m] = (st', .ok b) ∧ JoinedPair st st' l m := by
  obtain ⟨d1, d2⟩ := completeDims_spec st hlm
  obtain ⟨rb, rl, rn, rt⟩ := completeDims_rest st l m
  have e : (completeDims st l m).dim l = (completeDims st l m).dim m := by
    rw [d1, d2]
    split
    · split
      · next h1 h2 => rw [h1, h2]
      · rfl
    · split
      · rfl
      · next h1 h2 =>
        rcases hd with h | h | h
        · exact absurd h h1
        · exact absurd h h2
        · exact h
  rw [makeLinkLegs_one, if_pos e]
  have cb : ∀ k, ((completeDims st l m).leg k).bond = (st.leg k).bond := by
    intro k
    obtain ⟨d, h, -⟩ := completeDims_leg st l m k
    rw [h]
  refine ⟨_, _, rfl, ?_⟩
  have hp : (bonded (completeDims st l m) l m).bond (completeDims st l m).nextBond = (l, m) := by simp [bonded]
  refine ⟨bonded_wf (completeDims_wf w fl fm) e ((cb _).trans fl) ((cb _).trans fm) (rl ▸ al) (rl ▸ am), rl, rt, ?_, ?_, ?_, ?_, ?_, ?_, ?_, ?_, ?_⟩
  · show st.nextBond ≤ (completeDims st l m).nextBond + 1
    rw [rn]
    omega
  · intro b hb
    show (if b = (completeDims st l m).nextBond then (l, m) else (completeDims st l m).bond b) = st.bond b
    rw [if_neg (by rw [rn]; omega), rb]
  · intro k
    rw [bonded_name]
    obtain ⟨d, h, -⟩ := completeDims_leg st l m k
    unfold Store.name
    rw [h]
  · intro k
    rw [bonded_tensor]
    obtain ⟨d, h, -⟩ := completeDims_leg st l m k
    rw [h]
  · intro k h1 h2
    rw [bonded_other _ _ _ _ h1 h2]
    obtain ⟨d, h, hd⟩ := completeDims_leg st l m k
    rw [h, hd h1 h2]
    rfl
  · unfold Store.partner
    have : ((bonded (completeDims st l m) l m).leg l).bond = some (completeDims st l m).nextBond := by simp [bonded]
    rw [this]
    simp only [hp, if_true]
  · unfold Store.partner
    have : ((bonded (completeDims st l m) l m).leg m).bond = some (completeDims st l m).nextBond := by simp [bonded]
    rw [this]
    simp only [hp, if_neg hlm]
  · rw [bonded_dim, d1]
  · rw [bonded_dim, ← e, d1]

/-- What is required of the legs of a name, and what is known of them afterwards. -/
def Entry.Fits (st : Store) (ls : List LegId) : Prop :=
  ls.length ≤ 2 ∧ ∀ l ∈ ls, ∀ m ∈ ls, st.dim l = 0 ∨ st.dim m = 0 ∨ st.dim l = st.dim m

/-- The legs of a name afterwards. -/
def Entry.Joined (st st' : Store) (ls : List LegId) : Prop :=
  match ls with
  | [l, m] => st'.partner l = some m ∧ st'.partner m = some l ∧ st'.dim l = (if st.dim l = 0 then st.dim m else st.dim l) ∧ st'.dim m = st'.dim l
  | _ => ∀ l ∈ ls, st'.leg l = st.leg l

/-- The names that have been used. -/
structure Entries (st : Store) (links : List (String × List LegId)) : Prop where
  nodup : (links.flatMap fun e => e.2).Nodup
  free : ∀ e ∈ links, ∀ l ∈ e.2, (st.leg l).bond = none ∧ l < st.nextLeg

/-- What the second loop does. -/
structure NamesLinked (st st' : Store) (links : List (String × List LegId)) : Prop where
  wf : WFStore st'
  nextLeg : st'.nextLeg = st.nextLeg
  nextTensor : st'.nextTensor = st.nextTensor
  nextBond : st.nextBond ≤ st'.nextBond
  bond : ∀ b < st.nextBond, st'.bond b = st.bond b
  name : ∀ k, st'.name k = st.name k
  owner : ∀ k, (st'.leg k).tensor = (st.leg k).tensor
  other : ∀ k, (∀ e ∈ links, k ∉ e.2) → st'.leg k = st.leg k
  joined : ∀ e ∈ links, Entry.Joined st st' e.2

theorem Entry.Joined.keep {st st' st2 : Store} {ls : List LegId} (w : WFStore st') (h : Entry.Joined st st' ls) (hl : ∀ l ∈ ls, st2.leg l = st'.leg l)
    (hb : ∀ b < st'.nextBond, st2.bond b = st'.bond b) : Entry.Joined st st2 ls := by
  have hp : ∀ l ∈ ls, st2.partner l = st'.partner l := by
    intro l hm
    unfold Store.partner
    rw [hl l hm]
    cases e : (st'.leg l).bond with
    | none => rfl
    | some b => simp only [hb b (w.freshBond l b e)]
  unfold Entry.Joined at h ⊢
  split at h
  · next l m =>
    have dl : st2.dim l = st'.dim l := by unfold Store.dim; rw [hl l (by simp)]
    have dm : st2.dim m = st'.dim m := by unfold Store.dim; rw [hl m (by simp)]
    rw [hp l (by simp), hp m (by simp), dl, dm]
    exact h
  · intro l hm
    rw [hl l hm, h l hm]

theorem linkNames_ok : ∀ (links : List (String × List LegId)) (st : Store), WFStore st → Entries st links →
    (∀ e ∈ links, Entry.Fits st e.2) → ∃ st', linkNames st links = .ok st' ∧ NamesLinked st st' links
  | [], st, w, _, _ => ⟨st, rfl, w, rfl, rfl, le_rfl, fun _ _ => rfl, fun _ => rfl, fun _ => rfl, fun _ _ => rfl, by simp⟩
  | (n, ls) :: rest, st, w, E, hf => by
    have F := hf (n, ls) (by simp)
    have hnd := E.nodup
    rw [List.flatMap_cons, List.nodup_append] at hnd
    obtain ⟨nd1, nd2, dis0⟩ := hnd
    replace nd1 : ls.Nodup := nd1
    have dis : ∀ e ∈ rest, ∀ l ∈ e.2, l ∉ ls := fun e he l hl hm => dis0 l hm l (List.mem_flatMap.mpr ⟨e, he, hl⟩) rfl
    clear dis0
    unfold linkNames
    rw [if_pos F.1]
    split
    · next l m =>
      have hlm : l ≠ m := by
        simp only [List.nodup_cons, List.mem_singleton] at nd1
        exact nd1.1
      obtain ⟨fl, al⟩ := E.free (n, [l, m]) (by simp) l (by simp)
      obtain ⟨fm, am⟩ := E.free (n, [l, m]) (by simp) m (by simp)
      obtain ⟨st1, b, e1, J⟩ := joinPair_ok w hlm fl fm al am (F.2 l (by simp) m (by simp))
      have same : ∀ e ∈ rest, ∀ x ∈ e.2, st1.leg x = st.leg x := by
        intro e he x hx
        have := dis e he x hx
        simp only [List.mem_cons, List.not_mem_nil, or_false, not_or] at this
        exact J.other x this.1 this.2
      obtain ⟨st2, e2, N⟩ := linkNames_ok rest st1 J.wf
        ⟨nd2, fun e he x hx => by rw [same e he x hx, J.nextLeg]; exact E.free e (List.mem_cons_of_mem _ he) x hx⟩
        (fun e he => ⟨(hf e (List.mem_cons_of_mem _ he)).1, fun x hx y hy => by
          unfold Store.dim
          rw [same e he x hx, same e he y hy]
          exact (hf e (List.mem_cons_of_mem _ he)).2 x hx y hy⟩)
      rw [e1]
      refine ⟨st2, e2, N.wf, N.nextLeg.trans J.nextLeg, N.nextTensor.trans J.nextTensor, J.nextBond.trans N.nextBond, ?_, ?_, ?_, ?_, ?_⟩
      · exact fun b hb => (N.bond b (lt_of_lt_of_le hb J.nextBond)).trans (J.bond b hb)
      · exact fun k => (N.name k).trans (J.name k)
      · exact fun k => (N.owner k).trans (J.owner k)
      · intro k hk
        have := hk _ (List.mem_cons_self ..)
        simp only [List.mem_cons, List.not_mem_nil, or_false, not_or] at this
        rw [N.other k fun e he => hk e (List.mem_cons_of_mem _ he)]
        exact J.other k this.1 this.2
      · intro e he
        rcases List.mem_cons.mp he with rfl | he
        · have J1 : Entry.Joined st st1 [l, m] := ⟨J.left, J.right, J.dimLeft, J.dimRight.trans J.dimLeft.symm⟩
          exact J1.keep J.wf (fun x hx => N.other x fun e he hm => dis e he x hm hx) N.bond
        · have := N.joined e he
          have dd : ∀ x ∈ e.2, st1.dim x = st.dim x := fun x hx => by unfold Store.dim; rw [same e he x hx]
          unfold Entry.Joined at this ⊢
          split at this
          · next x y h =>
            rw [h] at dd
            rw [dd x (by simp), dd y (by simp)] at this
            exact this
          · intro x hx
            rw [this x hx, same e he x hx]
    · next h2 =>
      obtain ⟨st2, e2, N⟩ := linkNames_ok rest st w ⟨nd2, fun e he => E.free e (List.mem_cons_of_mem _ he)⟩
        fun e he => hf e (List.mem_cons_of_mem _ he)
      refine ⟨st2, e2, N.wf, N.nextLeg, N.nextTensor, N.nextBond, N.bond, N.name, N.owner, fun k hk => N.other k fun e he => hk e (List.mem_cons_of_mem _ he), ?_⟩
      intro e he
      rcases List.mem_cons.mp he with rfl | he
      · unfold Entry.Joined
        split
        · next l m h => exact absurd h (h2 l m)
        · exact fun l hl => N.other l fun e he hm => dis e he l hm hl
      · exact N.joined e he

theorem linkNames_fails : ∀ (links : List (String × List LegId)) (st : Store), WFStore st → Entries st links →
    (∃ e ∈ links, ¬ Entry.Fits st e.2) → linkNames st links = .error .assertionError
  | [], st, _, _, h => by obtain ⟨e, he, -⟩ := h; cases he
  | (n, ls) :: rest, st, w, E, h => by
    have hnd := E.nodup
    rw [List.flatMap_cons, List.nodup_append] at hnd
    obtain ⟨nd1, nd2, dis0⟩ := hnd
    replace nd1 : ls.Nodup := nd1
    have dis : ∀ e ∈ rest, ∀ l ∈ e.2, l ∉ ls := fun e he l hl hm => dis0 l hm l (List.mem_flatMap.mpr ⟨e, he, hl⟩) rfl
    clear dis0
    unfold linkNames
    by_cases hlen : ls.length ≤ 2
    · rw [if_pos hlen]
      have E' : Entries st rest := ⟨nd2, fun e he => E.free e (List.mem_cons_of_mem _ he)⟩
      split
      · next l m =>
        have hlm : l ≠ m := by
          simp only [List.nodup_cons, List.mem_singleton] at nd1
          exact nd1.1
        obtain ⟨fl, al⟩ := E.free (n, [l, m]) (by simp) l (by simp)
        obtain ⟨fm, am⟩ := E.free (n, [l, m]) (by simp) m (by simp)
        by_cases hd : st.dim l = 0 ∨ st.dim m = 0 ∨ st.dim l = st.dim m
        · obtain ⟨st1, b, e1, J⟩ := joinPair_ok w hlm fl fm al am hd
          rw [e1]
          have same : ∀ e ∈ rest, ∀ x ∈ e.2, st1.leg x = st.leg x := by
            intro e he x hx
            have := dis e he x hx
            simp only [List.mem_cons, List.not_mem_nil, or_false, not_or] at this
            exact J.other x this.1 this.2
          refine linkNames_fails rest st1 J.wf ⟨nd2, fun e he x hx => by
            rw [same e he x hx, J.nextLeg]; exact E'.free e he x hx⟩ ?_
          obtain ⟨e, he, hn⟩ := h
          rcases List.mem_cons.mp he with rfl | he
          · refine absurd ⟨hlen, ?_⟩ hn
            intro x hx y hy
            simp only [List.mem_cons, List.not_mem_nil, or_false] at hx hy
            rcases hx with rfl | rfl <;> rcases hy with rfl | rfl <;> tauto
          · refine ⟨e, he, fun F => hn ⟨F.1, fun x hx y hy => ?_⟩⟩
            have := F.2 x hx y hy
            unfold Store.dim at this ⊢
            rwa [same e he x hx, same e he y hy] at this
        · obtain ⟨d1, d2⟩ := completeDims_spec st hlm
          simp only [not_or] at hd
          rw [makeLinkLegs_one, if_neg]
          rw [d1, d2, if_neg hd.1, if_neg hd.2.1]
          exact hd.2.2
      · next h2 =>
        refine linkNames_fails rest st w E' ?_
        obtain ⟨e, he, hn⟩ := h
        rcases List.mem_cons.mp he with rfl | he
        · refine absurd ⟨hlen, ?_⟩ hn
          intro x hx y hy
          match ls, hlen, h2, hx, hy with
          | [a], _, _, hx, hy =>
            rw [List.mem_singleton.mp hx, List.mem_singleton.mp hy]
            exact Or.inr (Or.inr rfl)
          | [a, b], _, h2, _, _ => exact absurd rfl (h2 a b)
        · exact ⟨e, he, hn⟩
    · rw [if_neg hlen]

end CTL
