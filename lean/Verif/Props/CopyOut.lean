import Verif.Spec.CopyOut
import Verif.Lemmas.CopyOut
import Verif.Lemmas.RandomMPS
import Verif.Lemmas.DoubleMerge
import Verif.Props.Copy

/-! C59: copies that take over the bonds to other tensors. -/

namespace CTL
variable {R : Type}

theorem mem_twin {ts cs : List (Tensor R)} {κ : LegId → LegId} (h : List.Forall₂ (fun t c => c.legs = t.legs.map κ) ts cs) {p : LegId × LegId} :
    p ∈ twinLegs ts cs ↔ LegIn ts p.1 ∧ p.2 = κ p.1 := by
  induction h with
  | nil => simp [twinLegs, LegIn]
  | @cons t c ts cs e _ ih =>
    have : twinLegs (t :: ts) (c :: cs) = t.legs.zip c.legs ++ twinLegs ts cs := by simp [twinLegs]
    rw [this, List.mem_append, ih, e, List.zip_map_right]
    have hz : p ∈ (t.legs.zip t.legs).map (Prod.map id κ) ↔ p.1 ∈ t.legs ∧ p.2 = κ p.1 := by
      constructor
      · intro hp
        obtain ⟨q, hq, rfl⟩ := List.mem_map.mp hp
        obtain ⟨j, hj, rfl⟩ := List.getElem_of_mem hq
        simp
      · rintro ⟨h1, h2⟩
        obtain ⟨j, hj, ej⟩ := List.getElem_of_mem h1
        refine List.mem_map.mpr ⟨(p.1, p.1), ?_, ?_⟩
        · rw [List.mem_iff_getElem]
          exact ⟨j, by simpa using hj, by simp [ej]⟩
        · exact Prod.ext rfl h2.symm
    rw [hz]
    unfold LegIn
    simp only [List.mem_cons, exists_eq_or_imp]
    tauto

theorem twin_fst {ts cs : List (Tensor R)} {κ : LegId → LegId} (h : List.Forall₂ (fun t c => c.legs = t.legs.map κ) ts cs) :
    (twinLegs ts cs).map Prod.fst = ts.flatMap fun t => t.legs := by
  induction h with
  | nil => rfl
  | @cons t c ts cs e _ ih =>
    have : twinLegs (t :: ts) (c :: cs) = t.legs.zip c.legs ++ twinLegs ts cs := by simp [twinLegs]
    rw [this, List.map_append, ih, List.flatMap_cons, List.map_fst_zip (by rw [e]; simp)]

/-- The state before the loop. -/
theorem outInv_start {st st1 : Store} {flag : Bool} {ts cs : List (Tensor R)} (w : WFStore st) (U : Unlinked st st1 flag ts cs) (g0 : List LegId) :
    OutInv st st1 g0 (twinLegs ts cs) [] ⟨st1, g0, []⟩ := by
  refine ⟨U.grows.wf w, rfl, rfl, le_of_eq U.nextBond.symm, U.old.bond, fun _ => ⟨rfl, rfl, rfl⟩, fun x hx _ => U.old.leg x hx, by simp, by simp,
    ?_, fun _ h => h, fun _ h => Or.inl h, by simp, by simp⟩
  rintro ⟨l, n⟩ hp _
  obtain ⟨i, p, _, a2⟩ := mem_twinLegs.mp hp
  obtain ⟨c, hc, hn⟩ := legOf_mem a2
  exact U.free c hc n hn

/-- C59: with `linkOutgoingBonds = True` the copies take over all bonds to other tensors; the bonds inside the list are copied. -/
theorem C59_taken_over [Zero R] [One R] (rand : List Nat → List Nat → R) {st : Store} {ts : List (Tensor R)} (h : TensorList st ts)
    (shapeOnly : Bool) :
    ∃ st' gone cs κ, copyTensorListOut rand st [] ts shapeOnly = .ok (st', gone, cs) ∧ TakenOver st st' shapeOnly ts cs κ gone := by
  obtain ⟨st1, cs, e1, U⟩ := copyEach_ok rand shapeOnly ts st h.good fun t ht l hl => (h.known t ht l hl).1
  have hlen := U.copies.length_eq
  have T := twins_ok h U
  obtain ⟨κ, hκ⟩ := copyMap U.copies h.nodup
  obtain ⟨s, e2, S⟩ := copyBondsOut_ok T (twinLegs ts cs) [] ⟨st1, [], []⟩ (fun p hp => ⟨hp, by simp⟩) (by rw [twin_fst hκ]; exact h.nodup)
    (by simp) (outInv_start h.wf U [])
  have tw : ∀ l, LegIn ts l → (l, κ l) ∈ twinLegs ts cs := fun l hl => (mem_twin hκ).mpr ⟨hl, rfl⟩
  have known : ∀ l, LegIn ts l → l < st.nextLeg := fun l ⟨t, ht, hl⟩ => (h.known t ht l hl).1
  have outside : ∀ m, ¬ LegIn ts m → ∀ q ∈ twinLegs ts cs, q.1 ≠ m := fun m hm q hq e => hm (e ▸ ((mem_twin hκ).mp hq).1)
  have done : ∀ l, LegIn ts l → ∀ b, (st.leg l).bond = some b → b ∈ s.added := fun l hl b hb => S.seen (l, κ l) (by simpa using tw l hl) b hb
  have bondOf : ∀ l m, st.partner l = some m → ∃ b, (st.leg l).bond = some b := fun l m e => by
    obtain ⟨b, hb, _⟩ := partner_some h.wf.inv e
    exact ⟨b, hb⟩
  refine ⟨s.store, s.gone, cs, κ, ?_, ?_, hκ, U.ids, U.nodup, S.wf, by rw [S.nextLeg]; exact U.grows.le, ?_, ?_, ?_, ?_, ?_, ?_⟩
  · unfold copyTensorListOut
    simp only [e1, bind, Except.bind, copyPairs_eq h.ids hlen]
    rw [show (twinLegs ts cs).foldlM (copyBondOut (ts.zip cs)) ⟨st1, [], []⟩ = .ok s from e2]
    rfl
  · refine U.copies.imp fun t c P => ?_
    refine ⟨?_, ?_, P.data, P.like, P.diag, P.length, by rw [S.nextTensor]; exact P.newId, ?_⟩
    · rw [← P.labels]
      exact List.map_congr_left fun l _ => (S.attr l).2.1
    · rw [← P.dims]
      exact List.map_congr_left fun l _ => (S.attr l).1
    · intro l hl
      rw [S.nextLeg, (S.attr l).2.2]
      exact P.newLegs l hl
  · intro l hl
    obtain ⟨a, b, c⟩ := S.attr l
    rw [a, b, c]
    unfold Store.dim Store.name
    rw [U.old.leg l hl]
    exact ⟨rfl, rfl, rfl⟩
  · intro l hl hn
    have hb : (st.leg l).bond = none := by
      unfold Store.partner at hn
      split at hn
      · assumption
      · cases hn
    have hno : ∀ b ∈ s.added, (st.leg l).bond ≠ some b := by intro b _; rw [hb]; simp
    unfold Store.partner
    rw [S.free (l, κ l) (tw l hl) hno, S.later l (known l hl) hno, hb]
    exact ⟨rfl, rfl⟩
  · intro l m hl hm e
    obtain ⟨b, hb⟩ := bondOf l m e
    obtain ⟨a1, a2⟩ := S.inner (l, κ l) (tw l hl) (m, κ m) (tw m hm) e b (done l hl b hb) hb
    refine ⟨a1, ?_⟩
    rw [← e]
    unfold Store.partner
    rw [a2, hb]
    simp only [S.bond b (h.wf.freshBond _ _ hb)]
  · intro l m hl hm e
    obtain ⟨b, hb⟩ := bondOf l m e
    obtain ⟨a1, a2, a3, -⟩ := S.outer (l, κ l) (tw l hl) m e (outside m hm) b (done l hl b hb) hb
    refine ⟨a1, a2, ?_⟩
    unfold Store.partner
    rw [a3]
  · intro l
    constructor
    · intro hl
      rcases S.onlyGone l hl with hh | ⟨p, -, hp, rfl, m, hm, ho, -⟩
      · cases hh
      · refine ⟨((mem_twin hκ).mp hp).1, m, fun hm' => ho _ (tw m hm') rfl, hm⟩
    · rintro ⟨hl, m, hm, e⟩
      obtain ⟨b, hb⟩ := bondOf l m e
      exact (S.outer (l, κ l) (tw l hl) m e (outside m hm) b (done l hl b hb) hb).2.2.2
  · intro l hl hnot hp
    have same : s.store.leg l = st.leg l := by
      refine S.later l hl fun b hb e => ?_
      obtain ⟨p, hpc, hpb⟩ := S.added b hb
      obtain ⟨m, hm, -, -⟩ := bond_partner h.wf.inv hpb
      rcases on_bond h.wf.inv hpb hm l e with rfl | rfl
      · exact hnot ((mem_twin hκ).mp hpc).1
      · exact hp p.1 (partner_symm h.wf.inv hm) ((mem_twin hκ).mp hpc).1
    refine ⟨same, ?_⟩
    unfold Store.partner
    rw [same]
    cases hb : (st.leg l).bond with
    | none => rfl
    | some b => simp only [S.bond b (h.wf.freshBond _ _ hb)]

/-- The legs of a network in which `ts` has been replaced by copies. -/
noncomputable def movedLeg (ts : List (Tensor R)) (κ : LegId → LegId) (l : LegId) : LegId :=
  open Classical in if LegIn ts l then κ l else l

/-- C59: in a network with further tensors `N`, replacing `ts` by the copies that have taken over the bonds changes neither the bonds nor the
value. -/
theorem C59_network [CommSemiring R] {st st' : Store} {ts cs N : List (Tensor R)} {κ : LegId → LegId} {gone : List LegId}
    (T : TakenOver st st' false ts cs κ gone) (w : WFStore st) (known : ∀ l, LegIn (N ++ ts) l → l < st.nextLeg)
    (apart : ∀ l, LegIn N l → ¬ LegIn ts l) :
    (∀ l, LegIn (N ++ ts) l → LegIn (N ++ cs) (movedLeg ts κ l)) ∧
    (∀ n, LegIn (N ++ cs) n → ∃ l, LegIn (N ++ ts) l ∧ movedLeg ts κ l = n) ∧
    (∀ l m, LegIn (N ++ ts) l → LegIn (N ++ ts) m → movedLeg ts κ l = movedLeg ts κ m → l = m) ∧
    (∀ l m, LegIn (N ++ ts) l → LegIn (N ++ ts) m →
      (st'.partner (movedLeg ts κ l) = some (movedLeg ts κ m) ↔ st.partner l = some m)) ∧
    ∀ (ps : List (LegId × LegId)) (τ : Assign), (∀ p ∈ ps, LegIn (N ++ ts) p.1 ∧ LegIn (N ++ ts) p.2) →
      netSum st' (N ++ cs) (ps.map fun p => (movedLeg ts κ p.1, movedLeg ts κ p.2)) τ =
        netSum st (N ++ ts) ps fun l => τ (movedLeg ts κ l) := by
  have hin : ∀ l, LegIn ts l → movedLeg ts κ l = κ l := fun l hl => by unfold movedLeg; rw [if_pos hl]
  have hout : ∀ l, ¬ LegIn ts l → movedLeg ts κ l = l := fun l hl => by unfold movedLeg; rw [if_neg hl]
  have split : ∀ l, LegIn (N ++ ts) l ↔ (LegIn N l ∨ LegIn ts l) := by
    intro l
    unfold LegIn
    simp only [List.mem_append, or_and_right, exists_or]
  have split' : ∀ l, LegIn (N ++ cs) l ↔ (LegIn N l ∨ LegIn cs l) := by
    intro l
    unfold LegIn
    simp only [List.mem_append, or_and_right, exists_or]
  have lenE := T.copies.length_eq
  have new : ∀ l, LegIn ts l → st.nextLeg ≤ κ l ∧ LegIn cs (κ l) ∧ st'.dim (κ l) = st.dim l := by
    rintro l ⟨t, ht, hl⟩
    obtain ⟨i, hi, rfl⟩ := List.getElem_of_mem ht
    have hc : i < cs.length := lenE ▸ hi
    have h1 : cs[i].legs = ts[i].legs.map κ := (List.forall₂_iff_get.mp T.legs).2 i hi hc
    have P : CopyOf st st' false ts[i] cs[i] := (List.forall₂_iff_get.mp T.copies).2 i hi hc
    have hm : κ l ∈ cs[i].legs := h1 ▸ List.mem_map_of_mem hl
    have d := P.dims
    rw [h1, List.map_map, List.map_inj_left] at d
    exact ⟨(P.newLegs _ hm).1, ⟨_, List.getElem_mem hc, hm⟩, d l hl⟩
  have flat : (cs.flatMap fun c => c.legs) = (ts.flatMap fun t => t.legs).map κ := by
    have := T.legs
    clear * - this
    induction this with
    | nil => rfl
    | cons h _ ih => rw [List.flatMap_cons, List.flatMap_cons, List.map_append, h, ih]
  have inFlat : ∀ (l : LegId) (us : List (Tensor R)), LegIn us l ↔ l ∈ us.flatMap fun t => t.legs := fun l us => List.mem_flatMap.symm
  have injκ : ∀ l m, LegIn ts l → LegIn ts m → κ l = κ m → l = m := by
    intro l m hl hm e
    have nd := T.nodup
    rw [flat] at nd
    exact List.inj_on_of_nodup_map nd ((inFlat l ts).mp hl) ((inFlat m ts).mp hm) e
  have inj : ∀ l m, LegIn (N ++ ts) l → LegIn (N ++ ts) m → movedLeg ts κ l = movedLeg ts κ m → l = m := by
    intro l m hl hm e
    by_cases c1 : LegIn ts l <;> by_cases c2 : LegIn ts m
    · rw [hin l c1, hin m c2] at e
      exact injκ l m c1 c2 e
    · rw [hin l c1, hout m c2] at e
      exact absurd (new l c1).1 (Nat.not_le.mpr (e ▸ known m hm))
    · rw [hout l c1, hin m c2] at e
      exact absurd (new m c2).1 (Nat.not_le.mpr (e ▸ known l hl))
    · rwa [hout l c1, hout m c2] at e
  have forward : ∀ l m, LegIn (N ++ ts) l → LegIn (N ++ ts) m → st.partner l = some m → st'.partner (movedLeg ts κ l) = some (movedLeg ts κ m) := by
    intro l m hl hm e
    by_cases c1 : LegIn ts l <;> by_cases c2 : LegIn ts m
    · rw [hin l c1, hin m c2]
      exact (T.inner l m c1 c2 e).1
    · rw [hin l c1, hout m c2]
      exact (T.outer l m c1 c2 e).1
    · rw [hout l c1, hin m c2]
      exact (T.outer m l c2 c1 (partner_symm w.inv e)).2.1
    · rw [hout l c1, hout m c2]
      rw [(T.others l (known l hl) c1 fun x hx => by rw [e] at hx; rw [← Option.some.inj hx]; exact c2).2]
      exact e
  refine ⟨?_, ?_, inj, ?_, ?_⟩
  · intro l hl
    rcases (split l).mp hl with h | h
    · rw [hout l (apart l h)]
      exact (split' l).mpr (Or.inl h)
    · rw [hin l h]
      exact (split' _).mpr (Or.inr (new l h).2.1)
  · intro n hn
    rcases (split' n).mp hn with h | h
    · exact ⟨n, (split n).mpr (Or.inl h), hout n (apart n h)⟩
    · rw [inFlat, flat] at h
      obtain ⟨l, hl, rfl⟩ := List.mem_map.mp h
      rw [← inFlat] at hl
      exact ⟨l, (split l).mpr (Or.inr hl), hin l hl⟩
  · intro l m hl hm
    refine ⟨fun e => ?_, forward l m hl hm⟩
    rcases hp : st.partner l with _ | x
    · exfalso
      by_cases c : LegIn ts l
      · rw [hin l c, (T.free l c hp).1] at e
        cases e
      · rw [hout l c, (T.others l (known l hl) c (by rw [hp]; simp)).2, hp] at e
        cases e
    · by_cases cx : LegIn (N ++ ts) x
      · have := forward l x hl cx hp
        rw [e] at this
        rw [inj m x hm cx (Option.some.inj this)]
      · exfalso
        have cx' : ¬ LegIn ts x := fun h => cx ((split x).mpr (Or.inr h))
        have px : st'.partner (movedLeg ts κ l) = some x := by
          by_cases c : LegIn ts l
          · rw [hin l c]
            exact (T.outer l x c cx' hp).1
          · rw [hout l c, (T.others l (known l hl) c (by rw [hp]; rintro m ⟨⟩; exact cx')).2, hp]
        rw [e] at px
        have hx : movedLeg ts κ m = x := Option.some.inj px
        by_cases c : LegIn ts m
        · rw [hin m c] at hx
          obtain ⟨b, hb, -⟩ := partner_some w.inv (partner_symm w.inv hp)
          exact absurd (new m c).1 (Nat.not_le.mpr (hx ▸ w.freshLeg x b hb))
        · rw [hout m c] at hx
          exact cx (hx ▸ hm)
  · intro ps τ hps
    have := sumBonds_twins (cor := ((N ++ ts).flatMap fun t => t.legs).map fun l => (l, movedLeg ts κ l)) (dim := st.dim) (dim' := st'.dim)
      (f := fun σ => ((N ++ ts).map fun t => entry t σ).prod) (g := fun σ => ((N ++ cs).map fun t => entry t σ).prod)
      (by
        intro p hp q hq h
        obtain ⟨x, -, rfl⟩ := List.mem_map.mp hp
        obtain ⟨y, -, rfl⟩ := List.mem_map.mp hq
        obtain rfl : x = y := h
        rfl)
      (by
        intro p hp q hq h
        obtain ⟨x, hx, rfl⟩ := List.mem_map.mp hp
        obtain ⟨y, hy, rfl⟩ := List.mem_map.mp hq
        obtain rfl := inj x y ((inFlat x _).mpr hx) ((inFlat y _).mpr hy) h
        rfl)
      (by
        intro p hp
        obtain ⟨x, hx, rfl⟩ := List.mem_map.mp hp
        have hx := (inFlat x _).mpr hx
        by_cases c : LegIn ts x
        · simp only [hin x c]
          exact (new x c).2.2
        · simp only [hout x c]
          exact (T.attr x (known x hx)).1)
      (by
        intro σ τ h
        have h : ∀ l, LegIn (N ++ ts) l → σ l = τ (movedLeg ts κ l) := fun l hl =>
          h (l, movedLeg ts κ l) (List.mem_map_of_mem (f := fun l => (l, movedLeg ts κ l)) ((inFlat l _).mp hl))
        rw [List.map_append, List.map_append, List.prod_append, List.prod_append]
        congr 2
        · refine List.map_congr_left fun t ht => entry_congr t fun l hl => ?_
          have hl' : LegIn N l := ⟨t, ht, hl⟩
          rw [h l ((split l).mpr (Or.inl hl')), hout l (apart l hl')]
        · refine List.ext_getElem (by simp [lenE]) fun i h1 h2 => ?_
          rw [List.length_map] at h1 h2
          rw [List.getElem_map, List.getElem_map]
          refine entry_twins ((List.forall₂_iff_get.mp T.copies).2 i h1 h2) ?_
          have e : cs[i].legs = ts[i].legs.map κ := (List.forall₂_iff_get.mp T.legs).2 i h1 h2
          show ∀ p ∈ ts[i].legs.zip cs[i].legs, σ p.1 = τ p.2
          rw [e, List.zip_map_right]
          intro p hp
          obtain ⟨q, hq, rfl⟩ := List.mem_map.mp hp
          rw [List.mem_iff_getElem] at hq
          obtain ⟨j, hj, rfl⟩ := hq
          simp only [List.getElem_zip, Prod.map]
          have hl' : LegIn ts (ts[i].legs[j]'(by simpa using hj)) := ⟨_, List.getElem_mem h1, List.getElem_mem _⟩
          have := h _ ((split _).mpr (Or.inr hl'))
          rw [hin _ hl'] at this
          exact this)
      ps (ps.map fun p => (movedLeg ts κ p.1, movedLeg ts κ p.2)) (by
        rw [List.forall₂_map_right_iff, List.forall₂_same]
        intro p hp
        obtain ⟨h1, h2⟩ := hps p hp
        exact ⟨List.mem_map_of_mem (f := fun l => (l, movedLeg ts κ l)) ((inFlat _ _).mp h1),
          List.mem_map_of_mem (f := fun l => (l, movedLeg ts κ l)) ((inFlat _ _).mp h2)⟩)
      (fun l => τ (movedLeg ts κ l)) τ (by
        intro p hp
        obtain ⟨x, -, rfl⟩ := List.mem_map.mp hp
        rfl)
    exact this.symm

theorem first_of {g : List LegId} : ∀ {todo : List (LegId × LegId)}, (∃ p ∈ todo, p.1 ∈ g) →
    ∃ pre p post, todo = pre ++ p :: post ∧ p.1 ∈ g ∧ ∀ q ∈ pre, q.1 ∉ g
  | [], h => by obtain ⟨p, hp, -⟩ := h; cases hp
  | x :: xs, h => by
    by_cases c : x.1 ∈ g
    · exact ⟨[], x, xs, rfl, c, by simp⟩
    · obtain ⟨p, hp, hg⟩ := h
      have : ∃ p ∈ xs, p.1 ∈ g := by
        rcases List.mem_cons.mp hp with rfl | hp
        · exact absurd hg c
        · exact ⟨p, hp, hg⟩
      obtain ⟨pre, q, post, e, h1, h2⟩ := first_of this
      refine ⟨x :: pre, q, post, by rw [e]; rfl, h1, fun r hr => ?_⟩
      rcases List.mem_cons.mp hr with rfl | hr
      · exact c
      · exact h2 r hr

/-- C59: afterwards the given tensors cannot be copied again in this way if one of them had a bond to another tensor: reading the deleted
attribute raises AttributeError. -/
theorem C59_again [Zero R] [One R] (rand : List Nat → List Nat → R) {st st' : Store} {ts cs : List (Tensor R)} (h : TensorList st ts)
    {flag : Bool} {κ : LegId → LegId} {gone : List LegId} (T : TakenOver st st' flag ts cs κ gone)
    (hg : ∃ l m, LegIn ts l ∧ ¬ LegIn ts m ∧ st.partner l = some m) (flag' : Bool) :
    copyTensorListOut rand st' gone ts flag' = .error .attributeError := by
  have old : ∀ t ∈ ts, ∀ l ∈ t.legs, l < st.nextLeg := fun t ht l hl => (h.known t ht l hl).1
  have h' : TensorList st' ts := by
    refine ⟨T.wf, fun t ht => (h.good t ht).congr fun l hl => (T.attr l (old t ht l hl)).1, h.ids, fun t ht l hl => ?_, ?_⟩
    · rw [(T.attr l (old t ht l hl)).2.2]
      exact ⟨(old t ht l hl).trans_le T.le, (h.known t ht l hl).2⟩
    · intro t ht l hl m hm u hu e
      have hl' : LegIn ts l := ⟨t, ht, hl⟩
      rcases hp : st.partner l with _ | x
      · rw [(T.free l hl' hp).2] at hm
        cases hm
      · by_cases c : LegIn ts x
        · rw [(T.inner l x hl' c hp).2] at hm
          obtain rfl := Option.some.inj hm
          obtain ⟨v, hv, hx⟩ := c
          rw [(T.attr x (old v hv x hx)).2.2] at e
          exact h.inside t ht l hl x hp u hu e
        · rw [(T.outer l x hl' c hp).2.2] at hm
          cases hm
  obtain ⟨st1, ds, e1, U⟩ := copyEach_ok rand flag' ts st' h'.good fun t ht l hl => (h'.known t ht l hl).1
  have hlen := U.copies.length_eq
  obtain ⟨κ', hκ⟩ := copyMap U.copies h'.nodup
  obtain ⟨l, m, hl, hm, e⟩ := hg
  obtain ⟨pre, p, post, esplit, hp, hpre⟩ := first_of (g := gone) (todo := twinLegs ts ds)
    ⟨(l, κ' l), (mem_twin hκ).mpr ⟨hl, rfl⟩, (T.gone l).mpr ⟨hl, m, hm, e⟩⟩
  have nd : ((twinLegs ts ds).map Prod.fst).Nodup := by rw [twin_fst hκ]; exact h'.nodup
  obtain ⟨s, e2, S⟩ := copyBondsOut_ok (twins_ok h' U) pre [] ⟨st1, gone, []⟩ (fun q hq => ⟨by rw [esplit]; simp [hq], hpre q hq⟩)
    (by rw [esplit, List.map_append] at nd; exact (List.nodup_append.mp nd).1) (by simp) (outInv_start h'.wf U gone)
  unfold copyTensorListOut
  simp only [e1, bind, Except.bind, copyPairs_eq h'.ids hlen, esplit]
  have : (pre ++ p :: post).foldlM (copyBondOut (ts.zip ds)) ⟨st1, gone, []⟩ = .error .attributeError := by
    rw [List.foldlM_append, e2]
    show (p :: post).foldlM (copyBondOut (ts.zip ds)) s = _
    rw [List.foldlM_cons]
    have hk := S.keep _ hp
    unfold copyBondOut
    rw [if_pos hk]
    rfl
  rw [this]

/-! ### `FreeBoundaryMPS` with `inplace = False` -/

/-- Copies of a chain that have taken over the bonds form a chain. -/
theorem TakenOver.chain [Zero R] {st st' : Store} {ts cs : List (Tensor R)} {κ : LegId → LegId} {gone : List LegId}
    (T : TakenOver st st' false ts cs κ gone) {phys : List LegId} {lft rgt : Nat → LegId} (C : ChainLinks st ts phys lft rgt) :
    ChainLinks st' cs (phys.map κ) (fun j => κ (lft j)) (fun j => κ (rgt j)) := by
  have hlen := T.copies.length_eq
  have at_ : ∀ (i : Nat) (c : Tensor R), cs[i]? = some c → ∃ t, ts[i]? = some t ∧ t ∈ ts ∧ c.legs = t.legs.map κ ∧ CopyOf st st' false t c := by
    intro i c hc
    obtain ⟨h2, rfl⟩ := List.getElem?_eq_some_iff.mp hc
    have h1 : i < ts.length := hlen ▸ h2
    exact ⟨ts[i], List.getElem?_eq_getElem h1, List.getElem_mem h1, (List.forall₂_iff_get.mp T.legs).2 i h1 h2, (List.forall₂_iff_get.mp T.copies).2 i h1 h2⟩
  have mem_ : ∀ c ∈ cs, ∃ t ∈ ts, c.legs = t.legs.map κ ∧ CopyOf st st' false t c := by
    intro c hc
    obtain ⟨i, hi⟩ := List.mem_iff_getElem?.mp hc
    obtain ⟨t, -, h1, h2, h3⟩ := at_ i c hi
    exact ⟨t, h1, h2, h3⟩
  have flat : (cs.flatMap fun c => c.legs) = (ts.flatMap fun t => t.legs).map κ := by
    have := T.legs
    clear * - this
    induction this with
    | nil => rfl
    | cons h _ ih => rw [List.flatMap_cons, List.flatMap_cons, List.map_append, h, ih]
  have injκ : ∀ l m, LegIn ts l → LegIn ts m → κ l = κ m → l = m := by
    intro l m hl hm e
    have nd := T.nodup
    rw [flat] at nd
    exact List.inj_on_of_nodup_map nd (List.mem_flatMap.mpr hl) (List.mem_flatMap.mpr hm) e
  have new : ∀ l, LegIn ts l → st.nextLeg ≤ κ l := by
    rintro l ⟨t, ht, hl⟩
    obtain ⟨i, hi, rfl⟩ := List.getElem_of_mem ht
    have hc : i < cs.length := hlen ▸ hi
    have h1 : cs[i].legs = ts[i].legs.map κ := (List.forall₂_iff_get.mp T.legs).2 i hi hc
    have P : CopyOf st st' false ts[i] cs[i] := (List.forall₂_iff_get.mp T.copies).2 i hi hc
    exact (P.newLegs _ (h1 ▸ List.mem_map_of_mem hl)).1
  have site : ∀ i < ts.length, ∀ x ∈ siteLegs ts.length phys lft rgt i, LegIn ts x := by
    intro i hi x hx
    exact ⟨ts[i], List.getElem_mem hi, (C.legs i _ (List.getElem?_eq_getElem hi)).mem_iff.mpr hx⟩
  have inR : ∀ i, i + 1 < ts.length → LegIn ts (rgt i) := fun i hi => site i (by omega) _ (by unfold siteLegs; simp [hi])
  have inL : ∀ i, i + 1 < ts.length → LegIn ts (lft (i + 1)) := fun i hi => site (i + 1) hi _ (by unfold siteLegs; simp)
  have inP : ∀ p ∈ phys, LegIn ts p := by
    intro p hp
    obtain ⟨i, hi, rfl⟩ := List.getElem_of_mem hp
    exact site i (by rw [← C.len]; exact hi) _ (by unfold siteLegs; simp [hi])
  have sites : ∀ i < ts.length, siteLegs cs.length (phys.map κ) (fun j => κ (lft j)) (fun j => κ (rgt j)) i =
      (siteLegs ts.length phys lft rgt i).map κ := by
    intro i hi
    rw [← hlen, ← siteLegs_map κ lft rgt (by rw [C.len]; exact hi)]
  refine ⟨T.wf, by rw [List.length_map, C.len, hlen], ?_, ?_, ?_, ?_, ?_, ?_⟩
  · intro c hc
    obtain ⟨t, ht, -, P⟩ := mem_ c hc
    obtain ⟨gt, dt⟩ := C.good t ht
    obtain ⟨arr, a1, a2, a3, _⟩ := gt.data
    refine ⟨⟨(List.nodup_flatMap.mp T.nodup).1 c hc, by rw [P.like, gt.notLike]; rfl, arr, P.data.trans (by simpa using a1), a2, ?_, ?_⟩,
      by rw [P.diag, dt]⟩
    · intro _
      rw [P.dims]
      exact a3 dt
    · intro hh
      rw [P.diag, dt] at hh
      cases hh
  · intro i c hc
    obtain ⟨t, h1, -, h2, -⟩ := at_ i c hc
    rw [h2, sites i (List.getElem?_eq_some_iff.mp h1).1]
    exact (C.legs i t h1).map κ
  · intro c hc l hl
    obtain ⟨t, ht, -, P⟩ := mem_ c hc
    exact (P.newLegs l hl).2.1
  · intro i hi j hj hij x hx hy
    rw [← hlen] at hi hj
    rw [sites i hi] at hx
    rw [sites j hj] at hy
    obtain ⟨a, ha, rfl⟩ := List.mem_map.mp hx
    obtain ⟨b, hb, e⟩ := List.mem_map.mp hy
    obtain rfl := injκ b a (site j hj b hb) (site i hi a ha) e
    exact C.disj i hi j hj hij b ha hb
  · intro i hi
    rw [← hlen] at hi
    exact (T.inner _ _ (inR i hi) (inL i hi) (C.joined i hi)).1
  · intro p hp q hq e
    obtain ⟨a, ha, rfl⟩ := List.mem_map.mp hp
    obtain ⟨b, hb, rfl⟩ := List.mem_map.mp hq
    rcases hx : st.partner a with _ | x
    · rw [(T.free a (inP a ha) hx).1] at e
      cases e
    · by_cases c : LegIn ts x
      · rw [(T.inner a x (inP a ha) c hx).1] at e
        obtain rfl := injκ x b c (inP b hb) (Option.some.inj e)
        exact C.apart a ha x hb hx
      · rw [(T.outer a x (inP a ha) c hx).1] at e
        have h1 : x < st.nextLeg := by
          obtain ⟨bd, hbd, -⟩ := partner_some C.wf.inv (partner_symm C.wf.inv hx)
          exact C.wf.freshLeg x bd hbd
        exact absurd (new b (inP b hb)) (Nat.not_le.mpr (Option.some.inj e ▸ h1))

/-- C59: `FreeBoundaryMPS(tensorList, chi, inplace = False)` is a matrix product state of copies with the bonds of the given tensors; the given
tensors keep their labels. -/
theorem C59_mps [Zero R] [One R] (rand : List Nat → List Nat → R) {st : Store} {ts : List (Tensor R)} (h : TensorList st ts) {phys : List LegId}
    {lft rgt : Nat → LegId} (C : ChainLinks st ts phys lft rgt) (h0 : ts ≠ []) (chi : Option Int) (hc : ∀ c, chi = some c → -1 ≤ c) :
    ∃ st' gone m κ, MPS.newCopied rand st ts chi = .ok (st', gone, m) ∧ m.chi = chi.getD (-1) ∧ m.activeIdx = none ∧
      Chain st' m.tensors (phys.map κ) (fun j => κ (lft j)) (fun j => κ (rgt j)) ∧
      List.Forall₂ (fun t c => c.legs = t.legs.map κ ∧ c.a = t.a ∧ c.legs.map st'.dim = t.legs.map st.dim ∧ st.nextTensor ≤ c.id ∧
        ∀ l ∈ c.legs, st.nextLeg ≤ l) ts m.tensors ∧
      (∀ p ∈ phys, st'.partner (κ p) = st.partner p ∧ ∀ q, st.partner p = some q → st'.partner q = some (κ p)) ∧
      (∀ l < st.nextLeg, st'.name l = st.name l ∧ st'.dim l = st.dim l) ∧
      ∀ l, l ∈ gone ↔ l ∈ phys ∧ st.partner l ≠ none := by
  obtain ⟨st1, b, e1, so, hb⟩ := checkProperty_spec C.wf.inv C.flat
  obtain rfl := hb.mpr (C.shape h0)
  have part := so.partner C.wf.inv
  have C1 := C.relabel (.of_orientation so)
  have h1 : TensorList st1 ts := by
    refine ⟨C1.wf, fun t ht => (h.good t ht).congr fun l _ => by rw [so.dim], h.ids, fun t ht l hl => ?_, fun t ht l hl m hm u hu e => ?_⟩
    · rw [so.nextLeg, so.leg]
      exact h.known t ht l hl
    · rw [part] at hm
      rw [so.leg] at e
      exact h.inside t ht l hl m hm u hu e
  obtain ⟨st2, gone, cs, κ, e2, T⟩ := C59_taken_over rand h1 false
  have C2 := T.chain C1
  obtain ⟨st3, r, e3, so3⟩ := bondChiLoop_spec cs st2 (-1) C2.wf.inv C2.flat C2.oneBond
  have hr := bondChiLoop_neg cs st2 (-1) (by decide) e3
  subst hr
  have C3 := C2.relabel (.of_orientation so3)
  obtain ⟨st4, e4, rel, C4, hn⟩ := renameBonds_spec C3
  have hg : MPS.getChi st2 cs chi = .ok (st3, chi.getD (-1)) := by
    unfold MPS.getChi
    simp only [e3, bind, Except.bind]
    cases chi with
    | none => rfl
    | some c =>
      have := hc c rfl
      dsimp only
      rw [if_neg (by omega)]
      rfl
  have part4 : ∀ l, st4.partner l = st2.partner l := fun l => (rel.partner C3.wf.inv l).trans (so3.partner C2.wf.inv l)
  have site : ∀ i < ts.length, ∀ x ∈ siteLegs ts.length phys lft rgt i, LegIn ts x := by
    intro i hi x hx
    exact ⟨ts[i], List.getElem_mem hi, (C.legs i _ (List.getElem?_eq_getElem hi)).mem_iff.mpr hx⟩
  have inP : ∀ p ∈ phys, LegIn ts p := by
    intro p hp
    obtain ⟨i, hi, rfl⟩ := List.getElem_of_mem hp
    exact site i (by rw [← C.len]; exact hi) _ (by unfold siteLegs; simp [hi])
  -- a leg is physical, or it is one of the two legs of an inner bond
  have cases_ : ∀ x, LegIn ts x → x ∈ phys ∨ ∃ y, LegIn ts y ∧ st.partner x = some y := by
    rintro x ⟨t, ht, hx⟩
    obtain ⟨i, hi, rfl⟩ := List.getElem_of_mem ht
    have := (C.legs i _ (List.getElem?_eq_getElem hi)).mem_iff.mp hx
    unfold siteLegs at this
    rcases List.mem_cons.mp this with rfl | this
    · left
      have : i < phys.length := by rw [C.len]; exact hi
      simp [this]
    · right
      rcases List.mem_append.mp this with this | this
      · split at this
        · next hi' =>
          rw [List.mem_singleton.mp this]
          exact ⟨lft (i + 1), site (i + 1) hi' _ (by unfold siteLegs; simp), C.joined i hi'⟩
        · cases this
      · split at this
        · next hi' =>
          rw [List.mem_singleton.mp this]
          obtain ⟨j, rfl⟩ : ∃ j, i = j + 1 := ⟨i - 1, by omega⟩
          exact ⟨rgt j, site j (by omega) _ (by unfold siteLegs; simp [hi]), partner_symm C.wf.inv (C.joined j hi)⟩
        · cases this
  have physOut : ∀ p ∈ phys, ∀ q, st.partner p = some q → ¬ LegIn ts q := by
    intro p hp q hq hin
    rcases cases_ q hin with h2 | ⟨y, hy, e⟩
    · exact C.apart p hp q h2 hq
    · -- `q` is on an inner bond, whose other leg is `p`, which would be an inner leg
      have hyp : y = p := by
        have := partner_symm C.wf.inv hq
        rw [e] at this
        exact Option.some.inj this
      subst hyp
      obtain ⟨t, ht, hx⟩ := hin
      obtain ⟨i, hi, rfl⟩ := List.getElem_of_mem ht
      have hm := (C.legs i _ (List.getElem?_eq_getElem hi)).mem_iff.mp hx
      obtain ⟨j, hj, ej⟩ := List.getElem_of_mem hp
      have hjn : j < ts.length := by rw [← C.len]; exact hj
      have ej' : phys.getD j 0 = y := by simp [hj, ej]
      have sj : y ∈ siteLegs ts.length phys lft rgt j := by unfold siteLegs; rw [ej']; simp
      have nodupSite : ∀ k (hk : k < ts.length), (siteLegs ts.length phys lft rgt k).Nodup := fun k hk =>
        (C.legs k _ (List.getElem?_eq_getElem hk)).nodup_iff.mp (flat_nodup C.flat (List.getElem_mem hk))
      -- the physical leg of site j is not an inner leg
      have key : ∀ k, k + 1 < ts.length → y ≠ rgt k ∧ y ≠ lft (k + 1) := by
        intro k hk
        constructor
        · intro e
          by_cases c : j = k
          · subst c
            have := nodupSite j hjn
            unfold siteLegs at this
            rw [ej', e] at this
            simp [hk] at this
          · exact C.disj j hjn k (by omega) c y sj (by rw [e]; unfold siteLegs; simp [hk])
        · intro e
          by_cases c : j = k + 1
          · subst c
            have := nodupSite (k + 1) hjn
            unfold siteLegs at this
            rw [ej', e] at this
            simp at this
          · exact C.disj j hjn (k + 1) hk c y sj (by rw [e]; unfold siteLegs; simp)
      unfold siteLegs at hm
      rcases List.mem_cons.mp hm with rfl | hm
      · exact C.apart y hp _ (by have : i < phys.length := by rw [C.len]; exact hi
                                 simp [this]) hq
      · rcases List.mem_append.mp hm with hm | hm
        · split at hm
          · next hi' =>
            rw [List.mem_singleton.mp hm, C.joined i hi'] at e
            exact (key i hi').2 (Option.some.inj e).symm
          · cases hm
        · split at hm
          · next hi' =>
            obtain ⟨k, rfl⟩ : ∃ k, i = k + 1 := ⟨i - 1, by omega⟩
            rw [List.mem_singleton.mp hm, partner_symm C.wf.inv (C.joined k hi)] at e
            exact (key k hi).1 (Option.some.inj e).symm
          · cases hm
  refine ⟨st4, gone, ⟨cs, chi.getD (-1), none⟩, κ, ?_, rfl, rfl, C4, ?_, ?_, ?_, ?_⟩
  · unfold MPS.newCopied
    simp only [e1, Bool.true_eq_false, if_false, e2, hg, e4, bind, Except.bind, pure, Except.pure]
  · refine List.forall₂_iff_get.mpr ⟨T.copies.length_eq, fun i h1 h2 => ?_⟩
    have P := (List.forall₂_iff_get.mp T.copies).2 i h1 h2
    refine ⟨(List.forall₂_iff_get.mp T.legs).2 i h1 h2, by simpa using P.data, ?_, by rw [← so.nextTensor]; exact P.newId.1, fun l hl => ?_⟩
    · rw [← so.dim, ← P.dims]
      exact List.map_congr_left fun l _ => (rel.dim l).trans (by rw [so3.dim])
    · rw [← so.nextLeg]
      exact (P.newLegs l hl).1
  · intro p hp
    rw [part4, ← part]
    refine ⟨?_, fun q hq => ?_⟩
    · rcases hx : st1.partner p with _ | x
      · exact (T.free p (inP p hp) hx).1
      · exact (T.outer p x (inP p hp) (physOut p hp x (by rw [← part]; exact hx)) hx).1
    · rw [part4]
      exact (T.outer p q (inP p hp) (physOut p hp q (by rw [← part]; exact hq)) hq).2.1
  · intro l hl
    have hl1 : l < st1.nextLeg := by rw [so.nextLeg]; exact hl
    have hnot : ∀ c ∈ cs, l ∉ c.legs := by
      intro c hc hm
      obtain ⟨i, hi, rfl⟩ := List.getElem_of_mem hc
      have P := (List.forall₂_iff_get.mp T.copies).2 i (T.copies.length_eq ▸ hi) hi
      exact absurd (P.newLegs l hm).1 (Nat.not_le.mpr hl1)
    obtain ⟨a1, a2, -⟩ := T.attr l hl1
    refine ⟨(hn l hnot).trans ?_, (rel.dim l).trans ?_⟩
    · unfold Store.name at a2 ⊢
      rw [so3.leg, a2, so.leg]
    · rw [so3.dim, a1, so.dim]
  · intro l
    rw [T.gone]
    constructor
    · rintro ⟨hl, m, hm, e⟩
      rw [part] at e
      refine ⟨?_, by rw [e]; simp⟩
      rcases cases_ l hl with h2 | ⟨y, hy, e'⟩
      · exact h2
      · rw [e] at e'
        exact absurd hy (Option.some.inj e' ▸ hm)
    · rintro ⟨hl, hne⟩
      rcases hx : st.partner l with _ | x
      · exact absurd hx hne
      · exact ⟨inP l hl, x, physOut l hl x hx, by rw [part]; exact hx⟩

/-- C59: a list that is no matrix product state is refused before anything is copied. -/
theorem C59_mps_refused [Zero R] [One R] (rand : List Nat → List Nat → R) {st : Store} (inv : BondInv st) {ts : List (Tensor R)}
    (nd : (ts.flatMap fun t => t.legs).Nodup) (chi : Option Int) (h : ¬ MPSShape st ts) :
    MPS.newCopied rand st ts chi = .error .valueError := by
  obtain ⟨st1, b, e1, so, hb⟩ := checkProperty_spec inv nd
  have : b = false := by
    cases b with
    | false => rfl
    | true => exact absurd (hb.mp rfl) h
  unfold MPS.newCopied
  simp only [e1, this, if_true, bind, Except.bind, throw, throwThe, MonadExceptOf.throw]

/-! ### Examples -/

/-- The pair of tensors of the triangle: the bond between them is inside, the bond of leg 2 leads to the third tensor. -/
example : TensorList triStore [triA, triB] ∧ triStore.partner 1 = some 4 ∧
    ∃ l m, LegIn [triA, triB] l ∧ ¬ LegIn [triA, triB] m ∧ triStore.partner l = some m := by
  refine ⟨triPair_list, by decide, 2, 7, ⟨triA, by simp, by decide⟩, ?_, by decide⟩
  rintro ⟨t, ht, hl⟩
  simp only [List.mem_cons, List.not_mem_nil, or_false] at ht
  rcases ht with rfl | rfl <;> revert hl <;> decide

/-- The rest of the triangle is apart from the pair. -/
example : WFStore triStore ∧ (∀ l, LegIn ([triC] ++ [triA, triB]) l → l < triStore.nextLeg) ∧ ∀ l, LegIn [triC] l → ¬ LegIn [triA, triB] l := by
  refine ⟨triStore_wf, ?_, ?_⟩
  · rintro l ⟨t, ht, hl⟩
    revert hl
    revert l
    revert ht
    revert t
    decide
  · rintro l ⟨t, ht, hl⟩ ⟨u, hu, hl'⟩
    simp only [List.mem_cons, List.not_mem_nil, or_false] at ht hu
    subst ht
    revert hl hl'
    rcases hu with rfl | rfl <;> revert l <;> decide

/-- Two sites, the physical leg of the second one joined to another tensor. -/
def exOutStore : Store where
  leg := fun l => match l with
    | 0 => ⟨2, "x", none, some 0⟩
    | 1 => ⟨3, "y", some 0, some 0⟩
    | 2 => ⟨3, "z", some 0, some 1⟩
    | 3 => ⟨2, "w", some 1, some 1⟩
    | 4 => ⟨2, "v", some 1, some 2⟩
    | _ => ⟨0, "", none, none⟩
  bond := fun b => match b with
    | 0 => (1, 2)
    | 1 => (4, 3)
    | _ => (0, 0)
  nextLeg := 5
  nextBond := 2
  nextTensor := 3

def exOutSites : List (Tensor Int) :=
  [⟨0, [0, 1], some ⟨[2, 3], [1, 2, 3, 4, 5, 6]⟩, false, false, 0⟩, ⟨1, [2, 3], some ⟨[3, 2], [1, 0, 2, 0, 3, 1]⟩, false, false, 0⟩]

theorem exOutStore_wf : WFStore exOutStore := by
  refine ⟨?_, ?_, ?_⟩ <;> intro l b h
  · match l with
    | 0 => simp [exOutStore] at h
    | 1 | 2 | 3 | 4 => simp [exOutStore] at h; subst h; simp [exOutStore, Store.dim]
    | n + 5 => simp [exOutStore] at h
  · match l with
    | 0 | 1 | 2 | 3 | 4 => simp [exOutStore]
    | n + 5 => simp [exOutStore] at h
  · match l with
    | 0 => simp [exOutStore] at h
    | 1 | 2 | 3 | 4 => simp [exOutStore] at h; subst h; simp [exOutStore]
    | n + 5 => simp [exOutStore] at h

theorem exOut_list : TensorList exOutStore exOutSites where
  wf := exOutStore_wf
  good := by
    intro t ht
    simp only [exOutSites, List.mem_cons, List.not_mem_nil, or_false] at ht
    rcases ht with rfl | rfl <;> exact ⟨by decide, by decide, fun _ => ⟨_, rfl, fun _ => by decide, by decide⟩, by decide⟩
  ids := by decide
  known := by decide
  inside := by
    intro t ht l hl m hm u hu e
    simp only [exOutSites, List.mem_cons, List.not_mem_nil, or_false] at ht hu
    rcases ht with rfl | rfl <;> simp only [List.mem_cons, List.not_mem_nil, or_false] at hl <;>
      rcases hl with rfl | rfl <;> first
        | (simp [Store.partner, exOutStore] at hm; done)
        | (simp [Store.partner, exOutStore] at hm; subst hm; rcases hu with rfl | rfl <;> revert e <;> decide)

theorem exOut_chain : ChainLinks exOutStore exOutSites [0, 3] (fun _ => 2) (fun _ => 1) where
  wf := exOutStore_wf
  len := rfl
  good := by
    intro t ht
    simp only [exOutSites, List.mem_cons, List.not_mem_nil, or_false] at ht
    rcases ht with rfl | rfl <;>
    exact ⟨⟨by decide, rfl, _, rfl, rfl, fun _ => by decide, fun h => by cases h⟩, rfl⟩
  legs := by
    intro i t h
    match i with
    | 0 => simp only [exOutSites, List.getElem?_cons_zero, Option.some.injEq] at h; subst h; decide
    | 1 => simp only [exOutSites, List.getElem?_cons_succ, List.getElem?_cons_zero, Option.some.injEq] at h; subst h; decide
    | n + 2 => simp [exOutSites] at h
  old := by decide
  disj := by
    intro i hi j hj hij
    have hi : i < 2 := hi
    have hj : j < 2 := hj
    interval_cases i <;> interval_cases j <;> first | exact absurd rfl hij | decide
  joined := by
    intro i hi
    have hi : i + 1 < 2 := hi
    have hi : i < 1 := by omega
    interval_cases i
    decide
  apart := by decide

/-- The two sites become a matrix product state of copies; leg 3 loses its bond to leg 4. -/
example : TensorList exOutStore exOutSites ∧ ChainLinks exOutStore exOutSites [0, 3] (fun _ => 2) (fun _ => 1) ∧ exOutSites ≠ [] ∧
    exOutStore.partner 3 = some 4 ∧
    ∃ st' m, MPS.newCopied (fun _ _ => (0 : Int)) exOutStore exOutSites (some 4) = .ok (st', [3], m) ∧ st'.partner 4 = some 8 ∧
      m.tensors.map (fun t => t.legs.map st'.name) = [["o", "r"], ["l", "o"]] :=
  ⟨exOut_list, exOut_chain, by decide, by decide, _, _, rfl, by decide, by decide⟩

/-- The first site and the tensor behind the second site: they have no bond in common. -/
def exApart : List (Tensor Int) := exOutSites.take 1 ++ [⟨2, [4], some ⟨[2], [1, 1]⟩, false, false, 0⟩]

example : ¬ MPSShape exOutStore exApart ∧ (exApart.flatMap fun t => t.legs).Nodup ∧ BondInv exOutStore := by
  refine ⟨fun h => ?_, by decide, exOutStore_wf.inv⟩
  obtain ⟨st1, b, e1, -, hb⟩ := checkProperty_spec exOutStore_wf.inv (ts := exApart) (by decide)
  obtain rfl := hb.mpr h
  have h2 : (MPS.checkProperty exOutStore exApart).map Prod.snd = .ok false := by decide
  rw [e1] at h2
  cases h2

end CTL
