import Verif.Lemmas.MergeLoop

/-! `contractMPS`: two chains joined by one bond become one chain. -/

namespace CTL
variable {R : Type}

theorem moveTo_getD (l : List LegId) {b e : Nat} (hb : b < l.length) (he : e < l.length) :
    (moveTo l b e).getD e 0 = l.getD b 0 := by
  unfold moveTo
  rw [List.getD_eq_getElem?_getD, List.getElem?_insertIdx_self, if_pos (by rw [List.length_eraseIdx_of_lt hb]; omega)]
  rfl

/-- Names of legs and orientations of bonds do not matter. -/
theorem Relabelled.step [CommSemiring R] {st st' : Store} {L : List (Tensor R)} (h : Relabelled st st')
    (other : ∀ l, (∀ t ∈ L, l ∉ t.legs) → st'.leg l = st.leg l)
    (wf : WFStore st) (wf' : WFStore st') (dense : ∀ t ∈ L, t.diag = false) (g : GoodNet st L) (ne : L ≠ []) : Step st L st' L := by
  have part : ∀ l, st'.partner l = st.partner l := fun l => h.partner wf.inv l
  have dim : ∀ l, st'.dim l = st.dim l := fun l => (h.leg l).1
  refine ⟨wf', dense, h.trail other, ?_, fun l _ => ⟨dim l, (h.leg l).2.1, part l⟩⟩
  cases L with
  | nil => exact absurd rfl ne
  | cons c L =>
    exact SameValue.congr g wf'.inv ((g.good c List.mem_cons_self).congr_dim fun l _ => dim l) (List.Perm.refl _)
      (fun t _ l _ => dim l) (fun t _ l _ => part l) fun _ _ => rfl

theorem shared_single {st : Store} {la lb : List LegId} (nd : la.Nodup) {p q : LegId} (hp : p ∈ la) (k : st.partner p = some q)
    (hq : q ∈ lb) (only : ∀ l ∈ la, ∀ m ∈ lb, st.partner l = some m → l = p) : sharedPairs st la lb = [(p, q)] := by
  rw [← List.perm_singleton, List.perm_ext_iff_of_nodup
    (List.Nodup.of_map Prod.fst (by rw [sharedPairs_fst]; exact nd.filter _)) (List.nodup_singleton _)]
  rintro ⟨l, m⟩
  rw [mem_sharedPairs, List.mem_singleton, Prod.mk.injEq]
  constructor
  · rintro ⟨h1, h2, h3⟩
    have e : l = p := only l h1 m h3 h2
    dsimp only at h2
    rw [e, k] at h2
    exact ⟨e, (Option.some.inj h2).symm⟩
  · rintro ⟨rfl, rfl⟩
    exact ⟨hp, k, hq⟩

theorem Duo.single [CommSemiring R] {st : Store} {N A B : List (Tensor R)} (d : Duo st N A B) : Duo st N (A ++ B) [] := by
  refine ⟨?_, ?_⟩
  · rw [List.append_nil]; exact d.sound
  · rw [List.append_nil]; exact d.live

theorem Duo.next [CommSemiring R] {st st' : Store} {N A A' : List (Tensor R)} (d : Duo st N A []) (h : Step st A st' A') : Duo st' N A' [] :=
  d.both (by simpa using h)

section
variable [CommSemiring R] {st : Store} {N A B : List (Tensor R)} {PA PB : List LegId} {lA rA lB rB : Nat → LegId}

/-- The last site of one chain and the first of the other contracted. -/
theorem Duo.joinOne (cast : R → R) (d : Duo st N A B) (CA : Chain st A PA lA rA) (CB : Chain st B PB lB rB) {ta tb : Tensor R}
    (ha : A[A.length - 1]? = some ta) (hb : B[0]? = some tb) (k : st.partner (PA.getD (A.length - 1) 0) = some (PB.getD 0 0)) :
    ∃ o, contractTwoTensors cast st ta tb none = .ok o ∧ SameNet st o.store ∧
      o.result.legs.Perm ((if 0 < A.length - 1 then [lA (A.length - 1)] else []) ++ (if 1 < B.length then [rB 0] else [])) ∧
      Step st (A ++ B) o.store (A.dropLast ++ o.result :: B.drop 1) := by
  have ma := List.mem_of_getElem? ha
  have mb := List.mem_of_getElem? hb
  have hA : A.length - 1 < A.length := (List.getElem?_eq_some_iff.mp ha).1
  have sh := d.one_shared CA CB ha hb k
  obtain ⟨o, e, s, n, l⟩ := contract_step cast d.sound.wf (CA.good ta ma).1 (CB.good tb mb).1 (CA.good ta ma).2 (CB.good tb mb).2
    fun _ h => d.disj ma mb h
  rw [sh] at l
  refine ⟨o, e, n, ?_, ?_⟩
  · rw [l]
    have p1 := filter_one (CA.legs _ ta ha) (CA.good ta ma).1.nodup
    have p2 := filter_one (CB.legs _ tb hb) (CB.good tb mb).1.nodup
    refine List.Perm.append (p1.trans ?_) (p2.trans ?_)
    · rw [if_neg (by omega)]; rfl
    · rw [if_neg (by omega : ¬ (0 < 0)), List.append_nil]
  · have eA : A = A.dropLast ++ [ta] := by
      rw [List.getElem?_eq_getElem hA] at ha
      have hne : A ≠ [] := List.ne_nil_of_mem ma
      rw [← Option.some.inj ha, ← List.getLast_eq_getElem hne, List.dropLast_append_getLast hne]
    have eB : B = tb :: B.drop 1 := by
      cases B with
      | nil => cases hb
      | cons x xs => simp at hb; simp [hb]
    have d' := d.single
    refine d'.partA (K := A.dropLast ++ B.drop 1) (M := [ta, tb]) ?_ s ?_
    · rw (occs := .pos [1]) [eA]
      rw (occs := .pos [1]) [eB]
      rw [List.append_assoc, List.append_assoc]
      exact List.Perm.append_left _ (List.perm_append_comm (l₁ := [ta, tb]))
    · refine List.perm_middle.trans ?_
      exact List.perm_append_comm (l₁ := [o.result])

/-- The site before the last one takes what is left of the two. -/
theorem Duo.joinLeft (cast : R → R) {T : List (Tensor R)} {st1 : Store} {t tc : Tensor R}
    (d : Duo st N A B) (CA : Chain st A PA lA rA) (CB : Chain st B PB lB rB) (sn : SameNet st st1)
    (d1 : Duo st1 N (A.dropLast ++ t :: B.drop 1) []) (h1 : 1 < A.length) (h0 : 0 < B.length)
    (hc : A[A.length - 2]? = some tc)
    (lt : t.legs.Perm (lA (A.length - 1) :: (if 1 < B.length then [rB 0] else []))) (hT : T = A.take (A.length - 2)) :
    ∃ o, contractTwoTensors cast st1 tc t none = .ok o ∧ SameNet st1 o.store ∧
      o.result.legs.Perm (PA.getD (A.length - 2) 0 :: ((if 1 < B.length then [rB 0] else []) ++
        (if 0 < A.length - 2 then [lA (A.length - 2)] else []))) ∧
      Step st1 (A.dropLast ++ t :: B.drop 1) o.store (T ++ o.result :: B.drop 1) := by
  subst hT
  have mc := List.mem_of_getElem? hc
  have hA : A.length - 2 < A.length := (List.getElem?_eq_some_iff.mp hc).1
  have hA' : A.length - 2 < A.dropLast.length := by rw [List.length_dropLast]; omega
  have hc' : A.dropLast[A.length - 2]? = some tc := by
    rw [List.getElem?_dropLast, if_pos (by omega)]; exact hc
  have mc' := List.mem_of_getElem? hc'
  have eA : A.dropLast = A.take (A.length - 2) ++ [tc] := by
    rw [List.dropLast_eq_take, show A.length - 1 = A.length - 2 + 1 by omega, List.take_add_one, hc]; rfl
  have mC : tc ∈ N ++ ((A.dropLast ++ t :: B.drop 1) ++ []) := by simp [mc']
  have mT : t ∈ N ++ ((A.dropLast ++ t :: B.drop 1) ++ []) := by simp
  have dj : ∀ x ∈ tc.legs, x ∉ t.legs := by
    intro x hx
    have o : Owned st1 (A.dropLast ++ (t :: B.drop 1)) := by
      have := d1.sound.owned.right
      rwa [List.append_nil] at this
    exact o.disj mc' (by simp) hx
  have lc : tc.legs.Perm (rA (A.length - 2) :: PA.getD (A.length - 2) 0 :: (if 0 < A.length - 2 then [lA (A.length - 2)] else [])) := by
    refine (CA.legs _ tc hc).trans ?_
    unfold siteLegs
    rw [if_pos (by omega)]
    exact List.Perm.swap _ _ _
  have kk : st.partner (rA (A.length - 2)) = some (lA (A.length - 1)) := by
    have := CA.joined (A.length - 2) (by omega)
    rwa [show A.length - 2 + 1 = A.length - 1 by omega] at this
  have inv := d.sound.wf.inv
  have part : ∀ l, st1.partner l = st.partner l := sn.partner inv
  have gC := d1.sound.good tc mC
  have gT := d1.sound.good t mT
  have sh : sharedPairs st1 tc.legs t.legs = [(rA (A.length - 2), lA (A.length - 1))] := by
    refine shared_single gC.nodup (lc.mem_iff.mpr List.mem_cons_self) (by rw [part]; exact kk) (lt.mem_iff.mpr List.mem_cons_self) ?_
    intro l hl m hm h
    rw [part] at h
    rcases List.mem_cons.mp (lt.mem_iff.mp hm) with rfl | hm
    · exact Option.some.inj ((partner_symm inv h).symm.trans (partner_symm inv kk))
    · exfalso
      split at hm
      · rename_i c
        rw [List.mem_singleton.mp hm] at h
        have := CB.joined 0 (by omega)
        rw [partner_symm inv h] at this
        obtain ⟨u, -, hu, hp⟩ := CB.site (i := 0 + 1) (by omega)
        refine d.disj mc hu hl (hp.mem_iff.mpr (Chain.mem_siteLegs.mpr (.inr (.inr ⟨by omega, Option.some.inj this⟩))))
      · cases hm
  obtain ⟨o, e, s, n, l⟩ := contract_step cast d1.sound.wf gC gT (d1.sound.dense _ mC) (d1.sound.dense _ mT) dj
  rw [sh] at l
  refine ⟨o, e, n, ?_, ?_⟩
  · rw [l]
    have p1 := filter_one lc gC.nodup
    have p2 := filter_one lt gT.nodup
    refine (p1.append p2).trans ?_
    rw [List.cons_append]
    exact List.Perm.cons _ List.perm_append_comm
  · refine d1.partA (K := A.take (A.length - 2) ++ B.drop 1) (M := [tc, t]) ?_ s ?_
    · rw [eA, List.append_assoc, List.append_assoc]
      exact List.Perm.append_left _ (List.perm_append_comm (l₁ := [tc, t]))
    · refine List.perm_middle.trans ?_
      exact List.perm_append_comm (l₁ := [o.result])

/-- The first chain had one site only: the second site of the other one takes what is left. -/
theorem Duo.joinRight (cast : R → R) {st1 : Store} {t tc : Tensor R}
    (d : Duo st N A B) (CB : Chain st B PB lB rB) (sn : SameNet st st1)
    (d1 : Duo st1 N (t :: B.drop 1) []) (h1 : 1 < B.length) (hc : B[1]? = some tc) (lt : t.legs.Perm [rB 0]) :
    ∃ o, contractTwoTensors cast st1 t tc none = .ok o ∧ SameNet st1 o.store ∧
      o.result.legs.Perm (PB.getD 1 0 :: (if 2 < B.length then [rB 1] else [])) ∧
      Step st1 (t :: B.drop 1) o.store (o.result :: B.drop 2) := by
  have mc := List.mem_of_getElem? hc
  have eB : B.drop 1 = tc :: B.drop 2 := by
    rw [List.drop_eq_getElem_cons h1]
    rw [List.getElem?_eq_getElem h1] at hc
    rw [Option.some.inj hc]
  have mC : tc ∈ N ++ ((t :: B.drop 1) ++ []) := by simp [eB]
  have mT : t ∈ N ++ ((t :: B.drop 1) ++ []) := by simp
  have dj : ∀ x ∈ t.legs, x ∉ tc.legs := by
    intro x hx
    have o : Owned st1 ([t] ++ (B.drop 1)) := by
      have := d1.sound.owned.right
      rwa [List.append_nil] at this
    exact o.disj (List.mem_singleton.mpr rfl) (by simp [eB]) hx
  have lc : tc.legs.Perm (lB 1 :: PB.getD 1 0 :: (if 2 < B.length then [rB 1] else [])) := by
    refine (CB.legs _ tc hc).trans ?_
    unfold siteLegs
    rw [if_pos (by omega : 0 < 1)]
    refine (List.Perm.cons _ List.perm_append_comm).trans ?_
    exact List.Perm.swap _ _ _
  have inv := d.sound.wf.inv
  have part : ∀ l, st1.partner l = st.partner l := sn.partner inv
  have gC := d1.sound.good tc mC
  have gT := d1.sound.good t mT
  have sh : sharedPairs st1 t.legs tc.legs = [(rB 0, lB 1)] := by
    refine shared_single gT.nodup (lt.mem_iff.mpr List.mem_cons_self) (by rw [part]; exact CB.joined 0 h1)
      (lc.mem_iff.mpr List.mem_cons_self) ?_
    intro l hl m hm h
    exact List.mem_singleton.mp (lt.mem_iff.mp hl)
  obtain ⟨o, e, s, n, l⟩ := contract_step cast d1.sound.wf gT gC (d1.sound.dense _ mT) (d1.sound.dense _ mC) dj
  rw [sh] at l
  refine ⟨o, e, n, ?_, ?_⟩
  · rw [l]
    have p1 := filter_one lt gT.nodup
    have p2 := filter_one lc gC.nodup
    exact (p1.append p2).trans (List.Perm.refl _)
  · refine d1.partA (K := B.drop 2) (M := [t, tc]) ?_ s ?_
    · rw [eB]
      exact List.perm_append_comm (l₁ := [t, tc])
    · exact List.perm_append_comm (l₁ := [o.result])

theorem joined_getElem? {α : Type} {X Y : List α} (hX : 1 < X.length) (w : α) (k : Nat) :
    (X.take (X.length - 2) ++ w :: Y.drop 1)[k]? =
      if k + 2 < X.length then X[k]? else if k + 2 = X.length then some w else Y[k + 2 - X.length]? := by
  by_cases c : k + 2 < X.length
  · rw [if_pos c, List.getElem?_append_left (by rw [List.length_take]; omega), List.getElem?_take_of_lt (by omega)]
  · rw [if_neg c, List.getElem?_append_right (by rw [List.length_take]; omega), List.length_take,
      show min (X.length - 2) X.length = X.length - 2 by omega]
    by_cases c2 : k + 2 = X.length
    · rw [if_pos c2, show k - (X.length - 2) = 0 by omega]; rfl
    · rw [if_neg c2]
      obtain ⟨j, hj⟩ : ∃ j, k - (X.length - 2) = j + 1 := ⟨k - (X.length - 2) - 1, by omega⟩
      rw [hj, List.getElem?_cons_succ, List.getElem?_drop]
      congr 1
      omega

theorem joined_getD {X Y : List LegId} (hX : 0 < X.length) (k : Nat) :
    (X.take (X.length - 1) ++ Y.drop 1).getD k 0 = if k + 1 < X.length then X.getD k 0 else Y.getD (k + 2 - X.length) 0 := by
  rw [List.getD_eq_getElem?_getD]
  by_cases c : k + 1 < X.length
  · rw [if_pos c, List.getElem?_append_left (by rw [List.length_take]; omega), List.getElem?_take_of_lt (by omega),
      List.getD_eq_getElem?_getD]
  · rw [if_neg c, List.getElem?_append_right (by rw [List.length_take]; omega), List.length_take, List.getElem?_drop,
      List.getD_eq_getElem?_getD]
    congr 2
    omega

theorem mem_take_ne {X : List LegId} (nd : X.Nodup) (h0 : 0 < X.length) {p : LegId} (hp : p ∈ X.take (X.length - 1)) :
    p ≠ X.getD (X.length - 1) 0 := by
  rintro rfl
  obtain ⟨i, hi, e⟩ := List.getElem_of_mem hp
  rw [List.length_take] at hi
  rw [List.getElem_take, List.getD_eq_getElem?_getD, List.getElem?_eq_getElem (by omega)] at e
  have := (List.Nodup.getElem_inj_iff nd).mp e
  omega

/-- No bond is left inside the new chain. -/
theorem joined_apart {st1 : Store} (CA : Chain st A PA lA rA) (CB : Chain st B PB lB rB) (hA : 0 < A.length)
    (part : ∀ l, st1.partner l = st.partner l)
    (only : ∀ p ∈ PA, ∀ q ∈ PB, st.partner p = some q → p = PA.getD (A.length - 1) 0) :
    ∀ p ∈ PA.take (PA.length - 1) ++ PB.drop 1, ∀ q ∈ PA.take (PA.length - 1) ++ PB.drop 1, st1.partner p ≠ some q := by
  have inv := CA.wf.inv
  have nl : ∀ p ∈ PA.take (PA.length - 1), p ≠ PA.getD (A.length - 1) 0 := by
    intro p hp
    have := mem_take_ne CA.phys_nodup (by rw [CA.len]; exact hA) hp
    rwa [CA.len] at this
  intro p hp q hq k
  rw [part] at k
  rcases List.mem_append.mp hp with hp | hp <;> rcases List.mem_append.mp hq with hq | hq
  · exact CA.apart p (List.mem_of_mem_take hp) q (List.mem_of_mem_take hq) k
  · exact nl p hp (only p (List.mem_of_mem_take hp) q (List.mem_of_mem_drop hq) k)
  · exact nl q hq (only q (List.mem_of_mem_take hq) p (List.mem_of_mem_drop hp) (partner_symm inv k))
  · exact CB.apart p (List.mem_of_mem_drop hp) q (List.mem_of_mem_drop hq) k

theorem chainLeft {st1 : Store} {w : Tensor R} (CA : Chain st A PA lA rA) (CB : Chain st B PB lB rB) (hA : 1 < A.length)
    (hB : 0 < B.length) (kit : Kit st1 (A.take (A.length - 2) ++ w :: B.drop 1)) (part : ∀ l, st1.partner l = st.partner l)
    (lw : w.legs.Perm (PA.getD (A.length - 2) 0 :: ((if 1 < B.length then [rB 0] else []) ++
        (if 0 < A.length - 2 then [lA (A.length - 2)] else []))))
    (only : ∀ p ∈ PA, ∀ q ∈ PB, st.partner p = some q → p = PA.getD (A.length - 1) 0) :
    ChainLinks st1 (A.take (A.length - 2) ++ w :: B.drop 1) (PA.take (PA.length - 1) ++ PB.drop 1)
      (fun j => if j + 2 ≤ A.length then lA j else lB (j + 2 - A.length))
      (fun j => if j + 2 < A.length then rA j else rB (j + 2 - A.length)) := by
  have eA := CA.len
  have eB := CB.len
  have len : (A.take (A.length - 2) ++ w :: B.drop 1).length = A.length + B.length - 2 := by
    rw [List.length_append, List.length_take, List.length_cons, List.length_drop]; omega
  have apart := joined_apart (st1 := st1) CA CB (by omega) part only
  refine kit.links ?_ ?_ ?_ apart
  · rw [len, List.length_append, List.length_take, List.length_drop]; omega
  · intro k t ht
    rw [joined_getElem? hA] at ht
    unfold siteLegs
    rw [len, joined_getD (by omega), eA]
    beta_reduce
    by_cases c : k + 2 < A.length
    · rw [if_pos c] at ht
      refine (CA.legs k t ht).trans (List.Perm.of_eq ?_)
      unfold siteLegs
      rw [if_pos (by omega : k + 1 < A.length), if_pos (by omega : k + 1 < A.length), if_pos (by omega : k + 1 < A.length + B.length - 2),
        if_pos c, if_pos (by omega : k + 2 ≤ A.length)]
    · rw [if_neg c] at ht
      by_cases c2 : k + 2 = A.length
      · rw [if_pos c2] at ht
        obtain rfl := Option.some.inj ht
        refine lw.trans (List.Perm.of_eq ?_)
        have hk : A.length - 2 = k := by omega
        have e : (1 < B.length) = (k + 1 < A.length + B.length - 2) := by rw [eq_iff_iff]; omega
        rw [hk, if_pos (by omega : k + 1 < A.length), if_neg (by omega : ¬ k + 2 < A.length), if_pos (by omega : k + 2 ≤ A.length),
          show k + 2 - A.length = 0 by omega]
        simp only [e]
      · rw [if_neg c2] at ht
        refine (CB.legs _ t ht).trans (List.Perm.of_eq ?_)
        unfold siteLegs
        have hk : k + 2 - A.length < B.length := (List.getElem?_eq_some_iff.mp ht).1
        have e : (k + 2 - A.length + 1 < B.length) = (k + 1 < A.length + B.length - 2) := by rw [eq_iff_iff]; omega
        rw [if_neg (by omega : ¬ k + 1 < A.length), if_neg c, if_neg (by omega : ¬ k + 2 ≤ A.length),
          if_pos (by omega : 0 < k + 2 - A.length), if_pos (by omega : 0 < k)]
        simp only [e]
  · intro i hi
    rw [len] at hi
    beta_reduce
    rw [part]
    by_cases c : i + 2 < A.length
    · rw [if_pos c, if_pos (by omega : i + 1 + 2 ≤ A.length)]
      exact CA.joined i (by omega)
    · rw [if_neg c, if_neg (by omega : ¬ i + 1 + 2 ≤ A.length), show i + 1 + 2 - A.length = i + 2 - A.length + 1 by omega]
      exact CB.joined _ (by omega)

theorem chainRight {st1 : Store} {w : Tensor R} (CA : Chain st A PA lA rA) (CB : Chain st B PB lB rB) (hA : A.length = 1)
    (hB : 1 < B.length) (kit : Kit st1 (w :: B.drop 2)) (part : ∀ l, st1.partner l = st.partner l)
    (lw : w.legs.Perm (PB.getD 1 0 :: (if 2 < B.length then [rB 1] else [])))
    (only : ∀ p ∈ PA, ∀ q ∈ PB, st.partner p = some q → p = PA.getD (A.length - 1) 0) :
    ChainLinks st1 (w :: B.drop 2) (PA.take (PA.length - 1) ++ PB.drop 1) (fun j => lB (j + 1)) (fun j => rB (j + 1)) := by
  have eA := CA.len
  have eB := CB.len
  have len : (w :: B.drop 2).length = B.length - 1 := by
    rw [List.length_cons, List.length_drop]; omega
  have apart := joined_apart (st1 := st1) CA CB (by omega) part only
  refine kit.links ?_ ?_ ?_ apart
  · rw [len, List.length_append, List.length_take, List.length_drop]; omega
  · intro k t ht
    unfold siteLegs
    rw [len, joined_getD (by omega), eA, hA, if_neg (by omega : ¬ k + 1 < 1), show k + 2 - 1 = k + 1 by omega]
    beta_reduce
    cases k with
    | zero =>
      obtain rfl := Option.some.inj ht
      refine lw.trans (List.Perm.of_eq ?_)
      have e : (2 < B.length) = (0 + 1 < B.length - 1) := by rw [eq_iff_iff]; omega
      rw [if_neg (by omega : ¬ 0 < 0), List.append_nil]
      simp only [e]
    | succ k =>
      rw [List.getElem?_cons_succ, List.getElem?_drop, show 2 + k = k + 1 + 1 by omega] at ht
      refine (CB.legs _ t ht).trans (List.Perm.of_eq ?_)
      unfold siteLegs
      have e : (k + 1 + 1 + 1 < B.length) = (k + 1 + 1 < B.length - 1) := by rw [eq_iff_iff]; omega
      rw [if_pos (by omega : 0 < k + 1), if_pos (by omega : 0 < k + 1 + 1)]
      simp only [e]
  · intro i hi
    rw [len] at hi
    beta_reduce
    rw [part]
    exact CB.joined _ (by omega)

end

theorem front_perm {X : List LegId} (h0 : 0 < X.length) : X.Perm (X.getD 0 0 :: X.drop 1) := by
  cases X with
  | nil => simp at h0
  | cons x xs => simp

theorem last_perm {X : List LegId} (h0 : 0 < X.length) : X.Perm (X.getD (X.length - 1) 0 :: X.take (X.length - 1)) := by
  have e : X = X.take (X.length - 1) ++ [X.getD (X.length - 1) 0] := by
    have h : X.take (X.length - 1 + 1) = X := by rw [show X.length - 1 + 1 = X.length by omega, List.take_length]
    rw [List.take_add_one, List.getElem?_eq_getElem (by omega)] at h
    rw [List.getD_eq_getElem?_getD, List.getElem?_eq_getElem (by omega)]
    exact h.symm
  exact (List.Perm.of_eq e).trans (List.perm_append_comm (l₂ := [_]))

/-- What `contractMPS` does to two chains joined by one bond. -/
theorem contractMPS_step [CommSemiring R] {la : LinAlg R} (hla : ExactLinAlg la) (hr : RankRevealing la) (cast castF : R → R)
    {chi : Nat} {N : List (Tensor R)} {st : Store} {a b : MPS R} {PA PB : List LegId} {D : Nat} (d : Duo st N a.tensors b.tensors)
    (CA : IsChain st a.tensors PA) (CB : IsChain st b.tensors PB) (ca : a.chi = chi) (cb : b.chi = chi) (wA : Within st a.tensors D)
    (wB : Within st b.tensors D) (h1 : 1 ≤ D) (big : D * D ≤ chi) (one : cnt st PA PB = 1) :
    ∃ st' p q RA RB, PA.Perm (p :: RA) ∧ PB.Perm (q :: RB) ∧ st.partner p = some q ∧
      ((RA = [] ∧ RB = [] ∧ ∃ t, contractMPS la cast castF st a b = .ok (st', .tensor t) ∧
        Step st (a.tensors ++ b.tensors) st' [t] ∧ t.legs = []) ∨
       (0 < RA.length + RB.length ∧ ∃ m, contractMPS la cast castF st a b = .ok (st', .mps m) ∧
        Step st (a.tensors ++ b.tensors) st' m.tensors ∧ IsChain st' m.tensors (RA ++ RB) ∧ m.chi = chi ∧
        Within st' m.tensors (D * D))) := by
  obtain ⟨lA, rA, CA⟩ := CA
  obtain ⟨lB, rB, CB⟩ := CB
  obtain ⟨l, e0, hl, hx⟩ := d.commonLegs_eq CA CB
  have hlen : l.length = 1 := by
    rw [← one]
    unfold cnt
    rw [List.countP_eq_length_filter, ← hl, List.length_map]
  obtain ⟨⟨i, j⟩, rfl⟩ := List.length_eq_one_iff.mp hlen
  obtain ⟨hi, hj, kij⟩ := hx (i, j) (by simp)
  dsimp only at hi hj kij
  have only0 : ∀ p ∈ PA, ∀ q ∈ PB, st.partner p = some q → p = PA.getD i 0 := by
    intro p hp q hq k
    have : p ∈ PA.filter (meets st PB) := List.mem_filter.mpr ⟨hp, meets_iff.mpr ⟨q, hq, k⟩⟩
    rw [← hl] at this
    simpa using this
  have hn : a.tensors.length - 1 < a.tensors.length := by omega
  obtain ⟨st1, a1, e1, s1, ⟨_, _, C1A⟩, chiA, WA1, len1⟩ :=
    moveTensor_step hla hr cast castF CA ca hi hn wA h1 big
  have f1 := d.onA s1
  have d1 := d.both f1
  have C1B := d.carryB s1 CB
  have WB1 := wB.kept s1.kept CB.old
  obtain ⟨st2, b1, e2, s2, ⟨_, _, C2B⟩, chiB, WB2, len2⟩ :=
    moveTensor_step hla hr cast castF C1B cb hj (e := 0) (by omega) WB1 h1 big
  have f2 := d1.onB s2
  have d2 := d1.both f2
  have C2A := d1.carryA s2 C1A
  have WA2 := WA1.kept s2.kept C1A.old
  have f12 := f1.trans f2
  have pA : (moveTo PA i (a.tensors.length - 1)).Perm PA := moveTo_perm PA (by rw [CA.len]; exact hi) (by rw [CA.len]; exact hn)
  have pB : (moveTo PB j 0).Perm PB := moveTo_perm PB (by rw [CB.len]; exact hj) (by rw [CB.len]; omega)
  have gA := moveTo_getD PA (b := i) (e := a.tensors.length - 1) (by rw [CA.len]; exact hi) (by rw [CA.len]; exact hn)
  have gB := moveTo_getD PB (b := j) (e := 0) (by rw [CB.len]; exact hj) (by rw [CB.len]; omega)
  set PA1 := moveTo PA i (a.tensors.length - 1)
  set PB1 := moveTo PB j 0
  have lPA : PA1.length = a1.tensors.length := C2A.len
  have lPB : PB1.length = b1.tensors.length := C2B.len
  rw [← len1] at gA hn
  have hA0 : 0 < a1.tensors.length := by omega
  have hB0 : 0 < b1.tensors.length := by omega
  have partA : ∀ p ∈ PA, st2.partner p = st.partner p := by
    intro p hp
    obtain ⟨t, ht, h⟩ := CA.phys_mem hp
    exact (f12.kept p (CA.old t ht p h)).2.2
  have iPA : PA.getD i 0 ∈ PA := (Chain.mem_phys CA.len).mpr ⟨i, hi, rfl⟩
  have k2 : st2.partner (PA1.getD (a1.tensors.length - 1) 0) = some (PB1.getD 0 0) := by
    rw [gA, gB, partA _ iPA, kij]
  have only : ∀ p ∈ PA1, ∀ q ∈ PB1, st2.partner p = some q → p = PA1.getD (a1.tensors.length - 1) 0 := by
    intro p hp q hq k
    rw [partA p (pA.mem_iff.mp hp)] at k
    rw [gA]
    exact only0 p (pA.mem_iff.mp hp) q (pB.mem_iff.mp hq) k
  obtain ⟨ta, hta⟩ : ∃ t, a1.tensors[a1.tensors.length - 1]? = some t := ⟨_, List.getElem?_eq_getElem (by omega)⟩
  obtain ⟨tb, htb⟩ : ∃ t, b1.tensors[0]? = some t := ⟨_, List.getElem?_eq_getElem hB0⟩
  obtain ⟨o, e3, n3, l3, f3⟩ := d2.joinOne cast C2A C2B hta htb k2
  have d3 := d2.single.next f3
  have p1 : PA.Perm (PA1.getD (a1.tensors.length - 1) 0 :: PA1.take (PA1.length - 1)) := by
    rw [← lPA]; exact pA.symm.trans (last_perm (by omega))
  have p2 : PB.Perm (PB1.getD 0 0 :: PB1.drop 1) := pB.symm.trans (front_perm (by omega))
  have hlast : a1.tensors.getLast? = some ta := by rw [List.getLast?_eq_getElem?]; exact hta
  have hhead : b1.tensors.head? = some tb := by rw [List.head?_eq_getElem?]; exact htb
  have hmin : min a1.chi b1.chi = (chi : Int) := by rw [chiA, chiB, min_self]
  have e1' : a.moveTensor la cast castF st (i : Int) ((a.tensors.length : Int) - 1) = .ok (st1, a1) := by
    rw [show ((a.tensors.length : Int) - 1) = ((a.tensors.length - 1 : Nat) : Int) by omega]; exact e1
  have oldA2 : ∀ t ∈ a1.tensors, ∀ l ∈ t.legs, l < st2.nextLeg := C2A.old
  have oldB2 : ∀ t ∈ b1.tensors, ∀ l ∈ t.legs, l < st2.nextLeg := C2B.old
  by_cases c1 : 1 < a1.tensors.length
  · -- the site before the last one takes the rest
    obtain ⟨tc, htc⟩ : ∃ t, a1.tensors[a1.tensors.length - 2]? = some t := ⟨_, List.getElem?_eq_getElem (by omega)⟩
    rw [if_pos (by omega)] at l3
    obtain ⟨o2, e4, n4, l4, f4⟩ := d2.joinLeft cast C2A C2B n3 d3 c1 hB0 htc l3 rfl
    have d4 := d3.next f4
    have part4 : ∀ l, o2.store.partner l = st2.partner l := fun l => by
      rw [n4.partner (n3.inv C2A.wf.inv), n3.partner C2A.wf.inv]
    have dim4 : ∀ l, o2.store.dim l = st2.dim l := fun l => by rw [n4.dim, n3.dim]
    have CL := chainLeft C2A C2B c1 hB0 d4.kitA part4 l4 only
    obtain ⟨st5, m, e5, em, ec, -, C5, rel, oth⟩ := C47_new CL (by simp) (some (chi : Int)) (by
      intro c hc; cases hc; omega)
    have f5 := rel.step oth CL.wf C5.wf (fun t ht => (CL.good t ht).2) d4.kitA.net (by simp)
    refine ⟨st5, _, _, _, _, p1, p2, ?_, .inr ⟨?_, m, ?_, ?_, ⟨_, _, C5⟩, ec, ?_⟩⟩
    · rw [gA, gB]; exact kij
    · rw [List.length_take]; omega
    · unfold contractMPS
      have hne : ¬ (o.result.legs.length = 0) := by rw [l3.length_eq]; simp
      simp only [e0, bind, Except.bind, e1', Nat.cast_zero] at e2 ⊢
      simp only [e2, hlast, hhead, e3, hne, if_false, gt_iff_lt, c1, if_true, htc, e4, hmin, List.append_assoc, List.singleton_append, e5]
      rfl
    · rw [em]
      exact ((f12.trans f3).trans f4).trans f5
    · rw [em]
      intro t ht l hl
      rw [show st5.dim l = o2.store.dim l from (rel.leg l).1, dim4]
      rcases List.mem_append.mp ht with ht | ht
      · exact WA2 t (List.mem_of_mem_take ht) l hl
      rcases List.mem_cons.mp ht with rfl | ht
      · have hl := l4.mem_iff.mp hl
        obtain ⟨uA, -, muA, hpA⟩ := C2A.site (i := a1.tensors.length - 2) (by omega)
        rcases List.mem_cons.mp hl with rfl | hl
        · exact WA2 uA muA _ (hpA.mem_iff.mpr (Chain.mem_siteLegs.mpr (.inl rfl)))
        rcases List.mem_append.mp hl with hl | hl
        · split at hl
          · rename_i c
            obtain ⟨uB, -, muB, hpB⟩ := C2B.site (i := 0) (by omega)
            exact WB2 uB muB _ (hpB.mem_iff.mpr (Chain.mem_siteLegs.mpr (.inr (.inl ⟨c, List.mem_singleton.mp hl⟩))))
          · cases hl
        · split at hl
          · rename_i c
            exact WA2 uA muA _ (hpA.mem_iff.mpr (Chain.mem_siteLegs.mpr (.inr (.inr ⟨c, List.mem_singleton.mp hl⟩))))
          · cases hl
      · exact WB2 t (List.mem_of_mem_drop ht) l hl
  · have hA1 : a1.tensors.length = 1 := by omega
    have edl : a1.tensors.dropLast = [] := List.length_eq_zero_iff.mp (by rw [List.length_dropLast]; omega)
    rw [edl, List.nil_append] at f3 d3
    rw [if_neg (by omega), List.nil_append] at l3
    have eRA : PA1.take (PA1.length - 1) = [] := List.length_eq_zero_iff.mp (by rw [List.length_take]; omega)
    by_cases c2 : 1 < b1.tensors.length
    · obtain ⟨tc, htc⟩ : ∃ t, b1.tensors[1]? = some t := ⟨_, List.getElem?_eq_getElem (by omega)⟩
      rw [if_pos c2] at l3
      obtain ⟨o2, e4, n4, l4, f4⟩ := d2.joinRight cast C2B n3 d3 c2 htc l3
      have d4 := d3.next f4
      have part4 : ∀ l, o2.store.partner l = st2.partner l := fun l => by
        rw [n4.partner (n3.inv C2A.wf.inv), n3.partner C2A.wf.inv]
      have dim4 : ∀ l, o2.store.dim l = st2.dim l := fun l => by rw [n4.dim, n3.dim]
      have CL := chainRight C2A C2B hA1 c2 d4.kitA part4 l4 only
      obtain ⟨st5, m, e5, em, ec, -, C5, rel, oth⟩ := C47_new CL (by simp) (some (chi : Int)) (by
        intro c hc; cases hc; omega)
      have f5 := rel.step oth CL.wf C5.wf (fun t ht => (CL.good t ht).2) d4.kitA.net (by simp)
      refine ⟨st5, _, _, _, _, p1, p2, ?_, .inr ⟨?_, m, ?_, ?_, ⟨_, _, C5⟩, ec, ?_⟩⟩
      · rw [gA, gB]; exact kij
      · rw [List.length_drop]; omega
      · unfold contractMPS
        have hne : ¬ (o.result.legs.length = 0) := by rw [l3.length_eq]; simp
        simp only [e0, bind, Except.bind, e1', Nat.cast_zero] at e2 ⊢
        simp only [e2, hlast, hhead, e3, hne, if_false, gt_iff_lt, c1, htc, e4, hmin, edl, List.nil_append, List.singleton_append, e5]
        rfl
      · rw [em]
        exact ((f12.trans f3).trans f4).trans f5
      · rw [em]
        intro t ht l hl
        rw [show st5.dim l = o2.store.dim l from (rel.leg l).1, dim4]
        rcases List.mem_cons.mp ht with rfl | ht
        · have hl := l4.mem_iff.mp hl
          obtain ⟨uB, -, muB, hpB⟩ := C2B.site (i := 1) (by omega)
          rcases List.mem_cons.mp hl with rfl | hl
          · exact WB2 uB muB _ (hpB.mem_iff.mpr (Chain.mem_siteLegs.mpr (.inl rfl)))
          · split at hl
            · rename_i c
              exact WB2 uB muB _ (hpB.mem_iff.mpr (Chain.mem_siteLegs.mpr (.inr (.inl ⟨c, List.mem_singleton.mp hl⟩))))
            · cases hl
        · exact WB2 t (List.mem_of_mem_drop ht) l hl
    · have hB1 : b1.tensors.length = 1 := by omega
      rw [if_neg c2] at l3
      have enl : b1.tensors.drop 1 = [] := List.drop_eq_nil_of_le (by omega)
      rw [enl] at f3
      have eRB : PB1.drop 1 = [] := List.drop_eq_nil_of_le (by omega)
      have l3 := l3.eq_nil
      refine ⟨o.store, _, _, _, _, p1, p2, ?_, .inl ⟨eRA, eRB, o.result, ?_, f12.trans f3, l3⟩⟩
      · rw [gA, gB]; exact kij
      · unfold contractMPS
        simp only [e0, bind, Except.bind, e1', Nat.cast_zero] at e2 ⊢
        simp only [e2, hlast, hhead, e3, l3, List.length_nil, if_true]
        rfl

end CTL
