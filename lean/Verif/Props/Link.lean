import Verif.Lemmas.Link
import Verif.Props.Contract
import Verif.Props.Legs

/-!
# Linking and merging links (C10, C18, part of C38)
-/

namespace CTL
variable {R : Type}

/-! ## C10 -/

/-- In every store reached by a history of links between free legs (and leg creations, renamings, ownership
changes, shared-bond queries): following a bond never fails; going to the other side and back returns to the
same leg; both sides have the same dimension; no leg is the partner of two legs. -/
theorem C10_bonds_symmetric {st : Store} (h : Reachable st) :
    (∀ l, ∃ r, st.anotherSide l = .ok r) ∧
    (∀ l m, st.anotherSide l = .ok (some m) → st.anotherSide m = .ok (some l) ∧ st.dim l = st.dim m) ∧
    (∀ l l' m, st.anotherSide l = .ok (some m) → st.anotherSide l' = .ok (some m) → l = l') := by
  have w := h.wf
  have e := anotherSide_eq w.inv
  refine ⟨fun l => ⟨_, e l⟩, ?_, ?_⟩
  · intro l m hm
    rw [e, Except.ok.injEq] at hm
    refine ⟨by rw [e, partner_symm w.inv hm], (partner_dim w.inv hm).symm⟩
  · intro l l' m h1 h2
    rw [e, Except.ok.injEq] at h1 h2
    have h1 := partner_symm w.inv h1
    have h2 := partner_symm w.inv h2
    rw [h1, Option.some.injEq] at h2
    exact h2

/-- The bond of a leg never lists a third leg: it consists of the leg and its partner. -/
theorem C10_bond_of_leg {st : Store} (h : Reachable st) (l : LegId) (b : BondId)
    (hb : (st.leg l).bond = some b) :
    ∃ m, st.anotherSide l = .ok (some m) ∧ (st.bond b = (l, m) ∨ st.bond b = (m, l)) ∧
      (st.leg m).bond = some b := by
  have w := h.wf
  obtain ⟨e0, e1, e2, _⟩ := w.inv l b hb
  rw [anotherSide_eq w.inv]
  unfold Store.partner
  rw [hb]
  by_cases hl : (st.bond b).1 = l
  · exact ⟨(st.bond b).2, by simp [hl], Or.inl (by rw [← hl]), e2⟩
  · have hl2 : (st.bond b).2 = l := by tauto
    exact ⟨(st.bond b).1, by simp [hl], Or.inr (by rw [← hl2]), e1⟩

/-- Linking lists of free legs of pairwise equal dimension makes exactly these links, one new bond per pair,
and changes nothing else. -/
theorem C10_makeLink {st : Store} (h : Reachable st) (la lb : List LegId) (hlen : la.length = lb.length)
    (free : FreePairs st ((la.map some).zip (lb.map some)))
    (hdim : ∀ p ∈ la.zip lb, st.dim p.1 = st.dim p.2) :
    ∃ st' bs, makeLinkLegs st la lb = (st', .ok bs) ∧ bs.length = la.length ∧ bs.Nodup ∧
      (∀ p ∈ la.zip lb, st'.anotherSide p.1 = .ok (some p.2) ∧ st'.anotherSide p.2 = .ok (some p.1)) ∧
      (∀ x, x ∉ la → x ∉ lb → st'.anotherSide x = st.anotherSide x ∧ st'.leg x = st.leg x) ∧
      (∀ x, st'.dim x = st.dim x ∧ st'.name x = st.name x ∧ (st'.leg x).tensor = (st.leg x).tensor) := by
  have w := h.wf
  rw [zip_map_some] at free
  obtain ⟨st', bs, e1, e2, e3, e4, e5, e6, e7, e8, e9⟩ := linkLoop_ok (la.zip lb) st w free hdim
  refine ⟨st', bs, by rw [makeLinkLegs_eq st la lb hlen, e1], by rw [e2]; simp [hlen], ?_, ?_, ?_, e6⟩
  · -- equal bonds would join a leg of one pair to a leg of another pair
    rw [List.nodup_iff_injective_getElem]
    rintro ⟨i, hi⟩ ⟨j, hj⟩ hij
    simp only [Fin.mk.injEq]
    simp only at hij
    by_contra hne
    have hi' : i < (la.zip lb).length := by rw [← e2]; exact hi
    have hj' : j < (la.zip lb).length := by rw [← e2]; exact hj
    have g1 := e9 ((la.zip lb)[i], bs[i]) (by
      rw [List.mem_iff_getElem]; exact ⟨i, by simp only [List.length_zip] at *; omega, by simp⟩)
    have g2 := e9 ((la.zip lb)[j], bs[j]) (by
      rw [List.mem_iff_getElem]; exact ⟨j, by simp only [List.length_zip] at *; omega, by simp⟩)
    rw [← hij] at g2
    have p1 := (e4 _ (List.getElem_mem hi')).1
    have hd := free.disj
    rw [List.pairwise_map] at hd
    have dis : ∀ x, (x = (la.zip lb)[i].1 ∨ x = (la.zip lb)[i].2) →
        ¬ (x = (la.zip lb)[j].1 ∨ x = (la.zip lb)[j].2) := by
      intro x hx hx'
      rcases Nat.lt_or_gt_of_ne hne with hlt | hlt
      · have := (List.pairwise_iff_getElem.mp hd) i j hi' hj' hlt x
        simp only [InPair, Option.some.injEq] at this
        exact this (hx.imp Eq.symm Eq.symm) (hx'.imp Eq.symm Eq.symm)
      · have := (List.pairwise_iff_getElem.mp hd) j i hj' hi' hlt x
        simp only [InPair, Option.some.injEq] at this
        exact this (hx'.imp Eq.symm Eq.symm) (hx.imp Eq.symm Eq.symm)
    obtain ⟨f0, -, -, -⟩ := e3.inv _ _ g1.1
    obtain ⟨f1, -, -, -⟩ := e3.inv _ _ g2.1
    obtain ⟨f2, -, -, -⟩ := e3.inv _ _ g1.2
    obtain ⟨f3, -, -, -⟩ := e3.inv _ _ g2.2
    have d1 := dis _ (Or.inl rfl)
    have d2 := dis _ (Or.inr rfl)
    simp only [not_or] at d1 d2
    by_cases hself : (la.zip lb)[i].1 = (la.zip lb)[i].2
    · -- a leg linked to itself: the partner shows that both entries of the bond are this leg
      unfold Store.partner at p1
      rw [g1.1] at p1
      simp only [Option.some.injEq] at p1
      rw [← hself] at p1
      split at p1 <;> rename_i hc
      · rcases f1 with f | f
        · exact d1.1 (hc ▸ f)
        · exact d1.1 (p1 ▸ f)
      · rcases f0 with f | f
        · exact hc f
        · exact hc p1
    · rcases f0 with f | f <;> rcases f1 with f' | f'
      · exact d1.1 (f ▸ f')
      · rcases f2 with f'' | f''
        · exact hself (f ▸ f'')
        · exact d2.1 (f'' ▸ f')
      · rcases f2 with f'' | f''
        · exact d2.1 (f'' ▸ f')
        · exact hself (f ▸ f'')
      · exact d1.1 (f ▸ f')
  · intro p hp
    rw [anotherSide_eq e3.inv, anotherSide_eq e3.inv, (e4 p hp).1, (e4 p hp).2]
    exact ⟨rfl, rfl⟩
  · intro x h1 h2
    have := e5 x (fun p hp => ⟨fun e : x = p.1 => h1 (e ▸ (List.of_mem_zip hp).1),
      fun e : x = p.2 => h2 (e ▸ (List.of_mem_zip hp).2)⟩)
    rw [anotherSide_eq e3.inv, anotherSide_eq w.inv, this.1]
    exact ⟨rfl, this.2⟩

/-- Four free legs, two of dimension 2 and two of dimension 3. -/
def exLegs : Store :=
  ((((Store.empty.newLeg none 2 "a").1.newLeg none 2 "b").1.newLeg none 3 "c").1.newLeg none 3 "d").1

theorem exLegs_reachable : Reachable exLegs :=
  .newLeg (.newLeg (.newLeg (.newLeg .empty _ _ _) _ _ _) _ _ _) _ _ _

theorem exLegs_free : FreePairs exLegs (([0, 2].map some).zip ([1, 3].map some)) := by
  constructor
  · intro p hp l hl
    simp only [List.map_cons, List.map_nil, List.zip_cons_cons, List.zip_nil_right, List.mem_cons,
      List.not_mem_nil, or_false] at hp
    unfold InPair at hl
    rcases hp with rfl | rfl <;> simp only [Option.some.injEq] at hl <;> rcases hl with rfl | rfl <;>
      exact ⟨by decide, by decide⟩
  · simp only [List.map_cons, List.map_nil, List.zip_cons_cons, List.zip_nil_right, List.pairwise_cons,
      List.mem_cons, List.not_mem_nil, or_false, forall_eq, InPair, Option.some.injEq]
    refine ⟨fun l hl hl' => by rcases hl with rfl | rfl <;> simp at hl', ⟨fun p hp => hp.elim, List.Pairwise.nil⟩⟩

/-- The hypotheses of `C10_makeLink` are met by two pairs, and the result is again reachable. -/
example : Reachable (makeLink (R := Unit) exLegs [.leg 0, .leg 2] [.leg 1, .leg 3] none none).1 :=
  .link exLegs_reachable none none _ _ _ _ (mapM_resolve_leg _ _ [0, 2]) (mapM_resolve_leg _ _ [1, 3])
    exLegs_free

example : ∃ st' bs, makeLinkLegs exLegs [0, 2] [1, 3] = (st', .ok bs) ∧
    st'.anotherSide 2 = .ok (some 3) ∧ st'.anotherSide 3 = .ok (some 2) := by
  obtain ⟨st', bs, h, _, _, h4, _⟩ := C10_makeLink exLegs_reachable [0, 2] [1, 3] rfl exLegs_free (by decide)
  exact ⟨st', bs, h, h4 (2, 3) (by decide)⟩

/-- Labels in the arguments of `makeLink` only name legs: the call is the same as with these legs. -/
theorem C10_makeLink_labels (st : Store) (ta tb : Tensor R) (refA refB : List LegRef) (la lb : List LegId)
    (ha : refA.map (resolveRef st (some ta)) = la.map fun l => .ok (some l))
    (hb : refB.map (resolveRef st (some tb)) = lb.map fun l => .ok (some l)) :
    makeLink st refA refB (some ta) (some tb) = makeLinkLegs st la lb := by
  have key : ∀ (t : Tensor R) (refs : List LegRef) (ls : List LegId),
      refs.map (resolveRef st (some t)) = (ls.map fun l => .ok (some l)) →
      refs.mapM (resolveRef st (some t)) = .ok (ls.map some) := by
    intro t refs
    induction refs with
    | nil => intro ls h; cases ls with
      | nil => rfl
      | cons _ _ => simp at h
    | cons r refs ih =>
      intro ls h
      cases ls with
      | nil => simp at h
      | cons l ls =>
        simp only [List.map_cons, List.cons.injEq] at h
        rw [List.mapM_cons, ih ls h.2, h.1]
        rfl
  unfold makeLinkLegs makeLink
  simp only [key ta refA la ha, key tb refB lb hb, mapM_resolve_leg]

example : makeLink exStore [.label "a"] [.leg 3] (some exA) (some exB) = makeLinkLegs exStore [0] [3] := by
  apply C10_makeLink_labels <;> decide

/-- Relinking a linked leg breaks symmetry: the former partner keeps its bond, which leads to the relinked leg,
while the relinked leg leads elsewhere.  (Dimensions agree, nothing raises.) -/
theorem C10_relink_breaks :
    ∃ st st' st'' : Store, Reachable st ∧ (∃ b, makeLinkLegs st [0] [1] = (st', .ok [b])) ∧
      (∃ b, makeLinkLegs st' [0] [2] = (st'', .ok [b])) ∧
      st''.anotherSide 1 = .ok (some 0) ∧ st''.anotherSide 0 = .ok (some 2) := by
  let st := (((Store.empty.newLeg none 2 "a").1.newLeg none 2 "b").1.newLeg none 2 "c").1
  refine ⟨st, (makeLinkLegs st [0] [1]).1, (makeLinkLegs (makeLinkLegs st [0] [1]).1 [0] [2]).1,
    .newLeg (.newLeg (.newLeg .empty _ _ _) _ _ _) _ _ _, ⟨0, rfl⟩, ⟨1, rfl⟩, rfl, rfl⟩

/-! ## C38 for `makeLink` -/

/-- A `makeLink` of one pair (legs or labels) that raises changes nothing. -/
theorem C38_makeLink_single (st : Store) (ta tb : Option (Tensor R)) (a b : LegRef) (e : PyErr)
    (h : (makeLink st [a] [b] ta tb).2 = .error e) : (makeLink st [a] [b] ta tb).1 = st := by
  unfold makeLink at h ⊢
  simp only [List.mapM_cons, List.mapM_nil, bind, Except.bind, pure, Except.pure] at h ⊢
  cases ha : resolveRef st ta a with
  | error _ => rfl
  | ok la =>
    cases hb : resolveRef st tb b with
    | error _ => rfl
    | ok lb =>
      rw [ha, hb] at h
      simp only [List.length_cons, List.length_nil, if_true, List.zip_cons_cons, List.zip_nil_right] at h ⊢
      cases la with
      | none => rfl
      | some l =>
        cases lb with
        | none => rfl
        | some m =>
          unfold linkLoop at h ⊢
          by_cases hd : st.dim l = st.dim m
          · rw [newBond_eq st l m hd] at h
            simp [hd, linkLoop] at h
          · simp [hd]

example : makeLink (R := Unit) exLegs [.leg 0] [.leg 2] none none = (exLegs, .error .assertionError) := by
  rfl

/-- In a list, the links before the first failing pair stay: the store after the exception is the one in which
exactly these pairs have been linked. -/
theorem C38_makeLink_list (st : Store) (ps qs : List (Option LegId × Option LegId)) (bad)
    (st' : Store) (bs : List BondId) (h1 : linkLoop st ps = (st', .ok bs))
    (h2 : ∀ l m, bad = (some l, some m) → st'.dim l ≠ st'.dim m) :
    ∃ e, linkLoop st (ps ++ bad :: qs) = (st', .error e) := by
  induction ps generalizing st bs with
  | nil =>
    simp only [linkLoop, Prod.mk.injEq, Except.ok.injEq] at h1
    obtain ⟨rfl, _⟩ := h1
    obtain ⟨a, b⟩ := bad
    cases a with
    | none => exact ⟨_, rfl⟩
    | some l =>
      cases b with
      | none => exact ⟨_, rfl⟩
      | some m =>
        have := h2 l m rfl
        simp only [List.nil_append, linkLoop, this, if_false]
        exact ⟨_, rfl⟩
  | cons p ps ih =>
    obtain ⟨a, b⟩ := p
    cases a with
    | none => simp [linkLoop] at h1
    | some l =>
      cases b with
      | none => simp [linkLoop] at h1
      | some m =>
        by_cases hd : st.dim l = st.dim m
        · rw [linkLoop, if_pos hd, newBond_eq st l m hd] at h1
          rw [List.cons_append, linkLoop, if_pos hd, newBond_eq st l m hd]
          simp only at h1 ⊢
          cases hr : linkLoop (bonded st l m) ps with
          | mk s r =>
            rw [hr] at h1
            cases r with
            | error e => simp at h1
            | ok bs' =>
              simp only [Prod.mk.injEq, Except.ok.injEq] at h1
              obtain ⟨rfl, _⟩ := h1
              obtain ⟨e, he⟩ := ih _ _ hr
              rw [he]
              exact ⟨_, rfl⟩
        · rw [linkLoop, if_neg hd] at h1
          simp at h1

/-- So a `makeLink` call that raises can leave a link behind: here legs 0 and 1 end up linked although the call
failed on the second pair. -/
theorem C38_makeLink_wrong :
    ∃ st st' : Store, Reachable st ∧ makeLinkLegs st [0, 2] [1, 4] = (st', .error .assertionError) ∧
      st.anotherSide 0 = .ok none ∧ st'.anotherSide 0 = .ok (some 1) := by
  let st := (exLegs.newLeg none 5 "e").1
  exact ⟨st, (makeLinkLegs st [0, 2] [1, 4]).1, .newLeg exLegs_reachable _ _ _, rfl, rfl, rfl⟩

/-! ## C18 -/

theorem WFStore.grow {st st' : Store} (w : WFStore st) (hleg : ∀ l ≠ st.nextLeg, st'.leg l = st.leg l)
    (hn : (st'.leg st.nextLeg).bond = none) (hb : st'.bond = st.bond) (h1 : st'.nextLeg = st.nextLeg + 1)
    (h2 : st'.nextBond = st.nextBond) : WFStore st' := by
  have key : ∀ x b, (st'.leg x).bond = some b → x ≠ st.nextLeg ∧ (st.leg x).bond = some b := by
    intro x b hb
    by_cases h : x = st.nextLeg
    · subst h; rw [hn] at hb; cases hb
    · rw [hleg x h] at hb; exact ⟨h, hb⟩
  refine ⟨?_, ?_, ?_⟩
  · intro x b hx
    obtain ⟨_, h3⟩ := key x b hx
    obtain ⟨e0, e1, e2, e3⟩ := w.inv x b h3
    unfold Store.dim
    rw [hb, hleg _ (w.freshLeg _ b e1).ne, hleg _ (w.freshLeg _ b e2).ne]
    exact ⟨e0, e1, e2, e3⟩
  · intro x b hx
    rw [h1]
    exact Nat.lt_succ_of_lt (w.freshLeg x b (key x b hx).2)
  · intro x b hx
    rw [h2]
    exact w.freshBond x b (key x b hx).2

theorem mergeLegs_eq {st : Store} (inv : BondInv st) (tb : TensorId) (la lb : List LegId)
    (own : ∀ l ∈ la, ∀ m, st.partner l = some m → ((st.leg m).tensor = some tb ↔ m ∈ lb)) :
    mergeLegs st tb la = .ok (sharedPairs st la lb) := by
  induction la with
  | nil => rfl
  | cons l la ih =>
    have ih := ih (fun x hx => own x (by simp [hx]))
    unfold mergeLegs sharedPairs
    rw [anotherSide_eq inv]
    unfold sharedPairs at ih
    cases hp : st.partner l with
    | none => simp only [bind, Except.bind, ih, List.filterMap_cons, hp]
    | some m =>
      have := own l (by simp) m hp
      simp only [bind, Except.bind, ih, List.filterMap_cons, hp, pure, Except.pure, this]
      split <;> rfl

theorem grow_partner {st st' : Store} (hleg : ∀ l ≠ st.nextLeg, st'.leg l = st.leg l)
    (hb : st'.bond = st.bond) {l : LegId} (h : l ≠ st.nextLeg) : st'.partner l = st.partner l := by
  unfold Store.partner
  rw [hleg l h, hb]

/-- Merging two or more parallel bonds between two dense tensors: afterwards exactly one bond joins them, its
dimension is the product of the merged dimensions, and contracting the two tensors gives the same legs in the
same order and the same entries as contracting them before the merge.  Hypotheses: the object graph is
well-formed, legs know their tensor, and the legs that are not merged have positive dimension (NumPy cannot
infer the fused dimension otherwise). -/
theorem C18_mergeLink [NonUnitalNonAssocSemiring R] (cast : R → R) {st : Store} (w : WFStore st)
    {ta tb : Tensor R} (ga : GoodTensor st ta) (gb : GoodTensor st tb) (da : ta.diag = false)
    (db : tb.diag = false) (disj : ∀ x ∈ ta.legs, x ∉ tb.legs)
    (freshA : ∀ l ∈ ta.legs, l < st.nextLeg) (freshB : ∀ l ∈ tb.legs, l < st.nextLeg)
    (own : ∀ l ∈ ta.legs, ∀ m, st.partner l = some m → ((st.leg m).tensor = some tb.id ↔ m ∈ tb.legs))
    (many : 2 ≤ (sharedPairs st ta.legs tb.legs).length)
    (posA : ∀ l ∈ ta.legs, l ∉ (sharedPairs st ta.legs tb.legs).map Prod.fst → st.dim l ≠ 0)
    (posB : ∀ l ∈ tb.legs, l ∉ (sharedPairs st ta.legs tb.legs).map Prod.snd → st.dim l ≠ 0)
    (name : BondName) :
    ∃ st' ta' tb' na nb, mergeLink st ta tb name = (st', ta', tb', .ok ()) ∧ WFStore st' ∧
      GoodTensor st' ta' ∧ GoodTensor st' tb' ∧
      sharedPairs st' ta'.legs tb'.legs = [(na, nb)] ∧
      st'.dim na = ((sharedPairs st ta.legs tb.legs).map fun p => st.dim p.1).prod ∧
      (st'.name na, st'.name nb) = mergeNames st (sharedPairs st ta.legs tb.legs) name ∧
      (∀ l < st.nextLeg, st'.leg l = st.leg l) ∧
      (ta'.legs = na :: (ta.legs.filter fun l => decide (l ∉ (sharedPairs st ta.legs tb.legs).map Prod.fst)) ∧
        tb'.legs = nb :: (tb.legs.filter fun l => decide (l ∉ (sharedPairs st ta.legs tb.legs).map Prod.snd)) ∧
        ta'.diag = false ∧ tb'.diag = false ∧ na = st.nextLeg ∧ nb = st.nextLeg + 1 ∧
        st'.nextLeg = st.nextLeg + 2 ∧ ∀ l < st.nextLeg, st'.partner l = st.partner l) ∧
      ∃ o o', contractTwoTensors cast st ta tb none = .ok o ∧
        contractTwoTensors cast st' ta' tb' none = .ok o' ∧
        o'.result.legs = o.result.legs ∧
        ∀ σ, InRange st.dim o.result.legs σ → entry o'.result σ = entry o.result σ := by
  set ps := sharedPairs st ta.legs tb.legs with hps
  have ok : PairsOK st ta.legs tb.legs ps := pairsOK_shared w.inv ga.nodup gb.nodup disj
  have hml := mergeLegs_eq w.inv tb.id ta.legs tb.legs own
  rw [← hps] at hml
  have ndA : (ps.map Prod.fst).Nodup := (List.nodup_append.mp ok.nodup).1
  have ndB : (ps.map Prod.snd).Nodup := (List.nodup_append.mp ok.nodup).2.1
  have hneA : ps.map Prod.fst ≠ [] := by
    intro h; rw [List.map_eq_nil_iff] at h; rw [h] at many; simp at many
  have hneB : ps.map Prod.snd ≠ [] := by
    intro h; rw [List.map_eq_nil_iff] at h; rw [h] at many; simp at many
  obtain ⟨st1, ta1, a1, a2, a3, a4, a5, a6, a7, a8, a9, a10, a11, a12, a13, a14, a15⟩ :=
    C17_outProduct ga da (ps.map Prod.fst) (mergeNames st ps name).1 hneA ndA ok.subA freshA posA
  have w1 : WFStore st1 := w.grow a7 a5 a8 a9 a10
  have dim1 : ∀ l, l < st.nextLeg → st1.dim l = st.dim l := by
    intro l hl; unfold Store.dim; rw [a7 l hl.ne]
  have gb1 : GoodTensor st1 tb := gb.congr_dim fun l hl => dim1 l (freshB l hl)
  obtain ⟨st2, tb1, b1, b2, b3, b4, b5, b6, b7, b8, b9, b10, b11, b12, b13, b14, b15⟩ :=
    C17_outProduct gb1 db (ps.map Prod.snd) (mergeNames st ps name).2 hneB ndB ok.subB
      (fun l hl => by rw [a9]; exact Nat.lt_succ_of_lt (freshB l hl))
      (fun l hl hl' => by rw [dim1 l (freshB l hl)]; exact posB l hl hl')
  have w2 : WFStore st2 := w1.grow b7 b5 b8 b9 b10
  rw [a9] at b1 b2 b3 b4 b5 b6 b7 b9 b14
  set na : Nat := st.nextLeg with hna
  set nb : Nat := na + 1 with hnb
  have hnab : na ≠ nb := by omega
  have lt_nb : ∀ l : Nat, l < na → l ≠ nb := by intro l hl; omega
  have leg2na : st2.leg na = st1.leg na := b7 na hnab
  have leg2 : ∀ l, l < na → st2.leg l = st.leg l := by
    intro l hl
    rw [b7 l (lt_nb l hl), a7 l hl.ne]
  have dim2 : ∀ l, l < na → st2.dim l = st.dim l := by
    intro l hl; unfold Store.dim; rw [leg2 l hl]
  have dim2na : st2.dim na = ((ps.map Prod.fst).map st.dim).prod := by
    rw [← a3]; unfold Store.dim; rw [leg2na]
  have dimB : (ps.map Prod.snd).map st1.dim = (ps.map Prod.fst).map st.dim := by
    rw [List.map_map, List.map_map]
    apply List.map_congr_left
    intro p hp
    have : p.2 ∈ tb.legs := ok.subB (List.mem_map_of_mem hp)
    simp only [Function.comp]
    rw [dim1 _ (freshB _ this), ok.dims p hp]
  have dim2nb : st2.dim nb = ((ps.map Prod.fst).map st.dim).prod := by
    rw [b3, dimB]
  have free : FreePairs st2 ([(na, nb)].map fun p => (some p.1, some p.2)) := by
    refine ⟨?_, List.pairwise_singleton _ _⟩
    intro p hp l hl
    simp only [List.map_cons, List.map_nil, List.mem_singleton] at hp
    subst hp
    simp only [InPair, Option.some.injEq] at hl
    rcases hl with rfl | rfl
    · rw [leg2na, a5, b9]; exact ⟨rfl, Nat.lt_succ_of_lt (Nat.lt_succ_self _)⟩
    · rw [b5, b9]; exact ⟨rfl, Nat.lt_succ_self _⟩
  obtain ⟨st3, bs, c1, c2, w3, c4, c5, c6, c7, c8, _⟩ := linkLoop_ok [(na, nb)] st2 w2 free (by
    intro p hp
    rw [List.mem_singleton] at hp
    subst hp
    rw [dim2na, dim2nb])
  have hrun : mergeLink st ta tb name = (st3, ta1, tb1, .ok ()) := by
    unfold mergeLink
    have hlink : makeLinkLegs st2 [na] [nb] = (st3, .ok bs) := by
      rw [makeLinkLegs_eq st2 [na] [nb] rfl]; exact c1
    rw [hml]
    clear_value ps
    match ps, many with
    | x :: y :: rest, _ => simp only [a1, b1, hlink]
  have legs3 : ∀ l, l < na → st3.leg l = st.leg l := by
    intro l hl
    rw [(c5 l (fun p hp => by
      rw [List.mem_singleton] at hp; subst hp
      exact ⟨hl.ne, lt_nb l hl⟩)).2, leg2 l hl]
  have dim3 : ∀ l, l < na → st3.dim l = st.dim l := by
    intro l hl; unfold Store.dim; rw [legs3 l hl]
  have part3 : ∀ l, l < na → st3.partner l = st.partner l := by
    intro l hl
    rw [(c5 l (fun p hp => by
      rw [List.mem_singleton] at hp; subst hp
      exact ⟨hl.ne, lt_nb l hl⟩)).1]
    rw [grow_partner (by rw [a9]; exact b7) b8 (by rw [a9]; exact lt_nb l hl), grow_partner a7 a8 hl.ne]
  have dim3na : st3.dim na = ((ps.map Prod.fst).map st.dim).prod := by rw [(c6 na).1, dim2na]
  have part_na : st3.partner na = some nb := (c4 (na, nb) (by simp)).1
  have hta1 : ta1.legs = na :: restA ta.legs ps := a2
  have htb1 : tb1.legs = nb :: restB tb.legs ps := b2
  have memA : ∀ l ∈ restA ta.legs ps, l ∈ ta.legs ∧ l ∉ ps.map Prod.fst := by
    intro l hl
    unfold restA at hl
    rw [List.mem_filter] at hl
    exact ⟨hl.1, by simpa using hl.2⟩
  have memB : ∀ l ∈ restB tb.legs ps, l ∈ tb.legs ∧ l ∉ ps.map Prod.snd := by
    intro l hl
    unfold restB at hl
    rw [List.mem_filter] at hl
    exact ⟨hl.1, by simpa using hl.2⟩
  have hshare : sharedPairs st3 ta1.legs tb1.legs = [(na, nb)] := by
    rw [hta1, htb1]
    unfold sharedPairs
    simp only [List.filterMap_cons, part_na, List.mem_cons, true_or, if_true]
    congr 1
    rw [List.filterMap_eq_nil_iff]
    intro l hl
    obtain ⟨hl1, hl2⟩ := memA l hl
    rw [part3 l (freshA l hl1)]
    cases hp : st.partner l with
    | none => rfl
    | some m =>
      have hlt : m < na := by
        have := partner_symm w.inv hp
        obtain ⟨b, hb, _⟩ := partner_some w.inv this
        exact w.freshLeg m b hb
      have : ¬ (m = nb ∨ m ∈ restB tb.legs ps) := by
        rintro (h | h)
        · exact lt_nb m hlt h
        · apply hl2
          rw [List.mem_map]
          exact ⟨(l, m), (mem_sharedPairs (p := (l, m))).mpr ⟨hl1, hp, (memB m h).1⟩, rfl⟩
      simp only [this, if_false]
  have ga3 : GoodTensor st3 ta1 := a12.congr_dim (by
    intro l hl
    rw [(c6 l).1]
    rw [hta1, List.mem_cons] at hl
    rcases hl with rfl | hl
    · unfold Store.dim; rw [leg2na]
    · rw [dim2 l (freshA l (memA l hl).1), dim1 l (freshA l (memA l hl).1)])
  have gb3 : GoodTensor st3 tb1 := b12.congr_dim (fun l _ => (c6 l).1)
  have disj3 : ∀ x ∈ ta1.legs, x ∉ tb1.legs := by
    intro x hx hx'
    rw [hta1, List.mem_cons] at hx
    rw [htb1, List.mem_cons] at hx'
    rcases hx with rfl | hx
    · rcases hx' with h | h
      · exact hnab h
      · exact absurd (freshB _ (memB _ h).1) (lt_irrefl _)
    · rcases hx' with h | h
      · exact lt_nb x (freshA _ (memA _ hx).1) h
      · exact disj x (memA _ hx).1 (memB _ h).1
  obtain ⟨o, o1, o2, _, o4⟩ := contract_dense cast w.inv ga gb da db disj
  obtain ⟨o', p1, p2, _, p4⟩ := contract_dense cast w3.inv ga3 gb3 a13 b13 disj3
  have hlegs : o'.result.legs = o.result.legs := by
    rw [p2, o2, hshare, ← hps, hta1, htb1]
    congr 1
    · simp only [restA, List.map_cons, List.map_nil, List.mem_singleton]
      rw [List.filter_cons_of_neg (by simp), List.filter_eq_self]
      intro l hl
      have := (freshA l (memA l hl).1).ne
      simpa using this
    · simp only [restB, List.map_cons, List.map_nil, List.mem_singleton]
      rw [List.filter_cons_of_neg (by simp), List.filter_eq_self]
      intro l hl
      have := freshB l (memB l hl).1
      simp only [decide_eq_true_eq]
      exact lt_nb l this
  refine ⟨st3, ta1, tb1, na, nb, hrun, w3, ga3, gb3, hshare, ?_, ?_, legs3,
    ⟨a2, b2, a13, b13, rfl, rfl, by rw [c7, b9], part3⟩, o, o', o1, p1, hlegs, ?_⟩
  · rw [dim3na, List.map_map]; rfl
  · rw [(c6 na).2.1, (c6 nb).2.1, b4]
    unfold Store.name at a4 ⊢
    rw [leg2na, a4]
  · intro σ hσ
    have hσ' : InRange st3.dim o'.result.legs σ := by
      rw [hlegs]
      intro l hl
      have hl' := hl
      rw [o2, List.mem_append, ← hps] at hl'
      have hlt : l < na := by
        rcases hl' with h | h
        · exact freshA l (memA l h).1
        · exact freshB l (memB l h).1
      rw [dim3 l hlt]; exact hσ l hl
    rw [p4.entry σ hσ', o4.entry σ hσ, hshare, ← hps, sumBonds_eq st.dim ps]
    simp only [sumBonds]
    rw [dim3na, sum_range_prod]
    have hmm : (ps.map Prod.fst).map st.dim = ps.map fun p => st.dim p.1 := by
      rw [List.map_map]; rfl
    rw [hmm]
    congr 1
    apply List.map_congr_left
    intro idx hidx
    have hv : ValidIdx (ps.map fun p => st.dim p.1) idx := mem_indices.mp hidx
    have hlen : idx.length = ps.length := by
      have := hv.length
      simpa using this
    obtain ⟨q1, q2⟩ := assign_pairs σ ps idx hlen ok.nodup
    have hrangeA : InRange st.dim ta.legs (assign σ ps idx) := by
      apply assign_inRange st.dim ta.legs σ ps idx hv ok.dims
      intro l hl h1 h2
      apply hσ
      rw [o2, ← hps, List.mem_append]
      left
      unfold restA
      rw [List.mem_filter]
      exact ⟨hl, by simpa using h1⟩
    have hrangeB : InRange st.dim tb.legs (assign σ ps idx) := by
      apply assign_inRange st.dim tb.legs σ ps idx hv ok.dims
      intro l hl h1 h2
      apply hσ
      rw [o2, ← hps, List.mem_append]
      right
      unfold restB
      rw [List.mem_filter]
      exact ⟨hl, by simpa using h2⟩
    have eA := a14 (assign σ ps idx) hrangeA
    rw [q1, hmm] at eA
    have eB := b14 (assign σ ps idx) (fun l hl => by rw [dim1 l (freshB l hl)]; exact hrangeB l hl)
    rw [q2, dimB, hmm] at eB
    rw [← eA, ← eB]
    congr 1
    · apply entry_congr
      intro l hl
      rw [hta1, List.mem_cons] at hl
      rcases hl with rfl | hl
      · simp [Assign.set, hnab]
      · obtain ⟨hl1, hl2⟩ := memA l hl
        have h1 := (freshA l hl1).ne
        have h2 : l ≠ nb := lt_nb l (freshA l hl1)
        simp only [Assign.set, h1, h2, if_false]
        exact (assign_other σ ps idx l hl2 (fun h => disj l hl1 (ok.subB h))).symm
    · apply entry_congr
      intro l hl
      rw [htb1, List.mem_cons] at hl
      rcases hl with rfl | hl
      · simp [Assign.set]
      · obtain ⟨hl1, hl2⟩ := memB l hl
        have h1 := (freshB l hl1).ne
        have h2 : l ≠ nb := lt_nb l (freshB l hl1)
        simp only [Assign.set, h1, h2, if_false]
        exact (assign_other σ ps idx l (fun h => disj l (ok.subA h) hl1) hl2).symm

/-- Legs 0, 1, 2 of tensor 0 and legs 3, 4 of tensor 1; bonds 0-3 (dimension 2) and 2-4 (dimension 3). -/
def exMergeStore : Store where
  leg := fun l => match l with
    | 0 => ⟨2, "x", some 0, some 0⟩
    | 1 => ⟨2, "y", none, some 0⟩
    | 2 => ⟨3, "z", some 1, some 0⟩
    | 3 => ⟨2, "u", some 0, some 1⟩
    | 4 => ⟨3, "v", some 1, some 1⟩
    | _ => ⟨0, "", none, none⟩
  bond := fun b => match b with
    | 0 => (0, 3)
    | 1 => (4, 2)
    | _ => (0, 0)
  nextLeg := 5
  nextBond := 2
  nextTensor := 2

def exMergeA : Tensor Int :=
  ⟨0, [0, 1, 2], some ⟨[2, 2, 3], [1, 2, 3, 4, 5, 6, 7, 8, 9, 10, 11, 12]⟩, false, false, 0⟩
def exMergeB : Tensor Int := ⟨1, [3, 4], some ⟨[2, 3], [1, -1, 2, -2, 3, -3]⟩, false, false, 0⟩

theorem exMergeStore_wf : WFStore exMergeStore := by
  refine ⟨?_, ?_, ?_⟩ <;> intro l b h
  · match l with
    | 0 => simp [exMergeStore] at h; subst h; simp [exMergeStore, Store.dim]
    | 1 => simp [exMergeStore] at h
    | 2 => simp [exMergeStore] at h; subst h; simp [exMergeStore, Store.dim]
    | 3 => simp [exMergeStore] at h; subst h; simp [exMergeStore, Store.dim]
    | 4 => simp [exMergeStore] at h; subst h; simp [exMergeStore, Store.dim]
    | n + 5 => simp [exMergeStore] at h
  · match l with
    | 0 | 1 | 2 | 3 | 4 => simp [exMergeStore]
    | n + 5 => simp [exMergeStore] at h
  · match l with
    | 0 => simp [exMergeStore] at h; subst h; simp [exMergeStore]
    | 1 => simp [exMergeStore] at h
    | 2 => simp [exMergeStore] at h; subst h; simp [exMergeStore]
    | 3 => simp [exMergeStore] at h; subst h; simp [exMergeStore]
    | 4 => simp [exMergeStore] at h; subst h; simp [exMergeStore]
    | n + 5 => simp [exMergeStore] at h

/-- The hypotheses of `C18_mergeLink` are met by two tensors joined by two bonds. -/
example : ∃ st' ta' tb' na nb, mergeLink exMergeStore exMergeA exMergeB .none = (st', ta', tb', .ok ()) ∧
    sharedPairs st' ta'.legs tb'.legs = [(na, nb)] ∧ st'.dim na = 6 ∧
    (st'.name na, st'.name nb) = ("x|z", "u|v") := by
  obtain ⟨st', ta', tb', na, nb, h1, _, _, _, h5, h6, h7, _⟩ := C18_mergeLink (R := Int) id exMergeStore_wf
    (ta := exMergeA) (tb := exMergeB)
    ⟨by decide, rfl, _, rfl, rfl, fun _ => by decide, fun h => by cases h⟩
    ⟨by decide, rfl, _, rfl, rfl, fun _ => by decide, fun h => by cases h⟩ rfl rfl (by decide)
    (by decide) (by decide)
    (by
      intro l hl m hm
      simp only [exMergeA, List.mem_cons, List.not_mem_nil, or_false] at hl
      rcases hl with rfl | rfl | rfl <;> revert hm <;> simp [Store.partner, exMergeStore] <;>
        rintro rfl <;> decide)
    (by decide) (by decide) (by decide) .none
  exact ⟨st', ta', tb', na, nb, h1, h5, by rw [h6]; decide, by rw [h7]; decide⟩

/-- With no bond between the tensors nothing happens; with exactly one, at most the two leg names change. -/
theorem C18_mergeLink_few [Zero R] {st : Store} (inv : BondInv st) {ta tb : Tensor R}
    (own : ∀ l ∈ ta.legs, ∀ m, st.partner l = some m → ((st.leg m).tensor = some tb.id ↔ m ∈ tb.legs))
    (name : BondName) :
    (sharedPairs st ta.legs tb.legs = [] → mergeLink st ta tb name = (st, ta, tb, .ok ())) ∧
    (∀ l m, sharedPairs st ta.legs tb.legs = [(l, m)] → ∃ st', mergeLink st ta tb name = (st', ta, tb, .ok ()) ∧
      (∀ x, x ≠ l → x ≠ m → st'.leg x = st.leg x) ∧ st'.bond = st.bond ∧
      (∀ x, st'.dim x = st.dim x ∧ (st'.leg x).bond = (st.leg x).bond ∧
        (st'.leg x).tensor = (st.leg x).tensor) ∧
      (∀ s, name = .one s → st'.name l = s ∧ st'.name m = s) ∧ (name = .none → st' = st)) := by
  have hml := mergeLegs_eq inv tb.id ta.legs tb.legs own
  constructor
  · intro h
    unfold mergeLink
    rw [hml, h]
  · intro l m h
    unfold mergeLink
    rw [hml, h]
    cases name with
    | none => exact ⟨st, rfl, fun _ _ _ => rfl, rfl, fun _ => ⟨rfl, rfl, rfl⟩, by simp, fun _ => rfl⟩
    | two a b => exact ⟨st, rfl, fun _ _ _ => rfl, rfl, fun _ => ⟨rfl, rfl, rfl⟩, by simp, by simp⟩
    | one s =>
      refine ⟨_, rfl, ?_, rfl, ?_, ?_, by simp⟩
      · intro x h1 h2
        simp [Store.rename, Store.setLeg, h1, h2]
      · intro x
        have h1 := rename_leg (st.rename l s) m s x
        have h2 := rename_leg st l s x
        exact ⟨h1.1.trans h2.1, h1.2.1.trans h2.2.1, h1.2.2.trans h2.2.2⟩
      · intro s' hs
        simp only [BondName.one.injEq] at hs
        subst hs
        by_cases e : l = m <;> simp [Store.name, Store.rename, Store.setLeg, e]

example : mergeLink exStore exA exB (.one "k") = (((exStore.rename 1 "k").rename 2 "k"), exA, exB, .ok ()) := by
  rfl

end CTL
