import Verif.Lemmas.ContractExp
import Verif.Lemmas.Copy
import Verif.Props.Contract
import Verif.Spec.Decompose

/-! Two copies, joined leg by leg and contracted. -/

namespace CTL
variable {R : Type}

/-- All pairs are joined. -/
def bondAll (st : Store) (ps : List (LegId × LegId)) : Store := ps.foldl (fun s p => bonded s p.1 p.2) st

theorem bondAll_dim : ∀ (ps : List (LegId × LegId)) (st : Store) (x : LegId), (bondAll st ps).dim x = st.dim x
  | [], _, _ => rfl
  | p :: ps, st, x => (bondAll_dim ps (bonded st p.1 p.2) x).trans (bonded_dim ..)

theorem bondAll_name : ∀ (ps : List (LegId × LegId)) (st : Store) (x : LegId), (bondAll st ps).name x = st.name x
  | [], _, _ => rfl
  | p :: ps, st, x => (bondAll_name ps (bonded st p.1 p.2) x).trans (bonded_name ..)

theorem bondAll_nextLeg : ∀ (ps : List (LegId × LegId)) (st : Store), (bondAll st ps).nextLeg = st.nextLeg
  | [], _ => rfl
  | p :: ps, st => bondAll_nextLeg ps (bonded st p.1 p.2)

theorem bondAll_nextBond : ∀ (ps : List (LegId × LegId)) (st : Store), (bondAll st ps).nextBond = st.nextBond + ps.length
  | [], _ => rfl
  | p :: ps, st => by
    have := bondAll_nextBond ps (bonded st p.1 p.2)
    have e : (bonded st p.1 p.2).nextBond = st.nextBond + 1 := rfl
    rw [e] at this
    show (bondAll (bonded st p.1 p.2) ps).nextBond = _
    rw [this, List.length_cons]
    omega

theorem bondAll_bond_old : ∀ (ps : List (LegId × LegId)) (st : Store) {b : BondId}, b < st.nextBond →
    (bondAll st ps).bond b = st.bond b
  | [], _, _, _ => rfl
  | p :: ps, st, b, h => by
    have e : (bonded st p.1 p.2).nextBond = st.nextBond + 1 := rfl
    refine (bondAll_bond_old ps (bonded st p.1 p.2) (by rw [e]; exact Nat.lt_succ_of_lt h)).trans ?_
    have hb : b ≠ st.nextBond := Nat.ne_of_lt h
    simp [bonded, hb]

theorem bondAll_pairs : ∀ (ps : List (LegId × LegId)) (st : Store),
    bondPairs (bondAll st ps) (List.range' st.nextBond ps.length) = ps
  | [], _ => rfl
  | p :: ps, st => by
    have ih := bondAll_pairs ps (bonded st p.1 p.2)
    have e : (bonded st p.1 p.2).nextBond = st.nextBond + 1 := rfl
    rw [e] at ih
    rw [List.length_cons, List.range'_succ]
    unfold bondPairs at ih ⊢
    rw [List.map_cons]
    show (bondAll (bonded st p.1 p.2) ps).bond st.nextBond :: List.map (bondAll (bonded st p.1 p.2) ps).bond _ = _
    rw [ih, bondAll_bond_old ps (bonded st p.1 p.2) (by rw [e]; exact Nat.lt_succ_self _)]
    simp [bonded]

theorem linkLoop_bondAll : ∀ (ps : List (LegId × LegId)) (st : Store), (∀ p ∈ ps, st.dim p.1 = st.dim p.2) →
    linkLoop st (ps.map fun p => (some p.1, some p.2)) = (bondAll st ps, .ok (List.range' st.nextBond ps.length))
  | [], _, _ => rfl
  | p :: ps, st, h => by
    have hd := h p (List.mem_cons_self ..)
    have ih := linkLoop_bondAll ps (bonded st p.1 p.2) fun q hq => by
      rw [bonded_dim, bonded_dim]
      exact h q (List.mem_cons_of_mem _ hq)
    rw [List.map_cons, linkLoop, if_pos hd, newBond_eq st p.1 p.2 hd]
    simp only [ih, List.length_cons, List.range'_succ]
    rfl

theorem linkFold_bondAll : ∀ (ps : List (LegId × LegId)) (st : Store), (∀ p ∈ ps, st.dim p.1 = st.dim p.2) →
    ps.foldlM (fun s p => linkOr (makeLinkLegs s [p.1] [p.2])) st = .ok (bondAll st ps)
  | [], _, _ => rfl
  | p :: ps, st, h => by
    have hd := h p (List.mem_cons_self ..)
    rw [List.foldlM_cons, linkOr_two st p.1 p.2 hd]
    exact linkFold_bondAll ps (bonded st p.1 p.2) fun q hq => by
      rw [bonded_dim, bonded_dim]
      exact h q (List.mem_cons_of_mem _ hq)

/-- A tensor with free legs in a store. -/
structure FreshTensor [Zero R] (st : Store) (t c : Tensor R) (st' : Store) : Prop where
  good : GoodTensor st' c
  labels : c.legs.map st'.name = t.legs.map st.name
  dims : c.legs.map st'.dim = t.legs.map st.dim
  data : c.a = t.a
  dense : c.diag = false
  free : ∀ l ∈ c.legs, (st'.leg l).bond = none
  new : ∀ l ∈ c.legs, st.nextLeg ≤ l ∧ l < st'.nextLeg

theorem copyable_of_good [Zero R] {st : Store} {t : Tensor R} (g : GoodTensor st t) (dg : t.diag = false) : Copyable st t := by
  obtain ⟨arr, e, _, e2, _⟩ := g.data
  refine ⟨g.nodup, fun h => absurd (g.notLike ▸ h) (by simp), fun _ => ⟨arr, e, e2, fun h => absurd (dg ▸ h) (by simp)⟩,
    fun h => absurd (dg ▸ h) (by simp)⟩

theorem copy_fresh [Zero R] [One R] (rand : List Nat → List Nat → R) {st : Store} {t : Tensor R} (g : GoodTensor st t)
    (dg : t.diag = false) :
    ∃ st' c, t.copy rand st = .ok (st', c) ∧ FreshTensor st t c st' ∧ OneCopy st st' false t c := by
  obtain ⟨st', c, e, K⟩ := copyOne_ok rand (copyable_of_good g dg) false
  rw [if_neg (by simp)] at e
  refine ⟨st', c, e, ⟨⟨K.nodup, K.copy.like.trans (by simp [g.notLike]), ?_⟩, K.copy.labels, K.copy.dims, K.copy.data,
    K.copy.diag.trans dg, K.free, fun l hl => ⟨(K.copy.newLegs l hl).1, (K.copy.newLegs l hl).2.1⟩⟩, K⟩
  obtain ⟨arr, ea, wa, sa, _⟩ := g.data
  refine ⟨arr, K.copy.data.trans ea, wa, fun _ => ?_, fun h => ?_⟩
  · rw [sa dg, K.copy.dims]
  · rw [K.copy.diag, dg] at h
    cases h

/-- Two copies one after the other. -/
theorem copy_two [Zero R] [One R] (rand : List Nat → List Nat → R) {st : Store} (w : WFStore st) {a b : Tensor R}
    (ga : GoodTensor st a) (gb : GoodTensor st b) (da : a.diag = false) (db : b.diag = false)
    (kb : ∀ l ∈ b.legs, l < st.nextLeg) :
    ∃ st1 ca st2 cb, a.copy rand st = .ok (st1, ca) ∧ b.copy rand st1 = .ok (st2, cb) ∧ WFStore st2 ∧
      FreshTensor st a ca st2 ∧ FreshTensor st b cb st2 ∧ (∀ x ∈ ca.legs, x ∉ cb.legs) ∧ Untouched st st2 ∧
      st.nextLeg ≤ st2.nextLeg := by
  obtain ⟨st1, ca, e1, F1, K1⟩ := copy_fresh rand ga da
  have gb1 : GoodTensor st1 b := by
    obtain ⟨arr, ea, wa, sa, sd⟩ := gb.data
    refine ⟨gb.nodup, gb.notLike, arr, ea, wa, fun h => ?_, fun h => by rw [db] at h; cases h⟩
    rw [sa h]
    refine List.map_congr_left fun l hl => ?_
    exact (K1.grows.dim l (kb l hl)).symm
  obtain ⟨st2, cb, e2, F2, K2⟩ := copy_fresh rand gb1 db
  have old : ∀ l ∈ ca.legs, st2.leg l = st1.leg l := fun l hl => K2.old.leg l (F1.new l hl).2
  refine ⟨st1, ca, st2, cb, e1, e2, K2.grows.wf (K1.grows.wf w), ?_, ?_, ?_, ?_, K1.grows.le.trans K2.grows.le⟩
  · have hd : ca.legs.map st2.dim = ca.legs.map st1.dim := List.map_congr_left fun l hl => by
      unfold Store.dim; rw [old l hl]
    refine ⟨⟨F1.good.nodup, F1.good.notLike, ?_⟩, ?_, hd.trans F1.dims, F1.data, F1.dense, ?_, ?_⟩
    · obtain ⟨arr, ea, wa, sa, _⟩ := F1.good.data
      exact ⟨arr, ea, wa, fun h => by rw [sa h, hd], fun h => by rw [F1.dense] at h; cases h⟩
    · rw [← F1.labels]
      exact List.map_congr_left fun l hl => by unfold Store.name; rw [old l hl]
    · intro l hl
      rw [old l hl]
      exact F1.free l hl
    · exact fun l hl => ⟨(F1.new l hl).1, (F1.new l hl).2.trans_le K2.grows.le⟩
  · refine ⟨F2.good, ?_, ?_, F2.data, F2.dense, F2.free, fun l hl => ⟨K1.grows.le.trans (F2.new l hl).1, (F2.new l hl).2⟩⟩
    · rw [F2.labels]
      exact List.map_congr_left fun l hl => by unfold Store.name; rw [K1.old.leg l (kb l hl)]
    · rw [F2.dims]
      exact List.map_congr_left fun l hl => by unfold Store.dim; rw [K1.old.leg l (kb l hl)]
  · intro x hx hx'
    exact absurd (F1.new x hx).2 (Nat.not_lt.mpr (F2.new x hx').1)
  · refine ⟨fun l hl => ?_, fun b hb => ?_⟩
    · rw [K2.old.leg l (hl.trans_le K1.grows.le), K1.old.leg l hl]
    · rw [K2.old.bond b (by rw [K1.nextBond]; exact hb), K1.old.bond b hb]

/-- Two tensors with free legs, joined pair by pair so that no leg is left. -/
theorem bondAll_contract [NonUnitalNonAssocSemiring R] (cast : R → R) {st : Store} (w : WFStore st) {a b : Tensor R}
    (ga : GoodTensor st a) (gb : GoodTensor st b) (da : a.diag = false) (db : b.diag = false)
    (fa : ∀ l ∈ a.legs, (st.leg l).bond = none ∧ l < st.nextLeg) (fb : ∀ l ∈ b.legs, (st.leg l).bond = none ∧ l < st.nextLeg)
    (disj : ∀ x ∈ a.legs, x ∉ b.legs) (ps : List (LegId × LegId)) (pa : (ps.map Prod.fst).Perm a.legs)
    (pb : (ps.map Prod.snd).Perm b.legs) (hd : ∀ p ∈ ps, st.dim p.1 = st.dim p.2) :
    WFStore (bondAll st ps) ∧ GoodTensor (bondAll st ps) a ∧ GoodTensor (bondAll st ps) b ∧
    PairsOK (bondAll st ps) a.legs b.legs ps ∧ (∀ p ∈ ps, (bondAll st ps).partner p.1 = some p.2) ∧
    ∀ l, l ∉ a.legs → l ∉ b.legs → (bondAll st ps).partner l = st.partner l ∧ (bondAll st ps).leg l = st.leg l := by
  have na := ga.nodup
  have nb := gb.nodup
  have nda : (ps.map Prod.fst).Nodup := pa.nodup_iff.mpr na
  have ndb : (ps.map Prod.snd).Nodup := pb.nodup_iff.mpr nb
  have m1 : ∀ p ∈ ps, p.1 ∈ a.legs := fun p hp => pa.mem_iff.mp (List.mem_map_of_mem hp)
  have m2 : ∀ p ∈ ps, p.2 ∈ b.legs := fun p hp => pb.mem_iff.mp (List.mem_map_of_mem hp)
  have free : FreePairs st (ps.map fun p => (some p.1, some p.2)) := by
    refine ⟨?_, ?_⟩
    · intro q hq l hl
      obtain ⟨p, hp, rfl⟩ := List.mem_map.mp hq
      rcases hl with hl | hl
      · cases hl; exact fa _ (m1 p hp)
      · cases hl; exact fb _ (m2 p hp)
    · rw [List.pairwise_map]
      have h1 := List.pairwise_map.mp nda
      have h2 := List.pairwise_map.mp ndb
      refine (h1.and h2).imp_of_mem ?_
      rintro p q hp hq ⟨e1, e2⟩ l hl hl'
      rcases hl with hl | hl <;> rcases hl' with hl' | hl' <;> cases hl
      · exact e1 (Option.some.inj hl').symm
      · exact disj _ (m1 p hp) (Option.some.inj hl' ▸ m2 q hq)
      · exact disj _ (m1 q hq) ((Option.some.inj hl').symm ▸ m2 p hp)
      · exact e2 (Option.some.inj hl').symm
  obtain ⟨st', bs, e1, _, w', hp, ho, _⟩ := linkLoop_ok ps st w free hd
  rw [linkLoop_bondAll ps st hd] at e1
  cases e1
  have gd : ∀ {t : Tensor R}, GoodTensor st t → GoodTensor (bondAll st ps) t := by
    intro t g
    obtain ⟨arr, ea, wa, sa, sd⟩ := g.data
    refine ⟨g.nodup, g.notLike, arr, ea, wa, fun h => ?_, fun h => ?_⟩
    · rw [sa h]
      exact List.map_congr_left fun l _ => (bondAll_dim ps st l).symm
    · rcases sd h with h | ⟨h1, h2, h3⟩
      · exact Or.inl h
      · exact Or.inr ⟨h1, h2, fun l hl => (bondAll_dim ps st l).trans (h3 l hl)⟩
  refine ⟨w', gd ga, gd gb, ⟨?_, fun x hx => pa.mem_iff.mp hx, fun x hx => pb.mem_iff.mp hx, fun p hp => ?_, na, nb, disj⟩,
    fun p h => (hp p h).1, fun l h1 h2 => ho l fun p hp => ⟨fun e => h1 (e ▸ m1 p hp), fun e => h2 (e ▸ m2 p hp)⟩⟩
  · rw [List.nodup_append']
    exact ⟨nda, ndb, fun x hx hx' => disj x (pa.mem_iff.mp hx) (pb.mem_iff.mp hx')⟩
  · rw [bondAll_dim, bondAll_dim]
    exact (hd p hp).symm

theorem contract_frame_bonds [NonUnitalNonAssocSemiring R] (cast : R → R) {st : Store} {ta tb : Tensor R} {o : ContractOut R}
    {bs : List BondId} (da : ta.diag = false) (db : tb.diag = false) (h : contractTwoTensors cast st ta tb (some bs) = .ok o) :
    ∀ l, l ∉ ta.legs → l ∉ tb.legs → o.store.leg l = st.leg l := by
  unfold contractTwoTensors at h
  simp only [da, db, Bool.and_false, Bool.false_eq_true, if_false] at h
  unfold contractOrdered at h
  simp only at h
  obtain ⟨r, h1, h⟩ := except_bind_ok.mp h
  cases h1
  split at h
  · obtain ⟨_, e, _⟩ := except_bind_ok.mp h
    cases e
  split at h
  · obtain ⟨r2, h2, h⟩ := except_bind_ok.mp h
    rw [except_pure_ok] at h
    subst h
    obtain ⟨k1, k2, k3⟩ := outerContract_frame cast da h2
    exact fun l ha hb => k3 l ha hb
  · obtain ⟨r2, h2, h⟩ := except_bind_ok.mp h
    rw [except_pure_ok] at h
    subst h
    obtain ⟨k1, k2, k4, k3⟩ := bondContract_frame da h2
    exact fun l ha hb => k3 l ha hb

theorem rest_nil {la lb : List LegId} {ps : List (LegId × LegId)} (pa : (ps.map Prod.fst).Perm la) (pb : (ps.map Prod.snd).Perm lb) :
    restA la ps ++ restB lb ps = [] := by
  have h1 : restA la ps = [] := List.filter_eq_nil_iff.mpr fun l hl => by simpa using pa.mem_iff.mpr hl
  have h2 : restB lb ps = [] := List.filter_eq_nil_iff.mpr fun l hl => by simpa using pb.mem_iff.mpr hl
  rw [h1, h2]
  rfl

/-- The pairs are the shared pairs if they are listed in the order of the first tensor. -/
theorem shared_zip {st : Store} : ∀ {la lb : List LegId} (ps : List (LegId × LegId)), ps.map Prod.fst = la → (∀ p ∈ ps, p.2 ∈ lb) →
    (∀ p ∈ ps, st.partner p.1 = some p.2) → sharedPairs st la lb = ps
  | _, lb, [], rfl, _, _ => rfl
  | _, lb, p :: ps, rfl, h2, h3 => by
    have ih := shared_zip (lb := lb) ps rfl (fun q hq => h2 q (List.mem_cons_of_mem _ hq)) fun q hq => h3 q (List.mem_cons_of_mem _ hq)
    unfold sharedPairs at ih ⊢
    rw [List.map_cons, List.filterMap_cons, h3 p (List.mem_cons_self ..)]
    simp only [h2 p (List.mem_cons_self ..), if_true, ih]

/-- The sum over all index tuples of a shape. -/
def sumTuples [AddMonoid R] : List Nat → (List Nat → R) → R
  | [], f => f []
  | d :: ds, f => ((List.range d).map fun k => sumTuples ds fun ks => f (k :: ks)).sum

theorem map_set_not_mem {ls : List LegId} {l : LegId} (h : l ∉ ls) (σ : Assign) (k : Nat) : ls.map (σ.set l k) = ls.map σ :=
  List.map_congr_left fun m hm => by
    unfold Assign.set
    rw [if_neg fun e : m = l => h (e ▸ hm)]

theorem sumLegs_tuples [AddMonoid R] (dim : LegId → Nat) (F : List Nat → R) : ∀ (ls pre : List LegId) (σ : Assign),
    (pre ++ ls).Nodup → sumLegs dim ls (fun τ => F ((pre ++ ls).map τ)) σ = sumTuples (ls.map dim) fun ks => F (pre.map σ ++ ks)
  | [], pre, σ, _ => by simp [sumLegs, sumTuples]
  | l :: ls, pre, σ, nd => by
    rw [sumLegs, List.map_cons, sumTuples]
    congr 1
    refine List.map_congr_left fun k _ => ?_
    have nd' : ((pre ++ [l]) ++ ls).Nodup := by simpa using nd
    have := sumLegs_tuples dim F ls (pre ++ [l]) (σ.set l k) nd'
    rw [List.append_assoc, List.singleton_append] at this
    rw [this]
    congr 1
    funext ks
    have hl : l ∉ pre := fun h => (List.nodup_append'.mp nd).2.2 h (List.mem_cons_self ..)
    rw [List.map_append, map_set_not_mem hl]
    simp [Assign.set]

theorem sumBonds_tuples [AddMonoid R] (dim : LegId → Nat) (F : List Nat → List Nat → R) : ∀ (ps qs : List (LegId × LegId)) (σ : Assign),
    ((qs ++ ps).map Prod.fst ++ (qs ++ ps).map Prod.snd).Nodup →
    sumBonds dim ps (fun τ => F ((qs ++ ps).map fun p => τ p.1) ((qs ++ ps).map fun p => τ p.2)) σ =
      sumTuples (ps.map fun p => dim p.1) fun ks => F ((qs.map fun p => σ p.1) ++ ks) ((qs.map fun p => σ p.2) ++ ks)
  | [], qs, σ, _ => by simp [sumBonds, sumTuples]
  | (l, m) :: ps, qs, σ, nd => by
    rw [sumBonds, List.map_cons, sumTuples]
    congr 1
    refine List.map_congr_left fun k _ => ?_
    have nd' : (((qs ++ [(l, m)]) ++ ps).map Prod.fst ++ ((qs ++ [(l, m)]) ++ ps).map Prod.snd).Nodup := by
      rw [List.append_assoc]
      exact nd
    have ih := sumBonds_tuples dim F ps (qs ++ [(l, m)]) ((Assign.set σ l k).set m k) nd'
    rw [List.append_assoc, List.singleton_append] at ih
    rw [ih]
    congr 1
    funext ks
    simp only [List.map_append, List.map_cons, List.nodup_append', List.disjoint_left, List.nodup_cons, List.mem_append,
      List.mem_cons, List.mem_map, Prod.exists, exists_and_right, exists_eq_right] at nd
    obtain ⟨⟨n1, n2, n3⟩, ⟨m1, m2, m3⟩, n4⟩ := nd
    have d1 : ∀ p ∈ qs, p.1 ≠ l ∧ p.1 ≠ m ∧ p.2 ≠ l ∧ p.2 ≠ m := by
      rintro ⟨x, y⟩ hp
      refine ⟨fun e => ?_, fun e => ?_, fun e => ?_, fun e => ?_⟩
      · exact n3 ⟨y, hp⟩ (Or.inl e)
      · exact n4 (Or.inl ⟨y, hp⟩) (Or.inr (Or.inl e))
      · exact n4 (Or.inr (Or.inl rfl)) (Or.inl ⟨x, e ▸ hp⟩)
      · exact m3 ⟨x, hp⟩ (Or.inl e)
    have e1 : (qs.map fun p => ((Assign.set σ l k).set m k) p.1) = qs.map fun p => σ p.1 := List.map_congr_left fun p hp => by
      obtain ⟨h1, h2, _, _⟩ := d1 p hp
      simp [Assign.set, h1, h2]
    have e2 : (qs.map fun p => ((Assign.set σ l k).set m k) p.2) = qs.map fun p => σ p.2 := List.map_congr_left fun p hp => by
      obtain ⟨_, _, h1, h2⟩ := d1 p hp
      simp [Assign.set, h1, h2]
    have hlm : l ≠ m := fun e => n4 (Or.inr (Or.inl rfl)) (Or.inr (Or.inl e))
    rw [List.map_append, List.map_append, e1, e2]
    simp [Assign.set]

/-- The legs of a tensor in the order of its labels. -/
theorem legs_of_labels {st : Store} {t : Tensor R} {labels : List String} (nd : labels.Nodup) (ndl : t.legs.Nodup)
    (h : (t.legs.map st.name).Perm labels) :
    ∃ ls : List LegId, ls.map st.name = labels ∧ ls.Perm t.legs ∧ ∀ l ∈ ls, t.getLeg st (st.name l) = some l := by
  have get : ∀ x ∈ labels, ∃ l ∈ t.legs, st.name l = x ∧ t.getLeg st x = some l := fun x hx => getLeg_mem (h.symm.subset hx)
  have hname : (labels.map fun x => (t.getLeg st x).getD 0).map st.name = labels := by
    rw [List.map_map]
    conv_rhs => rw [← List.map_id labels]
    refine List.map_congr_left fun x hx => ?_
    obtain ⟨l, _, e1, e2⟩ := get x hx
    simp [e2, e1]
  have hget : ∀ l ∈ labels.map fun x => (t.getLeg st x).getD 0, l ∈ t.legs ∧ t.getLeg st (st.name l) = some l := by
    intro l hl
    obtain ⟨x, hx, rfl⟩ := List.mem_map.mp hl
    obtain ⟨l, h1, e1, e2⟩ := get x hx
    simp [e2, e1, h1]
  refine ⟨_, hname, ?_, fun l hl => (hget l hl).2⟩
  refine (List.perm_ext_iff_of_nodup (List.Nodup.of_map st.name (by rw [hname]; exact nd)) ndl).mpr fun l => ⟨fun hl => (hget l hl).1, fun hl => ?_⟩
  have hx : st.name l ∈ labels := h.subset (List.mem_map_of_mem hl)
  obtain ⟨m, h1, e1, e2⟩ := get _ hx
  have : m = l := List.inj_on_of_nodup_map (h.nodup_iff.mpr nd) h1 hl e1
  subst this
  exact List.mem_map.mpr ⟨_, hx, by rw [e2]; rfl⟩

theorem getLeg_names {st st' : Store} (t : Tensor R) (h : ∀ l, st'.name l = st.name l) (x : String) :
    t.getLeg st' x = t.getLeg st x := by
  have e : t.legs.map st'.name = t.legs.map st.name := List.map_congr_left fun l _ => h l
  unfold Tensor.getLeg Tensor.indexOfLabel Tensor.labels
  rw [e]

/-- The loop of `triangleTensorTrace` over labels. -/
theorem labelFold (ta tb : Tensor R) (f g : String → LegId) : ∀ (labels : List String) (st : Store) (bs : List BondId),
    (∀ x ∈ labels, ta.getLeg st x = some (f x) ∧ tb.getLeg st x = some (g x) ∧ st.dim (f x) = st.dim (g x)) →
    labels.foldlM (linkLabel ta tb) (st, bs) =
    .ok (bondAll st (labels.map fun x => (f x, g x)), bs ++ List.range' st.nextBond labels.length)
  | [], st, bs, _ => by simp [bondAll, pure, Except.pure]
  | x :: labels, st, bs, h => by
    obtain ⟨h1, h2, h3⟩ := h x (List.mem_cons_self ..)
    have e : makeLink st [.label x] [.label x] (some ta) (some tb) = (bonded st (f x) (g x), .ok [st.nextBond]) := by
      rw [C10_makeLink_labels st ta tb [.label x] [.label x] [f x] [g x] (by simp [resolveRef, h1]) (by simp [resolveRef, h2])]
      exact linkOr_two st (f x) (g x) h3
    have ih := labelFold ta tb f g labels (bonded st (f x) (g x)) (bs ++ [st.nextBond]) fun y hy => by
      obtain ⟨k1, k2, k3⟩ := h y (List.mem_cons_of_mem _ hy)
      rw [getLeg_names ta (bonded_name st (f x) (g x)), getLeg_names tb (bonded_name st (f x) (g x)), bonded_dim, bonded_dim]
      exact ⟨k1, k2, k3⟩
    rw [List.foldlM_cons]
    unfold linkLabel at ih ⊢
    rw [e]
    refine ih.trans ?_
    rw [List.map_cons, List.length_cons, List.range'_succ, List.append_assoc, List.singleton_append]
    rfl

/-- What is kept after copies, links between the copies and a contraction. -/
theorem inputs_kept {st st2 st4 : Store} (w : WFStore st) {ca cb : Tensor R} {ps : List (LegId × LegId)} (old : Untouched st st2)
    (na : ∀ l ∈ ca.legs, st.nextLeg ≤ l) (nb : ∀ l ∈ cb.legs, st.nextLeg ≤ l)
    (hb : ∀ l, l ∉ ca.legs → l ∉ cb.legs → (bondAll st2 ps).partner l = st2.partner l ∧ (bondAll st2 ps).leg l = st2.leg l)
    (hc : ∀ l, l ∉ ca.legs → l ∉ cb.legs → st4.leg l = (bondAll st2 ps).leg l)
    (hp : ∀ l, st4.partner l = (bondAll st2 ps).partner l) : InputsKept st st4 := by
  have fresh : ∀ l < st.nextLeg, l ∉ ca.legs ∧ l ∉ cb.legs := fun l hl =>
    ⟨fun h => absurd (na l h) (Nat.not_le.mpr hl), fun h => absurd (nb l h) (Nat.not_le.mpr hl)⟩
  refine ⟨fun l hl => ?_, fun l hl => ?_⟩
  · obtain ⟨h1, h2⟩ := fresh l hl
    rw [hc l h1 h2, (hb l h1 h2).2, old.leg l hl]
  · obtain ⟨h1, h2⟩ := fresh l hl
    rw [hp l, (hb l h1 h2).1, old.partner w hl]

end CTL
