import Verif.Lemmas.OwnerSplit
import Verif.Props.CreateMPS

/-! Replacing a part of a network by another one with the same value, by an operation on the store. -/

namespace CTL
variable {R : Type}

/-- A network whose tensors are dense, own their legs, and whose bonds all lead to other tensors of the network. -/
structure Sound (st : Store) (L : List (Tensor R)) : Prop where
  wf : WFStore st
  good : ∀ t ∈ L, GoodTensor st t
  dense : ∀ t ∈ L, t.diag = false
  owned : Owned st L
  inside : ∀ t ∈ L, ∀ l ∈ t.legs, ∀ m, st.partner l = some m → m ∉ t.legs ∧ ∃ u ∈ L, m ∈ u.legs

/-- The tensors `L` have been replaced by `L'`, which have the same value. -/
structure Step [CommSemiring R] (st : Store) (L : List (Tensor R)) (st' : Store) (L' : List (Tensor R)) : Prop where
  wf : WFStore st'
  dense : ∀ t ∈ L', t.diag = false
  trail : Trail st L st' L'
  same : SameValue st L st' L'
  kept : LegsKept st st'

namespace Sound

theorem goodNet {st : Store} {L : List (Tensor R)} (h : Sound st L) : GoodNet st L :=
  ⟨h.wf.inv, h.good, flat_of_owner (fun t ht => (h.good t ht).nodup) h.owned.ids fun t ht l hl => (h.owned.legs t ht l hl).2⟩

theorem perm {st : Store} {L M : List (Tensor R)} (h : Sound st L) (p : L.Perm M) : Sound st M :=
  ⟨h.wf, fun t ht => h.good t (p.mem_iff.mpr ht), fun t ht => h.dense t (p.mem_iff.mpr ht), h.owned.perm p,
    fun t ht l hl m hm => by
      obtain ⟨h1, u, hu, h2⟩ := h.inside t (p.mem_iff.mpr ht) l hl m hm
      exact ⟨h1, u, p.mem_iff.mp hu, h2⟩⟩

end Sound

namespace Step
variable [CommSemiring R] {a b c : Store} {L M K N : List (Tensor R)}

theorem refl (wf : WFStore a) (dense : ∀ t ∈ L, t.diag = false) (g : GoodNet a L) : Step a L a L :=
  ⟨wf, dense, .refl _ _, .refl g, .refl _⟩

theorem trans (h : Step a L b M) (h' : Step b M c K) : Step a L c K :=
  ⟨h'.wf, h'.dense, h.trail.trans h'.trail, h.same.trans h'.same, h.kept.trans h.trail.nextLeg h'.kept⟩

theorem perm (h : Step a L b M) {L' M' : List (Tensor R)} (p : L.Perm L') (q : M.Perm M') : Step a L' b M' :=
  ⟨h.wf, fun t ht => h.dense t (q.mem_iff.mpr ht), h.trail.perm p q,
    ((SameValue.of_perm h.same.good p).symm.trans h.same).trans (.of_perm h.same.good' q), h.kept⟩

theorem sound (h : Step a L b M) (s : Sound a L) : Sound b M := by
  have o := h.trail.own s.owned
  refine ⟨h.wf, h.same.good'.good, h.dense, o, ?_⟩
  intro t ht l hl m hm
  by_contra c
  have f : FreeLeg b M l := by
    refine ⟨⟨t, ht, hl⟩, fun m' hm' hc => c ?_⟩
    obtain rfl := Option.some.inj (hm.symm.trans hm')
    exact (cross_iff h.same.good'.nodup ht hl).mp hc
  obtain ⟨⟨u, hu, hlu⟩, h2⟩ := (h.same.free l).mp f
  have hold := (s.owned.legs u hu l hlu).1
  rw [(h.kept l hold).2.2] at hm
  exact h2 m hm ((cross_iff s.goodNet.nodup hu hlu).mpr (s.inside u hu l hlu m hm))

theorem frame (h : Step a L b M) (s : Sound a (N ++ L)) : Step a (N ++ L) b (N ++ M) := by
  have tr := h.trail.frame N
  have o := tr.own s.owned
  have oldN : ∀ t ∈ N, ∀ l ∈ t.legs, l < a.nextLeg := fun t ht l hl => (s.owned.legs t (List.mem_append_left _ ht) l hl).1
  have good : ∀ t ∈ N ++ M, GoodTensor b t := by
    intro t ht
    rcases List.mem_append.mp ht with ht | ht
    · exact (s.good t (List.mem_append_left _ ht)).congr_dim fun l hl => (h.kept l (oldN t ht l hl)).1
    · exact h.same.good'.good t ht
  have gM : GoodNet b (N ++ M) :=
    ⟨h.wf.inv, good, flat_of_owner (fun t ht => (good t ht).nodup) o.ids fun t ht l hl => (o.legs t ht l hl).2⟩
  refine ⟨h.wf, ?_, tr, h.same.frame s.goodNet gM (fun t ht l hl => (h.kept l (oldN t ht l hl)).1)
    (fun t ht l hl => (h.kept l (oldN t ht l hl)).2.2), h.kept⟩
  intro t ht
  rcases List.mem_append.mp ht with ht | ht
  · exact s.dense t (List.mem_append_left _ ht)
  · exact h.dense t ht

/-- A step on a part of the network `L`. -/
theorem within (h : Step a M b K) (s : Sound a L) (p : L.Perm (N ++ M)) : Step a L b (N ++ K) ∧ Sound b (N ++ K) := by
  have h' := (h.frame (s.perm p)).perm p.symm (List.Perm.refl _)
  exact ⟨h', h'.sound s⟩

end Step

theorem SameNet.legsKept {st st' : Store} (h : SameNet st st') (w : BondInv st) : LegsKept st st' :=
  fun l _ => ⟨by rw [h.dim], h.bondOf l, h.partner w l⟩

/-- The contraction of two tensors is a step. -/
theorem contract_step [CommSemiring R] (cast : R → R) {st : Store} (wf : WFStore st) {ta tb : Tensor R} (ga : GoodTensor st ta)
    (gb : GoodTensor st tb) (da : ta.diag = false) (db : tb.diag = false) (disj : ∀ x ∈ ta.legs, x ∉ tb.legs) :
    ∃ o, contractTwoTensors cast st ta tb none = .ok o ∧ Step st [ta, tb] o.store [o.result] ∧ SameNet st o.store ∧
      o.result.legs = restA ta.legs (sharedPairs st ta.legs tb.legs) ++ restB tb.legs (sharedPairs st ta.legs tb.legs) := by
  obtain ⟨o, h1, h2, h3, h4⟩ := contract_dense cast wf.inv ga gb da db disj
  have g : GoodNet st [ta, tb] := by
    refine ⟨wf.inv, by simp [ga, gb], ?_⟩
    simp only [List.flatMap_cons, List.flatMap_nil, List.append_nil]
    exact List.nodup_append.mpr ⟨ga.nodup, gb.nodup, fun x hx y hy e => disj x hx (e ▸ hy)⟩
  exact ⟨o, h1, ⟨h4.same.wf wf, by simp [h3], contract_trail h1, .step g h4, h4.same.legsKept wf.inv⟩, h4.same, h2⟩

end CTL
