import Verif.Lemmas.FTN
import Verif.Lemmas.MixedRun
import Verif.Lemmas.MixedSearch
import Verif.Props.FTNLock

/-! C23: contracting a finite tensor network. -/

namespace CTL
variable {R : Type}

/-! ### After the contraction -/

theorem Produced.relabel [Zero R] {st0 st st' : Store} {t : Tensor R} {A B : LArr R} (h : Produced st0 st t A)
    (s : SameButNames st st' t.legs) {f : String → String} (hn : ∀ l ∈ t.legs, st'.name l = f (st.name l))
    (hB : A.relabel? f = some B) : Produced st0 st' t B := by
  refine ⟨h.rep.relabel hn (fun l _ => s.dim l) hB, h.good.congr_dim fun l _ => s.dim l, ?_, ?_, ?_, ⟨?_, ?_⟩, s.wf h.wf,
    fun l hl => (s.bondOf l).trans (h.free l hl)⟩
  · intro l hl
    rw [s.2.2.2.1]
    exact h.fresh l hl
  · intro l hl
    rw [s.dim]
    exact h.pos l hl
  · rw [s.2.2.2.1]
    exact h.le
  · intro l hl
    rw [s.2.1 l fun hm => absurd hl (not_lt.mpr (h.fresh l hm).1), h.old.leg l hl]
  · intro l hl
    rw [s.partner, h.old.partner l hl]

theorem dashed_eq (a b : String) : dashed a b = withTag a b := by simp [dashed, withTag]

theorem deal_eq (o : OutLabel) : o.deal = o.meant := by
  cases o with
  | plain s => rfl
  | pair a b => exact dashed_eq a b

theorem outProductLabels_wf [Zero R] {st st' : Store} (w : WFStore st) {t : Tensor R} {xs : List String} {n : String}
    {p : Tensor R × Except PyErr LegId} (h : t.outProductLabels st xs n = (st', p)) : WFStore st' := by
  unfold Tensor.outProductLabels Tensor.outProduct at h
  split at h
  · cases h; exact w
  · split at h
    · cases h; exact w
    · split at h
      · cases h; exact w
      · split at h
        · cases h; exact w.newLeg ..
        · split at h
          · cases h; exact w
          · simp only at h
            split at h
            · cases h; exact w
            · cases h; exact w.newLeg ..

theorem fuseAll_ok [Zero R] {st0 : Store} : ∀ (fs : List (List OutLabel × String)) (st : Store) (t : Tensor R) (A B : LArr R),
    Outcome st0 st t A → fused A fs = some B → ∃ st' t', fuseAll st t fs = .ok (st', t') ∧ Outcome st0 st' t' B
  | [], st, t, A, B, h, hB => by
    cases Option.some.inj hB
    exact ⟨st, t, rfl, h⟩
  | (os, n) :: fs, st, t, A, B, h, hB => by
    unfold fused at hB
    simp only at hB
    split at hB
    · rename_i hc
      obtain ⟨hne, nd, hsub, hnew⟩ := hc
      obtain ⟨st1, t1, r, e, k1, k2, k3, k4, k5, k6, k7, k8⟩ :=
        h.rep.fuse h.good h.dense (fun l hl => (h.fresh l hl).2) h.pos hne nd hsub hnew
      obtain ⟨st', t', e', o⟩ := fuseAll_ok (st0 := st0) fs st1 t1 _ B
        ⟨⟨k1, k2, fun l hl => ⟨by
          rcases k8 l hl with h1 | ⟨h1, -⟩
          · exact (h.fresh l h1).1
          · rw [h1]; exact h.le, k4 l hl⟩, k5, h.le.trans k6, h.old.trans h.le k7, outProductLabels_wf h.wf e, fun l hl => by
          rcases k8 l hl with h1 | ⟨-, h1⟩
          · rw [k7.leg l (h.fresh l h1).2]; exact h.free l h1
          · exact h1⟩, k3⟩ hB
      refine ⟨st', t', ?_, o⟩
      unfold fuseAll
      have : os.map OutLabel.deal = os.map OutLabel.meant := List.map_congr_left fun o _ => deal_eq o
      rw [this, dashed_eq, e]
      exact e'
    · cases hB

theorem postRename_ok [Zero R] {st0 : Store} {t : Tensor R} : ∀ (rs : List (String × String × String)) (st : Store) (A B : LArr R),
    Produced st0 st t A → renamedAfter A rs = some B → Produced st0 (postRename t st rs) t B
  | [], st, A, B, h, hB => by
    cases Option.some.inj hB
    exact h
  | (n, x, y) :: rs, st, A, B, h, hB => by
    unfold renamedAfter at hB
    obtain ⟨C, hC, hB⟩ := Option.bind_eq_some_iff.mp hB
    obtain ⟨s, hs⟩ := h.rep.renameLabel (withTag n x) (withTag n y)
    have := postRename_ok rs _ C B (h.relabel s hs hC) hB
    unfold postRename at this ⊢
    rw [List.foldl_cons, dashed_eq, dashed_eq]
    exact this

theorem untag_ok [Zero R] {st0 st : Store} {t : Tensor R} {A B : LArr R} (h : Produced st0 st t A)
    (hB : A.relabel? withoutTag = some B) : Produced st0 (t.removeTensorTag st) t B := by
  obtain ⟨s, hs⟩ := C19_removeTensorTag t st h.good.nodup
  refine h.relabel s (fun l hl => ?_) hB
  unfold withoutTag
  split
  · rename_i hd
    have key : ∀ cs : List Char, '-' ∈ cs →
        cs = cs.takeWhile (· ≠ '-') ++ '-' :: (cs.dropWhile (· ≠ '-')).drop 1 ∧ '-' ∉ cs.takeWhile (· ≠ '-') := by
      intro cs
      induction cs with
      | nil => simp
      | cons c cs ih =>
        intro hm
        by_cases e : c = '-'
        · subst e; simp
        · have hm' : '-' ∈ cs := by
            rcases List.mem_cons.mp hm with h | h
            · exact absurd h.symm e
            · exact h
          obtain ⟨h1, h2⟩ := ih hm'
          constructor
          · have he : (c != '-') = true := by simpa using e
            simp only [List.takeWhile_cons, List.dropWhile_cons, ne_eq, e, not_false_eq_true, decide_true, if_true,
              List.cons_append]
            exact congrArg _ h1
          · simp only [List.takeWhile_cons, ne_eq, e, not_false_eq_true, decide_true, if_true, List.mem_cons, not_or]
            exact ⟨fun h => e h.symm, h2⟩
    obtain ⟨k1, k2⟩ := key _ hd
    rw [← String.toList_inj, String.toList_ofList]
    exact (hs l hl).2 _ _ k1 k2
  · rename_i hd
    exact (hs l hl).1 hd

/-! ### The contraction itself -/

theorem orderedTensors_ok {d : List (String × Tensor R)} (nd : (d.map Prod.fst).Nodup) : ∀ (names : List String),
    (∀ n ∈ names, n ∈ d.map Prod.fst) →
    ∃ ts, orderedTensors names d = .ok ts ∧ List.Forall₂ (fun n t => (n, t) ∈ d) names ts
  | [], _ => ⟨[], rfl, .nil⟩
  | n :: names, h => by
    obtain ⟨ts, e, hf⟩ := orderedTensors_ok nd names fun m hm => h m (by simp [hm])
    obtain ⟨⟨n', t⟩, hp, e'⟩ := List.mem_map.mp (h n (by simp))
    simp only at e'
    subst e'
    refine ⟨t :: ts, ?_, .cons hp hf⟩
    unfold orderedTensors at e ⊢
    rw [List.mapM_cons, (dictGet_some nd).mpr hp]
    simp only [e, bind, Except.bind, pure, Except.pure]

theorem forall₂_zip {α β : Type} {P : α × β → Prop} : ∀ {l : List α} {r : List β}, List.Forall₂ (fun a b => P (a, b)) l r →
    (l.zip r).map Prod.fst = l ∧ (l.zip r).map Prod.snd = r ∧ ∀ p ∈ l.zip r, P p
  | _, _, .nil => ⟨rfl, rfl, by simp⟩
  | _, _, .cons h hr => by
    obtain ⟨h1, h2, h3⟩ := forall₂_zip hr
    refine ⟨by simp [h1], by simp [h2], ?_⟩
    intro p hp
    rw [List.zip_cons_cons] at hp
    rcases List.mem_cons.mp hp with rfl | hp
    · exact h
    · exact h3 p hp

theorem orderedTensors_perm {d : List (String × Tensor R)} {names : List String} (hn : names.Nodup)
    (hp : names.Perm (d.map Prod.fst)) :
    ∃ ts, orderedTensors names d = .ok ts ∧ ts.Perm (d.map Prod.snd) ∧ ts.length = names.length := by
  have nd : (d.map Prod.fst).Nodup := hp.nodup_iff.mp hn
  obtain ⟨ts, e, hf⟩ := orderedTensors_ok nd names fun n h => hp.subset h
  obtain ⟨h1, h2, h3⟩ := forall₂_zip (P := fun p => p ∈ d) hf
  refine ⟨ts, e, ?_, hf.length_eq.symm⟩
  have hz : (names.zip ts).Perm d := by
    have nz : (names.zip ts).Nodup := by
      apply List.Nodup.of_map Prod.fst
      rw [h1]
      exact hn
    apply (nz.subperm h3).perm_of_length_le
    have l1 : (names.zip ts).length = names.length := by
      have := congrArg List.length h1
      rwa [List.length_map] at this
    have l2 := hp.length_eq
    rw [List.length_map] at l2
    omega
  have := hz.map Prod.snd
  rwa [h2] at this

theorem perm_cross {ts us : List (Tensor R)} (h : ∀ t, t ∈ ts ↔ t ∈ us) (l m : LegId) : Cross ts l m ↔ Cross us l m := by
  simp only [Cross, h]

/-- Contracting the linked copies in any valid order; if some are diagonal, without outer products of diagonals. -/
theorem wired_contract [CommSemiring R] (cast : R → R) {st0 st : Store} {d : List (String × Tensor R)}
    {As : List (String × LArr R)} {A : LArr R} {ps : List (LegId × LegId)} (W : Wired st0 st d As A ps) {ts : List (Tensor R)}
    (hp : ts.Perm (d.map Prod.snd)) {q : List (Nat × Nat)} (hq : ValidSeq ts.length q)
    (mode : (∀ t ∈ ts, t.diag = false) ∨ ((∀ x, cast x = x) ∧ NetConnected st ts ∧ NoOuterDiag st ts q)) :
    ∃ st' t c, contractInPlace cast st ts q = .ok (st', t, c) ∧ Produced st0 st' t A ∧
      (t.diag = true ↔ ∀ u ∈ ts, u.diag = true) := by
  have L := W.locals
  have hmem : ∀ t, t ∈ ts ↔ t ∈ d.map Prod.snd := fun t => hp.mem_iff
  have hof : ∀ t ∈ ts, ∃ p ∈ d, p.2 = t := fun t ht => List.mem_map.mp ((hmem t).mp ht)
  have hin : ∀ p ∈ d, p.2 ∈ ts := fun p hp' => (hmem _).mpr (List.mem_map_of_mem hp')
  have flat : (ts.flatMap fun t => t.legs).Perm (d.flatMap fun p => p.2.legs) := by
    have := hp.flatMap_right fun t => t.legs
    rwa [List.flatMap_map] at this
  have g : GoodNet st ts := by
    refine ⟨L.wf.inv, ?_, flat.nodup_iff.mpr L.nodup⟩
    intro t ht
    obtain ⟨p, hp, rfl⟩ := hof t ht
    exact L.good p hp
  have M : NetConnected st ts → MixedNet st ts := by
    refine fun conn => ⟨g, ?_, ?_, conn⟩
    · intro t ht l hl m hm
      obtain ⟨p, hp, rfl⟩ := hof t ht
      obtain ⟨h1, u, hu, h2⟩ := W.inside p hp l hl m hm
      exact ⟨h1, u.2, hin u hu, h2⟩
    · intro t ht l hl
      obtain ⟨p, hp, rfl⟩ := hof t ht
      exact L.pos p hp l hl
  have hne : ∃ u, u ∈ ts := by
    cases ts with
    | nil => exact absurd hq (by cases q <;> simp [ValidSeq, validFrom])
    | cons u us => exact ⟨u, by simp⟩
  obtain ⟨st', t, c, e, same, gt, hlegs, hval⟩ := C03_any_valid_sequence cast g (by
    rintro l m _ ⟨⟨t, ht, hl, _⟩, _⟩
    obtain ⟨p, hp, rfl⟩ := hof t ht
    exact L.pos p hp l hl) hq (by
      rcases mode with dense | ⟨h1, h2, h3⟩
      · exact Or.inl dense
      · exact Or.inr (mixed_contract h1 (M h2) hq h3).1)
  obtain ⟨td, tframe⟩ : (t.diag = true ↔ ∀ u ∈ ts, u.diag = true) ∧
      ∀ l, (∀ u ∈ ts, l ∉ u.legs) → st'.leg l = st.leg l := by
    rcases mode with dense | ⟨h1, h2, h3⟩
    · obtain ⟨td, tf⟩ := contractInPlace_frame cast dense e
      refine ⟨⟨fun h => ?_, fun h => ?_⟩, tf⟩
      · rw [td] at h
        cases h
      · obtain ⟨u, hu⟩ := hne
        have := h u hu
        rw [dense u hu] at this
        cases this
    · exact (mixed_contract h1 (M h2) hq h3).2 _ _ _ e
  have bl : IsBondList st ts ps := by
    refine ⟨W.bonds.once, fun l m => ?_⟩
    rw [W.bonds.exact, perm_cross hmem]
  have free : ∀ l, FreeLeg st ts l ↔ ∃ p ∈ d, l ∈ p.2.legs ∧ (st.leg l).bond = none := by
    intro l
    constructor
    · rintro ⟨⟨t, ht, hl⟩, hf⟩
      obtain ⟨p, hp', rfl⟩ := hof t ht
      refine ⟨p, hp', hl, ?_⟩
      by_contra hb
      obtain ⟨b, hb⟩ := Option.ne_none_iff_exists'.mp hb
      obtain ⟨m, hm⟩ : ∃ m, st.partner l = some m := by
        unfold Store.partner
        rw [hb]
        exact ⟨_, rfl⟩
      obtain ⟨h1, u, hu, h2⟩ := W.inside p hp' l hl m hm
      exact hf m hm ⟨⟨p.2, hin p hp', hl, h1⟩, u.2, hin u hu, h2⟩
    · rintro ⟨p, hp', hl, hb⟩
      refine ⟨⟨p.2, hin p hp', hl⟩, ?_⟩
      intro m hm
      unfold Store.partner at hm
      rw [hb] at hm
      cases hm
  have sub : ∀ l ∈ t.legs, ∃ p ∈ d, l ∈ p.2.legs ∧ (st.leg l).bond = none := fun l hl => (free l).mp ((hlegs l).mp hl)
  have nodupNames : (t.legs.map st'.name).Nodup := by
    rw [same.name]
    apply gt.nodup.map_on
    intro x hx y hy exy
    obtain ⟨p, hp', hx', _⟩ := sub x hx
    obtain ⟨p2, hp2, hy', _⟩ := sub y hy
    exact List.inj_on_of_nodup_map W.names (List.mem_flatMap.mpr ⟨p, hp', hx'⟩) (List.mem_flatMap.mpr ⟨p2, hp2, hy'⟩) exy
  refine ⟨st', t, c, e, ⟨⟨W.nodup, ?_, ?_, ?_⟩, gt, ?_, ?_, ?_, ⟨?_, ?_⟩, same.wf L.wf,
    fun l hl => by
      obtain ⟨p, hp', -, hb⟩ := sub l hl
      exact (same.bondOf l).trans hb⟩, td⟩
  · rw [List.perm_ext_iff_of_nodup nodupNames W.nodup]
    intro z
    rw [W.labels, same.name, List.mem_map]
    constructor
    · rintro ⟨l, hl, rfl⟩
      obtain ⟨p, hp', h1, h2⟩ := sub l hl
      exact ⟨p, hp', l, h1, h2, rfl⟩
    · rintro ⟨p, hp', l, hl, hb, rfl⟩
      exact ⟨l, (hlegs l).mpr ((free l).mpr ⟨p, hp', hl, hb⟩), rfl⟩
  · intro l hl
    obtain ⟨p, hp', h1, _⟩ := sub l hl
    rw [same.dim, same.name, W.dims p hp' l h1]
  · intro τ hτ
    rw [W.val τ hτ, same.name, hval ps bl _ ?_]
    · exact netSum_perm st hp ps _
    · intro l hl
      obtain ⟨p, hp', h1, h2⟩ := (free l).mp hl
      rw [← W.dims p hp' l h1]
      exact hτ _ ((W.labels _).mpr ⟨p, hp', l, h1, h2, rfl⟩)
  · intro l hl
    obtain ⟨p, hp', h1, _⟩ := sub l hl
    rw [same.nextLeg]
    exact L.range p hp' l h1
  · intro l hl
    obtain ⟨p, hp', h1, _⟩ := sub l hl
    rw [same.dim]
    exact L.pos p hp' l h1
  · rw [same.nextLeg]
    exact L.le
  · intro l hl
    rw [tframe l, L.old.leg l hl]
    intro u hu hlu
    obtain ⟨p, hp', rfl⟩ := hof u hu
    exact absurd hl (not_lt.mpr (L.range p hp' l hlu).1)
  · intro l hl
    rw [same.partner L.wf.inv, L.old.partner l hl]

/-- The search on the linked copies. -/
theorem wired_closed [CommSemiring R] {st0 st : Store} {d : List (String × Tensor R)}
    {As : List (String × LArr R)} {A : LArr R} {ps : List (LegId × LegId)} (W : Wired st0 st d As A ps) {ts : List (Tensor R)}
    (hp : ts.Perm (d.map Prod.snd)) : ClosedNet st ts := by
  have L := W.locals
  have hmem : ∀ t, t ∈ ts ↔ t ∈ d.map Prod.snd := fun t => hp.mem_iff
  have hof : ∀ t ∈ ts, ∃ p ∈ d, p.2 = t := fun t ht => List.mem_map.mp ((hmem t).mp ht)
  have hin : ∀ p ∈ d, p.2 ∈ ts := fun p hp' => (hmem _).mpr (List.mem_map_of_mem hp')
  refine ⟨L.wf.inv, ?_, ?_, ?_, ?_⟩
  · have := hp.flatMap_right fun t => t.legs
    rw [List.flatMap_map] at this
    exact this.nodup_iff.mpr L.nodup
  · have := hp.map fun t => t.id
    rw [List.map_map] at this
    exact this.nodup_iff.mpr L.ids
  · intro t ht l hl
    obtain ⟨p, hp', rfl⟩ := hof t ht
    exact L.owner p hp' l hl
  · intro t ht l hl m hm
    obtain ⟨p, hp', rfl⟩ := hof t ht
    obtain ⟨h1, u, hu, h2⟩ := W.inside p hp' l hl m hm
    exact ⟨h1, u.2, hin u hu, h2⟩

/-- The linked copies of a contraction. -/
theorem prepare_ok [CommSemiring R] (rand : List Nat → List Nat → R) {f : FTN} {names : List String} {st : Store}
    {dict : List (String × Tensor R)} (inp : MixedInput st names dict) {Bs Cs : List (String × LArr R)} {J : LArr R}
    (h1 : renamed (dict.map fun p => (p.1, p.2.labelled st)) f.changeNameBefore = some Bs) (h2 : Bs.mapM tagOne = some Cs)
    (h3 : (LArr.prod (Cs.map Prod.snd)).labels.Nodup) (h4 : joined Cs (LArr.prod (Cs.map Prod.snd)) f.links = some J) :
    ∃ st' d ps, f.prepare rand names st dict = .ok (st', d) ∧ Wired st st' d Cs J ps ∧
      d.map (fun p => (p.1, p.2.diag)) = dict.map (fun p => (p.1, p.2.diag)) ∧
      ∀ p ∈ d, ∀ l ∈ p.2.legs, ∀ q ∈ d, ∀ m ∈ q.2.legs,
        (st'.partner l = some m ↔ LabelsLinked f.links (st'.name l) (st'.name m)) := by
  have rep0 : Copies st dict (dict.map fun p => (p.1, p.2.labelled st)) := by
    have : ∀ l : List (String × Tensor R), (∀ p ∈ l, (p.2.legs.map st.name).Nodup) →
        Copies st l (l.map fun p => (p.1, p.2.labelled st)) := by
      intro l
      induction l with
      | nil => intro _; exact .nil
      | cons p l ih =>
        intro h
        exact .cons ⟨rfl, represents_labelled (h p (by simp))⟩ (ih fun q hq => h q (by simp [hq]))
    exact this dict inp.labels
  obtain ⟨st1, d, e1, L1, r1, k1, f1⟩ := copyDict_ok rand dict st _ inp.wf (inp.keys.nodup_iff.mp inp.once) inp.good inp.legs
    inp.known inp.pos rep0
  obtain ⟨st2, e2, L2, r2, f2⟩ := preRename_ok f.changeNameBefore st1 _ Bs L1 r1 f1 h1
  obtain ⟨st3, e3, L3, r3, f3⟩ := tagged_ok L2 r2 f2 h2
  obtain ⟨st4, ps, e4, W, nm, pt⟩ := linkAll_ok f.links st3 _ J [] (wired_start L3 r3 f3 h3) h4
  refine ⟨st4, d, ps, ?_, W, k1, ?_⟩
  rotate_left
  · intro p hp l hl q hq m hm
    have : st3.partner l = none := by unfold Store.partner; rw [f3 p hp l hl]
    rw [pt p hp l hl q hq m hm, nm, nm, this]
    simp
  unfold FTN.prepare
  rw [if_neg (by rw [(C37_compareLists _ _).mpr inp.keys]; simp)]
  simp only [e1, e2, e3, e4, bind, Except.bind, pure, Except.pure]

theorem graphLeg_length {st : Store} {ts : List (Tensor R)} {i : Nat} {s s' : Graph × List BondId} {l : LegId}
    (h : graphLeg st ts i s l = .ok s') : s'.1.v.length = s.1.v.length := by
  unfold graphLeg at h
  split at h
  · obtain ⟨g, hg, h⟩ := except_bind_ok.mp h
    rw [← except_pure_ok.mp h]
    unfold Graph.addFreeEdge at hg
    split at hg
    · rw [← Except.ok.inj hg]
      simp
    · cases hg
  · split at h
    · rw [Except.ok.inj h]
    · obtain ⟨m, _, h⟩ := except_bind_ok.mp h
      split at h
      · cases h
      · obtain ⟨g, hg, h⟩ := except_bind_ok.mp h
        rw [← except_pure_ok.mp h]
        unfold Graph.addEdge at hg
        split at hg
        · rw [← Except.ok.inj hg]
          simp
        · cases hg

theorem makeTensorGraph_length {st : Store} {ts : List (Tensor R)} {g : Graph} (h : makeTensorGraph st ts = .ok g) :
    g.v.length = ts.length := by
  unfold makeTensorGraph at h
  obtain ⟨s, hs, h⟩ := except_bind_ok.mp h
  have key : ∀ (ps : List (Nat × LegId)) (a b : Graph × List BondId),
      ps.foldlM (fun s p => graphLeg st ts p.1 s p.2) a = .ok b → b.1.v.length = a.1.v.length := by
    intro ps
    induction ps with
    | nil => intro a b h; rw [List.foldlM_nil, except_pure_ok] at h; rw [h]
    | cons p ps ih =>
      intro a b h
      rw [List.foldlM_cons] at h
      obtain ⟨c, h1, h2⟩ := except_bind_ok.mp h
      rw [ih c b h2, graphLeg_length h1]
  rw [← except_pure_ok.mp h]
  have h1 := key _ _ _ hs
  have h2 : ∀ g : Graph, g.addEdgeIndex.v = g.v := by
    intro g
    unfold Graph.addEdgeIndex Graph.getEdges
    split
    · rfl
    · split <;> rfl
  rw [h2, h1]
  simp [Graph.new]

theorem mapM_except_length {α β : Type} {f : α → Except PyErr β} : ∀ {l : List α} {r : List β}, l.mapM f = .ok r →
    r.length = l.length
  | [], r, h => by
    rw [List.mapM_nil, except_pure_ok] at h
    rw [← h]
    rfl
  | a :: l, r, h => by
    rw [List.mapM_cons] at h
    obtain ⟨b, _, h⟩ := except_bind_ok.mp h
    obtain ⟨bs, hbs, h⟩ := except_bind_ok.mp h
    rw [← except_pure_ok.mp h, List.length_cons, List.length_cons, mapM_except_length hbs]

/-- Whatever the tensors are, a sequence found by the capped search is one for their number. -/
theorem capping_sequence_valid {st : Store} {ts : List (Tensor R)} {typ : Option Nat} {fuel cost : Nat}
    {q : List (Nat × Nat)} (h : generateSequence st ts .capping typ fuel = some (.ok (cost, q))) : ValidSeq ts.length q := by
  unfold generateSequence at h
  split at h
  · cases h
  rename_i g hg
  unfold optimalContractSequence at h
  split at h
  · cases h
  rename_i inp hin
  simp only at h
  obtain ⟨r0, hr, h'⟩ := Option.map_eq_some_iff.mp h
  obtain ⟨r, hr0, h''⟩ := except_bind_ok.mp h'
  subst hr0
  obtain ⟨c', hc', h3'⟩ := except_bind_ok.mp h''
  injection h3' with h3'
  injection h3' with e1 e2
  subst e1 e2
  have hlen : inp.edges.length = ts.length := by
    unfold Graph.input at hin
    obtain ⟨x, hx, hin⟩ := except_bind_ok.mp hin
    rw [← except_pure_ok.mp hin]
    unfold Graph.edgeTable at hx
    obtain ⟨es, hes, hx⟩ := except_bind_ok.mp hx
    rw [← except_pure_ok.mp hx]
    simp only
    rw [mapM_except_length hes, ← makeTensorGraph_length hg]
    unfold Graph.addEdgeIndex Graph.getEdges
    split
    · rfl
    · split <;> rfl
  rw [← hlen]
  exact (C04_capping_valid (s := r.1) hr).1

theorem FTNInput.mixed [Zero R] {st : Store} {names : List String} {dict : List (String × Tensor R)} (h : FTNInput st names dict) :
    MixedInput st names dict :=
  ⟨h.wf, h.keys, h.once, h.nonempty, fun p hp => (h.good p hp).1, h.legs, h.known, h.labels, h.pos⟩

theorem keys_of_kinds {d dict : List (String × Tensor R)}
    (h : d.map (fun p => (p.1, p.2.diag)) = dict.map (fun p => (p.1, p.2.diag))) : d.map Prod.fst = dict.map Prod.fst := by
  have := congrArg (List.map Prod.fst) h
  rwa [List.map_map, List.map_map] at this

theorem kind_mem {d dict : List (String × Tensor R)}
    (h : d.map (fun p => (p.1, p.2.diag)) = dict.map (fun p => (p.1, p.2.diag))) {p : String × Tensor R} (hp : p ∈ d) :
    ∃ t, (p.1, t) ∈ dict ∧ t.diag = p.2.diag := by
  have : (p.1, p.2.diag) ∈ dict.map (fun p => (p.1, p.2.diag)) := by
    rw [← h]
    exact List.mem_map.mpr ⟨p, hp, rfl⟩
  obtain ⟨q, hq, e⟩ := List.mem_map.mp this
  obtain ⟨e1, e2⟩ := Prod.mk.inj e
  exact ⟨q.2, by rw [← e1]; exact hq, e2⟩

theorem joined_axes [Zero R] [Add R] {As : List (String × LArr R)} : ∀ (ls : List ((String × String) × (String × String)))
    (A B : LArr R), joined As A ls = some B → ∀ k ∈ ls, HasAxis As k.1.1 k.1.2 ∧ HasAxis As k.2.1 k.2.2
  | [], _, _, _, k, hk => by cases hk
  | ((a, x), (b, y)) :: ls, A, B, h, k, hk => by
    unfold joined at h
    split at h
    · rename_i hc
      rcases List.mem_cons.mp hk with rfl | hk
      · exact ⟨hc.2.1, hc.2.2.1⟩
      · exact joined_axes ls _ _ h k hk
    · cases h

/-- Tensors of the linked copies are joined exactly if a link names them. -/
theorem joined_iff [CommSemiring R] {st0 st : Store} {d : List (String × Tensor R)} {As : List (String × LArr R)} {A : LArr R}
    {ps : List (LegId × LegId)} (W : Wired st0 st d As A ps) {links : List ((String × String) × (String × String))}
    (part : ∀ p ∈ d, ∀ l ∈ p.2.legs, ∀ q ∈ d, ∀ m ∈ q.2.legs,
      (st.partner l = some m ↔ LabelsLinked links (st.name l) (st.name m)))
    (axes : ∀ k ∈ links, HasAxis As k.1.1 k.1.2 ∧ HasAxis As k.2.1 k.2.2) {names : List String} {ts : List (Tensor R)}
    (hf : List.Forall₂ (fun n t => (n, t) ∈ d) names ts) (i j : Nat) : Joined st ts i j ↔ LinkedAt links names i j := by
  have get : ∀ {names : List String} {ts : List (Tensor R)}, List.Forall₂ (fun n t => (n, t) ∈ d) names ts → ∀ (i : Nat),
      (∀ t, ts[i]? = some t → ∃ n, names[i]? = some n ∧ (n, t) ∈ d) ∧
      (∀ n, names[i]? = some n → ∃ t, ts[i]? = some t ∧ (n, t) ∈ d) := by
    intro names ts h
    induction h with
    | nil => intro i; simp
    | cons e _ ih =>
      intro i
      cases i with
      | zero =>
        simp only [List.getElem?_cons_zero, Option.some.injEq, forall_eq']
        exact ⟨⟨_, rfl, e⟩, ⟨_, rfl, e⟩⟩
      | succ i => simpa using ih i
  have axis : ∀ {a x : String}, HasAxis As a x → ∃ t, (a, t) ∈ d ∧ ∃ l ∈ t.legs, st.name l = x := by
    rintro a x ⟨q, hq, rfl, hx⟩
    obtain ⟨p, hp, e, rep⟩ := W.reps.get' q hq
    obtain ⟨l, hl, e'⟩ := List.mem_map.mp (rep.labels.symm.subset hx)
    exact ⟨p.2, by rw [← e]; exact hp, l, hl, e'⟩
  have whose : ∀ {a x : String} {n : String} {t : Tensor R} {l : LegId}, HasAxis As a x → (n, t) ∈ d → l ∈ t.legs →
      st.name l = x → n = a := by
    intro a x n t l hx hn hl e
    obtain ⟨t', ht', l', hl', e'⟩ := axis hx
    have h1 : l ∈ d.flatMap fun p => p.2.legs := List.mem_flatMap.mpr ⟨_, hn, hl⟩
    have h2 : l' ∈ d.flatMap fun p => p.2.legs := List.mem_flatMap.mpr ⟨_, ht', hl'⟩
    have : l = l' := List.inj_on_of_nodup_map W.names h1 h2 (e.trans e'.symm)
    subst this
    by_contra hne
    exact flatMap_disjoint W.locals.nodup hn ht' (fun h => hne (congrArg Prod.fst h)) l hl hl'
  constructor
  · rintro ⟨t, u, ht, hu, l, hl, m, hm, hp⟩
    obtain ⟨n, hn, hnd⟩ := (get hf i).1 t ht
    obtain ⟨n', hn', hnd'⟩ := (get hf j).1 u hu
    obtain ⟨k, hk, h⟩ := (part _ hnd l hl _ hnd' m hm).mp hp
    obtain ⟨x1, x2⟩ := axes k hk
    refine ⟨k, hk, ?_⟩
    rcases h with ⟨e1, e2⟩ | ⟨e1, e2⟩
    · left
      rw [hn, hn', whose x1 hnd hl e1.symm, whose x2 hnd' hm e2.symm]
      exact ⟨rfl, rfl⟩
    · right
      rw [hn, hn', whose x1 hnd' hm e1.symm, whose x2 hnd hl e2.symm]
      exact ⟨rfl, rfl⟩
  · rintro ⟨k, hk, h⟩
    obtain ⟨x1, x2⟩ := axes k hk
    obtain ⟨t1, h1, l1, hl1, e1⟩ := axis x1
    obtain ⟨t2, h2, l2, hl2, e2⟩ := axis x2
    have uniq : ∀ {n : String} {t t' : Tensor R}, (n, t) ∈ d → (n, t') ∈ d → t = t' := fun h h' =>
      congrArg Prod.snd (W.locals.unique h h' rfl)
    rcases h with ⟨hi, hj⟩ | ⟨hj, hi⟩
    · obtain ⟨t, ht, htd⟩ := (get hf i).2 _ hi
      obtain ⟨u, hu, hud⟩ := (get hf j).2 _ hj
      refine ⟨t, u, ht, hu, l1, by rw [uniq htd h1]; exact hl1, l2, by rw [uniq hud h2]; exact hl2, ?_⟩
      exact (part _ h1 l1 hl1 _ h2 l2 hl2).mpr ⟨k, hk, Or.inl ⟨e1.symm, e2.symm⟩⟩
    · obtain ⟨t, ht, htd⟩ := (get hf i).2 _ hi
      obtain ⟨u, hu, hud⟩ := (get hf j).2 _ hj
      refine ⟨t, u, ht, hu, l2, by rw [uniq htd h2]; exact hl2, l1, by rw [uniq hud h1]; exact hl1, ?_⟩
      exact (part _ h2 l2 hl2 _ h1 l1 hl1).mpr ⟨k, hk, Or.inr ⟨e1.symm, e2.symm⟩⟩

/-- Tensors of the linked copies are diagonal exactly if the inputs are. -/
theorem diagAt_iff {d dict : List (String × Tensor R)} (nd : (d.map Prod.fst).Nodup)
    (h : d.map (fun p => (p.1, p.2.diag)) = dict.map (fun p => (p.1, p.2.diag))) {names : List String} {ts : List (Tensor R)}
    (hf : List.Forall₂ (fun n t => (n, t) ∈ d) names ts) (i : Nat) : DiagAt ts i ↔ DiagNamed dict names i := by
  induction hf generalizing i with
  | nil => simp [DiagAt, DiagNamed]
  | cons e _ ih =>
    rename_i n t _ _ _
    cases i with
    | succ i => simpa [DiagAt, DiagNamed] using ih i
    | zero =>
      simp only [DiagAt, DiagNamed, List.getElem?_cons_zero, Option.some.injEq, exists_eq_left']
      constructor
      · intro hd
        obtain ⟨t', ht', e'⟩ := kind_mem h e
        exact ⟨n, t', rfl, ht', e'.trans hd⟩
      · rintro ⟨n', t', rfl, ht', hd⟩
        obtain ⟨t2, ht2, e2⟩ := kind_mem h.symm ht'
        have : (n, t2) = (n, t) := List.inj_on_of_nodup_map nd ht2 e rfl
        cases this
        exact e2.trans hd

/-- What a call of `contract` works on: the linked copies in the order of the names. -/
theorem prepared [CommSemiring R] (rand : List Nat → List Nat → R) {f : FTN} {names : List String}
    {st : Store} {dict : List (String × Tensor R)} {removeTag : Bool} {A : LArr R} (inp : MixedInput st names dict)
    (htyp : f.typicalDim ≠ some 0)
    (hA : f.meaning removeTag (dict.map fun p => (p.1, p.2.labelled st)) = some A) :
    ∃ st1 d ts, FTN.prepare rand { f with locked := true } names st dict = .ok (st1, d) ∧ orderedTensors names d = .ok ts ∧
      (∀ fuel cost q, generateSequence st1 ts .capping f.typicalDim fuel = some (.ok (cost, q)) →
        f.Suits names (DiagNamed dict names) q) ∧
      ∀ fuel r, generateSequence st1 ts .capping f.typicalDim fuel = some r → ∃ cost q, r = .ok (cost, q) := by
  unfold FTN.meaning at hA
  simp only [bind, Option.bind_eq_some_iff] at hA
  obtain ⟨Bs, h1, Cs, h2, hA⟩ := hA
  split at hA
  · obtain ⟨_, e, _⟩ := hA
  rename_i hn
  rw [not_not] at hn
  simp only [Option.bind_eq_some_iff] at hA
  obtain ⟨J, h4, F, h5, G, h6, h7⟩ := hA
  obtain ⟨st1, d, ps, e, W, hkind, part⟩ := prepare_ok rand (f := { f with locked := true }) inp h1 h2 hn h4
  have hk := keys_of_kinds hkind
  obtain ⟨ts, ets, hf2⟩ := orderedTensors_ok W.locals.keys names fun n h => hk ▸ inp.keys.subset h
  obtain ⟨ts', ets', hperm, hlen⟩ := orderedTensors_perm inp.once (hk ▸ inp.keys)
  have : ts' = ts := Except.ok.inj (ets'.symm.trans ets)
  subst this
  have hJ := joined_iff W part (joined_axes f.links _ _ h4) hf2
  have hD := diagAt_iff W.locals.keys hkind hf2
  have good : ∀ t ∈ ts', GoodTensor st1 t := by
    intro t ht
    obtain ⟨p, hp', rfl⟩ := List.mem_map.mp (hperm.subset ht)
    exact W.locals.good p hp'
  have hts : ts' ≠ [] := by
    rintro rfl
    exact inp.nonempty (List.length_eq_zero_iff.mp hlen.symm)
  have hpos : ∀ t ∈ ts', ∀ l ∈ t.legs, st1.dim l ≠ 0 := by
    intro t ht l hl
    obtain ⟨p, hp', rfl⟩ := List.mem_map.mp (hperm.subset ht)
    exact W.locals.pos p hp' l hl
  have hlegs : ∀ t ∈ ts', t.legs ≠ [] := by
    intro t ht
    obtain ⟨p, hp', rfl⟩ := List.mem_map.mp (hperm.subset ht)
    exact W.locals.legs p hp'
  obtain ⟨-, s2, s3⟩ := mixed_search (wired_closed W hperm) good hts hpos hlegs htyp
  refine ⟨st1, d, ts', e, ets, fun fuel cost q hq => ⟨hlen ▸ capping_sequence_valid hq, ?_⟩, s3⟩
  exact stepsSafe_mono (fun i j h => (hJ i j).mp h) (fun i h => (hD i).mpr h) q _ (s2 fuel cost q hq)

/-- A call with fitting tensors leaves the stored sequence or one that suits these tensors. -/
theorem contract_stores [CommSemiring R] (rand : List Nat → List Nat → R) (cast : R → R) {f : FTN} {names : List String}
    {st : Store} {dict : List (String × Tensor R)} {removeTag : Bool} {A : LArr R} (inp : MixedInput st names dict)
    (htyp : f.typicalDim ≠ some 0)
    (hA : f.meaning removeTag (dict.map fun p => (p.1, p.2.labelled st)) = some A) (fuel : Nat) :
    (f.contract rand cast names st dict removeTag fuel).1.optimalSeq = f.optimalSeq ∨
      ∃ q, (f.contract rand cast names st dict removeTag fuel).1.optimalSeq = some q ∧ f.Suits names (DiagNamed dict names) q := by
  obtain ⟨st1, d, ts, e, ets, h1, h2⟩ := prepared rand inp htyp hA
  unfold FTN.contract
  simp only [e, ets]
  split
  · have e5 : generateSequence st1 ts .capping (({ f with locked := true } : FTN).loadBondDims st1 d).typicalDim fuel =
        generateSequence st1 ts .capping f.typicalDim fuel := rfl
    rw [e5]
    cases hq : generateSequence st1 ts .capping f.typicalDim fuel with
    | none => exact Or.inl rfl
    | some r =>
      obtain ⟨cost, q, rfl⟩ := h2 fuel r hq
      exact Or.inr ⟨q, rfl, h1 fuel cost q hq⟩
  · exact Or.inl rfl

/-- C54: whatever sequence is stored, as long as it suits these tensors, the result is the labelled network sum, and the
inputs are left alone. -/
theorem contract_any [CommSemiring R] (rand : List Nat → List Nat → R) (cast : R → R) {f : FTN} {names : List String}
    {st : Store} {dict : List (String × Tensor R)} {removeTag : Bool} {A : LArr R} (inp : MixedInput st names dict)
    (cache : ∀ q, f.optimalSeq = some q → ValidSeq names.length q) (htyp : f.typicalDim ≠ some 0)
    (mode : (∀ p ∈ dict, p.2.diag = false) ∨ ((∀ x, cast x = x) ∧ LinkConnected f.links names ∧
      (f.outProductAfter = [] ∨ ∃ p ∈ dict, p.2.diag = false) ∧
      ∀ q, f.optimalSeq = some q → f.Suits names (DiagNamed dict names) q))
    (hA : f.meaning removeTag (dict.map fun p => (p.1, p.2.labelled st)) = some A) :
    ∃ rounds, ∀ fuel, rounds ≤ fuel → ∃ f' st' t, f.contract rand cast names st dict removeTag fuel = (f', some (.ok (st', t))) ∧
      Produced st st' t A ∧ (t.diag = true ↔ ∀ p ∈ dict, p.2.diag = true) ∧
      (f'.optimalSeq = f.optimalSeq ∨ ∃ q, f'.optimalSeq = some q ∧ f.Suits names (DiagNamed dict names) q) := by
  unfold FTN.meaning at hA
  simp only [bind, Option.bind_eq_some_iff] at hA
  obtain ⟨Bs, h1, Cs, h2, hA⟩ := hA
  split at hA
  · obtain ⟨_, e, _⟩ := hA
  rename_i hn
  rw [not_not] at hn
  simp only [Option.bind_eq_some_iff] at hA
  obtain ⟨J, h4, F, h5, G, h6, h7⟩ := hA
  obtain ⟨st1, d, ps, e, W, hkind, part⟩ := prepare_ok rand (f := { f with locked := true }) inp h1 h2 hn h4
  have hk := keys_of_kinds hkind
  obtain ⟨ts, ets, hf2⟩ := orderedTensors_ok W.locals.keys names fun n h => hk ▸ inp.keys.subset h
  obtain ⟨ts', ets', hperm, hlen⟩ := orderedTensors_perm inp.once (hk ▸ inp.keys)
  have : ts' = ts := Except.ok.inj (ets'.symm.trans ets)
  subst this
  have hJ := joined_iff W part (joined_axes f.links _ _ h4) hf2
  have hD := diagAt_iff W.locals.keys hkind hf2
  have conn : LinkConnected f.links names → NetConnected st1 ts' := by
    intro h i j hi hj
    rw [hlen] at hi hj
    exact Relation.ReflTransGen.mono (fun a b h => (hJ a b).mpr h) _ _ (h i j hi hj)
  have tensors : ∀ t ∈ ts', ∃ n t', (n, t') ∈ dict ∧ t'.diag = t.diag := by
    intro t ht
    obtain ⟨p, hp', rfl⟩ := List.mem_map.mp (hperm.subset ht)
    obtain ⟨t', h, e⟩ := kind_mem hkind hp'
    exact ⟨_, t', h, e⟩
  have tensors' : ∀ p ∈ dict, ∃ t ∈ ts', t.diag = p.2.diag := by
    intro p hp
    obtain ⟨t', h, e⟩ := kind_mem hkind.symm hp
    exact ⟨t', hperm.symm.subset (List.mem_map.mpr ⟨_, h, rfl⟩), e⟩
  have hdense : (∀ p ∈ dict, p.2.diag = false) → ∀ t ∈ ts', t.diag = false := by
    intro h t ht
    obtain ⟨n, t', h', e⟩ := tensors t ht
    rw [← e]
    exact h _ h'
  have finish : ∀ (f2 : FTN), f2.outProductAfter = f.outProductAfter → f2.changeNameAfter = f.changeNameAfter →
      ∀ q, f2.optimalSeq = some q → ValidSeq names.length q →
      ((∀ p ∈ dict, p.2.diag = false) ∨ stepsSafe (LinkedAt f.links names) (DiagNamed dict names) (fun i => [i]) q) →
      ∃ st' t, f2.run cast removeTag st1 ts' = .ok (st', t) ∧ Produced st st' t A ∧
        (t.diag = true ↔ ∀ p ∈ dict, p.2.diag = true) := by
    intro f2 k1 k2 q hq hv hsafe
    have mode' : (∀ t ∈ ts', t.diag = false) ∨ ((∀ x, cast x = x) ∧ NetConnected st1 ts' ∧ NoOuterDiag st1 ts' q) := by
      rcases mode with h | ⟨m1, m2, _⟩
      · exact Or.inl (hdense h)
      · rcases hsafe with h | h
        · exact Or.inl (hdense h)
        · exact Or.inr ⟨m1, conn m2, stepsSafe_mono (fun i j h => (hJ i j).mpr h) (fun i h => (hD i).mp h) q _ h⟩
    obtain ⟨st2, t2, c, ec, o2, td⟩ := wired_contract cast W hperm (q := q) (hlen ▸ hv) mode'
    have td' : t2.diag = true ↔ ∀ p ∈ dict, p.2.diag = true := by
      rw [td]
      constructor
      · intro h p hp
        obtain ⟨t, ht, e⟩ := tensors' p hp
        rw [← e]
        exact h t ht
      · intro h u hu
        obtain ⟨n, t', h', e⟩ := tensors u hu
        rw [← e]
        exact h _ h'
    obtain ⟨st3, t3, ef, o3, td3⟩ : ∃ st3 t3, fuseAll st2 t2 f.outProductAfter = .ok (st3, t3) ∧ Produced st st3 t3 F ∧
        t3.diag = t2.diag := by
      cases hd2 : t2.diag with
      | false =>
        obtain ⟨st3, t3, ef, o3⟩ := fuseAll_ok f.outProductAfter st2 t2 J F ⟨o2, hd2⟩ h5
        exact ⟨st3, t3, ef, o3.toProduced, o3.dense⟩
      | true =>
        have hall := td'.mp hd2
        have : f.outProductAfter = [] := by
          rcases mode with h | ⟨_, _, h | ⟨p, hp, h⟩, _⟩
          · exfalso
            obtain ⟨n, hn⟩ := List.exists_mem_of_ne_nil _ inp.nonempty
            obtain ⟨p, hp, _⟩ := List.mem_map.mp (inp.keys.subset hn)
            have := hall p hp
            rw [h p hp] at this
            cases this
          · exact h
          · have := hall p hp
            rw [h] at this
            cases this
        rw [this] at h5 ⊢
        cases Option.some.inj h5
        exact ⟨st2, t2, rfl, o2, hd2⟩
    have o4 := postRename_ok f.changeNameAfter st3 F G o3 h6
    unfold FTN.run
    rw [hq]
    simp only [ec, bind, Except.bind, FTN.finish, k1, k2, ef, pure, Except.pure]
    refine ⟨_, _, rfl, ?_, by rw [td3, td']⟩
    cases removeTag with
    | false =>
      simp only [Bool.false_eq_true, if_false] at h7 ⊢
      cases Option.some.inj h7
      exact o4
    | true =>
      simp only [if_true] at h7 ⊢
      exact untag_ok o4 h7
  have good : ∀ t ∈ ts', GoodTensor st1 t := by
    intro t ht
    obtain ⟨p, hp', rfl⟩ := List.mem_map.mp (hperm.subset ht)
    exact W.locals.good p hp'
  have hts : ts' ≠ [] := by
    rintro rfl
    exact inp.nonempty (List.length_eq_zero_iff.mp hlen.symm)
  have hpos : ∀ t ∈ ts', ∀ l ∈ t.legs, st1.dim l ≠ 0 := by
    intro t ht l hl
    obtain ⟨p, hp', rfl⟩ := List.mem_map.mp (hperm.subset ht)
    exact W.locals.pos p hp' l hl
  have hlegs : ∀ t ∈ ts', t.legs ≠ [] := by
    intro t ht
    obtain ⟨p, hp', rfl⟩ := List.mem_map.mp (hperm.subset ht)
    exact W.locals.legs p hp'
  obtain ⟨s1, s2, -⟩ := mixed_search (wired_closed W hperm) good hts hpos hlegs htyp
  obtain ⟨rounds, hr⟩ : ∃ rounds, ∀ fuel, rounds ≤ fuel → ∃ cost q,
      generateSequence st1 ts' .capping f.typicalDim fuel = some (.ok (cost, q)) := by
    rcases mode with h | ⟨_, h, _⟩
    · exact capping_returns (wired_closed W hperm) (hdense h) hts hpos hlegs htyp
    · exact s1 (conn h)
  refine ⟨rounds, fun fuel hf => ?_⟩
  obtain ⟨cost, q, hq⟩ := hr fuel hf
  have hv : ValidSeq names.length q := hlen ▸ capping_sequence_valid hq
  have hs : stepsSafe (LinkedAt f.links names) (DiagNamed dict names) (fun i => [i]) q :=
    stepsSafe_mono (fun i j h => (hJ i j).mp h) (fun i h => (hD i).mpr h) q _ (s2 fuel cost q hq)
  unfold FTN.contract
  simp only [e, ets]
  split
  · have e5 : generateSequence st1 ts' .capping (({ f with locked := true } : FTN).loadBondDims st1 d).typicalDim fuel =
        some (.ok (cost, q)) := hq
    rw [e5]
    simp only
    obtain ⟨st', t, er, o, td⟩ := finish (((({ f with locked := true } : FTN).loadBondDims st1 d)).setSeq (.ok (cost, q))) rfl rfl
      q rfl hv (Or.inr hs)
    exact ⟨_, st', t, by rw [er], o, td, Or.inr ⟨q, rfl, hv, hs⟩⟩
  · rename_i hst
    obtain ⟨q', hq'⟩ : ∃ q', f.optimalSeq = some q' := by
      apply Option.ne_none_iff_exists'.mp
      intro hnone
      apply hst
      simp [FTN.stale, FTN.loadBondDims, hnone]
    obtain ⟨st', t, er, o, td⟩ := finish (({ f with locked := true } : FTN).loadBondDims st1 d) rfl rfl q' hq' (cache q' hq') (by
      rcases mode with h | ⟨_, _, _, h⟩
      · exact Or.inl h
      · exact Or.inr (h q' hq').2)
    exact ⟨({ f with locked := true } : FTN).loadBondDims st1 d, st', t, by rw [er], o, td, Or.inl rfl⟩

/-- C23: whatever sequence is stored, as long as it is one for this number of tensors, the result is the labelled network
sum, and the inputs are left alone. -/
theorem contract_ok [CommSemiring R] (rand : List Nat → List Nat → R) (cast : R → R) {f : FTN} {names : List String}
    {st : Store} {dict : List (String × Tensor R)} {removeTag : Bool} {A : LArr R} (inp : FTNInput st names dict)
    (cache : ∀ q, f.optimalSeq = some q → ValidSeq names.length q) (htyp : f.typicalDim ≠ some 0)
    (hA : f.meaning removeTag (dict.map fun p => (p.1, p.2.labelled st)) = some A) :
    ∃ rounds, ∀ fuel, rounds ≤ fuel → ∃ f' st' t, f.contract rand cast names st dict removeTag fuel = (f', some (.ok (st', t))) ∧
      Outcome st st' t A := by
  obtain ⟨rounds, h⟩ := contract_any rand cast inp.mixed cache htyp (Or.inl fun p hp => (inp.good p hp).2) hA
  refine ⟨rounds, fun fuel hf => ?_⟩
  obtain ⟨f', st', t, e, o, td, _⟩ := h fuel hf
  refine ⟨f', st', t, e, o, ?_⟩
  rw [Bool.eq_false_iff]
  intro ht
  obtain ⟨n, hn⟩ := List.exists_mem_of_ne_nil _ inp.nonempty
  obtain ⟨p, hp, _⟩ := List.mem_map.mp (inp.keys.subset hn)
  have := td.mp ht p hp
  rw [(inp.good p hp).2] at this
  cases this

/-! ### The stored sequence -/

/-- The stored sequence, if there is one, fits the number of tensors. -/
def FTN.CacheOK (f : FTN) (names : List String) : Prop := ∀ q, f.optimalSeq = some q → ValidSeq names.length q

/-- A call of `contract`, on whatever tensors and with whatever outcome, leaves a sequence that fits. -/
theorem contract_cache [CommSemiring R] (rand : List Nat → List Nat → R) (cast : R → R) {f : FTN} {names : List String}
    (h : f.CacheOK names) (st : Store) (dict : List (String × Tensor R)) (rt : Bool) (fuel : Nat) :
    (f.contract rand cast names st dict rt fuel).1.CacheOK names ∧
      (f.contract rand cast names st dict rt fuel).1.typicalDim = f.typicalDim := by
  unfold FTN.contract
  dsimp only
  split
  · exact ⟨h, rfl⟩
  · rename_i st1 d _
    have h2 : (({ f with locked := true } : FTN).loadBondDims st1 d).CacheOK names := h
    split
    · exact ⟨h2, rfl⟩
    · rename_i ts hts
      have hlen : ts.length = names.length := mapM_except_length hts
      split
      · split
        · exact ⟨h2, rfl⟩
        · exact ⟨h2, rfl⟩
        · rename_i q hq
          refine ⟨?_, rfl⟩
          intro q' hq'
          have : q' = q.2 := (Option.some.inj hq').symm
          subst this
          rw [← hlen]
          exact capping_sequence_valid hq
      · exact ⟨h2, rfl⟩

/-- The life of a network, and whether it has been contracted before: it is created and built up by any method calls
(some of which may raise); then it is contracted any number of times, with any tensors and any outcome, with method calls
in between that do not add or remove tensors. -/
inductive FTN.Life [CommSemiring R] (rand : List Nat → List Nat → R) (cast : R → R) : Bool → FTN → List String → Prop
  | new (list : Nat) (names : List String) (realCost : Bool) (typicalDim : Nat)
      (h : realCost = true ∨ typicalDim ≠ 0) :
      Life rand cast false (FTN.new list realCost typicalDim) names
  | build {f names} (h : Life rand cast false f names) (op : NetOp) :
      Life rand cast false (f.apply names op).2.1 (f.apply names op).1
  | contract {b f names} (h : Life rand cast b f names) (st : Store) (dict : List (String × Tensor R)) (removeTag : Bool)
      (fuel : Nat) : Life rand cast true (f.contract rand cast names st dict removeTag fuel).1 names
  | edit {f names} (h : Life rand cast true f names) (op : NetOp) (h1 : ∀ n, op ≠ .addTensor n)
      (h2 : ∀ n, op ≠ .removeTensor n) : Life rand cast true (f.apply names op).2.1 (f.apply names op).1

theorem apply_seq (f : FTN) (names : List String) (op : NetOp) :
    (f.apply names op).2.1.optimalSeq = f.optimalSeq ∧ (f.apply names op).2.1.typicalDim = f.typicalDim := by
  cases op <;> simp only [FTN.apply, FTN.checked, removeFrom] <;> repeat' (first | exact ⟨rfl, rfl⟩ | exact ⟨trivial, trivial⟩ | split)

theorem apply_keeps_names (f : FTN) (names : List String) (op : NetOp) (h1 : ∀ n, op ≠ .addTensor n)
    (h2 : ∀ n, op ≠ .removeTensor n) : (f.apply names op).1 = names := by
  cases op <;> simp only [FTN.apply, FTN.checked, removeFrom] <;>
    first | exact absurd rfl (h1 _) | exact absurd rfl (h2 _) | (repeat' (first | rfl | split))

theorem life_cache [CommSemiring R] {rand : List Nat → List Nat → R} {cast : R → R} {b : Bool} {f : FTN} {names : List String}
    (h : FTN.Life rand cast b f names) : f.CacheOK names ∧ f.typicalDim ≠ some 0 ∧ (b = false → f.optimalSeq = none) := by
  induction h with
  | new list names rc td h =>
    refine ⟨fun q hq => (by cases hq), ?_, fun _ => rfl⟩
    unfold FTN.new
    cases rc <;> simp at h ⊢
    exact h
  | build h op ih =>
    obtain ⟨e1, e2⟩ := apply_seq _ _ op
    have hn := ih.2.2 rfl
    refine ⟨fun q hq => ?_, by rw [e2]; exact ih.2.1, fun _ => e1.trans hn⟩
    rw [e1, hn] at hq
    cases hq
  | contract h st dict rt fuel ih =>
    obtain ⟨e1, e2⟩ := contract_cache rand cast ih.1 st dict rt fuel
    exact ⟨e1, by rw [e2]; exact ih.2.1, fun h => by cases h⟩
  | edit h op h1 h2 ih =>
    obtain ⟨e1, e2⟩ := apply_seq _ _ op
    refine ⟨fun q hq => ?_, by rw [e2]; exact ih.2.1, fun h => by cases h⟩
    rw [apply_keeps_names _ _ op h1 h2]
    rw [e1] at hq
    exact ih.1 q hq

/-- What a contraction returns, as an `Outcome`. -/
theorem contract_outcome [CommSemiring R] (rand : List Nat → List Nat → R) (cast : R → R) {b : Bool} {f : FTN} {names : List String}
    (life : FTN.Life rand cast b f names) {st : Store} {dict : List (String × Tensor R)} {removeTag : Bool} {A : LArr R}
    (inp : FTNInput st names dict)
    (hA : f.meaning removeTag (dict.map fun p => (p.1, p.2.labelled st)) = some A) :
    ∃ rounds, ∀ fuel, rounds ≤ fuel → ∃ f' st' t, f.contract rand cast names st dict removeTag fuel = (f', some (.ok (st', t))) ∧
      Outcome st st' t A := by
  obtain ⟨c, ht, _⟩ := life_cache life
  exact contract_ok rand cast inp c ht hA

/-- C23: at any time in the life of a network, `contract` returns the labelled network sum of its inputs: whatever
tensors, with whatever dimensions, the calls before were about, and whatever became of them.  The inputs are not changed,
and the result shares no leg with them and is joined to nothing. -/
theorem C23_contract [CommSemiring R] (rand : List Nat → List Nat → R) (cast : R → R) {b : Bool} {f : FTN} {names : List String}
    (life : FTN.Life rand cast b f names) {st : Store} {dict : List (String × Tensor R)} {removeTag : Bool} {A : LArr R}
    (inp : FTNInput st names dict)
    (hA : f.meaning removeTag (dict.map fun p => (p.1, p.2.labelled st)) = some A) :
    ∃ rounds, ∀ fuel, rounds ≤ fuel → ∃ f' st' t, f.contract rand cast names st dict removeTag fuel = (f', some (.ok (st', t))) ∧
      Represents st' t A ∧ GoodTensor st' t ∧ InputsKept st st' ∧ ∀ l ∈ t.legs, st.nextLeg ≤ l ∧ (st'.leg l).bond = none := by
  obtain ⟨c, ht, _⟩ := life_cache life
  obtain ⟨rounds, h⟩ := contract_ok rand cast inp c ht hA
  refine ⟨rounds, fun fuel hf => ?_⟩
  obtain ⟨f', st', t, e, o⟩ := h fuel hf
  exact ⟨f', st', t, e, o.rep, o.good, o.old, fun l hl => ⟨(o.fresh l hl).1, o.free l hl⟩⟩

/-- C23: two calls on networks with the same links, renames and fusions give the same labelled array, whatever happened
to the two networks before; in particular, two calls on one network. -/
theorem C23_same_on_every_call [CommSemiring R] (rand : List Nat → List Nat → R) (cast : R → R) {b b' : Bool} {f g : FTN}
    {names names' : List String} (life : FTN.Life rand cast b f names) (life' : FTN.Life rand cast b' g names')
    (links : g.links = f.links) (before : g.changeNameBefore = f.changeNameBefore)
    (after : g.changeNameAfter = f.changeNameAfter) (fusions : g.outProductAfter = f.outProductAfter)
    {st st' : Store} {dict dict' : List (String × Tensor R)} {removeTag : Bool} {A : LArr R}
    (inp : FTNInput st names dict) (inp' : FTNInput st' names' dict')
    (same : (dict'.map fun p => (p.1, p.2.labelled st')) = dict.map fun p => (p.1, p.2.labelled st))
    (hA : f.meaning removeTag (dict.map fun p => (p.1, p.2.labelled st)) = some A) :
    ∃ rounds, ∀ fuel, rounds ≤ fuel → ∃ f' g' st1 st2 t1 t2,
      f.contract rand cast names st dict removeTag fuel = (f', some (.ok (st1, t1))) ∧
      g.contract rand cast names' st' dict' removeTag fuel = (g', some (.ok (st2, t2))) ∧
      (t2.legs.map st2.name).Perm (t1.legs.map st1.name) ∧
      (∀ l ∈ t1.legs, ∀ m ∈ t2.legs, st1.name l = st2.name m → st1.dim l = st2.dim m) ∧
      ∀ τ, A.InRange τ → entry t1 (fun l => τ (st1.name l)) = entry t2 (fun l => τ (st2.name l)) := by
  have hg : g.meaning removeTag (dict'.map fun p => (p.1, p.2.labelled st')) = some A := by
    rw [same, ← hA]
    unfold FTN.meaning
    rw [links, before, after, fusions]
  obtain ⟨n1, h1⟩ := C23_contract rand cast life inp hA
  obtain ⟨n2, h2⟩ := C23_contract rand cast life' inp' hg
  refine ⟨max n1 n2, fun fuel hf => ?_⟩
  obtain ⟨f', st1, t1, e1, r1, _⟩ := h1 fuel (le_trans (le_max_left _ _) hf)
  obtain ⟨g', st2, t2, e2, r2, _⟩ := h2 fuel (le_trans (le_max_right _ _) hf)
  refine ⟨f', g', st1, st2, t1, t2, e1, e2, r2.labels.trans r1.labels.symm, ?_, ?_⟩
  · intro l hl m hm e
    rw [r1.dims l hl, r2.dims m hm, e]
  · intro τ hτ
    rw [r1.val τ hτ, r2.val τ hτ]

/-! ### A concrete network -/

/-- A triangle of three tensors; two of the open axes are fused, the third is renamed. -/
def ftnOps : List NetOp :=
  [.addTensor "A", .addTensor "B", .addTensor "C", .addPreNameChange "A" "x" "u", .addLink "A" "u" "B" "x",
    .addLink "C" "y" "A" "y", .addLink "B" "z" "C" "z", .addPostOutProduct [.pair "A" "a", .plain "C-c"] "f",
    .addPostNameChange "B" "b" "g"]

def ftnOpsDone : FTN × List String :=
  ftnOps.foldl (fun s op => ((s.1.apply s.2 op).2.1, (s.1.apply s.2 op).1)) (FTN.new 0, [])

def ftnInput : List (String × Tensor Int) := [("B", triB), ("C", triC), ("A", triA)]

/-- The network is contracted once before, with tensors that do not even fit. -/
def ftnUsed : FTN :=
  (ftnOpsDone.1.contract (fun _ _ => 0) id ftnOpsDone.2 triStore [("A", triA), ("B", triB), ("C", triA)] true 50).1

theorem life_build [CommSemiring R] {rand : List Nat → List Nat → R} {cast : R → R} (ops : List NetOp) :
    ∀ s : FTN × List String, FTN.Life rand cast false s.1 s.2 →
      FTN.Life rand cast false (ops.foldl (fun s op => ((s.1.apply s.2 op).2.1, (s.1.apply s.2 op).1)) s).1
        (ops.foldl (fun s op => ((s.1.apply s.2 op).2.1, (s.1.apply s.2 op).1)) s).2 := by
  induction ops with
  | nil => exact fun _ h => h
  | cons op ops ih => exact fun s h => ih _ (h.build op)

theorem triStore_wf : WFStore triStore := by
  refine ⟨triStore_inv, fun l b h => ?_, fun l b h => ?_⟩ <;>
  · match l with
    | 0 => simp [triStore] at h
    | 1 => simp [triStore] at h; subst h; decide
    | 2 => simp [triStore] at h; subst h; decide
    | 3 => simp [triStore] at h
    | 4 => simp [triStore] at h; subst h; decide
    | 5 => simp [triStore] at h; subst h; decide
    | 6 => simp [triStore] at h
    | 7 => simp [triStore] at h; subst h; decide
    | 8 => simp [triStore] at h; subst h; decide
    | n + 9 => simp [triStore] at h

theorem ftnInput_ok : FTNInput triStore ftnOpsDone.2 ftnInput where
  wf := triStore_wf
  keys := by decide
  once := by decide
  nonempty := by decide
  good := by
    intro p hp
    simp only [ftnInput, List.mem_cons, List.not_mem_nil, or_false] at hp
    rcases hp with rfl | rfl | rfl
    · exact ⟨triNet_good.good triB (by decide), rfl⟩
    · exact ⟨triNet_good.good triC (by decide), rfl⟩
    · exact ⟨triNet_good.good triA (by decide), rfl⟩
  legs := by decide
  known := by decide
  labels := by decide
  pos := by decide

example : FTN.Life (R := Int) (fun _ _ => 0) id true ftnUsed ftnOpsDone.2 ∧
    FTNInput triStore ftnOpsDone.2 ftnInput ∧
    ((ftnUsed.meaning true (ftnInput.map fun p => (p.1, p.2.labelled triStore))).map (·.labels)) = some ["f", "g"] :=
  ⟨.contract (life_build ftnOps (FTN.new 0, []) (.new 0 [] true 10 (Or.inl rfl))) _ _ _ _, ftnInput_ok,
    by decide +kernel⟩

/-- The labels of what a call returned. -/
def resultLabels (r : FTN × Option (Except PyErr (Store × Tensor R))) : Option (List String) :=
  match r.2 with
  | some (.ok (st, t)) => some (t.legs.map st.name)
  | _ => none

/-- A network of two tensors without `realCost`, contracted once. -/
def staleNet : FTN :=
  (((FTN.new 0 false 10).apply ["A", "B"] (.addLink "A" "x" "B" "x")).2.1.contract (fun _ _ => (0 : Int)) id ["A", "B"]
    triStore [("A", triA), ("B", triB)] false 50).1

/-- The same network after `unlock`. -/
def staleNet' : FTN := { staleNet with locked := false }

/-- Why tensors must not be added later: after `unlock` and `addTensor` the old sequence is used again, and the new
tensor is left out of the result without any exception. -/
theorem C23_added_tensor_wrong :
    (staleNet.apply ["A", "B"] .unlock).2.1.apply ["A", "B"] (.addTensor "C")
      = (["A", "B", "C"], staleNet', none) ∧
    resultLabels (staleNet'.contract (fun _ _ => (0 : Int)) id ["A", "B", "C"] triStore ftnInput
      false 50) = some ["A-a", "A-y", "B-b", "B-z"] ∧
    ((staleNet'.meaning false (ftnInput.map fun p => (p.1, p.2.labelled triStore))).map
      (·.labels)) = some ["B-b", "B-z", "C-c", "C-y", "C-z", "A-a", "A-y"] :=
  ⟨by decide +kernel, by decide +kernel, by decide +kernel⟩

end CTL
