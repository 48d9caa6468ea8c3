import Verif.Spec.Mixed
import Verif.Lemmas.Sequence
import Verif.Lemmas.Frame

/-! The execution of sequences on dense and diagonal tensors. -/

namespace CTL
variable {R : Type}

/-- The slots in the middle of a contraction of `ts0`: slot `i` holds what the tensors `g i` contract to. -/
structure MixedRun (st0 : Store) (ts0 : List (Tensor R)) (st : Store) (ts : List (Tensor R)) (live : List Nat)
    (g : Nat → List Nat) : Prop where
  nd : live.Nodup
  lt : ∀ i ∈ live, i < ts.length
  good : GoodNet st (pick ts live)
  part : ∀ l, st.partner l = st0.partner l
  dim : st.dim = st0.dim
  ne : ∀ i ∈ live, g i ≠ []
  bound : ∀ i ∈ live, ∀ j ∈ g i, j < ts0.length
  dis : ∀ i ∈ live, ∀ j ∈ live, i ≠ j → ∀ k ∈ g i, k ∉ g j
  diag : ∀ i ∈ live, ∀ x, ts[i]? = some x → (x.diag = true ↔ ∀ j ∈ g i, ∀ u, ts0[j]? = some u → u.diag = true)
  legs : ∀ i ∈ live, ∀ x, ts[i]? = some x → ∀ l, l ∈ x.legs ↔ ∃ j ∈ g i, ∃ u, ts0[j]? = some u ∧ l ∈ u.legs ∧
    ∀ m, st0.partner l = some m → ∀ k ∈ g i, ∀ v, ts0[k]? = some v → m ∉ v.legs

/-- What is known of the network at the start. -/
structure MixedNet (st : Store) (ts : List (Tensor R)) : Prop where
  good : GoodNet st ts
  inside : ∀ t ∈ ts, ∀ l ∈ t.legs, ∀ m, st.partner l = some m → m ∉ t.legs ∧ ∃ u ∈ ts, m ∈ u.legs
  pos : ∀ t ∈ ts, ∀ l ∈ t.legs, st.dim l ≠ 0
  conn : NetConnected st ts

theorem MixedNet.own {st : Store} {ts : List (Tensor R)} (M : MixedNet st ts) {i j : Nat} {t u : Tensor R} {l : LegId}
    (hi : ts[i]? = some t) (hj : ts[j]? = some u) (h1 : l ∈ t.legs) (h2 : l ∈ u.legs) : i = j := by
  by_contra hne
  obtain ⟨hj', rfl⟩ := List.getElem?_eq_some_iff.mp hi
  obtain ⟨hk', rfl⟩ := List.getElem?_eq_some_iff.mp hj
  have pw := (List.nodup_flatMap.mp M.good.nodup).2
  rw [List.pairwise_iff_getElem] at pw
  rcases Nat.lt_or_gt_of_ne hne with h | h
  · exact pw i j hj' hk' h h1 h2
  · exact pw j i hk' hj' h h2 h1

theorem MixedNet.start {st : Store} {ts : List (Tensor R)} (M : MixedNet st ts) :
    MixedRun st ts st ts (List.range ts.length) fun i => [i] := by
  refine ⟨List.nodup_range, by simp, by rw [pick_range]; exact M.good, fun _ => rfl, rfl, by simp, by simp, ?_, ?_, ?_⟩
  · intro i _ j _ hij k hk
    simp only [List.mem_singleton] at hk ⊢
    rw [hk]
    exact hij
  · intro i _ x hx
    simp [hx]
  · intro i _ x hx l
    simp only [List.mem_singleton, exists_eq_left, hx, Option.some.injEq, exists_eq_left', forall_eq, forall_eq']
    constructor
    · intro hl
      exact ⟨hl, fun m hm => (M.inside x (List.mem_of_getElem? hx) l hl m hm).1⟩
    · exact fun h => h.1

/-- A bond between two groups is a bond between their results. -/
theorem MixedRun.bond {st0 st : Store} {ts0 ts : List (Tensor R)} {live : List Nat} {g : Nat → List Nat} (M : MixedNet st0 ts0)
    (r : MixedRun st0 ts0 st ts live g) {s : Nat} (hs : s ∈ live) {a : Tensor R} (ea : ts[s]? = some a) {i j : Nat} (hi : i ∈ g s)
    (hj : j ∉ g s) {t u : Tensor R} (ht : ts0[i]? = some t) (hu : ts0[j]? = some u) {l m : LegId} (hl : l ∈ t.legs)
    (hm : m ∈ u.legs) (hp : st0.partner l = some m) : l ∈ a.legs := by
  refine (r.legs s hs a ea l).mpr ⟨i, hi, t, ht, hl, ?_⟩
  intro m' hm' k hk v hv hmv
  rw [hp] at hm'
  cases hm'
  have := M.own hu hv hm hmv
  subst this
  exact hj hk

/-- In a connected network, a result that is not the last one has legs. -/
theorem MixedRun.hasLegs {st0 st : Store} {ts0 ts : List (Tensor R)} {live : List Nat} {g : Nat → List Nat} (M : MixedNet st0 ts0)
    (r : MixedRun st0 ts0 st ts live g) {s t : Nat} (hs : s ∈ live) (ht : t ∈ live) (hne : s ≠ t) {a : Tensor R}
    (ea : ts[s]? = some a) : a.legs ≠ [] := by
  obtain ⟨i, hi⟩ := List.exists_mem_of_ne_nil _ (r.ne s hs)
  obtain ⟨j, hj⟩ := List.exists_mem_of_ne_nil _ (r.ne t ht)
  have hj' : j ∉ g s := r.dis t ht s hs hne.symm j hj
  have key : ∀ k, Relation.ReflTransGen (Joined st0 ts0) i k → k ∉ g s → ∃ x ∈ g s, ∃ y, y ∉ g s ∧ Joined st0 ts0 x y := by
    intro k h
    induction h with
    | refl => exact fun h => absurd hi h
    | tail _ hb ih =>
      rename_i b c _
      intro hc
      by_cases hbs : b ∈ g s
      · exact ⟨b, hbs, c, hc, hb⟩
      · exact ih hbs
  obtain ⟨x, hx, y, hy, t', u', h1, h2, l, hl, m, hm, hp⟩ := key j
    (M.conn i j (r.bound s hs i hi) (r.bound t ht j hj)) hj'
  exact List.ne_nil_of_mem (r.bond M hs ea hx hy h1 h2 hl hm hp)

theorem MixedRun.safe [CommSemiring R] {cast : R → R} (hcast : ∀ x, cast x = x) {st0 st : Store} {ts0 ts : List (Tensor R)}
    {live : List Nat} {g : Nat → List Nat} (M : MixedNet st0 ts0) (r : MixedRun st0 ts0 st ts live g) {s t : Nat} (hs : s ∈ live)
    (ht : t ∈ live) (hne : s ≠ t) {a b : Tensor R} (ea : ts[s]? = some a) (eb : ts[t]? = some b)
    (h : (∃ i ∈ g s ++ g t, ¬ DiagAt ts0 i) ∨ ∃ i ∈ g s, ∃ j ∈ g t, Joined st0 ts0 i j) : SafeStep cast st a b := by
  rcases h with ⟨i, hi, hd⟩ | ⟨i, hi, j, hj, t', u', h1, h2, l, hl, m, hm, hp⟩
  · have notDiag : ∀ k ∈ live, ∀ x, ts[k]? = some x → i ∈ g k → x.diag = false := by
      intro k hk x hx hik
      rw [Bool.eq_false_iff]
      intro hx'
      refine hd ⟨_, List.getElem?_eq_getElem (r.bound k hk i hik), ?_⟩
      exact (r.diag k hk x hx).mp hx' i hik _ (List.getElem?_eq_getElem (r.bound k hk i hik))
    have la := r.hasLegs M hs ht hne ea
    have lb := r.hasLegs M ht hs hne.symm eb
    rcases List.mem_append.mp hi with hi | hi
    · have da := notDiag s hs a ea hi
      cases db : b.diag with
      | false => exact Or.inl ⟨da, db⟩
      | true => exact Or.inr (Or.inr (Or.inr ⟨Or.inr ⟨da, db, lb⟩, fun _ _ => hcast _⟩))
    · have db := notDiag t ht b eb hi
      cases da : a.diag with
      | false => exact Or.inl ⟨da, db⟩
      | true => exact Or.inr (Or.inr (Or.inr ⟨Or.inl ⟨da, db, la⟩, fun _ _ => hcast _⟩))
  · have d1 : j ∉ g s := r.dis t ht s hs hne.symm j hj
    have d2 : i ∉ g t := r.dis s hs t ht hne i hi
    refine Or.inr (Or.inl ⟨l, r.bond M hs ea hi d1 h1 h2 hl hm hp, m, ?_, by rw [r.part, hp]⟩)
    exact r.bond M ht eb hj d2 h2 h1 hm hl (partner_symm M.good.inv hp)

theorem MixedRun.pos {st0 st : Store} {ts0 ts : List (Tensor R)}
    {live : List Nat} {g : Nat → List Nat} (M : MixedNet st0 ts0) (r : MixedRun st0 ts0 st ts live g) :
    ∀ l m, st.partner l = some m → Cross (pick ts live) l m → st.dim l ≠ 0 := by
  rintro l m _ ⟨⟨x, hx, hl, _⟩, _⟩
  obtain ⟨i, hi, hx⟩ := List.mem_filterMap.mp hx
  obtain ⟨j, _, u, hu, hlu, _⟩ := (r.legs i hi x hx l).mp hl
  rw [r.dim]
  exact M.pos u (List.mem_of_getElem? hu) l hlu

/-- One step. -/
theorem MixedRun.step [CommSemiring R] {cast : R → R} (hcast : ∀ x, cast x = x) {st0 st : Store} {ts0 ts : List (Tensor R)}
    {live : List Nat} {g : Nat → List Nat} (M : MixedNet st0 ts0) (r : MixedRun st0 ts0 st ts live g) {s t : Nat} (hs : s ∈ live)
    (ht : t ∈ live) (hne : s ≠ t)
    (h : (∃ i ∈ g s ++ g t, ¬ DiagAt ts0 i) ∨ ∃ i ∈ g s, ∃ j ∈ g t, Joined st0 ts0 i j) :
    ∃ st' ts' c, seqStep cast st ts (s, t) = .ok (st', ts', c) ∧
      MixedRun st0 ts0 st' ts' (live.erase (max s t)) (fun k => if k = min s t then g s ++ g t else g k) ∧
      ∀ l, (∀ u ∈ ts0, l ∉ u.legs) → st'.leg l = st.leg l := by
  obtain ⟨a, b, o, st1, ea, eb, hperm, hso, ho, hcon, hstep, hmin, hrest, hperm'⟩ :=
    seqStep_spec cast r.nd r.lt r.good (r.pos M) hs ht hne fun ta tb h1 h2 => r.safe hcast M hs ht hne h1 h2 h
  obtain ⟨kd, kf⟩ := contract_kind cast ho
  have g' := r.good.perm hperm
  have hsame := hcon.same
  have hpart := hsame.partner r.good.inv
  have gn := step_goodNet g' hcon
  have mem0 : ∀ i ∈ live, ∀ x, ts[i]? = some x → ∀ l ∈ x.legs, ∃ u ∈ ts0, l ∈ u.legs := by
    intro i hi x hx l hl
    obtain ⟨j, _, u, hu, hlu, _⟩ := (r.legs i hi x hx l).mp hl
    exact ⟨u, List.mem_of_getElem? hu, hlu⟩
  have hmm : min s t ≠ max s t := by omega
  have slots : ∀ i ∈ live.erase (max s t), i = min s t ∨ (i ≠ min s t ∧ i ≠ s ∧ i ≠ t ∧ i ∈ live ∧
      (((ts.set s o.ta).set t o.tb).set (min s t) o.result)[i]? = ts[i]?) := by
    intro i hi
    by_cases e : i = min s t
    · exact Or.inl e
    · obtain ⟨h1, h2⟩ := r.nd.mem_erase_iff.mp hi
      have h3 : i ≠ s ∧ i ≠ t := by omega
      exact Or.inr ⟨e, h3.1, h3.2, h2, hrest i ((List.mem_erase_of_ne h3.2).mpr ((List.mem_erase_of_ne h3.1).mpr h2))⟩
  refine ⟨_, _, _, hstep, ⟨r.nd.erase _, ?_, gn.perm hperm'.symm, fun l => (hpart l).trans (r.part l),
    hsame.dim.trans r.dim, ?_, ?_, ?_, ?_, ?_⟩, ?_⟩
  · intro i hi
    simp only [List.length_set]
    exact r.lt i (List.mem_of_mem_erase hi)
  · intro i hi
    rcases slots i hi with e | ⟨e, _, _, hi', _⟩
    · simp only [if_pos e]
      exact fun h => r.ne s hs (List.append_eq_nil_iff.mp h).1
    · simp only [if_neg e]
      exact r.ne i hi'
  · intro i hi j hj
    rcases slots i hi with e | ⟨e, _, _, hi', _⟩
    · simp only [if_pos e] at hj
      rcases List.mem_append.mp hj with hj | hj
      · exact r.bound s hs j hj
      · exact r.bound t ht j hj
    · simp only [if_neg e] at hj
      exact r.bound i hi' j hj
  · intro i hi j hj hij k hk hk'
    rcases slots i hi with e | ⟨e, e1, e2, hi', _⟩ <;> rcases slots j hj with f | ⟨f, f1, f2, hj', _⟩
    · exact hij (e.trans f.symm)
    · rw [if_pos e] at hk
      rw [if_neg f] at hk'
      rcases List.mem_append.mp hk with hk | hk
      · exact r.dis s hs j hj' f1.symm k hk hk'
      · exact r.dis t ht j hj' f2.symm k hk hk'
    · rw [if_neg e] at hk
      rw [if_pos f] at hk'
      rcases List.mem_append.mp hk' with hk' | hk'
      · exact r.dis i hi' s hs e1 k hk hk'
      · exact r.dis i hi' t ht e2 k hk hk'
    · rw [if_neg e] at hk
      rw [if_neg f] at hk'
      exact r.dis i hi' j hj' hij k hk hk'
  · intro i hi x hx
    rcases slots i hi with e | ⟨e, _, _, hi', eq⟩
    · rw [e, hmin] at hx
      cases hx
      simp only [if_pos e]
      rw [kd, Bool.and_eq_true, r.diag s hs a ea, r.diag t ht b eb]
      simp only [List.mem_append]
      constructor
      · rintro ⟨h1, h2⟩ j (hj | hj)
        · exact h1 j hj
        · exact h2 j hj
      · exact fun h => ⟨fun j hj => h j (Or.inl hj), fun j hj => h j (Or.inr hj)⟩
    · rw [eq] at hx
      simp only [if_neg e]
      exact r.diag i hi' x hx
  · intro i hi x hx l
    rcases slots i hi with e | ⟨e, _, _, hi', eq⟩
    swap
    · rw [eq] at hx
      simp only [if_neg e]
      exact r.legs i hi' x hx l
    rw [e, hmin] at hx
    cases hx
    simp only [if_pos e]
    rw [hcon.legs.mem_iff, restA_eq, restB_eq r.good.inv]
    simp only [List.mem_append, List.mem_filter, decide_eq_true_eq]
    have half : ∀ {s t : Nat} {a b : Tensor R}, s ∈ live → t ∈ live → s ≠ t → ts[s]? = some a → ts[t]? = some b →
        ((l ∈ a.legs ∧ ∀ m ∈ b.legs, st.partner l ≠ some m) ↔ ∃ j ∈ g s, ∃ u, ts0[j]? = some u ∧ l ∈ u.legs ∧
          ∀ m, st0.partner l = some m → ∀ k, k ∈ g s ∨ k ∈ g t → ∀ v, ts0[k]? = some v → m ∉ v.legs) := by
      intro s t a b hs ht hne ea eb
      constructor
      · rintro ⟨hl, hnb⟩
        obtain ⟨j, hj, u, hu, hlu, hno⟩ := (r.legs s hs a ea l).mp hl
        refine ⟨j, hj, u, hu, hlu, ?_⟩
        rintro m hm k (hk | hk) v hv hmv
        · exact hno m hm k hk v hv hmv
        · refine hnb m ?_ (by rw [r.part, hm])
          exact r.bond M ht eb hk (r.dis s hs t ht hne j hj) hv hu hmv hlu (partner_symm M.good.inv hm)
      · rintro ⟨j, hj, u, hu, hlu, hno⟩
        refine ⟨(r.legs s hs a ea l).mpr ⟨j, hj, u, hu, hlu, fun m hm k hk => hno m hm k (Or.inl hk)⟩, ?_⟩
        intro m hmb hp
        rw [r.part] at hp
        obtain ⟨k, hk, v, hv, hmv, _⟩ := (r.legs t ht b eb m).mp hmb
        exact hno m hp k (Or.inr hk) v hv hmv
    rw [half hs ht hne ea eb, half ht hs hne.symm eb ea]
    constructor
    · rintro (⟨j, hj, u, hu, hlu, hno⟩ | ⟨j, hj, u, hu, hlu, hno⟩)
      · exact ⟨j, Or.inl hj, u, hu, hlu, hno⟩
      · exact ⟨j, Or.inr hj, u, hu, hlu, fun m hm k hk => hno m hm k hk.symm⟩
    · rintro ⟨j, hj | hj, u, hu, hlu, hno⟩
      · exact Or.inl ⟨j, hj, u, hu, hlu, hno⟩
      · exact Or.inr ⟨j, hj, u, hu, hlu, fun m hm k hk => hno m hm k hk.symm⟩
  · intro l hl
    rw [kf l (fun h => ?_) (fun h => ?_)]
    · rw [hso.leg]
    · obtain ⟨u, hu, h⟩ := mem0 s hs a ea l h
      exact hl u hu h
    · obtain ⟨u, hu, h⟩ := mem0 t ht b eb l h
      exact hl u hu h

/-- All steps. -/
theorem MixedRun.loop [CommSemiring R] {cast : R → R} (hcast : ∀ x, cast x = x) {st0 : Store} {ts0 : List (Tensor R)}
    (M : MixedNet st0 ts0) : ∀ (seq : List (Nat × Nat)) (st : Store) (ts : List (Tensor R)) (live : List Nat)
    (g : Nat → List Nat), MixedRun st0 ts0 st ts live g → 0 ∈ live → (∀ k, k < ts0.length → ∃ i ∈ live, k ∈ g i) →
    validFrom live seq → stepsSafe (Joined st0 ts0) (DiagAt ts0) g seq →
    SafeSeq cast st ts seq ∧ ∀ total st' ts' total' x, seqLoop cast st ts total seq = .ok (st', ts', total') → ts'[0]? = some x →
      (x.diag = true ↔ ∀ u ∈ ts0, u.diag = true) ∧ ∀ l, (∀ u ∈ ts0, l ∉ u.legs) → st'.leg l = st.leg l
  | [], st, ts, live, g, r, h0, hcov, hv, _ => by
    refine ⟨trivial, ?_⟩
    intro total st' ts' total' x h hx
    simp only [seqLoop, Except.ok.injEq, Prod.mk.injEq] at h
    obtain ⟨rfl, rfl, _⟩ := h
    refine ⟨?_, fun _ _ => rfl⟩
    rw [r.diag 0 h0 x hx]
    have hlive : live = [0] := by
      unfold validFrom at hv
      rw [List.length_eq_one_iff] at hv
      obtain ⟨x, rfl⟩ := hv
      simp only [List.mem_singleton] at h0
      rw [h0]
    constructor
    · intro h u hu
      obtain ⟨k, hk, rfl⟩ := List.mem_iff_getElem.mp hu
      obtain ⟨i, hi, hki⟩ := hcov k hk
      rw [hlive, List.mem_singleton] at hi
      subst hi
      exact h k hki _ (List.getElem?_eq_getElem hk)
    · exact fun h j _ u hu => h u (List.mem_of_getElem? hu)
  | (s, t) :: seq, st, ts, live, g, r, h0, hcov, hv, hsafe => by
    obtain ⟨hs, ht, hne, hv'⟩ := hv
    obtain ⟨h1, h2⟩ := hsafe
    obtain ⟨st1, ts1, c1, e1, r1, f1⟩ := r.step hcast M hs ht hne h1
    have h0' : 0 ∈ live.erase (max s t) := by
      apply (List.mem_erase_of_ne _).mpr h0
      omega
    obtain ⟨k1, k2⟩ := MixedRun.loop hcast M seq st1 ts1 _ _ r1 h0' (by
      intro k hk
      obtain ⟨i, hi, hki⟩ := hcov k hk
      by_cases e : i = s ∨ i = t
      · refine ⟨min s t, ?_, ?_⟩
        · refine (List.mem_erase_of_ne (by omega)).mpr ?_
          rcases le_total s t with h | h <;> simp [h, hs, ht]
        · simp only [if_true, List.mem_append]
          rcases e with rfl | rfl
          · exact Or.inl hki
          · exact Or.inr hki
      · refine ⟨i, (List.mem_erase_of_ne (by omega)).mpr hi, ?_⟩
        have : i ≠ min s t := by omega
        simp only [if_neg this]
        exact hki) hv' h2
    refine ⟨?_, ?_⟩
    · intro ta tb ea eb
      refine ⟨r.safe hcast M hs ht hne ea eb h1, ?_⟩
      intro st' ts' c e
      rw [e1] at e
      cases e
      exact k1
    · intro total st' ts' total' x h hx
      unfold seqLoop at h
      rw [e1] at h
      obtain ⟨d1, d2⟩ := k2 _ st' ts' total' x h hx
      exact ⟨d1, fun l hl => (d2 l hl).trans (f1 l hl)⟩

/-- Contracting a connected network of dense and diagonal tensors along a sequence without outer products of diagonals. -/
theorem mixed_contract [CommSemiring R] {cast : R → R} (hcast : ∀ x, cast x = x) {st : Store} {ts : List (Tensor R)}
    (M : MixedNet st ts) {q : List (Nat × Nat)} (hv : ValidSeq ts.length q) (hs : NoOuterDiag st ts q) :
    SafeSeq cast st ts q ∧ ∀ st' t c, contractInPlace cast st ts q = .ok (st', t, c) →
      (t.diag = true ↔ ∀ u ∈ ts, u.diag = true) ∧ ∀ l, (∀ u ∈ ts, l ∉ u.legs) → st'.leg l = st.leg l := by
  have h0 : 0 ∈ List.range ts.length := by
    cases hts : ts with
    | nil => rw [hts] at hv; cases q <;> simp [ValidSeq, validFrom] at hv
    | cons x xs => simp
  obtain ⟨k1, k2⟩ := MixedRun.loop hcast M q st ts (List.range ts.length) _ M.start h0
    (fun k hk => ⟨k, List.mem_range.mpr hk, by simp⟩) hv hs
  refine ⟨k1, ?_⟩
  intro st' t c h
  unfold contractInPlace at h
  obtain ⟨r, h1, h2⟩ := except_bind_ok.mp h
  obtain ⟨st1, ts1, c1⟩ := r
  simp only at h2
  split at h2
  · cases h2
  · rename_i t1 ts2
    rw [except_pure_ok] at h2
    obtain ⟨rfl, e⟩ := Prod.mk.inj h2
    obtain ⟨rfl, _⟩ := Prod.mk.inj e
    exact k2 0 _ _ _ _ h1 rfl

end CTL
