import Verif.Lemmas.FuelMono
import Verif.Lemmas.Traces
import Verif.Props.Legs
import Verif.Spec.HOTRG

/-! Contractions of ready-made networks as steps of a longer computation. -/

namespace CTL
variable {R K : Type}

/-! ### `Settles` -/

theorem Settles.bind {α β : Type} {X : Nat → Except PyErr α} {Y : Nat → α → Except PyErr β} {a : α} {b : β} (h : Settles X a)
    (k : Settles (fun f => Y f a) b) : Settles (fun f => X f >>= Y f) b := by
  obtain ⟨r1, h1⟩ := h
  obtain ⟨r2, h2⟩ := k
  refine ⟨max r1 r2, fun f hf => ?_⟩
  beta_reduce
  rw [h1 f ((le_max_left _ _).trans hf)]
  exact h2 f ((le_max_right _ _).trans hf)

theorem Settles.const {α : Type} {X : Except PyErr α} {a : α} (h : X = .ok a) : Settles (fun _ => X) a := ⟨0, fun _ _ => h⟩

theorem Settles.unique {α : Type} {X : Nat → Except PyErr α} {a b : α} (h : Settles X a) (k : Settles X b) : a = b := by
  obtain ⟨r1, h1⟩ := h
  obtain ⟨r2, h2⟩ := k
  exact Except.ok.inj ((h1 _ (le_max_left r1 r2)).symm.trans (h2 _ (le_max_right r1 r2)))

/-! ### Tensors in a store that has grown -/

theorem LegsUnchanged.refl (st : Store) : LegsUnchanged st st := ⟨le_rfl, fun _ _ => rfl⟩

theorem LegsUnchanged.trans {a b c : Store} (h : LegsUnchanged a b) (k : LegsUnchanged b c) : LegsUnchanged a c :=
  ⟨h.le.trans k.le, fun l hl => (k.leg l (hl.trans_le h.le)).trans (h.leg l hl)⟩

theorem Outcome.kept [Zero R] {st st' : Store} {t : Tensor R} {A : LArr R} (o : Outcome st st' t A) : LegsUnchanged st st' :=
  ⟨o.le, o.old.leg⟩

section
variable {st st' : Store} {t : Tensor R}

theorem LegsUnchanged.name (h : LegsUnchanged st st') {l : LegId} (hl : l < st.nextLeg) : st'.name l = st.name l := by
  unfold Store.name
  rw [h.leg l hl]

theorem LegsUnchanged.dim (h : LegsUnchanged st st') {l : LegId} (hl : l < st.nextLeg) : st'.dim l = st.dim l := by
  unfold Store.dim
  rw [h.leg l hl]

theorem LegsUnchanged.names (h : LegsUnchanged st st') (hk : ∀ l ∈ t.legs, l < st.nextLeg) : t.legs.map st'.name = t.legs.map st.name :=
  List.map_congr_left fun l hl => h.name (hk l hl)

theorem LegsUnchanged.dims (h : LegsUnchanged st st') (hk : ∀ l ∈ t.legs, l < st.nextLeg) : t.legs.map st'.dim = t.legs.map st.dim :=
  List.map_congr_left fun l hl => h.dim (hk l hl)

theorem LegsUnchanged.good (h : LegsUnchanged st st') (hk : ∀ l ∈ t.legs, l < st.nextLeg) (g : GoodTensor st t) : GoodTensor st' t := by
  obtain ⟨arr, ea, wa, sa, sd⟩ := g.data
  refine ⟨g.nodup, g.notLike, arr, ea, wa, fun hd => by rw [sa hd, h.dims hk], fun hd => ?_⟩
  rcases sd hd with h1 | ⟨h1, h2, h3⟩
  · exact Or.inl h1
  · exact Or.inr ⟨h1, h2, fun l hl => by rw [h.dim (hk l hl)]; exact h3 l hl⟩

theorem LegsUnchanged.hasLabels (h : LegsUnchanged st st') {labels : List String} (g : HasLabels st t labels) : HasLabels st' t labels :=
  ⟨h.good g.known g.good, g.dense, fun l hl => (g.known l hl).trans_le h.le, fun l hl => by
    rw [h.dim (g.known l hl)]
    exact g.pos l hl, by rw [h.names g.known]; exact g.labels⟩

theorem LegsUnchanged.at [Zero R] (h : LegsUnchanged st st') (hk : ∀ l ∈ t.legs, l < st.nextLeg) (xs : List (String × Nat)) :
    t.at st' xs = t.at st xs := by
  unfold Tensor.at
  exact entry_congr t fun l hl => by rw [h.name (hk l hl)]

theorem LegsUnchanged.dimOf (h : LegsUnchanged st st') (hk : ∀ l ∈ t.legs, l < st.nextLeg) (x : String) : t.dimOf st' x = t.dimOf st x := by
  unfold Tensor.dimOf
  have e1 : (t.legs.find? fun l => st'.name l == x) = t.legs.find? fun l => st.name l == x := by
    refine List.find?_congr fun l hl => ?_
    rw [h.name (hk l hl)]
  rw [e1]
  rcases hf : t.legs.find? fun l => st.name l == x with _ | l
  · rfl
  · have := List.mem_of_find?_eq_some hf
    simp only [Option.map_some, Option.getD_some]
    exact h.dim (hk l this)

end

/-! ### Outcomes -/

section
variable [Zero R] {st0 st : Store} {t : Tensor R} {A : LArr R}

theorem Outcome.hasLabels (o : Outcome st0 st t A) {labels : List String} (h : A.labels.Perm labels) : HasLabels st t labels :=
  ⟨o.good, o.dense, fun l hl => (o.fresh l hl).2, o.pos, o.rep.labels.trans h⟩

theorem Outcome.at (o : Outcome st0 st t A) {xs : List (String × Nat)} (h : ∀ x ∈ A.labels, indexAt xs x < A.dim x) :
    t.at st xs = A.val (indexAt xs) := o.rep.val (indexAt xs) h

omit [Zero R] in
theorem dimOf_leg {labels : List String} (h : HasLabels st t labels) (nd : labels.Nodup) {l : LegId} (hl : l ∈ t.legs) :
    t.dimOf st (st.name l) = st.dim l := by
  unfold Tensor.dimOf
  have ndn : (t.legs.map st.name).Nodup := h.labels.nodup_iff.mpr nd
  have hf : (t.legs.find? fun k => st.name k == st.name l) = some l := by
    rcases hf : t.legs.find? fun k => st.name k == st.name l with _ | k
    · have := List.find?_eq_none.mp hf l hl
      simp at this
    · have e := List.find?_some hf
      rw [beq_iff_eq] at e
      rw [List.inj_on_of_nodup_map ndn (List.mem_of_find?_eq_some hf) hl e]
  rw [hf]
  rfl

omit [Zero R] in
theorem dimOf_pos {labels : List String} (h : HasLabels st t labels) (nd : labels.Nodup) {x : String} (hx : x ∈ labels) :
    t.dimOf st x ≠ 0 := by
  obtain ⟨l, hl, rfl⟩ := List.mem_map.mp (h.labels.symm.subset hx)
  rw [dimOf_leg h nd hl]
  exact h.pos l hl

theorem Outcome.dimOf (o : Outcome st0 st t A) {x : String} (hx : x ∈ A.labels) : t.dimOf st x = A.dim x := by
  obtain ⟨l, hl, rfl⟩ := List.mem_map.mp (o.rep.labels.symm.subset hx)
  rw [dimOf_leg (o.hasLabels (.refl _)) o.rep.nodup hl]
  exact o.rep.dims l hl

omit [Zero R] in
theorem HasLabels.shapeOfLabel {labels : List String} (h : HasLabels st t labels) (nd : labels.Nodup) {x : String} (hx : x ∈ labels) :
    t.shapeOfLabel st x = some (t.dimOf st x) := by
  obtain ⟨ls, hn, hp, hg⟩ := legs_of_labels nd h.good.nodup h.labels
  rw [← hn] at hx
  obtain ⟨l, hl, rfl⟩ := List.mem_map.mp hx
  unfold Tensor.shapeOfLabel
  rw [hg l hl, dimOf_leg h nd (hp.subset hl)]
  rfl

/-- The matrix of a tensor with two legs. -/
theorem Outcome.matrix (o : Outcome st0 st t A) {x y : String} (hA : A.labels.Perm [x, y]) :
    ∃ m, t.toMatrix (some (t.legsOfLabels st [x])) (some (t.legsOfLabels st [y])) = .ok m ∧ m.WF ∧
      m.shape = [A.dim x, A.dim y] ∧ ∀ i < A.dim x, ∀ j < A.dim y, m.get [i, j] = A.val fun z => if z = x then i else j := by
  have nd : [x, y].Nodup := hA.nodup_iff.mp o.rep.nodup
  have hxy : x ≠ y := by simpa using nd
  obtain ⟨ls, hn, hp, hg⟩ := legs_of_labels nd o.good.nodup (o.rep.labels.trans hA)
  obtain ⟨lx, ly, rfl⟩ : ∃ lx ly, ls = [lx, ly] := by
    match ls, (by simpa using congrArg List.length hn : ls.length = 2) with
    | [lx, ly], _ => exact ⟨lx, ly, rfl⟩
  simp only [List.map_cons, List.map_nil, List.cons.injEq, and_true] at hn
  obtain ⟨nx, ny⟩ := hn
  have gx := hg lx (by simp)
  have gy := hg ly (by simp)
  rw [nx] at gx
  rw [ny] at gy
  have mx : lx ∈ t.legs := hp.subset (by simp)
  have my : ly ∈ t.legs := hp.subset (by simp)
  obtain ⟨m, e, w, s, v⟩ := C16_toMatrix_both o.good o.dense [lx] [ly] (by simp) (by simp) hp
  have dx : st.dim lx = A.dim x := by rw [o.rep.dims lx mx, nx]
  have dy : st.dim ly = A.dim y := by rw [o.rep.dims ly my, ny]
  refine ⟨m, ?_, w, ?_, fun i hi j hj => ?_⟩
  · unfold Tensor.legsOfLabels
    simp only [List.map_cons, List.map_nil, gx, gy, Option.getD_some]
    exact e
  · rw [s]
    simp [dx, dy]
  · have hr : A.InRange fun z => if z = x then i else j := by
      intro z hz
      have : z = x ∨ z = y := by simpa using hA.subset hz
      rcases this with rfl | rfl
      · beta_reduce
        rwa [if_pos rfl]
      · beta_reduce
        rwa [if_neg hxy.symm]
    rw [← o.rep.val _ hr, ← v (fun l => if st.name l = x then i else j) fun l hl => by
      rw [o.rep.dims l hl]
      exact hr _ (o.rep.labels.subset (List.mem_map_of_mem hl))]
    simp [ravel, nx, ny, hxy.symm]

end

/-! ### `contractNet` -/

theorem contractNet_settles [Field K] [LinearOrder K] [Star K] {p : RGParams K} {make : Nat → Except PyErr (FTN × List String)} {net : Net}
    (hn : NetOf p make net) {st : Store} {inputs dict : List (String × Tensor K)} {A : LArr K}
    (hc : Computes p.rand p.cast make st inputs A) (hd : dict.Perm inputs) :
    ∃ net' st' t, Settles (fun fuel => contractNet p fuel net st dict) (net', st', t) ∧ NetOf p make net' ∧ Outcome st st' t A := by
  obtain ⟨list, f, calls, hm, ha⟩ := hn
  obtain ⟨f1, names, hm1, h⟩ := hc list
  rw [hm] at hm1
  obtain ⟨rfl, hnames⟩ := Prod.mk.inj (Except.ok.inj hm1)
  obtain ⟨rounds, hr⟩ := h calls dict hd
  rw [← hnames, ← ha] at hr
  obtain ⟨f', st', t, e, o⟩ := hr rounds le_rfl
  refine ⟨(f', net.2), st', t, ⟨rounds, fun fuel hf => ?_⟩, ⟨list, f, calls ++ [(st, dict, true, rounds)], hm, ?_⟩, o⟩
  · beta_reduce
    unfold contractNet
    rw [contract_more _ _ _ _ _ _ _ hf e]
  · unfold FTN.after at ha ⊢
    rw [List.foldl_append, ← ha, List.foldl_cons, List.foldl_nil, e]

theorem NetOf.made [Field K] {p : RGParams K} {make : Nat → Except PyErr (FTN × List String)} {list : Nat} {net : Net}
    (h : make list = .ok net) : NetOf p make net := ⟨list, net.1, [], h, rfl⟩

end CTL
