import Verif.Spec.FTN
import Verif.Lemmas.Ext
import Verif.Lemmas.Net
import Verif.Props.Ops
import Verif.Props.Construct

/-! Tensors and labelled arrays: renaming, copying, fusing. -/

namespace CTL
variable {R : Type}

theorem find?_key {α β : Type} [BEq β] [LawfulBEq β] (f : α → β) : ∀ (l : List α), (l.map f).Nodup → ∀ x ∈ l,
    l.find? (fun w => f w == f x) = some x
  | [], _, _, h => by cases h
  | y :: l, hn, x, hx => by
    rw [List.map_cons, List.nodup_cons] at hn
    by_cases e : f y = f x
    · have : y = x := by
        rcases List.mem_cons.mp hx with rfl | hx
        · rfl
        · exact absurd (e ▸ List.mem_map_of_mem hx) hn.1
      subst this
      simp
    · rw [List.find?_cons_of_neg (by simpa using e)]
      rcases List.mem_cons.mp hx with rfl | hx
      · exact absurd rfl e
      · exact find?_key f l hn.2 x hx

theorem LArr.relabel?_some {A B : LArr R} {f : String → String} (h : A.relabel? f = some B) :
    (A.labels.map f).Nodup ∧ B = A.relabel f := by
  unfold LArr.relabel? at h
  split at h
  · exact ⟨by assumption, (Option.some.inj h).symm⟩
  · cases h

theorem LArr.relabel_dim (A : LArr R) {f : String → String} (h : (A.labels.map f).Nodup) {x : String} (hx : x ∈ A.labels) :
    (A.relabel f).dim (f x) = A.dim x := by
  unfold LArr.relabel
  simp only [find?_key f A.labels h x hx, Option.map_some, Option.getD_some]

section
variable [Zero R] {st st' : Store} {t : Tensor R} {A B : LArr R}

/-- A tensor with different labels is the array read off it. -/
theorem represents_labelled (h : (t.legs.map st.name).Nodup) : Represents st t (t.labelled st) := by
  refine ⟨h, .refl _, ?_, fun τ _ => rfl⟩
  intro l hl
  unfold Tensor.labelled
  simp only [find?_key st.name t.legs h l hl, Option.map_some, Option.getD_some]

theorem Represents.mem (h : Represents st t A) {l : LegId} (hl : l ∈ t.legs) : st.name l ∈ A.labels :=
  h.labels.subset (List.mem_map_of_mem hl)

theorem Represents.leg (h : Represents st t A) {x : String} (hx : x ∈ A.labels) : ∃ l ∈ t.legs, st.name l = x :=
  List.mem_map.mp (h.labels.symm.subset hx)

theorem Represents.names (h : Represents st t A) : (t.legs.map st.name).Nodup := h.labels.nodup_iff.mpr h.nodup

theorem Represents.inj (h : Represents st t A) {l m : LegId} (hl : l ∈ t.legs) (hm : m ∈ t.legs)
    (e : st.name l = st.name m) : l = m := List.inj_on_of_nodup_map h.names hl hm e

/-- Nothing changes if names and dimensions are the same. -/
theorem Represents.congr (h : Represents st t A) (hn : ∀ l ∈ t.legs, st'.name l = st.name l)
    (hd : ∀ l ∈ t.legs, st'.dim l = st.dim l) : Represents st' t A := by
  refine ⟨h.nodup, ?_, ?_, ?_⟩
  · rw [List.map_congr_left hn]
    exact h.labels
  · intro l hl
    rw [hn l hl, hd l hl]
    exact h.dims l hl
  · intro τ hτ
    rw [← h.val τ hτ]
    exact entry_congr t fun l hl => by rw [hn l hl]

/-- New names. -/
theorem Represents.relabel (h : Represents st t A) {f : String → String} (hn : ∀ l ∈ t.legs, st'.name l = f (st.name l))
    (hd : ∀ l ∈ t.legs, st'.dim l = st.dim l) (hB : A.relabel? f = some B) : Represents st' t B := by
  obtain ⟨nd, rfl⟩ := LArr.relabel?_some hB
  have hmap : t.legs.map st'.name = (t.legs.map st.name).map f := by
    rw [List.map_map]
    exact List.map_congr_left hn
  refine ⟨nd, ?_, ?_, ?_⟩
  · rw [hmap]
    exact h.labels.map f
  · intro l hl
    rw [hn l hl, hd l hl, A.relabel_dim nd (h.mem hl)]
    exact h.dims l hl
  · intro τ hτ
    have hr : A.InRange fun x => τ (f x) := by
      intro x hx
      have := hτ (f x) (List.mem_map_of_mem hx)
      rwa [A.relabel_dim nd hx] at this
    show _ = A.val fun x => τ (f x)
    rw [← h.val _ hr]
    exact entry_congr t fun l hl => by rw [hn l hl]

/-- The effect of `renameLabel`. -/
theorem Represents.renameLabel (h : Represents st t A) (x y : String) :
    SameButNames st (t.renameLabel st x y) t.legs ∧
    ∀ l ∈ t.legs, (t.renameLabel st x y).name l = renameTo x y (st.name l) := by
  by_cases hex : ∃ l ∈ t.legs, st.name l = x
  · obtain ⟨l, hl, hx⟩ := hex
    rw [renameLabel_unique st t x y hl hx fun k hk e => h.inj hk hl (e.trans hx.symm)]
    refine ⟨sameButNames_rename st y hl, fun k hk => ?_⟩
    rw [name_rename]
    unfold renameTo
    by_cases e : k = l
    · subst e
      rw [if_pos rfl, if_pos hx]
    · rw [if_neg e, if_neg fun e' => e (h.inj hk hl (e'.trans hx.symm))]
  · rw [renameLabel_none st t x y fun l hl e => hex ⟨l, hl, e⟩]
    refine ⟨sameButNames_refl st _, fun l hl => ?_⟩
    unfold renameTo
    rw [if_neg fun e => hex ⟨l, hl, e⟩]

/-- A dense tensor with data has the shape of its legs. -/
theorem GoodTensor.shape_dense (g : GoodTensor st t) (hd : t.diag = false) : t.shape st = t.legs.map st.dim := by
  obtain ⟨arr, h1, _, h3, _⟩ := g.data
  unfold Tensor.shape
  simp only [hd, h1, Bool.false_eq_true, if_false]
  exact h3 hd

end

/-- What a copy represents. -/
theorem Represents.copy [Zero R] {st st' : Store} {t t' : Tensor R} {A : LArr R} (h : Represents st t A)
    (d : t'.diag = t.diag) (hdim : t'.legs.map st'.dim = t.legs.map st.dim)
    (hname : t'.legs.map st'.name = t.legs.map st.name) (ha : t'.a = t.a) : Represents st' t' A := by
  refine ⟨h.nodup, by rw [hname]; exact h.labels, ?_, ?_⟩
  · intro l hl
    obtain ⟨i, hi, rfl⟩ := List.mem_iff_getElem.mp hl
    have hlen : t'.legs.length = t.legs.length := by simpa using congrArg List.length hdim
    have e1 : st'.dim t'.legs[i] = st.dim (t.legs[i]'(hlen ▸ hi)) := by
      have := List.getElem_of_eq hdim (i := i) (by simpa using hi)
      simpa using this
    have e2 : st'.name t'.legs[i] = st.name (t.legs[i]'(hlen ▸ hi)) := by
      have := List.getElem_of_eq hname (i := i) (by simpa using hi)
      simpa using this
    rw [e1, e2]
    exact h.dims _ (List.getElem_mem _)
  · intro τ hτ
    rw [← h.val τ hτ]
    unfold entry
    rw [ha]
    cases t.a with
    | none => rfl
    | some arr =>
      have := congrArg (List.map τ) hname
      rw [List.map_map, List.map_map] at this
      rw [d]
      cases t.diag with
      | false => exact congrArg arr.get this
      | true =>
        simp only [if_true]
        revert this
        cases t.legs with
        | nil =>
          cases t'.legs with
          | nil => exact fun _ => rfl
          | cons _ _ => intro h; simp at h
        | cons l ls =>
          cases t'.legs with
          | nil => intro h; simp at h
          | cons m ms =>
            intro h
            rw [List.map_cons, List.map_cons] at h
            obtain ⟨h0, h1⟩ := List.cons.inj h
            simp only [Function.comp_apply] at h0
            have key : (∀ x ∈ ms, τ (st'.name x) = τ (st'.name m)) ↔ ∀ x ∈ ls, τ (st.name x) = τ (st.name l) := by
              have e : ∀ (as : List LegId) (f : LegId → Nat) (k : Nat), (∀ x ∈ as, f x = k) ↔ ∀ y ∈ as.map f, y = k := by simp
              rw [e ms (fun x => τ (st'.name x)), e ls (fun x => τ (st.name x)), h0]
              exact iff_of_eq (congrArg (fun as => ∀ y ∈ as, y = τ (st.name l)) h1)
            simp only [h0] at key ⊢
            by_cases hk : ∀ x ∈ ls, τ (st.name x) = τ (st.name l)
            · rw [if_pos hk, if_pos (key.mpr hk)]
            · rw [if_neg hk, if_neg fun h => hk (key.mp h)]

/-! ### Fusion -/

theorem digits_length : ∀ (ds : List Nat) (k : Nat), (LArr.digits ds k).length = ds.length
  | [], _ => rfl
  | _ :: ds, k => by simp [LArr.digits, digits_length ds]

theorem ravel_digits : ∀ (ds : List Nat) (k : Nat), k < ds.prod → ravel ds (LArr.digits ds k) = k
  | [], k, h => by
    simp only [List.prod_nil] at h
    simp [LArr.digits, ravel]
    omega
  | d :: ds, k, h => by
    have hp : 0 < ds.prod := by
      rcases Nat.eq_zero_or_pos ds.prod with e | e
      · simp [e] at h
      · exact e
    simp only [LArr.digits, ravel, ravel_digits ds _ (Nat.mod_lt _ hp)]
    exact Nat.div_add_mod' k ds.prod

theorem digits_lt : ∀ (ds : List Nat) (k : Nat), k < ds.prod → ∀ i (hi : i < ds.length),
    (LArr.digits ds k).getD i 0 < ds[i]
  | [], _, _, i, hi => by cases hi
  | d :: ds, k, h, i, hi => by
    have hp : 0 < ds.prod := by
      rcases Nat.eq_zero_or_pos ds.prod with e | e
      · simp [e] at h
      · exact e
    cases i with
    | zero =>
      simp only [LArr.digits, List.getD_cons_zero, List.getElem_cons_zero]
      rw [List.prod_cons] at h
      exact (Nat.div_lt_iff_lt_mul hp).mpr h
    | succ i =>
      simp only [LArr.digits, List.getD_cons_succ, List.getElem_cons_succ]
      exact digits_lt ds _ (Nat.mod_lt _ hp) i (by simpa using hi)

/-- Fusing the legs `front` of a dense tensor. -/
theorem Represents.fuse [Zero R] {st : Store} {t : Tensor R} {A : LArr R} (h : Represents st t A) (g : GoodTensor st t)
    (dg : t.diag = false) (hfresh : ∀ l ∈ t.legs, l < st.nextLeg) (hpos : ∀ l ∈ t.legs, st.dim l ≠ 0)
    {xs : List String} {new : String} (hne : xs ≠ []) (nd : xs.Nodup) (hsub : ∀ x ∈ xs, x ∈ A.labels)
    (hnew : ∀ x ∈ A.labels, x ∉ xs → x ≠ new) :
    ∃ st' t' r, t.outProductLabels st xs new = (st', t', .ok r) ∧ Represents st' t' (A.fuse xs new) ∧ GoodTensor st' t' ∧
      t'.diag = false ∧ (∀ l ∈ t'.legs, l < st'.nextLeg) ∧ (∀ l ∈ t'.legs, st'.dim l ≠ 0) ∧
      st.nextLeg ≤ st'.nextLeg ∧ InputsKept st st' ∧ (∀ l ∈ t'.legs, l ∈ t.legs ∨ (l = st.nextLeg ∧ (st'.leg l).bond = none)) := by
  obtain ⟨front, f1, f2, f3, f4⟩ := C17_outProduct_labels st t xs new nd
    (fun x hx => by obtain ⟨l, hl, e⟩ := h.leg (hsub x hx); rw [← e]; exact List.mem_map_of_mem hl)
  have hne' : front ≠ [] := by
    rintro rfl
    exact hne f4.symm
  obtain ⟨st', t', e, k1, k2, k3, k4, k5, k6, k7, k8, k9, k10, k11, k12, k13, _⟩ :=
    C17_outProduct g dg front new hne' f2 f3 hfresh fun l hl _ => hpos l hl
  have hold : ∀ l ∈ t.legs, st'.leg l = st.leg l := fun l hl => k6 l (hfresh l hl).ne
  have hmem : ∀ l ∈ t.legs, (st.name l ∈ xs ↔ l ∈ front) := by
    intro l hl
    rw [← f4]
    constructor
    · intro hx
      obtain ⟨m, hm, e⟩ := List.mem_map.mp hx
      rw [← h.inj (f3 hm) hl e]
      exact hm
    · exact fun hf => List.mem_map_of_mem hf
  have hname : ∀ l ∈ t.legs, st'.name l = st.name l := fun l hl => by unfold Store.name; rw [hold l hl]
  have hdim : ∀ l ∈ t.legs, st'.dim l = st.dim l := fun l hl => by unfold Store.dim; rw [hold l hl]
  have hxd : xs.map A.dim = front.map st.dim := by
    rw [← f4, List.map_map]
    exact List.map_congr_left fun l hl => (h.dims l (f3 hl)).symm
  have hnn : ∀ l ∈ t.legs, l ∉ front → st.name l ≠ new := fun l hl hf =>
    hnew _ (h.mem hl) (fun hx => hf ((hmem l hl).mp hx))
  have hlabels : (t'.legs.map st'.name).Perm (A.fuse xs new).labels := by
    rw [k1, List.map_cons, k3]
    apply List.Perm.cons
    have e1 : (t.legs.filter fun l => decide (l ∉ front)).map st'.name =
        (t.legs.map st.name).filter fun z => decide (z ∉ xs) := by
      rw [List.filter_map]
      have : t.legs.filter ((fun z => decide (z ∉ xs)) ∘ st.name) = t.legs.filter fun l => decide (l ∉ front) := by
        apply List.filter_congr
        intro l hl
        simp only [Function.comp, hmem l hl]
      rw [this]
      exact List.map_congr_left fun l hl => hname l (List.mem_of_mem_filter hl)
    rw [e1]
    exact h.labels.filter _
  refine ⟨st', t', _, f1.trans e, ⟨?_, hlabels, ?_, ?_⟩, k11, k12, ?_, ?_, by omega, ?_, ?_⟩
  · show (new :: _).Nodup
    rw [List.nodup_cons]
    refine ⟨?_, h.nodup.filter _⟩
    intro hm
    rw [List.mem_filter, decide_eq_true_iff] at hm
    exact hnew new hm.1 hm.2 rfl
  · intro l hl
    rw [k1] at hl
    rcases List.mem_cons.mp hl with rfl | hl
    · show _ = if _ then _ else _
      rw [k3, if_pos rfl, k2, hxd]
    · rw [List.mem_filter, decide_eq_true_iff] at hl
      rw [hname l hl.1, hdim l hl.1]
      show _ = if _ then _ else _
      rw [if_neg (hnn l hl.1 hl.2)]
      exact h.dims l hl.1
  · intro τ hτ
    have hk : τ new < (xs.map A.dim).prod := by
      have := hτ new (List.mem_cons_self ..)
      simpa only [LArr.fuse, if_true] using this
    have hrest : ∀ z ∈ A.labels, z ∉ xs → τ z < A.dim z := by
      intro z hz hx
      have := hτ z (List.mem_cons_of_mem _ (List.mem_filter.mpr ⟨hz, by simpa using hx⟩))
      simpa only [LArr.fuse, hnew z hz hx, if_false] using this
    set υ : String → Nat := fun z =>
      if z ∈ xs then (LArr.digits (xs.map A.dim) (τ new)).getD (xs.idxOf z) 0 else τ z with hυ
    have hr : A.InRange υ := by
      intro z hz
      simp only [hυ]
      split
      · rename_i hx
        have hi : xs.idxOf z < (xs.map A.dim).length := by
          rw [List.length_map]
          exact List.idxOf_lt_length_of_mem hx
        have := digits_lt (xs.map A.dim) (τ new) hk _ hi
        rwa [List.getElem_map, List.getElem_idxOf] at this
      · rename_i hx
        exact hrest z hz hx
    show _ = A.val υ
    rw [← h.val υ hr, ← k13 _ (fun l hl => by rw [h.dims l hl]; exact hr _ (h.mem hl))]
    have hfront : front.map (fun l => υ (st.name l)) = LArr.digits (xs.map A.dim) (τ new) := by
      have : front.map (fun l => υ (st.name l)) = xs.map υ := by rw [← f4, List.map_map]; rfl
      rw [this]
      apply List.ext_getElem
      · simp [digits_length]
      · intro i h1 h2
        have hi : i < xs.length := by simpa using h1
        simp only [List.getElem_map, hυ, List.getElem_mem, if_true]
        rw [nd.idxOf_getElem i hi, List.getD_eq_getElem?_getD, List.getElem?_eq_getElem h2, Option.getD_some]
    rw [hfront, ← hxd, ravel_digits _ _ hk]
    apply entry_congr
    intro l hl
    rw [k1] at hl
    rcases List.mem_cons.mp hl with rfl | hl
    · simp [Assign.set, k3]
    · rw [List.mem_filter, decide_eq_true_iff] at hl
      unfold Assign.set
      rw [if_neg (hfresh l hl.1).ne, hname l hl.1]
      simp only [hυ]
      rw [if_neg fun hx => hl.2 ((hmem l hl.1).mp hx)]
  · intro l hl
    rw [k1] at hl
    rw [k8]
    rcases List.mem_cons.mp hl with rfl | hl
    · exact Nat.lt_succ_self _
    · exact Nat.lt_succ_of_lt (hfresh l (List.mem_of_mem_filter hl))
  · intro l hl
    rw [k1] at hl
    rcases List.mem_cons.mp hl with rfl | hl
    · rw [k2]
      intro e0
      rw [List.prod_eq_zero_iff, List.mem_map] at e0
      obtain ⟨m, hm, e0⟩ := e0
      exact hpos m (f3 hm) e0
    · rw [hdim l (List.mem_of_mem_filter hl)]
      exact hpos l (List.mem_of_mem_filter hl)
  · refine ⟨fun l hl => k6 l hl.ne, fun l hl => ?_⟩
    unfold Store.partner
    rw [k6 l hl.ne, k7]
  · intro l hl
    rw [k1] at hl
    rcases List.mem_cons.mp hl with h | h
    · exact Or.inr ⟨h, h ▸ k4⟩
    · exact Or.inl (List.mem_of_mem_filter h)

theorem InputsKept.trans {a b c : Store} (h : InputsKept a b) (le : a.nextLeg ≤ b.nextLeg) (k : InputsKept b c) :
    InputsKept a c :=
  ⟨fun l hl => (k.leg l (hl.trans_le le)).trans (h.leg l hl),
    fun l hl => (k.partner l (hl.trans_le le)).trans (h.partner l hl)⟩

end CTL
