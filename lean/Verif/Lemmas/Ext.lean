import Verif.Lemmas.Link
import Verif.Props.Text
import Verif.Model.Decompose

/-! Stores that grow: old legs keep dimension and bond. -/

namespace CTL
variable {R : Type}

/-- The legs allocated in `st` keep their dimension and bond in `st'`. -/
structure Grows (st st' : Store) : Prop where
  le : st.nextLeg ≤ st'.nextLeg
  dim : ∀ l < st.nextLeg, st'.dim l = st.dim l
  bond : ∀ l < st.nextLeg, (st'.leg l).bond = (st.leg l).bond
  partner : WFStore st → ∀ l < st.nextLeg, st'.partner l = st.partner l
  wf : WFStore st → WFStore st'

theorem Grows.refl (st : Store) : Grows st st := ⟨le_rfl, fun _ _ => rfl, fun _ _ => rfl, fun _ _ _ => rfl, id⟩

theorem Grows.trans {a b c : Store} (h : Grows a b) (k : Grows b c) : Grows a c :=
  ⟨h.le.trans k.le, fun l hl => (k.dim l (hl.trans_le h.le)).trans (h.dim l hl),
    fun l hl => (k.bond l (hl.trans_le h.le)).trans (h.bond l hl),
    fun w l hl => (k.partner (h.wf w) l (hl.trans_le h.le)).trans (h.partner w l hl), fun w => k.wf (h.wf w)⟩

theorem SameNet.ext {a b : Store} (h : SameNet a b) : Grows a b :=
  ⟨h.nextLeg.ge, fun l _ => by rw [h.dim], fun l _ => h.bondOf l, fun w l _ => h.partner w.inv l, h.wf⟩

theorem SameButNames.dim {a b : Store} {legs : List LegId} (h : SameButNames a b legs) (l : LegId) :
    b.dim l = a.dim l := by
  have := h.1 l
  unfold Store.dim
  simp only [LegRec.mk.injEq] at this
  exact this.1

theorem SameButNames.bondOf {a b : Store} {legs : List LegId} (h : SameButNames a b legs) (l : LegId) :
    (b.leg l).bond = (a.leg l).bond := by
  have := h.1 l
  simp only [LegRec.mk.injEq] at this
  exact this.2.2.1

theorem SameButNames.tensorOf {a b : Store} {legs : List LegId} (h : SameButNames a b legs) (l : LegId) :
    (b.leg l).tensor = (a.leg l).tensor := by
  have := h.1 l
  simp only [LegRec.mk.injEq] at this
  exact this.2.2.2

theorem SameButNames.name {a b : Store} {legs : List LegId} (h : SameButNames a b legs) {l : LegId} (hl : l ∉ legs) :
    b.name l = a.name l := by
  unfold Store.name
  rw [h.2.1 l hl]

theorem SameButNames.partner {a b : Store} {legs : List LegId} (h : SameButNames a b legs) (l : LegId) :
    b.partner l = a.partner l := by
  unfold Store.partner
  rw [h.bondOf, h.2.2.1]

theorem SameButNames.ext {a b : Store} {legs : List LegId} (h : SameButNames a b legs) : Grows a b :=
  ⟨h.2.2.2.1.ge, fun l _ => h.dim l, fun l _ => h.bondOf l, fun _ l _ => h.partner l,
    fun w => w.congr (fun l => ⟨h.dim l, h.bondOf l⟩) h.2.2.1 h.2.2.2.1.ge h.2.2.2.2.1.ge⟩

theorem SameButNames.wf {a b : Store} {legs : List LegId} (h : SameButNames a b legs) (w : WFStore a) : WFStore b :=
  h.ext.wf w

theorem SameButNames.inv {a b : Store} {legs : List LegId} (h : SameButNames a b legs) (i : BondInv a) : BondInv b := by
  intro x c hx
  rw [h.bondOf] at hx
  obtain ⟨e0, e1, e2, e3⟩ := i x c hx
  rw [h.2.2.1, h.bondOf, h.bondOf, h.dim, h.dim]
  exact ⟨e0, e1, e2, e3⟩

theorem newLeg_leg_other (st : Store) (t : Option TensorId) (d : Nat) (n : String) {l : LegId} (h : l ≠ st.nextLeg) :
    (st.newLeg t d n).1.leg l = st.leg l := by
  simp [Store.newLeg, Store.setLeg, h]

theorem newLeg_new (st : Store) (t : Option TensorId) (d : Nat) (n : String) :
    (st.newLeg t d n).1.leg st.nextLeg = ⟨d, n, none, t⟩ := by
  simp [Store.newLeg, Store.setLeg]

theorem newLeg_ext (st : Store) (t : Option TensorId) (d : Nat) (n : String) : Grows st (st.newLeg t d n).1 := by
  refine ⟨Nat.le_succ _, ?_, ?_, ?_, fun w => w.newLeg t d n⟩
  · intro l hl
    unfold Store.dim
    rw [newLeg_leg_other st t d n hl.ne]
  · intro l hl
    rw [newLeg_leg_other st t d n hl.ne]
  · intro _ l hl
    unfold Store.partner
    rw [newLeg_leg_other st t d n hl.ne]
    rfl

/-- Two legs that did not exist in `st` are joined. -/
theorem bonded_ext {st s : Store} (h : Grows st s) {x y : LegId} (hx : st.nextLeg ≤ x) (hy : st.nextLeg ≤ y)
    (hx' : x < s.nextLeg) (hy' : y < s.nextLeg) (fx : (s.leg x).bond = none) (fy : (s.leg y).bond = none)
    (hd : s.dim x = s.dim y) : Grows st (bonded s x y) := by
  refine ⟨h.le, ?_, ?_, ?_, ?_⟩
  · intro l hl
    rw [bonded_dim, h.dim l hl]
  · intro l hl
    rw [bonded_other s x y l (hl.trans_le hx).ne (hl.trans_le hy).ne, h.bond l hl]
  · intro w l hl
    rw [bonded_partner_other (h.wf w) (hl.trans_le hx).ne (hl.trans_le hy).ne, h.partner w l hl]
  · intro w
    exact bonded_wf (h.wf w) hd fx fy hx' hy'

theorem linkOr_two (s : Store) (x y : LegId) (hd : s.dim x = s.dim y) :
    (makeLinkLegs s [x] [y]) = (bonded s x y, .ok [s.nextBond]) := by
  rw [makeLinkLegs_eq s [x] [y] rfl]
  simp only [List.zip_cons_cons, List.zip_nil_right, List.map_cons, List.map_nil, linkLoop, hd, if_true,
    newBond_eq s x y hd]

/-- The names after `leg.name = leg.name[2:]` on the legs that have the tag. -/
theorem hasTag_iff (c : Char) (s : String) : hasTag c s = true ↔ ∃ r, s.toList = c :: '-' :: r := by
  unfold hasTag
  constructor
  · intro h
    rw [List.isPrefixOf_iff_prefix] at h
    obtain ⟨r, hr⟩ := h
    exact ⟨r, by rw [← hr]; rfl⟩
  · rintro ⟨r, hr⟩
    rw [List.isPrefixOf_iff_prefix, hr]
    exact ⟨r, rfl⟩

theorem untagLoop_spec (c : Char) : ∀ (legs : List LegId) (st : Store), legs.Nodup →
    SameButNames st (untagLoop c legs st) legs ∧
    ∀ l ∈ legs, ∀ r, (st.name l).toList = c :: '-' :: r → ((untagLoop c legs st).name l).toList = r := by
  intro legs
  induction legs with
  | nil => intro st _; exact ⟨sameButNames_refl st [], by simp⟩
  | cons l ls ih =>
    intro st hn
    rw [List.nodup_cons] at hn
    unfold untagLoop
    rw [List.foldl_cons]
    split
    · rename_i h0
      generalize hnew : String.ofList ((st.name l).toList.drop 2) = new
      obtain ⟨a, b⟩ := ih (st.rename l new) hn.2
      unfold untagLoop at a b
      refine ⟨sameButNames_trans (sameButNames_rename st new (by simp)) (sameButNames_mono a (by simp +contextual)), ?_⟩
      intro k hk r hr
      rcases List.mem_cons.mp hk with rfl | hk'
      · rw [a.name hn.1, name_rename, if_pos rfl, ← hnew, String.toList_ofList, hr]
        rfl
      · apply b k hk'
        rw [name_rename, if_neg]
        · exact hr
        · rintro rfl; exact hn.1 hk'
    · rename_i h0
      obtain ⟨a, b⟩ := ih st hn.2
      unfold untagLoop at a b
      refine ⟨sameButNames_mono a (by simp +contextual), ?_⟩
      intro k hk r hr
      rcases List.mem_cons.mp hk with rfl | hk'
      · exact absurd ((hasTag_iff c _).mpr ⟨r, hr⟩) h0
      · exact b k hk' r hr

/-- `renameLabel` on a tensor that has exactly one leg with the name. -/
theorem renameLabel_unique (st : Store) (t : Tensor R) (from' to' : String) {l : LegId} (hl : l ∈ t.legs)
    (hn : st.name l = from') (hu : ∀ k ∈ t.legs, st.name k = from' → k = l) :
    t.renameLabel st from' to' = st.rename l to' := by
  have hm : from' ∈ t.labels st := by
    unfold Tensor.labels
    rw [← hn]
    exact List.mem_map_of_mem hl
  unfold Tensor.renameLabel Tensor.indexOfLabel
  simp only [hm, if_true, Bool.false_eq_true, if_false]
  congr 1
  have hlt : (t.labels st).idxOf from' < t.legs.length := by
    have := List.idxOf_lt_length_of_mem hm
    simpa [Tensor.labels] using this
  rw [List.getD_eq_getElem?_getD, List.getElem?_eq_getElem hlt, Option.getD_some]
  apply hu _ (List.getElem_mem hlt)
  have h2 : (t.labels st)[(t.labels st).idxOf from']'(List.idxOf_lt_length_of_mem hm) = from' :=
    List.getElem_idxOf _
  have h3 : (t.labels st)[(t.labels st).idxOf from']'(List.idxOf_lt_length_of_mem hm) =
      st.name (t.legs[(t.labels st).idxOf from']'hlt) := List.getElem_map _
  exact h3.symm.trans h2

theorem renameLabel_none (st : Store) (t : Tensor R) (from' to' : String) (h : ∀ l ∈ t.legs, st.name l ≠ from') :
    t.renameLabel st from' to' = st := by
  have hm : from' ∉ t.labels st := by
    unfold Tensor.labels
    intro hm
    rw [List.mem_map] at hm
    obtain ⟨l, hl, e⟩ := hm
    exact h l hl e
  unfold Tensor.renameLabel Tensor.indexOfLabel
  simp only [hm, if_false]

/-- The names after the loops that exchange the tags. `n` are the untagged names. -/
theorem retagLoop_spec (t : Tensor R) {f g : Char} (hfg : f ≠ g) (n : LegId → List Char)
    (inj : ∀ k ∈ t.legs, ∀ l ∈ t.legs, n k = n l → k = l) (labels : List String) :
    ∀ (st : Store) (D : List (List Char)),
      (∀ l ∈ t.legs, (st.name l).toList = (if n l ∈ D then g else f) :: '-' :: n l) →
      SameButNames st (retagLoop t f g labels st) t.legs ∧
      ∀ l ∈ t.legs, ((retagLoop t f g labels st).name l).toList =
        (if n l ∈ D ∨ n l ∈ labels.map String.toList then g else f) :: '-' :: n l := by
  induction labels with
  | nil =>
    intro st D h
    exact ⟨sameButNames_refl st _, by simpa [retagLoop] using h⟩
  | cons lab labels ih =>
    intro st D h
    unfold retagLoop
    rw [List.foldl_cons]
    have step : ∃ s1, t.renameLabel st (String.ofList (f :: '-' :: lab.toList)) (String.ofList (g :: '-' :: lab.toList)) = s1 ∧
        SameButNames st s1 t.legs ∧
        ∀ l ∈ t.legs, (s1.name l).toList = (if n l ∈ lab.toList :: D then g else f) :: '-' :: n l := by
      by_cases hex : ∃ l ∈ t.legs, n l = lab.toList ∧ lab.toList ∉ D
      · obtain ⟨l, hl, hnl, hD⟩ := hex
        refine ⟨_, rfl, ?_⟩
        have e : st.name l = String.ofList (f :: '-' :: lab.toList) := by
          rw [← String.toList_inj, h l hl, String.toList_ofList, hnl, if_neg hD]
        rw [renameLabel_unique st t _ _ hl e]
        · refine ⟨sameButNames_rename st _ hl, ?_⟩
          intro k hk
          rw [name_rename]
          by_cases hkl : k = l
          · subst hkl
            rw [if_pos rfl, String.toList_ofList, hnl, if_pos (by simp)]
          · rw [if_neg hkl, h k hk]
            have : n k ≠ lab.toList := fun e => hkl (inj k hk l hl (e.trans hnl.symm))
            simp [this]
        · intro k hk hke
          have h1 := h k hk
          rw [hke, String.toList_ofList] at h1
          simp only [List.cons.injEq, true_and] at h1
          exact inj k hk l hl (h1.2.symm.trans hnl.symm)
      · refine ⟨_, rfl, ?_⟩
        rw [renameLabel_none]
        · refine ⟨sameButNames_refl st _, ?_⟩
          intro l hl
          rw [h l hl]
          by_cases hnl : n l = lab.toList
          · have : lab.toList ∈ D := by
              by_contra hD
              exact hex ⟨l, hl, hnl, hD⟩
            simp [hnl, this]
          · simp [hnl]
        · intro l hl e
          have h1 := h l hl
          rw [e, String.toList_ofList] at h1
          simp only [List.cons.injEq, true_and] at h1
          apply hex
          refine ⟨l, hl, h1.2.symm, ?_⟩
          intro hD
          rw [← h1.2, if_pos hD] at h1
          exact hfg h1.1
    obtain ⟨s1, e1, e2, e3⟩ := step
    rw [e1]
    obtain ⟨a, b⟩ := ih s1 (lab.toList :: D) e3
    unfold retagLoop at a b
    refine ⟨sameButNames_trans e2 a, ?_⟩
    intro l hl
    rw [b l hl]
    congr 1
    simp only [List.mem_cons, List.map_cons]
    congr 1
    apply propext
    tauto

end CTL
