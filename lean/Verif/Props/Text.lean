import Verif.Model.Text
import Verif.Spec.Text
import Verif.Lemmas.Ops

/-! # C19 (tags), C20 (textual notation) -/

namespace CTL

variable {R : Type}

/-! ## C19 -/

theorem findDash_none {s : String} : findDash s = none ↔ '-' ∉ s.toList := by
  unfold findDash
  split <;> simp_all

theorem name_rename (st : Store) (l k : LegId) (n : String) :
    (st.rename l n).name k = if k = l then n else st.name k := by
  unfold Store.rename Store.name Store.setLeg
  by_cases h : k = l <;> simp [h]

/-- Only the names of the listed legs change. -/
def SameButNames (st st' : Store) (legs : List LegId) : Prop :=
  (∀ l, { st'.leg l with name := "" } = { st.leg l with name := "" }) ∧ (∀ l, l ∉ legs → st'.leg l = st.leg l) ∧
    st'.bond = st.bond ∧ st'.nextLeg = st.nextLeg ∧ st'.nextBond = st.nextBond ∧ st'.nextTensor = st.nextTensor

theorem sameButNames_refl (st : Store) (legs : List LegId) : SameButNames st st legs :=
  ⟨fun _ => rfl, fun _ _ => rfl, rfl, rfl, rfl, rfl⟩

theorem sameButNames_rename (st : Store) {l : LegId} {legs : List LegId} (n : String) (hl : l ∈ legs) :
    SameButNames st (st.rename l n) legs := by
  refine ⟨?_, ?_, rfl, rfl, rfl, rfl⟩
  · intro k
    unfold Store.rename Store.setLeg
    by_cases h : k = l <;> simp [h]
  · intro k hk
    unfold Store.rename Store.setLeg
    have : k ≠ l := fun e => hk (e ▸ hl)
    simp [this]

theorem sameButNames_trans {st st' st'' : Store} {legs : List LegId} (h : SameButNames st st' legs)
    (h' : SameButNames st' st'' legs) : SameButNames st st'' legs :=
  ⟨fun l => (h'.1 l).trans (h.1 l), fun l hl => (h'.2.1 l hl).trans (h.2.1 l hl), h'.2.2.1.trans h.2.2.1,
    h'.2.2.2.1.trans h.2.2.2.1, h'.2.2.2.2.1.trans h.2.2.2.2.1, h'.2.2.2.2.2.trans h.2.2.2.2.2⟩

theorem sameButNames_mono {st st' : Store} {legs legs' : List LegId} (h : SameButNames st st' legs)
    (hs : ∀ l ∈ legs, l ∈ legs') : SameButNames st st' legs' :=
  ⟨h.1, fun l hl => h.2.1 l fun h => hl (hs l h), h.2.2⟩

theorem addTagLoop_spec (tag : String) : ∀ (legs : List LegId) (st : Store), legs.Nodup →
    (∀ l ∈ legs, '-' ∉ (st.name l).toList) →
    ∃ st', addTagLoop tag st legs = (st', none) ∧ SameButNames st st' legs ∧
      ∀ l ∈ legs, (st'.name l).toList = tag.toList ++ '-' :: (st.name l).toList := by
  intro legs
  induction legs with
  | nil => intro st _ _; exact ⟨st, rfl, sameButNames_refl st [], by simp⟩
  | cons l ls ih =>
    intro st hn hd
    rw [List.nodup_cons] at hn
    have h0 := findDash_none.mpr (hd l (by simp))
    generalize hnew : String.ofList (tag.toList ++ ['-'] ++ (st.name l).toList) = new
    have hk : ∀ k ∈ ls, (st.rename l new).name k = st.name k := by
      intro k hk
      rw [name_rename, if_neg]
      rintro rfl
      exact hn.1 hk
    obtain ⟨st', h1, h2, h3⟩ := ih (st.rename l new) hn.2 (by
      intro k hk'
      rw [hk k hk']
      exact hd k (by simp [hk']))
    refine ⟨st', ?_, ?_, ?_⟩
    · unfold addTagLoop
      rw [if_pos h0, hnew, h1]
    · exact sameButNames_trans (sameButNames_rename st new (by simp)) (sameButNames_mono h2 (by simp +contextual))
    · intro k hk'
      rcases List.mem_cons.mp hk' with rfl | hk'
      · have : st'.name k = (st.rename k new).name k := by
          unfold Store.name
          rw [h2.2.1 k hn.1]
        rw [this, name_rename, if_pos rfl, ← hnew]
        simp
      · rw [h3 k hk', hk k hk']

theorem addTagLoop_fail (tag : String) : ∀ (legs : List LegId) (st : Store), legs.Nodup →
    (∃ l ∈ legs, '-' ∈ (st.name l).toList) → (addTagLoop tag st legs).2 = some .assertionError := by
  intro legs
  induction legs with
  | nil => intro st _ h; obtain ⟨_, h, _⟩ := h; cases h
  | cons l ls ih =>
    intro st hn ⟨k, hk, hd⟩
    rw [List.nodup_cons] at hn
    unfold addTagLoop
    by_cases h0 : findDash (st.name l) = none
    · rw [if_pos h0]
      rcases List.mem_cons.mp hk with rfl | hk'
      · exact absurd hd (findDash_none.mp h0)
      · apply ih _ hn.2
        refine ⟨k, hk', ?_⟩
        rw [name_rename, if_neg]
        · exact hd
        · rintro rfl; exact hn.1 hk'
    · rw [if_neg h0]

theorem drop_tag {tag rest : List Char} (h : '-' ∉ tag) :
    (tag ++ '-' :: rest).drop ((tag ++ '-' :: rest).idxOf '-' + 1) = rest := by
  have : (tag ++ '-' :: rest).idxOf '-' = tag.length := by
    rw [List.idxOf_append, if_neg h]
    simp
  rw [this]
  simp

theorem removeTagLoop_spec : ∀ (legs : List LegId) (st : Store), legs.Nodup →
    SameButNames st (removeTagLoop st legs) legs ∧
    ∀ l ∈ legs, ('-' ∉ (st.name l).toList → (removeTagLoop st legs).name l = st.name l) ∧
      ∀ pre post, (st.name l).toList = pre ++ '-' :: post → '-' ∉ pre →
        ((removeTagLoop st legs).name l).toList = post := by
  intro legs
  induction legs with
  | nil => intro st _; exact ⟨sameButNames_refl st [], by simp⟩
  | cons l ls ih =>
    intro st hn
    rw [List.nodup_cons] at hn
    unfold removeTagLoop
    split
    · rename_i h0
      obtain ⟨a, b⟩ := ih st hn.2
      refine ⟨sameButNames_mono a (by simp +contextual), ?_⟩
      intro k hk
      rcases List.mem_cons.mp hk with rfl | hk
      · have e : (removeTagLoop st ls).name k = st.name k := by
          unfold Store.name
          rw [a.2.1 k hn.1]
        refine ⟨fun _ => e, ?_⟩
        intro pre post h1 h2
        exact absurd (by rw [h1]; simp) (findDash_none.mp h0)
      · exact b k hk
    · rename_i i h0
      generalize hnew : String.ofList ((st.name l).toList.drop (i + 1)) = new
      obtain ⟨a, b⟩ := ih (st.rename l new) hn.2
      refine ⟨sameButNames_trans (sameButNames_rename st new (by simp)) (sameButNames_mono a (by simp +contextual)), ?_⟩
      intro k hk
      rcases List.mem_cons.mp hk with rfl | hk'
      · have e : (removeTagLoop (st.rename k new) ls).name k = new := by
          have : (removeTagLoop (st.rename k new) ls).name k = (st.rename k new).name k := by
            unfold Store.name
            rw [a.2.1 k hn.1]
          rw [this, name_rename, if_pos rfl]
        have hd : '-' ∈ (st.name k).toList ∧ i = (st.name k).toList.idxOf '-' := by
          unfold findDash at h0
          split at h0
          · rename_i h
            injection h0 with h0
            exact ⟨h, h0.symm⟩
          · cases h0
        refine ⟨fun h => absurd hd.1 h, ?_⟩
        intro pre post h1 h2
        rw [e, ← hnew, hd.2, h1, drop_tag h2]
        simp
      · have hne : k ≠ l := fun e => hn.1 (e ▸ hk')
        have := b k hk'
        rw [name_rename, if_neg hne] at this
        exact this

/-- `addTensorTag` succeeds exactly when no leg name contains `-`; it then changes nothing but the names of the
tensor's legs, each to `tag-name`. -/
theorem C19_addTensorTag (t : Tensor R) (st : Store) (tag : String) (hn : t.legs.Nodup) :
    ((t.addTensorTag st tag).2 = none ↔ ∀ l ∈ t.legs, '-' ∉ (st.name l).toList) ∧
    ((∀ l ∈ t.legs, '-' ∉ (st.name l).toList) → SameButNames st (t.addTensorTag st tag).1 t.legs ∧
      ∀ l ∈ t.legs, ((t.addTensorTag st tag).1.name l).toList = tag.toList ++ '-' :: (st.name l).toList) := by
  unfold Tensor.addTensorTag
  refine ⟨⟨?_, ?_⟩, ?_⟩
  · intro h l hl hd
    rw [addTagLoop_fail tag t.legs st hn ⟨l, hl, hd⟩] at h
    cases h
  · intro h
    obtain ⟨st', h1, _⟩ := addTagLoop_spec tag t.legs st hn h
    rw [h1]
  · intro h
    obtain ⟨st', h1, h2, h3⟩ := addTagLoop_spec tag t.legs st hn h
    rw [h1]
    exact ⟨h2, h3⟩

/-- `removeTensorTag` after `addTensorTag(tag)` restores everything, provided the tag has no `-`. -/
theorem C19_round_trip (t : Tensor R) (st : Store) (tag : String) (hn : t.legs.Nodup) (htag : '-' ∉ tag.toList)
    (h : (t.addTensorTag st tag).2 = none) : t.removeTensorTag (t.addTensorTag st tag).1 = st := by
  obtain ⟨a, b⟩ := C19_addTensorTag t st tag hn
  have hd := a.mp h
  obtain ⟨s1, hnames⟩ := b hd
  generalize hst : (t.addTensorTag st tag).1 = st1 at *
  obtain ⟨s2, hrem⟩ := removeTagLoop_spec t.legs st1 hn
  unfold Tensor.removeTensorTag
  generalize removeTagLoop st1 t.legs = st2 at *
  obtain ⟨l1, l2, l3, l4, l5, l6⟩ := sameButNames_trans s1 s2
  have hleg : st2.leg = st.leg := by
    funext l
    by_cases hl : l ∈ t.legs
    · have h1 := l1 l
      have h2 := (hrem l hl).2 _ _ (hnames l hl) htag
      have h3 : st2.name l = st.name l := String.toList_inj.mp h2
      unfold Store.name at h3
      revert h1 h3
      generalize st2.leg l = x
      generalize st.leg l = y
      obtain ⟨d, n, b, tn⟩ := x
      obtain ⟨d', n', b', tn'⟩ := y
      simp only [LegRec.mk.injEq, true_and]
      intro h1 h3
      exact ⟨h1.1, h3, h1.2⟩
    · exact l2 l hl
  obtain ⟨g1, g2, g3, g4, g5⟩ := st2
  obtain ⟨f1, f2, f3, f4, f5⟩ := st
  simp only at hleg l3 l4 l5 l6
  subst hleg l3 l4 l5 l6
  rfl

/-- `removeTensorTag` cuts every name after its first `-` and leaves the names without one alone. -/
theorem C19_removeTensorTag (t : Tensor R) (st : Store) (hn : t.legs.Nodup) :
    SameButNames st (t.removeTensorTag st) t.legs ∧
    ∀ l ∈ t.legs, ('-' ∉ (st.name l).toList → (t.removeTensorTag st).name l = st.name l) ∧
      ∀ pre post, (st.name l).toList = pre ++ '-' :: post → '-' ∉ pre →
        ((t.removeTensorTag st).name l).toList = post :=
  removeTagLoop_spec t.legs st hn

/-- Two legs, named `a` and `b`. -/
def tagStore (x y : String) : Store :=
  ⟨fun l => if l = 0 then ⟨2, x, none, some 0⟩ else ⟨3, y, none, some 0⟩, fun _ => (0, 0), 2, 0, 1⟩

def tagTensor : Tensor Int := ⟨0, [0, 1], none, false, true, 0⟩

example : tagTensor.legs.Nodup ∧ (tagTensor.addTensorTag (tagStore "a" "b") "T").2 = none ∧
    tagTensor.labels (tagTensor.addTensorTag (tagStore "a" "b") "T").1 = ["T-a", "T-b"] ∧
    tagTensor.labels (tagTensor.removeTensorTag (tagTensor.addTensorTag (tagStore "a" "b") "T").1) = ["a", "b"] := by
  refine ⟨by decide, by decide +kernel, by decide +kernel, by decide +kernel⟩

/-- With a `-` in the tag, the names are not restored. -/
theorem C19_dash_in_tag : tagTensor.labels (tagTensor.removeTensorTag
    (tagTensor.addTensorTag (tagStore "a" "b") "T-U").1) = ["U-a", "U-b"] := by decide +kernel

/-! ## C38 for `addTensorTag` -/

/-- A failing `addTensorTag` leaves behind: new names on the legs before the first leg with a `-` in its name, the old
names on the others.  So the tensor is unchanged exactly if the first leg is the bad one. -/
theorem C38_addTensorTag_partial (t : Tensor R) (st : Store) (tag : String) (hn : t.legs.Nodup) {pre post : List LegId}
    {bad : LegId} (hl : t.legs = pre ++ bad :: post) (hpre : ∀ l ∈ pre, '-' ∉ (st.name l).toList)
    (hbad : '-' ∈ (st.name bad).toList) :
    (t.addTensorTag st tag).2 = some .assertionError ∧ SameButNames st (t.addTensorTag st tag).1 pre ∧
      (∀ l ∈ pre, ((t.addTensorTag st tag).1.name l).toList = tag.toList ++ '-' :: (st.name l).toList) ∧
      (pre = [] → (t.addTensorTag st tag).1 = st) := by
  unfold Tensor.addTensorTag
  rw [hl] at hn ⊢
  have hsplit : ∀ (pre : List LegId) (st : Store), (pre ++ bad :: post).Nodup →
      (∀ l ∈ pre, '-' ∉ (st.name l).toList) → '-' ∈ (st.name bad).toList →
      addTagLoop tag st (pre ++ bad :: post) = ((addTagLoop tag st pre).1, some .assertionError) := by
    intro pre
    induction pre with
    | nil =>
      intro st _ _ hb
      simp only [List.nil_append]
      unfold addTagLoop
      rw [if_neg (fun h => (findDash_none.mp h) hb)]
    | cons l ls ih =>
      intro st hn hp hb
      rw [List.cons_append, List.nodup_cons] at hn
      rw [List.cons_append]
      unfold addTagLoop
      rw [if_pos (findDash_none.mpr (hp l (by simp))), if_pos (findDash_none.mpr (hp l (by simp)))]
      apply ih _ hn.2
      · intro k hk
        rw [name_rename, if_neg]
        · exact hp k (by simp [hk])
        · rintro rfl; exact hn.1 (by simp [hk])
      · rw [name_rename, if_neg]
        · exact hb
        · rintro rfl; exact hn.1 (by simp)
  rw [hsplit pre st hn hpre hbad]
  obtain ⟨st', h1, h2, h3⟩ := addTagLoop_spec tag pre st (List.nodup_append.mp hn).1 hpre
  rw [h1]
  refine ⟨rfl, h2, h3, ?_⟩
  rintro rfl
  simp only [addTagLoop, Prod.mk.injEq, and_true] at h1
  exact h1.symm

/-- So the full claim is false: the first leg is renamed although the call raises. -/
theorem C38_addTensorTag_wrong : (tagTensor.addTensorTag (tagStore "a" "b-c") "T").2 = some .assertionError ∧
    tagTensor.labels (tagTensor.addTensorTag (tagStore "a" "b-c") "T").1 = ["T-a", "b-c"] := by
  refine ⟨by decide +kernel, by decide +kernel⟩

/-! ## C20 -/

/-- Between two legs nothing is waited for; the last leg may still be open. -/
def DecodeState.Ready (s : DecodeState) : Prop := s.nameWait = false ∧ s.sizeWait = false ∧ s.currSize = none

/-- The legs read so far. -/
def DecodeState.legs (s : DecodeState) : List (List Char) × List (Option Nat) :=
  match s.currName with
  | some n => (s.labels ++ [n], s.shape ++ [s.currSize])
  | none => (s.labels, s.shape)

theorem foldlM_ok_cons {s s' : DecodeState} {c : Char} {cs : List Char} (h : decodeChar s c = .ok s') :
    (c :: cs).foldlM decodeChar s = cs.foldlM decodeChar s' := by
  rw [List.foldlM_cons, h]
  rfl

theorem foldlM_ok_append {s s' : DecodeState} {a b : List Char} (h : a.foldlM decodeChar s = .ok s') :
    (a ++ b).foldlM decodeChar s = b.foldlM decodeChar s' := by
  rw [List.foldlM_append, h]
  rfl

/-- Inside the braces of a name. -/
theorem decode_in_name (cs : List Char) : ∀ (n : List Char) (L : List (List Char)) (S : List (Option Nat)) (z : Option Nat),
    '{' ∉ cs → '}' ∉ cs →
    cs.foldlM decodeChar ⟨some n, z, true, false, L, S⟩ = .ok ⟨some (n ++ cs), z, true, false, L, S⟩ := by
  induction cs with
  | nil => intro n L S z _ _; simp; rfl
  | cons c cs ih =>
    intro n L S z h1 h2
    have hc1 : c ≠ '{' := by rintro rfl; simp at h1
    have hc2 : c ≠ '}' := by rintro rfl; simp at h2
    rw [foldlM_ok_cons (s' := ⟨some (n ++ [c]), z, true, false, L, S⟩) (by simp [decodeChar, hc1, hc2])]
    rw [ih _ _ _ _ (by simp_all) (by simp_all)]
    simp

/-- Inside the braces of a size. -/
theorem decode_in_size (cs : List Char) : ∀ (n : List Char) (L : List (List Char)) (S : List (Option Nat)) (z : Nat),
    (∀ c ∈ cs, c.isDigit = true) →
    cs.foldlM decodeChar ⟨some n, some z, false, true, L, S⟩ =
      .ok ⟨some n, some (Nat.ofDigitChars 10 cs z), false, true, L, S⟩ := by
  induction cs with
  | nil => intro n L S z _; rfl
  | cons c cs ih =>
    intro n L S z h
    have hd := h c (by simp)
    have hc1 : c ≠ '{' := by rintro rfl; revert hd; decide
    have hc2 : c ≠ '}' := by rintro rfl; revert hd; decide
    rw [foldlM_ok_cons (s' := ⟨some n, some (z * 10 + (c.toNat - '0'.toNat)), false, true, L, S⟩)
      (by simp [decodeChar, hc1, hc2, hd])]
    rw [ih _ _ _ _ fun x hx => h x (by simp [hx]), Nat.ofDigitChars_cons, Nat.mul_comm]

theorem isDigit_toDigits {d : Nat} {c : Char} (h : c ∈ Nat.toDigits 10 d) : c.isDigit = true :=
  Nat.isDigit_of_mem_toDigits (by omega) (by omega) h

theorem decode_name {x : LegText} (hx : x.Valid) {s : DecodeState} (hs : s.Ready) :
    (if x.nameBraces then '{' :: x.name ++ ['}'] else x.name).foldlM decodeChar s =
      .ok ⟨some x.name, none, false, false, s.legs.1, s.legs.2⟩ := by
  obtain ⟨⟨c, cs, hn, hd⟩, h1, h2, h3, _⟩ := hx
  obtain ⟨cn, z, nw, sw, L, S⟩ := s
  obtain ⟨rfl, rfl, rfl⟩ := hs
  have hc1 : c ≠ '{' := by rintro rfl; simp [hn] at h1
  have hc2 : c ≠ '}' := by rintro rfl; simp [hn] at h2
  rw [hn] at h1 h2 h3 ⊢
  have hcs1 : '{' ∉ cs := by simp_all
  have hcs2 : '}' ∉ cs := by simp_all
  cases hb : x.nameBraces with
  | false =>
    have : cs = [] := by simpa using h3 hb
    subst this
    simp only [Bool.false_eq_true, if_false]
    cases cn with
    | none =>
      rw [foldlM_ok_cons (s' := ⟨some [c], none, false, false, L, S⟩) (by simp [decodeChar, hc1, hc2])]
      rfl
    | some n =>
      rw [foldlM_ok_cons (s' := ⟨some [c], none, false, false, L ++ [n], S ++ [none]⟩)
        (by simp [decodeChar, hc1, hc2, hd, DecodeState.push])]
      rfl
  | true =>
    simp only [if_true, List.cons_append]
    cases cn with
    | none =>
      rw [foldlM_ok_cons (s' := ⟨none, none, true, false, L, S⟩) (by simp [decodeChar]),
        foldlM_ok_cons (s' := ⟨some [c], none, true, false, L, S⟩) (by simp [decodeChar, hc1, hc2]),
        foldlM_ok_append (decode_in_name cs [c] L S none hcs1 hcs2),
        foldlM_ok_cons (s' := ⟨some ([c] ++ cs), none, false, false, L, S⟩) (by simp [decodeChar])]
      rfl
    | some n =>
      rw [foldlM_ok_cons (s' := ⟨some n, none, false, true, L, S⟩) (by simp [decodeChar]),
        foldlM_ok_cons (s' := ⟨some [c], none, true, false, L ++ [n], S ++ [none]⟩)
          (by simp [decodeChar, hc1, hc2, hd, DecodeState.push]),
        foldlM_ok_append (decode_in_name cs [c] _ _ none hcs1 hcs2),
        foldlM_ok_cons (s' := ⟨some ([c] ++ cs), none, false, false, L ++ [n], S ++ [none]⟩) (by simp [decodeChar])]
      rfl

theorem decode_leg {x : LegText} (hx : x.Valid) {s : DecodeState} (hs : s.Ready) :
    ∃ s', x.write.foldlM decodeChar s = .ok s' ∧ s'.Ready ∧
      s'.legs = (s.legs.1 ++ [x.name], s.legs.2 ++ [x.size]) := by
  unfold LegText.write
  rw [foldlM_ok_append (decode_name hx hs)]
  generalize s.legs.1 = L
  generalize s.legs.2 = S
  have hz := hx.2.2.2.2
  cases ht : x.sizeText with
  | absent =>
    simp only [ht] at hz
    refine ⟨_, rfl, ⟨rfl, rfl, rfl⟩, ?_⟩
    rw [hz]
    rfl
  | emptyBraces =>
    simp only [ht] at hz
    simp only
    rw [foldlM_ok_cons (s' := ⟨some x.name, none, false, true, L, S⟩) (by simp [decodeChar]),
      foldlM_ok_cons (s' := ⟨none, none, false, false, L ++ [x.name], S ++ [none]⟩)
        (by simp [decodeChar, DecodeState.push])]
    refine ⟨_, rfl, ⟨rfl, rfl, rfl⟩, ?_⟩
    rw [hz]
    rfl
  | bare =>
    simp only [ht] at hz
    obtain ⟨d, hd, hlt⟩ := hz
    simp only [hd, Option.getD_some]
    rw [Nat.toDigits_of_lt_base hlt]
    have h1 : d.digitChar.isDigit = true := isDigit_toDigits (d := d) (by rw [Nat.toDigits_of_lt_base hlt]; simp)
    have hc1 : d.digitChar ≠ '{' := by intro e; rw [e] at h1; revert h1; decide
    have hc2 : d.digitChar ≠ '}' := by intro e; rw [e] at h1; revert h1; decide
    have hv : d.digitChar.toNat - 48 = d := Nat.toNat_digitChar_sub_48_of_lt_ten hlt
    rw [foldlM_ok_cons (s' := ⟨none, none, false, false, L ++ [x.name], S ++ [some d]⟩)
      (by simp [decodeChar, hc1, hc2, h1, hv, DecodeState.push])]
    exact ⟨_, rfl, ⟨rfl, rfl, rfl⟩, rfl⟩
  | braced =>
    simp only [ht] at hz
    obtain ⟨d, hd⟩ := hz
    simp only [hd, Option.getD_some, List.cons_append]
    rw [foldlM_ok_cons (s' := ⟨some x.name, none, false, true, L, S⟩) (by simp [decodeChar])]
    have hval := Nat.ofDigitChars_ten_toDigits (n := d)
    have hdig : ∀ c ∈ Nat.toDigits 10 d, c.isDigit = true := fun c hc => isDigit_toDigits hc
    have hne : Nat.toDigits 10 d ≠ [] := Nat.toDigits_ne_nil
    cases hds : Nat.toDigits 10 d with
    | nil => exact absurd hds hne
    | cons c cs =>
      rw [hds] at hval hdig
      have h1 := hdig c (by simp)
      have hc1 : c ≠ '{' := by rintro rfl; revert h1; decide
      have hc2 : c ≠ '}' := by rintro rfl; revert h1; decide
      rw [List.cons_append, foldlM_ok_cons (s' := ⟨some x.name, some (0 * 10 + (c.toNat - '0'.toNat)), false, true, L, S⟩)
          (by simp [decodeChar, hc1, hc2, h1]),
        foldlM_ok_append (decode_in_size cs x.name L S _ fun c hc => hdig c (by simp [hc]))]
      rw [Nat.ofDigitChars_cons, Nat.mul_comm] at hval
      rw [hval, foldlM_ok_cons (s' := ⟨none, none, false, false, L ++ [x.name], S ++ [some d]⟩)
        (by simp [decodeChar, DecodeState.push])]
      exact ⟨_, rfl, ⟨rfl, rfl, rfl⟩, rfl⟩

/-- `decodeSubText` recovers exactly the names and dimensions from the text of any list of legs, however each of them
is written. -/
theorem C20_round_trip (xs : List LegText) (hx : ∀ x ∈ xs, x.Valid) :
    decodeSubText (xs.flatMap LegText.write) = .ok (xs.map (·.name), xs.map (·.size)) := by
  have key : ∀ (xs : List LegText) (s : DecodeState), (∀ x ∈ xs, x.Valid) → s.Ready →
      ∃ s', (xs.flatMap LegText.write).foldlM decodeChar s = .ok s' ∧
        s'.legs = (s.legs.1 ++ xs.map (·.name), s.legs.2 ++ xs.map (·.size)) := by
    intro xs
    induction xs with
    | nil => intro s _ _; exact ⟨s, rfl, by simp⟩
    | cons x xs ih =>
      intro s hx hs
      obtain ⟨s1, h1, h2, h3⟩ := decode_leg (hx x (by simp)) hs
      obtain ⟨s', h4, h5⟩ := ih s1 (fun y hy => hx y (by simp [hy])) h2
      refine ⟨s', ?_, ?_⟩
      · rw [List.flatMap_cons, foldlM_ok_append h1, h4]
      · rw [h5, h3]
        simp
  obtain ⟨s', h1, h2⟩ := key xs ⟨none, none, false, false, [], []⟩ hx ⟨rfl, rfl, rfl⟩
  unfold decodeSubText
  rw [h1]
  simp only [DecodeState.legs, List.nil_append] at h2
  show (match s'.currName with
    | some n => pure (s'.labels ++ [n], s'.shape ++ [s'.currSize])
    | none => pure (s'.labels, s'.shape) : Except PyErr _) = _
  cases hn : s'.currName with
  | none => rw [hn] at h2; simp only at h2 ⊢; rw [h2]; rfl
  | some n => rw [hn] at h2; simp only at h2 ⊢; rw [h2]; rfl

/-- Consequently the notation is unambiguous: two lists of legs with the same text have the same names and
dimensions. -/
theorem C20_unambiguous (xs ys : List LegText) (hx : ∀ x ∈ xs, x.Valid) (hy : ∀ y ∈ ys, y.Valid)
    (h : xs.flatMap LegText.write = ys.flatMap LegText.write) :
    xs.map (·.name) = ys.map (·.name) ∧ xs.map (·.size) = ys.map (·.size) := by
  have h1 := C20_round_trip xs hx
  rw [h, C20_round_trip ys hy] at h1
  injection h1 with h1
  injection h1 with a b
  exact ⟨a.symm, b.symm⟩

example : let xs : List LegText := [⟨['a'], none, false, .absent⟩, ⟨['b', '2', 'c'], some 120, true, .braced⟩,
      ⟨['d'], some 7, true, .bare⟩, ⟨['x'], none, false, .emptyBraces⟩, ⟨['e'], none, false, .absent⟩]
    (∀ x ∈ xs, x.Valid) ∧ String.ofList (xs.flatMap LegText.write) = "a{b2c}{120}{d}7x{}e" := by
  refine ⟨?_, by decide +kernel⟩
  intro x hx
  simp only [List.mem_cons, List.not_mem_nil, or_false] at hx
  rcases hx with rfl | rfl | rfl | rfl | rfl
  · exact ⟨⟨_, _, rfl, by decide⟩, by decide, by decide, by decide, rfl⟩
  · exact ⟨⟨_, _, rfl, by decide⟩, by decide, by decide, by decide, _, rfl⟩
  · exact ⟨⟨_, _, rfl, by decide⟩, by decide, by decide, by decide, _, rfl, by decide⟩
  · exact ⟨⟨_, _, rfl, by decide⟩, by decide, by decide, by decide, rfl⟩
  · exact ⟨⟨_, _, rfl, by decide⟩, by decide, by decide, by decide, rfl⟩

/-- The restrictions are needed: a bare dimension of two digits is read as a dimension and a new leg named by the
second digit, and a name in braces that begins with a digit after a leg without dimension is read as a dimension. -/
theorem C20_misread :
    decodeSubText "a12".toList = .ok ([['a'], ['2']], [some 1, none]) ∧
    decodeSubText "a{1b}".toList = .ok ([['a'], ['b']], [some 1, none]) := by decide +kernel

/-- A closing brace that closes nothing raises `AssertionError`. -/
theorem C20_unmatched (xs : List LegText) (hx : ∀ x ∈ xs, x.Valid) (rest : List Char) :
    decodeSubText (xs.flatMap LegText.write ++ '}' :: rest) = .error .assertionError := by
  have key : ∀ (xs : List LegText) (s : DecodeState), (∀ x ∈ xs, x.Valid) → s.Ready →
      ∃ s', (xs.flatMap LegText.write).foldlM decodeChar s = .ok s' ∧ s'.Ready := by
    intro xs
    induction xs with
    | nil => intro s _ h; exact ⟨s, rfl, h⟩
    | cons x xs ih =>
      intro s hx hs
      obtain ⟨s1, h1, h2, _⟩ := decode_leg (hx x (by simp)) hs
      obtain ⟨s', h4, h5⟩ := ih s1 (fun y hy => hx y (by simp [hy])) h2
      exact ⟨s', by rw [List.flatMap_cons, foldlM_ok_append h1, h4], h5⟩
  obtain ⟨s', h1, h2, h3, _⟩ := key xs ⟨none, none, false, false, [], []⟩ hx ⟨rfl, rfl, rfl⟩
  unfold decodeSubText
  rw [foldlM_ok_append h1, List.foldlM_cons]
  have : decodeChar s' '}' = .error .assertionError := by simp [decodeChar, h2, h3]
  rw [this]
  rfl

example : (tagTensor.addTensorTag (tagStore "a" "b-") "T").2 = some .assertionError :=
  (C38_addTensorTag_partial tagTensor (tagStore "a" "b-") "T" (by decide) (pre := [0]) (bad := 1) (post := []) rfl (by decide +kernel) (by decide +kernel)).1

end CTL
