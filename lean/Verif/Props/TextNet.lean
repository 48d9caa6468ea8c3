import Verif.Lemmas.TextRead
import Verif.Lemmas.MakeGraph

/-! C57: networks written as text. -/

namespace CTL

/-! ### Legs and their texts side by side -/

/-- The legs `L` of the store, as they have been read, and their texts. -/
structure SideBySide (st : Store) (L : List LegId) (xs : List LegText) (Z : List (LegId × LegText)) : Prop where
  legs : L = Z.map Prod.fst
  texts : xs = Z.map Prod.snd
  name : ∀ z ∈ Z, st.name z.1 = String.ofList z.2.name
  dim : ∀ z ∈ Z, st.dim z.1 = encDim z.2.size

theorem ReadInv.side {st : Store} {ts : List TensorText} {s : TextState} (I : ReadInv st ts s) :
    ∃ Z, SideBySide s.st (s.tensors.flatMap fun r => r.1.legs) (textLegs ts) Z := by
  have n1 : (s.tensors.flatMap fun r => r.1.legs).map s.st.name = (textLegs ts).map fun x => String.ofList x.name := by
    have := congrArg List.flatten I.labels
    rw [← List.flatMap_def, ← List.flatMap_def] at this
    rw [List.map_flatMap, this]
    unfold textLegs
    rw [List.map_flatMap]
  have d1 : (s.tensors.flatMap fun r => r.1.legs).map s.st.dim = (textLegs ts).map fun x => encDim x.size := by
    have := congrArg List.flatten I.dims
    rw [← List.flatMap_def, ← List.flatMap_def] at this
    rw [List.map_flatMap, this]
    unfold textLegs
    rw [List.map_flatMap]
  generalize (s.tensors.flatMap fun r => r.1.legs) = L at n1 d1
  generalize textLegs ts = xs at n1 d1
  have len : L.length = xs.length := by simpa using congrArg List.length n1
  refine ⟨L.zip xs, (List.map_fst_zip len.le).symm, (List.map_snd_zip len.ge).symm, ?_, ?_⟩
  · intro z hz
    obtain ⟨i, hi⟩ := List.mem_iff_getElem?.mp hz
    rw [List.getElem?_zip_eq_some] at hi
    have := congrArg (fun l => l[i]?) n1
    simp only [List.getElem?_map, hi.1, hi.2, Option.map_some, Option.some.injEq] at this
    exact this
  · intro z hz
    obtain ⟨i, hi⟩ := List.mem_iff_getElem?.mp hz
    rw [List.getElem?_zip_eq_some] at hi
    have := congrArg (fun l => l[i]?) d1
    simp only [List.getElem?_map, hi.1, hi.2, Option.map_some, Option.some.injEq] at this
    exact this

variable {st : Store} {L : List LegId} {xs : List LegText} {Z : List (LegId × LegText)}

theorem SideBySide.filterLegs (S : SideBySide st L xs Z) (n : List Char) :
    (L.filter fun l => st.name l = String.ofList n) = (Z.filter fun z => z.2.name = n).map Prod.fst := by
  rw [S.legs, List.filter_map]
  congr 1
  refine List.filter_congr fun z hz => ?_
  simp only [Function.comp, S.name z hz, String.ofList_inj]

theorem SideBySide.filterTexts (S : SideBySide st L xs Z) (n : List Char) :
    (xs.filter fun x => x.name = n) = (Z.filter fun z => z.2.name = n).map Prod.snd := by
  rw [S.texts, List.filter_map]
  rfl

/-- The names of the text can be joined exactly if the entries of the dictionary can. -/
theorem fits_iff (S : SideBySide st L xs Z) {links : List (String × List LegId)} (D : Dict st.name L links) :
    (AtMostTwice xs ∧ SizesAgree xs) ↔ ∀ e ∈ links, Entry.Fits st e.2 := by
  constructor
  · rintro ⟨h2, ha⟩ e he
    have e1 : e.2 = (Z.filter fun z => z.2.name = e.1.toList).map Prod.fst := by
      rw [← S.filterLegs, D.entry e he, String.ofList_toList]
    refine ⟨?_, ?_⟩
    · have := h2 e.1.toList
      rw [S.filterTexts, List.length_map] at this
      rw [e1, List.length_map]
      exact this
    · intro l hl m hm
      rw [e1] at hl hm
      obtain ⟨z, hz, rfl⟩ := List.mem_map.mp hl
      obtain ⟨z', hz', rfl⟩ := List.mem_map.mp hm
      obtain ⟨z1, z2⟩ := List.mem_filter.mp hz
      obtain ⟨z1', z2'⟩ := List.mem_filter.mp hz'
      rw [S.dim z z1, S.dim z' z1']
      cases h : z.2.size with
      | none => exact Or.inl rfl
      | some a =>
        cases h' : z'.2.size with
        | none => exact Or.inr (Or.inl rfl)
        | some b =>
          refine Or.inr (Or.inr ?_)
          rw [ha z.2 (S.texts ▸ List.mem_map_of_mem z1) z'.2 (S.texts ▸ List.mem_map_of_mem z1')
            ((of_decide_eq_true z2).trans (of_decide_eq_true z2').symm) a b h h']
  · intro hf
    have entry : ∀ z ∈ Z, ∃ e ∈ links, e.2 = (Z.filter fun y => y.2.name = z.2.name).map Prod.fst := by
      intro z hz
      obtain ⟨e, he, hk⟩ := List.mem_map.mp (D.all z.1 (S.legs ▸ List.mem_map_of_mem hz))
      refine ⟨e, he, ?_⟩
      rw [D.entry e he, hk, S.name z hz, S.filterLegs]
    refine ⟨fun n => ?_, fun x hx y hy hxy a b h1 h2 => ?_⟩
    · rw [S.filterTexts, List.length_map]
      cases hq : Z.filter fun z => z.2.name = n with
      | nil => simp
      | cons z r =>
        have hz : z ∈ Z.filter fun z => z.2.name = n := by rw [hq]; simp
        obtain ⟨z1, z2⟩ := List.mem_filter.mp hz
        obtain ⟨e, he, h⟩ := entry z z1
        have := (hf e he).1
        rw [h, List.length_map, of_decide_eq_true z2, hq] at this
        exact this
    · rw [S.texts] at hx hy
      obtain ⟨z, hz, rfl⟩ := List.mem_map.mp hx
      obtain ⟨z', hz', rfl⟩ := List.mem_map.mp hy
      obtain ⟨e, he, h⟩ := entry z hz
      have := (hf e he).2 z.1 (by rw [h]; exact List.mem_map_of_mem (List.mem_filter.mpr ⟨hz, by simp⟩)) z'.1
        (by rw [h]; exact List.mem_map_of_mem (List.mem_filter.mpr ⟨hz', by simpa using hxy.symm⟩))
      rw [S.dim z hz, S.dim z' hz', h1, h2] at this
      simpa [encDim] using this

theorem ReadInv.entries {st : Store} {ts : List TensorText} {s : TextState} (I : ReadInv st ts s) : Entries s.st s.links := by
  refine ⟨Dict.nodup I.dict.keys I.dict.entry ?_, ?_⟩
  · rw [I.legs]
    exact List.nodup_range'
  · intro e he l hl
    rw [I.dict.entry e he] at hl
    have hl := (List.mem_filter.mp hl).1
    refine ⟨?_, (I.bound hl).2⟩
    obtain ⟨r, hr, hl⟩ := List.mem_flatMap.mp hl
    exact (I.owner r hr l hl).2

/-- What is known of the legs of one name after the second loop. -/
theorem joined_leg {st st' : Store} {Z : List (LegId × LegText)} (S : SideBySide st L xs Z) (hL : L.Nodup) {links : List (String × List LegId)}
    (D : Dict st.name L links) (free : ∀ l ∈ L, (st.leg l).bond = none) (N : NamesLinked st st' links) (hf : ∀ e ∈ links, Entry.Fits st e.2)
    {z : LegId × LegText} (hz : z ∈ Z) :
    st'.dim z.1 = encDim (sizeOfName xs z.2.name) ∧
      ∀ m, st'.partner z.1 = some m ↔ m ≠ z.1 ∧ ∃ y ∈ Z, y.1 = m ∧ y.2.name = z.2.name := by
  obtain ⟨e, he, hk⟩ := List.mem_map.mp (D.all z.1 (S.legs ▸ List.mem_map_of_mem hz))
  have h : e.2 = (Z.filter fun y => y.2.name = z.2.name).map Prod.fst := by
    rw [D.entry e he, hk, S.name z hz, S.filterLegs]
  have J := N.joined e he
  have F := (hf e he).1
  have nd : e.2.Nodup := by
    rw [D.entry e he]
    exact hL.filter _
  have hx : sizeOfName xs z.2.name = (((Z.filter fun y => y.2.name = z.2.name).map Prod.snd).filterMap fun x => x.size).head? := by
    unfold sizeOfName
    rw [S.filterTexts]
  have mem : ∀ m, (∃ y ∈ Z, y.1 = m ∧ y.2.name = z.2.name) ↔ m ∈ e.2 := by
    intro m
    rw [h]
    constructor
    · rintro ⟨y, hy, rfl, hn⟩
      exact List.mem_map_of_mem (List.mem_filter.mpr ⟨hy, by simpa using hn⟩)
    · intro hm
      obtain ⟨y, hy, rfl⟩ := List.mem_map.mp hm
      exact ⟨y, (List.mem_filter.mp hy).1, rfl, of_decide_eq_true (List.mem_filter.mp hy).2⟩
  have hze : z ∈ Z.filter fun y => y.2.name = z.2.name := List.mem_filter.mpr ⟨hz, by simp⟩
  have sub : ∀ y ∈ Z.filter fun y => y.2.name = z.2.name, y ∈ Z := fun y hy => (List.mem_filter.mp hy).1
  simp only [mem]
  rw [hx]
  rw [h] at J F nd ⊢
  revert hze sub J F nd
  generalize (Z.filter fun y => y.2.name = z.2.name) = W
  intro J F nd hze sub
  match W, J, F, nd, hze, sub with
  | [], _, _, _, hze, _ => cases hze
  | [a], J, _, _, hze, sub =>
    obtain rfl := List.mem_singleton.mp hze
    have J : st'.leg z.1 = st.leg z.1 := J z.1 (by simp)
    have hb := free z.1 (S.legs ▸ List.mem_map_of_mem hz)
    refine ⟨?_, fun m => ⟨fun hp => ?_, fun hp => ?_⟩⟩
    · unfold Store.dim
      rw [J]
      refine (S.dim z hz).trans ?_
      cases h1 : z.2.size with
      | none => simp [h1]
      | some a => simp [h1]
    · unfold Store.partner at hp
      rw [J, hb] at hp
      cases hp
    · simp at hp
  | [a, b], J, _, nd, hze, sub =>
    obtain ⟨p1, p2, d1, d2⟩ := J
    have hab : a.1 ≠ b.1 := by
      simp only [List.map_cons, List.map_nil, List.nodup_cons, List.mem_singleton] at nd
      exact nd.1
    have hd : st'.dim a.1 = encDim ((([a, b].map Prod.snd).filterMap fun x => x.size).head?) := by
      rw [d1, S.dim a (sub a (by simp)), S.dim b (sub b (by simp))]
      cases h1 : a.2.size with
      | none =>
        cases h2 : b.2.size with
        | none => simp [h1, h2, encDim]
        | some y => simp [h1, h2, encDim]
      | some x => simp [h1, encDim]
    simp only [List.mem_cons, List.not_mem_nil, or_false] at hze
    rcases hze with rfl | rfl
    · refine ⟨hd, fun m => ⟨fun hp => ?_, fun hp => ?_⟩⟩
      · rw [p1] at hp
        obtain rfl := Option.some.inj hp
        exact ⟨hab.symm, by simp⟩
      · simp only [List.map_cons, List.map_nil, List.mem_cons, List.not_mem_nil, or_false] at hp
        rcases hp.2 with h | h
        · exact absurd h hp.1
        · rw [h]; exact p1
    · refine ⟨d2.trans hd, fun m => ⟨fun hp => ?_, fun hp => ?_⟩⟩
      · rw [p2] at hp
        obtain rfl := Option.some.inj hp
        exact ⟨hab, by simp⟩
      · simp only [List.map_cons, List.map_nil, List.mem_cons, List.not_mem_nil, or_false] at hp
        rcases hp.2 with h | h
        · rw [h]; exact p2
        · exact absurd h hp.1
  | a :: b :: c :: W, _, F, _, _, _ =>
    simp at F

/-! ### The properties -/

/-- C57: from the text of any network in which no name is used three times and legs with the same name do not have different dimensions, exactly
the tensors, labels and links are read; a dimension that is given at only one of two joined legs holds for both. -/
theorem C57_read {st : Store} (w : WFStore st) {ts : List TensorText} (hne : ts ≠ []) (hv : ∀ t ∈ ts, t.Valid) (h2 : AtMostTwice (textLegs ts))
    (ha : SizesAgree (textLegs ts)) :
    ∃ st' rs, createTensorListFromText st (ts.flatMap TensorText.write) = .ok (st', rs) ∧ ReadNet st st' ts rs := by
  obtain ⟨s, e, I⟩ := textLoop_all w hne hv
  obtain ⟨Z, S⟩ := I.side
  have hf := (fits_iff S I.dict).mp ⟨h2, ha⟩
  obtain ⟨st', e2, N⟩ := linkNames_ok s.links s.st I.wf I.entries hf
  have hL : (s.tensors.flatMap fun r => r.1.legs).Nodup := by
    rw [I.legs]
    exact List.nodup_range'
  have free : ∀ l ∈ s.tensors.flatMap fun r => r.1.legs, (s.st.leg l).bond = none := by
    intro l hl
    obtain ⟨r, hr, hl⟩ := List.mem_flatMap.mp hl
    exact (I.owner r hr l hl).2
  have key := fun {z} hz => joined_leg S hL I.dict free N hf (z := z) hz
  have at_ : ∀ (k : Nat) (l : LegId) (x : LegText), (s.tensors.flatMap fun r => r.1.legs)[k]? = some l → (textLegs ts)[k]? = some x → Z[k]? = some (l, x) := by
    intro k l x hl hx
    rw [S.legs, List.getElem?_map] at hl
    rw [S.texts, List.getElem?_map] at hx
    cases hz : Z[k]? with
    | none => rw [hz] at hl; cases hl
    | some z =>
      rw [hz] at hl hx
      exact congrArg some (Prod.ext (Option.some.inj hl) (Option.some.inj hx))
  refine ⟨st', s.tensors, ?_, N.wf, ⟨?_, fun l hl => ?_⟩, I.names, ?_, ?_, hL, ?_, ?_, I.like, ?_, ?_, ?_⟩
  · unfold createTensorListFromText
    simp only [e, e2, bind, Except.bind, pure, Except.pure]
  · rw [N.nextLeg]
    exact I.kept.le
  · rw [N.other l, I.kept.leg l hl]
    intro x hx hm
    rw [I.dict.entry x hx] at hm
    exact absurd (I.bound (List.mem_filter.mp hm).1).1 (Nat.not_le.mpr hl)
  · rw [← I.labels]
    exact List.map_congr_left fun r _ => List.map_congr_left fun l _ => N.name l
  · intro l hl
    rw [N.nextLeg]
    exact I.bound hl
  · rw [I.ids]
    exact List.nodup_range'
  · intro r hr l hl
    rw [N.owner]
    exact (I.owner r hr l hl).1
  · intro k l x hl hx
    exact (key (List.mem_of_getElem? (at_ k l x hl hx))).1
  · intro k j l m x y hl hm hx hy
    have z1 := at_ k l x hl hx
    have z2 := at_ j m y hm hy
    rw [(key (List.mem_of_getElem? z1)).2 m]
    have inj : ∀ (i i' : Nat) (v v' : LegText) (a : LegId), Z[i]? = some (a, v) → Z[i']? = some (a, v') → i = i' := by
      intro i i' v v' a h1 h2
      refine (List.getElem?_inj ?_ hL).mp ?_
      · rw [S.legs, List.length_map]
        exact (List.getElem?_eq_some_iff.mp h1).1
      · rw [S.legs, List.getElem?_map, List.getElem?_map, h1, h2]
        rfl
    constructor
    · rintro ⟨hne, ⟨a, v⟩, hy', hya, hyn⟩
      obtain rfl : a = m := hya
      obtain ⟨i, hi⟩ := List.mem_iff_getElem?.mp hy'
      obtain rfl := inj i j v y a hi z2
      have : v = y := by
        rw [hi] at z2
        exact (Prod.mk.inj (Option.some.inj z2)).2
      subst this
      refine ⟨?_, hyn.symm⟩
      rintro rfl
      rw [hi] at z1
      exact hne (Prod.mk.inj (Option.some.inj z1)).1
    · rintro ⟨hkj, hn⟩
      refine ⟨?_, (m, y), List.mem_of_getElem? z2, rfl, hn.symm⟩
      rintro rfl
      exact hkj (inj k j x y m z1 z2)
  · intro l hl m hp
    rw [S.legs] at hl ⊢
    obtain ⟨z, hz, rfl⟩ := List.mem_map.mp hl
    obtain ⟨-, y, hy, rfl, -⟩ := ((key hz).2 m).mp hp
    exact List.mem_map_of_mem hy

/-- C57: if a name is used three times, or legs with the same name have different dimensions, `AssertionError` is raised. -/
theorem C57_refused {st : Store} (w : WFStore st) {ts : List TensorText} (hne : ts ≠ []) (hv : ∀ t ∈ ts, t.Valid)
    (h : ¬ (AtMostTwice (textLegs ts) ∧ SizesAgree (textLegs ts))) :
    createTensorListFromText st (ts.flatMap TensorText.write) = .error .assertionError := by
  obtain ⟨s, e, I⟩ := textLoop_all w hne hv
  obtain ⟨Z, S⟩ := I.side
  rw [fits_iff S I.dict] at h
  simp only [not_forall] at h
  obtain ⟨x, hx, hn⟩ := h
  unfold createTensorListFromText
  simp only [e, linkNames_fails s.links s.st I.wf I.entries ⟨x, hx, hn⟩, bind, Except.bind]

/-- C57: a text that begins with something else than a tensor with a name and legs is refused, and so is one where this comes after some
tensors.  `c :: cs` is the piece up to the next upper-case letter. -/
theorem C57_malformed {st : Store} (w : WFStore st) {ts : List TensorText} (hv : ∀ t ∈ ts, t.Valid) {c : Char} {cs rest : List Char}
    (hc : ∀ x ∈ cs, x.isUpper = false) (hr : rest = [] ∨ ∃ d ds, rest = d :: ds ∧ d.isUpper = true) (hcut : ts = [] ∨ c.isUpper = true)
    (bad : c.isUpper = false ∨ ∀ x ∈ cs, x.isLower = false) :
    createTensorListFromText st (ts.flatMap TensorText.write ++ (c :: cs) ++ rest) = .error .assertionError := by
  generalize ht : ts.flatMap TensorText.write ++ (c :: cs) ++ rest = t
  have loop : ∃ s, (List.range' 1 (ts.flatMap TensorText.write).length).foldlM (textStep t) ⟨st, 0, [], []⟩ = .ok s ∧
      s.last = (ts.flatMap TensorText.write).length := by
    rcases hcut with rfl | hcut
    · exact ⟨_, rfl, rfl⟩
    · obtain ⟨s, h1, -, h3⟩ := textLoop_ok (st := st) ts [] ⟨st, 0, [], []⟩ [] ((c :: cs) ++ rest) t hv (ReadInv.start w 0) rfl
        (by rw [← ht]; simp) (Or.inr ⟨c, _, rfl, hcut⟩)
      exact ⟨s, h1, by simpa using h3⟩
  obtain ⟨s, h1, h3⟩ := loop
  have piece := textStep_piece ht.symm hc hr s h3
  have e : createTensorFromText s.st (c :: cs) = .error .assertionError := by
    unfold createTensorFromText
    simp only
    rw [if_neg]
    intro h
    rw [Bool.and_eq_true] at h
    rcases bad with b | b
    · rw [b] at h
      cases h.1
    · have := (Bool.and_eq_true _ _ ▸ h.2 : (_ = true ∧ _ = true)).2
      obtain ⟨x, hx, hl⟩ := List.any_eq_true.mp this
      rw [b x hx] at hl
      cases hl
  rw [e] at piece
  have first : textStep t ⟨st, 0, [], []⟩ 0 = .ok ⟨st, 0, [], []⟩ := by
    unfold textStep
    rw [if_neg]
    rintro (h | ⟨h, -⟩)
    · rw [← ht] at h
      simp at h
    · exact absurd h (Nat.lt_irrefl 0)
  have len : t.length = (ts.flatMap TensorText.write).length + ((cs.length + 1) + rest.length) := by
    rw [← ht]
    simp
    omega
  have all : (List.range (t.length + 1)).foldlM (textStep t) ⟨st, 0, [], []⟩ = .error .assertionError := by
    rw [List.range_eq_range', List.range'_succ, List.foldlM_cons, first]
    show (List.range' (0 + 1) t.length).foldlM (textStep t) _ = _
    rw [len, ← List.range'_append_1, List.foldlM_append, Nat.zero_add, h1]
    show (List.range' (1 + (ts.flatMap TensorText.write).length) _).foldlM (textStep t) s = _
    rw [← List.range'_append_1, List.foldlM_append, Nat.add_comm 1, piece]
    rfl
  unfold createTensorListFromText
  rw [all]
  rfl

/-- C57: the empty text is refused. -/
theorem C57_empty (st : Store) : createTensorListFromText st [] = .error .assertionError := rfl

/-! ### The graph -/

theorem ReadNet.flat {st st' : Store} {ts : List TensorText} {rs : List (Tensor Unit × Char)} (R : ReadNet st st' ts rs) :
    (rs.flatMap fun r => r.1.legs).map st'.name = (textLegs ts).map fun x => String.ofList x.name := by
  have := congrArg List.flatten R.labels
  rw [← List.flatMap_def, ← List.flatMap_def] at this
  rw [List.map_flatMap, this]
  unfold textLegs
  rw [List.map_flatMap]

theorem ReadNet.leg {st st' : Store} {ts : List TensorText} {rs : List (Tensor Unit × Char)} (R : ReadNet st st' ts rs) {l : LegId}
    (hl : l ∈ rs.flatMap fun r => r.1.legs) :
    ∃ (k : Nat) (x : LegText), (rs.flatMap fun r => r.1.legs)[k]? = some l ∧ (textLegs ts)[k]? = some x ∧ st'.name l = String.ofList x.name := by
  obtain ⟨k, hk⟩ := List.mem_iff_getElem?.mp hl
  have h := congrArg (fun L => L[k]?) R.flat
  simp only [List.getElem?_map, hk, Option.map_some] at h
  cases hx : (textLegs ts)[k]? with
  | none => rw [hx] at h; cases h
  | some x =>
    rw [hx] at h
    exact ⟨k, x, hk, hx, Option.some.inj h⟩

theorem ReadNet.text {st st' : Store} {ts : List TensorText} {rs : List (Tensor Unit × Char)} (R : ReadNet st st' ts rs) {x : LegText}
    (hx : x ∈ textLegs ts) :
    ∃ (k : Nat) (l : LegId), (rs.flatMap fun r => r.1.legs)[k]? = some l ∧ (textLegs ts)[k]? = some x ∧ st'.name l = String.ofList x.name := by
  obtain ⟨k, hk⟩ := List.mem_iff_getElem?.mp hx
  have h := congrArg (fun L => L[k]?) R.flat
  simp only [List.getElem?_map, hk, Option.map_some] at h
  cases hl : (rs.flatMap fun r => r.1.legs)[k]? with
  | none => rw [hl] at h; cases h
  | some l =>
    rw [hl] at h
    exact ⟨k, l, hl, hk, Option.some.inj h⟩

/-- Two different legs are joined exactly if they have the same name. -/
theorem ReadNet.joined {st st' : Store} {ts : List TensorText} {rs : List (Tensor Unit × Char)} (R : ReadNet st st' ts rs) {l m : LegId}
    (hl : l ∈ rs.flatMap fun r => r.1.legs) (hm : m ∈ rs.flatMap fun r => r.1.legs) :
    st'.partner l = some m ↔ l ≠ m ∧ st'.name l = st'.name m := by
  obtain ⟨k, x, hk, hx, hn⟩ := R.leg hl
  obtain ⟨j, y, hj, hy, hn'⟩ := R.leg hm
  rw [R.links k j l m x y hk hj hx hy, hn, hn']
  have e : k = j ↔ l = m := by
    constructor
    · rintro rfl
      rw [hk] at hj
      exact Option.some.inj hj
    · rintro rfl
      exact (List.getElem?_inj (List.getElem?_eq_some_iff.mp hk).1 R.nodup).mp (hk.trans hj.symm)
  rw [Ne, Ne, e]
  refine and_congr_right fun _ => ⟨fun h => by rw [h], fun h => ?_⟩
  have := congrArg String.toList h
  simpa using this

theorem ReadNet.closed {st st' : Store} {ts : List TensorText} {rs : List (Tensor Unit × Char)} (R : ReadNet st st' ts rs)
    (hn : ∀ t ∈ ts, (t.legs.map fun x => x.name).Nodup) : ClosedNet st' (rs.map fun r => r.1) := by
  have flat : ((rs.map fun r => r.1).flatMap fun t => t.legs) = rs.flatMap fun r => r.1.legs := by
    rw [List.flatMap_map]
  refine ⟨R.wf.inv, flat ▸ R.nodup, by simpa [List.map_map, Function.comp_def] using R.ids, ?_, ?_⟩
  · intro t ht l hl
    obtain ⟨r, hr, rfl⟩ := List.mem_map.mp ht
    exact R.owner r hr l hl
  · intro t ht l hl m hm
    obtain ⟨r, hr, rfl⟩ := List.mem_map.mp ht
    have hl' : l ∈ rs.flatMap fun r => r.1.legs := List.mem_flatMap.mpr ⟨r, hr, hl⟩
    have hm' := R.inside l hl' m hm
    refine ⟨fun h => ?_, ?_⟩
    · obtain ⟨hne, he⟩ := (R.joined hl' hm').mp hm
      have hin : r.1.legs.map st'.name ∈ rs.map (fun r => r.1.legs.map st'.name) := List.mem_map_of_mem (f := fun r => r.1.legs.map st'.name) hr
      rw [R.labels] at hin
      obtain ⟨u, hu, e⟩ := List.mem_map.mp hin
      have nd : (r.1.legs.map st'.name).Nodup := by
        rw [← e]
        have := (hn u hu).map (f := String.ofList) (fun a b h => by simpa using congrArg String.toList h)
        simpa [List.map_map, Function.comp_def] using this
      exact hne (List.inj_on_of_nodup_map nd hl h he)
    · obtain ⟨u, hu, h⟩ := List.mem_flatMap.mp hm'
      exact ⟨u.1, List.mem_map_of_mem hu, h⟩

/-- C57: the graph of the text has one vertex for every tensor, in the order of the text, and one edge for every name; the edges at a tensor
are the names of its legs. -/
theorem C57_graph {st : Store} (w : WFStore st) {ts : List TensorText} (hne : ts ≠ []) (hv : ∀ t ∈ ts, t.Valid) (h2 : AtMostTwice (textLegs ts))
    (ha : SizesAgree (textLegs ts)) (hn : ∀ t ∈ ts, (t.legs.map fun x => x.name).Nodup) :
    ∃ (st' : Store) (g : Graph) (inp : Input) (G : TGraph) (edge : List Char → Nat),
      makeTensorGraphFromText st (ts.flatMap TensorText.write) = .ok (st', g) ∧ g.input = .ok inp ∧ Describes inp G ∧ G.n = ts.length ∧
      (∀ (i : Nat) (t : TensorText), ts[i]? = some t → G.edges i = (t.legs.map fun x => edge x.name).toFinset ∧ G.diag i = false) ∧
      (∀ x ∈ textLegs ts, ∀ y ∈ textLegs ts, edge x.name = edge y.name → x.name = y.name) ∧
      ∀ x ∈ textLegs ts, G.dim (edge x.name) = encDim (sizeOfName (textLegs ts) x.name) := by
  obtain ⟨st', rs, e, R⟩ := C57_read w hne hv h2 ha
  obtain ⟨g, inp, G, κ, e1, e2, D, O⟩ := makeTensorGraph_spec (R.closed hn)
  have same : ∀ l ∈ rs.flatMap fun r => r.1.legs, ∀ m ∈ rs.flatMap fun r => r.1.legs, κ l = κ m ↔ st'.name l = st'.name m := by
    intro l hl m hm
    obtain ⟨r, hr, hl'⟩ := List.mem_flatMap.mp hl
    obtain ⟨u, hu, hm'⟩ := List.mem_flatMap.mp hm
    rw [O.same r.1 (List.mem_map_of_mem hr) u.1 (List.mem_map_of_mem hu) l hl' m hm', R.joined hl hm]
    by_cases h : l = m
    · simp [h]
    · simp [h]
  have len : rs.length = ts.length := by simpa using congrArg List.length R.names
  let edge : List Char → Nat := fun n => (((rs.flatMap fun r => r.1.legs).find? fun l => st'.name l = String.ofList n).map κ).getD 0
  have hedge : ∀ l ∈ rs.flatMap fun r => r.1.legs, ∀ n, st'.name l = String.ofList n → edge n = κ l := by
    intro l hl n h
    show ((List.find? _ _).map κ).getD 0 = _
    cases hf : (rs.flatMap fun r => r.1.legs).find? fun l => st'.name l = String.ofList n with
    | none => simpa [h] using List.find?_eq_none.mp hf l hl
    | some m =>
      have hm := List.find?_some hf
      simp only [decide_eq_true_eq] at hm
      exact (same m (List.mem_of_find?_eq_some hf) l hl).mpr (hm.trans h.symm)
  refine ⟨st', g, inp, G, edge, ?_, e2, D, by rw [O.n, List.length_map, len], ?_, ?_, ?_⟩
  · unfold makeTensorGraphFromText
    simp only [e, e1, bind, Except.bind, pure, Except.pure]
  · intro i t ht
    have hi : i < rs.length := len ▸ (List.getElem?_eq_some_iff.mp ht).1
    have hr : rs[i]? = some rs[i] := List.getElem?_eq_getElem hi
    have hr' : (rs.map fun r => r.1)[i]? = some rs[i].1 := by rw [List.getElem?_map, hr]; rfl
    refine ⟨?_, (O.diag i _ hr').trans (R.like _ (List.getElem_mem hi)).2.2⟩
    rw [O.edges i _ hr']
    congr 1
    have h := congrArg (fun L => L[i]?) R.labels
    simp only [List.getElem?_map, hr, ht, Option.map_some] at h
    have h := Option.some.inj h
    refine List.ext_getElem ?_ fun k h1 h2 => ?_
    · simpa using congrArg List.length h
    · rw [List.getElem_map, List.getElem_map]
      refine (hedge _ (List.mem_flatMap.mpr ⟨_, List.getElem_mem hi, List.getElem_mem _⟩) _ ?_).symm
      rw [List.length_map] at h1 h2
      have := congrArg (fun L => L[k]?) h
      simpa [h1, h2] using this
  · intro x hx y hy hxy
    obtain ⟨k, l, hk, hx', hl⟩ := R.text hx
    obtain ⟨j, m, hj, hy', hm⟩ := R.text hy
    rw [hedge l (List.mem_of_getElem? hk) _ hl, hedge m (List.mem_of_getElem? hj) _ hm,
      same l (List.mem_of_getElem? hk) m (List.mem_of_getElem? hj), hl, hm] at hxy
    simpa using congrArg String.toList hxy
  · intro x hx
    obtain ⟨k, l, hk, hx', hl⟩ := R.text hx
    rw [hedge l (List.mem_of_getElem? hk) _ hl]
    obtain ⟨r, hr, hl'⟩ := List.mem_flatMap.mp (List.mem_of_getElem? hk)
    rw [O.dim r.1 (List.mem_map_of_mem hr) l hl']
    exact R.dims k l x hk hx'

/-! ### Examples -/

/-- The network of `tests/test_TensorGraph.py` 128. -/
def exampleNet : List TensorText :=
  [⟨'A', [⟨['i'], none, false, .absent⟩, ⟨['j'], some 45, false, .braced⟩, ⟨['l'], some 4, false, .braced⟩]⟩,
   ⟨'B', [⟨['i'], some 3, false, .braced⟩, ⟨['m', 'n'], some 12, true, .braced⟩]⟩,
   ⟨'C', [⟨['j'], some 45, false, .braced⟩, ⟨['k'], none, false, .absent⟩]⟩,
   ⟨'D', [⟨['k'], some 2, false, .braced⟩, ⟨['l'], none, false, .absent⟩, ⟨['m', 'n'], none, true, .absent⟩]⟩]

theorem exampleNet_text : exampleNet.flatMap TensorText.write = "Aij{45}l{4}Bi{3}{mn}{12}Cj{45}kDk{2}l{mn}".toList := by decide +kernel

theorem exampleNet_valid : ∀ t ∈ exampleNet, t.Valid := by
  intro t ht
  simp only [exampleNet, List.mem_cons, List.not_mem_nil, or_false] at ht
  rcases ht with rfl | rfl | rfl | rfl
  all_goals
    refine ⟨by decide, fun x hx => ?_, by decide, by decide⟩
    simp only [List.mem_cons, List.not_mem_nil, or_false] at hx
    rcases hx with rfl | rfl | rfl
  all_goals first
    | exact ⟨⟨_, _, rfl, by decide⟩, by decide, by decide, by decide, rfl⟩
    | exact ⟨⟨_, _, rfl, by decide⟩, by decide, by decide, by decide, _, rfl⟩

theorem atMostTwice_of {xs : List LegText} (h : ∀ y ∈ xs, (xs.filter fun x => x.name = y.name).length ≤ 2) : AtMostTwice xs := by
  intro n
  cases hf : xs.filter fun x => x.name = n with
  | nil => simp
  | cons y ys =>
    have hy : y ∈ xs.filter fun x => x.name = n := by rw [hf]; simp
    obtain ⟨h1, h2⟩ := List.mem_filter.mp hy
    obtain rfl := of_decide_eq_true h2
    exact hf ▸ h y h1

theorem sizesAgree_of {xs : List LegText} (h : ∀ x ∈ xs, ∀ y ∈ xs, x.name = y.name → x.size = none ∨ y.size = none ∨ x.size = y.size) : SizesAgree xs := by
  intro x hx y hy hn a b ha hb
  have := h x hx y hy hn
  rw [ha, hb] at this
  simpa using this

theorem exampleNet_twice : AtMostTwice (textLegs exampleNet) := atMostTwice_of (by decide +kernel)

theorem exampleNet_sizes : SizesAgree (textLegs exampleNet) := sizesAgree_of (by decide +kernel)

/-- The network can be read into the empty store, and the dimension of `k`, written only at `D`, holds for both legs. -/
example : ∃ st' rs, createTensorListFromText Store.empty "Aij{45}l{4}Bi{3}{mn}{12}Cj{45}kDk{2}l{mn}".toList = .ok (st', rs) ∧
    ReadNet Store.empty st' exampleNet rs ∧ sizeOfName (textLegs exampleNet) ['k'] = some 2 := by
  obtain ⟨st', rs, h1, h2⟩ := C57_read Reachable.empty.wf (by decide) exampleNet_valid exampleNet_twice exampleNet_sizes
  exact ⟨st', rs, exampleNet_text ▸ h1, h2, by decide +kernel⟩

/-- The hypotheses of `C57_graph` hold for it. -/
example : ∀ t ∈ exampleNet, (t.legs.map fun x => x.name).Nodup := by decide +kernel

/-- A name that is used three times, and dimensions that differ. -/
example : ¬ AtMostTwice (textLegs [⟨'A', [⟨['i'], none, false, .absent⟩]⟩, ⟨'B', [⟨['i'], none, false, .absent⟩]⟩, ⟨'C', [⟨['i'], none, false, .absent⟩]⟩]) ∧
    ¬ SizesAgree (textLegs [⟨'A', [⟨['i'], some 2, false, .bare⟩]⟩, ⟨'B', [⟨['i'], some 3, false, .bare⟩]⟩]) := by
  refine ⟨fun h => absurd (h ['i']) (by decide +kernel), fun h => ?_⟩
  exact absurd (h ⟨['i'], some 2, false, .bare⟩ (by simp [textLegs]) ⟨['i'], some 3, false, .bare⟩ (by simp [textLegs]) rfl 2 3 rfl rfl) (by decide)

/-- A tensor without legs in the middle of a text, and a text that begins with a lower-case letter. -/
example (st : Store) (w : WFStore st) : createTensorListFromText st "AiBCi".toList = .error .assertionError ∧
    createTensorListFromText st "iAi".toList = .error .assertionError := by
  have hA : (⟨'A', [⟨['i'], none, false, .absent⟩]⟩ : TensorText).Valid := by
    refine ⟨by decide, fun x hx => ?_, by decide, by decide⟩
    obtain rfl := List.mem_singleton.mp hx
    exact ⟨⟨_, _, rfl, by decide⟩, by decide, by decide, by decide, rfl⟩
  constructor
  · exact C57_malformed (ts := [⟨'A', [⟨['i'], none, false, .absent⟩]⟩]) (c := 'B') (cs := []) (rest := ['C', 'i']) w (by simpa using hA) (by simp)
      (Or.inr ⟨_, _, rfl, by decide⟩) (Or.inr (by decide)) (Or.inr (by simp))
  · exact C57_malformed (ts := []) (c := 'i') (cs := []) (rest := ['A', 'i']) w (by simp) (by simp)
      (Or.inr ⟨_, _, rfl, by decide⟩) (Or.inl rfl) (Or.inl (by decide))

end CTL
