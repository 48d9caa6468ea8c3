import Verif.Lemmas.TextNet

/-! Reading the tensors of a text one after another. -/

namespace CTL

/-! ### The dictionary of names -/

theorem addLink_keys (n : String) (l : LegId) : ∀ links : List (String × List LegId),
    (addLink links n l).map Prod.fst = if n ∈ links.map Prod.fst then links.map Prod.fst else links.map Prod.fst ++ [n]
  | [] => by simp [addLink]
  | (m, ls) :: rest => by
    unfold addLink
    by_cases h : m = n
    · subst h; simp
    · rw [if_neg h, List.map_cons, addLink_keys n l rest]
      by_cases h2 : n ∈ rest.map Prod.fst
      · rw [if_pos h2, if_pos (by simp [h2])]
        rfl
      · rw [if_neg h2, if_neg (by simp only [List.map_cons, List.mem_cons, not_or]; exact ⟨fun e => h e.symm, h2⟩)]
        rfl

theorem addLink_mem (n : String) (l : LegId) : ∀ links : List (String × List LegId), (links.map Prod.fst).Nodup → ∀ e ∈ addLink links n l,
    (e.1 ≠ n ∧ e ∈ links) ∨ (e.1 = n ∧ ((∃ ls, (n, ls) ∈ links ∧ e.2 = ls ++ [l]) ∨ (n ∉ links.map Prod.fst ∧ e.2 = [l])))
  | [], _, e, he => by
    obtain rfl := List.mem_singleton.mp he
    exact Or.inr ⟨rfl, Or.inr ⟨by simp, rfl⟩⟩
  | (m, ls) :: rest, hn, e, he => by
    rw [List.map_cons, List.nodup_cons] at hn
    unfold addLink at he
    by_cases h : m = n
    · subst h
      rw [if_pos rfl] at he
      rcases List.mem_cons.mp he with rfl | he
      · exact Or.inr ⟨rfl, Or.inl ⟨ls, by simp, rfl⟩⟩
      · refine Or.inl ⟨fun h => hn.1 (List.mem_map.mpr ⟨e, he, h⟩), List.mem_cons_of_mem _ he⟩
    · rw [if_neg h] at he
      rcases List.mem_cons.mp he with rfl | he
      · exact Or.inl ⟨h, by simp⟩
      · rcases addLink_mem n l rest hn.2 e he with ⟨h1, h2⟩ | ⟨h1, ⟨ls', h2, h3⟩ | ⟨h2, h3⟩⟩
        · exact Or.inl ⟨h1, List.mem_cons_of_mem _ h2⟩
        · exact Or.inr ⟨h1, Or.inl ⟨ls', List.mem_cons_of_mem _ h2, h3⟩⟩
        · exact Or.inr ⟨h1, Or.inr ⟨by simp only [List.map_cons, List.mem_cons, not_or]; exact ⟨fun e => h e.symm, h2⟩, h3⟩⟩

/-- The dictionary holds the legs `L` by name. -/
structure Dict (nm : LegId → String) (L : List LegId) (links : List (String × List LegId)) : Prop where
  keys : (links.map Prod.fst).Nodup
  entry : ∀ e ∈ links, e.2 = L.filter (fun l => nm l = e.1)
  all : ∀ l ∈ L, nm l ∈ links.map Prod.fst

theorem Dict.add {nm : LegId → String} {L : List LegId} {links : List (String × List LegId)} (D : Dict nm L links) (l : LegId) :
    Dict nm (L ++ [l]) (addLink links (nm l) l) := by
  refine ⟨?_, ?_, ?_⟩
  · rw [addLink_keys]
    split
    · exact D.keys
    · next h =>
      rw [List.nodup_append]
      refine ⟨D.keys, by simp, fun a ha b hb e => h ?_⟩
      rw [List.mem_singleton.mp hb] at e
      exact e ▸ ha
  · intro e he
    rw [List.filter_append]
    have one : ∀ m, [l].filter (fun x => nm x = m) = if nm l = m then [l] else [] := by
      intro m
      by_cases h : nm l = m <;> simp [h]
    rw [one]
    rcases addLink_mem (nm l) l links D.keys e he with ⟨h1, h2⟩ | ⟨h1, ⟨ls, h2, h3⟩ | ⟨h2, h3⟩⟩
    · rw [D.entry e h2, if_neg (fun h => h1 h.symm), List.append_nil]
    · rw [h3, h1, if_pos rfl]
      exact congrArg (· ++ [l]) (D.entry _ h2)
    · rw [h3, h1, if_pos rfl, List.filter_eq_nil_iff.mpr]
      · rfl
      · intro x hx e
        exact h2 ((of_decide_eq_true e) ▸ D.all x hx)
  · intro x hx
    rw [addLink_keys]
    rcases List.mem_append.mp hx with hx | hx
    · split
      · exact D.all x hx
      · exact List.mem_append_left _ (D.all x hx)
    · rw [List.mem_singleton.mp hx]
      split
      · assumption
      · simp

theorem Dict.addAll {nm : LegId → String} : ∀ (ls L : List LegId) (links : List (String × List LegId)), Dict nm L links →
    Dict nm (L ++ ls) (ls.foldl (fun d l => addLink d (nm l) l) links)
  | [], L, links, D => by rw [List.append_nil]; exact D
  | l :: ls, L, links, D => by
    have := Dict.addAll ls _ _ (D.add l)
    rwa [List.append_assoc] at this

theorem Dict.congr {nm nm' : LegId → String} {L : List LegId} {links : List (String × List LegId)} (D : Dict nm L links)
    (h : ∀ l ∈ L, nm' l = nm l) : Dict nm' L links := by
  refine ⟨D.keys, fun e he => ?_, fun l hl => ?_⟩
  · rw [D.entry e he]
    refine List.filter_congr fun l hl => ?_
    rw [h l hl]
  · rw [h l hl]
    exact D.all l hl

theorem Dict.nodup {nm : LegId → String} {L : List LegId} : ∀ {links : List (String × List LegId)},
    (links.map Prod.fst).Nodup → (∀ e ∈ links, e.2 = L.filter (fun l => nm l = e.1)) → L.Nodup → (links.flatMap fun e => e.2).Nodup
  | [], _, _, _ => by simp
  | e :: rest, hk, he, hL => by
    rw [List.map_cons, List.nodup_cons] at hk
    rw [List.flatMap_cons, List.nodup_append]
    refine ⟨?_, Dict.nodup hk.2 (fun x hx => he x (List.mem_cons_of_mem _ hx)) hL, ?_⟩
    · rw [he e (by simp)]
      exact hL.filter _
    · intro a ha b hb hab
      subst hab
      obtain ⟨x, hx, hax⟩ := List.mem_flatMap.mp hb
      rw [he e (by simp)] at ha
      rw [he x (List.mem_cons_of_mem _ hx)] at hax
      have h1 := of_decide_eq_true (List.mem_filter.mp ha).2
      have h2 := of_decide_eq_true (List.mem_filter.mp hax).2
      exact hk.1 (List.mem_map.mpr ⟨x, hx, h2.symm.trans h1⟩)

/-! ### One tensor -/

theorem digit_not_upper {c : Char} (h : c.isDigit) : c.isUpper = false := by
  simp only [Char.isDigit, Char.isUpper, Bool.and_eq_true, decide_eq_true_eq, decide_eq_false_iff_not] at h ⊢
  intro h2
  have := UInt32.le_trans h2.1 h.2
  revert this
  decide

theorem LegText.write_noUpper {x : LegText} (h : ∀ c ∈ x.name, c.isUpper = false) : ∀ c ∈ x.write, c.isUpper = false := by
  have digits : ∀ n, ∀ c ∈ Nat.toDigits 10 n, c.isUpper = false := fun n c hc =>
    digit_not_upper (Nat.isDigit_of_mem_toDigits (by decide) (by decide) hc)
  intro c hc
  unfold LegText.write at hc
  rcases List.mem_append.mp hc with hc | hc
  · split at hc
    · simp only [List.cons_append, List.mem_cons, List.mem_append, List.not_mem_nil, or_false] at hc
      rcases hc with rfl | hc | rfl
      · decide
      · exact h c hc
      · decide
    · exact h c hc
  · split at hc
    · cases hc
    · simp only [List.mem_cons, List.not_mem_nil, or_false] at hc
      rcases hc with rfl | rfl <;> decide
    · exact digits _ c hc
    · simp only [List.cons_append, List.mem_cons, List.mem_append, List.not_mem_nil, or_false] at hc
      rcases hc with rfl | hc | rfl
      · decide
      · exact digits _ c hc
      · decide

theorem LegText.name_sub {x : LegText} {c : Char} (h : c ∈ x.name) : c ∈ x.write := by
  unfold LegText.write
  refine List.mem_append_left _ ?_
  split
  · simp [h]
  · exact h

theorem TensorText.Valid.isLower {t : TensorText} (v : t.Valid) : pyIsLower (t.legs.flatMap LegText.write) = true := by
  unfold pyIsLower
  rw [Bool.and_eq_true, List.all_eq_true, List.any_eq_true]
  constructor
  · intro c hc
    obtain ⟨x, hx, hc⟩ := List.mem_flatMap.mp hc
    rw [LegText.write_noUpper (v.noUpper x hx) c hc]
    rfl
  · obtain ⟨x, hx, c, hc, hl⟩ := v.lower
    exact ⟨c, List.mem_flatMap.mpr ⟨x, hx, LegText.name_sub hc⟩, hl⟩

/-- The tensor made from its text. -/
structure ReadTensor (st st' : Store) (t : TensorText) (r : Tensor Unit × Char) : Prop where
  name : r.2 = t.name
  id : r.1.id = st.nextTensor
  legs : r.1.legs = List.range' st.nextLeg t.legs.length
  like : r.1.like = true ∧ r.1.a = none ∧ r.1.diag = false
  old : ∀ l < st.nextLeg, st'.leg l = st.leg l
  bond : st'.bond = st.bond
  nextLeg : st'.nextLeg = st.nextLeg + t.legs.length
  nextBond : st'.nextBond = st.nextBond
  nextTensor : st'.nextTensor = st.nextTensor + 1
  names : r.1.legs.map st'.name = t.legs.map fun x => String.ofList x.name
  dims : r.1.legs.map st'.dim = t.legs.map fun x => encDim x.size
  owner : ∀ l ∈ r.1.legs, (st'.leg l).tensor = some r.1.id ∧ (st'.leg l).bond = none
  wf : WFStore st → WFStore st'

theorem createTensor_ok (st : Store) {t : TensorText} (v : t.Valid) :
    ∃ st' x, createTensorFromText st t.write = .ok (st', x, t.name) ∧ ReadTensor st st' t (x, t.name) := by
  unfold createTensorFromText TensorText.write
  simp only
  rw [if_pos (by rw [v.upper, v.isLower]; rfl), C20_round_trip t.legs v.legs]
  simp only [bind, Except.bind, construct, deduceShape, checkShapeLabels, checkShapeData, chosenLabels, generateData, List.length_map, beq_self_eq_true,
    Bool.true_eq_false, if_false, if_true, pure, Except.pure]
  have M := makeLegs_ok st.nextTensor
    (((t.legs.map fun x => x.name).map String.ofList).zip (((t.legs.map fun x => x.size).map encDim).map some)) { st with nextTensor := st.nextTensor + 1 }
  generalize makeLegs { st with nextTensor := st.nextTensor + 1 } st.nextTensor
    (((t.legs.map fun x => x.name).map String.ofList).zip (((t.legs.map fun x => x.size).map encDim).map some)) = q at M ⊢
  obtain ⟨st1, ls⟩ := q
  have e : ((t.legs.map fun x => x.name).map String.ofList).zip (((t.legs.map fun x => x.size).map encDim).map some) =
      t.legs.map fun x => (String.ofList x.name, some (encDim x.size)) := by
    rw [List.map_map, List.map_map, List.map_map, List.zip_map']
    rfl
  rw [e] at M
  refine ⟨st1, _, rfl, rfl, rfl, ?_, ⟨rfl, rfl, rfl⟩, M.old, M.bond, ?_, M.nextBond, M.nextTensor, ?_, ?_, M.owner, fun w => M.grows.wf ⟨w.inv, w.freshLeg, w.freshBond⟩⟩
  · have := M.legs
    rwa [List.length_map] at this
  · have := M.nextLeg
    rwa [List.length_map] at this
  · have := M.name
    rwa [List.map_map] at this
  · have := M.dim
    rwa [List.map_map] at this

/-! ### All tensors -/

/-- What is known after the tensors `ts` have been read. -/
structure ReadInv (st : Store) (ts : List TensorText) (s : TextState) : Prop where
  wf : WFStore s.st
  kept : LegsUnchanged st s.st
  legs : (s.tensors.flatMap fun r => r.1.legs) = List.range' st.nextLeg (textLegs ts).length
  nextLeg : s.st.nextLeg = st.nextLeg + (textLegs ts).length
  names : s.tensors.map (fun r => r.2) = ts.map fun t => t.name
  labels : s.tensors.map (fun r => r.1.legs.map s.st.name) = ts.map fun t => t.legs.map fun x => String.ofList x.name
  dims : s.tensors.map (fun r => r.1.legs.map s.st.dim) = ts.map fun t => t.legs.map fun x => encDim x.size
  ids : (s.tensors.map fun r => r.1.id) = List.range' st.nextTensor ts.length
  nextTensor : s.st.nextTensor = st.nextTensor + ts.length
  owner : ∀ r ∈ s.tensors, ∀ l ∈ r.1.legs, (s.st.leg l).tensor = some r.1.id ∧ (s.st.leg l).bond = none
  like : ∀ r ∈ s.tensors, r.1.like = true ∧ r.1.a = none ∧ r.1.diag = false
  dict : Dict s.st.name (s.tensors.flatMap fun r => r.1.legs) s.links

theorem ReadInv.start {st : Store} (w : WFStore st) (k : Nat) : ReadInv st [] ⟨st, k, [], []⟩ :=
  ⟨w, ⟨le_rfl, fun _ _ => rfl⟩, rfl, rfl, rfl, rfl, rfl, rfl, rfl, by simp, by simp, ⟨by simp, by simp, by simp⟩⟩

theorem ReadInv.bound {st : Store} {ts : List TensorText} {s : TextState} (I : ReadInv st ts s) {l : LegId}
    (h : l ∈ s.tensors.flatMap fun r => r.1.legs) : st.nextLeg ≤ l ∧ l < s.st.nextLeg := by
  rw [I.legs, List.mem_range'_1] at h
  rw [I.nextLeg]
  exact h

theorem ReadInv.step {st : Store} {ts : List TensorText} {s : TextState} (I : ReadInv st ts s) {t : TensorText} {st1 : Store} {r : Tensor Unit × Char}
    (T : ReadTensor s.st st1 t r) (k : Nat) :
    ReadInv st (ts ++ [t]) ⟨st1, k, r.1.legs.foldl (fun d l => addLink d (st1.name l) l) s.links, s.tensors ++ [r]⟩ := by
  have tl : textLegs (ts ++ [t]) = textLegs ts ++ t.legs := by simp [textLegs]
  have fl : ((s.tensors ++ [r]).flatMap fun r => r.1.legs) = (s.tensors.flatMap fun r => r.1.legs) ++ r.1.legs := by simp
  have old : ∀ x ∈ s.tensors, ∀ l ∈ x.1.legs, st1.leg l = s.st.leg l := fun x hx l hl =>
    T.old l (I.bound (List.mem_flatMap.mpr ⟨x, hx, hl⟩)).2
  refine ⟨T.wf I.wf, ⟨?_, fun l hl => ?_⟩, ?_, ?_, ?_, ?_, ?_, ?_, ?_, ?_, ?_, ?_⟩
  · rw [T.nextLeg]
    exact I.kept.le.trans (Nat.le_add_right _ _)
  · rw [T.old l (lt_of_lt_of_le hl I.kept.le), I.kept.leg l hl]
  · rw [fl, I.legs, T.legs, tl, List.length_append, I.nextLeg, List.range'_append_1]
  · rw [T.nextLeg, I.nextLeg, tl, List.length_append, Nat.add_assoc]
  · rw [List.map_append, List.map_append, I.names, List.map_singleton, List.map_singleton, T.name]
  · rw [List.map_append, List.map_append, ← I.labels, List.map_singleton, List.map_singleton, T.names]
    congr 1
    refine List.map_congr_left fun x hx => List.map_congr_left fun l hl => ?_
    unfold Store.name
    rw [old x hx l hl]
  · rw [List.map_append, List.map_append, ← I.dims, List.map_singleton, List.map_singleton, T.dims]
    congr 1
    refine List.map_congr_left fun x hx => List.map_congr_left fun l hl => ?_
    unfold Store.dim
    rw [old x hx l hl]
  · rw [List.map_append, I.ids, List.map_singleton, T.id, I.nextTensor, List.length_append, List.length_singleton, List.range'_concat, Nat.one_mul]
  · rw [T.nextTensor, I.nextTensor, List.length_append, List.length_singleton, Nat.add_assoc]
  · intro x hx l hl
    rcases List.mem_append.mp hx with hx | hx
    · rw [old x hx l hl]
      exact I.owner x hx l hl
    · obtain rfl := List.mem_singleton.mp hx
      exact T.owner l hl
  · intro x hx
    rcases List.mem_append.mp hx with hx | hx
    · exact I.like x hx
    · obtain rfl := List.mem_singleton.mp hx
      exact T.like
  · rw [fl]
    refine Dict.addAll _ _ _ (I.dict.congr fun l hl => ?_)
    obtain ⟨x, hx, hl⟩ := List.mem_flatMap.mp hl
    unfold Store.name
    rw [old x hx l hl]

/-! ### The loop over the characters -/

theorem foldlM_id {α β : Type} {f : α → β → Except PyErr α} {s : α} : ∀ l : List β, (∀ x ∈ l, f s x = .ok s) → l.foldlM f s = .ok s
  | [], _ => rfl
  | x :: l, h => by
    rw [List.foldlM_cons, h x (by simp)]
    exact foldlM_id l fun y hy => h y (by simp [hy])

/-- A piece of the text is read in one go. -/
theorem textStep_piece {t pre rest : List Char} {c : Char} {cs : List Char} (ht : t = pre ++ (c :: cs) ++ rest) (hc : ∀ x ∈ cs, x.isUpper = false)
    (hr : rest = [] ∨ ∃ d ds, rest = d :: ds ∧ d.isUpper = true) (s : TextState) (hs : s.last = pre.length) :
    (List.range' (pre.length + 1) (cs.length + 1)).foldlM (textStep t) s = (do
      let (st1, x, c) ← createTensorFromText s.st (c :: cs)
      pure ⟨st1, pre.length + (cs.length + 1), x.legs.foldl (fun d l => addLink d (st1.name l) l) s.links, s.tensors ++ [(x, c)]⟩) := by
  have hlen : t.length = pre.length + (cs.length + 1) + rest.length := by rw [ht]; simp; omega
  rw [List.range'_concat, List.foldlM_append, foldlM_id]
  · show ([_].foldlM (textStep t) s) = _
    rw [List.foldlM_cons]
    have e : pre.length + 1 + 1 * cs.length = t.length ∨
        (0 < pre.length + 1 + 1 * cs.length ∧ (t[pre.length + 1 + 1 * cs.length]?).any Char.isUpper) := by
      rcases hr with rfl | ⟨d, ds, rfl, hd⟩
      · left
        rw [hlen]
        simp
        omega
      · right
        refine ⟨by omega, ?_⟩
        rw [ht, List.getElem?_append_right (by simp; omega)]
        have : pre.length + 1 + 1 * cs.length - (pre ++ c :: cs).length = 0 := by simp; omega
        rw [this]
        simpa using hd
    unfold textStep
    rw [if_pos e]
    have e2 : (t.take (pre.length + 1 + 1 * cs.length)).drop s.last = c :: cs := by
      rw [ht, hs, List.take_left' (by simp; omega), List.drop_left']
      rfl
    rw [e2]
    cases createTensorFromText s.st (c :: cs) with
    | error x => rfl
    | ok x =>
      obtain ⟨st1, x, c⟩ := x
      have : pre.length + 1 + 1 * cs.length = pre.length + (cs.length + 1) := by omega
      rw [this]
      rfl
  · intro i hi
    rw [List.mem_range'_1] at hi
    unfold textStep
    rw [if_neg]
    rintro (h | ⟨-, h⟩)
    · omega
    · rw [ht, List.append_assoc, List.getElem?_append_right (by omega), List.cons_append] at h
      obtain ⟨j, hj⟩ : ∃ j, i - pre.length = j + 1 := ⟨i - pre.length - 1, by omega⟩
      rw [hj, List.getElem?_cons_succ, List.getElem?_append_left (by omega), List.getElem?_eq_getElem (by omega : j < cs.length)] at h
      simp only [Option.any_some] at h
      rw [hc _ (List.getElem_mem _)] at h
      cases h

theorem write_noUpper {t : TensorText} (v : t.Valid) : ∀ c ∈ t.legs.flatMap LegText.write, c.isUpper = false := by
  intro c hc
  obtain ⟨x, hx, hc⟩ := List.mem_flatMap.mp hc
  exact LegText.write_noUpper (v.noUpper x hx) c hc

theorem textLoop_ok {st : Store} : ∀ (us ts : List TensorText) (s : TextState) (pre rest t : List Char), (∀ u ∈ us, u.Valid) → ReadInv st ts s →
    s.last = pre.length → t = pre ++ us.flatMap TensorText.write ++ rest → (rest = [] ∨ ∃ d ds, rest = d :: ds ∧ d.isUpper = true) →
    ∃ s', (List.range' (pre.length + 1) (us.flatMap TensorText.write).length).foldlM (textStep t) s = .ok s' ∧ ReadInv st (ts ++ us) s' ∧
      s'.last = pre.length + (us.flatMap TensorText.write).length
  | [], ts, s, pre, rest, t, _, I, hs, _, _ => ⟨s, rfl, by rw [List.append_nil]; exact I, hs⟩
  | u :: us, ts, s, pre, rest, t, hv, I, hs, ht, hr => by
    have v := hv u (by simp)
    have e : (u :: us).flatMap TensorText.write = u.write ++ us.flatMap TensorText.write := rfl
    obtain ⟨st1, x, e1, T⟩ := createTensor_ok s.st v
    have key := textStep_piece (t := t) (pre := pre) (c := u.name) (cs := u.legs.flatMap LegText.write) (rest := us.flatMap TensorText.write ++ rest)
      (by rw [ht, e]; simp [TensorText.write]) (write_noUpper v) (by
        cases us with
        | nil => exact hr
        | cons w us => exact Or.inr ⟨w.name, _, rfl, (hv w (by simp)).upper⟩) s hs
    have e1' : createTensorFromText s.st (u.name :: u.legs.flatMap LegText.write) = .ok (st1, x, u.name) := e1
    rw [e1'] at key
    have len : u.write.length = (u.legs.flatMap LegText.write).length + 1 := rfl
    obtain ⟨s', h1, h2, h3⟩ := textLoop_ok us (ts ++ [u]) _ (pre ++ u.write) rest t (fun w hw => hv w (by simp [hw]))
      (I.step T (pre.length + ((u.legs.flatMap LegText.write).length + 1))) (by rw [List.length_append, len])
      (by rw [ht, e]; simp) hr
    refine ⟨s', ?_, by simpa using h2, by rw [h3, e]; simp; omega⟩
    rw [e, List.length_append, ← List.range'_append_1, List.foldlM_append, len, key]
    rw [List.length_append, len] at h1
    have : pre.length + 1 + ((u.legs.flatMap LegText.write).length + 1) = pre.length + ((u.legs.flatMap LegText.write).length + 1) + 1 := by omega
    rw [this]
    exact h1

theorem textLoop_all {st : Store} (w : WFStore st) {ts : List TensorText} (hne : ts ≠ []) (hv : ∀ u ∈ ts, u.Valid) :
    ∃ s, (List.range ((ts.flatMap TensorText.write).length + 1)).foldlM (textStep (ts.flatMap TensorText.write)) ⟨st, 0, [], []⟩ = .ok s ∧
      ReadInv st ts s := by
  obtain ⟨s, h1, h2, -⟩ := textLoop_ok (st := st) ts [] ⟨st, 0, [], []⟩ [] [] (ts.flatMap TensorText.write) hv (ReadInv.start w 0) rfl (by simp) (Or.inl rfl)
  refine ⟨s, ?_, h2⟩
  rw [List.range_eq_range', List.range'_succ, List.foldlM_cons]
  have : textStep (ts.flatMap TensorText.write) ⟨st, 0, [], []⟩ 0 = .ok ⟨st, 0, [], []⟩ := by
    unfold textStep
    rw [if_neg]
    rintro (h | ⟨h, -⟩)
    · cases ts with
      | nil => exact hne rfl
      | cons u ts => simp [TensorText.write] at h
    · exact absurd h (Nat.lt_irrefl 0)
  rw [this]
  exact h1

end CTL
