import Verif.Props.FTNSeq

/-! Finite tensor networks with diagonal tensors (C54). -/

namespace CTL
variable {R : Type}

/-- The life of a network that is always contracted with diagonal tensors at the places `D`: it is created and built up by
any method calls; then it is contracted any number of times, each time with tensors that fit and are diagonal exactly at
these places, with method calls in between that do not add or remove tensors. -/
inductive FTN.MixedLife [CommSemiring R] (rand : List Nat → List Nat → R) (cast : R → R) (D : Nat → Prop) :
    Bool → FTN → List String → Prop
  | new (list : Nat) (names : List String) (realCost : Bool) (typicalDim : Nat)
      (h : realCost = true ∨ typicalDim ≠ 0) :
      MixedLife rand cast D false (FTN.new list realCost typicalDim) names
  | build {f names} (h : MixedLife rand cast D false f names) (op : NetOp) :
      MixedLife rand cast D false (f.apply names op).2.1 (f.apply names op).1
  | contract {b f names} (h : MixedLife rand cast D b f names) {st : Store} {dict : List (String × Tensor R)}
      {removeTag : Bool} {A : LArr R} (inp : MixedInput st names dict) (hD : ∀ i, DiagNamed dict names i ↔ D i)
      (hA : f.meaning removeTag (dict.map fun p => (p.1, p.2.labelled st)) = some A) (fuel : Nat) :
      MixedLife rand cast D true (f.contract rand cast names st dict removeTag fuel).1 names
  | edit {f names} (h : MixedLife rand cast D true f names) (op : NetOp) (h1 : ∀ n, op ≠ .addTensor n)
      (h2 : ∀ n, op ≠ .removeTensor n) : MixedLife rand cast D true (f.apply names op).2.1 (f.apply names op).1

theorem apply_links (f : FTN) (names : List String) (op : NetOp) : ∀ k ∈ f.links, k ∈ (f.apply names op).2.1.links := by
  intro k hk
  cases op <;> simp only [FTN.apply, FTN.checked, removeFrom] <;>
    repeat' (first | exact hk | (simp [hk]; done) | split)

theorem mixed_cache [CommSemiring R] {rand : List Nat → List Nat → R} {cast : R → R} {D : Nat → Prop} {b : Bool} {f : FTN}
    {names : List String} (h : FTN.MixedLife rand cast D b f names) :
    (∀ q, f.optimalSeq = some q → f.Suits names D q) ∧ f.typicalDim ≠ some 0 ∧ (b = false → f.optimalSeq = none) := by
  induction h with
  | new list names rc td h =>
    refine ⟨fun q hq => (by cases hq), ?_, fun _ => rfl⟩
    unfold FTN.new
    cases rc <;> simp at h ⊢
    exact h
  | build h op ih =>
    obtain ⟨e1, e2⟩ := apply_seq _ _ op
    have hn := ih.2.2 rfl
    refine ⟨fun q hq => ?_, by rw [e2]; exact ih.2.1, fun _ => e1.trans hn⟩
    rw [e1, hn] at hq
    cases hq
  | contract h inp hD hA fuel ih =>
    obtain ⟨_, e2, e3, _⟩ := contract_frame_ftn rand cast _ _ _ _ _ fuel
    refine ⟨fun q hq => ?_, by rw [e2]; exact ih.2.1, fun h => by cases h⟩
    unfold FTN.Suits
    rw [e3]
    rcases contract_stores rand cast inp ih.2.1 hA fuel with e | ⟨q', e, k⟩
    · rw [e] at hq
      exact ih.1 q hq
    · have : q' = q := Option.some.inj (e.symm.trans hq)
      subst this
      exact ⟨k.1, stepsSafe_mono (fun _ _ h => h) (fun i h => (hD i).mpr h) _ _ k.2⟩
  | edit h op h1 h2 ih =>
    obtain ⟨e1, e2⟩ := apply_seq _ _ op
    refine ⟨fun q hq => ?_, by rw [e2]; exact ih.2.1, fun h => by cases h⟩
    rw [apply_keeps_names _ _ op h1 h2]
    rw [e1] at hq
    obtain ⟨k1, k2⟩ := ih.1 q hq
    refine ⟨k1, stepsSafe_mono ?_ (fun _ h => h) _ _ k2⟩
    rintro i j ⟨k, hk, h⟩
    exact ⟨k, apply_links _ _ op k hk, h⟩

/-- C54: a network of dense and diagonal tensors, linked in one piece, contracted at any time in its life, gives the
labelled network sum of its inputs.  The result is diagonal exactly if all inputs are.  The inputs are not changed, and
the result shares no leg with them and is joined to nothing. -/
theorem C54_contract [CommSemiring R] (rand : List Nat → List Nat → R) {cast : R → R} (hcast : ∀ x, cast x = x) {D : Nat → Prop}
    {b : Bool} {f : FTN} {names : List String} (life : FTN.MixedLife rand cast D b f names) {st : Store}
    {dict : List (String × Tensor R)} {removeTag : Bool} {A : LArr R} (inp : MixedInput st names dict)
    (hD : ∀ i, DiagNamed dict names i ↔ D i) (hc : LinkConnected f.links names)
    (hf : f.outProductAfter = [] ∨ ∃ p ∈ dict, p.2.diag = false)
    (hA : f.meaning removeTag (dict.map fun p => (p.1, p.2.labelled st)) = some A) :
    ∃ rounds, ∀ fuel, rounds ≤ fuel → ∃ f' st' t, f.contract rand cast names st dict removeTag fuel = (f', some (.ok (st', t))) ∧
      Represents st' t A ∧ GoodTensor st' t ∧ (t.diag = true ↔ ∀ p ∈ dict, p.2.diag = true) ∧ InputsKept st st' ∧
      ∀ l ∈ t.legs, st.nextLeg ≤ l ∧ (st'.leg l).bond = none := by
  obtain ⟨c, ht, _⟩ := mixed_cache life
  obtain ⟨rounds, h⟩ := contract_any rand cast inp (fun q hq => (c q hq).1) ht (Or.inr ⟨hcast, hc, hf, fun q hq =>
    ⟨(c q hq).1, stepsSafe_mono (fun _ _ h => h) (fun i h => (hD i).mp h) _ _ (c q hq).2⟩⟩) hA
  refine ⟨rounds, fun fuel hf => ?_⟩
  obtain ⟨f', st', t, e, o, td, _⟩ := h fuel hf
  exact ⟨f', st', t, e, o.rep, o.good, td, o.old, fun l hl => ⟨(o.fresh l hl).1, o.free l hl⟩⟩

/-- C54: why the links must make one piece: with diagonal tensors only, and a network in several pieces, the first call
runs forever. -/
theorem C54_pieces_diverge [CommSemiring R] (rand : List Nat → List Nat → R) (cast : R → R) {D : Nat → Prop} {f : FTN}
    {names : List String} (life : FTN.MixedLife rand cast D false f names) {st : Store} {dict : List (String × Tensor R)}
    {removeTag : Bool} {A : LArr R} (inp : MixedInput st names dict) (hd : ∀ p ∈ dict, p.2.diag = true)
    (hc : ¬ LinkConnected f.links names)
    (hA : f.meaning removeTag (dict.map fun p => (p.1, p.2.labelled st)) = some A) (fuel : Nat) :
    (f.contract rand cast names st dict removeTag fuel).2 = none := by
  obtain ⟨_, ht, h0⟩ := mixed_cache life
  obtain ⟨st1, d, ts, e, ets, h1, h2⟩ := prepared rand inp ht hA
  have hn : generateSequence st1 ts .capping f.typicalDim fuel = none := by
    cases hq : generateSequence st1 ts .capping f.typicalDim fuel with
    | none => rfl
    | some r =>
      exfalso
      obtain ⟨cost, q, rfl⟩ := h2 fuel r hq
      obtain ⟨k1, k2⟩ := h1 fuel cost q hq
      refine hc (connected_of_safe (n := names.length) ?_ ?_ q _ _ k1 k2 ?_ ?_ ?_)
      · rintro i j ⟨k, hk, h | h⟩
        · exact ⟨k, hk, Or.inr h⟩
        · exact ⟨k, hk, Or.inl h⟩
      · intro i hi
        obtain ⟨p, hp, e⟩ := List.mem_map.mp (inp.keys.subset (List.getElem_mem hi))
        refine ⟨names[i], p.2, List.getElem?_eq_getElem hi, ?_, hd p hp⟩
        rw [← e]
        exact hp
      · intro s hs i hi
        rw [List.mem_singleton] at hi
        rw [hi]
        exact List.mem_range.mp hs
      · intro s _ i hi j hj
        rw [List.mem_singleton] at hi hj
        rw [hi, hj]
      · exact fun i hi => ⟨i, List.mem_range.mpr hi, by simp⟩
  unfold FTN.contract
  simp only [e, ets]
  rw [if_pos]
  · have e5 : generateSequence st1 ts .capping (({ f with locked := true } : FTN).loadBondDims st1 d).typicalDim fuel = none := hn
    rw [e5]
  · simp [FTN.stale, FTN.loadBondDims, h0 rfl]

/-! ### Concrete networks -/

/-- `A(i)`, `B(j)` and `M(i, j, k)`, with `A` and `B` once diagonal and once dense; all dimensions are 2, `k` is 3. -/
def vecStore : Store where
  leg l := match l with
    | 0 => ⟨2, "i", none, some 0⟩
    | 1 => ⟨2, "j", none, some 1⟩
    | 2 => ⟨2, "i", none, some 2⟩
    | 3 => ⟨2, "j", none, some 2⟩
    | 4 => ⟨3, "k", none, some 2⟩
    | 5 => ⟨2, "i", none, some 3⟩
    | 6 => ⟨2, "j", none, some 4⟩
    | _ => ⟨0, "", none, none⟩
  bond _ := (0, 0)
  nextLeg := 7
  nextBond := 0
  nextTensor := 5

def vecA : Tensor Int := ⟨0, [0], some ⟨[2], [1, 2]⟩, true, false, 2⟩
def vecB : Tensor Int := ⟨1, [1], some ⟨[2], [3, 5]⟩, true, false, 2⟩
def vecM : Tensor Int := ⟨2, [2, 3, 4], some ⟨[2, 2, 3], [1, 2, 3, 4, 5, 6, 7, 8, 9, 10, 11, 12]⟩, false, false, 0⟩
def vecA' : Tensor Int := ⟨3, [5], some ⟨[2], [1, 2]⟩, false, false, 0⟩
def vecB' : Tensor Int := ⟨4, [6], some ⟨[2], [3, 5]⟩, false, false, 0⟩

def vecNet : FTN :=
  (((FTN.new 0).apply ["A", "B", "M"] (.addLink "A" "i" "M" "i")).2.1.apply ["A", "B", "M"] (.addLink "B" "j" "M" "j")).2.1

/-- The labels, dimensions and entries of what a call returned. -/
def resultArray (r : FTN × Option (Except PyErr (Store × Tensor R))) : Option (List String × Option (List Nat × List R)) :=
  match r.2 with
  | some (.ok (st, t)) => some (t.legs.map st.name, t.a.map fun a => (a.shape, a.data))
  | _ => none

def vecDiag : List (String × Tensor Int) := [("A", vecA), ("B", vecB), ("M", vecM)]
def vecDense : List (String × Tensor Int) := [("A", vecA'), ("B", vecB'), ("M", vecM)]

/-- A call with the diagonal or with the dense vectors. -/
def vecCall (f : FTN) (dict : List (String × Tensor Int)) : FTN × Option (Except PyErr (Store × Tensor Int)) :=
  f.contract (fun _ _ => 0) id ["A", "B", "M"] vecStore dict true 100

theorem vecStore_wf : WFStore vecStore := by
  have h : ∀ l, (vecStore.leg l).bond = none := by
    intro l
    match l with
    | 0 | 1 | 2 | 3 | 4 | 5 | 6 => rfl
    | n + 7 => rfl
  refine ⟨fun l b hb => ?_, fun l b hb => ?_, fun l b hb => ?_⟩ <;> rw [h l] at hb <;> cases hb

theorem vecDiag_ok : MixedInput vecStore ["A", "B", "M"] vecDiag where
  wf := vecStore_wf
  keys := .refl _
  once := by decide
  nonempty := by decide
  good := by
    intro p hp
    simp only [vecDiag, List.mem_cons, List.not_mem_nil, or_false] at hp
    rcases hp with rfl | rfl | rfl
    · exact ⟨by decide, rfl, _, rfl, rfl, fun h => (by cases h), fun _ => Or.inr ⟨by decide, rfl, by decide⟩⟩
    · exact ⟨by decide, rfl, _, rfl, rfl, fun h => (by cases h), fun _ => Or.inr ⟨by decide, rfl, by decide⟩⟩
    · exact ⟨by decide, rfl, _, rfl, rfl, fun _ => rfl, fun h => by cases h⟩
  legs := by decide
  known := by decide
  labels := by decide
  pos := by decide

theorem vec_sum : (vecNet.meaning true (vecDiag.map fun p => (p.1, p.2.labelled vecStore))).map
    (fun A => (A.labels, (List.range 3).map fun k => A.val fun _ => k)) = some (["k"], [165, 189, 213]) := by decide +kernel

theorem vec_connected : LinkConnected vecNet.links ["A", "B", "M"] := by
  have h : ∀ i, i < 3 → LinkedAt vecNet.links ["A", "B", "M"] i 2 ∧ LinkedAt vecNet.links ["A", "B", "M"] 2 i ∨ i = 2 := by
    intro i hi
    unfold LinkedAt
    interval_cases i
    · exact Or.inl (by decide +kernel)
    · exact Or.inl (by decide +kernel)
    · exact Or.inr rfl
  intro i j hi hj
  have a : Relation.ReflTransGen (LinkedAt vecNet.links ["A", "B", "M"]) i 2 := by
    rcases h i hi with h | rfl
    · exact .single h.1
    · exact .refl
  refine a.trans ?_
  rcases h j hj with h | rfl
  · exact .single h.2
  · exact .refl

example : FTN.MixedLife (fun _ _ => 0) id (fun i => i < 2) false vecNet ["A", "B", "M"] ∧
    MixedInput vecStore ["A", "B", "M"] vecDiag ∧ LinkConnected vecNet.links ["A", "B", "M"] ∧ vecNet.outProductAfter = [] :=
  ⟨((FTN.MixedLife.new 0 ["A", "B", "M"] true 10 (Or.inl rfl)).build (.addLink "A" "i" "M" "i")).build (.addLink "B" "j" "M" "j"),
    vecDiag_ok, vec_connected, rfl⟩

/-- Two diagonal tensors without a link. -/
theorem piecesInput_ok : MixedInput vecStore ["A", "B"] [("A", vecA), ("B", vecB)] where
  wf := vecStore_wf
  keys := .refl _
  once := by decide
  nonempty := by decide
  good := fun p hp => vecDiag_ok.good p (List.mem_of_mem_dropLast (l := vecDiag) hp)
  legs := by decide
  known := by decide
  labels := by decide
  pos := by decide

example : FTN.MixedLife (R := Int) (fun _ _ => 0) id (fun _ => True) false (FTN.new 0) ["A", "B"] ∧
    (∀ p ∈ [("A", vecA), ("B", vecB)], p.2.diag = true) ∧ ¬ LinkConnected (FTN.new 0).links ["A", "B"] ∧
    ((FTN.new 0).meaning true ([("A", vecA), ("B", vecB)].map fun p => (p.1, p.2.labelled vecStore))).isSome := by
  refine ⟨.new 0 _ true 10 (Or.inl rfl), by decide, fun h => ?_, by decide +kernel⟩
  rcases Relation.ReflTransGen.cases_tail (h 0 1 (by decide) (by decide)) with e | ⟨k, _, l, hl, _⟩
  · cases e
  · cases hl

/-- C54: why the tensors must always be diagonal at the same places.  A network is contracted with two dense vectors `A`, `B`
and a tensor `M`; the cheapest sequence multiplies the vectors first, and is stored.  Then it is contracted with diagonal
tensors of the same dimensions and entries: the sequence is used again, the product of `A` and `B` is taken to be diagonal,
and the result is wrong, without any exception.  A new network gives the right result. -/
theorem C54_stored_sequence_wrong :
    resultArray (vecCall (vecCall vecNet vecDense).1 vecDense) = some (["k"], some ([3], [165, 189, 213])) ∧
    resultArray (vecCall vecNet vecDiag) = some (["k"], some ([3], [165, 189, 213])) ∧
    resultArray (vecCall (vecCall vecNet vecDense).1 vecDiag) = some (["k"], some ([3], [103, 116, 129])) :=
  ⟨by decide +kernel, by decide +kernel, by decide +kernel⟩

end CTL
