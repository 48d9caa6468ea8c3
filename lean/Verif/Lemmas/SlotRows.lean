import Verif.Lemmas.ContractPair

/-! The list of chains that `contractWithMPS` works on. -/

namespace CTL
variable {R : Type}

/-- The tensors of one element of the list. -/
def Slot.sites : Slot R → List (Tensor R)
  | .mps m => m.tensors
  | .tensor t => [t]
  | .gone => []

/-- The tensors of all elements. -/
def flat (ms : List (Slot R)) : List (Tensor R) := ms.flatMap Slot.sites

def SlotOK [Zero R] (chi : Nat) (st : Store) (P : List LegId) : Slot R → Prop
  | .mps m => IsChain st m.tensors P ∧ m.chi = (chi : Int) ∧ m.tensors ≠ []
  | .tensor t => t.legs = [] ∧ P = []
  | .gone => P = []

def total (n : Nat) (P : Nat → List LegId) : Nat := ∑ i ∈ Finset.range n, (P i).length

/-- The state of `contractWithMPS`: element `i` has the outer legs `P i`. -/
structure Rows [CommSemiring R] (chi : Nat) (st : Store) (ms : List (Slot R)) (P : Nat → List LegId) : Prop where
  sound : Sound st (flat ms)
  live : Live st (flat ms)
  slot : ∀ i, SlotOK chi st (P i) (ms.getD i .gone)
  room : ∃ D, 1 ≤ D ∧ D ^ 2 ^ (total ms.length P) ≤ chi ∧ ∀ (i : Nat) (m : MPS R), ms[i]? = some (.mps m) → Within st m.tensors D

theorem flat_set {ms : List (Slot R)} {i : Nat} (hi : i < ms.length) (x : Slot R) :
    (flat (ms.set i x)).Perm (flat (ms.set i .gone) ++ x.sites) := by
  unfold flat
  rw [List.set_eq_take_append_cons_drop, if_pos hi, List.set_eq_take_append_cons_drop, if_pos hi, List.flatMap_append,
    List.flatMap_cons, List.flatMap_append, List.flatMap_cons]
  rw [show (Slot.gone : Slot R).sites = [] from rfl, List.nil_append, List.append_assoc]
  exact List.Perm.append_left _ List.perm_append_comm

theorem set_self {α : Type} {l : List α} {i : Nat} {x : α} (h : l[i]? = some x) : l.set i x = l := by
  obtain ⟨hi, rfl⟩ := List.getElem?_eq_some_iff.mp h
  exact List.set_getElem_self hi

/-- All tensors but those of the elements `i` and `j`. -/
def others (ms : List (Slot R)) (i j : Nat) : List (Tensor R) := flat ((ms.set i .gone).set j .gone)

theorem flat_set2 {ms : List (Slot R)} {i j : Nat} (hi : i < ms.length) (hj : j < ms.length) (hij : i ≠ j) (x y : Slot R) :
    (flat ((ms.set i x).set j y)).Perm (others ms i j ++ (x.sites ++ y.sites)) := by
  refine (flat_set (by rwa [List.length_set]) y).trans ?_
  rw [← List.append_assoc]
  refine List.Perm.append_right _ ?_
  unfold others
  rw [List.set_comm _ _ hij, List.set_comm _ _ hij]
  exact flat_set (by rwa [List.length_set]) x

theorem flat_pair {ms : List (Slot R)} {i j : Nat} {x y : Slot R} (hi : ms[i]? = some x) (hj : ms[j]? = some y) (hij : i ≠ j) :
    (flat ms).Perm (others ms i j ++ (x.sites ++ y.sites)) := by
  have := flat_set2 (List.getElem?_eq_some_iff.mp hi).1 (List.getElem?_eq_some_iff.mp hj).1 hij x y
  rwa [set_self hi, set_self hj] at this

theorem getD_set2 {ms : List (Slot R)} {i j : Nat} (hi : i < ms.length) (hj : j < ms.length) (x y : Slot R) (k : Nat) :
    ((ms.set i x).set j y).getD k .gone = if k = j then y else if k = i then x else ms.getD k .gone := by
  rw [List.getD_eq_getElem?_getD, List.getElem?_set, List.length_set]
  by_cases c : j = k
  · subst c
    rw [if_pos rfl, if_pos hj, if_pos rfl]; rfl
  · rw [if_neg c, if_neg (Ne.symm c), List.getElem?_set]
    by_cases c2 : i = k
    · subst c2
      rw [if_pos rfl, if_pos hi, if_pos rfl]; rfl
    · rw [if_neg c2, if_neg (Ne.symm c2), List.getD_eq_getElem?_getD]

theorem getElem?_set2 {ms : List (Slot R)} {i j : Nat} (hi : i < ms.length) (hj : j < ms.length) (x y : Slot R) (k : Nat) :
    ((ms.set i x).set j y)[k]? = if k = j then some y else if k = i then some x else ms[k]? := by
  rw [List.getElem?_set, List.length_set]
  by_cases c : j = k
  · subst c
    rw [if_pos rfl, if_pos hj, if_pos rfl]
  · rw [if_neg c, if_neg (Ne.symm c), List.getElem?_set]
    by_cases c2 : i = k
    · subst c2
      rw [if_pos rfl, if_pos hi, if_pos rfl]
    · rw [if_neg c2, if_neg (Ne.symm c2)]

theorem mem_others {ms : List (Slot R)} {i j k : Nat} {x : Slot R} (hi : i < ms.length) (hj : j < ms.length) (hk : ms[k]? = some x)
    (h1 : k ≠ i) (h2 : k ≠ j) {t : Tensor R} (ht : t ∈ x.sites) : t ∈ others ms i j := by
  unfold others flat
  refine List.mem_flatMap.mpr ⟨x, ?_, ht⟩
  refine List.mem_of_getElem? (i := k) ?_
  rw [getElem?_set2 hi hj, if_neg h2, if_neg h1, hk]

section
variable [CommSemiring R] {chi : Nat} {st : Store} {ms : List (Slot R)} {P : Nat → List LegId}

theorem Rows.phys_nodup (r : Rows chi st ms P) (i : Nat) : (P i).Nodup := by
  have := r.slot i
  cases h : ms.getD i .gone with
  | mps m => rw [h] at this; obtain ⟨⟨_, _, C⟩, -⟩ := this; exact C.phys_nodup
  | tensor t => rw [h] at this; rw [this.2]; exact List.nodup_nil
  | gone => rw [h] at this; rw [show P i = [] from this]; exact List.nodup_nil

theorem Rows.mps (r : Rows chi st ms P) {i : Nat} {m : MPS R} (h : ms[i]? = some (.mps m)) :
    IsChain st m.tensors (P i) ∧ m.chi = (chi : Int) ∧ m.tensors ≠ [] := by
  have := r.slot i
  rwa [List.getD_eq_getElem?_getD, h] at this

theorem Rows.duo (r : Rows chi st ms P) {i j : Nat} {a b : MPS R} (hi : ms[i]? = some (.mps a)) (hj : ms[j]? = some (.mps b))
    (hij : i ≠ j) : Duo st (others ms i j) a.tensors b.tensors := by
  have p := flat_pair hi hj hij
  exact ⟨r.sound.perm p, (SameValue.of_perm r.sound.goodNet p).live r.live⟩

/-- An outer leg of an element is a leg of one of its tensors. -/
theorem Rows.leg (r : Rows chi st ms P) {k : Nat} {p : LegId} (hp : p ∈ P k) :
    ∃ m, ms[k]? = some (.mps m) ∧ ∃ t ∈ m.tensors, p ∈ t.legs := by
  have := r.slot k
  cases h : ms[k]? with
  | none =>
    rw [List.getD_eq_getElem?_getD, h] at this
    rw [show P k = [] from this] at hp; cases hp
  | some s =>
    rw [List.getD_eq_getElem?_getD, h] at this
    cases s with
    | mps m =>
      obtain ⟨⟨_, _, C⟩, -⟩ := this
      exact ⟨m, rfl, C.phys_mem hp⟩
    | tensor t => rw [show P k = [] from this.2] at hp; cases hp
    | gone => rw [show P k = [] from this] at hp; cases hp

theorem Rows.old (r : Rows chi st ms P) {k : Nat} {p : LegId} (hp : p ∈ P k) : p < st.nextLeg := by
  obtain ⟨m, h, t, ht, hl⟩ := r.leg hp
  have : t ∈ flat ms := List.mem_flatMap.mpr ⟨_, List.mem_of_getElem? h, ht⟩
  exact (r.sound.owned.legs t this p hl).1

theorem Rows.apart (r : Rows chi st ms P) {k i : Nat} (hki : k ≠ i) {p : LegId} (hp : p ∈ P k) : p ∉ P i := by
  intro hq
  obtain ⟨m, h, t, ht, hl⟩ := r.leg hp
  obtain ⟨m', h', t', ht', hl'⟩ := r.leg hq
  have d := r.duo h h' hki
  exact d.disj ht ht' hl hl'

theorem Rows.symm (r : Rows chi st ms P) (i j : Nat) : cnt st (P i) (P j) = cnt st (P j) (P i) :=
  cnt_symm r.sound.wf.inv (r.phys_nodup i) (r.phys_nodup j)

theorem Rows.self (r : Rows chi st ms P) (i : Nat) : cnt st (P i) (P i) = 0 := by
  refine cnt_eq_zero fun p hp q hq => ?_
  obtain ⟨m, h, -⟩ := r.leg hp
  obtain ⟨⟨_, _, C⟩, -⟩ := r.mps h
  exact C.apart p hp q hq

/-- Another element is not touched. -/
theorem Rows.other (r : Rows chi st ms P) {i j k : Nat} {a b : MPS R} (hi : ms[i]? = some (.mps a)) (hj : ms[j]? = some (.mps b))
    (hij : i ≠ j) (h1 : k ≠ i) (h2 : k ≠ j) {st' : Store} {M : List (Tensor R)} (h : Step st (a.tensors ++ b.tensors) st' M) :
    SlotOK chi st' (P k) (ms.getD k .gone) := by
  have := r.slot k
  have d := r.duo hi hj hij
  cases hk : ms[k]? with
  | none => rw [List.getD_eq_getElem?_getD, hk] at this ⊢; exact this
  | some s =>
    rw [List.getD_eq_getElem?_getD, hk] at this ⊢
    cases s with
    | gone => exact this
    | tensor t => exact this
    | mps m =>
      obtain ⟨⟨lf, rg, C⟩, h3, h4⟩ := this
      refine ⟨⟨lf, rg, ?_⟩, h3, h4⟩
      exact h.carry d.sound.owned (fun t ht => mem_others (List.getElem?_eq_some_iff.mp hi).1 (List.getElem?_eq_some_iff.mp hj).1 hk h1 h2 ht) C

/-- The outer legs with those of two elements replaced. -/
def update2 (P : Nat → List LegId) (i j : Nat) (PX PY : List LegId) : Nat → List LegId :=
  fun k => if k = j then PY else if k = i then PX else P k

theorem total_split {n i j : Nat} (hi : i < n) (hj : j < n) (hij : i ≠ j) (Q : Nat → List LegId) :
    total n Q = (Q i).length + ((Q j).length + ∑ x ∈ ((Finset.range n).erase i).erase j, (Q x).length) := by
  unfold total
  rw [Finset.add_sum_erase _ (fun x => (Q x).length), Finset.add_sum_erase _ (fun x => (Q x).length)]
  · exact Finset.mem_range.mpr hi
  · exact Finset.mem_erase.mpr ⟨hij.symm, Finset.mem_range.mpr hj⟩

theorem total_update2 {n i j : Nat} (hi : i < n) (hj : j < n) (hij : i ≠ j) {PX PY : List LegId} {P : Nat → List LegId} {k : Nat}
    (sz : PX.length + PY.length + k ≤ (P i).length + (P j).length) : total n (update2 P i j PX PY) + k ≤ total n P := by
  rw [total_split hi hj hij, total_split hi hj hij]
  have e : ∑ x ∈ ((Finset.range n).erase i).erase j, (update2 P i j PX PY x).length =
      ∑ x ∈ ((Finset.range n).erase i).erase j, (P x).length := by
    refine Finset.sum_congr rfl fun x hx => ?_
    rw [Finset.mem_erase, Finset.mem_erase] at hx
    unfold update2
    rw [if_neg hx.1, if_neg hx.2.1]
  rw [e]
  unfold update2
  rw [if_neg hij, if_pos rfl, if_pos rfl]
  omega

theorem Rows.update (r : Rows chi st ms P) {i j : Nat} {a b : MPS R} (hi : ms[i]? = some (.mps a)) (hj : ms[j]? = some (.mps b))
    (hij : i ≠ j) {st' : Store} {x y : Slot R} {PX PY : List LegId} (h : Step st (a.tensors ++ b.tensors) st' (x.sites ++ y.sites))
    (okx : SlotOK chi st' PX x) (oky : SlotOK chi st' PY y) {D k : Nat} (h1 : 1 ≤ D) (big : D ^ 2 ^ (total ms.length P) ≤ chi)
    (w : ∀ (i : Nat) (m : MPS R), ms[i]? = some (.mps m) → Within st m.tensors D)
    (sz : PX.length + PY.length + k ≤ (P i).length + (P j).length)
    (wx : ∀ m, x = .mps m → Within st' m.tensors (D ^ 2 ^ k)) (wy : ∀ m, y = .mps m → Within st' m.tensors (D ^ 2 ^ k)) :
    Step st (flat ms) st' (flat ((ms.set i x).set j y)) ∧ Rows chi st' ((ms.set i x).set j y) (update2 P i j PX PY) := by
  have hi' := (List.getElem?_eq_some_iff.mp hi).1
  have hj' := (List.getElem?_eq_some_iff.mp hj).1
  have d := r.duo hi hj hij
  have p := flat_pair hi hj hij
  have f := (h.frame d.sound).perm p.symm (flat_set2 hi' hj' hij x y).symm
  refine ⟨f, f.sound r.sound, f.same.live r.live, ?_, D ^ 2 ^ k, Nat.one_le_pow _ _ h1, ?_, ?_⟩
  · intro n
    rw [getD_set2 hi' hj']
    unfold update2
    by_cases c1 : n = j
    · rw [if_pos c1, if_pos c1]; exact oky
    · rw [if_neg c1, if_neg c1]
      by_cases c2 : n = i
      · rw [if_pos c2, if_pos c2]; exact okx
      · rw [if_neg c2, if_neg c2]; exact r.other hi hj hij c2 c1 h
  · rw [List.length_set, List.length_set, ← pow_mul, ← pow_add]
    refine le_trans (Nat.pow_le_pow_right h1 (Nat.pow_le_pow_right (by decide) ?_)) big
    have := total_update2 hi' hj' hij sz
    omega
  · intro n m hm
    rw [getElem?_set2 hi' hj'] at hm
    by_cases c1 : n = j
    · rw [if_pos c1] at hm; exact wy m (Option.some.inj hm)
    · rw [if_neg c1] at hm
      by_cases c2 : n = i
      · rw [if_pos c2] at hm; exact wx m (Option.some.inj hm)
      · rw [if_neg c2] at hm
        obtain ⟨⟨_, _, C⟩, -⟩ := r.mps hm
        refine ((w n m hm).kept h.kept C.old).mono ?_
        calc D = D ^ 1 := (pow_one D).symm
          _ ≤ D ^ 2 ^ k := Nat.pow_le_pow_right h1 (Nat.one_le_two_pow)

end

/-- The element is a chain. -/
def IsMPS (ms : List (Slot R)) (i : Nat) : Prop := ∃ m, ms[i]? = some (.mps m)

theorem isMPS_set2 {ms : List (Slot R)} {i j : Nat} (hi : IsMPS ms i) (hj : IsMPS ms j) (a b : MPS R) (k : Nat) :
    IsMPS ((ms.set i (.mps a)).set j (.mps b)) k ↔ IsMPS ms k := by
  obtain ⟨x, hx⟩ := hi
  obtain ⟨y, hy⟩ := hj
  unfold IsMPS
  rw [getElem?_set2 (List.getElem?_eq_some_iff.mp hx).1 (List.getElem?_eq_some_iff.mp hy).1]
  by_cases c1 : k = j
  · rw [if_pos c1, c1]; exact ⟨fun _ => ⟨_, hy⟩, fun _ => ⟨_, rfl⟩⟩
  · rw [if_neg c1]
    by_cases c2 : k = i
    · rw [if_pos c2, c2]; exact ⟨fun _ => ⟨_, hx⟩, fun _ => ⟨_, rfl⟩⟩
    · rw [if_neg c2]

theorem cnt_le_length (st : Store) (P Q : List LegId) : cnt st P Q ≤ P.length := List.countP_le_length

/-- One call of `mergeMPS` on two elements of the list. -/
theorem mergeSlots_rows [Field R] [StarRing R] {la : LinAlg R} (hla : GoodAlg la) (cast castF : R → R) {chi : Nat} {st : Store}
    {ms : List (Slot R)} {P : Nat → List LegId} (r : Rows chi st ms P) {i j : Nat} (hij : i ≠ j) (hi : IsMPS ms i) (hj : IsMPS ms j)
    {flag : Bool} (few : flag = true ∨ cnt st (P i) (P j) ≤ 2) :
    ∃ st' ms' P', mergeSlots la cast castF flag (st, ms) (i, j) = .ok (st', ms') ∧ Step st (flat ms) st' (flat ms') ∧
      Rows chi st' ms' P' ∧ ms'.length = ms.length ∧ (∀ k, k ≠ i → k ≠ j → ms'[k]? = ms[k]?) ∧ (∀ k, IsMPS ms' k ↔ IsMPS ms k) ∧
      ∀ x y, x ≠ y → cnt st' (P' x) (P' y) =
        if (x = i ∧ y = j) ∨ (x = j ∧ y = i) then min (cnt st (P x) (P y)) 1 else cnt st (P x) (P y) := by
  have hi0 := hi
  have hj0 := hj
  obtain ⟨a, ha⟩ := hi
  obtain ⟨b, hb⟩ := hj
  have hi' := (List.getElem?_eq_some_iff.mp ha).1
  have hj' := (List.getElem?_eq_some_iff.mp hb).1
  have d := r.duo ha hb hij
  obtain ⟨CA, ca, neA⟩ := r.mps ha
  obtain ⟨CB, cb, neB⟩ := r.mps hb
  obtain ⟨D, h1, big, w⟩ := r.room
  have kA := cnt_le_length st (P i) (P j)
  have kB := cnt_le_length st (P j) (P i)
  rw [← r.symm i j] at kB
  have tot := total_split hi' hj' hij P
  have lA : 0 < (P i).length := by rw [CA.length_eq]; exact List.length_pos_iff.mpr neA
  have lB : 0 < (P j).length := by rw [CB.length_eq]; exact List.length_pos_iff.mpr neB
  obtain ⟨st', a', b', PA', PB', e, f, CA', CB', one, cA, cB, szA, szB, ca', cb', WA, WB⟩ :=
    mergeMPS_step hla cast castF d CA CB ca cb (w i a ha) (w j b hb) h1
      (le_trans (Nat.pow_le_pow_right h1 (Nat.pow_le_pow_right (by decide) (by omega))) big) few
  have neA' : a'.tensors ≠ [] := by
    rw [← List.length_pos_iff, ← CA'.length_eq]; omega
  have neB' : b'.tensors ≠ [] := by
    rw [← List.length_pos_iff, ← CB'.length_eq]; omega
  obtain ⟨f', r'⟩ := r.update ha hb hij (x := .mps a') (y := .mps b') (PX := PA') (PY := PB') f ⟨CA', ca', neA'⟩ ⟨CB', cb', neB'⟩
    (k := cnt st (P i) (P j) - 1) h1 big w (by omega)
    (fun m hm => by cases hm; exact WA) (fun m hm => by cases hm; exact WB)
  refine ⟨st', _, _, ?_, f', r', by simp, ?_, isMPS_set2 hi0 hj0 a' b', ?_⟩
  · unfold mergeSlots
    simp only [ha, hb, e, bind, Except.bind]
    rfl
  · intro k c1 c2
    rw [getElem?_set2 hi' hj', if_neg c2, if_neg c1]
  · set P' := update2 P i j PA' PB' with hP'
    have eI : P' i = PA' := by rw [hP']; unfold update2; rw [if_neg hij, if_pos rfl]
    have eJ : P' j = PB' := by rw [hP']; unfold update2; rw [if_pos rfl]
    have eO : ∀ k, k ≠ i → k ≠ j → P' k = P k := by
      intro k c1 c2; rw [hP']; unfold update2; rw [if_neg c2, if_neg c1]
    have par : ∀ k, ∀ p ∈ P k, st'.partner p = st.partner p := fun k p hp => (f.kept p (r.old hp)).2.2
    have rowA : ∀ y, y ≠ i → y ≠ j → cnt st' (P' i) (P' y) = cnt st (P i) (P y) := by
      intro y c1 c2
      rw [eI, eO y c1 c2]
      refine cA _ fun q hq => ⟨r.apart c2 hq, ?_⟩
      rw [← eO y c1 c2] at hq
      rw [← eJ]
      exact r'.apart c2 hq
    have rowB : ∀ y, y ≠ i → y ≠ j → cnt st' (P' j) (P' y) = cnt st (P j) (P y) := by
      intro y c1 c2
      rw [eJ, eO y c1 c2]
      refine cB _ fun q hq => ⟨r.apart c1 hq, ?_⟩
      rw [← eO y c1 c2] at hq
      rw [← eI]
      exact r'.apart c1 hq
    intro x y hxy
    by_cases x1 : x = i
    · subst x1
      by_cases y1 : y = j
      · subst y1
        rw [if_pos (.inl ⟨rfl, rfl⟩), eI, eJ]; exact one
      · rw [if_neg (by rintro (⟨-, h⟩ | ⟨h, -⟩); exacts [y1 h, hij h])]
        exact rowA y (Ne.symm hxy) y1
    · by_cases x2 : x = j
      · subst x2
        by_cases y1 : y = i
        · subst y1
          rw [if_pos (.inr ⟨rfl, rfl⟩), r'.symm, r.symm, eI, eJ]; exact one
        · rw [if_neg (by rintro (⟨h, -⟩ | ⟨-, h⟩); exacts [x1 h, y1 h])]
          exact rowB y y1 (Ne.symm hxy)
      · rw [if_neg (by rintro (⟨h, -⟩ | ⟨h, -⟩); exacts [x1 h, x2 h])]
        by_cases y1 : y = i
        · subst y1; rw [r'.symm, r.symm]; exact rowA x x1 x2
        · by_cases y2 : y = j
          · subst y2; rw [r'.symm, r.symm]; exact rowB x x1 x2
          · rw [eO x x1 x2, eO y y1 y2]
            exact cnt_congr (par x) _

/-- The loops over `mergeMPS`. -/
theorem mergeFold_rows [Field R] [StarRing R] {la : LinAlg R} (hla : GoodAlg la) (cast castF : R → R) {chi : Nat} {flag : Bool} :
    ∀ (ps : List (Nat × Nat)) {st : Store} {ms : List (Slot R)} {P : Nat → List LegId}, Rows chi st ms P →
    (∀ p ∈ ps, p.1 ≠ p.2 ∧ IsMPS ms p.1 ∧ IsMPS ms p.2 ∧ (flag = true ∨ cnt st (P p.1) (P p.2) ≤ 2)) →
    ∃ st' ms' P', ps.foldlM (mergeSlots la cast castF flag) (st, ms) = .ok (st', ms') ∧ Step st (flat ms) st' (flat ms') ∧
      Rows chi st' ms' P' ∧ ms'.length = ms.length ∧ (∀ k, (∀ p ∈ ps, k ≠ p.1 ∧ k ≠ p.2) → ms'[k]? = ms[k]?) ∧
      (∀ k, IsMPS ms' k ↔ IsMPS ms k) ∧
      ∀ x y, x ≠ y → cnt st' (P' x) (P' y) =
        if (x, y) ∈ ps ∨ (y, x) ∈ ps then min (cnt st (P x) (P y)) 1 else cnt st (P x) (P y)
  | [], st, ms, P, r, _ => ⟨st, ms, P, rfl, .refl r.sound.wf r.sound.dense r.sound.goodNet, r, rfl, fun _ _ => rfl, fun _ => Iff.rfl,
      fun x y _ => by simp⟩
  | (i, j) :: ps, st, ms, P, r, h => by
    obtain ⟨hij, hi, hj, few⟩ := h (i, j) (by simp)
    dsimp only at hij hi hj few
    obtain ⟨st1, ms1, P1, e1, f1, r1, n1, o1, k1, c1⟩ := mergeSlots_rows hla cast castF r hij hi hj few
    obtain ⟨st2, ms2, P2, e2, f2, r2, n2, o2, k2, c2⟩ := mergeFold_rows hla cast castF (flag := flag) ps r1 (by
      intro p hp
      obtain ⟨h1, h2, h3, h4⟩ := h p (List.mem_cons_of_mem _ hp)
      refine ⟨h1, (k1 _).mpr h2, (k1 _).mpr h3, h4.imp id fun h4 => ?_⟩
      rw [c1 _ _ h1]
      split <;> omega)
    refine ⟨st2, ms2, P2, ?_, f1.trans f2, r2, n2.trans n1, ?_, fun k => (k2 k).trans (k1 k), ?_⟩
    · rw [List.foldlM_cons, e1]
      exact e2
    · intro k hk
      rw [o2 k fun p hp => hk p (List.mem_cons_of_mem _ hp), o1 k (hk (i, j) (by simp)).1 (hk (i, j) (by simp)).2]
    · intro x y hxy
      rw [c2 x y hxy, c1 x y hxy]
      have m1 : (x, y) ∈ (i, j) :: ps ↔ (x = i ∧ y = j) ∨ (x, y) ∈ ps := by rw [List.mem_cons, Prod.mk.injEq]
      have m2 : (y, x) ∈ (i, j) :: ps ↔ (x = j ∧ y = i) ∨ (y, x) ∈ ps := by
        rw [List.mem_cons, Prod.mk.injEq, and_comm]
      by_cases a1 : (x, y) ∈ ps ∨ (y, x) ∈ ps
      · have z : (x, y) ∈ (i, j) :: ps ∨ (y, x) ∈ (i, j) :: ps := by rw [m1, m2]; tauto
        simp only [if_pos a1, if_pos z]
        split <;> omega
      · rw [if_neg a1]
        by_cases a2 : (x = i ∧ y = j) ∨ (x = j ∧ y = i)
        · rw [if_pos a2, if_pos (by rw [m1, m2]; tauto)]
        · rw [if_neg a2, if_neg (by rw [m1, m2]; tauto)]

end CTL
