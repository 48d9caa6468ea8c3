import Verif.Lemmas.MergeMPS

/-! The bonds between two chains: what `commonBonds` and `commonLegs` return, and how many there are. -/

namespace CTL
variable {R : Type}

theorem meets_iff {st : Store} {Q : List LegId} {p : LegId} : meets st Q p = true ↔ ∃ m ∈ Q, st.partner p = some m := by
  unfold meets
  split
  · rename_i h; simp [h]
  · rename_i m h; simp [h]

theorem meets_eq {st : Store} {Q : List LegId} {p m : LegId} (h : st.partner p = some m) : meets st Q p = decide (m ∈ Q) := by
  unfold meets
  rw [h]

theorem meets_none {st : Store} {Q : List LegId} {p : LegId} (h : st.partner p = none) : meets st Q p = false := by
  unfold meets
  rw [h]

def bondOf (st : Store) (p : LegId) : BondId := (st.leg p).bond.getD 0

section
variable [Zero R] {st : Store} {ts : List (Tensor R)} {phys : List LegId} {lft rgt : Nat → LegId}

theorem Chain.getO (C : Chain st ts phys lft rgt) {i : Nat} {t : Tensor R} (ht : ts[i]? = some t) :
    t.getLeg st "o" = some (phys.getD i 0) := by
  have hi : i < ts.length := (List.getElem?_eq_some_iff.mp ht).1
  have p := C.legs i t ht
  have n0 : st.name (phys.getD i 0) = "o" := C.nameP _ ((Chain.mem_phys C.len).mpr ⟨i, hi, rfl⟩)
  have nL : 0 < i → st.name (lft i) = "l" := by
    intro h
    obtain ⟨k, rfl⟩ : ∃ m, i = m + 1 := ⟨i - 1, by omega⟩
    exact C.nameL k hi
  have nd : (t.legs.map st.name).Nodup := by
    rw [(p.map st.name).nodup_iff]
    unfold siteLegs
    rw [List.map_cons, n0, List.map_append]
    by_cases c1 : i + 1 < ts.length <;> by_cases c2 : 0 < i
    · rw [if_pos c1, if_pos c2, List.map_singleton, List.map_singleton, C.nameR i c1, nL c2]; decide
    · rw [if_pos c1, if_neg c2, List.map_singleton, C.nameR i c1]; simp
    · rw [if_neg c1, if_pos c2, List.map_singleton, nL c2]; simp
    · rw [if_neg c1, if_neg c2]; simp
  have := getLeg_unique nd (p.mem_iff.mpr (Chain.mem_siteLegs.mpr (.inl rfl)))
  rw [n0] at this
  exact this

/-- A leg of the chain that is joined to a leg outside is a physical leg. -/
theorem Chain.phys_of_outer (C : Chain st ts phys lft rgt) {u : Tensor R} (hu : u ∈ ts) {m p : LegId} (hm : m ∈ u.legs)
    (k : st.partner m = some p) (out : ∀ t ∈ ts, p ∉ t.legs) : m ∈ phys := by
  obtain ⟨j, hj, e⟩ := List.getElem_of_mem hu
  have hl := (C.legs j u (by rw [List.getElem?_eq_getElem hj, e])).mem_iff.mp hm
  rcases List.mem_cons.mp hl with rfl | hl
  · exact (Chain.mem_phys C.len).mpr ⟨j, hj, rfl⟩
  · obtain ⟨t, ht, h⟩ := C.inner_partner hj hl k
    exact absurd h (out t ht)

theorem Chain.phys_nodup (C : Chain st ts phys lft rgt) : phys.Nodup := by
  rw [List.nodup_iff_getElem?_ne_getElem?]
  intro i j hij hj e
  have hj' : j < ts.length := C.len ▸ hj
  have hi' : i < ts.length := hij.trans hj'
  have e' : phys.getD i 0 = phys.getD j 0 := by rw [List.getD_eq_getElem?_getD, List.getD_eq_getElem?_getD, e]
  exact C.disj i hi' j hj' (by omega) _ (Chain.mem_siteLegs.mpr (.inl rfl)) (Chain.mem_siteLegs.mpr (.inl e'))

end

theorem acrossO_none {st : Store} {t : Tensor R} {p : LegId} (h : t.getLeg st "o" = some p) (k : st.partner p = none) :
    acrossO st t = .ok none := by
  have : (st.leg p).bond = none := by
    unfold Store.partner at k
    split at k
    · assumption
    · cases k
  unfold acrossO
  simp only [h, this]

theorem acrossO_some {st : Store} (inv : BondInv st) {t : Tensor R} {p m : LegId} (h : t.getLeg st "o" = some p)
    (k : st.partner p = some m) : acrossO st t = .ok (some (bondOf st p, (st.leg m).tensor)) := by
  unfold acrossO bondOf
  simp only [h]
  unfold Store.partner at k
  split at k
  · cases k
  · rename_i c hc
    simp only [hc, bondAnotherSide_eq inv hc, bind, Except.bind, pure, Except.pure, Option.getD_some, Option.some.inj k]

namespace Duo
variable [CommSemiring R] {st : Store} {N : List (Tensor R)} {a b : MPS R}

theorem has (d : Duo st N a.tensors b.tensors) {PA PB : List LegId} {lA rA lB rB : Nat → LegId}
    (CA : Chain st a.tensors PA lA rA) (CB : Chain st b.tensors PB lB rB) {p m : LegId} (hp : p ∈ PA) (k : st.partner p = some m) :
    b.hasTensor (st.leg m).tensor = decide (m ∈ PB) := by
  obtain ⟨t, ht, hpt⟩ := CA.phys_mem hp
  obtain ⟨-, u, hu, hmu⟩ := d.sound.inside t (by simp [ht]) p hpt m k
  rw [(d.sound.owned.legs u hu m hmu).2]
  rw [Bool.eq_iff_iff, decide_eq_true_iff,
    MPS.hasTensor_iff d.sound.owned.ids (fun _ h => List.mem_append_right _ (List.mem_append_right _ h)) hu]
  constructor
  · intro h
    exact CB.phys_of_outer h hmu (partner_symm d.sound.wf.inv k) fun t' ht' => d.disj ht ht' hpt
  · intro h
    obtain ⟨v, hv, hmv⟩ := CB.phys_mem h
    have e := d.sound.owned.eq_of_mem (List.mem_append_right _ (List.mem_append_right _ hv)) hu hmv hmu
    exact e ▸ hv

theorem index (d : Duo st N a.tensors b.tensors) {PB : List LegId} {lB rB : Nat → LegId}
    (CB : Chain st b.tensors PB lB rB) {j : Nat} (hj : j < b.tensors.length) :
    b.tensorIndex (st.leg (PB.getD j 0)).tensor = .ok j := by
  obtain ⟨u, hu, mu, lu⟩ := CB.siteP hj
  rw [(d.sound.owned.legs u (by simp [mu]) _ lu).2]
  exact MPS.tensorIndex_eq d.idsB hu

theorem commonBonds_drop (d : Duo st N a.tensors b.tensors) {PA PB : List LegId} {lA rA lB rB : Nat → LegId}
    (CA : Chain st a.tensors PA lA rA) (CB : Chain st b.tensors PB lB rB) : ∀ (n i : Nat), i + n = a.tensors.length →
    commonBonds st b (a.tensors.drop i) = .ok (((PA.drop i).filter (meets st PB)).map (bondOf st)) := by
  have inv := d.sound.wf.inv
  intro n
  induction n with
  | zero =>
    intro i hi
    rw [List.drop_eq_nil_of_le (by omega), List.drop_eq_nil_of_le (by rw [CA.len]; omega)]
    rfl
  | succ n ih =>
    intro i hi
    have h1 : i < a.tensors.length := by omega
    have h2 : i < PA.length := by rw [CA.len]; exact h1
    rw [List.drop_eq_getElem_cons h1, List.drop_eq_getElem_cons h2]
    have g := CA.getO (List.getElem?_eq_getElem h1)
    have e : PA.getD i 0 = PA[i] := by rw [List.getD_eq_getElem?_getD, List.getElem?_eq_getElem h2]; rfl
    rw [e] at g
    have hp : PA[i] ∈ PA := List.getElem_mem h2
    have ih := ih (i + 1) (by omega)
    unfold commonBonds
    cases k : st.partner PA[i] with
    | none =>
      rw [List.filter_cons_of_neg (by rw [meets_none k]; simp)]
      simp only [acrossO_none g k, bind, Except.bind, ih]
    | some m =>
      have hh := d.has CA CB hp k
      simp only [acrossO_some inv g k, bind, Except.bind, ih, pure, Except.pure, hh]
      by_cases c : m ∈ PB
      · rw [List.filter_cons_of_pos (by rw [meets_eq k]; simpa using c), if_pos (by simpa using c)]; rfl
      · rw [List.filter_cons_of_neg (by rw [meets_eq k]; simpa using c), if_neg (by simpa using c)]

/-- `commonBonds` returns the bonds between the two chains. -/
theorem commonBonds_eq (d : Duo st N a.tensors b.tensors) {PA PB : List LegId} {lA rA lB rB : Nat → LegId}
    (CA : Chain st a.tensors PA lA rA) (CB : Chain st b.tensors PB lB rB) :
    commonBonds st b a.tensors = .ok ((PA.filter (meets st PB)).map (bondOf st)) := by
  have := d.commonBonds_drop CA CB a.tensors.length 0 (by omega)
  simpa using this

theorem commonLegs_drop (d : Duo st N a.tensors b.tensors) {PA PB : List LegId} {lA rA lB rB : Nat → LegId}
    (CA : Chain st a.tensors PA lA rA) (CB : Chain st b.tensors PB lB rB) : ∀ (n i : Nat), i + n = a.tensors.length →
    ∃ l, commonLegs st b i (a.tensors.drop i) = .ok l ∧ l.map (fun x => PA.getD x.1 0) = (PA.drop i).filter (meets st PB) ∧
      ∀ x ∈ l, x.1 < a.tensors.length ∧ x.2 < b.tensors.length ∧ st.partner (PA.getD x.1 0) = some (PB.getD x.2 0) := by
  have inv := d.sound.wf.inv
  intro n
  induction n with
  | zero =>
    intro i hi
    rw [List.drop_eq_nil_of_le (by omega), List.drop_eq_nil_of_le (by rw [CA.len]; omega)]
    exact ⟨[], rfl, rfl, by simp⟩
  | succ n ih =>
    intro i hi
    have h1 : i < a.tensors.length := by omega
    have h2 : i < PA.length := by rw [CA.len]; exact h1
    rw [List.drop_eq_getElem_cons h1, List.drop_eq_getElem_cons h2]
    have g := CA.getO (List.getElem?_eq_getElem h1)
    have e : PA.getD i 0 = PA[i] := by rw [List.getD_eq_getElem?_getD, List.getElem?_eq_getElem h2]; rfl
    rw [e] at g
    have hp : PA[i] ∈ PA := List.getElem_mem h2
    obtain ⟨l, ih, hm, hx⟩ := ih (i + 1) (by omega)
    unfold commonLegs
    cases k : st.partner PA[i] with
    | none =>
      rw [List.filter_cons_of_neg (by rw [meets_none k]; simp)]
      refine ⟨l, ?_, hm, hx⟩
      simp only [acrossO_none g k, bind, Except.bind, ih]
    | some m =>
      have hh := d.has CA CB hp k
      by_cases c : m ∈ PB
      · obtain ⟨j, hj, rfl⟩ := (Chain.mem_phys CB.len).mp c
        refine ⟨(i, j) :: l, ?_, ?_, ?_⟩
        · simp only [acrossO_some inv g k, bind, Except.bind, ih, pure, Except.pure, hh, c, decide_true, if_true, d.index CB hj]
        · rw [List.filter_cons_of_pos (by rw [meets_eq k]; simpa using c), List.map_cons, hm, e]
        · intro x hx'
          rcases List.mem_cons.mp hx' with rfl | hx'
          · exact ⟨h1, hj, by dsimp only; rw [e]; exact k⟩
          · exact hx x hx'
      · refine ⟨l, ?_, ?_, hx⟩
        · simp only [acrossO_some inv g k, bind, Except.bind, ih, hh, c, decide_false, Bool.false_eq_true, if_false]
        · rw [List.filter_cons_of_neg (by rw [meets_eq k]; simpa using c), hm]

theorem commonLegs_eq (d : Duo st N a.tensors b.tensors) {PA PB : List LegId} {lA rA lB rB : Nat → LegId}
    (CA : Chain st a.tensors PA lA rA) (CB : Chain st b.tensors PB lB rB) :
    ∃ l, commonLegs st b 0 a.tensors = .ok l ∧ l.map (fun x => PA.getD x.1 0) = PA.filter (meets st PB) ∧
      ∀ x ∈ l, x.1 < a.tensors.length ∧ x.2 < b.tensors.length ∧ st.partner (PA.getD x.1 0) = some (PB.getD x.2 0) := by
  have := d.commonLegs_drop CA CB a.tensors.length 0 (by omega)
  simpa using this

end Duo
end CTL
