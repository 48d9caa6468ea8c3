import Verif.Lemmas.LinkAt
import Verif.Lemmas.Glue
import Verif.Lemmas.Copy
import Verif.Props.NewMPS

/-! New tensors that are joined to a chain. -/

namespace CTL
variable {R : Type}

/-- Tensors with free legs that are joined as the sites of a chain, in any order and orientation. -/
theorem chain_of_links [Zero R] {st : Store} {ts : List (Tensor R)} {phys : List LegId} {lft rgt : Nat → LegId} (k : Kit st ts)
    (free : ∀ t ∈ ts, ∀ l ∈ t.legs, (st.leg l).bond = none) (len : phys.length = ts.length)
    (legs : ∀ (i : Nat) (t : Tensor R), ts[i]? = some t → t.legs.Perm (siteLegs ts.length phys lft rgt i))
    (dims : ∀ i, i + 1 < ts.length → st.dim (rgt i) = st.dim (lft (i + 1))) {qs : List (Nat × String × Nat × String)} {idx : List Nat}
    {flip : Nat → Bool} (hidx : ∀ i, i ∈ idx ↔ i + 1 < ts.length) (nd : idx.Nodup)
    (h : List.Forall₂ (LinkAt ts st) qs (idx.map fun i => if flip i then (lft (i + 1), rgt i) else (rgt i, lft (i + 1)))) :
    ∃ st', qs.foldlM (linkAt ts) st = .ok st' ∧ ChainLinks st' ts phys lft rgt ∧
      PairsJoined st st' (idx.map fun i => if flip i then (lft (i + 1), rgt i) else (rgt i, lft (i + 1))) ∧
      ∀ p ∈ phys, st'.leg p = st.leg p := by
  have flat := k.net.nodup
  have site : ∀ i < ts.length, ∃ t, ts[i]? = some t ∧ t ∈ ts ∧ t.legs.Perm (siteLegs ts.length phys lft rgt i) := fun i hi =>
    ⟨ts[i], List.getElem?_eq_getElem hi, List.getElem_mem hi, legs i _ (List.getElem?_eq_getElem hi)⟩
  have inR : ∀ i, i + 1 < ts.length → rgt i ∈ siteLegs ts.length phys lft rgt i := by
    intro i hi
    unfold siteLegs
    simp [hi]
  have inL : ∀ i, i + 1 < ts.length → lft (i + 1) ∈ siteLegs ts.length phys lft rgt (i + 1) := by
    intro i hi
    unfold siteLegs
    simp
  have apart : ∀ i < ts.length, ∀ j < ts.length, i ≠ j → ∀ x ∈ siteLegs ts.length phys lft rgt i, x ∉ siteLegs ts.length phys lft rgt j := by
    intro i hi j hj hij x hx hy
    obtain ⟨a, ha, -, pa⟩ := site i hi
    obtain ⟨b, hb, -, pb⟩ := site j hj
    exact flat_disj flat ha hb hij (pa.mem_iff.mpr hx) (pb.mem_iff.mpr hy)
  have sn : ∀ i < ts.length, (siteLegs ts.length phys lft rgt i).Nodup := by
    intro i hi
    obtain ⟨a, -, ma, pa⟩ := site i hi
    exact pa.nodup_iff.mp (flat_nodup flat ma)
  have eR : ∀ i j, i + 1 < ts.length → j + 1 < ts.length → i ≠ j → rgt i ≠ rgt j := fun i j hi hj hij e =>
    apart i (by omega) j (by omega) hij _ (inR i hi) (e ▸ inR j hj)
  have eL : ∀ i j, i + 1 < ts.length → j + 1 < ts.length → i ≠ j → lft (i + 1) ≠ lft (j + 1) := fun i j hi hj hij e =>
    apart (i + 1) hi (j + 1) hj (by omega) _ (inL i hi) (e ▸ inL j hj)
  have eRL : ∀ i j, i + 1 < ts.length → j + 1 < ts.length → rgt i ≠ lft (j + 1) := by
    intro i j hi hj e
    by_cases hij : i = j + 1
    · subst hij
      have := sn (j + 1) (by omega)
      unfold siteLegs at this
      simp only [hi, if_true, Nat.zero_lt_succ, List.nodup_cons, List.cons_append, List.nil_append, List.mem_cons, List.not_mem_nil, or_false,
        not_false_eq_true, List.nodup_nil, and_true] at this
      exact this.2 e
    · exact apart i (by omega) (j + 1) hj hij _ (inR i hi) (e ▸ inL j hj)
  have freeS : ∀ i < ts.length, ∀ x ∈ siteLegs ts.length phys lft rgt i, (st.leg x).bond = none ∧ x < st.nextLeg := by
    intro i hi x hx
    obtain ⟨a, -, ma, pa⟩ := site i hi
    have hx := pa.mem_iff.mpr hx
    exact ⟨free a ma x hx, k.old a ma x hx⟩
  obtain ⟨st', e, J⟩ := linkAt_all k.wf h (by
      intro p hp
      obtain ⟨i, hi, rfl⟩ := List.mem_map.mp hp
      have := dims i ((hidx i).mp hi)
      split
      · exact this.symm
      · exact this) (by
      rw [List.flatMap_map, List.nodup_flatMap]
      refine ⟨fun i hi => ?_, ?_⟩
      · have := eRL i i ((hidx i).mp hi) ((hidx i).mp hi)
        split
        · simpa using this.symm
        · simpa using this
      · refine nd.imp_of_mem ?_
        intro i j hi hj hij
        have h1 := (hidx i).mp hi
        have h2 := (hidx j).mp hj
        have a1 := eR i j h1 h2 hij
        have a2 := eL i j h1 h2 hij
        have a3 := eRL i j h1 h2
        have a4 := eRL j i h2 h1
        have : ∀ x, x = rgt i ∨ x = lft (i + 1) → ¬ (x = rgt j ∨ x = lft (j + 1)) := by
          rintro x (rfl | rfl) (e | e)
          · exact a1 e
          · exact a3 e
          · exact a4 e.symm
          · exact a2 e
        intro x hx hy
        refine this x ?_ ?_
        · revert hx
          dsimp only
          split <;> simp only [List.mem_cons, List.not_mem_nil, or_false] <;> tauto
        · revert hy
          dsimp only
          split <;> simp only [List.mem_cons, List.not_mem_nil, or_false] <;> tauto) (by
      intro p hp
      obtain ⟨i, hi, rfl⟩ := List.mem_map.mp hp
      have hi := (hidx i).mp hi
      have h1 := freeS i (by omega) _ (inR i hi)
      have h2 := freeS (i + 1) hi _ (inL i hi)
      split
      · exact ⟨h2, h1⟩
      · exact ⟨h1, h2⟩)
  have physIn : ∀ p ∈ phys, ∃ i < ts.length, p = phys.getD i 0 ∧ p ∈ siteLegs ts.length phys lft rgt i := by
    intro p hp
    obtain ⟨i, hi, rfl⟩ := List.getElem_of_mem hp
    have e : phys.getD i 0 = phys[i] := by simp [hi]
    exact ⟨i, len ▸ hi, e.symm, by unfold siteLegs; rw [e]; simp⟩
  have physOther : ∀ p ∈ phys, st'.leg p = st.leg p := by
    intro p hp
    obtain ⟨i, hi, e0, hs⟩ := physIn p hp
    refine J.other p fun q hq => ?_
    obtain ⟨j, hj, rfl⟩ := List.mem_map.mp hq
    have hj := (hidx j).mp hj
    have n1 : p ≠ rgt j := by
      rintro rfl
      by_cases hij : i = j
      · subst hij
        have := sn i hi
        unfold siteLegs at this
        rw [← e0] at this
        simp [hj] at this
      · exact apart i hi j (by omega) hij _ hs (inR j hj)
    have n2 : p ≠ lft (j + 1) := by
      intro e
      by_cases hij : i = j + 1
      · subst hij
        have := sn (j + 1) hi
        unfold siteLegs at this
        rw [← e0, e] at this
        simp at this
      · exact apart i hi (j + 1) hj hij _ hs (e ▸ inL j hj)
    split
    · exact ⟨n2, n1⟩
    · exact ⟨n1, n2⟩
  have good' : ∀ t ∈ ts, GoodTensor st' t := fun t ht => (k.net.good t ht).congr_dim fun l _ => J.dim l
  have k' : Kit st' ts := ⟨J.wf, ⟨J.wf.inv, good', flat⟩, k.dense, fun t ht l hl => by rw [J.nextLeg]; exact k.old t ht l hl⟩
  refine ⟨st', e, k'.links len legs ?_ ?_, J, physOther⟩
  · intro i hi
    have := J.joined _ (List.mem_map_of_mem (f := fun i => if flip i then (lft (i + 1), rgt i) else (rgt i, lft (i + 1))) ((hidx i).mpr hi))
    revert this
    split
    · exact fun h => h.2
    · exact fun h => h.1
  · intro p hp q _ hpq
    obtain ⟨i, hi, -, hs⟩ := physIn p hp
    unfold Store.partner at hpq
    rw [physOther p hp, (freeS i hi p hs).1] at hpq
    cases hpq

/-! ### Copies -/

/-- The legs of copies as images of the legs of the originals. -/
theorem copyMap {st st' : Store} {b : Bool} {ts cs : List (Tensor R)} (h : List.Forall₂ (CopyOf st st' b) ts cs)
    (nd : (ts.flatMap fun t => t.legs).Nodup) : ∃ κ : LegId → LegId, List.Forall₂ (fun t c => c.legs = t.legs.map κ) ts cs := by
  induction h with
  | nil => exact ⟨id, .nil⟩
  | @cons t c ts cs P hs ih =>
    rw [List.flatMap_cons, List.nodup_append] at nd
    obtain ⟨κ, hκ⟩ := ih nd.2.1
    have hlen : c.legs.length = t.legs.length := by simpa using congrArg List.length P.dims
    refine ⟨fun x => if x ∈ t.legs then c.legs.getD (t.legs.idxOf x) 0 else κ x, .cons ?_ ?_⟩
    · refine List.ext_getElem (by simp [hlen]) fun i h1 h2 => ?_
      have hi : i < t.legs.length := hlen ▸ h1
      simp only [List.getElem_map, List.getElem_mem, if_true]
      rw [nd.1.idxOf_getElem i hi]
      simp [h1]
    · refine List.forall₂_iff_get.mpr ⟨hκ.length_eq, fun i h1 h2 => ?_⟩
      rw [(List.forall₂_iff_get.mp hκ).2 i h1 h2]
      refine List.map_congr_left fun x hx => ?_
      rw [if_neg]
      intro hxt
      exact nd.2.2 x hxt x (List.mem_flatMap.mpr ⟨_, List.get_mem ts ⟨i, h1⟩, hx⟩) rfl

theorem siteLegs_map (κ : LegId → LegId) {n : Nat} {phys : List LegId} (lft rgt : Nat → LegId) {i : Nat} (hi : i < phys.length) :
    (siteLegs n phys lft rgt i).map κ = siteLegs n (phys.map κ) (fun j => κ (lft j)) (fun j => κ (rgt j)) i := by
  unfold siteLegs
  have : (phys.map κ).getD i 0 = κ (phys.getD i 0) := by simp [hi]
  rw [this]
  split <;> split <;> rfl

end CTL
