import Verif.Spec.Value
import Verif.Lemmas.Net

/-! Replacing tensors of a network. -/

namespace CTL
variable {R : Type}

theorem FreeLeg.perm {st : Store} {L L' : List (Tensor R)} (h : L.Perm L') (l : LegId) : FreeLeg st L l ↔ FreeLeg st L' l := by
  unfold FreeLeg Cross
  simp only [h.mem_iff]

namespace SameValue
variable [CommSemiring R] {a b c : Store} {L M N : List (Tensor R)}

theorem refl (g : GoodNet a L) : SameValue a L a L :=
  ⟨g, g, fun _ => Iff.rfl, fun _ _ => rfl, fun _ _ h h' _ _ => netSum_unique g.inv h' h _⟩

theorem symm (h : SameValue a L b M) : SameValue b M a L :=
  ⟨h.good', h.good, fun l => (h.free l).symm, fun l hl => (h.dims l ((h.free l).mp hl)).symm,
    fun ps ps' h1 h2 σ hσ => (h.value ps' ps h2 h1 σ fun l hl => by
      rw [← h.dims l hl]; exact hσ l ((h.free l).mpr hl)).symm⟩

theorem trans (h : SameValue a L b M) (h' : SameValue b M c N) : SameValue a L c N := by
  refine ⟨h.good, h'.good', fun l => (h'.free l).trans (h.free l),
    fun l hl => (h'.dims l ((h.free l).mpr hl)).trans (h.dims l hl), ?_⟩
  intro ps ps' h1 h2 σ hσ
  obtain ⟨qs, hq⟩ := exists_bondList h.good'
  rw [← h.value ps qs h1 hq σ hσ]
  apply h'.value qs ps' hq h2 σ
  intro l hl
  have := (h.free l).mp hl
  rw [h.dims l this]
  exact hσ l this

theorem of_perm (g : GoodNet a L) (p : L.Perm M) : SameValue a L a M := by
  refine ⟨g, g.perm p, fun l => FreeLeg.perm p.symm l, fun _ _ => rfl, ?_⟩
  intro ps ps' h1 h2 σ _
  rw [netSum_perm a p]
  exact netSum_unique g.inv h2 (h1.perm p) σ

end SameValue

/-- Contracting two tensors does not change the value. -/
theorem SameValue.step [CommSemiring R] {st : Store} {a b : Tensor R} {L : List (Tensor R)} {o : ContractOut R}
    (g : GoodNet st (a :: b :: L)) (h : Contracted st a b (sharedPairs st a.legs b.legs) o) :
    SameValue st (a :: b :: L) o.store (o.result :: L) := by
  refine ⟨g, step_goodNet g h, fun l => step_free g h l, fun l _ => by rw [h.same.dim], ?_⟩
  intro ps ps' h1 h2 σ hσ
  rw [← step_value g h h2 σ hσ]
  exact netSum_unique g.inv (step_bondList g h h2) h1 σ

theorem sumBonds_dim [AddMonoid R] {dim dim' : LegId → Nat} {ps : List (LegId × LegId)} (h : ∀ p ∈ ps, dim' p.1 = dim p.1)
    (f : Assign → R) (σ : Assign) : sumBonds dim' ps f σ = sumBonds dim ps f σ := by
  induction ps generalizing σ with
  | nil => rfl
  | cons p ps ih =>
    obtain ⟨l, m⟩ := p
    have e : dim' l = dim l := h (l, m) (by simp)
    simp only [sumBonds, e]
    congr 1
    apply List.map_congr_left
    intro k _
    exact ih (fun p hp => h p (by simp [hp])) _

/-- Replacing a tensor by one with the same legs and entries does not change the value, whatever else happens to the
store. -/
theorem SameValue.congr [CommSemiring R] {st st' : Store} {c c' : Tensor R} {L : List (Tensor R)} (g : GoodNet st (c :: L))
    (inv : BondInv st') (gc : GoodTensor st' c') (legs : c'.legs.Perm c.legs)
    (dims : ∀ t ∈ c :: L, ∀ l ∈ t.legs, st'.dim l = st.dim l)
    (partner : ∀ t ∈ c :: L, ∀ l ∈ t.legs, st'.partner l = st.partner l)
    (ent : ∀ σ, InRange st.dim c.legs σ → entry c' σ = entry c σ) : SameValue st (c :: L) st' (c' :: L) := by
  have g' : GoodNet st' (c' :: L) := by
    refine ⟨inv, ?_, ?_⟩
    · intro t ht
      rcases List.mem_cons.mp ht with rfl | ht
      · exact gc
      · exact (g.good t (by simp [ht])).congr_dim (dims t (by simp [ht]))
    · have := g.nodup
      rw [List.flatMap_cons] at this ⊢
      exact (legs.append_right _).nodup_iff.mpr this
  have inLeg : ∀ l, (∃ t ∈ c' :: L, l ∈ t.legs) ↔ ∃ t ∈ c :: L, l ∈ t.legs := by
    intro l
    simp [legs.mem_iff]
  have cross : ∀ l m, Cross (c' :: L) l m ↔ Cross (c :: L) l m := by
    intro l m
    unfold Cross
    rw [inLeg m]
    simp [legs.mem_iff]
  have free : ∀ l, FreeLeg st' (c' :: L) l ↔ FreeLeg st (c :: L) l := by
    intro l
    unfold FreeLeg
    rw [inLeg l]
    constructor
    · rintro ⟨⟨t, ht, hl⟩, h2⟩
      exact ⟨⟨t, ht, hl⟩, fun m hm hc => h2 m (by rw [partner t ht l hl]; exact hm) ((cross l m).mpr hc)⟩
    · rintro ⟨⟨t, ht, hl⟩, h2⟩
      exact ⟨⟨t, ht, hl⟩, fun m hm hc => h2 m (by rw [partner t ht l hl] at hm; exact hm) ((cross l m).mp hc)⟩
  refine ⟨g, g', free, fun l hl => by obtain ⟨⟨t, ht, hl⟩, _⟩ := hl; exact dims t ht l hl, ?_⟩
  intro ps ps' h1 h2 σ hσ
  have b1 : IsBondList st (c :: L) ps' := by
    refine ⟨h2.once, fun l m => ?_⟩
    rw [h2.exact, cross]
    constructor
    · rintro ⟨x, y⟩
      obtain ⟨⟨t, ht, hl, _⟩, _⟩ := id y
      exact ⟨by rw [← partner t ht l hl]; exact x, y⟩
    · rintro ⟨x, y⟩
      obtain ⟨⟨t, ht, hl, _⟩, _⟩ := id y
      exact ⟨by rw [partner t ht l hl]; exact x, y⟩
  rw [netSum_unique g.inv h1 b1]
  unfold netSum
  rw [sumBonds_dim (dim := st.dim) (dim' := st'.dim)]
  · apply sumBonds_congr
    intro idx hv
    simp only [List.map_cons, List.prod_cons]
    rw [ent]
    apply assign_inRange st.dim c.legs σ ps' idx hv (bondList_dims g.inv b1)
    intro l hl n1 n2
    apply hσ
    refine ⟨⟨c, by simp, hl⟩, fun m hm hc => ?_⟩
    rcases (b1.exact l m).mpr ⟨hm, hc⟩ with h3 | h3
    · exact n1 (List.mem_map.mpr ⟨_, h3, rfl⟩)
    · exact n2 (List.mem_map.mpr ⟨_, h3, rfl⟩)
  · intro p hp
    obtain ⟨_, ⟨t, ht, hl, _⟩, _⟩ := (b1.exact p.1 p.2).mp (.inl hp)
    exact dims t ht _ hl

end CTL
