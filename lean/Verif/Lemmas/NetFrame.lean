import Verif.Lemmas.Replace
import Mathlib.Data.List.Flatten

/-! Replacing a part of a network by one with the same value. -/

namespace CTL
variable {R : Type}

theorem GoodNet.part {st : Store} {N L : List (Tensor R)} (g : GoodNet st (N ++ L)) : GoodNet st L ∧
    ∀ t ∈ N, ∀ u ∈ L, ∀ l ∈ t.legs, l ∉ u.legs := by
  have nd := g.nodup
  rw [List.flatMap_append, List.nodup_append] at nd
  refine ⟨⟨g.inv, fun t ht => g.good t (by simp [ht]), nd.2.1⟩, ?_⟩
  intro t ht u hu l hl hl'
  exact nd.2.2 l (List.mem_flatMap.mpr ⟨t, ht, hl⟩) l (List.mem_flatMap.mpr ⟨u, hu, hl'⟩) rfl

theorem cross_iff {L : List (Tensor R)} (nd : (L.flatMap fun t => t.legs).Nodup) {t : Tensor R} (ht : t ∈ L) {l m : LegId}
    (hl : l ∈ t.legs) : Cross L l m ↔ m ∉ t.legs ∧ ∃ u ∈ L, m ∈ u.legs := by
  constructor
  · rintro ⟨⟨t', ht', hl', hm⟩, h⟩
    rw [leg_owner_unique nd ht' ht hl' hl] at hm
    exact ⟨hm, h⟩
  · rintro ⟨hm, h⟩
    exact ⟨⟨t, ht, hl, hm⟩, h⟩

theorem Cross.mono {N L : List (Tensor R)} {l m : LegId} (h : Cross L l m) : Cross (N ++ L) l m := by
  obtain ⟨⟨t, ht, hl, hm⟩, u, hu, hmu⟩ := h
  exact ⟨⟨t, by simp [ht], hl, hm⟩, u, by simp [hu], hmu⟩

theorem Cross.symm {L : List (Tensor R)} (nd : (L.flatMap fun t => t.legs).Nodup) {l m : LegId} (h : Cross L l m) :
    Cross L m l := by
  obtain ⟨⟨t, ht, hl, hm⟩, u, hu, hmu⟩ := h
  refine (cross_iff nd hu hmu).mpr ⟨fun hlu => ?_, t, ht, hl⟩
  rw [leg_owner_unique nd ht hu hl hlu] at hm
  exact hm hmu

namespace SameValue
variable [CommSemiring R] {a b : Store} {N L M : List (Tensor R)}

/-- The other end of a leg outside is a free leg of both. -/
theorem outer (h : SameValue a L b M) (g : GoodNet a (N ++ L)) {t : Tensor R} (ht : t ∈ N) {l m : LegId} (hl : l ∈ t.legs)
    (hp : a.partner l = some m) (hm : ∃ u ∈ L, m ∈ u.legs) : FreeLeg a L m ∧ FreeLeg b M m := by
  have f : FreeLeg a L m := by
    refine ⟨hm, fun x hx hc => ?_⟩
    rw [partner_symm g.inv hp] at hx
    obtain rfl := Option.some.inj hx
    obtain ⟨-, u, hu, hlu⟩ := hc
    exact g.part.2 t ht u hu l hl hlu
  exact ⟨f, (h.free m).mpr f⟩

theorem cross_outer (h : SameValue a L b M) (gL : GoodNet a (N ++ L)) (gM : GoodNet b (N ++ M))
    (part : ∀ t ∈ N, ∀ l ∈ t.legs, b.partner l = a.partner l) {t : Tensor R} (ht : t ∈ N) {l m : LegId} (hl : l ∈ t.legs)
    (hp : a.partner l = some m) : Cross (N ++ M) l m ↔ Cross (N ++ L) l m := by
  rw [cross_iff gL.nodup (t := t) (by simp [ht]) hl, cross_iff gM.nodup (t := t) (by simp [ht]) hl]
  refine and_congr_right fun _ => ?_
  constructor
  · rintro ⟨u, hu, hm⟩
    rcases List.mem_append.mp hu with hu | hu
    · exact ⟨u, by simp [hu], hm⟩
    · obtain ⟨⟨v, hv, hmv⟩, -⟩ := (h.symm.outer gM ht hl ((part t ht l hl).trans hp) ⟨u, hu, hm⟩).2
      exact ⟨v, by simp [hv], hmv⟩
  · rintro ⟨u, hu, hm⟩
    rcases List.mem_append.mp hu with hu | hu
    · exact ⟨u, by simp [hu], hm⟩
    · obtain ⟨⟨v, hv, hmv⟩, -⟩ := (h.outer gL ht hl hp ⟨u, hu, hm⟩).2
      exact ⟨v, by simp [hv], hmv⟩

theorem frame_free (h : SameValue a L b M) (gL : GoodNet a (N ++ L)) (gM : GoodNet b (N ++ M))
    (part : ∀ t ∈ N, ∀ l ∈ t.legs, b.partner l = a.partner l) (l : LegId) (f : FreeLeg a (N ++ L) l) :
    FreeLeg b (N ++ M) l := by
  obtain ⟨⟨t, ht, hl⟩, h2⟩ := f
  rcases List.mem_append.mp ht with ht | ht
  · refine ⟨⟨t, by simp [ht], hl⟩, fun m hm hc => ?_⟩
    rw [part t ht l hl] at hm
    exact h2 m hm ((h.cross_outer gL gM part ht hl hm).mp hc)
  · have f : FreeLeg a L l := ⟨⟨t, ht, hl⟩, fun m hm hc => h2 m hm hc.mono⟩
    obtain ⟨⟨u, hu, hlu⟩, h3⟩ := (h.free l).mpr f
    refine ⟨⟨u, by simp [hu], hlu⟩, fun m hm hc => ?_⟩
    obtain ⟨c1, v, hv, hmv⟩ := (cross_iff gM.nodup (t := u) (by simp [hu]) hlu).mp hc
    rcases List.mem_append.mp hv with hv | hv
    · have hp := partner_symm gM.inv hm
      rw [part v hv m hmv] at hp
      refine h2 m (partner_symm gL.inv hp) (Cross.symm gL.nodup ?_)
      exact (h.cross_outer gL gM part hv hmv hp).mp (Cross.symm gM.nodup hc)
    · exact h3 m hm ((cross_iff gM.part.1.nodup hu hlu).mpr ⟨c1, v, hv, hmv⟩)

/-- A part of a network may be replaced by one with the same value. -/
theorem frame (h : SameValue a L b M) (gL : GoodNet a (N ++ L)) (gM : GoodNet b (N ++ M))
    (dims : ∀ t ∈ N, ∀ l ∈ t.legs, b.dim l = a.dim l)
    (part : ∀ t ∈ N, ∀ l ∈ t.legs, b.partner l = a.partner l) : SameValue a (N ++ L) b (N ++ M) := by
  have part' : ∀ t ∈ N, ∀ l ∈ t.legs, a.partner l = b.partner l := fun t ht l hl => (part t ht l hl).symm
  have free : ∀ l, FreeLeg b (N ++ M) l ↔ FreeLeg a (N ++ L) l := fun l =>
    ⟨h.symm.frame_free gM gL part' l, h.frame_free gL gM part l⟩
  have inL : ∀ l, FreeLeg a (N ++ L) l → (∃ t ∈ N, l ∈ t.legs) ∨ FreeLeg a L l := by
    rintro l ⟨⟨t, ht, hl⟩, h2⟩
    rcases List.mem_append.mp ht with ht | ht
    · exact .inl ⟨t, ht, hl⟩
    · exact .inr ⟨⟨t, ht, hl⟩, fun m hm hc => h2 m hm hc.mono⟩
  refine ⟨gL, gM, free, ?_, ?_⟩
  · intro l hl
    rcases inL l hl with ⟨t, ht, hl⟩ | hl
    · exact dims t ht l hl
    · exact h.dims l hl
  intro ps ps' h1 h2 σ hσ
  classical
  obtain ⟨psL, hL⟩ := exists_bondList h.good
  obtain ⟨psM, hM⟩ := exists_bondList h.good'
  let inN : LegId → Prop := fun l => ∃ t ∈ N, l ∈ t.legs
  let qs := ps.filter fun p => decide (inN p.1 ∨ inN p.2)
  have qmem : ∀ l m, ((l, m) ∈ qs ∨ (m, l) ∈ qs) ↔ a.partner l = some m ∧ Cross (N ++ L) l m ∧ (inN l ∨ inN m) := by
    intro l m
    simp only [qs, List.mem_filter, decide_eq_true_eq]
    rw [← and_assoc, ← h1.exact]
    rw [or_comm (a := inN m), ← or_and_right]
  have qonce : (qs.flatMap fun p => [p.1, p.2]).Nodup :=
    List.Sublist.nodup (List.Sublist.flatMap List.filter_sublist _) h1.once
  have cross2 : ∀ l m, (a.partner l = some m ∧ Cross (N ++ L) l m ∧ (inN l ∨ inN m)) ↔
      (b.partner l = some m ∧ Cross (N ++ M) l m ∧ (inN l ∨ inN m)) := by
    intro l m
    constructor
    · rintro ⟨hp, hc, hn⟩
      rcases id hn with ⟨t, ht, hl⟩ | ⟨t, ht, hl⟩
      · exact ⟨(part t ht l hl).trans hp, (h.cross_outer gL gM part ht hl hp).mpr hc, hn⟩
      · have hp' := partner_symm gL.inv hp
        refine ⟨partner_symm gM.inv ((part t ht m hl).trans hp'), ?_, hn⟩
        exact Cross.symm gM.nodup ((h.cross_outer gL gM part ht hl hp').mpr (Cross.symm gL.nodup hc))
    · rintro ⟨hp, hc, hn⟩
      rcases id hn with ⟨t, ht, hl⟩ | ⟨t, ht, hl⟩
      · exact ⟨(part' t ht l hl).trans hp, (h.symm.cross_outer gM gL part' ht hl hp).mpr hc, hn⟩
      · have hp' := partner_symm gM.inv hp
        refine ⟨partner_symm gL.inv ((part' t ht m hl).trans hp'), ?_, hn⟩
        exact Cross.symm gL.nodup ((h.symm.cross_outer gM gL part' ht hl hp').mpr (Cross.symm gM.nodup hc))
  -- the bonds of the whole are the outer ones and those of the part
  have glue : ∀ (c : Store) (K : List (Tensor R)) (rs : List (LegId × LegId)), GoodNet c (N ++ K) → IsBondList c K rs →
      (∀ l m, ((l, m) ∈ qs ∨ (m, l) ∈ qs) ↔ c.partner l = some m ∧ Cross (N ++ K) l m ∧ (inN l ∨ inN m)) →
      IsBondList c (N ++ K) (qs ++ rs) := by
    intro c K rs gK hr hq
    constructor
    · rw [List.flatMap_append, List.nodup_append]
      refine ⟨qonce, hr.once, ?_⟩
      rintro x hx y hy rfl
      obtain ⟨p, hp, hx⟩ := mem_pairLegs.mp hx
      obtain ⟨q, hq', hy⟩ := mem_pairLegs.mp hy
      obtain ⟨e1, -, hn⟩ := (hq p.1 p.2).mp (.inl hp)
      obtain ⟨e2, c2⟩ := (hr.exact q.1 q.2).mp (.inl hq')
      obtain ⟨⟨v, hv, hv1⟩, w, hw, hw1⟩ := And.intro c2.1 c2.2
      have e1' := partner_symm gK.inv e1
      have e2' := partner_symm gK.inv e2
      have kk : ∀ z, inN z → ¬ ∃ u ∈ K, z ∈ u.legs := by
        rintro z ⟨t, ht, hz⟩ ⟨u, hu, hzu⟩
        exact gK.part.2 t ht u hu z hz hzu
      have in1 : ∃ u ∈ K, q.1 ∈ u.legs := ⟨v, hv, hv1.1⟩
      have in2 : ∃ u ∈ K, q.2 ∈ u.legs := ⟨w, hw, hw1⟩
      have both : (p.1 = q.1 ∧ p.2 = q.2) ∨ (p.1 = q.2 ∧ p.2 = q.1) := by
        rcases hx with rfl | rfl <;> rcases hy with hy | hy
        · left; rw [hy, e2] at e1; exact ⟨hy, (Option.some.inj e1).symm⟩
        · right; rw [hy, e2'] at e1; exact ⟨hy, (Option.some.inj e1).symm⟩
        · right; rw [hy, e2] at e1'; exact ⟨(Option.some.inj e1').symm, hy⟩
        · left; rw [hy, e2'] at e1'; exact ⟨(Option.some.inj e1').symm, hy⟩
      rcases both with ⟨x1, x2⟩ | ⟨x1, x2⟩ <;> rcases hn with hn | hn
      · exact kk _ hn (x1 ▸ in1)
      · exact kk _ hn (x2 ▸ in2)
      · exact kk _ hn (x1 ▸ in2)
      · exact kk _ hn (x2 ▸ in1)
    · intro l m
      have hq := hq l m
      have hr := hr.exact l m
      simp only [List.mem_append]
      have hor : (((l, m) ∈ qs ∨ (l, m) ∈ rs) ∨ ((m, l) ∈ qs ∨ (m, l) ∈ rs)) ↔
          ((l, m) ∈ qs ∨ (m, l) ∈ qs) ∨ ((l, m) ∈ rs ∨ (m, l) ∈ rs) := by tauto
      rw [hor, hq, hr]
      constructor
      · rintro (⟨x, y, -⟩ | ⟨x, y⟩)
        · exact ⟨x, y⟩
        · exact ⟨x, y.mono⟩
      · rintro ⟨x, y⟩
        by_cases hn : inN l ∨ inN m
        · exact .inl ⟨x, y, hn⟩
        · right
          refine ⟨x, ?_⟩
          obtain ⟨⟨t, ht, hl, hm⟩, u, hu, hmu⟩ := y
          push Not at hn
          rcases List.mem_append.mp ht with ht | ht
          · exact absurd ⟨t, ht, hl⟩ hn.1
          · rcases List.mem_append.mp hu with hu | hu
            · exact absurd ⟨u, hu, hmu⟩ hn.2
            · exact ⟨⟨t, ht, hl, hm⟩, u, hu, hmu⟩
  have bL := glue a L psL gL hL qmem
  have bM := glue b M psM gM hM fun l m => (qmem l m).trans (cross2 l m)
  rw [netSum_unique gL.inv h1 bL, netSum_unique gM.inv h2 bM]
  -- the entries outside do not depend on the inner bonds
  have fac : ∀ (c : Store) (K : List (Tensor R)) (rs : List (LegId × LegId)), GoodNet c (N ++ K) → IsBondList c K rs →
      ∀ τ, sumBonds c.dim rs (fun ρ => ((N ++ K).map fun t => entry t ρ).prod) τ =
        (N.map fun t => entry t τ).prod * netSum c K rs τ := by
    intro c K rs gK hr τ
    unfold netSum
    simp only [List.map_append, List.prod_append]
    rw [sumBonds_mul_left]
    intro idx _
    apply prod_entries_congr
    intro t ht l hl
    have nin : ¬ ∃ u ∈ K, l ∈ u.legs := by
      rintro ⟨u, hu, hlu⟩
      exact gK.part.2 t ht u hu l hl hlu
    apply assign_other
    · intro hm
      obtain ⟨p, hp, rfl⟩ := List.mem_map.mp hm
      obtain ⟨-, ⟨u, hu, hlu, -⟩, -⟩ := (hr.exact p.1 p.2).mp (.inl hp)
      exact nin ⟨u, hu, hlu⟩
    · intro hm
      obtain ⟨p, hp, rfl⟩ := List.mem_map.mp hm
      obtain ⟨-, -, u, hu, hlu⟩ := (hr.exact p.1 p.2).mp (.inl hp)
      exact nin ⟨u, hu, hlu⟩
  unfold netSum
  rw [sumBonds_append, sumBonds_append, sumBonds_dim (dim := a.dim) (dim' := b.dim)]
  · apply sumBonds_congr
    intro idx hv
    rw [fac a L psL gL hL, fac b M psM gM hM]
    congr 1
    apply h.value psL psM hL hM
    intro l hl
    have : InRange a.dim [l] (assign σ qs idx) := by
      apply assign_inRange a.dim [l] σ qs idx hv
      · intro p hp
        exact partner_dim gL.inv ((qmem p.1 p.2).mp (.inl hp)).1
      · intro x hx n1 n2
        rw [List.mem_singleton] at hx
        subst hx
        apply hσ
        obtain ⟨⟨t, ht, hlt⟩, h3⟩ := id hl
        refine ⟨⟨t, by simp [ht], hlt⟩, fun m hm hc => ?_⟩
        by_cases hn : inN m
        · rcases (qmem x m).mpr ⟨hm, hc, .inr hn⟩ with h4 | h4
          · exact n1 (List.mem_map.mpr ⟨_, h4, rfl⟩)
          · exact n2 (List.mem_map.mpr ⟨_, h4, rfl⟩)
        · refine h3 m hm ?_
          obtain ⟨c1, u, hu, hmu⟩ := (cross_iff gL.nodup (t := t) (by simp [ht]) hlt).mp hc
          refine (cross_iff h.good.nodup ht hlt).mpr ⟨c1, ?_⟩
          rcases List.mem_append.mp hu with hu | hu
          · exact absurd ⟨u, hu, hmu⟩ hn
          · exact ⟨u, hu, hmu⟩
    exact this l (by simp)
  · intro p hp
    obtain ⟨e1, hc, hn⟩ := (qmem p.1 p.2).mp (.inl hp)
    rcases id hn with ⟨t, ht, hl⟩ | ⟨t, ht, hl⟩
    · exact dims t ht _ hl
    · have e1' := partner_symm gL.inv e1
      rw [partner_dim gL.inv e1', partner_dim gM.inv ((part t ht _ hl).trans e1')]
      exact dims t ht _ hl

end SameValue
end CTL
