import Verif.Lemmas.FTN

/-! Labelled arrays that differ in the order of their labels only. -/

namespace CTL
variable {R : Type}

/-- The same array, with the labels in another order. -/
structure LArr.Same (A B : LArr R) : Prop where
  labels : A.labels.Perm B.labels
  dims : ∀ x ∈ A.labels, A.dim x = B.dim x
  val : ∀ τ, A.InRange τ → A.val τ = B.val τ

namespace LArr.Same
variable {A B : LArr R}

theorem refl (A : LArr R) : A.Same A := ⟨.refl _, fun _ _ => rfl, fun _ _ => rfl⟩

theorem mem (h : A.Same B) {x : String} : x ∈ A.labels ↔ x ∈ B.labels := h.labels.mem_iff

theorem nodup (h : A.Same B) : A.labels.Nodup ↔ B.labels.Nodup := h.labels.nodup_iff

theorem relabel (h : A.Same B) {f : String → String} (nd : (B.labels.map f).Nodup) :
    (A.relabel f).Same (B.relabel f) := by
  have nd' : (A.labels.map f).Nodup := (h.labels.map f).nodup_iff.mpr nd
  refine ⟨h.labels.map f, ?_, ?_⟩
  · intro z hz
    obtain ⟨x, hx, rfl⟩ := List.mem_map.mp hz
    rw [A.relabel_dim nd' hx, B.relabel_dim nd (h.mem.mp hx), h.dims x hx]
  · intro τ hτ
    refine h.val _ fun x hx => ?_
    have := hτ (f x) (List.mem_map_of_mem hx)
    rwa [A.relabel_dim nd' hx] at this

theorem relabel? (h : A.Same B) {f : String → String} {B' : LArr R} (e : B.relabel? f = some B') :
    ∃ A', A.relabel? f = some A' ∧ A'.Same B' := by
  obtain ⟨nd, rfl⟩ := LArr.relabel?_some e
  refine ⟨A.relabel f, ?_, h.relabel nd⟩
  unfold LArr.relabel?
  rw [if_pos ((h.labels.map f).nodup_iff.mpr nd)]

theorem join [Zero R] [Add R] (h : A.Same B) {x y : String} (hx : x ∈ A.labels) (e : A.dim x = A.dim y) :
    (A.join x y).Same (B.join x y) := by
  refine ⟨h.labels.filter _, fun z hz => h.dims z (List.mem_filter.mp hz).1, ?_⟩
  intro τ hτ
  unfold LArr.join
  simp only
  rw [h.dims x hx]
  congr 1
  refine List.map_congr_left fun k hk => ?_
  refine h.val _ fun z hz => ?_
  rw [List.mem_range, ← h.dims x hx] at hk
  show (if z = x ∨ z = y then k else τ z) < A.dim z
  split
  · rename_i hc
    rcases hc with rfl | rfl
    · exact hk
    · rwa [← e]
  · rename_i hc
    exact hτ z (List.mem_filter.mpr ⟨hz, by simpa using hc⟩)

theorem fuse (h : A.Same B) {xs : List String} {new : String} (hsub : ∀ x ∈ xs, x ∈ A.labels) (nd : xs.Nodup)
    (hnew : ∀ x ∈ A.labels, x ∉ xs → x ≠ new) : (A.fuse xs new).Same (B.fuse xs new) := by
  have hd : xs.map A.dim = xs.map B.dim := List.map_congr_left fun x hx => h.dims x (hsub x hx)
  refine ⟨(h.labels.filter _).cons _, ?_, ?_⟩
  · intro z hz
    unfold LArr.fuse
    simp only [hd]
    split
    · rfl
    · rename_i hc
      rcases List.mem_cons.mp hz with rfl | hz
      · exact absurd rfl hc
      · exact h.dims z (List.mem_filter.mp hz).1
  · intro τ hτ
    unfold LArr.fuse
    simp only [hd]
    refine h.val _ fun z hz => ?_
    have hk : τ new < (xs.map A.dim).prod := by
      have := hτ new (List.mem_cons_self ..)
      simpa [LArr.fuse] using this
    show (if z ∈ xs then _ else _) < A.dim z
    split
    · rename_i hzx
      have hi : xs.idxOf z < (xs.map A.dim).length := by simpa using List.idxOf_lt_length_of_mem hzx
      have := digits_lt (xs.map A.dim) (τ new) hk _ hi
      rw [← hd]
      refine lt_of_lt_of_eq this ?_
      simp [List.getElem_idxOf (List.idxOf_lt_length_of_mem hzx)]
    · rename_i hzx
      have := hτ z (List.mem_cons_of_mem _ (List.mem_filter.mpr ⟨hz, by simpa using hzx⟩))
      have hz' : z ≠ new := hnew z hz hzx
      simpa [LArr.fuse, hz'] using this

/-- A tensor is `A` if it is an array that is the same as `A`. -/
theorem represents [Zero R] {st : Store} {t : Tensor R} (h : A.Same B) (r : Represents st t A) : Represents st t B := by
  refine ⟨h.nodup.mp r.nodup, r.labels.trans h.labels, fun l hl => ?_, fun τ hτ => ?_⟩
  · rw [r.dims l hl, h.dims _ (r.mem hl)]
  · have : A.InRange τ := fun x hx => by
      rw [h.dims x hx]
      exact hτ x (h.mem.mp hx)
    rw [r.val τ this, h.val τ this]

end LArr.Same

/-- Named arrays: the same names with the same arrays, in any order. -/
def SameInputs (As Bs : List (String × LArr R)) : Prop :=
  ∃ Cs, As.Perm Cs ∧ List.Forall₂ (fun p q => p.1 = q.1 ∧ p.2.Same q.2) Cs Bs

theorem mapM_perm {α β : Type} {f : α → Option β} {l l' : List α} (h : l.Perm l') :
    ∀ {r' : List β}, l'.mapM f = some r' → ∃ r, l.mapM f = some r ∧ r.Perm r' := by
  induction h with
  | nil =>
    intro r' e
    exact ⟨r', e, .refl _⟩
  | cons x _ ih =>
    intro r' e
    rw [List.mapM_cons] at e
    rcases hx : f x with _ | y
    · simp [hx] at e
    · rename_i l l' _
      rcases hl : l'.mapM f with _ | r
      · simp [hx, hl] at e
      · simp only [hx, hl, Option.bind_eq_bind, Option.bind_some, Option.pure_def, Option.some.injEq] at e
        subst e
        obtain ⟨s, e1, e2⟩ := ih hl
        exact ⟨y :: s, by simp [List.mapM_cons, hx, e1], e2.cons y⟩
  | swap x y l =>
    intro r' e
    simp only [List.mapM_cons] at e ⊢
    rcases hx : f x with _ | x' <;> rcases hy : f y with _ | y' <;> rcases hl : l.mapM f with _ | r <;>
      simp [hx, hy, hl] at e ⊢
    subst e
    exact .swap ..
  | trans _ _ ih1 ih2 =>
    intro r' e
    obtain ⟨r2, e2, p2⟩ := ih2 e
    obtain ⟨r1, e1, p1⟩ := ih1 e2
    exact ⟨r1, e1, p1.trans p2⟩

theorem tagOne_same {p q q' : String × LArr R} (h : p.1 = q.1 ∧ p.2.Same q.2) (e : tagOne q = some q') :
    ∃ p', tagOne p = some p' ∧ p'.1 = q'.1 ∧ p'.2.Same q'.2 := by
  unfold tagOne at e ⊢
  split at e
  · rename_i hc
    rcases hB : q.2.relabel? (withTag q.1) with _ | B
    · simp [hB] at e
    · obtain ⟨A, eA, s⟩ := h.2.relabel? hB
      simp only [hB, Option.map_some, Option.some.injEq] at e
      subst e
      rw [if_pos fun x hx => hc x (h.2.mem.mp hx), h.1, eA]
      exact ⟨_, rfl, rfl, s⟩
  · cases e

theorem mapM_tag_same : ∀ {As Bs Bs' : List (String × LArr R)}, List.Forall₂ (fun p q => p.1 = q.1 ∧ p.2.Same q.2) As Bs →
    Bs.mapM tagOne = some Bs' →
    ∃ As', As.mapM tagOne = some As' ∧ List.Forall₂ (fun p q => p.1 = q.1 ∧ p.2.Same q.2) As' Bs'
  | [], [], Bs', .nil, e => ⟨[], rfl, by cases e; exact .nil⟩
  | p :: As, q :: Bs, Bs', .cons h t, e => by
    rw [List.mapM_cons] at e
    rcases hq : tagOne q with _ | q'
    · simp [hq] at e
    · rcases hB : Bs.mapM tagOne with _ | r
      · simp [hq, hB] at e
      · simp only [hq, hB, Option.bind_eq_bind, Option.bind_some, Option.pure_def, Option.some.injEq] at e
        subst e
        obtain ⟨p', e1, s⟩ := tagOne_same h hq
        obtain ⟨r', e2, s2⟩ := mapM_tag_same t hB
        exact ⟨p' :: r', by simp [List.mapM_cons, e1, e2], .cons s s2⟩

theorem SameInputs.tagged {As Bs Bs' : List (String × LArr R)} (h : SameInputs As Bs) (e : Bs.mapM tagOne = some Bs') :
    ∃ As', As.mapM tagOne = some As' ∧ SameInputs As' Bs' := by
  obtain ⟨Cs, hp, hf⟩ := h
  obtain ⟨Cs', e1, f1⟩ := mapM_tag_same hf e
  obtain ⟨As', e2, p2⟩ := mapM_perm hp e1
  exact ⟨As', e2, Cs', p2, f1⟩

theorem SameInputs.hasAxis {As Bs : List (String × LArr R)} (h : SameInputs As Bs) {a x : String} (hB : HasAxis Bs a x) :
    HasAxis As a x := by
  obtain ⟨Cs, hp, hf⟩ := h
  obtain ⟨q, hq, rfl, hx⟩ := hB
  obtain ⟨p, hpC, e, s⟩ : ∃ p ∈ Cs, p.1 = q.1 ∧ p.2.Same q.2 := by
    clear hp hx
    induction hf with
    | nil => cases hq
    | cons hpq _ ih =>
      rcases List.mem_cons.mp hq with rfl | hq
      · exact ⟨_, List.mem_cons_self .., hpq⟩
      · obtain ⟨p, m, r⟩ := ih hq
        exact ⟨p, List.mem_cons_of_mem _ m, r⟩
  exact ⟨p, hp.mem_iff.mpr hpC, e, s.mem.mpr hx⟩

theorem prod_same_perm [CommSemiring R] {As Bs : List (LArr R)} (h : As.Perm Bs) (nd : (LArr.prod Bs).labels.Nodup) :
    (LArr.prod As).Same (LArr.prod Bs) := by
  have hl : (LArr.prod As).labels.Perm (LArr.prod Bs).labels := h.flatMap_right _
  refine ⟨hl, ?_, ?_⟩
  · intro x hx
    obtain ⟨A, hA, hxA⟩ := List.mem_flatMap.mp hx
    rw [prod_dim (hl.nodup_iff.mpr nd) A hA x hxA, prod_dim nd A (h.mem_iff.mp hA) x hxA]
  · intro τ _
    exact (h.map _).prod_eq

theorem prod_same_forall [CommSemiring R] {As Bs : List (LArr R)} (h : List.Forall₂ LArr.Same As Bs)
    (nd : (LArr.prod Bs).labels.Nodup) : (LArr.prod As).Same (LArr.prod Bs) := by
  have hl : (LArr.prod As).labels.Perm (LArr.prod Bs).labels := by
    clear nd
    unfold LArr.prod
    simp only
    induction h with
    | nil => exact .refl _
    | cons s _ ih =>
      rw [List.flatMap_cons, List.flatMap_cons]
      exact s.labels.append ih
  have hA := hl.nodup_iff.mpr nd
  have get : ∀ A ∈ As, ∃ B ∈ Bs, A.Same B := by
    clear nd hl hA
    induction h with
    | nil => exact fun _ h => by cases h
    | cons s _ ih =>
      intro A hA
      rcases List.mem_cons.mp hA with rfl | hA
      · exact ⟨_, List.mem_cons_self .., s⟩
      · obtain ⟨B, m, r⟩ := ih A hA
        exact ⟨B, List.mem_cons_of_mem _ m, r⟩
  refine ⟨hl, ?_, ?_⟩
  · intro x hx
    obtain ⟨A, hAm, hxA⟩ := List.mem_flatMap.mp hx
    obtain ⟨B, hBm, s⟩ := get A hAm
    rw [prod_dim hA A hAm x hxA, prod_dim nd B hBm x (s.mem.mp hxA), s.dims x hxA]
  · intro τ hτ
    have hr : ∀ A ∈ As, A.InRange τ := fun A hAm x hxA => by
      have := hτ x (List.mem_flatMap.mpr ⟨A, hAm, hxA⟩)
      rwa [prod_dim hA A hAm x hxA] at this
    clear get hA nd hl hτ
    unfold LArr.prod
    simp only
    induction h with
    | nil => rfl
    | cons s _ ih =>
      rw [List.map_cons, List.map_cons, List.prod_cons, List.prod_cons, s.val τ (hr _ (List.mem_cons_self ..)),
        ih fun A h => hr A (List.mem_cons_of_mem _ h)]

theorem SameInputs.prod [CommSemiring R] {As Bs : List (String × LArr R)} (h : SameInputs As Bs)
    (nd : (LArr.prod (Bs.map Prod.snd)).labels.Nodup) :
    (LArr.prod (As.map Prod.snd)).Same (LArr.prod (Bs.map Prod.snd)) := by
  obtain ⟨Cs, hp, hf⟩ := h
  have f2 : List.Forall₂ LArr.Same (Cs.map Prod.snd) (Bs.map Prod.snd) := by
    rw [List.forall₂_map_left_iff, List.forall₂_map_right_iff]
    exact hf.imp fun _ _ h => h.2
  have s2 := prod_same_forall f2 nd
  have s1 := prod_same_perm (hp.map Prod.snd) (s2.nodup.mpr nd)
  refine ⟨s1.labels.trans s2.labels, fun x hx => (s1.dims x hx).trans (s2.dims x (s1.mem.mp hx)), fun τ hτ => ?_⟩
  rw [s1.val τ hτ]
  refine s2.val τ fun x hx => ?_
  rw [← s1.dims x (s1.mem.mpr hx)]
  exact hτ x (s1.mem.mpr hx)

theorem joined_same [Zero R] [Add R] {As Bs : List (String × LArr R)} (h : SameInputs As Bs) :
    ∀ (ls : List ((String × String) × (String × String))) {A B B' : LArr R}, A.Same B → joined Bs B ls = some B' →
      ∃ A', joined As A ls = some A' ∧ A'.Same B'
  | [], A, B, B', s, e => ⟨A, rfl, by cases e; exact s⟩
  | ((a, x), (b, y)) :: ls, A, B, B', s, e => by
    unfold joined at e ⊢
    split at e
    · rename_i hc
      obtain ⟨h1, h2, h3, h4, h5, h6⟩ := hc
      have hx := s.mem.mpr h4
      have hy := s.mem.mpr h5
      have hd : A.dim x = A.dim y := by rw [s.dims x hx, s.dims y hy, h6]
      rw [if_pos ⟨h1, h.hasAxis h2, h.hasAxis h3, hx, hy, hd⟩]
      exact joined_same h ls (s.join hx hd) e
    · cases e

theorem fused_same : ∀ (fs : List (List OutLabel × String)) {A B B' : LArr R}, A.Same B → fused B fs = some B' →
    ∃ A', fused A fs = some A' ∧ A'.Same B'
  | [], A, B, B', s, e => ⟨A, rfl, by cases e; exact s⟩
  | (os, n) :: fs, A, B, B', s, e => by
    unfold fused at e ⊢
    simp only at e ⊢
    split at e
    · rename_i hc
      obtain ⟨h1, h2, h3, h4⟩ := hc
      have h3' : ∀ x ∈ os.map OutLabel.meant, x ∈ A.labels := fun x hx => s.mem.mpr (h3 x hx)
      have h4' : ∀ x ∈ A.labels, x ∉ os.map OutLabel.meant → x ≠ withTag "res" n := fun x hx => h4 x (s.mem.mp hx)
      rw [if_pos ⟨h1, h2, h3', h4'⟩]
      exact fused_same fs (s.fuse h3' h2 h4') e
    · cases e

theorem renamedAfter_same : ∀ (rs : List (String × String × String)) {A B B' : LArr R}, A.Same B →
    renamedAfter B rs = some B' → ∃ A', renamedAfter A rs = some A' ∧ A'.Same B'
  | [], A, B, B', s, e => ⟨A, rfl, by cases e; exact s⟩
  | (n, x, y) :: rs, A, B, B', s, e => by
    unfold renamedAfter at e ⊢
    rcases hB : B.relabel? (renameTo (withTag n x) (withTag n y)) with _ | C
    · simp [hB] at e
    · obtain ⟨D, eD, sD⟩ := s.relabel? hB
      rw [hB, Option.bind_some] at e
      rw [eD, Option.bind_some]
      exact renamedAfter_same rs sD e

/-- The meaning of a network without renames before contraction does not depend on the order of inputs and labels. -/
theorem meaning_same [CommSemiring R] {f : FTN} (hf : f.changeNameBefore = []) {b : Bool} {As Bs : List (String × LArr R)}
    (h : SameInputs As Bs) {B : LArr R} (e : f.meaning b Bs = some B) : ∃ A, f.meaning b As = some A ∧ A.Same B := by
  unfold FTN.meaning at e ⊢
  simp only [hf, renamed, Option.bind_eq_bind, Option.bind_some] at e ⊢
  rcases hC : Bs.mapM tagOne with _ | Cs
  · simp [hC] at e
  · obtain ⟨Ds, eD, sD⟩ := h.tagged hC
    simp only [hC, eD, Option.bind_some] at e ⊢
    split at e
    · cases e
    · rename_i nd
      rw [not_not] at nd
      have sP := sD.prod nd
      rw [if_neg (by rw [not_not]; exact sP.nodup.mpr nd)]
      rcases hJ : joined Cs (LArr.prod (Cs.map Prod.snd)) f.links with _ | J
      · simp [hJ] at e
      · obtain ⟨J', eJ, sJ⟩ := joined_same sD f.links sP hJ
        simp only [hJ, eJ, Option.bind_some] at e ⊢
        rcases hF : fused J f.outProductAfter with _ | F
        · simp [hF] at e
        · obtain ⟨F', eF, sF⟩ := fused_same f.outProductAfter sJ hF
          simp only [hF, eF, Option.bind_some] at e ⊢
          rcases hG : renamedAfter F f.changeNameAfter with _ | G
          · simp [hG] at e
          · obtain ⟨G', eG, sG⟩ := renamedAfter_same f.changeNameAfter sF hG
            simp only [hG, eG, Option.bind_some] at e ⊢
            cases b with
            | false =>
              cases e
              exact ⟨G', rfl, sG⟩
            | true => exact sG.relabel? e

end CTL
