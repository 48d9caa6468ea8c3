import Verif.Lemmas.LArr
import Verif.Lemmas.CopyOne
import Verif.Lemmas.Frame
import Verif.Lemmas.MakeGraph
import Verif.Props.Auto
import Verif.Props.Lists
import Verif.Props.Link

/-! From the arguments of `FTN.contract` to the linked copies. -/

namespace CTL
variable {R : Type}

/-- The local copies of a contraction that started with the store `st0`. -/
structure Locals (st0 st : Store) (d : List (String × Tensor R)) : Prop where
  wf : WFStore st
  keys : (d.map Prod.fst).Nodup
  nodup : (d.flatMap fun p => p.2.legs).Nodup
  ids : (d.map fun p => p.2.id).Nodup
  idge : ∀ p ∈ d, st0.nextTensor ≤ p.2.id
  owner : ∀ p ∈ d, ∀ l ∈ p.2.legs, (st.leg l).tensor = some p.2.id
  range : ∀ p ∈ d, ∀ l ∈ p.2.legs, st0.nextLeg ≤ l ∧ l < st.nextLeg
  good : ∀ p ∈ d, GoodTensor st p.2
  legs : ∀ p ∈ d, p.2.legs ≠ []
  pos : ∀ p ∈ d, ∀ l ∈ p.2.legs, st.dim l ≠ 0
  le : st0.nextLeg ≤ st.nextLeg
  old : InputsKept st0 st

/-- The copies are the arrays `As`, in the same order and with the same names. -/
def Copies [Zero R] (st : Store) (d : List (String × Tensor R)) (As : List (String × LArr R)) : Prop :=
  List.Forall₂ (fun p q => p.1 = q.1 ∧ Represents st p.2 q.2) d As

theorem flatMap_disjoint {α β : Type} {f : α → List β} : ∀ {l : List α}, (l.flatMap f).Nodup → ∀ {p q : α}, p ∈ l → q ∈ l →
    p ≠ q → ∀ x ∈ f p, x ∉ f q
  | [], _, _, _, h, _, _ => by cases h
  | a :: l, hn, p, q, hp, hq, hne => by
    rw [List.flatMap_cons, List.nodup_append] at hn
    obtain ⟨_, h2, h3⟩ := hn
    intro x hx hx'
    rcases List.mem_cons.mp hp with ep | hp <;> rcases List.mem_cons.mp hq with eq | hq
    · exact hne (ep.trans eq.symm)
    · exact h3 x (ep ▸ hx) x (List.mem_flatMap.mpr ⟨q, hq, hx'⟩) rfl
    · exact h3 x (eq ▸ hx') x (List.mem_flatMap.mpr ⟨p, hp, hx⟩) rfl
    · exact flatMap_disjoint h2 hp hq hne x hx hx'

theorem Copies.congr [Zero R] {st st' : Store} {d : List (String × Tensor R)} {As : List (String × LArr R)}
    (h : Copies st d As) (hl : ∀ p ∈ d, ∀ l ∈ p.2.legs, st'.name l = st.name l ∧ st'.dim l = st.dim l) : Copies st' d As := by
  induction h with
  | nil => exact .nil
  | cons e _ ih =>
    refine .cons ⟨e.1, e.2.congr (fun l h => (hl _ (by simp) l h).1) (fun l h => (hl _ (by simp) l h).2)⟩ (ih ?_)
    intro p hp
    exact hl p (by simp [hp])

/-- The copies. -/
theorem copyDict_ok [Zero R] [One R] (rand : List Nat → List Nat → R) : ∀ (dict : List (String × Tensor R)) (st : Store)
    (As : List (String × LArr R)), WFStore st → (dict.map Prod.fst).Nodup →
    (∀ p ∈ dict, GoodTensor st p.2) → (∀ p ∈ dict, p.2.legs ≠ []) →
    (∀ p ∈ dict, ∀ l ∈ p.2.legs, l < st.nextLeg) → (∀ p ∈ dict, ∀ l ∈ p.2.legs, st.dim l ≠ 0) → Copies st dict As →
    ∃ st' d, copyDict rand st dict = .ok (st', d) ∧ Locals st st' d ∧ Copies st' d As ∧
      d.map (fun p => (p.1, p.2.diag)) = dict.map (fun p => (p.1, p.2.diag)) ∧ ∀ p ∈ d, ∀ l ∈ p.2.legs, (st'.leg l).bond = none
  | [], st, As, w, _, _, _, _, _, hr => by
    cases hr
    refine ⟨st, [], rfl, ?_, .nil, rfl, by simp⟩
    exact ⟨w, by simp, by simp, by simp, by simp, by simp, by simp, by simp, by simp, by simp, le_rfl, ⟨fun _ _ => rfl, fun _ _ => rfl⟩⟩
  | (n, t) :: dict, st, _, w, hk, hg, hl, hf, hp, .cons (b := a) (l₂ := As) h hr => by
    have g := hg (n, t) (by simp)
    obtain ⟨st1, t1, e1, c1, c2, c3, c4, c5, c6, c7, c8, c9, c10, c11, c12⟩ := copy_good rand g (hl (n, t) (by simp)) w
    rw [List.map_cons, List.nodup_cons] at hk
    have old1 : ∀ p ∈ dict, ∀ l ∈ p.2.legs, st1.leg l = st.leg l := fun p hp l hl => c7.leg l (hf p (by simp [hp]) l hl)
    have dim1 : ∀ p ∈ dict, ∀ l ∈ p.2.legs, st1.dim l = st.dim l := fun p hp l hl => by
      unfold Store.dim; rw [old1 p hp l hl]
    have name1 : ∀ p ∈ dict, ∀ l ∈ p.2.legs, st1.name l = st.name l := fun p hp l hl => by
      unfold Store.name; rw [old1 p hp l hl]
    have hr' : Copies st dict As := hr
    obtain ⟨st2, d2, e2, L, r2, k2, f2⟩ := copyDict_ok rand dict st1 As c3 hk.2
      (fun p hp => (hg p (by simp [hp])).congr_dim (dim1 p hp))
      (fun p hp => hl p (by simp [hp])) (fun p hp l hl => (hf p (by simp [hp]) l hl).trans_le c6)
      (fun p hp' l hl => by rw [dim1 p hp' l hl]; exact hp p (by simp [hp']) l hl)
      (hr'.congr fun p hp l hl => ⟨name1 p hp l hl, dim1 p hp l hl⟩)
    have keep : ∀ l ∈ t1.legs, st2.leg l = st1.leg l := fun l hl => L.old.leg l (c8 l hl).2
    have keepd : ∀ l ∈ t1.legs, st2.dim l = st1.dim l := fun l hl => by unfold Store.dim; rw [keep l hl]
    have keepn : ∀ l ∈ t1.legs, st2.name l = st1.name l := fun l hl => by unfold Store.name; rw [keep l hl]
    refine ⟨st2, (n, t1) :: d2, ?_, ?_, ?_, ?_, ?_⟩
    · unfold copyDict
      rw [e1]
      simp only [bind, Except.bind, e2, pure, Except.pure]
    · refine ⟨L.wf, ?_, ?_, ?_, ?_, ?_, ?_, ?_, ?_, ?_, c6.trans L.le, ?_⟩
      · have k3 : d2.map Prod.fst = dict.map Prod.fst := by
          have := congrArg (List.map Prod.fst) k2
          rwa [List.map_map, List.map_map] at this
        rw [List.map_cons, k3, List.nodup_cons]
        exact hk
      · rw [List.flatMap_cons, List.nodup_append]
        refine ⟨c1.nodup, L.nodup, ?_⟩
        rintro x hx _ hy rfl
        obtain ⟨p, hp, hy⟩ := List.mem_flatMap.mp hy
        exact absurd (c8 x hx).2 (not_lt.mpr (L.range p hp x hy).1)
      · rw [List.map_cons, List.nodup_cons]
        refine ⟨?_, L.ids⟩
        intro hm
        obtain ⟨p, hp, e⟩ := List.mem_map.mp hm
        have := L.idge p hp
        rw [e, c5] at this
        simp only [c4] at this
        omega
      · intro p hp
        rcases List.mem_cons.mp hp with rfl | hp
        · exact c4.ge
        · have := L.idge p hp
          omega
      · intro p hp l hl
        rcases List.mem_cons.mp hp with rfl | hp
        · rw [keep l hl]
          exact (c9 l hl).2
        · exact L.owner p hp l hl
      · intro p hp l hl
        rcases List.mem_cons.mp hp with rfl | hp
        · exact ⟨(c8 l hl).1, (c8 l hl).2.trans_le L.le⟩
        · exact ⟨c6.trans (L.range p hp l hl).1, (L.range p hp l hl).2⟩
      · intro p hp
        rcases List.mem_cons.mp hp with rfl | hp
        · exact c1.congr_dim keepd
        · exact L.good p hp
      · intro p hp'
        rcases List.mem_cons.mp hp' with rfl | hp'
        · intro e
          simp only at e
          rw [e] at c10
          exact hl (n, t) (by simp) (List.map_eq_nil_iff.mp c10.symm)
        · exact L.legs p hp'
      · intro p hp' l hl'
        rcases List.mem_cons.mp hp' with rfl | hp'
        · rw [keepd l hl']
          have : st1.dim l ∈ t.legs.map st.dim := by rw [← c10]; exact List.mem_map_of_mem hl'
          obtain ⟨m, hm, e⟩ := List.mem_map.mp this
          rw [← e]
          exact hp (n, t) (by simp) m hm
        · exact L.pos p hp' l hl'
      · exact c7.trans c6 L.old
    · refine .cons ⟨h.1, ?_⟩ r2
      exact (h.2.copy c2 c10 c11 c12).congr keepn keepd
    · rw [List.map_cons, List.map_cons, k2]
      simp only [c2]
    · intro p hp l hl
      rcases List.mem_cons.mp hp with rfl | hp
      · rw [keep l hl]
        exact (c9 l hl).1
      · exact f2 p hp l hl

/-- Renaming legs of the copies keeps all but the names. -/
theorem Locals.rename {st0 st st' : Store} {d : List (String × Tensor R)} (L : Locals st0 st d) {legs : List LegId}
    (s : SameButNames st st' legs) (hl : ∀ l ∈ legs, ∃ p ∈ d, l ∈ p.2.legs) : Locals st0 st' d := by
  refine ⟨s.wf L.wf, L.keys, L.nodup, L.ids, L.idge, ?_, ?_, ?_, L.legs, ?_, ?_, ?_⟩
  · intro p hp l h
    rw [s.tensorOf]
    exact L.owner p hp l h
  · intro p hp l h
    rw [s.2.2.2.1]
    exact L.range p hp l h
  · intro p hp
    exact (L.good p hp).congr_dim fun l _ => s.dim l
  · intro p hp l h
    rw [s.dim]
    exact L.pos p hp l h
  · rw [s.2.2.2.1]
    exact L.le
  · refine ⟨fun l h => ?_, fun l h => (s.partner l).trans (L.old.partner l h)⟩
    rw [s.2.1 l, L.old.leg l h]
    intro hm
    obtain ⟨p, hp, hm⟩ := hl l hm
    exact absurd h (not_lt.mpr (L.range p hp l hm).1)

theorem Locals.unique {st0 st : Store} {d : List (String × Tensor R)} (L : Locals st0 st d) {p q : String × Tensor R}
    (hp : p ∈ d) (hq : q ∈ d) (e : p.1 = q.1) : p = q := List.inj_on_of_nodup_map L.keys hp hq e

theorem Locals.disjoint {st0 st : Store} {d : List (String × Tensor R)} (L : Locals st0 st d) {p q : String × Tensor R}
    (hp : p ∈ d) (hq : q ∈ d) (e : p.1 ≠ q.1) : ∀ l ∈ p.2.legs, l ∉ q.2.legs :=
  flatMap_disjoint L.nodup hp hq fun h => e (h ▸ rfl)

theorem mapM_option {α β : Type} {f : α → Option β} : ∀ {l : List α} {r : List β}, l.mapM f = some r →
    List.Forall₂ (fun a b => f a = some b) l r
  | [], r, h => by
    rw [List.mapM_nil] at h
    cases Option.some.inj h
    exact .nil
  | a :: l, r, h => by
    rw [List.mapM_cons] at h
    simp only [bind, Option.bind_eq_some_iff, pure, Option.some.injEq] at h
    obtain ⟨b, hb, bs, hbs, rfl⟩ := h
    exact .cons hb (mapM_option hbs)

/-- Relabelling every copy according to its name. -/
theorem Copies.relabel [Zero R] {st st' : Store} : ∀ {d : List (String × Tensor R)} {As Bs : List (String × LArr R)},
    Copies st d As → (F : String → String → String) →
    (∀ p ∈ d, ∀ l ∈ p.2.legs, st'.name l = F p.1 (st.name l)) → (∀ p ∈ d, ∀ l ∈ p.2.legs, st'.dim l = st.dim l) →
    List.Forall₂ (fun q q' => q.1 = q'.1 ∧
      (q.2.relabel? (F q.1) = some q'.2 ∨ (q' = q ∧ ∀ x, F q.1 x = x))) As Bs → Copies st' d Bs
  | _, _, _, .nil, _, _, _, .nil => .nil
  | _, _, _, .cons (a := p) h hr, F, hn, hd, .cons k kr => by
    refine .cons ⟨h.1.trans k.1, ?_⟩ (Copies.relabel hr F (fun p hp => hn p (by simp [hp])) (fun p hp => hd p (by simp [hp])) kr)
    have hn := hn p (by simp)
    have hd := hd p (by simp)
    rcases k.2 with e | ⟨e, id⟩
    · rw [← h.1] at e
      exact h.2.relabel hn hd e
    · rw [e]
      refine h.2.congr (fun l hl => ?_) hd
      rw [hn l hl, h.1, id]

theorem Copies.get [Zero R] {st : Store} : ∀ {d : List (String × Tensor R)} {As : List (String × LArr R)}, Copies st d As →
    ∀ p ∈ d, ∃ q ∈ As, p.1 = q.1 ∧ Represents st p.2 q.2
  | _, _, .cons (b := b) h hr, p, hp => by
    rcases List.mem_cons.mp hp with rfl | hp
    · exact ⟨b, by simp, h⟩
    · obtain ⟨q, hq, h⟩ := Copies.get hr p hp
      exact ⟨q, by simp [hq], h⟩

theorem Copies.get' [Zero R] {st : Store} : ∀ {d : List (String × Tensor R)} {As : List (String × LArr R)}, Copies st d As →
    ∀ q ∈ As, ∃ p ∈ d, p.1 = q.1 ∧ Represents st p.2 q.2
  | _, _, .cons (a := a) h hr, p, hp => by
    rcases List.mem_cons.mp hp with rfl | hp
    · exact ⟨a, by simp, h⟩
    · obtain ⟨q, hq, h⟩ := Copies.get' hr p hp
      exact ⟨q, by simp [hq], h⟩

theorem Copies.keys [Zero R] {st : Store} {d : List (String × Tensor R)} {As : List (String × LArr R)} (h : Copies st d As) :
    As.map Prod.fst = d.map Prod.fst := by
  induction h with
  | nil => rfl
  | cons e _ ih => rw [List.map_cons, List.map_cons, ih, e.1]

/-- The renames before the contraction. -/
theorem preRename_ok [Zero R] {st0 : Store} {d : List (String × Tensor R)} : ∀ (rs : List (String × String × String)) (st : Store)
    (As Bs : List (String × LArr R)), Locals st0 st d → Copies st d As → (∀ p ∈ d, ∀ l ∈ p.2.legs, (st.leg l).bond = none) →
    renamed As rs = some Bs →
    ∃ st', preRename d st rs = .ok st' ∧ Locals st0 st' d ∧ Copies st' d Bs ∧ ∀ p ∈ d, ∀ l ∈ p.2.legs, (st'.leg l).bond = none
  | [], st, As, Bs, L, r, f, h => by
    cases Option.some.inj h
    exact ⟨st, rfl, L, r, f⟩
  | (n, x, y) :: rs, st, As, Bs, L, r, f, h => by
    unfold renamed at h
    split at h
    · rename_i hn
      obtain ⟨Cs, hC, hrest⟩ := Option.bind_eq_some_iff.mp h
      rw [r.keys] at hn
      obtain ⟨⟨n', t⟩, hp, e⟩ := List.mem_map.mp hn
      simp only at e
      subst e
      obtain ⟨q, hq, _, rep⟩ := r.get _ hp
      obtain ⟨s, hs⟩ := rep.renameLabel x y
      simp only at s hs
      have L' := L.rename s fun l hl => ⟨_, hp, hl⟩
      have hrel : List.Forall₂ (fun q q' : String × LArr R => q.1 = q'.1 ∧
          (q.2.relabel? ((fun m => if m = n' then renameTo x y else id) q.1) = some q'.2 ∨
            (q' = q ∧ ∀ z, (fun m => if m = n' then renameTo x y else id) q.1 z = z))) As Cs := by
        refine (mapM_option hC).imp ?_
        intro q q' h
        unfold renameOne at h
        split at h
        · rename_i e
          obtain ⟨A, hA, h⟩ := Option.map_eq_some_iff.mp h
          subst h
          simp only [e, if_true]
          exact ⟨trivial, Or.inl hA⟩
        · rename_i e
          cases Option.some.inj h
          simp only [e, if_false]
          exact ⟨trivial, Or.inr ⟨trivial, fun _ => rfl⟩⟩
      have r' := r.relabel (st' := t.renameLabel st x y) (fun m => if m = n' then renameTo x y else id) (by
        intro p hp' l hl
        show _ = (if p.1 = n' then renameTo x y else id) (st.name l)
        by_cases e : p.1 = n'
        · rw [if_pos e]
          have : p = (n', t) := L.unique hp' hp e
          subst this
          exact hs l hl
        · rw [if_neg e]
          exact s.name (L.disjoint hp' hp e l hl)) (fun p _ l _ => s.dim l) hrel
      obtain ⟨st', e, h1, h2, h3⟩ := preRename_ok rs _ Cs Bs L' r' (fun p hp l hl => by rw [s.bondOf]; exact f p hp l hl) hrest
      refine ⟨st', ?_, h1, h2, h3⟩
      unfold preRename
      rw [(dictGet_some L.keys).mpr hp]
      exact e
    · cases h

/-- The effect of the tags on the names. -/
theorem tagAll_ok : ∀ (d : List (String × Tensor R)) (st : Store), (d.flatMap fun p => p.2.legs).Nodup →
    (∀ p ∈ d, ∀ l ∈ p.2.legs, '-' ∉ (st.name l).toList) →
    ∃ st', tagAll st d = .ok st' ∧ SameButNames st st' (d.flatMap fun p => p.2.legs) ∧
      ∀ p ∈ d, ∀ l ∈ p.2.legs, st'.name l = withTag p.1 (st.name l)
  | [], st, _, _ => ⟨st, rfl, sameButNames_refl st _, by simp⟩
  | (n, t) :: d, st, hn, hd => by
    rw [List.flatMap_cons, List.nodup_append] at hn
    obtain ⟨n1, n2, n3⟩ := hn
    obtain ⟨a, b⟩ := C19_addTensorTag t st n n1
    have hd0 := hd (n, t) (by simp)
    obtain ⟨s1, s2⟩ := b hd0
    have ha := a.mpr hd0
    rcases hst : t.addTensorTag st n with ⟨st1, e⟩
    rw [hst] at s1 s2 ha
    simp only at s1 s2 ha
    subst ha
    have nin : ∀ p ∈ d, ∀ l ∈ p.2.legs, l ∉ t.legs := fun p hp l hl hl' =>
      n3 l hl' l (List.mem_flatMap.mpr ⟨p, hp, hl⟩) rfl
    obtain ⟨st', e, k1, k2⟩ := tagAll_ok d st1 n2 (fun p hp l hl => by
      rw [s1.name (nin p hp l hl)]
      exact hd p (by simp [hp]) l hl)
    refine ⟨st', ?_, ?_, ?_⟩
    · unfold tagAll
      rw [hst]
      exact e
    · exact sameButNames_trans (sameButNames_mono s1 (by simp +contextual)) (sameButNames_mono k1 (by simp +contextual))
    · intro p hp l hl
      rcases List.mem_cons.mp hp with rfl | hp
      · have : l ∉ d.flatMap fun p => p.2.legs := fun hm => n3 l hl l hm rfl
        rw [k1.name this, ← String.toList_inj, s2 l hl]
        simp [withTag]
      · rw [k2 p hp l hl, s1.name (nin p hp l hl)]

theorem tagged_ok [Zero R] {st0 st : Store} {d : List (String × Tensor R)} {As Bs : List (String × LArr R)}
    (L : Locals st0 st d) (r : Copies st d As) (f : ∀ p ∈ d, ∀ l ∈ p.2.legs, (st.leg l).bond = none)
    (h : As.mapM tagOne = some Bs) :
    ∃ st', tagAll st d = .ok st' ∧ Locals st0 st' d ∧ Copies st' d Bs ∧ ∀ p ∈ d, ∀ l ∈ p.2.legs, (st'.leg l).bond = none := by
  have hF := mapM_option h
  have hd : ∀ p ∈ d, ∀ l ∈ p.2.legs, '-' ∉ (st.name l).toList := by
    intro p hp l hl
    obtain ⟨q, hq, _, rep⟩ := r.get p hp
    have key : ∀ {As Bs : List (String × LArr R)}, List.Forall₂ (fun a b => tagOne a = some b) As Bs → ∀ q ∈ As,
        ∀ x ∈ q.2.labels, '-' ∉ x.toList := by
      intro As Bs h
      induction h with
      | nil => intro q hq; cases hq
      | cons e _ ih =>
        intro q hq
        rcases List.mem_cons.mp hq with rfl | hq
        · unfold tagOne at e
          split at e
          · assumption
          · cases e
        · exact ih q hq
    exact key hF q hq _ (rep.mem hl)
  obtain ⟨st', e, s, hs⟩ := tagAll_ok d st L.nodup hd
  refine ⟨st', e, L.rename s fun l hl => List.mem_flatMap.mp hl, ?_, fun p hp l hl => by rw [s.bondOf]; exact f p hp l hl⟩
  refine r.relabel withTag hs (fun p _ l _ => s.dim l) (hF.imp ?_)
  intro q q' h
  unfold tagOne at h
  split at h
  · obtain ⟨A, hA, h⟩ := Option.map_eq_some_iff.mp h
    subst h
    exact ⟨rfl, Or.inl hA⟩
  · cases h

/-! ### Links -/

/-- The linked copies, and the array `A` that they stand for. -/
structure Wired [CommSemiring R] (st0 st : Store) (d : List (String × Tensor R)) (As : List (String × LArr R)) (A : LArr R)
    (ps : List (LegId × LegId)) : Prop where
  locals : Locals st0 st d
  reps : Copies st d As
  bonds : IsBondList st (d.map Prod.snd) ps
  inside : ∀ p ∈ d, ∀ l ∈ p.2.legs, ∀ m, st.partner l = some m → m ∉ p.2.legs ∧ ∃ q ∈ d, m ∈ q.2.legs
  names : ((d.flatMap fun p => p.2.legs).map st.name).Nodup
  nodup : A.labels.Nodup
  labels : ∀ z, z ∈ A.labels ↔ ∃ p ∈ d, ∃ l ∈ p.2.legs, (st.leg l).bond = none ∧ st.name l = z
  dims : ∀ p ∈ d, ∀ l ∈ p.2.legs, A.dim (st.name l) = st.dim l
  val : ∀ τ, A.InRange τ → A.val τ = netSum st (d.map Prod.snd) ps fun l => τ (st.name l)

theorem Copies.mem_flat [Zero R] {st : Store} {d : List (String × Tensor R)} {As : List (String × LArr R)}
    (h : Copies st d As) : ((d.flatMap fun p => p.2.legs).map st.name).Perm ((As.map Prod.snd).flatMap fun A => A.labels) := by
  induction h with
  | nil => exact .refl _
  | cons e _ ih =>
    rw [List.flatMap_cons, List.map_append, List.map_cons, List.flatMap_cons]
    exact e.2.labels.append ih

theorem Copies.prod_val [CommSemiring R] {st : Store} {d : List (String × Tensor R)} {As : List (String × LArr R)}
    (h : Copies st d As) (τ : String → Nat) (hτ : ∀ q ∈ As, q.2.InRange τ) :
    ((As.map Prod.snd).map fun A => A.val τ).prod =
      ((d.map Prod.snd).map fun t => entry t fun l => τ (st.name l)).prod := by
  induction h with
  | nil => rfl
  | cons e _ ih =>
    simp only [List.map_cons, List.prod_cons]
    rw [ih fun q hq => hτ q (by simp [hq]), e.2.val τ (hτ _ (by simp))]

theorem prod_dim [One R] [Mul R] : ∀ {As : List (LArr R)}, (As.flatMap fun A => A.labels).Nodup → ∀ A ∈ As, ∀ z ∈ A.labels,
    (LArr.prod As).dim z = A.dim z
  | [], _, _, h, _, _ => by cases h
  | B :: As, hn, A, hA, z, hz => by
    rw [List.flatMap_cons, List.nodup_append] at hn
    obtain ⟨_, h2, h3⟩ := hn
    rcases List.mem_cons.mp hA with rfl | hA
    · unfold LArr.prod
      simp only [List.find?_cons, hz, decide_true, Option.map_some, Option.getD_some]
    · have hB : z ∉ B.labels := fun hB => h3 z hB z (List.mem_flatMap.mpr ⟨A, hA, hz⟩) rfl
      have := prod_dim h2 A hA z hz
      unfold LArr.prod at this ⊢
      simp only [List.find?_cons, hB, decide_false] at this ⊢
      exact this

/-- Before the links. -/
theorem wired_start [CommSemiring R] {st0 st : Store} {d : List (String × Tensor R)} {As : List (String × LArr R)}
    (L : Locals st0 st d) (r : Copies st d As) (f : ∀ p ∈ d, ∀ l ∈ p.2.legs, (st.leg l).bond = none)
    (hn : (LArr.prod (As.map Prod.snd)).labels.Nodup) : Wired st0 st d As (LArr.prod (As.map Prod.snd)) [] := by
  have hn' : ((As.map Prod.snd).flatMap fun A => A.labels).Nodup := hn
  have part : ∀ p ∈ d, ∀ l ∈ p.2.legs, st.partner l = none := by
    intro p hp l hl
    unfold Store.partner
    rw [f p hp l hl]
  refine ⟨L, r, ⟨by simp, ?_⟩, ?_, r.mem_flat.nodup_iff.mpr hn', hn, ?_, ?_, ?_⟩
  · intro l m
    simp only [List.not_mem_nil, or_self, false_iff, not_and]
    rintro hp ⟨⟨t, ht, hl, _⟩, _⟩
    obtain ⟨p, hp', rfl⟩ := List.mem_map.mp ht
    rw [part p hp' l hl] at hp
    cases hp
  · intro p hp l hl m hm
    rw [part p hp l hl] at hm
    cases hm
  · intro z
    have : z ∈ (LArr.prod (As.map Prod.snd)).labels ↔ z ∈ (d.flatMap fun p => p.2.legs).map st.name :=
      (r.mem_flat.mem_iff).symm
    rw [this]
    simp only [List.mem_map, List.mem_flatMap]
    constructor
    · rintro ⟨l, ⟨p, hp, hl⟩, e⟩
      exact ⟨p, hp, l, hl, f p hp l hl, e⟩
    · rintro ⟨p, hp, l, hl, _, e⟩
      exact ⟨l, ⟨p, hp, hl⟩, e⟩
  · intro p hp l hl
    obtain ⟨q, hq, _, rep⟩ := r.get p hp
    rw [prod_dim hn' q.2 (List.mem_map_of_mem hq) _ (rep.mem hl), rep.dims l hl]
  · intro τ hτ
    show ((As.map Prod.snd).map fun A => A.val τ).prod = _
    rw [r.prod_val τ]
    · rfl
    · intro q hq x hx
      have := hτ x (List.mem_flatMap.mpr ⟨q.2, List.mem_map_of_mem hq, hx⟩)
      rwa [prod_dim hn' q.2 (List.mem_map_of_mem hq) x hx] at this

theorem sumBonds_agree [AddMonoid R] (dim : LegId → Nat) (S : LegId → Prop) {f : Assign → R}
    (hf : ∀ σ τ : Assign, (∀ l, S l → σ l = τ l) → f σ = f τ) : ∀ (ps : List (LegId × LegId)) (σ τ : Assign),
    (∀ l, S l → σ l = τ l) → sumBonds dim ps f σ = sumBonds dim ps f τ
  | [], σ, τ, h => hf σ τ h
  | (l, m) :: ps, σ, τ, h => by
    simp only [sumBonds]
    congr 1
    apply List.map_congr_left
    intro k _
    apply sumBonds_agree dim S hf ps
    intro x hx
    unfold Assign.set
    split
    · rfl
    · split
      · rfl
      · exact h x hx

theorem netSum_agree [CommSemiring R] (st : Store) (ts : List (Tensor R)) (ps : List (LegId × LegId)) {σ τ : Assign}
    (h : ∀ t ∈ ts, ∀ l ∈ t.legs, σ l = τ l) : netSum st ts ps σ = netSum st ts ps τ := by
  unfold netSum
  apply sumBonds_agree st.dim (fun l => ∃ t ∈ ts, l ∈ t.legs)
  · intro σ τ h
    exact prod_entries_congr ts fun t ht l hl => h l ⟨t, ht, hl⟩
  · rintro l ⟨t, ht, hl⟩
    exact h t ht l hl

/-- One link. -/
theorem wired_step [CommSemiring R] {st0 st : Store} {d : List (String × Tensor R)} {As : List (String × LArr R)} {A : LArr R}
    {ps : List (LegId × LegId)} (W : Wired st0 st d As A ps) {pa pb : String × Tensor R} (ha : pa ∈ d) (hb : pb ∈ d)
    (hne : pa.1 ≠ pb.1) {l m : LegId} (hl : l ∈ pa.2.legs) (hm : m ∈ pb.2.legs) (fl : (st.leg l).bond = none)
    (fm : (st.leg m).bond = none) (hd : st.dim l = st.dim m) :
    Wired st0 (bonded st l m) d As (A.join (st.name l) (st.name m)) ((l, m) :: ps) := by
  have L := W.locals
  have hln : l ∉ pb.2.legs := L.disjoint ha hb hne l hl
  have hlm : l ≠ m := fun e => hln (e ▸ hm)
  have rl := L.range pa ha l hl
  have rm := L.range pb hb m hm
  have w' := bonded_wf L.wf hd fl fm rl.2 rm.2
  have pl : st.partner l = none := by unfold Store.partner; rw [fl]
  have pm : st.partner m = none := by unfold Store.partner; rw [fm]
  have ndim : ∀ x, (bonded st l m).dim x = st.dim x := bonded_dim st l m
  have nname : ∀ x, (bonded st l m).name x = st.name x := bonded_name st l m
  have inj : ∀ p ∈ d, ∀ x ∈ p.2.legs, ∀ q ∈ d, ∀ y ∈ q.2.legs, st.name x = st.name y → x = y := by
    intro p hp x hx q hq y hy e
    exact List.inj_on_of_nodup_map W.names (List.mem_flatMap.mpr ⟨p, hp, hx⟩) (List.mem_flatMap.mpr ⟨q, hq, hy⟩) e
  have own : ∀ p ∈ d, ∀ x, x ∈ p.2.legs → ∀ q ∈ d, x ∈ q.2.legs → p = q := by
    intro p hp x hx q hq hx'
    by_contra hpq
    exact flatMap_disjoint L.nodup hp hq hpq x hx hx'
  have crosslm : Cross (d.map Prod.snd) l m :=
    ⟨⟨pa.2, List.mem_map_of_mem ha, hl, fun h => hne (congrArg Prod.fst (own pa ha m h pb hb hm))⟩, pb.2,
      List.mem_map_of_mem hb, hm⟩
  have crossml : Cross (d.map Prod.snd) m l :=
    ⟨⟨pb.2, List.mem_map_of_mem hb, hm, hln⟩, pa.2, List.mem_map_of_mem ha, hl⟩
  have noneps : ∀ x y, (x, y) ∈ ps ∨ (y, x) ∈ ps → x ≠ l ∧ x ≠ m := by
    intro x y h
    have := ((W.bonds.exact x y).mp h).1
    constructor
    · rintro rfl; rw [pl] at this; cases this
    · rintro rfl; rw [pm] at this; cases this
  have noneps' : ∀ x y, (x, y) ∈ ps ∨ (y, x) ∈ ps → y ≠ l ∧ y ≠ m := fun x y h => noneps y x h.symm
  refine ⟨?_, ?_, ⟨?_, ?_⟩, ?_, ?_, W.nodup.filter _, ?_, ?_, ?_⟩
  · refine ⟨w', L.keys, L.nodup, L.ids, L.idge, ?_, L.range, ?_, L.legs, ?_, L.le, ?_⟩
    · intro p hp x hx
      rw [bonded_tensor]
      exact L.owner p hp x hx
    · intro p hp
      exact (L.good p hp).congr_dim fun x _ => ndim x
    · intro p hp x hx
      rw [ndim]
      exact L.pos p hp x hx
    · refine ⟨fun x hx => ?_, fun x hx => ?_⟩
      · rw [bonded_other st l m x (hx.trans_le rl.1).ne (hx.trans_le rm.1).ne, L.old.leg x hx]
      · rw [bonded_partner_other L.wf (hx.trans_le rl.1).ne (hx.trans_le rm.1).ne, L.old.partner x hx]
  · exact W.reps.congr fun p _ x _ => ⟨nname x, ndim x⟩
  · simp only [List.flatMap_cons, List.cons_append, List.nil_append, List.nodup_cons, List.mem_cons, not_or]
    have nin : ∀ x, x ∈ ps.flatMap (fun p => [p.1, p.2]) → x ≠ l ∧ x ≠ m := by
      intro x hx
      obtain ⟨⟨y, z⟩, hp, hx⟩ := List.mem_flatMap.mp hx
      simp only [List.mem_cons, List.not_mem_nil, or_false] at hx
      rcases hx with rfl | rfl
      · exact noneps _ _ (Or.inl hp)
      · exact noneps' _ _ (Or.inl hp)
    exact ⟨⟨hlm, fun h => (nin l h).1 rfl⟩, fun h => (nin m h).2 rfl, W.bonds.once⟩
  · intro x y
    simp only [List.mem_cons, Prod.mk.injEq]
    by_cases hxl : x = l
    · subst hxl
      rw [(bonded_partner x m).1]
      constructor
      · rintro ((⟨_, rfl⟩ | h) | (⟨_, e⟩ | h))
        · exact ⟨rfl, crosslm⟩
        · exact absurd rfl (noneps _ _ (Or.inl h)).1
        · exact absurd e hlm
        · exact absurd rfl (noneps _ _ (Or.inr h)).1
      · rintro ⟨e, _⟩
        exact Or.inl (Or.inl ⟨rfl, (Option.some.inj e).symm⟩)
    · by_cases hxm : x = m
      · subst hxm
        rw [(bonded_partner l x).2]
        constructor
        · rintro ((⟨e, _⟩ | h) | (⟨rfl, _⟩ | h))
          · exact absurd e hxl
          · exact absurd rfl (noneps _ _ (Or.inl h)).2
          · exact ⟨rfl, crossml⟩
          · exact absurd rfl (noneps _ _ (Or.inr h)).2
        · rintro ⟨e, _⟩
          exact Or.inr (Or.inl ⟨(Option.some.inj e).symm, rfl⟩)
      · rw [bonded_partner_other L.wf hxl hxm, ← W.bonds.exact x y]
        constructor
        · rintro ((⟨e, _⟩ | h) | (⟨_, e⟩ | h))
          · exact absurd e hxl
          · exact Or.inl h
          · exact absurd e hxm
          · exact Or.inr h
        · rintro (h | h)
          · exact Or.inl (Or.inr h)
          · exact Or.inr (Or.inr h)
  · intro p hp x hx y hy
    by_cases hxl : x = l
    · subst hxl
      rw [(bonded_partner x m).1] at hy
      cases Option.some.inj hy
      refine ⟨?_, pb, hb, hm⟩
      rw [own p hp x hx pa ha hl]
      exact fun h => hne (congrArg Prod.fst (own pa ha m h pb hb hm))
    · by_cases hxm : x = m
      · subst hxm
        rw [(bonded_partner l x).2] at hy
        cases Option.some.inj hy
        refine ⟨?_, pa, ha, hl⟩
        rw [own p hp x hx pb hb hm]
        exact hln
      · rw [bonded_partner_other L.wf hxl hxm] at hy
        exact W.inside p hp x hx y hy
  · have : (bonded st l m).name = st.name := funext nname
    rw [this]
    exact W.names
  · intro z
    show z ∈ A.labels.filter _ ↔ _
    rw [List.mem_filter, decide_eq_true_iff, W.labels]
    constructor
    · rintro ⟨⟨p, hp, x, hx, hf, rfl⟩, h1, h2⟩
      refine ⟨p, hp, x, hx, ?_, nname x⟩
      rw [bonded_other st l m x (fun e => h1 (e ▸ rfl)) (fun e => h2 (e ▸ rfl))]
      exact hf
    · rintro ⟨p, hp, x, hx, hf, rfl⟩
      have hxl : x ≠ l := by rintro rfl; simp [bonded] at hf
      have hxm : x ≠ m := by rintro rfl; simp [bonded] at hf
      rw [bonded_other st l m x hxl hxm] at hf
      rw [nname]
      exact ⟨⟨p, hp, x, hx, hf, rfl⟩, fun e => hxl (inj p hp x hx pa ha l hl e), fun e => hxm (inj p hp x hx pb hb m hm e)⟩
  · intro p hp x hx
    rw [nname, ndim]
    exact W.dims p hp x hx
  · intro τ hτ
    have hdl : A.dim (st.name l) = st.dim l := W.dims pa ha l hl
    have hdm : A.dim (st.name m) = st.dim m := W.dims pb hb m hm
    have hdim : (bonded st l m).dim = st.dim := funext ndim
    unfold netSum
    rw [hdim]
    simp only [sumBonds, LArr.join, hdl]
    congr 1
    apply List.map_congr_left
    intro k hk
    rw [List.mem_range] at hk
    rw [W.val _ (by
      intro z hz
      simp only
      split
      · rename_i h
        rcases h with rfl | rfl
        · rw [hdl]; exact hk
        · rw [hdm, ← hd]; exact hk
      · rename_i h
        exact hτ z (List.mem_filter.mpr ⟨hz, by simpa [not_or] using h⟩))]
    apply netSum_agree
    intro t ht x hx
    obtain ⟨p, hp, rfl⟩ := List.mem_map.mp ht
    simp only [Assign.set, nname]
    by_cases hxm : x = m
    · simp [hxm]
    · by_cases hxl : x = l
      · simp [hxl]
      · rw [if_neg hxm, if_neg hxl, if_neg]
        rintro (e | e)
        · exact hxl (inj p hp x hx pa ha l hl e)
        · exact hxm (inj p hp x hx pb hb m hm e)

theorem getLeg_mem {st : Store} {t : Tensor R} {x : String} (h : x ∈ t.legs.map st.name) :
    ∃ l ∈ t.legs, st.name l = x ∧ t.getLeg st x = some l := by
  obtain ⟨l, h1, h2, h3, _⟩ := (C21_getLeg st t x false).2 h
  exact ⟨l, h1, h2, h3⟩

/-- All links. -/
theorem linkAll_ok [CommSemiring R] {st0 : Store} {d : List (String × Tensor R)} {As : List (String × LArr R)} :
    ∀ (ls : List ((String × String) × (String × String))) (st : Store) (A B : LArr R) (ps : List (LegId × LegId)),
      Wired st0 st d As A ps → joined As A ls = some B →
      ∃ st' ps', linkAll d st ls = .ok st' ∧ Wired st0 st' d As B ps' ∧ (∀ l, st'.name l = st.name l) ∧
        ∀ p ∈ d, ∀ l ∈ p.2.legs, ∀ q ∈ d, ∀ m ∈ q.2.legs,
          (st'.partner l = some m ↔ st.partner l = some m ∨ LabelsLinked ls (st.name l) (st.name m))
  | [], st, A, B, ps, W, h => by
    cases Option.some.inj h
    exact ⟨st, ps, rfl, W, fun _ => rfl, fun p _ l _ q _ m _ => by simp [LabelsLinked]⟩
  | ((a, x), (b, y)) :: ls, st, A, B, ps, W, h => by
    unfold joined at h
    split at h
    · rename_i hc
      obtain ⟨hab, hax, hby, hx, hy, hd⟩ := hc
      have L := W.locals
      have inj : ∀ p ∈ d, ∀ x ∈ p.2.legs, ∀ q ∈ d, ∀ y ∈ q.2.legs, st.name x = st.name y → x = y := by
        intro p hp x hx q hq y hy e
        exact List.inj_on_of_nodup_map W.names (List.mem_flatMap.mpr ⟨p, hp, hx⟩) (List.mem_flatMap.mpr ⟨q, hq, hy⟩) e
      have find : ∀ a x, HasAxis As a x → x ∈ A.labels → ∃ p ∈ d, p.1 = a ∧ ∃ l ∈ p.2.legs, st.name l = x ∧
          p.2.getLeg st x = some l ∧ (st.leg l).bond = none := by
        rintro a x ⟨q, hq, rfl, hxq⟩ hx
        obtain ⟨p, hp, e, rep⟩ := W.reps.get' q hq
        obtain ⟨l, hl, h1, h2⟩ := getLeg_mem (rep.labels.symm.subset hxq)
        obtain ⟨p', hp', l', hl', hf, e'⟩ := (W.labels x).mp hx
        have : l' = l := inj p' hp' l' hl' p hp l hl (e'.trans h1.symm)
        subst this
        exact ⟨p, hp, e, l', hl, h1, h2, hf⟩
      obtain ⟨pa, ha, rfl, l, hl, rfl, gl, fl⟩ := find a x hax hx
      obtain ⟨pb, hb, rfl, m, hm, rfl, gm, fm⟩ := find b y hby hy
      have hd' : st.dim l = st.dim m := by
        rw [← W.dims pa ha l hl, ← W.dims pb hb m hm, hd]
      obtain ⟨st', ps', e, W', nm, pt⟩ := linkAll_ok ls _ _ B _ (wired_step W ha hb hab hl hm fl fm hd') h
      have pl : st.partner l = none := by unfold Store.partner; rw [fl]
      have pm : st.partner m = none := by unfold Store.partner; rw [fm]
      refine ⟨st', ps', ?_, W', fun z => by rw [nm, bonded_name], ?_⟩
      rotate_left
      · intro p hp x hx q hq y hy
        rw [pt p hp x hx q hq y hy, bonded_name, bonded_name]
        have split : LabelsLinked (((pa.1, st.name l), (pb.1, st.name m)) :: ls) (st.name x) (st.name y) ↔
            ((x = l ∧ y = m) ∨ (x = m ∧ y = l)) ∨ LabelsLinked ls (st.name x) (st.name y) := by
          unfold LabelsLinked
          rw [List.exists_mem_cons_iff]
          refine or_congr ?_ Iff.rfl
          constructor
          · rintro (⟨e1, e2⟩ | ⟨e1, e2⟩)
            · exact Or.inl ⟨(inj pa ha l hl p hp x hx e1).symm, (inj pb hb m hm q hq y hy e2).symm⟩
            · exact Or.inr ⟨(inj pb hb m hm p hp x hx e2).symm, (inj pa ha l hl q hq y hy e1).symm⟩
          · rintro (⟨rfl, rfl⟩ | ⟨rfl, rfl⟩)
            · exact Or.inl ⟨rfl, rfl⟩
            · exact Or.inr ⟨rfl, rfl⟩
        rw [split, ← or_assoc]
        refine or_congr ?_ Iff.rfl
        by_cases h1 : x = l
        · subst h1
          rw [(bonded_partner x m).1, pl]
          have hne : x ≠ m := by
            rintro rfl
            exact hab (congrArg Prod.fst (by
              by_contra hpq
              exact flatMap_disjoint L.nodup ha hb hpq x hl hm))
          simp [hne, eq_comm]
        · by_cases h2 : x = m
          · subst h2
            rw [(bonded_partner l x).2, pm]
            simp [h1, eq_comm]
          · rw [bonded_partner_other L.wf h1 h2]
            simp [h1, h2]
      unfold linkAll
      rw [(dictGet_some L.keys).mpr ha, (dictGet_some L.keys).mpr hb]
      have hlink : makeLink st [.label (st.name l)] [.label (st.name m)] (some pa.2) (some pb.2) =
          (bonded st l m, .ok [st.nextBond]) := by
        rw [C10_makeLink_labels st pa.2 pb.2 _ _ [l] [m] (by simp [resolveRef, gl]) (by simp [resolveRef, gm])]
        exact linkOr_two st l m hd'
      simp only [hlink, linkOr, bind, Except.bind]
      exact e
    · cases h

end CTL
