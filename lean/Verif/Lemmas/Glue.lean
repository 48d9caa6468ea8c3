import Verif.Lemmas.MergeStep

/-! Chains with other sites. -/

namespace CTL
variable {R : Type}

/-- What a part of a sound network has. -/
structure Kit (st : Store) (ts : List (Tensor R)) : Prop where
  wf : WFStore st
  net : GoodNet st ts
  dense : ∀ t ∈ ts, t.diag = false
  old : ∀ t ∈ ts, ∀ l ∈ t.legs, l < st.nextLeg

theorem Sound.kit {st : Store} {L N ts : List (Tensor R)} (s : Sound st L) (p : L.Perm (N ++ ts)) : Kit st ts :=
  ⟨s.wf, (s.goodNet.perm p).part.1, fun t ht => s.dense t (p.mem_iff.mpr (List.mem_append_right _ ht)),
    fun t ht l hl => (s.owned.legs t (p.mem_iff.mpr (List.mem_append_right _ ht)) l hl).1⟩

section
variable [Zero R] {st : Store} {ts : List (Tensor R)} {phys : List LegId} {lft rgt : Nat → LegId}

theorem Chain.kit (C : Chain st ts phys lft rgt) : Kit st ts := ⟨C.wf, C.goodNet, fun t ht => (C.good t ht).2, C.old⟩

theorem Kit.links (k : Kit st ts) (len : phys.length = ts.length)
    (legs : ∀ (i : Nat) (t : Tensor R), ts[i]? = some t → t.legs.Perm (siteLegs ts.length phys lft rgt i))
    (joined : ∀ i, i + 1 < ts.length → st.partner (rgt i) = some (lft (i + 1)))
    (apart : ∀ p ∈ phys, ∀ q ∈ phys, st.partner p ≠ some q) : ChainLinks st ts phys lft rgt := by
  refine ⟨k.wf, len, fun t ht => ⟨k.net.good t ht, k.dense t ht⟩, legs, k.old, ?_, joined, apart⟩
  intro i hi j hj hne x hx hx'
  have h1 := (legs i _ (List.getElem?_eq_getElem hi)).mem_iff.mpr hx
  have h2 := (legs j _ (List.getElem?_eq_getElem hj)).mem_iff.mpr hx'
  have nd := k.net.nodup
  rw [List.nodup_flatMap, List.pairwise_iff_getElem] at nd
  rcases Nat.lt_or_gt_of_ne hne with c | c
  · exact nd.2 i j hi hj c h1 h2
  · exact nd.2 j i hj hi c h2 h1

/-- A chain is a chain in every store in which its legs are as they were. -/
theorem Chain.carry (C : Chain st ts phys lft rgt) {st' : Store} (wf : WFStore st') (kept : LegsKept st st')
    (grow : st.nextLeg ≤ st'.nextLeg) (names : ∀ t ∈ ts, ∀ l ∈ t.legs, st'.name l = st.name l) : Chain st' ts phys lft rgt := by
  have hP : ∀ p ∈ phys, ∃ t ∈ ts, p ∈ t.legs := by
    intro p hp
    obtain ⟨j, hj, rfl⟩ := (Chain.mem_phys C.len).mp hp
    obtain ⟨t, -, ht, hl⟩ := C.site hj
    exact ⟨t, ht, hl.mem_iff.mpr (Chain.mem_siteLegs.mpr (.inl rfl))⟩
  have hR : ∀ i, i + 1 < ts.length → ∃ t ∈ ts, rgt i ∈ t.legs := by
    intro i hi
    obtain ⟨t, -, ht, hl⟩ := C.site (Nat.lt_of_succ_lt hi)
    exact ⟨t, ht, hl.mem_iff.mpr (Chain.mem_siteLegs.mpr (.inr (.inl ⟨hi, rfl⟩)))⟩
  have hL : ∀ i, i + 1 < ts.length → ∃ t ∈ ts, lft (i + 1) ∈ t.legs := by
    intro i hi
    obtain ⟨t, -, ht, hl⟩ := C.site hi
    exact ⟨t, ht, hl.mem_iff.mpr (Chain.mem_siteLegs.mpr (.inr (.inr ⟨Nat.succ_pos _, rfl⟩)))⟩
  refine ⟨⟨wf, C.len, fun t ht => ⟨(C.good t ht).1.congr_dim fun l hl => (kept l (C.old t ht l hl)).1, (C.good t ht).2⟩, C.legs,
    fun t ht l hl => (C.old t ht l hl).trans_le grow, C.disj, ?_, ?_⟩, ?_, ?_, ?_⟩
  · intro i hi
    rw [(kept _ (C.oldR hi)).2.2]
    exact C.joined i hi
  · intro p hp q hq
    obtain ⟨t, ht, hl⟩ := hP p hp
    rw [(kept _ (C.old t ht p hl)).2.2]
    exact C.apart p hp q hq
  · intro p hp
    obtain ⟨t, ht, hl⟩ := hP p hp
    rw [names t ht p hl]; exact C.nameP p hp
  · intro i hi
    obtain ⟨t, ht, hl⟩ := hR i hi
    rw [names t ht _ hl]; exact C.nameR i hi
  · intro i hi
    obtain ⟨t, ht, hl⟩ := hL i hi
    rw [names t ht _ hl]; exact C.nameL i hi

end

theorem Step.carry [CommSemiring R] {a b : Store} {N M M' ts : List (Tensor R)} (h : Step a M b M') (s : Owned a (N ++ M))
    (sub : ∀ t ∈ ts, t ∈ N) {phys : List LegId} {lft rgt : Nat → LegId} (C : Chain a ts phys lft rgt) :
    Chain b ts phys lft rgt := by
  refine C.carry h.wf h.kept h.trail.nextLeg fun t ht l hl => ?_
  unfold Store.name
  rw [h.trail.other l (C.old t ht l hl) fun u hu => s.disj (sub t ht) hu hl]

theorem glued_getElem? {α : Type} (l : List α) {i : Nat} (hi : i + 1 < l.length) (w : α) (j : Nat) :
    (l.take i ++ w :: l.drop (i + 2))[j]? = if j < i then l[j]? else if j = i then some w else l[j + 1]? := by
  by_cases c : j < i
  · rw [if_pos c, List.getElem?_append_left (by rw [List.length_take]; omega), List.getElem?_take_of_lt c]
  · rw [if_neg c, List.getElem?_append_right (by rw [List.length_take]; omega), List.length_take,
      show min i l.length = i by omega]
    by_cases c2 : j = i
    · rw [if_pos c2, c2]; simp
    · rw [if_neg c2]
      obtain ⟨k, hk⟩ : ∃ k, j - i = k + 1 := ⟨j - i - 1, by omega⟩
      rw [hk, List.getElem?_cons_succ, List.getElem?_drop]
      congr 1
      omega

theorem glued_length {α : Type} (l : List α) {i : Nat} (hi : i + 1 < l.length) (w : α) :
    (l.take i ++ w :: l.drop (i + 2)).length = l.length - 1 := by
  simp
  omega

theorem glued_getD {l : List LegId} {i : Nat} (hi : i + 1 < l.length) (w : LegId) (j : Nat) :
    (l.take i ++ w :: l.drop (i + 2)).getD j 0 = if j < i then l.getD j 0 else if j = i then w else l.getD (j + 1) 0 := by
  rw [List.getD_eq_getElem?_getD, glued_getElem? l hi]
  split_ifs <;> simp [List.getD_eq_getElem?_getD]

theorem glued_mem {α : Type} {l : List α} {i : Nat} {w p : α} (h : p ∈ l.take i ++ w :: l.drop (i + 2)) : p = w ∨ p ∈ l := by
  rcases List.mem_append.mp h with h | h
  · exact .inr (List.mem_of_mem_take h)
  · rcases List.mem_cons.mp h with h | h
    · exact .inl h
    · exact .inr (List.mem_of_mem_drop h)

section
variable [Zero R] {st st' : Store} {ts : List (Tensor R)} {phys : List LegId} {lft rgt : Nat → LegId}

/-- Two neighbours replaced by one tensor with a new physical leg. -/
theorem Chain.glue (C : Chain st ts phys lft rgt) {i : Nat} (hi : i + 1 < ts.length) {w : Tensor R} {x : LegId}
    (k : Kit st' (ts.take i ++ w :: ts.drop (i + 2))) (kept : LegsKept st st')
    (names : ∀ l < st.nextLeg, st'.name l = st.name l)
    (lw : w.legs.Perm (x :: ((if i + 2 < ts.length then [rgt (i + 1)] else []) ++ (if 0 < i then [lft i] else []))))
    (nx : st'.name x = "o") (apart : ∀ q, q = x ∨ q ∈ phys → st'.partner x ≠ some q) :
    Chain st' (ts.take i ++ w :: ts.drop (i + 2)) (phys.take i ++ x :: phys.drop (i + 2))
      (fun j => if j ≤ i then lft j else lft (j + 1)) (fun j => if j < i then rgt j else rgt (j + 1)) := by
  have hl := C.len
  have hP : i + 1 < phys.length := by omega
  have len := glued_length ts hi w
  have lenP := glued_length phys hP x
  refine ⟨k.links (by rw [len, lenP, hl]) ?_ ?_ ?_, ?_, ?_, ?_⟩
  · intro j t ht
    rw [glued_getElem? ts hi] at ht
    unfold siteLegs
    rw [len, glued_getD hP]
    beta_reduce
    by_cases c1 : j < i
    · rw [if_pos c1] at ht
      have := C.legs j t ht
      unfold siteLegs at this
      rw [if_pos c1, if_pos c1, if_pos c1.le, if_pos (show j + 1 < ts.length - 1 by omega)]
      rwa [if_pos (show j + 1 < ts.length by omega)] at this
    · rw [if_neg c1] at ht
      by_cases c2 : j = i
      · rw [if_pos c2] at ht
        obtain rfl := Option.some.inj ht
        subst c2
        rw [if_neg c1, if_pos rfl, if_neg c1, if_pos le_rfl]
        have e : (j + 1 < ts.length - 1) = (j + 2 < ts.length) := by rw [eq_iff_iff]; omega
        simp only [e]
        exact lw
      · rw [if_neg c2] at ht
        have := C.legs (j + 1) t ht
        unfold siteLegs at this
        rw [if_neg c1, if_neg c2, if_neg c1, if_neg (show ¬ j ≤ i by omega), if_pos (show 0 < j by omega)]
        have e : (j + 1 < ts.length - 1) = (j + 1 + 1 < ts.length) := by rw [eq_iff_iff]; omega
        simp only [e]
        rwa [if_pos (Nat.succ_pos j)] at this
  · intro j hj
    rw [len] at hj
    by_cases c : j < i
    · simp only [c, if_true, show j + 1 ≤ i by omega]
      rw [(kept _ (C.oldR (by omega))).2.2]
      exact C.joined j (by omega)
    · simp only [c, if_false, show ¬ (j + 1 ≤ i) by omega]
      rw [(kept _ (C.oldR (by omega))).2.2]
      exact C.joined (j + 1) (by omega)
  · intro p hp q hq
    rcases glued_mem hp with rfl | hp'
    · exact apart q (glued_mem hq)
    · rcases glued_mem hq with rfl | hq'
      · intro h
        exact apart p (.inr hp') (partner_symm k.wf.inv h)
      · obtain ⟨j, hj, rfl⟩ := (Chain.mem_phys C.len).mp hp'
        rw [(kept _ (C.oldP hj)).2.2]
        exact C.apart _ hp' q hq'
  · intro p hp
    rcases glued_mem hp with rfl | hp'
    · exact nx
    · obtain ⟨j, hj, rfl⟩ := (Chain.mem_phys C.len).mp hp'
      rw [names _ (C.oldP hj)]
      exact C.nameP _ hp'
  · intro j hj
    rw [len] at hj
    by_cases c : j < i
    · simp only [c, if_true]
      rw [names _ (C.oldR (by omega))]
      exact C.nameR j (by omega)
    · simp only [c, if_false]
      rw [names _ (C.oldR (by omega))]
      exact C.nameR (j + 1) (by omega)
  · intro j hj
    rw [len] at hj
    by_cases c : j + 1 ≤ i
    · simp only [c, if_true]
      rw [names _ (C.oldL (Nat.succ_pos _) (by omega))]
      exact C.nameL j (by omega)
    · simp only [c, if_false]
      rw [names _ (C.oldL (Nat.succ_pos _) (by omega))]
      exact C.nameL (j + 1) (by omega)

theorem set_mem {α : Type} {l : List α} {i : Nat} {w p : α} (h : p ∈ l.set i w) : p = w ∨ p ∈ l :=
  (List.mem_or_eq_of_mem_set h).symm

/-- A site replaced by one with another physical leg. -/
theorem Chain.replace (C : Chain st ts phys lft rgt) {i : Nat} (hi : i < ts.length) {w : Tensor R} {x : LegId}
    (k : Kit st' (ts.set i w)) (kept : LegsKept st st')
    (names : ∀ t ∈ ts, ∀ l ∈ t.legs, l ≠ phys.getD i 0 → st'.name l = st.name l)
    (lw : w.legs.Perm (x :: ((if i + 1 < ts.length then [rgt i] else []) ++ (if 0 < i then [lft i] else []))))
    (nx : st'.name x = "o") (apart : ∀ q, q = x ∨ q ∈ phys → st'.partner x ≠ some q) :
    Chain st' (ts.set i w) (phys.set i x) lft rgt := by
  have hl := C.len
  have nameOf : ∀ j < ts.length, ∀ l ∈ siteLegs ts.length phys lft rgt j, l ≠ phys.getD i 0 → st'.name l = st.name l := by
    intro j hj l hl' hne
    obtain ⟨t, -, ht, hp⟩ := C.site hj
    exact names t ht l (hp.mem_iff.mpr hl') hne
  have getP : ∀ j, (phys.set i x).getD j 0 = if j = i then x else phys.getD j 0 := by
    intro j
    rw [List.getD_eq_getElem?_getD, List.getElem?_set]
    by_cases c : i = j
    · subst c
      rw [if_pos rfl, if_pos (by omega), if_pos rfl]; rfl
    · rw [if_neg c, if_neg (Ne.symm c), List.getD_eq_getElem?_getD]
  refine ⟨k.links (by simp [hl]) ?_ ?_ ?_, ?_, ?_, ?_⟩
  · intro j t ht
    rw [List.getElem?_set] at ht
    rw [List.length_set]
    unfold siteLegs
    rw [getP]
    by_cases c : i = j
    · subst c
      rw [if_pos rfl, if_pos hi] at ht
      obtain rfl := Option.some.inj ht
      rw [if_pos rfl]
      exact lw
    · rw [if_neg c] at ht
      rw [if_neg (Ne.symm c)]
      exact C.legs j t ht
  · intro j hj
    rw [List.length_set] at hj
    rw [(kept _ (C.oldR hj)).2.2]
    exact C.joined j hj
  · intro p hp q hq
    rcases set_mem hp with rfl | hp'
    · exact apart q (set_mem hq)
    · rcases set_mem hq with rfl | hq'
      · intro h
        exact apart p (.inr hp') (partner_symm k.wf.inv h)
      · obtain ⟨j, hj, rfl⟩ := (Chain.mem_phys C.len).mp hp'
        rw [(kept _ (C.oldP hj)).2.2]
        exact C.apart _ hp' q hq'
  · intro p hp
    obtain ⟨j, hj, rfl⟩ := (Chain.mem_phys (n := ts.length) (by simp [hl])).mp hp
    rw [getP]
    split
    · exact nx
    · rename_i c
      rw [nameOf j hj _ (Chain.mem_siteLegs.mpr (.inl rfl)) fun e => c (C.injP hj hi e)]
      exact C.nameP _ ((Chain.mem_phys C.len).mpr ⟨j, hj, rfl⟩)
  · intro j hj
    rw [List.length_set] at hj
    rw [nameOf j (by omega) _ (Chain.mem_siteLegs.mpr (.inr (.inl ⟨hj, rfl⟩))) fun e => C.neqPR hi hj e.symm]
    exact C.nameR j hj
  · intro j hj
    rw [List.length_set] at hj
    rw [nameOf (j + 1) hj _ (Chain.mem_siteLegs.mpr (.inr (.inr ⟨Nat.succ_pos _, rfl⟩)))
      fun e => C.neqPL hi (Nat.succ_pos _) hj e.symm]
    exact C.nameL j hj

end

/-- Two groups of tensors in a network that is sound and whose value is not zero everywhere. -/
structure Duo [CommSemiring R] (st : Store) (N A B : List (Tensor R)) : Prop where
  sound : Sound st (N ++ (A ++ B))
  live : Live st (N ++ (A ++ B))

namespace Duo
variable [CommSemiring R] {st st' : Store} {N A B A' B' : List (Tensor R)}

theorem pos (d : Duo st N A B) : ∀ t ∈ N ++ (A ++ B), ∀ l ∈ t.legs, 0 < st.dim l := d.live.pos d.sound.goodNet

theorem both (d : Duo st N A B) (h : Step st (A ++ B) st' (A' ++ B')) : Duo st' N A' B' :=
  have f := h.frame d.sound
  ⟨f.sound d.sound, f.same.live d.live⟩

theorem swap (d : Duo st N A B) : Duo st N B A := by
  have p : (N ++ (A ++ B)).Perm (N ++ (B ++ A)) := List.Perm.append_left _ List.perm_append_comm
  exact ⟨d.sound.perm p, (SameValue.of_perm d.sound.goodNet p).live d.live⟩

theorem kitA (d : Duo st N A B) : Kit st A :=
  d.sound.kit (N := N ++ B) (by rw [List.append_assoc]; exact List.Perm.append_left _ List.perm_append_comm)

theorem kitB (d : Duo st N A B) : Kit st B := d.swap.kitA

theorem onB (d : Duo st N A B) (h : Step st B st' B') : Step st (A ++ B) st' (A ++ B') := by
  refine ⟨h.wf, ?_, h.trail.frame A, ?_, h.kept⟩
  · intro t ht
    rcases List.mem_append.mp ht with ht | ht
    · exact d.sound.dense t (by simp [ht])
    · exact h.dense t ht
  · have s := d.sound.owned.right
    have o := (h.trail.frame A).own s
    have oldA : ∀ t ∈ A, ∀ l ∈ t.legs, l < st.nextLeg := fun t ht l hl => (s.legs t (List.mem_append_left _ ht) l hl).1
    have good : ∀ t ∈ A ++ B', GoodTensor st' t := by
      intro t ht
      rcases List.mem_append.mp ht with ht | ht
      · exact (d.sound.good t (by simp [ht])).congr_dim fun l hl => (h.kept l (oldA t ht l hl)).1
      · exact h.same.good'.good t ht
    have gM : GoodNet st' (A ++ B') :=
      ⟨h.wf.inv, good, flat_of_owner (fun t ht => (good t ht).nodup) o.ids fun t ht l hl => (o.legs t ht l hl).2⟩
    exact h.same.frame d.sound.goodNet.part.1 gM (fun t ht l hl => (h.kept l (oldA t ht l hl)).1)
      (fun t ht l hl => (h.kept l (oldA t ht l hl)).2.2)

theorem onA (d : Duo st N A B) (h : Step st A st' A') : Step st (A ++ B) st' (A' ++ B) :=
  (d.swap.onB h).perm List.perm_append_comm List.perm_append_comm

/-- A step on one tensor of each group. -/
theorem onTwo (d : Duo st N A B) {ta tb ta' tb' : Tensor R} {RA RB : List (Tensor R)} (h : Step st [ta, tb] st' [ta', tb'])
    (pA : A.Perm (RA ++ [ta])) (pB : B.Perm (RB ++ [tb])) (pA' : A'.Perm (RA ++ [ta'])) (pB' : B'.Perm (RB ++ [tb'])) :
    Step st (A ++ B) st' (A' ++ B') := by
  have q : ∀ {X Y : List (Tensor R)} {a b : Tensor R}, X.Perm (RA ++ [a]) → Y.Perm (RB ++ [b]) →
      (X ++ Y).Perm ((RA ++ RB) ++ [a, b]) := by
    intro X Y a b h1 h2
    refine (h1.append h2).trans ?_
    have : (RA ++ RB ++ [a, b]) = RA ++ (RB ++ ([a] ++ [b])) := by simp
    rw [this, List.append_assoc]
    refine List.Perm.append_left _ ?_
    rw [← List.append_assoc, ← List.append_assoc]
    exact List.Perm.append_right _ List.perm_append_comm
  have P : (N ++ (A ++ B)).Perm (N ++ ((RA ++ RB) ++ [ta, tb])) := List.Perm.append_left _ (q pA pB)
  have d' : Duo st N (RA ++ RB) [ta, tb] := ⟨d.sound.perm P, (SameValue.of_perm d.sound.goodNet P).live d.live⟩
  exact (d'.onB h).perm (q pA pB).symm (q pA' pB').symm

theorem carryA (d : Duo st N A B) (h : Step st B st' B') {phys : List LegId} {lft rgt : Nat → LegId}
    (C : Chain st A phys lft rgt) : Chain st' A phys lft rgt :=
  h.carry (N := A) d.sound.owned.right (fun _ ht => ht) C

theorem carryB (d : Duo st N A B) (h : Step st A st' A') {phys : List LegId} {lft rgt : Nat → LegId}
    (C : Chain st B phys lft rgt) : Chain st' B phys lft rgt :=
  d.swap.carryA h C

theorem carryN (d : Duo st N A B) (h : Step st (A ++ B) st' (A' ++ B')) {ts : List (Tensor R)} (sub : ∀ t ∈ ts, t ∈ N)
    {phys : List LegId} {lft rgt : Nat → LegId} (C : Chain st ts phys lft rgt) : Chain st' ts phys lft rgt :=
  h.carry d.sound.owned sub C

end Duo
end CTL
