import Verif.Lemmas.Capping
import Verif.Lemmas.Steps

/-! Helper lemmas: whatever the graph, the recorded sequences are those of contraction trees. -/

namespace CTL

/-- Every recorded sequence comes from a tree over exactly the tensors of its mask. -/
def SeqOK (n : Nat) (s : Tables) : Prop :=
  ∀ x q, s.seq x = some q → ∃ T : CTree, T.Proper n ∧ T.verts = bits x ∧ T.steps = q

theorem seqOK_init (g : Input) : SeqOK g.edges.length (initTables g) := by
  intro x q h
  unfold initTables at h
  simp only [Option.map_eq_some_iff] at h
  obtain ⟨i, hi, rfl⟩ := h
  have h1 := List.find?_some hi
  have h2 := List.mem_of_find?_eq_some hi
  rw [List.mem_range] at h2
  simp only [decide_eq_true_eq] at h1
  refine ⟨.leaf i, ⟨by simp [CTree.leaves], by simpa [CTree.leaves] using h2⟩, ?_, rfl⟩
  rw [h1, Nat.one_shiftLeft, bits_two_pow, verts_leaf]

theorem seqOK_join {n : Nat} {s : Tables} (h : SeqOK n s) {a b x : Nat} {qa qb} (ha : s.seq a = some qa)
    (hb : s.seq b = some qb) (hd : Disjoint (bits a) (bits b)) (hx : bits x = bits a ∪ bits b) :
    ∃ T : CTree, T.Proper n ∧ T.verts = bits x ∧ T.steps = qa ++ qb ++ [(lowbitI a, lowbitI b)] := by
  obtain ⟨A, pA, vA, rfl⟩ := h a qa ha
  obtain ⟨B, pB, vB, rfl⟩ := h b qb hb
  refine ⟨.node A B, ?_, ?_, ?_⟩
  · rw [Proper.node, vA, vB]
    exact ⟨pA, pB, hd⟩
  · rw [verts_node, vA, vB, hx]
  · rw [slot_eq_lowbitI A vA, slot_eq_lowbitI B vB]
    rfl

theorem split_bits {x a : Nat} (ha : a ∈ subsetIterator x) :
    Disjoint (bits a) (bits (x - a)) ∧ bits x = bits a ∪ bits (x - a) := by
  obtain ⟨_, _, h1, h2⟩ := isSplit_iff.mp ((C09_split_sound x).1 a ha)
  exact ⟨h2, h1⟩

theorem except_bind_ok {ε α β : Type} {x : Except ε α} {f : α → Except ε β} {y : β} :
    (x >>= f) = .ok y ↔ ∃ a, x = .ok a ∧ f a = .ok y := by
  cases x with
  | error e => simp [bind, Except.bind]
  | ok a => simp [bind, Except.bind]

theorem except_pure_ok {ε α : Type} {x y : α} : (pure x : Except ε α) = .ok y ↔ x = y := by
  simp [pure, Except.pure]

theorem getSeq_ok {s : Tables} {x : Nat} {q} (h : s.getSeq x = .ok q) : s.seq x = some q := by
  unfold Tables.getSeq at h
  split at h
  · rename_i e; cases h; exact e
  · cases h

theorem splitStep_seq {typ : Option Nat} {x a : Nat} {s : Tables} {best : Best} {r} (h : splitStep typ x a s best = .ok r) :
    r.1.seq = s.seq ∧ (r.2 = best ∨ ∃ c, r.2 = some (c, a, x - a)) := by
  unfold splitStep at h
  simp only [except_bind_ok] at h
  obtain ⟨ra, _, rb, _, l, _, ca, _, cb, _, h⟩ := h
  rw [except_pure_ok] at h
  subst h
  refine ⟨by simp only; split <;> rfl, ?_⟩
  simp only [better]
  cases best with
  | none => exact Or.inr ⟨_, rfl⟩
  | some t =>
    simp only
    split
    · exact Or.inr ⟨_, rfl⟩
    · exact Or.inl rfl

theorem splitLoop_seq {typ : Option Nat} {n : Nat} {solve : Nat → Tables → Except PyErr Tables}
    (hsolve : ∀ y s s', SeqOK n s → solve y s = .ok s' → SeqOK n s') (x : Nat) :
    ∀ as s best r, (∀ a ∈ as, a ∈ subsetIterator x) →
    (∀ c a b, best = some (c, a, b) → a ∈ subsetIterator x ∧ b = x - a) → SeqOK n s →
    splitLoop typ solve x as s best = .ok r →
    SeqOK n r.1 ∧ ∀ c a b, r.2 = some (c, a, b) → a ∈ subsetIterator x ∧ b = x - a := by
  intro as
  induction as with
  | nil => intro s best r _ hb hs h; cases h; exact ⟨hs, hb⟩
  | cons a as ih =>
    intro s best r ha hb hs h
    unfold splitLoop at h
    simp only [except_bind_ok] at h
    obtain ⟨s1, h1, s2, h2, r1, h3, h4⟩ := h
    have hs2 := hsolve _ _ _ (hsolve _ _ _ hs h1) h2
    obtain ⟨e1, e2⟩ := splitStep_seq h3
    refine ih _ _ _ (fun b hb => ha b (by simp [hb])) ?_ ?_ h4
    · intro c a' b' he
      rcases e2 with e2 | ⟨c', e2⟩
      · rw [e2] at he; exact hb c a' b' he
      · rw [e2] at he; cases he
        exact ⟨ha a (by simp), rfl⟩
    · intro y q hq
      rw [e1] at hq
      exact hs2 y q hq

theorem solveSet_seq {typ : Option Nat} {n : Nat} : ∀ fuel x s s', SeqOK n s → solveSet typ fuel x s = .ok s' →
    SeqOK n s' := by
  intro fuel
  induction fuel with
  | zero => intro x s s' _ h; cases h
  | succ fuel ih =>
    intro x s s' hs h
    unfold solveSet at h
    split at h
    · cases h; exact hs
    · rw [except_bind_ok] at h
      obtain ⟨r, h1, h2⟩ := h
      obtain ⟨k1, k2⟩ := splitLoop_seq ih x (subsetIterator x) s none r (fun a ha => ha) (fun c a b h => by cases h)
        hs h1
      unfold storeBest at h2
      split at h2
      · cases h2
      · rename_i c a b hbest
        simp only [except_bind_ok] at h2
        obtain ⟨qa, hqa, qb, hqb, h2⟩ := h2
        rw [except_pure_ok] at h2
        subst h2
        obtain ⟨ha, rfl⟩ := k2 c a b hbest
        intro y q hy
        by_cases hyx : y = x
        · subst hyx
          simp only [upd_same, Option.some.injEq] at hy
          subst hy
          obtain ⟨d1, d2⟩ := split_bits ha
          exact seqOK_join k1 (getSeq_ok hqa) (getSeq_ok hqb) d1 d2
        · simp only [upd_ne _ _ hyx] at hy
          exact k1 y q hy

theorem full_valid {n : Nat} {s : Tables} (h : SeqOK n s) {q} (hq : s.seq (1 <<< n - 1) = some q) :
    ∃ T : CTree, T.Complete n ∧ T.steps = q := by
  obtain ⟨T, h1, h2, h3⟩ := h _ _ hq
  rw [bits_full] at h2
  exact ⟨T, complete_iff.mpr ⟨h1, h2⟩, h3⟩

theorem bruteForce_tree {g : Input} {typ : Option Nat} {s q} (h : bruteForce g typ = .ok (s, q)) :
    ∃ T : CTree, T.Complete g.edges.length ∧ T.steps = q := by
  unfold bruteForce at h
  simp only [except_bind_ok] at h
  obtain ⟨s1, h1, q1, h2, h3⟩ := h
  rw [except_pure_ok] at h3
  cases h3
  exact full_valid (solveSet_seq _ _ _ _ (seqOK_init g) h1) (getSeq_ok h2)

theorem capPair_seq {typ : Option Nat} {n muOld muNew c : Nat} {s s' : CapState} {p : Nat × Nat}
    (hs : SeqOK n s.tab) (h : capPair typ muOld muNew c s p = .ok s') : SeqOK n s'.tab := by
  unfold capPair at h
  split at h
  · cases h; exact hs
  · rename_i hd
    have hd' : p.1 &&& p.2 = 0 := not_not.mp hd
    simp only [except_bind_ok] at h
    obtain ⟨r1, _, r2, _, h⟩ := h
    split at h
    · cases h; exact hs
    · simp only [except_bind_ok] at h
      obtain ⟨c1, _, c2, _, l, _, h⟩ := h
      have key : ∀ (q1 q2 : List (Nat × Nat)) (t : Tables), s.tab.seq p.1 = some q1 → s.tab.seq p.2 = some q2 →
          t.seq = upd s.tab.seq (p.1 ||| p.2) (some (q1 ++ q2 ++ [(lowbitI p.1, lowbitI p.2)])) → SeqOK n t := by
        intro q1 q2 t g1 g2 ht x q hx
        rw [ht] at hx
        by_cases hxx : x = p.1 ||| p.2
        · subst hxx
          simp only [upd_same, Option.some.injEq] at hx
          subst hx
          exact seqOK_join hs g1 g2 (bits_disjoint.mpr hd') (bits_lor _ _)
        · rw [upd_ne _ _ hxx] at hx
          exact hs x q hx
      repeat' split at h
      all_goals first
        | (rw [except_pure_ok] at h; subst h; exact hs)
        | (simp only [except_bind_ok] at h
           obtain ⟨q1, h1, q2, h2, h⟩ := h
           rw [except_pure_ok] at h
           subst h
           exact key q1 q2 _ (getSeq_ok h1) (getSeq_ok h2) rfl)

theorem foldlM_inv {α σ : Type} {P : σ → Prop} {f : σ → α → Except PyErr σ} (hf : ∀ s a s', P s → f s a = .ok s' → P s') :
    ∀ (l : List α) s s', P s → l.foldlM f s = .ok s' → P s' := by
  intro l
  induction l with
  | nil => intro s s' h e; cases e; exact h
  | cons a l ih =>
    intro s s' h e
    rw [List.foldlM_cons, except_bind_ok] at e
    obtain ⟨s1, h1, h2⟩ := e
    exact ih s1 s' (hf _ _ _ h h1) h2

theorem capLoop_seq {typ : Option Nat} {n chi : Nat} : ∀ fuel muOld muNew s s', SeqOK n s.tab →
    capLoop typ n chi fuel muOld muNew s = some (.ok s') → SeqOK n s'.tab := by
  have round : ∀ muOld muNew s s', SeqOK n s.tab → capRound typ n muOld muNew s = .ok s' → SeqOK n s'.tab := by
    intro muOld muNew s s' hs h
    unfold capRound at h
    refine foldlM_inv (P := fun s : CapState => SeqOK n s.tab) ?_ _ _ _ hs h
    intro s c s' hs h
    refine foldlM_inv (P := fun s : CapState => SeqOK n s.tab) ?_ _ _ _ hs h
    intro s c1 s' hs h
    refine foldlM_inv (P := fun s : CapState => SeqOK n s.tab) ?_ _ _ _ hs h
    intro s p s' hs h
    exact capPair_seq hs h
  intro fuel
  induction fuel with
  | zero =>
    intro muOld muNew s s' hs h
    unfold capLoop at h
    split at h
    · cases h; exact hs
    · cases h
  | succ fuel ih =>
    intro muOld muNew s s' hs h
    unfold capLoop at h
    split at h
    · cases h; exact hs
    · simp only at h
      split at h
      · cases h
      · rename_i s1 e
        have := round _ _ _ _ hs e
        exact ih _ _ (clearNew n s1) _ this h

theorem capping_tree {g : Input} {typ : Option Nat} {fuel : Nat} {s q} (h : capping g typ fuel = some (.ok (s, q))) :
    ∃ T : CTree, T.Complete g.edges.length ∧ T.steps = q := by
  unfold capping at h
  simp only at h
  split at h
  · cases h
  · split at h
    · cases h
    · simp only [Option.map_eq_some_iff] at h
      obtain ⟨r, h1, h2⟩ := h
      simp only [except_bind_ok] at h2
      obtain ⟨s1, rfl, q1, h3, h4⟩ := h2
      rw [except_pure_ok] at h4
      cases h4
      exact full_valid (capLoop_seq _ _ _ _ _ (seqOK_init g) h1) (getSeq_ok h3)

end CTL
