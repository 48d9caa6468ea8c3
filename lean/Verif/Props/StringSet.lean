import Verif.Spec.StringSet
import Mathlib.Data.List.Nodup

/-! # C25: a string set never hands out a name in use -/

namespace CTL

theorem draw_spec {s : StringSet} {rng : Nat → Char} : ∀ {fuel pos : Nat} {t : String} {pos' : Nat},
    s.draw rng fuel pos = some (t, pos') → t ∉ s.stringSet ∧ ∃ p, t = (randomString rng p s.n).1 := by
  intro fuel
  induction fuel with
  | zero => intro pos t pos' h; cases h
  | succ fuel ih =>
    intro pos t pos' h
    unfold StringSet.draw at h
    simp only at h
    split at h
    · exact ih h
    · rename_i hr
      injection h with h
      have : t = (randomString rng pos s.n).1 := (congrArg Prod.fst h).symm
      rw [this]
      exact ⟨hr, pos, rfl⟩

theorem nameRun_spec {rng : Nat → Char} {fuel : Nat} {n : Int} {st : StringSet × Nat} {obs : List NameObs}
    (h : NameRun rng fuel n st obs) : st.1.stringSet.Nodup ∧ ∀ t, t ∈ st.1.stringSet ↔ InUse t obs := by
  have push : ∀ {l : List String} {u : String} {obs : List NameObs}, u ∉ l → l.Nodup ∧ (∀ t, t ∈ l ↔ InUse t obs) →
      (l ++ [u]).Nodup ∧ ∀ t, t ∈ l ++ [u] ↔ (u = t ∨ InUse t obs) := by
    intro l u obs hu ⟨h1, h2⟩
    refine ⟨List.nodup_append.mpr ⟨h1, by simp, ?_⟩, ?_⟩
    · intro a ha b hb
      simp only [List.mem_singleton] at hb
      subst hb
      rintro rfl
      exact hu ha
    · intro t
      rw [List.mem_append, List.mem_singleton, h2]
      constructor
      · rintro (h | h)
        · exact Or.inr h
        · exact Or.inl h.symm
      · rintro (h | h)
        · exact Or.inr h.symm
        · exact Or.inl h
  induction h with
  | start => simp [StringSet.new, InUse]
  | @step st st' obs op o hr hs ih =>
    cases op with
    | newName w =>
      simp only [nameStep, Option.map_eq_some_iff] at hs
      obtain ⟨r, hr', hs⟩ := hs
      cases w with
      | none =>
        simp only [StringSet.newString, Option.map_eq_some_iff] at hr'
        obtain ⟨q, hq, rfl⟩ := hr'
        simp only [Prod.mk.injEq] at hs
        obtain ⟨rfl, rfl⟩ := hs
        exact push (draw_spec hq).1 ih
      | some t =>
        simp only [StringSet.newString] at hr'
        split at hr'
        · injection hr' with hr'
          subst hr'
          simp only [Prod.mk.injEq] at hs
          obtain ⟨rfl, rfl⟩ := hs
          exact ih
        · rename_i ht
          injection hr' with hr'
          subst hr'
          simp only [Prod.mk.injEq] at hs
          obtain ⟨rfl, rfl⟩ := hs
          exact push ht ih
    | add t =>
      simp only [nameStep, StringSet.add] at hs
      by_cases ht : t ∈ st.1.stringSet
      · simp only [if_pos ht, Option.some.injEq, Prod.mk.injEq] at hs
        obtain ⟨rfl, rfl⟩ := hs
        exact ih
      · simp only [if_neg ht, Option.some.injEq, Prod.mk.injEq] at hs
        obtain ⟨rfl, rfl⟩ := hs
        exact push ht ih
    | remove t =>
      simp only [nameStep, StringSet.remove] at hs
      by_cases ht : t ∈ st.1.stringSet
      · simp only [if_pos ht, Option.some.injEq, Prod.mk.injEq] at hs
        obtain ⟨rfl, rfl⟩ := hs
        refine ⟨ih.1.erase _, ?_⟩
        intro u
        show u ∈ st.1.stringSet.erase t ↔ (t ≠ u ∧ InUse u obs)
        rw [ih.1.mem_erase_iff, ih.2]
        exact ⟨fun h => ⟨h.1.symm, h.2⟩, fun h => ⟨h.1.symm, h.2⟩⟩
      · simp only [if_neg ht, Option.some.injEq, Prod.mk.injEq] at hs
        obtain ⟨rfl, rfl⟩ := hs
        exact ih
    | contains t =>
      simp only [nameStep, Option.some.injEq, Prod.mk.injEq] at hs
      obtain ⟨rfl, rfl⟩ := hs
      exact ih

/-- After any history, `contains` is exactly membership of the names handed out or added and not removed since. -/
theorem C25_contains {rng : Nat → Char} {fuel : Nat} {n : Int} {st : StringSet × Nat} {obs : List NameObs}
    (h : NameRun rng fuel n st obs) (t : String) : st.1.contains t = true ↔ InUse t obs := by
  unfold StringSet.contains
  rw [decide_eq_true_iff]
  exact (nameRun_spec h).2 t

/-- After any history, a generated name is not in use, is recorded (and nothing else changes), and consists of `n`
letters of the random sequence. -/
theorem C25_newString {rng : Nat → Char} {fuel : Nat} {n : Int} {st : StringSet × Nat} {obs : List NameObs}
    (h : NameRun rng fuel n st obs) {s' : StringSet} {t : String} {pos' fuel' : Nat}
    (hn : st.1.newString rng fuel' st.2 none = some (.ok (s', t, pos'))) :
    ¬ InUse t obs ∧ s'.contains t = true ∧ (∀ u, u ≠ t → (s'.contains u = true ↔ InUse u obs)) ∧
      t.length = st.1.n.toNat ∧ ∀ c ∈ t.toList, ∃ i, c = rng i := by
  simp only [StringSet.newString, Option.map_eq_some_iff] at hn
  obtain ⟨q, hq, hn⟩ := hn
  simp only [Except.ok.injEq, Prod.mk.injEq] at hn
  obtain ⟨rfl, rfl, rfl⟩ := hn
  obtain ⟨h1, p, h2⟩ := draw_spec hq
  refine ⟨fun hu => h1 (((nameRun_spec h).2 _).mpr hu), by simp [StringSet.contains], ?_, ?_, ?_⟩
  · intro u hu
    simp only [StringSet.contains, List.mem_append, List.mem_singleton, hu, or_false, decide_eq_true_iff]
    exact (nameRun_spec h).2 u
  · rw [h2]
    simp [randomString]
  · intro c hc
    rw [h2] at hc
    simp only [randomString, String.toList_ofList, List.mem_map] at hc
    obtain ⟨i, _, rfl⟩ := hc
    exact ⟨_, rfl⟩

/-- A requested name is refused exactly if it is in use, and handed out unchanged otherwise. -/
theorem C25_newString_given {rng : Nat → Char} {fuel : Nat} {n : Int} {st : StringSet × Nat} {obs : List NameObs}
    (h : NameRun rng fuel n st obs) (fuel' : Nat) (t : String) :
    (InUse t obs → st.1.newString rng fuel' st.2 (some t) = some (.error .assertionError)) ∧
    (¬ InUse t obs → ∃ s', st.1.newString rng fuel' st.2 (some t) = some (.ok (s', t, st.2)) ∧
      ∀ u, s'.contains u = true ↔ u = t ∨ InUse u obs) := by
  have hm := (nameRun_spec h).2
  constructor
  · intro hu
    simp only [StringSet.newString, if_pos ((hm t).mpr hu)]
  · intro hu
    refine ⟨_, by simp only [StringSet.newString, if_neg fun h => hu ((hm t).mp h)]; rfl, ?_⟩
    intro u
    simp only [StringSet.contains, List.mem_append, List.mem_singleton, decide_eq_true_iff, hm]
    exact or_comm

/-- `add` fails exactly for a name in use, `remove` exactly for one that is not. -/
theorem C25_add_remove {rng : Nat → Char} {fuel : Nat} {n : Int} {st : StringSet × Nat} {obs : List NameObs}
    (h : NameRun rng fuel n st obs) (t : String) :
    (InUse t obs → st.1.add t = .error .assertionError) ∧ (¬ InUse t obs → ∃ s', st.1.add t = .ok s' ∧
        ∀ u, s'.contains u = true ↔ u = t ∨ InUse u obs) ∧
    (¬ InUse t obs → st.1.remove t = .error .assertionError) ∧ (InUse t obs → ∃ s', st.1.remove t = .ok s' ∧
        ∀ u, s'.contains u = true ↔ u ≠ t ∧ InUse u obs) := by
  obtain ⟨hd, hm⟩ := nameRun_spec h
  refine ⟨?_, ?_, ?_, ?_⟩
  · intro hu
    simp only [StringSet.add, if_pos ((hm t).mpr hu)]
  · intro hu
    refine ⟨_, by simp only [StringSet.add, if_neg fun h => hu ((hm t).mp h)]; rfl, ?_⟩
    intro u
    simp only [StringSet.contains, List.mem_append, List.mem_singleton, decide_eq_true_iff, hm]
    exact or_comm
  · intro hu
    simp only [StringSet.remove, if_neg fun h => hu ((hm t).mp h)]
  · intro hu
    refine ⟨_, by simp only [StringSet.remove, if_pos ((hm t).mpr hu)]; rfl, ?_⟩
    intro u
    simp only [StringSet.contains, decide_eq_true_iff, hd.mem_erase_iff, hm]

/-- Drawing ends exactly if the random sequence ever offers an unused name. -/
theorem C25_newString_terminates (s : StringSet) (rng : Nat → Char) (pos : Nat) :
    (∃ fuel r, s.newString rng fuel pos none = some r) ↔
      ∃ k, (randomString rng (pos + k * s.n.toNat) s.n).1 ∉ s.stringSet := by
  have key : (∃ fuel r, s.draw rng fuel pos = some r) ↔
      ∃ k, (randomString rng (pos + k * s.n.toNat) s.n).1 ∉ s.stringSet := by
    constructor
    · rintro ⟨fuel, r, h⟩
      induction fuel generalizing pos with
      | zero => cases h
      | succ fuel ih =>
        unfold StringSet.draw at h
        simp only at h
        split at h
        · obtain ⟨k, hk⟩ := ih _ h
          refine ⟨k + 1, ?_⟩
          have : (randomString rng pos s.n).2 + k * s.n.toNat = pos + (k + 1) * s.n.toNat := by
            simp only [randomString]
            rw [Nat.add_mul, Nat.one_mul]
            omega
          rwa [this] at hk
        · rename_i hr
          exact ⟨0, by simpa using hr⟩
    · rintro ⟨k, hk⟩
      induction k generalizing pos with
      | zero =>
        refine ⟨1, randomString rng pos s.n, ?_⟩
        unfold StringSet.draw
        simp only
        rw [if_neg (by simpa using hk)]
      | succ k ih =>
        by_cases h0 : (randomString rng pos s.n).1 ∈ s.stringSet
        · have : pos + (k + 1) * s.n.toNat = (randomString rng pos s.n).2 + k * s.n.toNat := by
            simp only [randomString]
            rw [Nat.add_mul, Nat.one_mul]
            omega
          rw [this] at hk
          obtain ⟨fuel, r, h⟩ := ih _ hk
          refine ⟨fuel + 1, r, ?_⟩
          unfold StringSet.draw
          simp only
          rw [if_pos h0]
          exact h
        · refine ⟨1, randomString rng pos s.n, ?_⟩
          unfold StringSet.draw
          simp only
          rw [if_neg h0]
  rw [← key]
  constructor
  · rintro ⟨fuel, r, h⟩
    simp only [StringSet.newString, Option.map_eq_some_iff] at h
    obtain ⟨q, hq, _⟩ := h
    exact ⟨fuel, q, hq⟩
  · rintro ⟨fuel, q, h⟩
    exact ⟨fuel, _, by simp only [StringSet.newString, h, Option.map_some]; rfl⟩

example : ∃ st obs, NameRun (fun i => asciiLetters.getD (i % 3) 'x') 5 1 st obs ∧
    obs = [.named "b", .removed "q", .answered "a" true, .raised (.add "a") .assertionError, .added "q", .named "a"] ∧
    st = (⟨["a", "b"], 1⟩, 2) := by
  refine ⟨(⟨["a", "b"], 1⟩, 2), _,
    .step (.step (.step (.step (.step (.step .start (op := .newName none) (st' := (⟨["a"], 1⟩, 1)) ?_)
      (op := .add "q") (st' := (⟨["a", "q"], 2⟩, 1)) ?_)
      (op := .add "a") (st' := (⟨["a", "q"], 2⟩, 1)) ?_)
      (op := .contains "a") (st' := (⟨["a", "q"], 2⟩, 1)) ?_)
      (op := .remove "q") (st' := (⟨["a"], 1⟩, 1)) ?_) (op := .newName none) ?_, rfl, rfl⟩
  all_goals decide +kernel

/-- `remove` shortens the random names.  Once their length is down to 0 and the empty name is used, `newString()` never
returns, whatever the random sequence. -/
theorem C25_removal_exhausts (rng : Nat → Char) (pos : Nat) (s : StringSet) (hs : s.n ≤ 0) (he : "" ∈ s.stringSet)
    (fuel : Nat) : s.newString rng fuel pos none = none := by
  have h0 : s.n.toNat = 0 := by omega
  have : ∀ fuel pos, s.draw rng fuel pos = none := by
    intro fuel
    induction fuel with
    | zero => intro pos; rfl
    | succ fuel ih =>
      intro pos
      unfold StringSet.draw
      simp only [randomString, h0]
      rw [if_pos (by simpa using he)]
      exact ih _
  simp [StringSet.newString, this]

/-- Such a state is reached from `StringSet(1)` by handing out one name, removing it, and asking again. -/
theorem C25_removal_exhausts_reachable (rng : Nat → Char) :
    ∃ st obs, NameRun rng 1 1 st obs ∧ st.1.n ≤ 0 ∧ "" ∈ st.1.stringSet := by
  refine ⟨(⟨[""], 0⟩, 1), [.named "", .removed (String.ofList [rng 0]), .named (String.ofList [rng 0])],
    .step (.step (.step .start (op := .newName none) (st' := (⟨[String.ofList [rng 0]], 1⟩, 1)) ?_)
      (op := .remove (String.ofList [rng 0])) (st' := (⟨[], 0⟩, 1)) ?_) (op := .newName none) ?_, by decide, by decide⟩
  · simp [nameStep, StringSet.newString, StringSet.new, StringSet.draw, randomString]
  · simp [nameStep, StringSet.remove]
  · simp [nameStep, StringSet.newString, StringSet.draw, randomString]

example (rng : Nat → Char) (fuel : Nat) : (⟨[""], 0⟩ : StringSet).newString rng fuel 0 none = none :=
  C25_removal_exhausts rng 0 _ (by decide) (by decide) fuel

end CTL
