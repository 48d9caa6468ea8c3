import Verif.Model.FTN

/-! # C24: a locked network cannot change -/

namespace CTL
variable {R : Type}

/-- What makes up a network: its tensors, links, renames and fusions. -/
structure NetStructure where
  tensors : List String
  links : List ((String × String) × (String × String))
  before : List (String × String × String)
  after : List (String × String × String)
  fusions : List (List OutLabel × String)
deriving DecidableEq, Repr

/-- The structure of network `i`. -/
def NetWorld.structureOf (w : NetWorld) (i : Nat) : Option NetStructure :=
  w.nets[i]?.map fun f => ⟨w.lists f.names, f.links, f.changeNameBefore, f.changeNameAfter, f.outProductAfter⟩

/-- Network `i` exists and is locked. -/
def NetWorld.IsLocked (w : NetWorld) (i : Nat) : Prop := ∃ f, w.nets[i]? = some f ∧ f.locked = true

/-- The worlds after each of the calls. -/
def NetWorld.run [CommSemiring R] (rand : List Nat → List Nat → R) (cast : R → R) : NetWorld → List (WorldOp R) → NetWorld
  | w, [] => w
  | w, op :: ops => NetWorld.run rand cast (w.step rand cast op).1 ops

/-- A call that unlocks network `i`. -/
def WorldOp.Unlocks (i : Nat) : WorldOp R → Prop
  | .method j op => j = i ∧ op = .unlock
  | _ => False

/-- A call that creates a network with the names list `k`. -/
def WorldOp.Shares (k : Nat) : WorldOp R → Prop
  | .create names _ _ => names.getD 0 = k
  | _ => False

/-- Only network `i` uses the names list `k`. -/
def NetWorld.Alone (w : NetWorld) (i k : Nat) : Prop :=
  k < w.nextList ∧ (∃ f, w.nets[i]? = some f ∧ f.names = k) ∧ ∀ j f, w.nets[j]? = some f → f.names = k → j = i

/-- Every method other than `lock` and `unlock` raises AssertionError on a locked network, and nothing at all changes,
neither in this network nor in any other. -/
theorem C24_locked_raises [CommSemiring R] (rand : List Nat → List Nat → R) (cast : R → R) (w : NetWorld) (i : Nat)
    (h : w.IsLocked i) (op : NetOp) (h1 : op ≠ .lock) (h2 : op ≠ .unlock) :
    w.step rand cast (.method i op) = (w, some .assertionError) := by
  obtain ⟨f, hf, hl⟩ := h
  have ha : f.apply (w.lists f.names) op = (w.lists f.names, f, some .assertionError) := by
    cases op <;> first | (exact absurd rfl h1) | (exact absurd rfl h2) | simp [FTN.apply, FTN.checked, hl]
  simp only [NetWorld.step, hf, ha]
  have e1 : w.nets.set i f = w.nets := by
    obtain ⟨hi, he⟩ := List.getElem?_eq_some_iff.mp hf
    rw [← he, List.set_getElem_self]
  have e2 : (fun k => if k = f.names then w.lists f.names else w.lists k) = w.lists := by
    funext k
    split
    · next h => rw [h]
    · rfl
  rw [e1, e2]

/-- An unlocked network accepts additions: the check is the lock and nothing else. -/
theorem C24_unlocked_adds [CommSemiring R] (rand : List Nat → List Nat → R) (cast : R → R) (w : NetWorld) (i : Nat) (f : FTN)
    (hf : w.nets[i]? = some f) (hl : f.locked = false) (n : String) :
    (w.step rand cast (.method i (.addTensor n))).2 = none ∧
    (w.step rand cast (.method i (.addTensor n))).1.structureOf i = some
      ⟨w.lists f.names ++ [n], f.links, f.changeNameBefore, f.changeNameAfter, f.outProductAfter⟩ := by
  have hi := (List.getElem?_eq_some_iff.mp hf).1
  simp only [NetWorld.step, hf, FTN.apply, FTN.checked, hl, NetWorld.structureOf, List.getElem?_set_self hi]
  simp

theorem contract_structure [CommSemiring R] (rand : List Nat → List Nat → R) (cast : R → R) (f : FTN) (names : List String)
    (st : Store) (dict : List (String × Tensor R)) (rt : Bool) (fuel : Nat) :
    let g := (f.contract rand cast names st dict rt fuel).1
    g.locked = true ∧ g.names = f.names ∧ g.links = f.links ∧ g.changeNameBefore = f.changeNameBefore ∧
      g.changeNameAfter = f.changeNameAfter ∧ g.outProductAfter = f.outProductAfter := by
  unfold FTN.contract
  dsimp only
  split
  · exact ⟨rfl, rfl, rfl, rfl, rfl, rfl⟩
  · split
    · exact ⟨rfl, rfl, rfl, rfl, rfl, rfl⟩
    · split
      · split <;> exact ⟨rfl, rfl, rfl, rfl, rfl, rfl⟩
      · exact ⟨rfl, rfl, rfl, rfl, rfl, rfl⟩

/-- After `lock`, and after a call of `contract` whatever became of it, the network is locked; it has the structure it
had before. -/
theorem C24_gets_locked [CommSemiring R] (rand : List Nat → List Nat → R) (cast : R → R) (w : NetWorld) (i : Nat)
    (hi : i < w.nets.length) (op : WorldOp R)
    (h : op = .method i .lock ∨ ∃ st dict rt fuel, op = .contract i st dict rt fuel) :
    (w.step rand cast op).1.IsLocked i ∧ (w.step rand cast op).1.structureOf i = w.structureOf i := by
  have hf : w.nets[i]? = some w.nets[i] := List.getElem?_eq_getElem hi
  rcases h with rfl | ⟨st, dict, rt, fuel, rfl⟩
  · simp [NetWorld.step, hf, FTN.apply, NetWorld.IsLocked, NetWorld.structureOf, hi]
  · obtain ⟨h1, h2, h3, h4, h5, h6⟩ := contract_structure rand cast w.nets[i] (w.lists w.nets[i].names) st dict rt fuel
    simp only [NetWorld.step, hf, NetWorld.IsLocked, NetWorld.structureOf, List.getElem?_set_self hi]
    exact ⟨⟨_, rfl, h1⟩, by simp [h2, h3, h4, h5, h6]⟩

theorem apply_names (f : FTN) (names : List String) (op : NetOp) : (f.apply names op).2.1.names = f.names := by
  cases op <;> simp only [FTN.apply, FTN.checked, removeFrom] <;> repeat' (first | rfl | split)

theorem apply_locked (f : FTN) (names : List String) (op : NetOp) (h : op ≠ .unlock) (hl : f.locked = true) :
    (f.apply names op).1 = names ∧ (f.apply names op).2.1 = f := by
  cases op <;> first | (exact absurd rfl h) | skip
  all_goals simp [FTN.apply, FTN.checked, hl]
  all_goals (cases f; simp_all)

theorem step_locked [CommSemiring R] (rand : List Nat → List Nat → R) (cast : R → R) (w : NetWorld) (i k : Nat)
    (ha : w.Alone i k) (h : w.IsLocked i) (op : WorldOp R) (hu : ¬ op.Unlocks i) (hs : ¬ op.Shares k) :
    (w.step rand cast op).1.Alone i k ∧ (w.step rand cast op).1.IsLocked i ∧
      (w.step rand cast op).1.structureOf i = w.structureOf i := by
  obtain ⟨hk, ⟨f, hf, hfk⟩, hj⟩ := ha
  obtain ⟨f', hf', hl⟩ := h
  obtain rfl : f = f' := by rw [hf] at hf'; exact Option.some.inj hf'
  have hi := (List.getElem?_eq_some_iff.mp hf).1
  cases op with
  | create names rc td =>
    simp only [WorldOp.Shares] at hs
    have e : (w.nets ++ [FTN.new (names.getD 0) rc td])[i]? = some f := by rw [List.getElem?_append_left hi, hf]
    refine ⟨⟨hk, ⟨f, e, hfk⟩, ?_⟩, ⟨f, e, hl⟩, ?_⟩
    · intro j g hg hgk
      simp only [NetWorld.step] at hg
      rcases Nat.lt_trichotomy j w.nets.length with h | h | h
      · rw [List.getElem?_append_left h] at hg
        exact hj j g hg hgk
      · subst h
        simp at hg
        subst hg
        exact absurd hgk hs
      · rw [List.getElem?_eq_none (by simp; omega)] at hg
        simp at hg
    · simp only [NetWorld.structureOf, NetWorld.step, e, hf]
  | method j op =>
    simp only [NetWorld.step]
    cases hw : w.nets[j]? with
    | none => exact ⟨⟨hk, ⟨f, hf, hfk⟩, hj⟩, ⟨f, hf, hl⟩, rfl⟩
    | some g =>
      simp only
      have hnames := apply_names g (w.lists g.names) op
      have hj' := (List.getElem?_eq_some_iff.mp hw).1
      by_cases hij : j = i
      · subst hij
        obtain rfl : f = g := by rw [hf] at hw; exact Option.some.inj hw
        have hop : op ≠ .unlock := fun e => hu ⟨rfl, e⟩
        obtain ⟨e1, e2⟩ := apply_locked f (w.lists f.names) op hop hl
        rw [e1, e2]
        have s1 : w.nets.set j f = w.nets := by
          obtain ⟨hi, he⟩ := List.getElem?_eq_some_iff.mp hf
          rw [← he, List.set_getElem_self]
        have s2 : (fun k => if k = f.names then w.lists f.names else w.lists k) = w.lists := by
          funext k
          split
          · next h => rw [h]
          · rfl
        rw [s1, s2]
        exact ⟨⟨hk, ⟨f, hf, hfk⟩, hj⟩, ⟨f, hf, hl⟩, rfl⟩
      · have hgk : g.names ≠ k := fun e => hij (hj j g hw e)
        have e : (w.nets.set j (g.apply (w.lists g.names) op).2.1)[i]? = some f := by
          rw [List.getElem?_set_ne hij, hf]
        refine ⟨⟨hk, ⟨f, e, hfk⟩, ?_⟩, ⟨f, e, hl⟩, ?_⟩
        · intro j2 g2 hg2 hk2
          simp only [List.getElem?_set] at hg2
          split at hg2
          · next h =>
            subst h
            obtain rfl := Option.some.inj hg2
            exact absurd (hnames ▸ hk2) hgk
          · exact hj j2 g2 hg2 hk2
        · simp only [NetWorld.structureOf, e, hf, Option.map_some]
          have hfg : f.names ≠ g.names := by rw [hfk]; exact fun h => hgk h.symm
          simp [hfg]
  | contract j st dict rt fuel =>
    simp only [NetWorld.step]
    cases hw : w.nets[j]? with
    | none => exact ⟨⟨hk, ⟨f, hf, hfk⟩, hj⟩, ⟨f, hf, hl⟩, rfl⟩
    | some g =>
      simp only
      have hj' := (List.getElem?_eq_some_iff.mp hw).1
      obtain ⟨h1, h2, h3, h4, h5, h6⟩ := contract_structure rand cast g (w.lists g.names) st dict rt fuel
      set r := (g.contract rand cast (w.lists g.names) st dict rt fuel).1 with hr
      have halone : ∀ j2 g2, (w.nets.set j r)[j2]? = some g2 → g2.names = k → j2 = i := by
        intro j2 g2 hg2 hk2
        simp only [List.getElem?_set] at hg2
        split at hg2
        · next h =>
          subst h
          obtain rfl := Option.some.inj hg2
          exact hj j g hw (h2 ▸ hk2)
        · exact hj j2 g2 hg2 hk2
      by_cases hij : j = i
      · subst hij
        obtain rfl : f = g := by rw [hf] at hw; exact Option.some.inj hw
        have e : (w.nets.set j r)[j]? = some r := List.getElem?_set_self hi
        refine ⟨⟨hk, ⟨r, e, h2.trans hfk⟩, halone⟩, ⟨r, e, h1⟩, ?_⟩
        simp only [NetWorld.structureOf, e, hf, Option.map_some, h2, h3, h4, h5, h6]
      · have e : (w.nets.set j r)[i]? = some f := by rw [List.getElem?_set_ne hij, hf]
        refine ⟨⟨hk, ⟨f, e, hfk⟩, halone⟩, ⟨f, e, hl⟩, ?_⟩
        simp only [NetWorld.structureOf, e, hf, Option.map_some]
  | newList l =>
    simp only [NetWorld.step, NetWorld.structureOf]
    refine ⟨⟨Nat.lt_succ_of_lt hk, ⟨f, hf, hfk⟩, hj⟩, ⟨f, hf, hl⟩, ?_⟩
    simp only [hf, Option.map_some]
    rw [hfk]
    simp [(Nat.ne_of_lt hk)]

/-- C24: as long as nobody unlocks it, a locked network keeps its structure and stays locked through all calls, on this
network and on others, provided that it does not share its names list with another network. -/
theorem C24_locked_until_unlock [CommSemiring R] (rand : List Nat → List Nat → R) (cast : R → R) (i k : Nat)
    (ops : List (WorldOp R)) (w : NetWorld) (ha : w.Alone i k) (h : w.IsLocked i) (hu : ∀ op ∈ ops, ¬ op.Unlocks i)
    (hs : ∀ op ∈ ops, ¬ op.Shares k) :
    (w.run rand cast ops).IsLocked i ∧ (w.run rand cast ops).structureOf i = w.structureOf i := by
  induction ops generalizing w with
  | nil => exact ⟨h, rfl⟩
  | cons op ops ih =>
    obtain ⟨h1, h2, h3⟩ := step_locked rand cast w i k ha h op (hu op (by simp)) (hs op (by simp))
    obtain ⟨h4, h5⟩ := ih _ h1 h2 (fun o ho => hu o (by simp [ho])) (fun o ho => hs o (by simp [ho]))
    exact ⟨h4, h5.trans h3⟩

/-- A network with a list of its own. -/
def lockWorld : NetWorld :=
  NetWorld.run (R := Int) (fun _ _ => 0) id .start [.newList ["a", "b"], .create (some 1) true 10,
    .create none true 10, .method 0 (.addLink "a" "x" "b" "y"), .method 0 .lock]

example : lockWorld.Alone 0 1 ∧ lockWorld.IsLocked 0 ∧
    lockWorld.structureOf 0 = some ⟨["a", "b"], [(("a", "a-x"), ("b", "b-y"))], [], [], []⟩ := by
  refine ⟨⟨by decide, ⟨_, rfl, rfl⟩, ?_⟩, ⟨_, rfl, rfl⟩, by decide +kernel⟩
  intro j f hj hf
  match j with
  | 0 => rfl
  | 1 =>
    obtain rfl := Option.some.inj hj
    exact absurd hf (by decide)
  | j + 2 => simp [lockWorld, NetWorld.run, NetWorld.step, NetWorld.start] at hj

/-- Without that condition it is false: all networks that are created without a list of names share the default
argument of `__init__`, so adding a tensor to one of them adds it to a locked one, too. -/
theorem C24_shared_default_wrong :
    let w := NetWorld.run (R := Int) (fun _ _ => 0) id .start
      [.create none true 10, .method 0 (.addTensor "a"), .method 0 .lock, .create none true 10]
    w.IsLocked 0 ∧ (w.structureOf 0).map (·.tensors) = some ["a"] ∧ (w.structureOf 1).map (·.tensors) = some ["a"] ∧
    (w.step (R := Int) (fun _ _ => 0) id (.method 1 (.addTensor "b"))).2 = none ∧
    ((w.step (R := Int) (fun _ _ => 0) id (.method 1 (.addTensor "b"))).1.structureOf 0).map (·.tensors)
      = some ["a", "b"] :=
  ⟨⟨_, rfl, rfl⟩, by decide, by decide, by decide, by decide⟩

example : lockWorld.step (R := Int) (fun _ _ => 0) id (.method 0 (.addTensor "c")) = (lockWorld, some .assertionError) :=
  C24_locked_raises _ _ _ _ ⟨_, rfl, rfl⟩ _ (by decide) (by decide)

end CTL
