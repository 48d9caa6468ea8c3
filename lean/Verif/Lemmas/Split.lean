import Verif.Lemmas.Ext
import Verif.Lemmas.Svd
import Verif.Lemmas.Dense
import Verif.Props.Legs

/-! Two tensors built from the two factors of a matrix. -/

namespace CTL
variable {R : Type}
open Finset

theorem validIdx_legs {dim : LegId → Nat} {legs : List LegId} {σ : Assign} (h : InRange dim legs σ) :
    ValidIdx (legs.map dim) (legs.map σ) := by
  induction legs with
  | nil => exact .nil
  | cons l ls ih =>
    exact .cons (h l (by simp)) (ih fun m hm => h m (by simp [hm]))

/-- A new tensor from given data and legs. -/
theorem newTensor_entry [Zero R] (st : Store) (legs : List LegId) (shape : List Nat) (hsh : shape = legs.map st.dim)
    (d : NDArray R) (w : d.WF) (nd : legs.Nodup) (hp : d.shape.prod = (legs.map st.dim).prod) :
    ∃ s t, newTensor st shape (some d) legs = .ok (s, t) ∧ SameNet st s ∧ GoodTensor s t ∧ t.legs = legs ∧
      t.diag = false ∧ t.id = st.nextTensor ∧ s.nextTensor = st.nextTensor + 1 ∧
      ∀ σ, entry t σ = (⟨legs.map st.dim, d.data⟩ : NDArray R).get (legs.map σ) := by
  subst hsh
  obtain ⟨s, t, h1, h2, h3, h4, -⟩ := newTensor_ok st legs d hp
  refine ⟨s, t, h1, h2, ?_, by rw [h3], by rw [h3], by rw [h3], h4, ?_⟩
  · subst h3
    refine ⟨nd, rfl, _, rfl, ?_, fun _ => ?_, fun h => absurd h (by simp)⟩
    · have := w
      unfold NDArray.WF at this ⊢
      simp only
      rw [this, hp]
    · simp only [h2.dim]
  · intro σ
    subst h3
    simp [entry]

theorem get_left [Zero R] (d : NDArray R) (dim : LegId → Nat) (LA : List LegId) (x : LegId) {n k : Nat}
    (hs : d.shape = [n, k]) (hk : dim x = k) (σ : Assign) (hσ : InRange dim LA σ) :
    (⟨(LA ++ [x]).map dim, d.data⟩ : NDArray R).get ((LA ++ [x]).map σ) = d.get [ravel (LA.map dim) (LA.map σ), σ x] := by
  apply NDArray.get_mk_reshape
  rw [List.map_append, List.map_append, ravel_append (validIdx_legs hσ), hs]
  simp [ravel, hk]

theorem get_right [Zero R] (d : NDArray R) (dim : LegId → Nat) (LB : List LegId) (y : LegId) {m k : Nat}
    (hs : d.shape = [k, m]) (hm : m = (LB.map dim).prod) (σ : Assign) :
    (⟨(y :: LB).map dim, d.data⟩ : NDArray R).get ((y :: LB).map σ) = d.get [σ y, ravel (LB.map dim) (LB.map σ)] := by
  apply NDArray.get_mk_reshape
  rw [hs]
  simp [ravel, hm]

/-- The two new legs, and the tensors built on them; not linked yet. -/
theorem split_core [Zero R] {st : Store} (w : WFStore st) {LA LB : List LegId} (hA : ∀ l ∈ LA, l < st.nextLeg)
    (hB : ∀ l ∈ LB, l < st.nextLeg) (nA : LA.Nodup) (nB : LB.Nodup) (k : Nat) (la lb : String) (dU dV : NDArray R)
    (wU : dU.WF) (wV : dV.WF) (sU : dU.shape = [(LA.map st.dim).prod, k]) (sV : dV.shape = [k, (LB.map st.dim).prod]) :
    ∃ s2 s3 u s4 v, ((st.newLeg none k la).1.newLeg none k lb).1 = s2 ∧
      newTensor s2 (LA.map s2.dim ++ [k]) (some dU) (LA ++ [st.nextLeg]) = .ok (s3, u) ∧
      newTensor s2 ((LA ++ [st.nextLeg]).map s2.dim) (some dU) (LA ++ [st.nextLeg]) = .ok (s3, u) ∧
      newTensor s3 (k :: LB.map s3.dim) (some dV) ((st.nextLeg + 1) :: LB) = .ok (s4, v) ∧
      newTensor s3 (((st.nextLeg + 1) :: LB).map s3.dim) (some dV) ((st.nextLeg + 1) :: LB) = .ok (s4, v) ∧
      Grows st s4 ∧ s4.nextLeg = st.nextLeg + 2 ∧ s4.nextBond = st.nextBond ∧ (∀ l < st.nextLeg, s4.name l = st.name l) ∧
      s4.name st.nextLeg = la ∧ s4.name (st.nextLeg + 1) = lb ∧ s4.dim st.nextLeg = k ∧ s4.dim (st.nextLeg + 1) = k ∧
      (s4.leg st.nextLeg).bond = none ∧ (s4.leg (st.nextLeg + 1)).bond = none ∧
      GoodTensor s4 u ∧ GoodTensor s4 v ∧ u.legs = LA ++ [st.nextLeg] ∧ v.legs = (st.nextLeg + 1) :: LB ∧
      u.diag = false ∧ v.diag = false ∧
      (∀ σ, InRange st.dim LA σ → entry u σ = dU.get [ravel (LA.map st.dim) (LA.map σ), σ st.nextLeg]) ∧
      (∀ σ, entry v σ = dV.get [σ (st.nextLeg + 1), ravel (LB.map st.dim) (LB.map σ)]) ∧
      (st.nextTensor ≤ u.id ∧ u.id < v.id ∧ v.id < s4.nextTensor) := by
  generalize hx : st.nextLeg = x at *
  generalize hs1 : (st.newLeg none k la).1 = s1
  have e1 : Grows st s1 := hs1 ▸ newLeg_ext st none k la
  have n1 : s1.nextLeg = x + 1 := by rw [← hs1, ← hx]; rfl
  have t1 : s1.nextTensor = st.nextTensor := by rw [← hs1]; rfl
  have b1 : s1.nextBond = st.nextBond := by rw [← hs1]; rfl
  have lx1 : s1.leg x = ⟨k, la, none, none⟩ := by rw [← hs1, ← hx]; exact newLeg_new st none k la
  have ol1 : ∀ l < x, s1.leg l = st.leg l := by
    intro l hl; rw [← hs1]; exact newLeg_leg_other st none k la (by rw [hx]; exact hl.ne)
  generalize hs2 : (s1.newLeg none k lb).1 = s2
  have e2 : Grows s1 s2 := hs2 ▸ newLeg_ext s1 none k lb
  have n2 : s2.nextLeg = x + 2 := by rw [← hs2]; show s1.nextLeg + 1 = _; rw [n1]
  have t2 : s2.nextTensor = st.nextTensor := by rw [← hs2]; exact t1
  have b2 : s2.nextBond = st.nextBond := by rw [← hs2]; exact b1
  have ly2 : s2.leg (x + 1) = ⟨k, lb, none, none⟩ := by rw [← hs2, ← n1]; exact newLeg_new s1 none k lb
  have ol2 : ∀ l < x + 1, s2.leg l = s1.leg l := by
    intro l hl; rw [← hs2]; exact newLeg_leg_other s1 none k lb (by rw [n1]; exact hl.ne)
  have lx2 : s2.leg x = ⟨k, la, none, none⟩ := by rw [ol2 x (Nat.lt_succ_self x), lx1]
  have e12 := e1.trans e2
  have dA : LA.map s2.dim = LA.map st.dim := List.map_congr_left fun l hl => e12.dim l (hx ▸ hA l hl)
  have dB : LB.map s2.dim = LB.map st.dim := List.map_congr_left fun l hl => e12.dim l (hx ▸ hB l hl)
  have dx : s2.dim x = k := by unfold Store.dim; rw [lx2]
  have dy : s2.dim (x + 1) = k := by unfold Store.dim; rw [ly2]
  have nA' : (LA ++ [x]).Nodup := by
    rw [List.nodup_append]
    refine ⟨nA, by simp, ?_⟩
    intro a ha b hb
    rw [List.mem_singleton] at hb
    subst hb
    exact (hA a ha).ne
  have nB' : ((x + 1) :: LB).Nodup := by
    rw [List.nodup_cons]
    exact ⟨fun h => absurd (hB _ h) (by intro h2; exact absurd h2 (Nat.not_lt.mpr (Nat.le_succ x))), nB⟩
  obtain ⟨s3, u, h1, same3, g3, l3, dg3, id3, nt3, en3⟩ := newTensor_entry s2 (LA ++ [x]) _ rfl dU wU nA'
    (by rw [sU, List.map_append, dA]; simp [dx])
  have dB3 : LB.map s3.dim = LB.map st.dim := by rw [same3.dim, dB]
  obtain ⟨s4, v, h2, same4, g4, l4, dg4, id4, nt4, en4⟩ := newTensor_entry s3 ((x + 1) :: LB) _ rfl dV wV nB'
    (by rw [sV, List.map_cons, dB3]; simp [same3.dim, dy])
  have sm : SameNet s2 s4 := same3.trans same4
  refine ⟨s2, s3, u, s4, v, rfl, ?_, h1, ?_, h2, (e12.trans sm.ext), by rw [sm.nextLeg, n2], by rw [sm.nextBond, b2], ?_, ?_, ?_, ?_, ?_, ?_, ?_,
    g3.congr same4, g4, l3, l4, dg3, dg4, ?_, ?_, ?_⟩
  · rw [← h1]; simp [dx]
  · rw [← h2]; simp [same3.dim, dy]
  · intro l hl
    rw [sm.name]
    unfold Store.name
    rw [ol2 l (Nat.lt_succ_of_lt hl), ol1 l hl]
  · rw [sm.name]; unfold Store.name; rw [lx2]
  · rw [sm.name]; unfold Store.name; rw [ly2]
  · rw [sm.dim, dx]
  · rw [sm.dim, dy]
  · rw [sm.bondOf, lx2]
  · rw [sm.bondOf, ly2]
  · intro σ hσ
    rw [en3, get_left dU s2.dim LA x sU dx σ, dA]
    intro l hl
    rw [e12.dim l (hx ▸ hA l hl)]
    exact hσ l hl
  · intro σ
    rw [en4, get_right dV s3.dim LB (x + 1) sV (by rw [dB3]) σ, dB3]
  · rw [id3, id4, nt4, nt3, t2]
    exact ⟨le_rfl, Nat.lt_succ_self _, Nat.lt_succ_self _⟩

/-- Linking the two new legs. -/
theorem split_link {st s4 s5 : Store} (w : WFStore st) (e : Grows st s4) (nl : s4.nextLeg = st.nextLeg + 2)
    {LA LB : List LegId} {k : Nat} {na nb : String} {u v : Tensor R}
    (lu : u.legs = LA ++ [st.nextLeg]) (lv : v.legs = (st.nextLeg + 1) :: LB)
    (nx : s4.name st.nextLeg = na) (ny : s4.name (st.nextLeg + 1) = nb) (dx : s4.dim st.nextLeg = k)
    (dy : s4.dim (st.nextLeg + 1) = k)
    (bx : (s4.leg st.nextLeg).bond = none) (by' : (s4.leg (st.nextLeg + 1)).bond = none)
    (gu : GoodTensor s4 u) (gv : GoodTensor s4 v) (du : u.diag = false) (dv : v.diag = false)
    {L : List LegId} (sb : SameButNames s4 s5 L) (hL : ∀ l ∈ L, l < st.nextLeg)
    (gone : List LegId) (names : ∀ l < st.nextLeg, l ∉ gone → s5.name l = st.name l) :
    linkOr (makeLinkLegs s5 [st.nextLeg] [st.nextLeg + 1]) = .ok (bonded s5 st.nextLeg (st.nextLeg + 1)) ∧
    Split st (bonded s5 st.nextLeg (st.nextLeg + 1)) gone LA LB k na nb u v st.nextLeg (st.nextLeg + 1) := by
  have nl5 : s5.nextLeg = st.nextLeg + 2 := by rw [sb.2.2.2.1, nl]
  have hd : s5.dim st.nextLeg = s5.dim (st.nextLeg + 1) := by rw [sb.dim, sb.dim, dx, dy]
  have xn : st.nextLeg ∉ L := fun h => lt_irrefl _ (hL _ h)
  have yn : st.nextLeg + 1 ∉ L := fun h => absurd (hL _ h) (Nat.not_lt.mpr (Nat.le_succ _))
  have e5 : Grows st s5 := e.trans sb.ext
  have eb : Grows st (bonded s5 st.nextLeg (st.nextLeg + 1)) :=
    bonded_ext e5 le_rfl (Nat.le_succ _) (by rw [nl5]; exact Nat.lt_succ_of_lt (Nat.lt_succ_self _))
      (by rw [nl5]; exact Nat.lt_succ_self _) (by rw [sb.bondOf, bx]) (by rw [sb.bondOf, by']) hd
  constructor
  · rw [linkOr_two s5 _ _ hd]
    rfl
  · refine ⟨lu, lv, ⟨le_rfl, ?_⟩, ⟨Nat.le_succ _, ?_⟩, (Nat.lt_succ_self _).ne, eb.le, ?_, ?_, ?_, ?_,
      bonded_partner _ _, eb.dim, ?_, eb.bond, eb.partner w, eb.wf w, ?_, ?_, du, dv⟩
    · show _ < s5.nextLeg
      rw [nl5]; exact Nat.lt_succ_of_lt (Nat.lt_succ_self _)
    · show _ < s5.nextLeg
      rw [nl5]; exact Nat.lt_succ_self _
    · rw [bonded_dim, sb.dim, dx]
    · rw [bonded_dim, sb.dim, dy]
    · rw [bonded_name, sb.name xn, nx]
    · rw [bonded_name, sb.name yn, ny]
    · intro l hl hg
      rw [bonded_name, names l hl hg]
    · exact gu.congr_dim fun l _ => by rw [bonded_dim, sb.dim]
    · exact gv.congr_dim fun l _ => by rw [bonded_dim, sb.dim]

/-- The factors of a cut decomposition as tensors: what `u` and `v` give together. -/
theorem split_entries [CommSemiring R] {la : LinAlg R} {u : NDArray R} {s : List R} {vh : NDArray R} {n m k : Nat}
    (su : u.shape = [n, n]) (sv : vh.shape = [m, m]) (sl : s.length = min n m) (hk : k ≤ min n m)
    (hs : ∀ x ∈ s, la.sqrt x * la.sqrt x = x) {i j : Nat} (hi : i < n) (hj : j < m) :
    ∑ l ∈ range k, ((u.takeCols k).rightDiag ((s.take k).map la.sqrt)).get [i, l] *
        ((vh.takeRows k).leftDiag ((s.take k).map la.sqrt)).get [l, j]
      = partialSVD u s vh (range k) i j := by
  rw [← cut_product (la := la) u s vh k (by omega) hs i j]
  refine Finset.sum_congr rfl fun l hl => ?_
  rw [Finset.mem_range] at hl
  obtain ⟨a1, _, a3⟩ := takeCols_spec (k := k) su (by omega)
  obtain ⟨b1, _, b3⟩ := takeRows_spec (k := k) sv (by omega)
  obtain ⟨_, _, c3⟩ := rightDiag_spec a1 ((s.take k).map la.sqrt)
  obtain ⟨_, _, d3⟩ := leftDiag_spec b1 ((s.take k).map la.sqrt)
  rw [c3 i hi l hl, d3 l hl j hj, a3 i hi l hl, b3 l hl j hj]

end CTL
