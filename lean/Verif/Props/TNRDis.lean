import Verif.Model.TNRDis
import Verif.Spec.TNRDis
import Verif.Lemmas.Exchange
import Verif.Props.TNRUpdate
import Verif.Props.TNRStep

/-! C68: the disentangler of `doTNR`. -/

namespace CTL

open Finset (range)
variable {K : Type}

/-- The entries of an array with four axes as a function. -/
def NDArray.at4 [Zero K] (a : NDArray K) (i j k l : Nat) : K := a.get [i, j, k, l]

/-- The entries of an array with three axes as a function. -/
def NDArray.at3 [Zero K] (a : NDArray K) (i j k : Nat) : K := a.get [i, j, k]

/-- The entries of a matrix as a function. -/
def NDArray.at2 [Zero K] (a : NDArray K) (i j : Nat) : K := a.get [i, j]

theorem asMat_pair [Zero K] {a : NDArray K} {V U : Nat} (hs : a.shape = [V, V, U, U]) (i j k l : Nat) :
    a.asMat (V * V) (U * U) (i * V + j) (k * U + l) = a.get [i, j, k, l] := by
  unfold NDArray.asMat NDArray.get
  rw [hs]
  simp only [ravel, List.prod_cons, List.prod_nil, mul_one, Nat.mul_one, Nat.add_zero]
  congr 1
  ring

theorem sumIdx_eq [AddCommMonoid K] (n : Nat) (f : Nat → K) : sumIdx n f = ∑ i ∈ range n, f i := rfl

/-- C68: the disentangler at the start is the same after exchanging left and right, and it is an isometry. -/
theorem C68_start [Field K] (V U : Nat) (h : U ≤ V) :
    ∃ u : NDArray K, startU V U = .ok u ∧ u.shape = [V, V, U, U] ∧ u.WF ∧ LeftRight V U u.at4 ∧
      IsIsometry (V * V) (U * U) (u.asMat (V * V) (U * U)) := by
  have hsh : (npKron (npEye V U) (npEye V U) : NDArray K).shape = [V * V, U * U] := rfl
  have run : (startU V U : Except PyErr (NDArray K)) = .ok ⟨[V, V, U, U], (npKron (npEye V U) (npEye V U)).data⟩ := by
    unfold startU NDArray.reshape
    rw [if_pos (by rw [hsh]; simp; ring)]
  have val : ∀ i < V * V, ∀ j < U * U,
      (⟨[V, V, U, U], (npKron (npEye V U) (npEye V U)).data⟩ : NDArray K).asMat (V * V) (U * U) i j =
        if i / V = j / U ∧ i % V = j % U then 1 else 0 := by
    intro i hi j hj
    have pV : 0 < V := Nat.pos_of_ne_zero fun h => by subst h; simp at hi
    have pU : 0 < U := Nat.pos_of_ne_zero fun h => by subst h; simp at hj
    show (npKron (npEye V U) (npEye V U) : NDArray K).get [i, j] = _
    have : (npKron (npEye V U) (npEye V U) : NDArray K).get [i, j] =
        (npEye V U : NDArray K).get [i / V, j / U] * (npEye V U : NDArray K).get [i % V, j % U] :=
      NDArray.get_build _ (valid2 hi hj)
    rw [this]
    have eye : ∀ a < V, ∀ b < U, (npEye V U : NDArray K).get [a, b] = if a = b then 1 else 0 := fun a ha b hb =>
      NDArray.get_build _ (valid2 ha hb)
    rw [eye _ ((Nat.div_lt_iff_lt_mul pV).mpr hi) _ ((Nat.div_lt_iff_lt_mul pU).mpr hj), eye _ (Nat.mod_lt _ pV) _ (Nat.mod_lt _ pU)]
    by_cases h1 : i / V = j / U <;> by_cases h2 : i % V = j % U <;> simp [h1, h2]
  have wf : (⟨[V, V, U, U], (npKron (npEye V U) (npEye V U)).data⟩ : NDArray K).WF := by
    have := NDArray.build_wf [V * V, U * U] fun idx : List Nat =>
      (npEye V U : NDArray K).get [idx.getD 0 0 / V, idx.getD 1 0 / U] * (npEye V U : NDArray K).get [idx.getD 0 0 % V, idx.getD 1 0 % U]
    unfold NDArray.WF at this ⊢
    refine Eq.trans this ?_
    simp only [NDArray.build_shape, List.prod_cons, List.prod_nil]
    ring
  refine ⟨_, run, rfl, wf, ?_, ?_⟩
  · intro a ha b hb c hc d hd
    have lt : ∀ {n x y : Nat}, x < n → y < n → x * n + y < n * n := fun h1 h2 => by nlinarith
    have divp : ∀ {n x y : Nat}, y < n → (x * n + y) / n = x := fun h => by
      rw [Nat.add_comm, Nat.add_mul_div_right _ _ (by omega), Nat.div_eq_of_lt h, Nat.zero_add]
    have modp : ∀ {n x y : Nat}, y < n → (x * n + y) % n = y := fun h => by
      rw [Nat.add_comm, Nat.add_mul_mod_self_right, Nat.mod_eq_of_lt h]
    unfold NDArray.at4
    rw [← asMat_pair rfl, ← asMat_pair rfl, val _ (lt ha hb) _ (lt hc hd), val _ (lt hb ha) _ (lt hd hc), divp hb, divp hd, modp hb,
      modp hd, divp ha, divp hc, modp ha, modp hc]
    simp only [and_comm]
  · have cols : ∀ j < U * U, ∀ l < U * U, ∑ i ∈ range (V * V),
        (⟨[V, V, U, U], (npKron (npEye V U) (npEye V U)).data⟩ : NDArray K).asMat (V * V) (U * U) i j *
        (⟨[V, V, U, U], (npKron (npEye V U) (npEye V U)).data⟩ : NDArray K).asMat (V * V) (U * U) i l = if j = l then 1 else 0 := by
      intro j hj l hl
      have pU : 0 < U := Nat.pos_of_ne_zero fun h => by subst h; simp at hj
      have j1 : j / U < U := (Nat.div_lt_iff_lt_mul pU).mpr hj
      have j2 : j % U < U := Nat.mod_lt _ pU
      have hi0 : j / U * V + j % U < V * V := by nlinarith
      have d0 : (j / U * V + j % U) / V = j / U := by
        rw [Nat.add_comm, Nat.add_mul_div_right _ _ (by omega), Nat.div_eq_of_lt (by omega), Nat.zero_add]
      have m0 : (j / U * V + j % U) % V = j % U := by rw [Nat.add_comm, Nat.add_mul_mod_self_right, Nat.mod_eq_of_lt (by omega)]
      rw [Finset.sum_eq_single (j / U * V + j % U)]
      · rw [val _ hi0 _ hj, val _ hi0 _ hl, d0, m0, if_pos ⟨rfl, rfl⟩, one_mul]
        congr 1
        refine propext ⟨fun ⟨h1, h2⟩ => ?_, fun h => by rw [h]; exact ⟨rfl, rfl⟩⟩
        rw [← Nat.div_add_mod j U, h1, h2, Nat.div_add_mod]
      · intro i hi hne
        rw [val _ (Finset.mem_range.mp hi) _ hj, if_neg, zero_mul]
        rintro ⟨h1, h2⟩
        refine hne ?_
        rw [← h1, ← h2, Nat.mul_comm, Nat.div_add_mod]
      · exact fun hn => absurd (Finset.mem_range.mpr hi0) hn
    refine ⟨fun _ => cols, fun hle i hi l hl => ?_⟩
    have hUV : U = V := by
      by_contra hne
      have : U < V := by omega
      nlinarith
    subst hUV
    have key : ∀ i < U * U, ∀ j < U * U, (i / U = j / U ∧ i % U = j % U) ↔ i = j := fun i _ j _ =>
      ⟨fun ⟨h1, h2⟩ => by rw [← Nat.div_add_mod i U, h1, h2, Nat.div_add_mod], fun h => by rw [h]; exact ⟨rfl, rfl⟩⟩
    rw [← cols i hi l hl]
    refine Finset.sum_congr rfl fun j hj => ?_
    have hj := Finset.mem_range.mp hj
    rw [val _ hi _ hj, val _ hl _ hj, val _ hj _ hi, val _ hj _ hl]
    simp only [key i hi j hj, key l hl j hj, key j hj i hi, key j hj l hl, eq_comm]

section
variable [Field K] [LinearOrder K] [IsStrictOrderedRing K]

/-- The environment of the disentangler. -/
theorem nconU_ok {C q y s : NDArray K} {M H V U S : Nat} (hC : C.shape = [M, M, M, M]) (hq : q.shape = [H, V, M])
    (hy : y.shape = [H, U, S]) (hs : s.shape = [M, S]) :
    ∃ e, nconU C q y s = .ok e ∧ e.shape = [V, V, U, U] ∧ ∀ x : Nat → Nat → Nat → Nat → K,
      ∑ a ∈ range V, ∑ b ∈ range V, ∑ c ∈ range U, ∑ d ∈ range U, x a b c d * e.get [a, b, c, d] =
        ringOverlap M H V U S C.at4 q.at3 y.at3 y.at3 s.at2 x := by
  unfold nconU
  rw [hC, hq, hy, hs]
  simp only [and_self, if_true]
  refine ⟨_, rfl, rfl, fun x => ?_⟩
  unfold ringOverlap
  refine Finset.sum_congr rfl fun a ha => Finset.sum_congr rfl fun b hb => Finset.sum_congr rfl fun c hc =>
    Finset.sum_congr rfl fun d hd => ?_
  rw [NDArray.get_build _ (valid4 (Finset.mem_range.mp ha) (Finset.mem_range.mp hb) (Finset.mem_range.mp hc) (Finset.mem_range.mp hd))]
  simp only [List.getD_cons_zero, List.getD_cons_succ, sumIdx_eq]
  rw [Finset.mul_sum]; refine Finset.sum_congr rfl fun _ _ => ?_
  rw [Finset.mul_sum]; refine Finset.sum_congr rfl fun _ _ => ?_
  rw [Finset.mul_sum]; refine Finset.sum_congr rfl fun _ _ => ?_
  rw [Finset.mul_sum]; refine Finset.sum_congr rfl fun _ _ => ?_
  rw [Finset.mul_sum]; refine Finset.sum_congr rfl fun _ _ => ?_
  rw [Finset.mul_sum]; refine Finset.sum_congr rfl fun _ _ => ?_
  rw [Finset.mul_sum]; refine Finset.sum_congr rfl fun _ _ => ?_
  rw [Finset.mul_sum]; refine Finset.sum_congr rfl fun _ _ => ?_
  rw [Finset.mul_sum]; refine Finset.sum_congr rfl fun _ _ => ?_
  rw [Finset.mul_sum]; refine Finset.sum_congr rfl fun _ _ => ?_
  unfold NDArray.at4 NDArray.at3 NDArray.at2
  ring

/-- The symmetrised environment. -/
theorem uSym_ok {e : NDArray K} {V U : Nat} (hs : e.shape = [V, V, U, U]) :
    (e.plus (e.transpose [1, 0, 3, 2])).shape = [V, V, U, U] ∧ (e.plus (e.transpose [1, 0, 3, 2])).WF ∧
    ∀ a < V, ∀ b < V, ∀ c < U, ∀ d < U,
      (e.plus (e.transpose [1, 0, 3, 2])).get [a, b, c, d] = e.get [a, b, c, d] + e.get [b, a, d, c] := by
  refine ⟨hs, NDArray.build_wf _ _, fun a ha b hb c hc d hd => ?_⟩
  unfold NDArray.plus
  rw [hs, NDArray.get_build _ (valid4 ha hb hc hd)]
  congr 1
  unfold NDArray.transpose
  rw [hs]
  exact NDArray.get_build _ (valid4 ha hb hc hd)

/-- The overlap with the symmetrised environment is that of the disentangler and of its mirror image. -/
theorem uSym_overlap {e w : NDArray K} {V U : Nat} (hs : e.shape = [V, V, U, U]) (hw : w.shape = [V, V, U, U]) :
    ∑ i ∈ range (V * V), ∑ j ∈ range (U * U), w.asMat (V * V) (U * U) i j *
        (e.plus (e.transpose [1, 0, 3, 2])).asMat (V * V) (U * U) i j =
      ∑ a ∈ range V, ∑ b ∈ range V, ∑ c ∈ range U, ∑ d ∈ range U, w.get [a, b, c, d] * e.get [a, b, c, d] +
      ∑ a ∈ range V, ∑ b ∈ range V, ∑ c ∈ range U, ∑ d ∈ range U, w.get [b, a, d, c] * e.get [a, b, c, d] := by
  obtain ⟨s1, _, s3⟩ := uSym_ok hs
  rw [sum_pair]
  simp only [sum_pair U U, asMat_pair hw, asMat_pair s1]
  have e2 : ∑ a ∈ range V, ∑ b ∈ range V, ∑ c ∈ range U, ∑ d ∈ range U, w.get [b, a, d, c] * e.get [a, b, c, d] =
      ∑ a ∈ range V, ∑ b ∈ range V, ∑ c ∈ range U, ∑ d ∈ range U, w.get [a, b, c, d] * e.get [b, a, d, c] := by
    rw [Finset.sum_comm]
    exact Finset.sum_congr rfl fun a _ => Finset.sum_congr rfl fun b _ => Finset.sum_comm
  rw [e2]
  simp only [← Finset.sum_add_distrib]
  refine Finset.sum_congr rfl fun a ha => Finset.sum_congr rfl fun b hb => Finset.sum_congr rfl fun c hc =>
    Finset.sum_congr rfl fun d hd => ?_
  rw [s3 a (Finset.mem_range.mp ha) b (Finset.mem_range.mp hb) c (Finset.mem_range.mp hc) d (Finset.mem_range.mp hd), mul_add]

omit [LinearOrder K] [IsStrictOrderedRing K] in
theorem isometry_neg {n m : Nat} {x : Nat → Nat → K} (hx : IsIsometry n m x) : IsIsometry n m fun i j => - x i j := by
  constructor
  · intro h j hj l hl
    rw [← hx.1 h j hj l hl]
    exact Finset.sum_congr rfl fun i _ => by ring
  · intro h j hj l hl
    rw [← hx.2 h j hj l hl]
    exact Finset.sum_congr rfl fun i _ => by ring

/-- C68: the update of the disentangler returns an isometry, and no isometry has, together with its mirror image, an overlap of
the rings with a larger absolute value.  If all singular values of the symmetrised environment are positive, exchanging left
and right leaves the new disentangler as it is, and its overlap is the largest among all isometries with that property: the
update does not lower the overlap. -/
theorem C68_update [StarRing K] [TrivialStar K] {la : LinAlg K} (hla : UnitaryLinAlg la) {C q y s : NDArray K} {M H V U S : Nat}
    (hC : C.shape = [M, M, M, M]) (hq : q.shape = [H, V, M]) (hy : y.shape = [H, U, S]) (hs : s.shape = [M, S]) (hUV : U ≤ V)
    (hnn : ∀ a n m, a.WF → a.shape = [n, m] → ∀ x ∈ (la.svd a).2.1, 0 ≤ x) :
    ∃ e w, nconU C q y s = .ok e ∧ uUpdate la C q y s = .ok w ∧ w.WF ∧ w.shape = [V, V, U, U] ∧
      IsIsometry (V * V) (U * U) (w.asMat (V * V) (U * U)) ∧
      (∀ u : NDArray K, u.shape = [V, V, U, U] → IsIsometry (V * V) (U * U) (u.asMat (V * V) (U * U)) →
        |ringOverlap M H V U S C.at4 q.at3 y.at3 y.at3 s.at2 u.at4 +
            ringOverlap M H V U S C.at4 q.at3 y.at3 y.at3 s.at2 fun a b c d => u.at4 b a d c| ≤
          ringOverlap M H V U S C.at4 q.at3 y.at3 y.at3 s.at2 w.at4 +
            ringOverlap M H V U S C.at4 q.at3 y.at3 y.at3 s.at2 fun a b c d => w.at4 b a d c) ∧
      ((∀ x ∈ (la.svd ⟨[V * V, U * U], (e.plus (e.transpose [1, 0, 3, 2])).data⟩).2.1, 0 < x) →
        LeftRight V U w.at4 ∧
        ∀ u : NDArray K, u.shape = [V, V, U, U] → IsIsometry (V * V) (U * U) (u.asMat (V * V) (U * U)) → LeftRight V U u.at4 →
          |ringOverlap M H V U S C.at4 q.at3 y.at3 y.at3 s.at2 u.at4| ≤ ringOverlap M H V U S C.at4 q.at3 y.at3 y.at3 s.at2 w.at4) := by
  obtain ⟨e, he, es, ev⟩ := nconU_ok hC hq hy hs
  obtain ⟨s1, s2, s3⟩ := uSym_ok es
  have pV : [V, V].prod = V * V := by simp
  have pU : [U, U].prod = U * U := by simp
  obtain ⟨w, hw, ww, ws, wi, wo, wb⟩ := C66_update hla s2 (L := [V, V]) (R := [U, U]) s1 (by simp) (by simp)
    (hnn _ _ _ (by unfold NDArray.WF at s2 ⊢; rw [s2, s1]; simp; ring) rfl)
  rw [pV, pU] at wi wo wb
  have tot : ∀ u : NDArray K, u.shape = [V, V, U, U] →
      ∑ i ∈ range (V * V), ∑ j ∈ range (U * U), u.asMat (V * V) (U * U) i j *
          (e.plus (e.transpose [1, 0, 3, 2])).asMat (V * V) (U * U) i j =
        ringOverlap M H V U S C.at4 q.at3 y.at3 y.at3 s.at2 u.at4 +
            ringOverlap M H V U S C.at4 q.at3 y.at3 y.at3 s.at2 fun a b c d => u.at4 b a d c := by
    intro u hu
    rw [uSym_overlap es hu, ← ev, ← ev]
    rfl
  have best : ∀ u : NDArray K, u.shape = [V, V, U, U] → IsIsometry (V * V) (U * U) (u.asMat (V * V) (U * U)) →
        |ringOverlap M H V U S C.at4 q.at3 y.at3 y.at3 s.at2 u.at4 +
            ringOverlap M H V U S C.at4 q.at3 y.at3 y.at3 s.at2 fun a b c d => u.at4 b a d c| ≤
          ringOverlap M H V U S C.at4 q.at3 y.at3 y.at3 s.at2 w.at4 +
            ringOverlap M H V U S C.at4 q.at3 y.at3 y.at3 s.at2 fun a b c d => w.at4 b a d c := by
    intro u hu hi
    have b1 := wb _ hi
    have b2 := wb _ (isometry_neg hi)
    simp only [neg_mul, Finset.sum_neg_distrib] at b2
    rw [tot u hu, tot w ws] at b1 b2
    exact abs_le'.mpr ⟨b1, b2⟩
  refine ⟨e, w, he, ?_, ww, ws, wi, best, fun hpos => ?_⟩
  · unfold uUpdate
    rw [he]
    exact hw
  have lr : LeftRight V U w.at4 := by
    have wm : (⟨[V * V, U * U], (e.plus (e.transpose [1, 0, 3, 2])).data⟩ : NDArray K).WF := by
      unfold NDArray.WF at s2 ⊢
      rw [s2, s1]
      simp
      ring
    have hsvd := hla _ (V * V) (U * U) wm rfl
    set o := la.svd ⟨[V * V, U * U], (e.plus (e.transpose [1, 0, 3, 2])).data⟩ with ho
    have hle : U * U ≤ V * V := Nat.mul_le_mul hUV hUV
    have hu : ∀ k < V * V, ∀ l < V * V, ∑ i ∈ range (V * V), o.1.get [i, k] * o.1.get [i, l] = if k = l then 1 else 0 := by
      have := hsvd.uOrtho
      simpa only [star_trivial] using this
    have hv : ∀ k < U * U, ∀ l < U * U, ∑ j ∈ range (U * U), o.2.2.get [k, j] * o.2.2.get [l, j] = if k = l then 1 else 0 := by
      have := hsvd.vOrtho
      simpa only [star_trivial] using this
    have hl : o.2.1.length = U * U := by rw [hsvd.sLen, Nat.min_eq_right hle]
    have hp : ∀ k < U * U, 0 < o.2.1.getD k 0 := by
      intro k hk
      rw [List.getD_eq_getElem?_getD, List.getElem?_eq_getElem (by rw [hl]; exact hk)]
      exact hpos _ (List.getElem_mem _)
    have hsum : o.2.1.sum = ∑ k ∈ range (U * U), o.2.1.getD k 0 := by rw [← range_sum_getD, hl]
    have uniq := fun x hx h => polar_unique (x := x) hle hu hv (s := fun k => o.2.1.getD k 0)
      (e := (e.plus (e.transpose [1, 0, 3, 2])).asMat (V * V) (U * U)) (fun i hi j hj => hsvd.exact i hi j hj) hp hx h
    have flip : ∀ i < V * V, ∀ j < U * U, (e.plus (e.transpose [1, 0, 3, 2])).asMat (V * V) (U * U) (flipIdx V i) (flipIdx U j) =
        (e.plus (e.transpose [1, 0, 3, 2])).asMat (V * V) (U * U) i j := by
      intro i hi j hj
      have pV : 0 < V := Nat.pos_of_ne_zero fun h => by subst h; simp at hi
      have pU : 0 < U := Nat.pos_of_ne_zero fun h => by subst h; simp at hj
      have i1 : i / V < V := (Nat.div_lt_iff_lt_mul pV).mpr hi
      have j1 : j / U < U := (Nat.div_lt_iff_lt_mul pU).mpr hj
      have i2 := Nat.mod_lt i pV
      have j2 := Nat.mod_lt j pU
      conv_rhs => rw [← Nat.div_add_mod i V, ← Nat.div_add_mod j U, Nat.mul_comm V (i / V), Nat.mul_comm U (j / U)]
      unfold flipIdx
      rw [asMat_pair s1, asMat_pair s1, s3 _ i2 _ i1 _ j2 _ j1, s3 _ i1 _ i2 _ j1 _ j2, add_comm]
    have u1 := uniq _ wi (wo.trans hsum)
    have same : ∑ i ∈ range (V * V), ∑ j ∈ range (U * U), w.asMat (V * V) (U * U) (flipIdx V i) (flipIdx U j) *
          (e.plus (e.transpose [1, 0, 3, 2])).asMat (V * V) (U * U) i j =
        ∑ i ∈ range (V * V), ∑ j ∈ range (U * U), w.asMat (V * V) (U * U) i j *
          (e.plus (e.transpose [1, 0, 3, 2])).asMat (V * V) (U * U) i j := by
      rw [← sum_flip V fun i => ∑ j ∈ range (U * U), w.asMat (V * V) (U * U) i j *
          (e.plus (e.transpose [1, 0, 3, 2])).asMat (V * V) (U * U) i j]
      refine Finset.sum_congr rfl fun i hi => ?_
      rw [← sum_flip U fun j => w.asMat (V * V) (U * U) (flipIdx V i) j *
          (e.plus (e.transpose [1, 0, 3, 2])).asMat (V * V) (U * U) (flipIdx V i) j]
      refine Finset.sum_congr rfl fun j hj => ?_
      rw [flip i (Finset.mem_range.mp hi) j (Finset.mem_range.mp hj)]
    have u2 := uniq _ (isometry_flip wi) (same.trans (wo.trans hsum))
    intro a ha b hb c hc d hd
    have lt : ∀ {n x y : Nat}, x < n → y < n → x * n + y < n * n := fun h1 h2 => by nlinarith
    have := (u1 _ (lt ha hb) _ (lt hc hd)).trans (u2 _ (lt ha hb) _ (lt hc hd)).symm
    rw [flipIdx_pair hb, flipIdx_pair hd, asMat_pair ws, asMat_pair ws] at this
    exact this
  refine ⟨lr, fun u hu hi hlr => ?_⟩
  have mirror : ∀ x : Nat → Nat → Nat → Nat → K, LeftRight V U x →
      (ringOverlap M H V U S C.at4 q.at3 y.at3 y.at3 s.at2 fun a b c d => x b a d c) = ringOverlap M H V U S C.at4 q.at3 y.at3 y.at3 s.at2 x := by
    intro x hx
    rw [← ev, ← ev]
    refine Finset.sum_congr rfl fun a ha => Finset.sum_congr rfl fun b hb => Finset.sum_congr rfl fun c hc =>
      Finset.sum_congr rfl fun d hd => ?_
    rw [hx a (Finset.mem_range.mp ha) b (Finset.mem_range.mp hb) c (Finset.mem_range.mp hc) d (Finset.mem_range.mp hd)]
  have := best u hu hi
  rw [mirror _ hlr, mirror _ lr, ← two_mul, ← two_mul, abs_mul, abs_of_pos (two_pos (α := K))] at this
  exact le_of_mul_le_mul_left this two_pos

/-- The environment of the left isometry `y`. -/
theorem nconY_ok {C q u y s : NDArray K} {M H V U S : Nat} (hC : C.shape = [M, M, M, M]) (hq : q.shape = [H, V, M])
    (hu : u.shape = [V, V, U, U]) (hy : y.shape = [H, U, S]) (hs : s.shape = [M, S]) :
    ∃ e, nconY C q u y s = .ok e ∧ e.shape = [H, U, S] ∧ e.WF ∧ ∀ x : Nat → Nat → Nat → K,
      ∑ h ∈ range H, ∑ c ∈ range U, ∑ g ∈ range S, x h c g * e.get [h, c, g] =
        ringOverlap M H V U S C.at4 q.at3 x y.at3 s.at2 u.at4 := by
  unfold nconY
  rw [hC, hq, hu, hy, hs]
  simp only [and_self, if_true]
  refine ⟨_, rfl, rfl, NDArray.build_wf _ _, fun x => ?_⟩
  unfold ringOverlap
  refine Eq.symm (pull10.trans ?_)
  refine (pull3.trans ?_)
  refine (pull9.trans ?_)
  refine Finset.sum_congr rfl fun h hh => Finset.sum_congr rfl fun c hc => Finset.sum_congr rfl fun g hg => ?_
  rw [NDArray.get_build _ (.cons (Finset.mem_range.mp hh) (.cons (Finset.mem_range.mp hc) (.cons (Finset.mem_range.mp hg) .nil)))]
  rw [sumIdx_eq, Finset.mul_sum]; refine Finset.sum_congr rfl fun _ _ => ?_
  rw [sumIdx_eq, Finset.mul_sum]; refine Finset.sum_congr rfl fun _ _ => ?_
  rw [sumIdx_eq, Finset.mul_sum]; refine Finset.sum_congr rfl fun _ _ => ?_
  rw [sumIdx_eq, Finset.mul_sum]; refine Finset.sum_congr rfl fun _ _ => ?_
  rw [sumIdx_eq, Finset.mul_sum]; refine Finset.sum_congr rfl fun _ _ => ?_
  rw [sumIdx_eq, Finset.mul_sum]; refine Finset.sum_congr rfl fun _ _ => ?_
  rw [sumIdx_eq, Finset.mul_sum]; refine Finset.sum_congr rfl fun _ _ => ?_
  rw [sumIdx_eq, Finset.mul_sum]; refine Finset.sum_congr rfl fun _ _ => ?_
  rw [sumIdx_eq, Finset.mul_sum]; refine Finset.sum_congr rfl fun _ _ => ?_
  rw [sumIdx_eq, Finset.mul_sum]; refine Finset.sum_congr rfl fun _ _ => ?_
  rw [sumIdx_eq, Finset.mul_sum]; refine Finset.sum_congr rfl fun _ _ => ?_
  simp only [List.getD_cons_zero, List.getD_cons_succ]
  unfold NDArray.at4 NDArray.at3 NDArray.at2
  ring

omit [LinearOrder K] [IsStrictOrderedRing K] in
theorem asMat_triple {a : NDArray K} {H U S : Nat} (hs : a.shape = [H, U, S]) (i j k : Nat) :
    a.asMat (H * U) S (i * U + j) k = a.get [i, j, k] := by
  unfold NDArray.asMat NDArray.get
  rw [hs]
  simp only [ravel, List.prod_cons, List.prod_nil, mul_one, Nat.add_zero]
  congr 1
  ring

/-- C68: the update of `yM` returns an isometry, and no isometry put on the left, with the old `yM` on the right, gives a larger
overlap of the rings. -/
theorem C68_y [StarRing K] [TrivialStar K] {la : LinAlg K} (hla : UnitaryLinAlg la) {C q u y s : NDArray K} {M H V U S : Nat}
    (hC : C.shape = [M, M, M, M]) (hq : q.shape = [H, V, M]) (hu : u.shape = [V, V, U, U]) (hy : y.shape = [H, U, S])
    (hs : s.shape = [M, S]) (hnn : ∀ a n m, a.WF → a.shape = [n, m] → ∀ x ∈ (la.svd a).2.1, 0 ≤ x) :
    ∃ w, yUpdate la C q u y s = .ok w ∧ w.WF ∧ w.shape = [H, U, S] ∧ IsIsometry (H * U) S (w.asMat (H * U) S) ∧
      ∀ x : NDArray K, x.shape = [H, U, S] → IsIsometry (H * U) S (x.asMat (H * U) S) →
        ringOverlap M H V U S C.at4 q.at3 x.at3 y.at3 s.at2 u.at4 ≤ ringOverlap M H V U S C.at4 q.at3 w.at3 y.at3 s.at2 u.at4 := by
  obtain ⟨e, he, es, ew, ev⟩ := nconY_ok hC hq hu hy hs
  have p1 : [H, U].prod = H * U := by simp
  have p2 : [S].prod = S := by simp
  obtain ⟨w, hw, ww, ws, wi, _, wb⟩ := C66_update hla ew (L := [H, U]) (R := [S]) es (by simp) (by simp)
    (hnn _ _ _ (by unfold NDArray.WF at ew ⊢; rw [ew, es]; simp; ring) rfl)
  rw [p1, p2] at wi wb
  have tot : ∀ x : NDArray K, x.shape = [H, U, S] →
      ∑ i ∈ range (H * U), ∑ j ∈ range S, x.asMat (H * U) S i j * e.asMat (H * U) S i j =
        ringOverlap M H V U S C.at4 q.at3 x.at3 y.at3 s.at2 u.at4 := by
    intro x hx
    rw [← ev, sum_pair]
    simp only [asMat_triple hx, asMat_triple es]
    rfl
  refine ⟨w, ?_, ww, ws, wi, fun x hx hi => ?_⟩
  · unfold yUpdate
    rw [he]
    exact hw
  · have := wb _ hi
    rw [tot x hx, tot w ws] at this
    exact this

end

end CTL
