import Verif.Lemmas.TRGStep
import Verif.Lemmas.Plane
import Verif.Props.HOTRG

/-! The partition function over the steps of `SquareTRG`. -/

namespace CTL
variable {K : Type}

open Finset (range)

/-! ### Factors without loss -/

section
variable [Field K] {la : LinAlg K}

theorem Factors.exact (hla : ExactLinAlg la) {m u v : NDArray K} {n chi : Nat} (wm : m.WF) (sm : m.shape = [n, n])
    (F : Factors la m n chi u v) (hl : LosslessSVD la m chi) {i j : Nat} (hi : i < n) (hj : j < n) :
    ∑ k ∈ range (min chi n), u.get [i, k] * v.get [j, k] = m.get [i, j] := by
  have S := hla.svd m n n wm sm
  rw [F.product i hi j hj]
  refine cut_exact S (by omega) (fun z hz => ?_) hi hj
  rcases Nat.le_total chi n with h | h
  · rw [Nat.min_eq_left h] at hz
    exact hl z hz
  · rw [Nat.min_eq_right h, List.drop_eq_nil_of_le (by rw [S.sLen]; omega)] at hz
    cases hz

theorem Factors.site (hla : ExactLinAlg la) {V H chi : Nat} {A : Nat → Nat → Nat → Nat → K} {u v : NDArray K}
    (F : Factors la (siteMatrix V H A) (V * H) chi u v) (hl : LosslessSVD la (siteMatrix V H A) chi) :
    ∀ a < V, ∀ b < H, ∀ c < V, ∀ d < H, A a b c d = ∑ k ∈ range (min chi (V * H)), factorAt H u a b k * factorAt H v c d k := by
  intro a ha b hb c hc d hd
  rw [← siteMatrix_get A ha hb hc hd]
  exact (F.exact hla (NDArray.build_wf _ _) rfl hl (by nlinarith) (by nlinarith)).symm

theorem Factors.cross (hla : ExactLinAlg la) {V H chi : Nat} {A : Nat → Nat → Nat → Nat → K} {u v : NDArray K}
    (F : Factors la (crossMatrix V H A) (V * H) chi u v) (hl : LosslessSVD la (crossMatrix V H A) chi) :
    ∀ a < V, ∀ b < H, ∀ c < V, ∀ d < H, A a b c d = ∑ k ∈ range (min chi (V * H)), factorAt H u a d k * factorAt H v c b k := by
  intro a ha b hb c hc d hd
  rw [← crossMatrix_get A ha hb hc hd]
  exact (F.exact hla (NDArray.build_wf _ _) rfl hl (by nlinarith) (by nlinarith)).symm

theorem lossless_of_size (hla : ExactLinAlg la) {m : NDArray K} {n chi : Nat} (wm : m.WF) (sm : m.shape = [n, n]) (h : n ≤ chi) :
    LosslessSVD la m chi := by
  intro z hz
  rw [List.drop_eq_nil_of_le (by rw [(hla.svd m n n wm sm).sLen]; omega)] at hz
  cases hz

theorem lossless_of_share [LinearOrder K] [IsStrictOrderedRing K] {m : NDArray K} {chi : Nat} (h : cutShare la m chi = 0) :
    LosslessSVD la m chi := by
  intro z hz
  unfold cutShare at h
  rw [if_neg (List.ne_nil_of_mem hz), div_eq_zero_iff] at h
  have key : ∀ l : List K, (l.map (· ^ 2)).sum = 0 → ∀ z ∈ l, z = 0 := by
    intro l hl z hz
    have := sum_zero_all (l := l.map (· ^ 2)) (fun x hx => by
      obtain ⟨y, -, rfl⟩ := List.mem_map.mp hx
      exact sq_nonneg y) hl _ (List.mem_map_of_mem hz)
    exact pow_eq_zero_iff (two_ne_zero) |>.mp this
  rcases h with h | h
  · exact key _ h z hz
  · exact key _ h z (List.mem_of_mem_drop hz)

end

/-! ### Runs -/

namespace SquareTRGState

section
variable [Field K] [LinearOrder K] [Star K] {p : RGParams K} {la : LinAlg K} {s0 s : SquareTRGState K}

theorem Ran.zero : Ran p la s0 0 s ↔ s = s0 :=
  ⟨fun h => h.unique (Settles.const rfl), fun h => h ▸ Settles.const rfl⟩

variable [TrivialStar K]

theorem run_exists (hla : ExactLinAlg la) (g : Good p s0) (hchi : 0 < s0.chi) : ∀ n, ∃ s, Ran p la s0 n s ∧ Good p s ∧ s.chi = s0.chi
  | 0 => ⟨s0, Settles.const rfl, g, rfl⟩
  | n + 1 => by
    obtain ⟨s, r, g1, c1⟩ := run_exists hla g hchi n
    obtain ⟨s', h, g2, I⟩ := iterate_settles hla g1 (c1 ▸ hchi)
    exact ⟨s', r.bind h, g2, I.chi.trans c1⟩

theorem Ran.succ (hla : ExactLinAlg la) (g : Good p s0) (hchi : 0 < s0.chi) {n : Nat} (h : Ran p la s0 (n + 1) s) :
    ∃ s1, Ran p la s0 n s1 ∧ Good p s1 ∧ s1.chi = s0.chi ∧ Good p s ∧ Iterated p la s1 s := by
  obtain ⟨s1, r1, g1, c1⟩ := run_exists hla g hchi n
  obtain ⟨s', h', g2, I⟩ := iterate_settles hla g1 (c1 ▸ hchi)
  have e : s = s' := Settles.unique h (r1.bind h')
  subst e
  exact ⟨s1, r1, g1, c1, g2, I⟩

end

/-! ### One step -/

section
variable [Field K] {p : RGParams K} {la : LinAlg K} {s s' : SquareTRGState K}

/-- On every lattice the tensor stands for the original tensor on the lattice with a site for every corner, `i` times over. -/
def StandsFor (V0 H0 : Nat) (A0 : Nat → Nat → Nat → Nat → K) (st : Store) (t : Tensor K) (norms : List K) (i : Nat) : Prop :=
  ∀ P : Plane, totalScale norms ^ Fintype.card P.S * P.Z (t.dimOf st "u") (t.dimOf st "l") (t.site st) = (Plane.refine^[i] P).Z V0 H0 A0

theorem StandsFor.same {V0 H0 : Nat} {A0 : Nat → Nat → Nat → Nat → K} {st st' : Store} {t t' : Tensor K} {norms : List K} {i : Nat}
    (h : StandsFor V0 H0 A0 st t norms i) (S : SameSite st t st' t') : StandsFor V0 H0 A0 st' t' norms i := by
  intro P
  rw [S.v, S.h, ← h P]
  have : t'.site st' = t.site st := by
    funext u l d r
    exact S.val u l d r
  rw [this]

theorem StandsFor.step {V0 H0 : Nat} {A0 : Nat → Nat → Nat → Nat → K} (hla : ExactLinAlg la) (I : Iterated p la s s') {i : Nat}
    (h : StandsFor V0 H0 A0 s.st s.a s.aNorms i) (hA : LosslessSVD la s.mat s.chi) (hB : LosslessSVD la s.crossMat s.chi)
    (h0 : ∀ c ∈ s'.aNorms, c ≠ 0) : StandsFor V0 H0 A0 s'.st s'.a s'.aNorms (i + 1) := by
  obtain ⟨t, uA, vA, uB, vB, N, FA, FB, ht⟩ := I.tensor
  obtain ⟨b0, -, hn, -, hs⟩ := N.a
  have hc : p.norm b0 ≠ 0 := h0 _ (by rw [hn]; simp)
  intro P
  have key := Plane.Z_refine P (FA.site hla hA) (FB.cross hla hB)
  have hm : p.norm b0 ^ Fintype.card P.S * P.Z (s'.a.dimOf s'.st "u") (s'.a.dimOf s'.st "l") (s'.a.site s'.st) =
      P.refine.Z (s.a.dimOf s.st "u") (s.a.dimOf s.st "l") (s.a.site s.st) := by
    rw [← Plane.Z_scale, ← key, I.v, I.h]
    refine Plane.Z_congr _ _ _ fun u hu l hl d hd r hr => ?_
    rw [hs, mul_div_cancel₀ _ hc]
    rw [← I.v] at hu hd
    rw [← I.h] at hl hr
    exact ht u hu l hl d hd r hr
  rw [hn, totalScale_append, mul_pow, mul_assoc, hm, ← pow_mul, ← Plane.card_refine, h, Function.iterate_succ_apply]

end

/-! ### Many steps -/

section
variable [Field K] [LinearOrder K] {p : RGParams K} {la : LinAlg K} {s0 s : SquareTRGState K}

/-- What is known after some steps of every archived tensor. -/
structure Coarse (V0 H0 : Nat) (A0 : Nat → Nat → Nat → Nat → K) (dof0 : Nat) (n : Nat) (s : SquareTRGState K) : Prop where
  errors : s.errors.length = n
  norms : s.aNorms.length = n + 1
  archive : s.aArchive.length = n + 1
  dof : s.dof = dof0 * 2 ^ n
  last : StandsFor V0 H0 A0 s.st s.a s.aNorms n
  all : ∀ i t k, s.aArchive[i]? = some (t, k) → SquareSite s.st t ∧ k = dof0 * 2 ^ i ∧
    StandsFor V0 H0 A0 s.st t (s.aNorms.take (i + 1)) i

theorem Started.coarse {st : Store} {V0 H0 : Nat} {A0 : Nat → Nat → Nat → Nat → K} {dof : Option Nat} {chi : Nat}
    (S : Started p st V0 H0 A0 dof chi s) (h0 : ∀ c ∈ s.aNorms, c ≠ 0) : Coarse V0 H0 A0 (dof.getD 1) 0 s := by
  obtain ⟨t, N, ht⟩ := S.tensor
  obtain ⟨b0, -, hn, -, hs⟩ := N.a
  have hn : s.aNorms = [p.norm b0] := hn
  have hc : p.norm b0 ≠ 0 := h0 _ (by rw [hn]; simp)
  obtain ⟨c, ha, hq, hS⟩ := N.archive
  have ha : s.aArchive = [(c, s.dof)] := ha
  have hE : StandsFor V0 H0 A0 s.st s.a s.aNorms 0 := by
    intro P
    rw [hn, S.v, S.h]
    have : totalScale [p.norm b0] = p.norm b0 := by simp [totalScale]
    rw [this, ← Plane.Z_scale]
    refine Plane.Z_congr _ _ _ fun u hu l hl' d' hd' r hr => ?_
    rw [hs, mul_div_cancel₀ _ hc, ht]
  refine ⟨by rw [S.empty]; rfl, by rw [hn]; rfl, by rw [ha]; rfl, by rw [S.dof]; simp, hE, ?_⟩
  intro i t k hi
  rw [ha] at hi
  cases i with
  | succ i => simp at hi
  | zero =>
    obtain ⟨rfl, rfl⟩ := Prod.mk.inj (Option.some.inj hi)
    refine ⟨hq, by rw [S.dof]; simp, ?_⟩
    have := hE.same hS
    rwa [hn] at this ⊢

theorem Coarse.step {V0 H0 : Nat} {A0 : Nat → Nat → Nat → Nat → K} {dof0 n : Nat} (hla : ExactLinAlg la)
    (C : Coarse V0 H0 A0 dof0 n s) {s' : SquareTRGState K} (I : Iterated p la s s') (hA : LosslessSVD la s.mat s.chi)
    (hB : LosslessSVD la s.crossMat s.chi) (h0 : ∀ c ∈ s'.aNorms, c ≠ 0) : Coarse V0 H0 A0 dof0 (n + 1) s' := by
  have hE := C.last.step hla I hA hB h0
  obtain ⟨t, uA, vA, uB, vB, N, -⟩ := I.tensor
  obtain ⟨b0, -, hn, -, hs⟩ := N.a
  obtain ⟨c, ha, hq, hS⟩ := N.archive
  have hd : s'.dof = dof0 * 2 ^ (n + 1) := by rw [I.dof, C.dof, pow_succ, mul_assoc]
  refine ⟨by rw [I.errors]; simp [C.errors], by rw [hn]; simp [C.norms], by rw [ha]; simp [C.archive], hd, hE, ?_⟩
  intro i t k hi
  rw [ha] at hi
  rcases Nat.lt_trichotomy i (n + 1) with h | h | h
  · rw [List.getElem?_append_left (by rw [C.archive]; exact h)] at hi
    obtain ⟨h1, h2, h3⟩ := C.all i t k hi
    refine ⟨h1.kept I.kept, h2, ?_⟩
    have := h3.same (h1.same I.kept)
    rwa [hn, List.take_append_of_le_length (by rw [C.norms]; omega)]
  · subst h
    rw [List.getElem?_append_right (by rw [C.archive]), C.archive, Nat.sub_self] at hi
    obtain ⟨rfl, rfl⟩ := Prod.mk.inj (Option.some.inj hi)
    refine ⟨hq, hd, ?_⟩
    have := hE.same hS
    rwa [List.take_of_length_le (by rw [hn]; simp [C.norms])]
  · rw [List.getElem?_eq_none (by simp [C.archive]; omega)] at hi
    cases hi

variable [Star K] [TrivialStar K]

theorem Ran.coarse {V0 H0 : Nat} {A0 : Nat → Nat → Nat → Nat → K} {dof0 : Nat} (hla : ExactLinAlg la) (g : Good p s0) (hchi : 0 < s0.chi)
    (C : (∀ c ∈ s0.aNorms, c ≠ 0) → Coarse V0 H0 A0 dof0 0 s0) : ∀ {n : Nat} {s : SquareTRGState K}, Ran p la s0 n s →
    (∀ i < n, ∀ s1, Ran p la s0 i s1 → LosslessSVD la s1.mat s1.chi ∧ LosslessSVD la s1.crossMat s1.chi) →
    (∀ c ∈ s.aNorms, c ≠ 0) → Coarse V0 H0 A0 dof0 n s
  | 0, s, h, _, h0 => by
    obtain rfl := Ran.zero.mp h
    exact C h0
  | n + 1, s, h, hl, h0 => by
    obtain ⟨s1, r1, g1, -, -, I⟩ := h.succ hla g hchi
    obtain ⟨t, uA, vA, uB, vB, N, -⟩ := I.tensor
    obtain ⟨b0, -, hn, -⟩ := N.a
    have C1 := Ran.coarse hla g hchi C r1 (fun i hi => hl i (by omega)) fun c hc => h0 c (by rw [hn]; exact List.mem_append_left _ hc)
    obtain ⟨hA, hB⟩ := hl n (by omega) s1 r1
    exact C1.step hla I hA hB h0

theorem Ran.errors (hla : ExactLinAlg la) (g : Good p s0) (hchi : 0 < s0.chi) (he : s0.errors = []) : ∀ {n : Nat} {s : SquareTRGState K},
    Ran p la s0 n s → s.errors.length = n ∧ ∀ i < n, ∃ s1, Ran p la s0 i s1 ∧ Good p s1 ∧
      s.errors[i]? = some (cutShare la s1.mat s1.chi, cutShare la s1.crossMat s1.chi)
  | 0, s, h => by
    obtain rfl := Ran.zero.mp h
    exact ⟨by rw [he]; rfl, fun i hi => absurd hi (Nat.not_lt_zero i)⟩
  | n + 1, s, h => by
    obtain ⟨s1, r1, g1, -, -, I⟩ := h.succ hla g hchi
    obtain ⟨len, ih⟩ := Ran.errors hla g hchi he r1
    rw [I.errors]
    refine ⟨by simp [len], fun i hi => ?_⟩
    rcases Nat.lt_succ_iff_lt_or_eq.mp hi with hi | rfl
    · obtain ⟨s2, r2, g2, e⟩ := ih i hi
      exact ⟨s2, r2, g2, by rw [List.getElem?_append_left (by omega), e]⟩
    · exact ⟨s1, r1, g1, by rw [List.getElem?_append_right (by omega), len, Nat.sub_self]; rfl⟩

end

end SquareTRGState

theorem trgTorus_eq [CommSemiring K] (i V H : Nat) (A : Nat → Nat → Nat → Nat → K) :
    (Plane.refine^[i] Plane.point).Z V H A = trgTorus i V H A := by
  unfold trgTorus
  split
  · next h =>
    obtain ⟨j, rfl⟩ : ∃ j, i = 2 * j := ⟨i / 2, by omega⟩
    rw [Plane.Z_even, Nat.mul_div_cancel_left _ (by decide : 0 < 2)]
  · next h =>
    obtain ⟨j, rfl⟩ : ∃ j, i = 2 * j + 1 := ⟨i / 2, by omega⟩
    rw [Plane.Z_odd, show (2 * j + 1) / 2 = j by omega]

/-! ### `logZDensity` -/

theorem logLoop_same [Field K] (log : K → K) (st : Store) (acc : K) (l : List (K × (Tensor K × Nat))) :
    SquareTRGState.logLoop log st acc l = HOTRGState.logLoop log st acc l := by
  induction l generalizing acc with
  | nil => rfl
  | cons x l ih =>
    obtain ⟨c, t, k⟩ := x
    simp only [SquareTRGState.logLoop, HOTRGState.logLoop, ih]
    rfl

theorem logZ_values [Field K] [LinearOrder K] [IsStrictOrderedRing K] {log : K → K} (hlog : ∀ x y, 0 < x → 0 < y → log (x * y) = log x + log y)
    {st : Store} {norms : List K} {archive : List (Tensor K × Nat)} {n k0 : Nat} (ln : norms.length = n + 1) (la : archive.length = n + 1)
    (hk : ∀ i t k, archive[i]? = some (t, k) → k = k0 * 2 ^ i) {tr : Tensor K → K}
    (htr : ∀ x ∈ archive, squareTrace st x.1 = .ok (tr x.1)) {Z : Nat → K}
    (hE : ∀ i t k, archive[i]? = some (t, k) → totalScale (norms.take (i + 1)) * tr t = Z i)
    (h0 : ∀ c ∈ norms, 0 < c) (hZ : ∀ i ≤ n, 0 < Z i) :
    ∃ res, HOTRGState.logLoop log st 0 (norms.zip archive) = .ok res ∧ res.length = n + 1 ∧
      ∀ i ≤ n, res[i]? = some (log (Z i) / ((k0 * 2 ^ i : Nat) : K)) := by
  obtain ⟨res, e, len, hv⟩ := logLoop_ok log st tr 0 (norms.zip archive) fun x hx => htr x.2 (List.of_mem_zip hx).2
  refine ⟨res, e, ?_, fun i hi => ?_⟩
  · rw [len, List.length_zip, ln, la, Nat.min_self]
  · obtain ⟨⟨t, k⟩, ea⟩ : ∃ y, archive[i]? = some y := ⟨_, List.getElem?_eq_getElem (by rw [la]; omega)⟩
    obtain ⟨c, ec⟩ : ∃ y, norms[i]? = some y := ⟨_, List.getElem?_eq_getElem (by rw [ln]; omega)⟩
    have hEi := hE i t k ea
    have hlen : (norms.take (i + 1)).length = i + 1 := by rw [List.length_take, ln]; omega
    obtain ⟨sp, sl⟩ := log_totalScale hlog (k0 := k0) (norms.take (i + 1)) (by rw [← List.length_pos_iff]; omega)
      fun x hx => h0 x (List.mem_of_mem_take hx)
    rw [hlen, Nat.add_sub_cancel] at sl
    have tp : 0 < tr t := by
      have := hZ i hi
      rw [← hEi] at this
      exact (pos_iff_pos_of_mul_pos this).mp sp
    rw [hv i (c, (t, k)) (by rw [List.getElem?_zip_eq_some]; exact ⟨ec, ea⟩), ← hEi, hlog _ _ sp tp, add_div, sl, zero_add, hk i t k ea]
    congr 2
    congr 1
    refine List.ext_getElem? fun j => ?_
    rw [List.getElem?_map, List.getElem?_map]
    by_cases hj : j < i + 1
    · obtain ⟨⟨t', k'⟩, ea'⟩ : ∃ y, archive[j]? = some y := ⟨_, List.getElem?_eq_getElem (by rw [la]; omega)⟩
      obtain ⟨c', ec'⟩ : ∃ y, norms[j]? = some y := ⟨_, List.getElem?_eq_getElem (by rw [ln]; omega)⟩
      have ez : ((norms.zip archive).take (i + 1))[j]? = some (c', (t', k')) := by
        rw [List.getElem?_take_of_lt hj, List.getElem?_zip_eq_some]
        exact ⟨ec', ea'⟩
      rw [ez, List.getElem?_zipIdx, List.getElem?_take_of_lt hj, ec']
      simp only [Option.map_some, Nat.zero_add]
      rw [hk j t' k' ea']
    · rw [List.getElem?_eq_none (by simp; omega), List.getElem?_eq_none (by simp; omega)]
      rfl

end CTL
