import Verif.Lemmas.HOTRGRun
import Verif.Lemmas.Torus

/-! The partition function over the steps of HOTRG. -/

namespace CTL
variable {K : Type}

open Finset (range)

/-! ### Runs -/

section
variable [Field K] [LinearOrder K] [Star K] {p : RGParams K} {s0 s : HOTRGState K}

theorem Run.zero : Run p s0 0 s ↔ s = s0 :=
  ⟨fun h => h.unique (Settles.const rfl), fun h => h ▸ Settles.const rfl⟩

variable [TrivialStar K] [IsStrictOrderedRing K]

theorem run_exists (he : ExactEigh p.eigh) (g : HGood p s0) : ∀ n, ∃ s, Run p s0 n s ∧ HGood p s
  | 0 => ⟨s0, Settles.const rfl, g⟩
  | n + 1 => by
    obtain ⟨s, r, g1⟩ := run_exists he g n
    obtain ⟨s', d, h, g2, _⟩ := iterate_settles he g1
    exact ⟨s', r.bind h, g2⟩

theorem Run.good (he : ExactEigh p.eigh) (g : HGood p s0) {n : Nat} (h : Run p s0 n s) : HGood p s := by
  obtain ⟨s', h', g'⟩ := run_exists he g n
  rw [Settles.unique h h']
  exact g'

theorem Run.succ (he : ExactEigh p.eigh) (g : HGood p s0) {n : Nat} (h : Run p s0 (n + 1) s) :
    ∃ s1 d, Run p s0 n s1 ∧ HGood p s1 ∧ Settles (fun fuel => s1.iterate p fuel) s ∧ HGood p s ∧ Iterated p s1 s d := by
  obtain ⟨s1, r1, g1⟩ := run_exists he g n
  obtain ⟨s', d, h', g2, I⟩ := iterate_settles he g1
  have e : s = s' := Settles.unique h (r1.bind h')
  subst e
  exact ⟨s1, d, r1, g1, h', g2, I⟩

end

/-! ### One step -/

section
variable [Field K] [LinearOrder K] [IsStrictOrderedRing K] {p : RGParams K}

/-- How many rows one row of merged sites stands for. -/
def rowFactor (d : RGDir) : Nat := if d.horizontal then 2 else 1

/-- The same for columns. -/
def colFactor (d : RGDir) : Nat := if d.horizontal then 1 else 2

theorem torus_mergedSite (he : ExactEigh p.eigh) (V H : Nat) (A : Nat → Nat → Nat → Nat → K) (d : RGDir) {chi : Nat}
    (hl : Lossless p (envMatrix V H A d) chi) (a b : Nat) :
    torus a b (mergedV V (prjCols p (envMatrix V H A d) chi (envSize V H d)) d)
      (mergedH H (prjCols p (envMatrix V H A d) chi (envSize V H d)) d)
      (mergedSite V H A A (solveEnv p (envMatrix V H A d) chi).1 d) = torus (rowFactor d * a) (colFactor d * b) V H A := by
  have hE := envMatrix_eigh he V H A d
  have hg : ∀ x < envSize V H d, ∀ y < envSize V H d, (envMatrix V H A d).get [x, y] = envEntry V H A d x y :=
    fun x hx y hy => envMatrix_get V H A d hx hy
  generalize envMatrix V H A d = m at *
  cases d with
  | l =>
    simp only [mergedV, mergedH, mergedSite, rowFactor, colFactor, RGDir.horizontal, if_true, one_mul]
    exact torus_merged ⟨fun _ _ _ _ _ _ _ _ => rfl, Or.inl (kept_left hE hl hg)⟩ a b
  | r =>
    simp only [mergedV, mergedH, mergedSite, rowFactor, colFactor, RGDir.horizontal, if_true, one_mul]
    exact torus_merged ⟨fun _ _ _ _ _ _ _ _ => rfl, Or.inr (kept_right hE hl hg)⟩ a b
  | u =>
    simp only [mergedV, mergedH, mergedSite, rowFactor, colFactor, RGDir.horizontal, one_mul, Bool.false_eq_true, if_false]
    rw [torus_transpose, torus_transpose a]
    exact torus_merged ⟨fun _ _ _ _ _ _ _ _ => rfl, Or.inl (kept_left hE hl hg)⟩ b a
  | d =>
    simp only [mergedV, mergedH, mergedSite, rowFactor, colFactor, RGDir.horizontal, one_mul, Bool.false_eq_true, if_false]
    rw [torus_transpose, torus_transpose a]
    exact torus_merged ⟨fun _ _ _ _ _ _ _ _ => rfl, Or.inr (kept_right hE hl hg)⟩ b a

omit [LinearOrder K] [IsStrictOrderedRing K] in
theorem totalScale_append (ns : List K) (c : K) : totalScale (ns ++ [c]) = totalScale ns ^ 2 * c := by
  unfold totalScale
  rw [List.foldl_append]
  rfl

theorem rowSteps_append (ds : List RGDir) (d : RGDir) : 2 ^ rowSteps (ds ++ [d]) = 2 ^ rowSteps ds * rowFactor d := by
  unfold rowSteps rowFactor
  cases d <;> simp [RGDir.horizontal, pow_succ]

theorem colSteps_append (ds : List RGDir) (d : RGDir) : 2 ^ colSteps (ds ++ [d]) = 2 ^ colSteps ds * colFactor d := by
  unfold colSteps colFactor
  cases d <;> simp [RGDir.horizontal, pow_succ]

end

/-! ### Many steps -/

section
variable [Field K] [LinearOrder K] [Star K] [TrivialStar K] [IsStrictOrderedRing K] {p : RGParams K} {s0 s : HOTRGState K}

/-- The tensor stands for the block of the original lattice that the steps have merged. -/
def Exact (V0 H0 : Nat) (A0 : Nat → Nat → Nat → Nat → K) (st : Store) (t : Tensor K) (norms : List K) (ds : List RGDir) : Prop :=
  ∀ a b, totalScale norms ^ (a * b) * torus a b (t.dimOf st "u") (t.dimOf st "l") (t.site st) =
    torus (2 ^ rowSteps ds * a) (2 ^ colSteps ds * b) V0 H0 A0

theorem Exact.step {V0 H0 : Nat} {A0 : Nat → Nat → Nat → Nat → K} (he : ExactEigh p.eigh) (g : HGood p s) {s' : HOTRGState K} {d : RGDir}
    (I : Iterated p s s' d) (h : Exact V0 H0 A0 s.st s.a s.aNorms s.directChoices) (hl : Lossless p (s.env d) (s.chi d))
    (h0 : ∀ c ∈ s'.aNorms, c ≠ 0) : Exact V0 H0 A0 s'.st s'.a s'.aNorms s'.directChoices := by
  obtain ⟨t, N, ht⟩ := I.tensor
  obtain ⟨b0, -, hn, -, hs⟩ := N.a
  have hc : p.norm b0 ≠ 0 := h0 _ (by rw [hn]; simp)
  obtain ⟨-, sp, -⟩ := solveEnv_prj (envMatrix_eigh he (s.a.dimOf s.st "u") (s.a.dimOf s.st "l") (s.a.site s.st) d) (s.chi d)
  have hk : (s.projectorOf p d).shape.getD 1 0 =
      prjCols p (s.env d) (s.chi d) (envSize (s.a.dimOf s.st "u") (s.a.dimOf s.st "l") d) := by
    show (solveEnv p (s.env d) (s.chi d)).1.shape.getD 1 0 = _
    unfold HOTRGState.env
    rw [sp]
    rfl
  intro a b
  rw [hn, I.choice, totalScale_append, rowSteps_append, colSteps_append, mul_assoc (2 ^ rowSteps _), mul_assoc (2 ^ colSteps _), ← h]
  have key := torus_mergedSite he (s.a.dimOf s.st "u") (s.a.dimOf s.st "l") (s.a.site s.st) d hl a b
  have hm : p.norm b0 ^ (a * b) * torus a b (s'.a.dimOf s'.st "u") (s'.a.dimOf s'.st "l") (s'.a.site s'.st) =
      torus a b (s'.a.dimOf s'.st "u") (s'.a.dimOf s'.st "l")
        (mergedSite (s.a.dimOf s.st "u") (s.a.dimOf s.st "l") (s.a.site s.st) (s.a.site s.st) (s.projectorOf p d) d) := by
    rw [← torus_scale]
    refine torus_congr _ _ _ _ fun u hu l hl' d' hd' r hr => ?_
    rw [hs, mul_div_cancel₀ _ hc, ht u hu l hl' d' hd' r hr]
  rw [mul_pow, mul_assoc, hm, I.v, I.h, hk]
  have e : (totalScale s.aNorms ^ 2) ^ (a * b) = totalScale s.aNorms ^ (rowFactor d * a * (colFactor d * b)) := by
    rw [← pow_mul]
    congr 1
    unfold rowFactor colFactor
    split <;> ring
  rw [e]
  congr 1

/-- What is known after some steps of every archived tensor. -/
structure Coarse (V0 H0 : Nat) (A0 : Nat → Nat → Nat → Nat → K) (dof0 : Nat) (n : Nat) (s : HOTRGState K) : Prop where
  choices : s.directChoices.length = n
  projectors : s.projectors.length = n
  errors : s.errors.length = n
  norms : s.aNorms.length = n + 1
  archive : s.aArchive.length = n + 1
  dof : s.dof = dof0 * 2 ^ n
  last : Exact V0 H0 A0 s.st s.a s.aNorms s.directChoices
  all : ∀ i t k, s.aArchive[i]? = some (t, k) → SquareSite s.st t ∧ k = dof0 * 2 ^ i ∧
    Exact V0 H0 A0 s.st t (s.aNorms.take (i + 1)) (s.directChoices.take i)

theorem Exact.same {V0 H0 : Nat} {A0 : Nat → Nat → Nat → Nat → K} {st st' : Store} {t t' : Tensor K} {norms : List K} {ds : List RGDir}
    (h : Exact V0 H0 A0 st t norms ds) (S : SameSite st t st' t') : Exact V0 H0 A0 st' t' norms ds := by
  intro a b
  rw [S.v, S.h, ← h a b]
  have : t'.site st' = t.site st := by
    funext u l d r
    exact S.val u l d r
  rw [this]

omit [LinearOrder K] [Star K] [TrivialStar K] [IsStrictOrderedRing K] in
theorem SquareSite.same {st st' : Store} {t : Tensor K} (h : SquareSite st t) (hk : LegsUnchanged st st') : SameSite st t st' t :=
  ⟨hk.dimOf h.labels.known _, hk.dimOf h.labels.known _, fun u l d r => by rw [h.site_kept hk]⟩

theorem Started.coarse {st : Store} {V0 H0 : Nat} {A0 : Nat → Nat → Nat → Nat → K} {dof : Option Nat} {chiH : Nat} {chiV : Option Nat}
    (S : Started p st V0 H0 A0 dof chiH chiV s) (h0 : ∀ c ∈ s.aNorms, c ≠ 0) : Coarse V0 H0 A0 (dof.getD 1) 0 s := by
  obtain ⟨t, N, ht⟩ := S.tensor
  obtain ⟨b0, -, hn, -, hs⟩ := N.a
  have hn : s.aNorms = [p.norm b0] := hn
  have hc : p.norm b0 ≠ 0 := h0 _ (by rw [hn]; simp)
  obtain ⟨c, ha, hq, hS⟩ := N.archive
  have ha : s.aArchive = [(c, s.dof)] := ha
  have hE : Exact V0 H0 A0 s.st s.a s.aNorms s.directChoices := by
    intro a b
    rw [hn, S.empty.2.1, S.v, S.h]
    have : totalScale [p.norm b0] = p.norm b0 := by simp [totalScale]
    rw [this, ← torus_scale]
    simp only [rowSteps, colSteps, List.countP_nil, pow_zero, one_mul]
    refine torus_congr _ _ _ _ fun u hu l hl' d' hd' r hr => ?_
    rw [hs, mul_div_cancel₀ _ hc, ht]
  refine ⟨by rw [S.empty.2.1]; rfl, by rw [S.empty.2.2]; rfl, by rw [S.empty.1]; rfl, by rw [hn]; rfl, by rw [ha]; rfl, by rw [S.dof]; simp, hE, ?_⟩
  intro i t k hi
  rw [ha] at hi
  cases i with
  | succ i => simp at hi
  | zero =>
    obtain ⟨rfl, rfl⟩ := Prod.mk.inj (Option.some.inj hi)
    refine ⟨hq, by rw [S.dof]; simp, ?_⟩
    have := hE.same hS
    rwa [hn, S.empty.2.1] at this ⊢

theorem Coarse.step {V0 H0 : Nat} {A0 : Nat → Nat → Nat → Nat → K} {dof0 n : Nat} (he : ExactEigh p.eigh) (g : HGood p s)
    (C : Coarse V0 H0 A0 dof0 n s) {s' : HOTRGState K} {d : RGDir} (I : Iterated p s s' d) (hl : Lossless p (s.env d) (s.chi d))
    (h0 : ∀ c ∈ s'.aNorms, c ≠ 0) : Coarse V0 H0 A0 dof0 (n + 1) s' := by
  have hE := C.last.step he g I hl h0
  obtain ⟨t, N, ht⟩ := I.tensor
  obtain ⟨b0, -, hn, -, hs⟩ := N.a
  obtain ⟨c, ha, hq, hS⟩ := N.archive
  have hd : s'.dof = dof0 * 2 ^ (n + 1) := by rw [I.dof, C.dof, pow_succ, mul_assoc]
  refine ⟨by rw [I.choice]; simp [C.choices], by rw [I.projector]; simp [C.projectors], by rw [I.error]; simp [C.errors],
    by rw [hn]; simp [C.norms], by rw [ha]; simp [C.archive], hd, hE, ?_⟩
  intro i t k hi
  rw [ha] at hi
  rcases Nat.lt_trichotomy i (n + 1) with h | h | h
  · rw [List.getElem?_append_left (by rw [C.archive]; exact h)] at hi
    obtain ⟨h1, h2, h3⟩ := C.all i t k hi
    refine ⟨h1.kept I.kept, h2, ?_⟩
    have := h3.same (h1.same I.kept)
    rwa [hn, I.choice, List.take_append_of_le_length (by rw [C.norms]; omega), List.take_append_of_le_length (by rw [C.choices]; omega)]
  · subst h
    rw [List.getElem?_append_right (by rw [C.archive]), C.archive, Nat.sub_self] at hi
    obtain ⟨rfl, rfl⟩ := Prod.mk.inj (Option.some.inj hi)
    refine ⟨hq, hd, ?_⟩
    have := hE.same hS
    rwa [List.take_of_length_le (by rw [hn]; simp [C.norms]), List.take_of_length_le (by rw [I.choice]; simp [C.choices])]
  · rw [List.getElem?_eq_none (by simp [C.archive]; omega)] at hi
    cases hi

theorem Run.coarse {V0 H0 : Nat} {A0 : Nat → Nat → Nat → Nat → K} {dof0 : Nat} (he : ExactEigh p.eigh) (g : HGood p s0) 
    (C : (∀ c ∈ s0.aNorms, c ≠ 0) → Coarse V0 H0 A0 dof0 0 s0) : ∀ {n : Nat} {s : HOTRGState K}, Run p s0 n s →
    (∀ i s1 d, Run p s0 i s1 → s.directChoices[i]? = some d → Lossless p (s1.env d) (s1.chi d)) →
    (∀ c ∈ s.aNorms, c ≠ 0) → Coarse V0 H0 A0 dof0 n s
  | 0, s, h, _, h0 => by
    obtain rfl := Run.zero.mp h
    exact C h0
  | n + 1, s, h, hl, h0 => by
    obtain ⟨s1, d, r1, g1, -, -, I⟩ := h.succ he g
    obtain ⟨t, N, -⟩ := I.tensor
    obtain ⟨b0, -, hn, -⟩ := N.a
    have C1 := Run.coarse he g C r1 (fun i s2 d2 r2 hi => hl i s2 d2 r2 (by
        rw [I.choice, List.getElem?_append_left (List.getElem?_eq_some_iff.mp hi).1]
        exact hi)) fun c hc => h0 c (by rw [hn]; exact List.mem_append_left _ hc)
    refine C1.step he g1 I (hl n s1 d r1 ?_) h0
    rw [I.choice, List.getElem?_append_right (by rw [C1.choices]), C1.choices, Nat.sub_self]
    rfl

end

end CTL
