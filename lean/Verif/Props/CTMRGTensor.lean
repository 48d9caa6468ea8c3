import Verif.Lemmas.CTMRGExact
import Verif.Props.TriangleTRG

/-! C55: `CTMRG` computes the partition function of a square lattice with open boundary; with bonds of two different dimensions it does not. -/

namespace CTL
variable {K : Type}

open Finset (range)

section
variable [Field K] [LinearOrder K] [StarRing K] {p : RGParams K} {la : LinAlg K} {V H chi : Nat} {w : Nat → Nat → Nat → Nat → K}
  {log exp : K → K}

/-- C55: an array of shape `(V, H, V, H)` gives a tensor that `CTMRG` accepts. -/
theorem C55_site (p : RGParams K) {st : Store} (wf : WFStore st) {d : NDArray K} (wd : d.WF) (hs : d.shape = [V, H, V, H]) (hV : V ≠ 0) (hH : H ≠ 0) :
    ∃ st' a, construct p.rand st { data := some d, labels := some ["u", "l", "d", "r"] } = .ok (st', a) ∧ WFStore st' ∧
      IsCenter st' a V H fun l r u dn => d.get [u, l, dn, r] := by
  obtain ⟨st', a, e, w', -, h, hd, hv⟩ := construct_plain p.rand wf wd (labels := ["u", "l", "d", "r"]) (by rw [hs]; rfl) (by decide)
    (by rw [hs]; simp [hV, hH])
  rw [hs] at hd
  exact ⟨st', a, e, w', h, hd _ _ (by simp), hd _ _ (by simp), hd _ _ (by simp), hd _ _ (by simp), fun u _ l _ dn _ r _ => hv [u, l, dn, r] rfl⟩

/-- C55: the constructor, with the labels of the legs in any order: the site, summed over the legs at the boundary, is a corner and two
edges, and their dimensions are reduced. -/
theorem C55_new (hla : UnitaryLinAlg la) {st : Store} (wf : WFStore st) {a : Tensor K} (ha : IsCenter st a V H w) (hchi : chi ≠ 0) :
    ∃ s, Settles (fun fuel => CTMRGState.new p la fuel st a chi) s ∧ s.Good p V H w ∧ s.tensors.Is s.st V H (Numbers.start.step la chi w V H) ∧
      s.logScale = ⟨0, 0, 0⟩ ∧ s.records = ⟨[], [], []⟩ ∧ s.chi = chi ∧ s.errors = [(svdTruncated la (Numbers.start.wide w V H) chi 4).error] :=
  new_settles (fun a n m h1 h2 => (hla a n m h1 h2).toIsSVD) wf ha hchi

/-- C55: every call of `iterate` succeeds.  It records copies of the present tensors with their scales, adds a site in either direction,
reduces the dimensions, divides by the norms and adds their logarithms to the scales. -/
theorem C55_iterate (hla : UnitaryLinAlg la) (hcast : ∀ x, p.cast x = x) (hn : TriangleTRGState.TrueNorm p.norm) (log : K → K) {s : CTMRGState K}
    (g : s.Good p V H w) {N : Numbers K} (T : s.tensors.Is s.st V H N) :
    ∃ (s' : CTMRGState K) (t' : Trio (Tensor K)) (x y z : K), Settles (fun fuel => s.iterate p la fuel log) s' ∧ s'.Good p V H w ∧ LegsUnchanged s.st s'.st ∧ s'.chi = s.chi ∧
      s'.tensors.Is s'.st V H ((N.step la s.chi w V H).over x y z) ∧ (N.step la s.chi w V H).Norms V H x y z ∧
      s'.logScale = ⟨log x + s.logScale.corner + s.logScale.hEdge + s.logScale.vEdge, log y + s.logScale.hEdge, log z + s.logScale.vEdge⟩ ∧
      s'.records = ⟨s.records.corner ++ [(t'.corner, s.logScale.corner)], s.records.hEdge ++ [(t'.hEdge, s.logScale.hEdge)],
          s.records.vEdge ++ [(t'.vEdge, s.logScale.vEdge)]⟩ ∧ t'.Is s'.st V H N ∧
      s'.errors = s.errors ++ [(svdTruncated la (N.wide w V H) s.chi 4).error] :=
  iterate_ok (fun a n m h1 h2 => (hla a n m h1 h2).toIsSVD) hcast hn log g T

/-- C55: whatever the dimensions and `chi`, the object can be made, and any number of calls of `getZ` on lattices with at least one
site succeeds. -/
theorem C55_runs (hla : UnitaryLinAlg la) (hcast : ∀ x, p.cast x = x) (hn : TriangleTRGState.TrueNorm p.norm) (log exp : K → K) {st : Store}
    (wf : WFStore st) {a : Tensor K} (ha : IsCenter st a V H w) (hchi : chi ≠ 0) {Ls : List Nat} (hL : ∀ L ∈ Ls, 1 ≤ L) :
    ∃ s0 s, Settles (fun fuel => CTMRGState.new p la fuel st a chi) s0 ∧
      Settles (fun fuel => s0.queries p la fuel log exp (Ls.map fun (L : Nat) => (L : Int))) s := by
  obtain ⟨s0, e0, g, T, es, er, ec, -⟩ := C55_new (p := p) hla wf ha hchi
  have T0 : s0.Tracked (fun _ _ _ => True) V H := by
    refine ⟨by rw [er], by rw [er], ?_, ⟨_, T, trivial⟩⟩
    rw [er]
    intro i x y z hx
    cases hx
  obtain ⟨s, e, -⟩ := queries_tracked (p := p) (log := log) (exp := exp) ⟨fun a n m h1 h2 => (hla a n m h1 h2).toIsSVD, hcast, hn⟩
    (fun _ _ _ _ _ _ _ _ => trivial) Ls g ec T0 hL
  exact ⟨s0, s, e0, e⟩

variable [TrivialStar K] {D : Nat}

/-- C55: if all bonds have the same dimension `D`, if `chi` is at least `D ^ (L / 2)`, and if no block of sites that is divided by its norm has
only the weight 0, then `getZ(L)` is the partition function of the open lattice of `L × L` sites built from four reflected quadrants.  The
calls of `getZ` made before do not matter. -/
theorem C55_exact (hla : UnitaryLinAlg la) (hcast : ∀ x, p.cast x = x) (hn : TriangleTRGState.TrueNorm p.norm) (E : LogExp log exp) {st : Store}
    (wf : WFStore st) {a : Tensor K} (ha : IsCenter st a D D w) {Ls : List Nat} (hLs : ∀ L ∈ Ls, 1 ≤ L) {L : Nat} (hL : 1 ≤ L)
    (hchi : D ^ (L / 2) ≤ chi) (hA : ∀ n, 2 ≤ n → n ≤ L / 2 → Open.Alive (Open.onFin D D w) n) :
    ∃ s0 s s', Settles (fun fuel => CTMRGState.new p la fuel st a chi) s0 ∧
      Settles (fun fuel => s0.queries p la fuel log exp (Ls.map fun (L : Nat) => (L : Int))) s ∧
      Settles (fun fuel => s.getZ p la fuel log exp L) (s', Open.partition L (Open.onFin D D w)) := by
  have hD : D ≠ 0 := by
    rw [← ha.du]
    exact dimOf_pos ha.labels (by decide) (by decide)
  have hc0 : chi ≠ 0 := fun h => by
    rw [h] at hchi
    exact absurd (Nat.le_zero.mp hchi) (pow_ne_zero _ hD)
  obtain ⟨s0, e0, g, T, es, er, ec, -⟩ := C55_new (p := p) hla wf ha hc0
  have T0 : s0.Tracked (ExactAt exp w D chi) D D := by
    refine ⟨by rw [er], by rw [er], ?_, ⟨_, T, ?_⟩⟩
    · rw [er]
      intro i x y z hx
      cases hx
    · rw [er, es]
      exact exact_start hla E
  have R : RunParams p la := ⟨fun a n m h1 h2 => (hla a n m h1 h2).toIsSVD, hcast, hn⟩
  have hP := exact_closed (chi := chi) (w := w) hla E hD
  obtain ⟨s, e, g1, c1, T1⟩ := queries_tracked (exp := exp) R hP Ls g ec T0 hLs
  rcases Nat.lt_or_eq_of_le hL with h | rfl
  · obtain ⟨s', N, S, e', -, -, -, PN⟩ := getZ_more (exp := exp) R hP g1 c1 T1 h
    have hl : L / 2 - 1 + 1 = L / 2 := by omega
    have := PN (by rw [hl]; exact hchi) (by rw [hl]; exact hA)
    rw [value_exact E h this] at e'
    exact ⟨s0, s, s', e0, e, e'⟩
  · obtain ⟨s', e', -⟩ := getZ_one (la := la) (log := log) (exp := exp) g1 c1 T1
    rw [sumOf_partition] at e'
    exact ⟨s0, s, s', e0, e, e'⟩

variable [IsStrictOrderedRing K]

/-- C55: with positive weights no norm is 0. -/
theorem C55_exact_positive (hla : UnitaryLinAlg la) (hcast : ∀ x, p.cast x = x) (hn : TriangleTRGState.TrueNorm p.norm) (E : LogExp log exp) {st : Store}
    (wf : WFStore st) {a : Tensor K} (ha : IsCenter st a D D w) {Ls : List Nat} (hLs : ∀ L ∈ Ls, 1 ≤ L) {L : Nat} (hL : 1 ≤ L)
    (hchi : D ^ (L / 2) ≤ chi) (hw : ∀ l < D, ∀ r < D, ∀ u < D, ∀ d < D, 0 < w l r u d) :
    ∃ s0 s s', Settles (fun fuel => CTMRGState.new p la fuel st a chi) s0 ∧
      Settles (fun fuel => s0.queries p la fuel log exp (Ls.map fun (L : Nat) => (L : Int))) s ∧
      Settles (fun fuel => s.getZ p la fuel log exp L) (s', Open.partition L (Open.onFin D D w)) := by
  have hD : D ≠ 0 := by
    rw [← ha.du]
    exact dimOf_pos ha.labels (by decide) (by decide)
  have : Nonempty (Fin D) := ⟨⟨0, Nat.pos_of_ne_zero hD⟩⟩
  exact C55_exact hla hcast hn E wf ha hLs hL hchi fun n _ _ =>
    Open.alive_pos (w := Open.onFin D D w) (fun l r u d => hw l l.isLt r r.isLt u u.isLt d d.isLt) n

end

/-- C55: if the weight does not change when a site is reflected, the lattice is the one with the same weight at every site. -/
theorem C55_symmetric [CommSemiring K] {V H : Nat} {w : Nat → Nat → Nat → Nat → K} (hx : ∀ l < H, ∀ r < H, ∀ u < V, ∀ d < V, w l r u d = w r l u d)
    (hy : ∀ l < H, ∀ r < H, ∀ u < V, ∀ d < V, w l r u d = w l r d u) (L : Nat) :
    Open.partition L (Open.onFin V H w) = Open.uniform L (Open.onFin V H w) :=
  Open.partition_uniform (w := Open.onFin V H w) (fun l r u d => hx l l.isLt r r.isLt u u.isLt d d.isLt)
    (fun l r u d => hy l l.isLt r r.isLt u u.isLt d d.isLt) L

/-! ### Bonds of two different dimensions -/

/-- A site of width 1: the matrix with the rows `(1, 1)` and `(0, 1)`. -/
def slanted [Zero K] [One K] (_ _ u d : Nat) : K := if u = 1 ∧ d = 0 then 0 else 1

theorem partition_map {α β K' : Type} [Fintype α] [Fintype β] [CommSemiring K] [CommSemiring K'] (f : K →+* K') (L : Nat) (w : α → α → β → β → K) :
    f (Open.partition L w) = Open.partition L fun l r u d => f (w l r u d) := by
  simp only [Open.partition, Open.weight, map_sum, map_prod]

theorem slanted_partition [Field K] : Open.partition 4 (Open.onFin 2 1 (slanted (K := K))) = 10000 := by
  have h : Open.partition 4 (Open.onFin 2 1 (slanted (K := Int))) = 10000 := by
    rw [Open.even_trace (n := 2)]
    decide +kernel
  have := partition_map (Int.castRingHom K) 4 (Open.onFin 2 1 (slanted (K := Int)))
  rw [h] at this
  have e : (fun l r u d => Int.castRingHom K (Open.onFin 2 1 (slanted (K := Int)) l r u d)) = Open.onFin 2 1 (slanted (K := K)) := by
    funext l r u d
    show ((slanted (K := Int) l r u d : Int) : K) = slanted (K := K) l r u d
    unfold slanted
    split_ifs <;> simp
  rw [e] at this
  rw [← this]
  simp

section
variable [Field K] [LinearOrder K] [IsStrictOrderedRing K] [StarRing K] [TrivialStar K] {p : RGParams K} {la : LinAlg K} {log exp : K → K}

omit [IsStrictOrderedRing K] [LinearOrder K] in
/-- The decomposition of a single column. -/
theorem column_svd (hla : UnitaryLinAlg la) (C : Nat → Nat → K) :
    (∀ i < 2, C i 0 = (la.svd (matOf 2 1 C)).1.get [i, 0] * (la.svd (matOf 2 1 C)).2.1.getD 0 0 * (la.svd (matOf 2 1 C)).2.2.get [0, 0]) ∧
      (la.svd (matOf 2 1 C)).2.2.get [0, 0] * (la.svd (matOf 2 1 C)).2.2.get [0, 0] = 1 ∧
      (la.svd (matOf 2 1 C)).2.1.getD 0 0 ^ 2 = C 0 0 ^ 2 + C 1 0 ^ 2 := by
  obtain ⟨⟨-, -, -, -, -, ex⟩, uo, vo⟩ := hla (matOf 2 1 C) 2 1 (matOf_wf _ _ _) rfl
  have h1 := uo 0 (by decide) 0 (by decide)
  have h2 := vo 0 (by decide) 0 (by decide)
  have e : ∀ i < 2, C i 0 = (la.svd (matOf 2 1 C)).1.get [i, 0] * (la.svd (matOf 2 1 C)).2.1.getD 0 0 * (la.svd (matOf 2 1 C)).2.2.get [0, 0] := by
    intro i hi
    have := ex i hi 0 (by decide)
    rw [matOf_get _ hi (by decide)] at this
    rw [this]
    simp [partialSVD]
  simp only [star_trivial, Finset.sum_range_succ, Finset.sum_range_zero, zero_add, if_true] at h1 h2
  refine ⟨e, h2, ?_⟩
  rw [e 0 (by decide), e 1 (by decide)]
  generalize (la.svd (matOf 2 1 C)).2.1.getD 0 0 = s at *
  generalize (la.svd (matOf 2 1 C)).2.2.get [0, 0] = v at *
  generalize (la.svd (matOf 2 1 C)).1.get [0, 0] = x at *
  generalize (la.svd (matOf 2 1 C)).1.get [1, 0] = y at *
  linear_combination (-(s ^ 2) * v ^ 2) * h1 - s ^ 2 * h2

/-- What the numbers for `slanted` are after the first step, and after the second one. -/
def SlantedAt (exp : K → K) (i : Nat) (N : Numbers K) (S : Trio K) : Prop :=
  (i = 0 → N.n = 1 ∧ N.c 0 ^ 2 = 5 ∧ N.v 0 0 0 = 7 / 5 ∧ N.h 0 0 0 = 2 ∧ N.h 1 0 0 = 1 ∧ S.corner = 0 ∧ S.hEdge = 0 ∧ S.vEdge = 0) ∧
    (i = 1 → N.n = 1 ∧ (exp S.corner * N.c 0) ^ 4 = 9604)

theorem slanted_start (hla : UnitaryLinAlg la) {chi : Nat} (hchi : chi ≠ 0) :
    SlantedAt exp 0 (Numbers.start.step la chi (slanted (K := K)) 2 1) ⟨0, 0, 0⟩ := by
  refine ⟨fun _ => ?_, (fun h => by omega)⟩
  set C : Nat → Nat → K := wideCorner slanted 2 1 1 (fun _ => 1) (fun _ _ _ => 1) (fun _ _ _ => 1) with hC
  have hw : (Numbers.start : Numbers K).wide slanted 2 1 = matOf 2 1 C := rfl
  have c0 : C 0 0 = 2 := by
    simp [hC, wideCorner, slanted]
  have c1 : C 1 0 = 1 := by
    simp [hC, wideCorner, slanted, Finset.sum_range_succ]
  obtain ⟨e, hv, hs⟩ := column_svd hla C
  have e0 := e 0 (by decide)
  have e1 := e 1 (by decide)
  rw [c0] at e0 hs
  rw [c1] at e1 hs
  have hs5 : (la.svd (matOf 2 1 C)).2.1.getD 0 0 ^ 2 = 5 := by
    rw [hs]
    norm_num
  refine ⟨?_, ?_, ?_, ?_, ?_, rfl, rfl, rfl⟩
  · show min chi (min (1 * 2) (1 * 1)) = 1
    omega
  · show (la.svd (Numbers.wide _ _ _ _)).2.1.getD 0 0 ^ 2 = 5
    rw [hw, hs5]
  · show cutV (la.svd (Numbers.wide _ _ _ _)).1 _ _ 0 0 0 = _
    rw [hw]
    have : ∀ U : NDArray K, cutV U (1 * 2) (wideV slanted 2 1 fun _ _ _ => 1) 0 0 0 = U.get [0, 0] ^ 2 + U.get [0, 0] * U.get [1, 0] + U.get [1, 0] ^ 2 := by
      intro U
      simp [cutV, wideV, slanted, Finset.sum_range_succ]
      ring
    refine (this _).trans ?_
    generalize (la.svd (matOf 2 1 C)).2.1.getD 0 0 = s at *
    generalize (la.svd (matOf 2 1 C)).2.2.get [0, 0] = v at *
    generalize (la.svd (matOf 2 1 C)).1.get [0, 0] = x at *
    generalize (la.svd (matOf 2 1 C)).1.get [1, 0] = y at *
    have hx : x ^ 2 * 5 = 4 := by
      have : (x * s * v) ^ 2 = 4 := by rw [← e0]; norm_num
      linear_combination this - x ^ 2 * hs5 - x ^ 2 * s ^ 2 * hv
    have hy : y ^ 2 * 5 = 1 := by
      have : (y * s * v) ^ 2 = 1 := by rw [← e1]; norm_num
      linear_combination this - y ^ 2 * hs5 - y ^ 2 * s ^ 2 * hv
    have hxy : x * y * 5 = 2 := by
      have : (x * s * v) * (y * s * v) = 2 := by rw [← e1, ← e0]; norm_num
      linear_combination this - x * y * hs5 - x * y * s ^ 2 * hv
    have h5 : (5 : K) ≠ 0 := by norm_num
    field_simp
    linear_combination hx + hy + hxy
  · show cutH (la.svd (Numbers.wide _ _ _ _)).2.2 _ _ 0 0 0 = _
    rw [hw]
    have : ∀ W : NDArray K, cutH W (1 * 1) (wideH slanted 2 1 fun _ _ _ => 1) 0 0 0 = 2 * (W.get [0, 0] * W.get [0, 0]) := by
      intro U
      simp [cutH, wideH, slanted, Finset.sum_range_succ]
      ring
    refine (this _).trans ?_
    rw [hv, mul_one]
  · show cutH (la.svd (Numbers.wide _ _ _ _)).2.2 _ _ 1 0 0 = _
    rw [hw]
    have : ∀ W : NDArray K, cutH W (1 * 1) (wideH slanted 2 1 fun _ _ _ => 1) 1 0 0 = W.get [0, 0] * W.get [0, 0] := by
      intro U
      simp [cutH, wideH, slanted, Finset.sum_range_succ]
    refine (this _).trans ?_
    rw [hv]

theorem slanted_closed (hla : UnitaryLinAlg la) (E : LogExp log exp) {chi : Nat} (hchi : chi ≠ 0) :
    StepClosed la chi (slanted (K := K)) 2 1 log (SlantedAt exp) := by
  intro i N S x y z hN hx
  refine ⟨(fun h => by omega), fun h => ?_⟩
  obtain rfl : i = 0 := by omega
  obtain ⟨n1, hc, hv, h0, h1, s1, s2, s3⟩ := hN.1 rfl
  have hw : N.wide slanted 2 1 = matOf 2 1 (wideCorner slanted 2 1 1 N.c N.v N.h) := by
    unfold Numbers.wide
    rw [n1]
  have c0 : wideCorner (slanted (K := K)) 2 1 1 N.c N.v N.h 0 0 = 7 / 5 * N.c 0 * 3 := by
    simp [wideCorner, slanted, Finset.sum_range_succ, hv, h0, h1]
    ring
  have c1 : wideCorner (slanted (K := K)) 2 1 1 N.c N.v N.h 1 0 = 7 / 5 * N.c 0 := by
    simp [wideCorner, slanted, Finset.sum_range_succ, hv, h0, h1]
  obtain ⟨-, -, hs⟩ := column_svd hla (wideCorner (slanted (K := K)) 2 1 1 N.c N.v N.h)
  rw [← hw, c0, c1] at hs
  have hs : (N.step la chi slanted 2 1).c 0 ^ 2 = 98 := by
    refine hs.trans ?_
    linear_combination (98 / 5 : K) * hc
  have nn : (N.step la chi slanted 2 1).n = 1 := by
    show min chi (min (N.n * 2) (N.n * 1)) = 1
    rw [n1]
    omega
  have px : 0 < x := lt_of_le_of_ne hx.x0 fun e => by
    have := hx.corner e.symm 0 (by rw [nn]; exact Nat.one_pos)
    rw [this] at hs
    norm_num at hs
  refine ⟨nn, ?_⟩
  show (exp (log x + S.corner + S.hEdge + S.vEdge) * ((N.step la chi slanted 2 1).c 0 / x)) ^ 4 = 9604
  rw [s1, s2, s3, add_zero, add_zero, add_zero, E.log x px, mul_div_cancel₀ _ px.ne']
  linear_combination ((N.step la chi slanted 2 1).c 0 ^ 2 + 98) * hs

/-- C55, a deviation: with two values for vertical and one for horizontal bonds `getZ(4)` is wrong, no matter how large `chi` is: the edges are
cut down to the smaller of the two dimensions of the corner.  The four columns of this lattice are independent. -/
theorem C55_unequal (hla : UnitaryLinAlg la) (hcast : ∀ x, p.cast x = x) (hn : TriangleTRGState.TrueNorm p.norm) (E : LogExp log exp) {st : Store}
    (wf : WFStore st) {a : Tensor K} (ha : IsCenter st a 2 1 slanted) {chi : Nat} (hchi : chi ≠ 0) :
    Open.partition 4 (Open.onFin 2 1 (slanted (K := K))) = 10000 ∧
    ∃ s0 s', Settles (fun fuel => CTMRGState.new p la fuel st a chi) s0 ∧ Settles (fun fuel => s0.getZ p la fuel log exp 4) (s', 9604) := by
  refine ⟨slanted_partition, ?_⟩
  obtain ⟨s0, e0, g, T, es, er, ec, -⟩ := C55_new (p := p) hla wf ha hchi
  have T0 : s0.Tracked (SlantedAt exp) 2 1 := by
    refine ⟨by rw [er], by rw [er], ?_, ⟨_, T, ?_⟩⟩
    · rw [er]
      intro i x y z hx
      cases hx
    · rw [er, es]
      exact slanted_start hla hchi
  obtain ⟨s', N, S, e', -, -, -, PN⟩ := getZ_more (exp := exp) ⟨fun a n m h1 h2 => (hla a n m h1 h2).toIsSVD, hcast, hn⟩
    (slanted_closed hla E hchi) g ec T0 (L := 4) (by decide)
  obtain ⟨n1, hv⟩ := PN.2 rfl
  have : valueOf exp (slanted (K := K)) 2 1 4 N S = 9604 := by
    show N.even * exp (4 * S.corner) = 9604
    rw [show (4 : K) * S.corner = S.corner + S.corner + S.corner + S.corner by ring, E.add, E.add, E.add, Numbers.even, n1, Finset.sum_range_one]
    linear_combination hv
  rw [this] at e'
  exact ⟨s0, s', e0, e'⟩

end

/-! ### The hypotheses can be met -/

theorem real_logExp : LogExp Real.log Real.exp := ⟨Real.exp_zero, Real.exp_add, fun _ => Real.exp_log⟩

/-- Sixteen different positive weights. -/
noncomputable def sampleSite : NDArray ℝ :=
  NDArray.build [2, 2, 2, 2] fun idx => 1 + idx.getD 0 0 + 2 * idx.getD 1 0 + 4 * idx.getD 2 0 + 8 * idx.getD 3 0

example : ∃ (la : LinAlg ℝ) (st : Store) (a : Tensor ℝ) (s0 s s' : CTMRGState ℝ), UnitaryLinAlg la ∧
    construct realParams.rand Store.empty { data := some sampleSite, labels := some ["u", "l", "d", "r"] } = .ok (st, a) ∧
    Settles (fun fuel => CTMRGState.new realParams la fuel st a 4) s0 ∧
    Settles (fun fuel => s0.queries realParams la fuel Real.log Real.exp [9, 1, 2]) s ∧
    Settles (fun fuel => s.getZ realParams la fuel Real.log Real.exp 5)
      (s', Open.partition 5 fun l r u d : Fin 2 => sampleSite.get [u, l, d, r]) := by
  obtain ⟨la, -, hla, -, -⟩ := exists_linAlg ℝ
  obtain ⟨st, a, e, wf, ha⟩ := C55_site realParams Reachable.empty.wf (d := sampleSite) (V := 2) (H := 2) (NDArray.build_wf _ _) rfl (by decide) (by decide)
  obtain ⟨s0, s, s', e0, e1, e2⟩ := C55_exact_positive (p := realParams) (chi := 4) (Ls := [9, 1, 2]) (L := 5) hla (fun _ => rfl) frobenius_true
    real_logExp wf ha (by decide) (by decide) (by decide) (fun l hl r hr u hu d hd => by
      show 0 < (NDArray.build _ _).get [u, l, d, r]
      rw [NDArray.get_build _ (validIdx_cons.mpr ⟨hu, validIdx_cons.mpr ⟨hl, validIdx_cons.mpr ⟨hd, validIdx_cons.mpr ⟨hr, validIdx_nil⟩⟩⟩⟩)]
      simp only [List.getD_cons_zero, List.getD_cons_succ]
      positivity)
  exact ⟨la, st, a, s0, s, s', hla, e, e0, e1, e2⟩

example : ∃ (la : LinAlg ℝ) (st : Store) (a : Tensor ℝ), UnitaryLinAlg la ∧ WFStore st ∧ IsCenter st a 2 1 slanted := by
  obtain ⟨la, -, hla, -, -⟩ := exists_linAlg ℝ
  obtain ⟨st, a, -, wf, ha⟩ := C55_site realParams Reachable.empty.wf (d := ⟨[2, 1, 2, 1], [1, 1, 0, 1]⟩) (V := 2) (H := 1) rfl rfl
    (by decide) (by decide)
  refine ⟨la, st, a, hla, wf, ha.labels, ha.du, ha.dl, ha.dd, ha.dr, fun u hu l hl d hd r hr => (ha.val u hu l hl d hd r hr).trans ?_⟩
  obtain rfl : l = 0 := by omega
  obtain rfl : r = 0 := by omega
  have hu : u = 0 ∨ u = 1 := by omega
  have hd : d = 0 ∨ d = 1 := by omega
  rcases hu with rfl | rfl <;> rcases hd with rfl | rfl <;> simp [slanted, NDArray.get, ravel]

example : ∀ l < 2, ∀ r < 2, ∀ u < 2, ∀ d < 2, (fun l r u d : Nat => 1 + l + r + 5 * u * d) l r u d = (fun l r u d : Nat => 1 + l + r + 5 * u * d) r l u d := by
  decide

end CTL
