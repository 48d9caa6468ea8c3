import Verif.Spec.TRG
import Verif.Lemmas.LabelMatrix
import Verif.Lemmas.HOTRGRun
import Verif.Props.ContractExp
import Verif.Props.Decompose

/-! Single steps of `SquareTRG`. -/

namespace CTL
variable {K : Type}

open Finset (range)

/-! ### Matrices -/

theorem siteMatrix_get [Zero K] {V H : Nat} (A : Nat → Nat → Nat → Nat → K) {u l d r : Nat} (hu : u < V) (hl : l < H) (hd : d < V) (hr : r < H) :
    (siteMatrix V H A).get [u * H + l, d * H + r] = A u l d r := by
  have h0 : 0 < H := by omega
  have h1 : u * H + l < V * H := by nlinarith
  have h2 : d * H + r < V * H := by nlinarith
  have e : ∀ a b, b < H → (a * H + b) / H = a ∧ (a * H + b) % H = b := fun a b hb =>
    ⟨by rw [mul_comm, Nat.mul_add_div h0, Nat.div_eq_of_lt hb, add_zero], by rw [mul_comm, Nat.mul_add_mod, Nat.mod_eq_of_lt hb]⟩
  unfold siteMatrix
  rw [NDArray.get_build _ (validIdx_cons.mpr ⟨h1, validIdx_cons.mpr ⟨h2, validIdx_nil⟩⟩)]
  simp only [List.getD_cons_zero, List.getD_cons_succ, (e u l hl).1, (e u l hl).2, (e d r hr).1, (e d r hr).2]

theorem crossMatrix_get [Zero K] {V H : Nat} (A : Nat → Nat → Nat → Nat → K) {u l d r : Nat} (hu : u < V) (hl : l < H) (hd : d < V) (hr : r < H) :
    (crossMatrix V H A).get [u * H + r, d * H + l] = A u l d r := by
  have h0 : 0 < H := by omega
  have h1 : u * H + r < V * H := by nlinarith
  have h2 : d * H + l < V * H := by nlinarith
  have e : ∀ a b, b < H → (a * H + b) / H = a ∧ (a * H + b) % H = b := fun a b hb =>
    ⟨by rw [mul_comm, Nat.mul_add_div h0, Nat.div_eq_of_lt hb, add_zero], by rw [mul_comm, Nat.mul_add_mod, Nat.mod_eq_of_lt hb]⟩
  unfold crossMatrix
  rw [NDArray.get_build _ (validIdx_cons.mpr ⟨h1, validIdx_cons.mpr ⟨h2, validIdx_nil⟩⟩)]
  simp only [List.getD_cons_zero, List.getD_cons_succ, (e u r hr).1, (e u r hr).2, (e d l hl).1, (e d l hl).2]

/-- Two matrices with rows and columns for two indices each. -/
theorem ext_pairs [Zero K] {V H : Nat} {m m' : NDArray K} (w : m.WF) (w' : m'.WF) (s : m.shape = [V * H, V * H]) (s' : m'.shape = [V * H, V * H])
    (h : ∀ u < V, ∀ l < H, ∀ d < V, ∀ r < H, m.get [u * H + l, d * H + r] = m'.get [u * H + l, d * H + r]) : m = m' := by
  refine NDArray.ext_get w w' (s.trans s'.symm) fun idx hi => ?_
  rw [s] at hi
  obtain ⟨i, j, rfl⟩ : ∃ i j, idx = [i, j] := by
    match idx, hi.length with
    | [i, j], _ => exact ⟨i, j, rfl⟩
  obtain ⟨hi, hj⟩ := validIdx_cons.mp hi
  obtain ⟨hj, _⟩ := validIdx_cons.mp hj
  have h0 : 0 < H := by
    rcases Nat.eq_zero_or_pos H with rfl | h
    · simp at hi
    · exact h
  have e : ∀ i < V * H, i / H < V ∧ i % H < H ∧ i / H * H + i % H = i := fun i hi =>
    ⟨(Nat.div_lt_iff_lt_mul h0).mpr hi, Nat.mod_lt _ h0, by rw [mul_comm]; exact Nat.div_add_mod i H⟩
  have := h _ (e i hi).1 _ (e i hi).2.1 _ (e j hj).1 _ (e j hj).2.1
  rwa [(e i hi).2.2, (e j hj).2.2] at this

theorem SquareSite.matrix [Zero K] {st : Store} {t : Tensor K} (h : SquareSite st t) :
    t.toMatrix (some (t.legsOfLabels st ["u", "l"])) (some (t.legsOfLabels st ["d", "r"])) =
      .ok (siteMatrix (t.dimOf st "u") (t.dimOf st "l") (t.site st)) := by
  obtain ⟨m, e, w, s, v⟩ := h.labels.matrix ["u", "l"] ["d", "r"] (by decide) (.refl _) (by decide) (by decide)
  rw [e]
  congr 1
  refine ext_pairs w (NDArray.build_wf _ _) ?_ rfl fun u hu l hl d hd r hr => ?_
  · rw [s]
    simp [← h.v, ← h.h]
  · rw [siteMatrix_get _ hu hl hd hr]
    have := v [("u", u), ("l", l), ("d", d), ("r", r)] (by
      simp only [List.cons_append, List.nil_append, List.mem_cons, List.not_mem_nil, or_false]
      rintro x (rfl | rfl | rfl | rfl)
      · exact hu
      · exact hl
      · exact h.v ▸ hd
      · exact h.h ▸ hr)
    unfold Tensor.site
    rw [← this]
    simp [ravel, indexAt, ← h.v, ← h.h]

theorem SquareSite.crossMatrix [Zero K] {st : Store} {t : Tensor K} (h : SquareSite st t) :
    t.toMatrix (some (t.legsOfLabels st ["u", "r"])) (some (t.legsOfLabels st ["d", "l"])) =
      .ok (crossMatrix (t.dimOf st "u") (t.dimOf st "l") (t.site st)) := by
  obtain ⟨m, e, w, s, v⟩ := h.labels.matrix ["u", "r"] ["d", "l"] (by decide) (by decide) (by decide) (by decide)
  rw [e]
  congr 1
  refine ext_pairs w (NDArray.build_wf _ _) ?_ rfl fun u hu r hr d hd l hl => ?_
  · rw [s]
    simp [← h.v, ← h.h]
  · rw [crossMatrix_get _ hu hl hd hr]
    have := v [("u", u), ("l", l), ("d", d), ("r", r)] (by
      simp only [List.cons_append, List.nil_append, List.mem_cons, List.not_mem_nil, or_false]
      rintro x (rfl | rfl | rfl | rfl)
      · exact hu
      · exact h.h ▸ hr
      · exact h.v ▸ hd
      · exact hl)
    unfold Tensor.site
    rw [← this]
    simp [ravel, indexAt, ← h.v, ← h.h]

/-! ### Pieces -/

/-- A tensor with the entries of a factor. -/
structure IsPiece [Zero K] (st : Store) (t : Tensor K) (x y : String) (V H k : Nat) (u : NDArray K) : Prop where
  labels : HasLabels st t [x, y, "o"]
  dx : t.dimOf st x = V
  dy : t.dimOf st y = H
  do' : t.dimOf st "o" = k
  val : ∀ i < V, ∀ j < H, ∀ o < k, t.at st [(x, i), (y, j), ("o", o)] = factorAt H u i j o

theorem IsPiece.kept [Zero K] {st st' : Store} {t : Tensor K} {x y : String} {V H k : Nat} {u : NDArray K}
    (h : IsPiece st t x y V H k u) (hk : LegsUnchanged st st') : IsPiece st' t x y V H k u :=
  ⟨hk.hasLabels h.labels, by rw [hk.dimOf h.labels.known, h.dx], by rw [hk.dimOf h.labels.known, h.dy],
    by rw [hk.dimOf h.labels.known, h.do'], fun i hi j hj o ho => by rw [hk.at h.labels.known]; exact h.val i hi j hj o ho⟩

theorem piece_ok [Zero K] (rand : List Nat → List Nat → K) {st : Store} (wf : WFStore st) {u : NDArray K} {V H k : Nat} (wu : u.WF)
    (su : u.shape = [V * H, k]) (hV : V ≠ 0) (hH : H ≠ 0) (hk : k ≠ 0) {x y : String} (nd : [x, y, "o"].Nodup) :
    ∃ st' t, construct rand st { shape := some (.tuple [V, H, k]), labels := some [x, y, "o"], data := some u } = .ok (st', t) ∧
      WFStore st' ∧ LegsUnchanged st st' ∧ IsPiece st' t x y V H k u := by
  obtain ⟨st1, t1, e1, w1, k1, l1, d1, v1⟩ := construct_shaped rand wf wu (s := [V, H, k]) (labels := [x, y, "o"]) rfl nd
    (by rw [su]; simp [mul_assoc]) (by simp [hV, hH, hk])
  refine ⟨st1, t1, e1, w1, k1, l1, d1 x V (by simp), d1 y H (by simp), d1 "o" k (by simp), fun i hi j hj o ho => ?_⟩
  have := v1 [i, j, o] rfl
  simp only [List.zip_cons_cons, List.zip_nil_right] at this
  rw [this]
  refine NDArray.get_mk_reshape u [V, H, k] [i, j, o] [i * H + j, o] ?_
  rw [su]
  simp [ravel]
  ring

variable [Field K] [LinearOrder K] [Star K] {p : RGParams K} {la : LinAlg K}

theorem pieces_ok {st : Store} (wf : WFStore st) {uA vA uB vB : NDArray K} {V H k : Nat} (hV : V ≠ 0) (hH : H ≠ 0) (hk : k ≠ 0)
    (w1 : uA.WF) (s1 : uA.shape = [V * H, k]) (w2 : vA.WF) (s2 : vA.shape = [V * H, k]) (w3 : uB.WF) (s3 : uB.shape = [V * H, k])
    (w4 : vB.WF) (s4 : vB.shape = [V * H, k]) :
    ∃ st' x, SquareTRGState.pieces p st V H uA vA uB vB = .ok (st', x) ∧ WFStore st' ∧ LegsUnchanged st st' ∧
      IsPiece st' x.dr "u" "l" V H k uA ∧ IsPiece st' x.ul "d" "r" V H k vA ∧ IsPiece st' x.dl "u" "r" V H k uB ∧
      IsPiece st' x.ur "d" "l" V H k vB := by
  obtain ⟨st1, dr, e1, f1, k1, p1⟩ := piece_ok p.rand wf w1 s1 hV hH hk (x := "u") (y := "l") (by decide)
  obtain ⟨st2, ul, e2, f2, k2, p2⟩ := piece_ok p.rand f1 w2 s2 hV hH hk (x := "d") (y := "r") (by decide)
  obtain ⟨st3, dl, e3, f3, k3, p3⟩ := piece_ok p.rand f2 w3 s3 hV hH hk (x := "u") (y := "r") (by decide)
  obtain ⟨st4, ur, e4, f4, k4, p4⟩ := piece_ok p.rand f3 w4 s4 hV hH hk (x := "d") (y := "l") (by decide)
  refine ⟨st4, ⟨dr, ul, dl, ur⟩, ?_, f4, ((k1.trans k2).trans k3).trans k4, p1.kept ((k2.trans k3).trans k4), p2.kept (k3.trans k4), p3.kept k4, p4⟩
  unfold SquareTRGState.pieces
  simp only [s1, s2, s3, s4, List.getD_cons_zero, List.getD_cons_succ, e1, e2, e3, e4, bind, Except.bind, pure, Except.pure]

/-! ### Decompositions -/

omit [LinearOrder K] in
theorem factors_ok [TrivialStar K] (hla : ExactLinAlg la) {m : NDArray K} {n : Nat} (wm : m.WF) (sm : m.shape = [n, n]) (chi : Nat) :
    ∃ u v, svdDecomposition la m chi 2 = .ok (u, v, cutShare la m chi) ∧ Factors la m n chi u v := by
  letI inst : StarRing K :=
    { star := star
      star_involutive := fun x => by rw [star_trivial, star_trivial]
      star_mul := fun x y => by rw [star_trivial, star_trivial, star_trivial, mul_comm]
      star_add := fun x y => by rw [star_trivial, star_trivial, star_trivial] }
  have S := hla.svd m n n wm sm
  obtain ⟨u, v, er, e, he, su, sv, hp⟩ := svd_factors S (hla.sqrt m n n wm sm) chi 2
  rw [C39_svd_errorValue] at he
  rw [Nat.min_self] at su sv hp
  refine ⟨u, v, ?_, ?_, su, ?_, sv, ?_⟩
  · rw [cutShare, ← he]
    exact e
  · obtain ⟨h1, h2, h3, h4, h5, h6⟩ := C39_svd_kept S chi 2
    have hq : (((svdTruncated la m chi 2).s).map la.sqrt).length = min chi (min n n) := by rw [List.length_map, h4]
    obtain ⟨uR, u1, u2, u3, u4⟩ := matmul_diag_right (((svdTruncated la m chi 2).s).map la.sqrt) (a := (svdTruncated la m chi 2).u) (n := n) (by rw [h1, hq])
    obtain ⟨vR, v1, v2, v3, v4⟩ := matmul_diag_left (((svdTruncated la m chi 2).s).map la.sqrt) (a := (svdTruncated la m chi 2).vh) (m := n) (by rw [h2, hq])
    unfold svdDecomposition at e
    simp only [u1, v1, bind, Except.bind, pure, Except.pure] at e
    rw [← (Prod.mk.inj (Except.ok.inj e)).1]
    exact u3
  · obtain ⟨h1, h2, h3, h4, h5, h6⟩ := C39_svd_kept S chi 2
    have hq : (((svdTruncated la m chi 2).s).map la.sqrt).length = min chi (min n n) := by rw [List.length_map, h4]
    obtain ⟨uR, u1, u2, u3, u4⟩ := matmul_diag_right (((svdTruncated la m chi 2).s).map la.sqrt) (a := (svdTruncated la m chi 2).u) (n := n) (by rw [h1, hq])
    obtain ⟨vR, v1, v2, v3, v4⟩ := matmul_diag_left (((svdTruncated la m chi 2).s).map la.sqrt) (a := (svdTruncated la m chi 2).vh) (m := n) (by rw [h2, hq])
    unfold svdDecomposition at e
    simp only [u1, v1, bind, Except.bind, pure, Except.pure] at e
    rw [← (Prod.mk.inj (Prod.mk.inj (Except.ok.inj e)).2).1]
    exact (conjTranspose_spec v2).2.1
  · intro i hi j hj
    rw [← hp i hi j hj]
    exact Finset.sum_congr rfl fun k _ => by rw [star_trivial]

/-! ### Steps -/

namespace SquareTRGState
variable {s : SquareTRGState K}

theorem append_ok (wf : WFStore s.st) (ha : SquareSite s.st s.a) :
    ∃ st' a c norms, s.append p = .ok { s with st := st', a := a, aNorms := norms, aArchive := s.aArchive ++ [(c, s.dof)] } ∧
      WFStore st' ∧ LegsUnchanged s.st st' ∧ SquareSite st' a ∧ (∀ x, a.dimOf st' x = s.a.dimOf s.st x) ∧
      Recorded p s.aNorms s.aArchive s.a
        { s with st := st', a := a, aNorms := norms, aArchive := s.aArchive ++ [(c, s.dof)] } := by
  obtain ⟨b, hb, -⟩ := ha.labels.good.data
  obtain ⟨hd, hv⟩ := divided ha hb (p.norm b)
  obtain ⟨st', c, e, F, O⟩ := copy_fresh p.rand hd.labels.good hd.labels.dense
  have hk : LegsUnchanged s.st st' := ⟨O.grows.le, O.old.leg⟩
  obtain ⟨hc, hs⟩ := F.square hd
  refine ⟨st', { s.a with a := some (b.divBy (p.norm b)) }, c, s.aNorms ++ [p.norm b], ?_, O.grows.wf wf, hk, hd.kept hk, ?_, ?_, ?_⟩
  · have hl : ¬ s.a.like = true := by rw [ha.labels.good.notLike]; decide
    have hn : s.normalize p =
        .ok { s with a := { s.a with a := some (b.divBy (p.norm b)) }, aNorms := s.aNorms ++ [p.norm b] } := by
      unfold SquareTRGState.normalize
      rw [if_neg hl, hb]
      rfl
    unfold SquareTRGState.append
    rw [hn]
    simp only [bind, Except.bind, pure, Except.pure, e]
  · intro x
    exact hk.dimOf (t := { s.a with a := some (b.divBy (p.norm b)) }) ha.labels.known x
  · refine ⟨b, hb, rfl, rfl, fun u l d r => ?_⟩
    rw [hd.site_kept hk, ha.site_kept hk]
    exact hv u l d r
  · refine ⟨c, rfl, hc, ?_, ?_, fun u l d r => ?_⟩
    · rw [hs.v]
      exact (hk.dimOf (t := { s.a with a := some (b.divBy (p.norm b)) }) ha.labels.known _).symm
    · rw [hs.h]
      exact (hk.dimOf (t := { s.a with a := some (b.divBy (p.norm b)) }) ha.labels.known _).symm
    · rw [hs.val]
      rw [hd.site_kept hk]

theorem split_settles [TrivialStar K] (hla : ExactLinAlg la) (g : Good p s) (hchi : 0 < s.chi) :
    ∃ net st' t uA vA uB vB, Settles (fun fuel => split p la fuel s.iterateFTN s.chi s.st s.a s.a)
        (net, st', t, cutShare la s.mat s.chi, cutShare la s.crossMat s.chi) ∧ NetOf p squareContractOutFTN net ∧ WFStore st' ∧
      LegsUnchanged s.st st' ∧ SquareSite st' t ∧
      t.dimOf st' "u" = min s.chi (s.a.dimOf s.st "u" * s.a.dimOf s.st "l") ∧
      t.dimOf st' "l" = min s.chi (s.a.dimOf s.st "u" * s.a.dimOf s.st "l") ∧
      Factors la s.mat (s.a.dimOf s.st "u" * s.a.dimOf s.st "l") s.chi uA vA ∧
      Factors la s.crossMat (s.a.dimOf s.st "u" * s.a.dimOf s.st "l") s.chi uB vB ∧
      ∀ u < t.dimOf st' "u", ∀ l < t.dimOf st' "l", ∀ d < t.dimOf st' "u", ∀ r < t.dimOf st' "l",
        t.site st' u l d r = fourCorners (s.a.dimOf s.st "u") (s.a.dimOf s.st "l") (factorAt (s.a.dimOf s.st "l") uA)
          (factorAt (s.a.dimOf s.st "l") vA) (factorAt (s.a.dimOf s.st "l") uB) (factorAt (s.a.dimOf s.st "l") vB) u l d r := by
  have hV : s.a.dimOf s.st "u" ≠ 0 := dimOf_pos g.a.labels (by decide) (by decide)
  have hH : s.a.dimOf s.st "l" ≠ 0 := dimOf_pos g.a.labels (by decide) (by decide)
  have eV : s.a.shapeOfLabel s.st "u" = some (s.a.dimOf s.st "u") := g.a.labels.shapeOfLabel (by decide) (by decide)
  have eH : s.a.shapeOfLabel s.st "l" = some (s.a.dimOf s.st "l") := g.a.labels.shapeOfLabel (by decide) (by decide)
  have eM := g.a.matrix
  have eC := g.a.crossMatrix
  change _ = Except.ok s.mat at eM
  change _ = Except.ok s.crossMat at eC
  obtain ⟨uA, vA, eA, FA⟩ := factors_ok hla (m := s.mat) (NDArray.build_wf _ _) rfl s.chi
  obtain ⟨uB, vB, eB, FB⟩ := factors_ok hla (m := s.crossMat) (NDArray.build_wf _ _) rfl s.chi
  obtain ⟨net, en, hn⟩ : ∃ net, network s.iterateFTN = .ok net ∧ NetOf p squareContractOutFTN net := by
    cases h : s.iterateFTN with
    | some n => exact ⟨n, rfl, g.net n h⟩
    | none =>
      obtain ⟨net, e⟩ : ∃ net, squareContractOutFTN 1 = .ok net := ⟨_, rfl⟩
      exact ⟨net, e, NetOf.made e⟩
  generalize s.a.dimOf s.st "u" = V at *
  generalize s.a.dimOf s.st "l" = H at *
  have hk : min s.chi (V * H) ≠ 0 := by
    have := Nat.mul_ne_zero hV hH
    omega
  obtain ⟨st1, x, e1, w1, k1, p1, p2, p3, p4⟩ := pieces_ok (p := p) g.wf hV hH hk FA.uWF FA.uShape FA.vWF FA.vShape FB.uWF FB.uShape FB.vWF FB.vShape
  generalize hK : min s.chi (V * H) = k at *
  have hc := C49_squareOut p.rand p.cast w1 p2.labels p4.labels p1.labels p3.labels (by rw [p2.dx, p3.dx]) (by rw [p2.dy, p4.dy])
    (by rw [p4.dx, p1.dx]) (by rw [p3.dy, p1.dy])
  obtain ⟨net', st', t, hs, hn', o⟩ := contractNet_settles hn hc
    (dict := [("ul", x.ul), ("ur", x.ur), ("dl", x.dl), ("dr", x.dr)]) ((List.Perm.swap _ _ _).cons _ |>.cons _)
  have du : t.dimOf st' "u" = k := by
    rw [o.dimOf (by show "u" ∈ ["u", "r", "d", "l"]; decide)]
    exact p2.do'
  have dr : t.dimOf st' "r" = k := by
    rw [o.dimOf (by show "r" ∈ ["u", "r", "d", "l"]; decide)]
    exact p4.do'
  have dd : t.dimOf st' "d" = k := by
    rw [o.dimOf (by show "d" ∈ ["u", "r", "d", "l"]; decide)]
    exact p1.do'
  have dl : t.dimOf st' "l" = k := by
    rw [o.dimOf (by show "l" ∈ ["u", "r", "d", "l"]; decide)]
    exact p3.do'
  refine ⟨net', st', t, uA, vA, uB, vB, ?_, hn', o.wf, k1.trans o.kept, ⟨o.hasLabels (by show ["u", "r", "d", "l"].Perm _; decide), by rw [du, dd], by rw [dl, dr]⟩,
    du, dl, FA, FB, ?_⟩
  · unfold split
    simp only [en, eV, eH, eM, eC, eA, eB, e1, bind, Except.bind]
    refine Settles.bind hs (Settles.const rfl)
  · rw [du, dl]
    intro u hu l hl d hd r hr
    have ha := o.at (xs := [("u", u), ("l", l), ("d", d), ("r", r)]) (by
      intro y hy
      have hy : y ∈ ["u", "r", "d", "l"] := hy
      simp only [List.mem_cons, List.not_mem_nil, or_false] at hy
      rcases hy with rfl | rfl | rfl | rfl
      · show u < x.ul.dimOf st1 "o"
        rw [p2.do']; exact hu
      · show r < x.ur.dimOf st1 "o"
        rw [p4.do']; exact hr
      · show d < x.dr.dimOf st1 "o"
        rw [p1.do']; exact hd
      · show l < x.dl.dimOf st1 "o"
        rw [p3.do']; exact hl)
    refine ha.trans ?_
    simp only [squareOutArr, p3.dy, p4.dx, p2.dy, p2.dx]
    unfold fourCorners
    refine Finset.sum_congr rfl fun m hm => Finset.sum_congr rfl fun k' hk' => Finset.sum_congr rfl fun j hj => Finset.sum_congr rfl fun i hi => ?_
    rw [Finset.mem_range] at hm hk' hj hi
    have a1 := p2.val i hi j hj u hu
    have a2 := p4.val k' hk' j hj r hr
    have a3 := p1.val k' hk' m hm d hd
    have a4 := p3.val i hi m hm l hl
    simp only [indexAt, if_true, show ("l" = "u") = False by decide, show ("d" = "u") = False by decide, show ("d" = "l") = False by decide,
      show ("r" = "u") = False by decide, show ("r" = "l") = False by decide, show ("r" = "d") = False by decide, if_false, a1, a2, a3, a4]

theorem iterate_settles [TrivialStar K] (hla : ExactLinAlg la) (g : Good p s) (hchi : 0 < s.chi) :
    ∃ s', Settles (fun fuel => s.iterate p la fuel) s' ∧ Good p s' ∧ Iterated p la s s' := by
  obtain ⟨net, st1, t, uA, vA, uB, vB, e1, hn, w1, k1, q1, du, dl, FA, FB, val⟩ := split_settles hla g hchi
  obtain ⟨st3, a3, c3, norms, e3, wf3, hk3, q3, d3, N3⟩ := append_ok (p := p)
    (s := { s with st := st1, a := t, dof := s.dof * 2, iterateFTN := some net }) w1 q1
  refine ⟨{ s with st := st3, a := a3, dof := s.dof * 2, iterateFTN := some net, aNorms := norms, aArchive := s.aArchive ++ [(c3, s.dof * 2)], errors := s.errors ++ [(cutShare la s.mat s.chi, cutShare la s.crossMat s.chi)] }, ?_, ⟨wf3, q3, fun n h => Option.some.inj h ▸ hn⟩, ?_⟩
  · unfold iterate
    refine Settles.bind e1 (Settles.const ?_)
    simp only [e3, bind, Except.bind, pure, Except.pure]
  · have dv : a3.dimOf st3 "u" = _ := d3 "u"
    have dh : a3.dimOf st3 "l" = _ := d3 "l"
    refine ⟨rfl, rfl, k1.trans hk3, rfl, dv.trans du, dh.trans dl, t, uA, vA, uB, vB, ⟨N3.a, N3.archive⟩, FA, FB, ?_⟩
    intro u hu l hl d hd r hr
    simp only at hu hl hd hr ⊢
    rw [dv] at hu hd
    rw [dh] at hl hr
    rw [q1.site_kept hk3]
    exact val u hu l hl d hd r hr

theorem new_ok {st : Store} (wf : WFStore st) {V H : Nat} {A : Nat → Nat → Nat → Nat → K} {x : Tensor K ⊕ NDArray K}
    (hx : InitialSite st V H A x) (dof : Option Nat) (chi : Nat) (fuel : Nat) :
    ∃ s, SquareTRGState.new p la fuel st x none dof chi = .ok s ∧ Good p s ∧ Started p st V H A dof chi s := by
  obtain ⟨st1, a1, e1, wf1, k1, q1, dv, dh, val⟩ := initial_ok (p := p) wf hx
  obtain ⟨st3, a3, c3, norms, e3, wf3, hk3, q3, d3, N3⟩ := append_ok (p := p)
    (s := { st := st1, a := a1, dof := dof.getD 1, chi := chi, iterateFTN := none, aNorms := [], aArchive := [], errors := [] }) wf1 q1
  unfold SquareTRGState.new
  simp only [e1, bind, Except.bind]
  refine ⟨_, e3, ⟨wf3, q3, fun n h => nomatch h⟩, ⟨k1.trans hk3, rfl, rfl, rfl, (d3 "u").trans dv, (d3 "l").trans dh, a1, N3, ?_⟩⟩
  intro u l d r
  rw [q1.site_kept hk3]
  exact val u l d r

theorem new_fails (fuel : Nat) (st : Store) (x b : Tensor K ⊕ NDArray K) (dof : Option Nat) (chi : Nat) (s : SquareTRGState K) :
    SquareTRGState.new p la fuel st x (some b) dof chi ≠ .ok s := by
  unfold SquareTRGState.new
  simp only [bind, Except.bind]
  intro h
  split at h
  · cases h
  · split at h
    · cases h
    · split at h
      · cases h
      · split at h <;> cases h

end SquareTRGState

end CTL
