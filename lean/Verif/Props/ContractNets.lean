import Verif.Props.ContractExp
import Verif.Props.Traces

/-! C49: consequences for the dictionaries of `contractExp.py`, numbers as results, wrong directions; concrete cases. -/

namespace CTL
variable {R : Type}

/-- A result without legs is a number, and `single` returns it. -/
theorem single_of_represents [CommSemiring R] {st : Store} {t : Tensor R} {A : LArr R} (h : Represents st t A)
    (g : GoodTensor st t) (hl : A.labels = []) (τ : String → Nat) : t.single st = .ok (A.val τ) := by
  have nl : t.legs = [] := by
    have := h.labels
    rw [hl] at this
    exact List.map_eq_nil_iff.mp this.eq_nil
  obtain ⟨arr, ha, _, hs, hdg⟩ := g.data
  have hv := h.val τ (by intro x hx; rw [hl] at hx; cases hx)
  rw [← hv]
  unfold Tensor.single entry
  cases hd : t.diag with
  | false =>
    simp [g.notLike, ha, Tensor.shape, nl, hd, pyAssert, bind, Except.bind, pure, Except.pure, hs]
  | true =>
    rcases hdg hd with ⟨_, h2, h3⟩ | ⟨h1, _⟩
    · simp [g.notLike, ha, Tensor.shape, nl, hd, pyAssert, bind, Except.bind, pure, Except.pure, h2, h3]
    · exact absurd nl h1

theorem Computes.number [CommSemiring R] {rand : List Nat → List Nat → R} {cast : R → R}
    {make : Nat → Except PyErr (FTN × List String)} {st : Store} {inputs : List (String × Tensor R)} {A : LArr R}
    (h : Computes rand cast make st inputs A) (hl : A.labels = []) (τ : String → Nat) :
    ComputesNumber rand cast make st inputs (A.val τ) := by
  intro list
  obtain ⟨f, names, hm, hc⟩ := h list
  refine ⟨f, names, hm, fun calls dict hp => ?_⟩
  obtain ⟨n, hn⟩ := hc calls dict hp
  refine ⟨n, fun fuel hf => ?_⟩
  obtain ⟨f', st', t, he, o⟩ := hn fuel hf
  exact ⟨f', st', t, he, single_of_represents o.rep o.good hl τ, o.old⟩

open Finset (range)

/-- C49: with one corner matrix at all four corners, as `getZEven` calls it, the ring is the trace of `(C Cᵀ)²`. -/
theorem C49_evenZ_same [CommSemiring R] (rand : List Nat → List Nat → R) (cast : R → R) {st : Store} {c : Tensor R}
    (wf : WFStore st) (l : HasLabels st c ["u", "r"]) :
    ComputesNumber rand cast CTMRGEvenZFTN st [("alu", c), ("ald", c), ("aru", c), ("ard", c)]
      (∑ m ∈ range (c.dimOf st "r"), ∑ k ∈ range (c.dimOf st "r"), ∑ j ∈ range (c.dimOf st "u"), ∑ i ∈ range (c.dimOf st "u"),
        c.at st [("u", i), ("r", k)] * c.at st [("u", i), ("r", m)] * c.at st [("u", j), ("r", k)] *
          c.at st [("u", j), ("r", m)]) :=
  (C49_evenZ rand cast wf l l l l rfl rfl rfl rfl).number rfl fun _ => 0

/-- C49: the nine tensors of `CTMRGOddFTN` contract to a number, which `single` returns. -/
theorem C49_odd_number [CommSemiring R] (rand : List Nat → List Nat → R) (cast : R → R) {st : Store} {c ph pv w : Tensor R}
    (wf : WFStore st) (lc : HasLabels st c ["u", "r"]) (lh : HasLabels st ph ["l", "u", "r"])
    (lv : HasLabels st pv ["u", "r", "d"]) (lw : HasLabels st w ["u", "l", "d", "r"])
    (h1 : ph.dimOf st "l" = c.dimOf st "r") (h2 : ph.dimOf st "r" = c.dimOf st "r") (h3 : pv.dimOf st "u" = c.dimOf st "u")
    (h4 : pv.dimOf st "d" = c.dimOf st "u") (h5 : pv.dimOf st "r" = w.dimOf st "l") (h6 : pv.dimOf st "r" = w.dimOf st "r")
    (h7 : ph.dimOf st "u" = w.dimOf st "d") (h8 : ph.dimOf st "u" = w.dimOf st "u") :
    ComputesNumber rand cast CTMRGOddFTN st
      [("alu", c), ("ald", c), ("aru", c), ("ard", c), ("pu", ph), ("pd", ph), ("pl", pv), ("pr", pv), ("w", w)]
      ((oddArr st c c c c ph ph pv pv w).val fun _ => 0) :=
  (C49_odd rand cast wf lc lc lc lc lh lh lv lv lw h1 h2 h1 h2 h3 h4 h3 h4 h5 h6 h7 h8).number rfl fun _ => 0

/-- C49: `makeTriangleTensorDict` puts one tensor at all three corners. -/
theorem C49_triangle_dict [CommSemiring R] (rand : List Nat → List Nat → R) (cast : R → R) {st : Store} {a : Tensor R}
    (wf : WFStore st) (l : HasLabels st a ["1", "2", "3"]) (h : a.dimOf st "2" = a.dimOf st "3") :
    Computes rand cast triangleContractFTN st (makeTriangleTensorDict a) (triangleArr st a a a) :=
  C49_triangle rand cast wf l l l h h.symm h

/-- C49: `makeSquareTensorDict` puts one tensor at two opposite corners and the other one, if there is one, at the others. -/
theorem C49_square_dict [CommSemiring R] (rand : List Nat → List Nat → R) (cast : R → R) {st : Store} {a : Tensor R}
    {b : Option (Tensor R)} (wf : WFStore st) (la : HasLabels st a ["u", "l", "d", "r"])
    (lb : HasLabels st (b.getD a) ["u", "l", "d", "r"])
    (h1 : a.dimOf st "d" = (b.getD a).dimOf st "u") (h2 : a.dimOf st "r" = (b.getD a).dimOf st "l")
    (h3 : (b.getD a).dimOf st "d" = a.dimOf st "u") (h4 : (b.getD a).dimOf st "r" = a.dimOf st "l") :
    Computes rand cast squareContractFTN st (makeSquareTensorDict a b) (squareArr st a (b.getD a) a (b.getD a)) :=
  C49_square rand cast wf la lb la lb h1 h2 h3 h4

/-- C49: any other direction is an `AssertionError`. -/
theorem C49_directions (list : Nat) (d : String) :
    (d ≠ "l" → d ≠ "r" → squareHorizontalContractFTN list d = .error .assertionError) ∧
    (d ≠ "u" → d ≠ "d" → squareVerticalContractFTN list d = .error .assertionError) :=
  ⟨fun h1 h2 => by unfold squareHorizontalContractFTN; rw [if_pos ⟨h1, h2⟩]; rfl,
   fun h1 h2 => by unfold squareVerticalContractFTN; rw [if_pos ⟨h1, h2⟩]; rfl⟩

/-- Legs of the tensors of the examples. -/
def netLegs : List LegRec :=
  [⟨3, "l", none, some 0⟩, ⟨2, "u", none, some 0⟩, ⟨3, "r", none, some 0⟩, ⟨2, "d", none, some 0⟩, ⟨2, "u", none, some 1⟩,
   ⟨3, "l", none, some 1⟩, ⟨3, "r", none, some 1⟩, ⟨2, "u", none, some 2⟩, ⟨2, "d", none, some 2⟩, ⟨3, "r", none, some 2⟩,
   ⟨3, "r", none, some 3⟩, ⟨2, "u", none, some 3⟩, ⟨4, "l", none, some 4⟩, ⟨3, "r", none, some 4⟩, ⟨2, "u", none, some 5⟩,
   ⟨4, "d", none, some 5⟩, ⟨3, "u", none, some 6⟩, ⟨3, "d", none, some 6⟩, ⟨4, "o", none, some 6⟩, ⟨2, "l", none, some 7⟩,
   ⟨3, "o", none, some 7⟩, ⟨2, "r", none, some 7⟩, ⟨2, "d", none, some 8⟩, ⟨3, "r", none, some 8⟩, ⟨4, "o", none, some 8⟩,
   ⟨2, "d", none, some 9⟩, ⟨3, "l", none, some 9⟩, ⟨2, "o", none, some 9⟩, ⟨2, "u", none, some 10⟩, ⟨3, "l", none, some 10⟩,
   ⟨5, "o", none, some 10⟩, ⟨2, "u", none, some 11⟩, ⟨3, "r", none, some 11⟩, ⟨3, "o", none, some 11⟩, ⟨2, "2", none, some 12⟩,
   ⟨3, "1", none, some 12⟩, ⟨2, "3", none, some 12⟩]

def netStore : Store where
  leg := fun l => netLegs.getD l ⟨1, "", none, none⟩
  bond := fun _ => (0, 0)
  nextLeg := 37
  nextBond := 0
  nextTensor := 13

def netTensor (id first : Nat) (dims : List Nat) : Tensor Int :=
  ⟨id, List.range' first dims.length, some ⟨dims, (List.range dims.prod).map fun i => (i : Int) - 3⟩, false, false, 0⟩

def netSite : Tensor Int := netTensor 0 0 [3, 2, 3, 2]
def netHEdge : Tensor Int := netTensor 1 4 [2, 3, 3]
def netVEdge : Tensor Int := netTensor 2 7 [2, 2, 3]
def netCorner : Tensor Int := netTensor 3 10 [3, 2]
def netHMat : Tensor Int := netTensor 4 12 [4, 3]
def netVMat : Tensor Int := netTensor 5 14 [2, 4]
def netHProj : Tensor Int := netTensor 6 16 [3, 3, 4]
def netVProj : Tensor Int := netTensor 7 19 [2, 3, 2]
def netOutUL : Tensor Int := netTensor 8 22 [2, 3, 4]
def netOutUR : Tensor Int := netTensor 9 25 [2, 3, 2]
def netOutDR : Tensor Int := netTensor 10 28 [2, 3, 5]
def netOutDL : Tensor Int := netTensor 11 31 [2, 3, 3]
def netTri : Tensor Int := netTensor 12 34 [2, 3, 2]

theorem netStore_free (l : LegId) : (netStore.leg l).bond = none := by
  show (netLegs.getD l ⟨1, "", none, none⟩).bond = none
  rw [List.getD_eq_getElem?_getD]
  rcases h : netLegs[l]? with _ | r
  · rfl
  · have : ∀ r ∈ netLegs, r.bond = none := by decide
    exact this r (List.mem_of_getElem? h)

theorem netStore_wf : WFStore netStore where
  inv l b h := by rw [netStore_free] at h; cases h
  freshLeg l b h := by rw [netStore_free] at h; cases h
  freshBond l b h := by rw [netStore_free] at h; cases h

theorem netTensor_labels {id first : Nat} {dims : List Nat} {labels : List String}
    (hd : dims = (List.range' first dims.length).map netStore.dim) (hk : first + dims.length ≤ netStore.nextLeg)
    (hp : ∀ d ∈ dims, d ≠ 0) (hl : ((List.range' first dims.length).map netStore.name).Perm labels) :
    HasLabels netStore (netTensor id first dims) labels where
  good := ⟨List.nodup_range', rfl, _, rfl, by simp [NDArray.WF], fun _ => hd, fun h => nomatch h⟩
  dense := rfl
  known l hm := Nat.lt_of_lt_of_le (List.mem_range'_1.mp hm).2 hk
  pos l hm := by
    refine hp _ ?_
    rw [hd]
    exact List.mem_map_of_mem hm
  labels := hl

theorem netSite_labels : HasLabels netStore netSite ["u", "l", "d", "r"] :=
  netTensor_labels (by decide) (by decide) (by decide) (by decide)

theorem netHEdge_labels : HasLabels netStore netHEdge ["l", "u", "r"] :=
  netTensor_labels (by decide) (by decide) (by decide) (by decide)

theorem netVEdge_labels : HasLabels netStore netVEdge ["u", "r", "d"] :=
  netTensor_labels (by decide) (by decide) (by decide) (by decide)

theorem netCorner_labels : HasLabels netStore netCorner ["u", "r"] :=
  netTensor_labels (by decide) (by decide) (by decide) (by decide)

theorem netHMat_labels : HasLabels netStore netHMat ["l", "r"] :=
  netTensor_labels (by decide) (by decide) (by decide) (by decide)

theorem netVMat_labels : HasLabels netStore netVMat ["u", "d"] :=
  netTensor_labels (by decide) (by decide) (by decide) (by decide)

theorem netHProj_labels : HasLabels netStore netHProj ["u", "d", "o"] :=
  netTensor_labels (by decide) (by decide) (by decide) (by decide)

theorem netVProj_labels : HasLabels netStore netVProj ["l", "r", "o"] :=
  netTensor_labels (by decide) (by decide) (by decide) (by decide)

theorem netOutUL_labels : HasLabels netStore netOutUL ["d", "r", "o"] :=
  netTensor_labels (by decide) (by decide) (by decide) (by decide)

theorem netOutUR_labels : HasLabels netStore netOutUR ["d", "l", "o"] :=
  netTensor_labels (by decide) (by decide) (by decide) (by decide)

theorem netOutDR_labels : HasLabels netStore netOutDR ["u", "l", "o"] :=
  netTensor_labels (by decide) (by decide) (by decide) (by decide)

theorem netOutDL_labels : HasLabels netStore netOutDL ["u", "r", "o"] :=
  netTensor_labels (by decide) (by decide) (by decide) (by decide)

theorem netTri_labels : HasLabels netStore netTri ["1", "2", "3"] :=
  netTensor_labels (by decide) (by decide) (by decide) (by decide)

/-- C49: a concrete case of `triangle`. -/
example : Computes (fun _ _ => (0 : Int)) id triangleContractFTN netStore
    [("u", netTri), ("l", netTri), ("r", netTri)]
    (triangleArr netStore netTri netTri netTri) :=
  C49_triangle _ _ netStore_wf netTri_labels netTri_labels netTri_labels
    (by decide) (by decide) (by decide)

/-- C49: a concrete case of `square`. -/
example : Computes (fun _ _ => (0 : Int)) id squareContractFTN netStore
    [("ul", netSite), ("ur", netSite), ("dr", netSite), ("dl", netSite)]
    (squareArr netStore netSite netSite netSite netSite) :=
  C49_square _ _ netStore_wf netSite_labels netSite_labels netSite_labels netSite_labels
    (by decide) (by decide) (by decide) (by decide)

/-- C49: a concrete case of `squareOut`. -/
example : Computes (fun _ _ => (0 : Int)) id squareContractOutFTN netStore
    [("ul", netOutUL), ("ur", netOutUR), ("dr", netOutDR), ("dl", netOutDL)]
    (squareOutArr netStore netOutUL netOutUR netOutDR netOutDL) :=
  C49_squareOut _ _ netStore_wf netOutUL_labels netOutUR_labels netOutDR_labels netOutDL_labels
    (by decide) (by decide) (by decide) (by decide)

/-- C49: a concrete case of `hEdgeExtend`. -/
example : Computes (fun _ _ => (0 : Int)) id CTMRGHEdgeExtendFTN netStore
    [("p", netHEdge), ("w", netSite)]
    (hEdgeExtendArr netStore netHEdge netSite) :=
  C49_hEdgeExtend _ _ netStore_wf netHEdge_labels netSite_labels
    (by decide)

/-- C49: a concrete case of `vEdgeExtend`. -/
example : Computes (fun _ _ => (0 : Int)) id CTMRGVEdgeExtendFTN netStore
    [("p", netVEdge), ("w", netSite)]
    (vEdgeExtendArr netStore netVEdge netSite) :=
  C49_vEdgeExtend _ _ netStore_wf netVEdge_labels netSite_labels
    (by decide)

/-- C49: a concrete case of `cornerExtend`. -/
example : Computes (fun _ _ => (0 : Int)) id CTMRGCornerExtendFTN netStore
    [("c", netCorner), ("ph", netHEdge), ("pv", netVEdge), ("w", netSite)]
    (cornerExtendArr netStore netCorner netHEdge netVEdge netSite) :=
  C49_cornerExtend _ _ netStore_wf netCorner_labels netHEdge_labels netVEdge_labels netSite_labels
    (by decide) (by decide) (by decide) (by decide)

/-- C49: a concrete case of `hEdgeBuild`. -/
example : Computes (fun _ _ => (0 : Int)) id CTMRGHEdgeBuildFTN netStore
    [("p", netHEdge), ("al", netHMat), ("ar", netHMat)]
    (hEdgeBuildArr netStore netHEdge netHMat netHMat) :=
  C49_hEdgeBuild _ _ netStore_wf netHEdge_labels netHMat_labels netHMat_labels
    (by decide) (by decide)

/-- C49: a concrete case of `vEdgeBuild`. -/
example : Computes (fun _ _ => (0 : Int)) id CTMRGVEdgeBuildFTN netStore
    [("p", netVEdge), ("au", netVMat), ("ad", netVMat)]
    (vEdgeBuildArr netStore netVEdge netVMat netVMat) :=
  C49_vEdgeBuild _ _ netStore_wf netVEdge_labels netVMat_labels netVMat_labels
    (by decide) (by decide)

/-- C49: a concrete case of `evenZ`. -/
example : Computes (fun _ _ => (0 : Int)) id CTMRGEvenZFTN netStore
    [("alu", netCorner), ("ald", netCorner), ("aru", netCorner), ("ard", netCorner)]
    (evenZArr netStore netCorner netCorner netCorner netCorner) :=
  C49_evenZ _ _ netStore_wf netCorner_labels netCorner_labels netCorner_labels netCorner_labels
    (by decide) (by decide) (by decide) (by decide)

/-- C49: a concrete case of `odd`. -/
example : Computes (fun _ _ => (0 : Int)) id CTMRGOddFTN netStore
    [("alu", netCorner), ("ald", netCorner), ("aru", netCorner), ("ard", netCorner), ("pu", netHEdge), ("pd", netHEdge), ("pl", netVEdge), ("pr", netVEdge), ("w", netSite)]
    (oddArr netStore netCorner netCorner netCorner netCorner netHEdge netHEdge netVEdge netVEdge netSite) :=
  C49_odd _ _ netStore_wf netCorner_labels netCorner_labels netCorner_labels netCorner_labels netHEdge_labels netHEdge_labels netVEdge_labels netVEdge_labels netSite_labels
    (by decide) (by decide) (by decide) (by decide) (by decide) (by decide) (by decide) (by decide) (by decide) (by decide) (by decide) (by decide)

/-- C49: a concrete case of `horizontalL`. -/
example : Computes (fun _ _ => (0 : Int)) id (fun list => squareHorizontalContractFTN list "l") netStore
    [("ul", netSite), ("ur", netSite), ("dr", netSite), ("dl", netSite)]
    (horizontalLArr netStore netSite netSite netSite netSite) :=
  C49_horizontalL _ _ netStore_wf netSite_labels netSite_labels netSite_labels netSite_labels
    (by decide) (by decide) (by decide) (by decide) (by decide) (by decide)

/-- C49: a concrete case of `horizontalR`. -/
example : Computes (fun _ _ => (0 : Int)) id (fun list => squareHorizontalContractFTN list "r") netStore
    [("ul", netSite), ("ur", netSite), ("dr", netSite), ("dl", netSite)]
    (horizontalRArr netStore netSite netSite netSite netSite) :=
  C49_horizontalR _ _ netStore_wf netSite_labels netSite_labels netSite_labels netSite_labels
    (by decide) (by decide) (by decide) (by decide) (by decide) (by decide)

/-- C49: a concrete case of `verticalU`. -/
example : Computes (fun _ _ => (0 : Int)) id (fun list => squareVerticalContractFTN list "u") netStore
    [("ul", netSite), ("ur", netSite), ("dr", netSite), ("dl", netSite)]
    (verticalUArr netStore netSite netSite netSite netSite) :=
  C49_verticalU _ _ netStore_wf netSite_labels netSite_labels netSite_labels netSite_labels
    (by decide) (by decide) (by decide) (by decide) (by decide) (by decide)

/-- C49: a concrete case of `verticalD`. -/
example : Computes (fun _ _ => (0 : Int)) id (fun list => squareVerticalContractFTN list "d") netStore
    [("ul", netSite), ("ur", netSite), ("dr", netSite), ("dl", netSite)]
    (verticalDArr netStore netSite netSite netSite netSite) :=
  C49_verticalD _ _ netStore_wf netSite_labels netSite_labels netSite_labels netSite_labels
    (by decide) (by decide) (by decide) (by decide) (by decide) (by decide)

/-- C49: a concrete case of `hotrgH`. -/
example : Computes (fun _ _ => (0 : Int)) id HOTRGHorizontalContractFTN netStore
    [("u", netSite), ("d", netSite), ("l", netHProj), ("r", netHProj)]
    (hotrgHArr netStore netSite netSite netHProj netHProj) :=
  C49_hotrgH _ _ netStore_wf netSite_labels netSite_labels netHProj_labels netHProj_labels
    (by decide) (by decide) (by decide) (by decide) (by decide)

/-- C49: a concrete case of `hotrgV`. -/
example : Computes (fun _ _ => (0 : Int)) id HOTRGVerticalContractFTN netStore
    [("u", netVProj), ("d", netVProj), ("l", netSite), ("r", netSite)]
    (hotrgVArr netStore netVProj netVProj netSite netSite) :=
  C49_hotrgV _ _ netStore_wf netVProj_labels netVProj_labels netSite_labels netSite_labels
    (by decide) (by decide) (by decide) (by decide) (by decide)

/-- C49: a concrete case of `evenbly`. -/
example : Computes (fun _ _ => (0 : Int)) id EvenblyTNRQEnvFTN netStore
    [("uul", netSite), ("uur", netSite), ("udl", netSite), ("udr", netSite), ("dul", netSite), ("dur", netSite), ("ddl", netSite), ("ddr", netSite)]
    (evenblyArr netStore netSite netSite netSite netSite netSite netSite netSite netSite) :=
  C49_evenbly _ _ netStore_wf netSite_labels netSite_labels netSite_labels netSite_labels netSite_labels netSite_labels netSite_labels netSite_labels
    (by decide) (by decide) (by decide) (by decide) (by decide) (by decide) (by decide) (by decide) (by decide) (by decide) (by decide) (by decide) (by decide) (by decide)

/-- C49: the sum in the specification is not trivially zero. -/
example : (squareArr netStore netSite netSite netSite netSite).val (fun _ => 1) ≠ 0 := by decide +kernel

example : ComputesNumber (fun _ _ => (0 : Int)) id CTMRGEvenZFTN netStore
    [("alu", netCorner), ("ald", netCorner), ("aru", netCorner), ("ard", netCorner)] 313 := by
  have h := C49_evenZ_same (fun _ _ => (0 : Int)) id netStore_wf netCorner_labels
  refine Eq.mp (congrArg (ComputesNumber _ _ _ _ _) ?_) h
  decide +kernel

example : ∃ v ≠ 0, ComputesNumber (fun _ _ => (0 : Int)) id CTMRGOddFTN netStore
    [("alu", netCorner), ("ald", netCorner), ("aru", netCorner), ("ard", netCorner), ("pu", netHEdge), ("pd", netHEdge),
     ("pl", netVEdge), ("pr", netVEdge), ("w", netSite)] v :=
  ⟨_, by decide +kernel, C49_odd_number _ _ netStore_wf netCorner_labels netHEdge_labels netVEdge_labels netSite_labels
    (by decide) (by decide) (by decide) (by decide) (by decide) (by decide) (by decide) (by decide)⟩

example : Computes (fun _ _ => (0 : Int)) id triangleContractFTN netStore (makeTriangleTensorDict netTri)
    (triangleArr netStore netTri netTri netTri) :=
  C49_triangle_dict _ _ netStore_wf netTri_labels (by decide)

example : Computes (fun _ _ => (0 : Int)) id squareContractFTN netStore (makeSquareTensorDict netSite none)
    (squareArr netStore netSite netSite netSite netSite) :=
  C49_square_dict (b := none) _ _ netStore_wf netSite_labels netSite_labels (by decide) (by decide) (by decide) (by decide)

/-- C49: the traces of concrete tensors. -/
example : squareTrace netStore netSite = .ok 87 := by
  rw [C49_squareTrace netSite_labels (by decide) (by decide)]
  decide +kernel

example : ∃ st' r, triangleTensorTrace (fun _ _ => (0 : Int)) id netStore netTri netTri = .ok (st', r) ∧
    r.single st' = .ok 218 := by
  obtain ⟨st', r, h, hl, hg, _, _, _, hv⟩ := C49_triangleTrace (fun _ _ => (0 : Int)) id netStore_wf netTri_labels netTri_labels
    rfl rfl rfl
  refine ⟨st', r, h, ?_⟩
  have := single_of_represents (A := ⟨[], fun _ => 0, fun _ => entry r fun _ => 0⟩) (st := st') (t := r)
    ⟨List.nodup_nil, by simp [hl], by simp [hl], fun τ _ => entry_congr r (by simp [hl])⟩ hg rfl fun _ => 0
  rw [this, show _ = _ from hv _]
  decide +kernel

example : ∃ st' r, selfTrace (fun _ _ => (0 : Int)) id netStore netCorner = .ok (st', r) ∧ entry r (fun _ => 0) = 19 := by
  obtain ⟨st', r, h, _, _, _, _, _, hv⟩ := C49_selfTrace (fun _ _ => (0 : Int)) id netStore_wf netCorner_labels.good rfl
    netCorner_labels.known
  exact ⟨st', r, h, by rw [hv]; decide +kernel⟩

/-- The hypotheses of `C49_selfTrace` and `C49_triangleTrace`. -/
example : ∃ st' r, selfTrace (fun _ _ => (0 : Int)) id netStore netSite = .ok (st', r) ∧ r.legs = [] := by
  obtain ⟨st', r, e, h, -⟩ := C49_selfTrace (fun _ _ => (0 : Int)) id netStore_wf netSite_labels.good netSite_labels.dense netSite_labels.known
  exact ⟨st', r, e, h⟩

example : ∃ st' r, triangleTensorTrace (fun _ _ => (0 : Int)) id netStore netTri netTri = .ok (st', r) ∧ r.legs = [] := by
  obtain ⟨st', r, e, h, -⟩ := C49_triangleTrace (fun _ _ => (0 : Int)) id netStore_wf netTri_labels netTri_labels rfl rfl rfl
  exact ⟨st', r, e, h⟩

end CTL
