import Verif.Lemmas.ContractExp

/-! C49: the ready-made networks. -/

namespace CTL
variable {R : Type} [CommSemiring R] (rand : List Nat → List Nat → R) (cast : R → R)

/-- The sum of a network is the sum in the specification. -/
macro "network" "[" ts:Lean.Parser.Tactic.simpLemma,* "]" "[" lb:Lean.Parser.Tactic.simpLemma "]" "[" d:Lean.Parser.Tactic.simpLemma "]" : tactic =>
  `(tactic| (
    · simp only [List.forall_mem_cons, dimN, String.reduceEq, if_true, if_false, true_and, $ts,*]
      exact List.forall_mem_nil _
    · simp only [$lb:simpLemma]; decide +kernel
    · intro dim hd
      simp only [List.forall_mem_cons, dimN, String.reduceEq, if_true, if_false] at hd
      repeat' first | exact List.forall_mem_nil _ | refine List.forall_mem_cons.mpr ⟨?_, ?_⟩
      all_goals simp [fuseDim, OutLabel.meant, newName, renameTo, $d:simpLemma, hd, $ts,*]
    · intro dim τ hd
      simp only [List.forall_mem_cons, dimN, String.reduceEq, if_true, if_false] at hd
      repeat refine sumRaw_cons (by simp only [dimN, String.reduceEq, if_true, if_false]) fun _ => ?_
      refine sumRaw_nil ?_
      simp only [tableProd, posIdx, List.map_cons, List.map_nil, List.getD_cons_zero, List.getD_cons_succ, mul_one,
        ← mul_assoc]
      try simp [fuseIdx, OutLabel.meant, newName, renameTo, LArr.digits, hd, $ts,*]))

theorem tags_triangle :
    withTag "l" "1" = "l-1" ∧ withTag "l" "2" = "l-2" ∧ withTag "l" "3" = "l-3" ∧ withTag "r" "1" = "r-1" ∧ withTag
    "r" "2" = "r-2" ∧ withTag "r" "3" = "r-3" ∧ withTag "u" "1" = "u-1" ∧ withTag "u" "2" = "u-2" ∧ withTag "u" "3" =
    "u-3" ∧ withoutTag "u-1" = "1" ∧ withoutTag "l-2" = "2" ∧ withoutTag "r-3" = "3" := by
  decide +kernel

theorem triangleArr_labels (st : Store) (u l r : Tensor R) :
    (triangleArr st u l r).labels = ["1", "2", "3"] := rfl

theorem triangleArr_dim (st : Store) (u l r : Tensor R) (z : String) :
    (triangleArr st u l r).dim z =
    (if z = "1" then u.dimOf st "1"
    else if z = "2" then l.dimOf st "1"
    else r.dimOf st "1") := rfl

/-- C49: `triangleContractFTN`. -/
theorem C49_triangle {st : Store} {u l r : Tensor R} (wf : WFStore st)
    (l0 : HasLabels st u ["1", "2", "3"]) (l1 : HasLabels st l ["1", "2", "3"]) (l2 : HasLabels st r ["1", "2", "3"])
    (hi : u.dimOf st "2" = l.dimOf st "3") (hj : u.dimOf st "3" = r.dimOf st "2") (hk : l.dimOf st "2" = r.dimOf st
    "3") :
    Computes rand cast triangleContractFTN st [("u", u), ("l", l), ("r", r)]
      (triangleArr st u l r) := by
  refine computes_table rand cast wf
    [("u", u, ["1", "2", "3"]), ("l", l, ["1", "2", "3"]), ("r", r, ["1", "2", "3"])]
    ["u", "l", "r"]
    [("u", ["1", "2", "3"]), ("l", ["1", "2", "3"]), ("r", ["1", "2", "3"])]
    (by simp [l0, l1, l2]) rfl (by decide) (by decide) (by decide) (by decide) _
    [("u", "2", "l", "3"), ("u", "3", "r", "2"), ("l", "2", "r", "3")]
    []
    [("u", "1", "1"), ("l", "1", "2"), ("r", "1", "3")]
    ["u-1", "l-1", "r-1"]
    (links' := [(("u", dashed "u" "2"), ("l", dashed "l" "3")), (("u", dashed "u" "3"), ("r", dashed "r" "2")), (("l", dashed "l"
    "2"), ("r", dashed "r" "3"))])
    (by decide +kernel) rfl
    [[("1", none), ("2", some 0), ("3", some 1)], [("1", none), ("2", some 2), ("3", some 0)], [("1", none), ("2",
    some 1), ("3", some 2)]]
    (by decide +kernel) (by decide +kernel) (fun list => ⟨rfl, _, rfl, rfl, rfl, rfl, rfl⟩) (by decide +kernel) ?_ ?_
    (rev := [("l", "2", "r", "3"), ("u", "3", "r", "2"), ("u", "2", "l", "3")]) rfl
    [("u-1", "u", "1"), ("l-1", "l", "1"), ("r-1", "r", "1")] (by decide +kernel) ?_ ?_
  network [tags_triangle, hi, hj, hk] [triangleArr_labels] [triangleArr_dim]

theorem tags_square :
    withTag "dl" "d" = "dl-d" ∧ withTag "dl" "l" = "dl-l" ∧ withTag "dl" "r" = "dl-r" ∧ withTag "dl" "u" = "dl-u" ∧
    withTag "dr" "d" = "dr-d" ∧ withTag "dr" "l" = "dr-l" ∧ withTag "dr" "r" = "dr-r" ∧ withTag "dr" "u" = "dr-u" ∧
    withTag "res" "d" = "res-d" ∧ withTag "res" "l" = "res-l" ∧ withTag "res" "r" = "res-r" ∧ withTag "res" "u" =
    "res-u" ∧ withTag "ul" "d" = "ul-d" ∧ withTag "ul" "l" = "ul-l" ∧ withTag "ul" "r" = "ul-r" ∧ withTag "ul" "u" =
    "ul-u" ∧ withTag "ur" "d" = "ur-d" ∧ withTag "ur" "l" = "ur-l" ∧ withTag "ur" "r" = "ur-r" ∧ withTag "ur" "u" =
    "ur-u" ∧ withoutTag "res-u" = "u" ∧ withoutTag "res-l" = "l" ∧ withoutTag "res-d" = "d" ∧ withoutTag "res-r" = "r" := by
  decide +kernel

theorem squareArr_labels (st : Store) (ul ur dr dl : Tensor R) :
    (squareArr st ul ur dr dl).labels = ["u", "l", "d", "r"] := rfl

theorem squareArr_dim (st : Store) (ul ur dr dl : Tensor R) (z : String) :
    (squareArr st ul ur dr dl).dim z =
    (if z = "u" then ul.dimOf st "u" * ur.dimOf st "u"
    else if z = "l" then ul.dimOf st "l" * dl.dimOf st "l"
    else if z = "d" then dl.dimOf st "d" * dr.dimOf st "d"
    else ur.dimOf st "r" * dr.dimOf st "r") := rfl

/-- C49: `squareContractFTN`. -/
theorem C49_square {st : Store} {ul ur dr dl : Tensor R} (wf : WFStore st)
    (l0 : HasLabels st ul ["u", "l", "d", "r"]) (l1 : HasLabels st ur ["u", "l", "d", "r"]) (l2 : HasLabels st dr
    ["u", "l", "d", "r"]) (l3 : HasLabels st dl ["u", "l", "d", "r"])
    (hi : ul.dimOf st "d" = dl.dimOf st "u") (hj : ul.dimOf st "r" = ur.dimOf st "l") (hk : ur.dimOf st "d" = dr.dimOf
    st "u") (hm : dl.dimOf st "r" = dr.dimOf st "l") :
    Computes rand cast squareContractFTN st [("ul", ul), ("ur", ur), ("dr", dr), ("dl", dl)]
      (squareArr st ul ur dr dl) := by
  refine computes_table rand cast wf
    [("ul", ul, ["u", "l", "d", "r"]), ("ur", ur, ["u", "l", "d", "r"]), ("dr", dr, ["u", "l", "d", "r"]), ("dl", dl,
    ["u", "l", "d", "r"])]
    ["ul", "ur", "dr", "dl"]
    [("ul", ["u", "l", "d", "r"]), ("ur", ["u", "l", "d", "r"]), ("dr", ["u", "l", "d", "r"]), ("dl", ["u", "l", "d",
    "r"])]
    (by simp [l0, l1, l2, l3]) rfl (by decide) (by decide) (by decide) (by decide) _
    [("ul", "d", "dl", "u"), ("ul", "r", "ur", "l"), ("ur", "d", "dr", "u"), ("dl", "r", "dr", "l")]
    [([.plain "ul-u", .plain "ur-u"], "u"), ([.plain "ul-l", .plain "dl-l"], "l"), ([.plain "dl-d", .plain "dr-d"], "d"), ([.plain "ur-r", .plain "dr-r"], "r")]
    []
    ["res-r", "res-d", "res-l", "res-u"]
    (links' := [(("ul", dashed "ul" "d"), ("dl", dashed "dl" "u")), (("ul", dashed "ul" "r"), ("ur", dashed "ur" "l")), (("ur",
    dashed "ur" "d"), ("dr", dashed "dr" "u")), (("dl", dashed "dl" "r"), ("dr", dashed "dr" "l"))])
    (by decide +kernel) rfl
    [[("u", none), ("l", none), ("d", some 0), ("r", some 1)], [("u", none), ("l", some 1), ("d", some 2), ("r",
    none)], [("u", some 2), ("l", some 3), ("d", none), ("r", none)], [("u", some 0), ("l", none), ("d", none), ("r",
    some 3)]]
    (by decide +kernel) (by decide +kernel) (fun list => ⟨rfl, _, rfl, rfl, rfl, rfl, rfl⟩) (by decide +kernel) ?_ ?_
    (rev := [("dl", "r", "dr", "l"), ("ur", "d", "dr", "u"), ("ul", "r", "ur", "l"), ("ul", "d", "dl", "u")]) rfl
    [("ul-u", "ul", "u"), ("ul-l", "ul", "l"), ("ur-u", "ur", "u"), ("ur-r", "ur", "r"), ("dr-d", "dr", "d"), ("dr-r",
    "dr", "r"), ("dl-l", "dl", "l"), ("dl-d", "dl", "d")] (by decide +kernel) ?_ ?_
  network [tags_square, hi, hj, hk, hm] [squareArr_labels] [squareArr_dim]

theorem tags_squareOut :
    withTag "dl" "l" = "dl-l" ∧ withTag "dl" "o" = "dl-o" ∧ withTag "dl" "r" = "dl-r" ∧ withTag "dl" "u" = "dl-u" ∧
    withTag "dr" "d" = "dr-d" ∧ withTag "dr" "l" = "dr-l" ∧ withTag "dr" "o" = "dr-o" ∧ withTag "dr" "u" = "dr-u" ∧
    withTag "ul" "d" = "ul-d" ∧ withTag "ul" "o" = "ul-o" ∧ withTag "ul" "r" = "ul-r" ∧ withTag "ul" "u" = "ul-u" ∧
    withTag "ur" "d" = "ur-d" ∧ withTag "ur" "l" = "ur-l" ∧ withTag "ur" "o" = "ur-o" ∧ withTag "ur" "r" = "ur-r" ∧
    withoutTag "ul-u" = "u" ∧ withoutTag "ur-r" = "r" ∧ withoutTag "dr-d" = "d" ∧ withoutTag "dl-l" = "l" := by
  decide +kernel

theorem squareOutArr_labels (st : Store) (ul ur dr dl : Tensor R) :
    (squareOutArr st ul ur dr dl).labels = ["u", "r", "d", "l"] := rfl

theorem squareOutArr_dim (st : Store) (ul ur dr dl : Tensor R) (z : String) :
    (squareOutArr st ul ur dr dl).dim z =
    (if z = "u" then ul.dimOf st "o"
    else if z = "r" then ur.dimOf st "o"
    else if z = "d" then dr.dimOf st "o"
    else dl.dimOf st "o") := rfl

/-- C49: `squareContractOutFTN`. -/
theorem C49_squareOut {st : Store} {ul ur dr dl : Tensor R} (wf : WFStore st)
    (l0 : HasLabels st ul ["d", "r", "o"]) (l1 : HasLabels st ur ["d", "l", "o"]) (l2 : HasLabels st dr ["u", "l",
    "o"]) (l3 : HasLabels st dl ["u", "r", "o"])
    (hi : ul.dimOf st "d" = dl.dimOf st "u") (hj : ul.dimOf st "r" = ur.dimOf st "l") (hk : ur.dimOf st "d" = dr.dimOf
    st "u") (hm : dl.dimOf st "r" = dr.dimOf st "l") :
    Computes rand cast squareContractOutFTN st [("ul", ul), ("ur", ur), ("dr", dr), ("dl", dl)]
      (squareOutArr st ul ur dr dl) := by
  refine computes_table rand cast wf
    [("ul", ul, ["d", "r", "o"]), ("ur", ur, ["d", "l", "o"]), ("dr", dr, ["u", "l", "o"]), ("dl", dl, ["u", "r",
    "o"])]
    ["ul", "ur", "dr", "dl"]
    [("ul", ["d", "r", "o"]), ("ur", ["d", "l", "o"]), ("dr", ["u", "l", "o"]), ("dl", ["u", "r", "o"])]
    (by simp [l0, l1, l2, l3]) rfl (by decide) (by decide) (by decide) (by decide) _
    [("ul", "d", "dl", "u"), ("ul", "r", "ur", "l"), ("ur", "d", "dr", "u"), ("dl", "r", "dr", "l")]
    []
    [("ul", "o", "u"), ("ur", "o", "r"), ("dl", "o", "l"), ("dr", "o", "d")]
    ["ul-o", "ur-o", "dr-o", "dl-o"]
    (links' := [(("ul", dashed "ul" "d"), ("dl", dashed "dl" "u")), (("ul", dashed "ul" "r"), ("ur", dashed "ur" "l")), (("ur",
    dashed "ur" "d"), ("dr", dashed "dr" "u")), (("dl", dashed "dl" "r"), ("dr", dashed "dr" "l"))])
    (by decide +kernel) rfl
    [[("d", some 0), ("r", some 1), ("o", none)], [("d", some 2), ("l", some 1), ("o", none)], [("u", some 2), ("l",
    some 3), ("o", none)], [("u", some 0), ("r", some 3), ("o", none)]]
    (by decide +kernel) (by decide +kernel) (fun list => ⟨rfl, _, rfl, rfl, rfl, rfl, rfl⟩) (by decide +kernel) ?_ ?_
    (rev := [("dl", "r", "dr", "l"), ("ur", "d", "dr", "u"), ("ul", "r", "ur", "l"), ("ul", "d", "dl", "u")]) rfl
    [("ul-o", "ul", "o"), ("ur-o", "ur", "o"), ("dr-o", "dr", "o"), ("dl-o", "dl", "o")] (by decide +kernel) ?_ ?_
  network [tags_squareOut, hi, hj, hk, hm] [squareOutArr_labels] [squareOutArr_dim]

theorem tags_hEdgeExtend :
    withTag "p" "l" = "p-l" ∧ withTag "p" "r" = "p-r" ∧ withTag "p" "u" = "p-u" ∧ withTag "res" "l" = "res-l" ∧
    withTag "res" "r" = "res-r" ∧ withTag "w" "d" = "w-d" ∧ withTag "w" "l" = "w-l" ∧ withTag "w" "r" = "w-r" ∧
    withTag "w" "u" = "w-u" ∧ withoutTag "w-u" = "u" ∧ withoutTag "res-l" = "l" ∧ withoutTag "res-r" = "r" := by
  decide +kernel

theorem hEdgeExtendArr_labels (st : Store) (p w : Tensor R) :
    (hEdgeExtendArr st p w).labels = ["l", "r", "u"] := rfl

theorem hEdgeExtendArr_dim (st : Store) (p w : Tensor R) (z : String) :
    (hEdgeExtendArr st p w).dim z =
    (if z = "l" then p.dimOf st "l" * w.dimOf st "l"
    else if z = "r" then p.dimOf st "r" * w.dimOf st "r"
    else w.dimOf st "u") := rfl

/-- C49: `CTMRGHEdgeExtendFTN`. -/
theorem C49_hEdgeExtend {st : Store} {p w : Tensor R} (wf : WFStore st)
    (l0 : HasLabels st p ["l", "u", "r"]) (l1 : HasLabels st w ["u", "l", "d", "r"])
    (hi : p.dimOf st "u" = w.dimOf st "d") :
    Computes rand cast CTMRGHEdgeExtendFTN st [("p", p), ("w", w)]
      (hEdgeExtendArr st p w) := by
  refine computes_table rand cast wf
    [("p", p, ["l", "u", "r"]), ("w", w, ["u", "l", "d", "r"])]
    ["p", "w"]
    [("p", ["l", "u", "r"]), ("w", ["u", "l", "d", "r"])]
    (by simp [l0, l1]) rfl (by decide) (by decide) (by decide) (by decide) _
    [("p", "u", "w", "d")]
    [([.plain "p-l", .plain "w-l"], "l"), ([.plain "p-r", .plain "w-r"], "r")]
    []
    ["res-r", "res-l", "w-u"]
    (links' := [(("p", dashed "p" "u"), ("w", dashed "w" "d"))])
    (by decide +kernel) rfl
    [[("l", none), ("u", some 0), ("r", none)], [("u", none), ("l", none), ("d", some 0), ("r", none)]]
    (by decide +kernel) (by decide +kernel) (fun list => ⟨rfl, _, rfl, rfl, rfl, rfl, rfl⟩) (by decide +kernel) ?_ ?_
    (rev := [("p", "u", "w", "d")]) rfl
    [("p-l", "p", "l"), ("p-r", "p", "r"), ("w-u", "w", "u"), ("w-l", "w", "l"), ("w-r", "w", "r")] (by decide +kernel) ?_ ?_
  network [tags_hEdgeExtend, hi] [hEdgeExtendArr_labels] [hEdgeExtendArr_dim]

theorem tags_vEdgeExtend :
    withTag "p" "d" = "p-d" ∧ withTag "p" "r" = "p-r" ∧ withTag "p" "u" = "p-u" ∧ withTag "res" "d" = "res-d" ∧
    withTag "res" "u" = "res-u" ∧ withTag "w" "d" = "w-d" ∧ withTag "w" "l" = "w-l" ∧ withTag "w" "r" = "w-r" ∧
    withTag "w" "u" = "w-u" ∧ withoutTag "w-r" = "r" ∧ withoutTag "res-u" = "u" ∧ withoutTag "res-d" = "d" := by
  decide +kernel

theorem vEdgeExtendArr_labels (st : Store) (p w : Tensor R) :
    (vEdgeExtendArr st p w).labels = ["u", "d", "r"] := rfl

theorem vEdgeExtendArr_dim (st : Store) (p w : Tensor R) (z : String) :
    (vEdgeExtendArr st p w).dim z =
    (if z = "u" then p.dimOf st "u" * w.dimOf st "u"
    else if z = "d" then p.dimOf st "d" * w.dimOf st "d"
    else w.dimOf st "r") := rfl

/-- C49: `CTMRGVEdgeExtendFTN`. -/
theorem C49_vEdgeExtend {st : Store} {p w : Tensor R} (wf : WFStore st)
    (l0 : HasLabels st p ["u", "r", "d"]) (l1 : HasLabels st w ["u", "l", "d", "r"])
    (hi : p.dimOf st "r" = w.dimOf st "l") :
    Computes rand cast CTMRGVEdgeExtendFTN st [("p", p), ("w", w)]
      (vEdgeExtendArr st p w) := by
  refine computes_table rand cast wf
    [("p", p, ["u", "r", "d"]), ("w", w, ["u", "l", "d", "r"])]
    ["p", "w"]
    [("p", ["u", "r", "d"]), ("w", ["u", "l", "d", "r"])]
    (by simp [l0, l1]) rfl (by decide) (by decide) (by decide) (by decide) _
    [("p", "r", "w", "l")]
    [([.plain "p-u", .plain "w-u"], "u"), ([.plain "p-d", .plain "w-d"], "d")]
    []
    ["res-d", "res-u", "w-r"]
    (links' := [(("p", dashed "p" "r"), ("w", dashed "w" "l"))])
    (by decide +kernel) rfl
    [[("u", none), ("r", some 0), ("d", none)], [("u", none), ("l", some 0), ("d", none), ("r", none)]]
    (by decide +kernel) (by decide +kernel) (fun list => ⟨rfl, _, rfl, rfl, rfl, rfl, rfl⟩) (by decide +kernel) ?_ ?_
    (rev := [("p", "r", "w", "l")]) rfl
    [("p-u", "p", "u"), ("p-d", "p", "d"), ("w-u", "w", "u"), ("w-d", "w", "d"), ("w-r", "w", "r")] (by decide +kernel) ?_ ?_
  network [tags_vEdgeExtend, hi] [vEdgeExtendArr_labels] [vEdgeExtendArr_dim]

theorem tags_cornerExtend :
    withTag "c" "r" = "c-r" ∧ withTag "c" "u" = "c-u" ∧ withTag "ph" "l" = "ph-l" ∧ withTag "ph" "r" = "ph-r" ∧
    withTag "ph" "u" = "ph-u" ∧ withTag "pv" "d" = "pv-d" ∧ withTag "pv" "r" = "pv-r" ∧ withTag "pv" "u" = "pv-u" ∧
    withTag "res" "r" = "res-r" ∧ withTag "res" "u" = "res-u" ∧ withTag "w" "d" = "w-d" ∧ withTag "w" "l" = "w-l" ∧
    withTag "w" "r" = "w-r" ∧ withTag "w" "u" = "w-u" ∧ withoutTag "res-u" = "u" ∧ withoutTag "res-r" = "r" := by
  decide +kernel

theorem cornerExtendArr_labels (st : Store) (c ph pv w : Tensor R) :
    (cornerExtendArr st c ph pv w).labels = ["u", "r"] := rfl

theorem cornerExtendArr_dim (st : Store) (c ph pv w : Tensor R) (z : String) :
    (cornerExtendArr st c ph pv w).dim z =
    (if z = "u" then pv.dimOf st "u" * w.dimOf st "u"
    else ph.dimOf st "r" * w.dimOf st "r") := rfl

/-- C49: `CTMRGCornerExtendFTN`. -/
theorem C49_cornerExtend {st : Store} {c ph pv w : Tensor R} (wf : WFStore st)
    (l0 : HasLabels st c ["u", "r"]) (l1 : HasLabels st ph ["l", "u", "r"]) (l2 : HasLabels st pv ["u", "r", "d"]) (l3
    : HasLabels st w ["u", "l", "d", "r"])
    (hi : c.dimOf st "u" = pv.dimOf st "d") (hj : c.dimOf st "r" = ph.dimOf st "l") (hk : pv.dimOf st "r" = w.dimOf st
    "l") (hm : ph.dimOf st "u" = w.dimOf st "d") :
    Computes rand cast CTMRGCornerExtendFTN st [("c", c), ("ph", ph), ("pv", pv), ("w", w)]
      (cornerExtendArr st c ph pv w) := by
  refine computes_table rand cast wf
    [("c", c, ["u", "r"]), ("ph", ph, ["l", "u", "r"]), ("pv", pv, ["u", "r", "d"]), ("w", w, ["u", "l", "d", "r"])]
    ["c", "ph", "pv", "w"]
    [("c", ["u", "r"]), ("ph", ["l", "u", "r"]), ("pv", ["u", "r", "d"]), ("w", ["u", "l", "d", "r"])]
    (by simp [l0, l1, l2, l3]) rfl (by decide) (by decide) (by decide) (by decide) _
    [("c", "u", "pv", "d"), ("c", "r", "ph", "l"), ("pv", "r", "w", "l"), ("ph", "u", "w", "d")]
    [([.plain "pv-u", .plain "w-u"], "u"), ([.plain "ph-r", .plain "w-r"], "r")]
    []
    ["res-r", "res-u"]
    (links' := [(("c", dashed "c" "u"), ("pv", dashed "pv" "d")), (("c", dashed "c" "r"), ("ph", dashed "ph" "l")), (("pv",
    dashed "pv" "r"), ("w", dashed "w" "l")), (("ph", dashed "ph" "u"), ("w", dashed "w" "d"))])
    (by decide +kernel) rfl
    [[("u", some 0), ("r", some 1)], [("l", some 1), ("u", some 3), ("r", none)], [("u", none), ("r", some 2), ("d",
    some 0)], [("u", none), ("l", some 2), ("d", some 3), ("r", none)]]
    (by decide +kernel) (by decide +kernel) (fun list => ⟨rfl, _, rfl, rfl, rfl, rfl, rfl⟩) (by decide +kernel) ?_ ?_
    (rev := [("ph", "u", "w", "d"), ("pv", "r", "w", "l"), ("c", "r", "ph", "l"), ("c", "u", "pv", "d")]) rfl
    [("ph-r", "ph", "r"), ("pv-u", "pv", "u"), ("w-u", "w", "u"), ("w-r", "w", "r")] (by decide +kernel) ?_ ?_
  network [tags_cornerExtend, hi, hj, hk, hm] [cornerExtendArr_labels] [cornerExtendArr_dim]

theorem tags_hEdgeBuild :
    withTag "al" "l" = "al-l" ∧ withTag "al" "r" = "al-r" ∧ withTag "ar" "l" = "ar-l" ∧ withTag "ar" "r" = "ar-r" ∧
    withTag "p" "l" = "p-l" ∧ withTag "p" "r" = "p-r" ∧ withTag "p" "u" = "p-u" ∧ withoutTag "p-u" = "u" ∧ withoutTag
    "al-l" = "l" ∧ withoutTag "ar-r" = "r" := by
  decide +kernel

theorem hEdgeBuildArr_labels (st : Store) (p al ar : Tensor R) :
    (hEdgeBuildArr st p al ar).labels = ["u", "l", "r"] := rfl

theorem hEdgeBuildArr_dim (st : Store) (p al ar : Tensor R) (z : String) :
    (hEdgeBuildArr st p al ar).dim z =
    (if z = "u" then p.dimOf st "u"
    else if z = "l" then al.dimOf st "l"
    else ar.dimOf st "l") := rfl

/-- C49: `CTMRGHEdgeBuildFTN`. -/
theorem C49_hEdgeBuild {st : Store} {p al ar : Tensor R} (wf : WFStore st)
    (l0 : HasLabels st p ["l", "u", "r"]) (l1 : HasLabels st al ["l", "r"]) (l2 : HasLabels st ar ["l", "r"])
    (hi : al.dimOf st "r" = p.dimOf st "l") (hj : ar.dimOf st "r" = p.dimOf st "r") :
    Computes rand cast CTMRGHEdgeBuildFTN st [("p", p), ("al", al), ("ar", ar)]
      (hEdgeBuildArr st p al ar) := by
  refine computes_table rand cast wf
    [("p", p, ["l", "u", "r"]), ("al", al, ["l", "r"]), ("ar", ar, ["l", "r"])]
    ["p", "al", "ar"]
    [("p", ["l", "u", "r"]), ("al", ["l", "r"]), ("ar", ["l", "r"])]
    (by simp [l0, l1, l2]) rfl (by decide) (by decide) (by decide) (by decide) _
    [("al", "r", "p", "l"), ("ar", "r", "p", "r")]
    []
    [("ar", "l", "r")]
    ["p-u", "al-l", "ar-l"]
    (links' := [(("al", dashed "al" "r"), ("p", dashed "p" "l")), (("ar", dashed "ar" "r"), ("p", dashed "p" "r"))])
    (by decide +kernel) rfl
    [[("l", some 0), ("u", none), ("r", some 1)], [("l", none), ("r", some 0)], [("l", none), ("r", some 1)]]
    (by decide +kernel) (by decide +kernel) (fun list => ⟨rfl, _, rfl, rfl, rfl, rfl, rfl⟩) (by decide +kernel) ?_ ?_
    (rev := [("ar", "r", "p", "r"), ("al", "r", "p", "l")]) rfl
    [("p-u", "p", "u"), ("al-l", "al", "l"), ("ar-l", "ar", "l")] (by decide +kernel) ?_ ?_
  network [tags_hEdgeBuild, hi, hj] [hEdgeBuildArr_labels] [hEdgeBuildArr_dim]

theorem tags_vEdgeBuild :
    withTag "ad" "d" = "ad-d" ∧ withTag "ad" "u" = "ad-u" ∧ withTag "au" "d" = "au-d" ∧ withTag "au" "u" = "au-u" ∧
    withTag "p" "d" = "p-d" ∧ withTag "p" "r" = "p-r" ∧ withTag "p" "u" = "p-u" ∧ withoutTag "p-r" = "r" ∧ withoutTag
    "au-u" = "u" ∧ withoutTag "ad-d" = "d" := by
  decide +kernel

theorem vEdgeBuildArr_labels (st : Store) (p au ad : Tensor R) :
    (vEdgeBuildArr st p au ad).labels = ["r", "u", "d"] := rfl

theorem vEdgeBuildArr_dim (st : Store) (p au ad : Tensor R) (z : String) :
    (vEdgeBuildArr st p au ad).dim z =
    (if z = "r" then p.dimOf st "r"
    else if z = "u" then au.dimOf st "d"
    else ad.dimOf st "d") := rfl

/-- C49: `CTMRGVEdgeBuildFTN`. -/
theorem C49_vEdgeBuild {st : Store} {p au ad : Tensor R} (wf : WFStore st)
    (l0 : HasLabels st p ["u", "r", "d"]) (l1 : HasLabels st au ["u", "d"]) (l2 : HasLabels st ad ["u", "d"])
    (hi : ad.dimOf st "u" = p.dimOf st "d") (hj : au.dimOf st "u" = p.dimOf st "u") :
    Computes rand cast CTMRGVEdgeBuildFTN st [("p", p), ("au", au), ("ad", ad)]
      (vEdgeBuildArr st p au ad) := by
  refine computes_table rand cast wf
    [("p", p, ["u", "r", "d"]), ("au", au, ["u", "d"]), ("ad", ad, ["u", "d"])]
    ["p", "au", "ad"]
    [("p", ["u", "r", "d"]), ("au", ["u", "d"]), ("ad", ["u", "d"])]
    (by simp [l0, l1, l2]) rfl (by decide) (by decide) (by decide) (by decide) _
    [("ad", "u", "p", "d"), ("au", "u", "p", "u")]
    []
    [("au", "d", "u")]
    ["p-r", "au-d", "ad-d"]
    (links' := [(("ad", dashed "ad" "u"), ("p", dashed "p" "d")), (("au", dashed "au" "u"), ("p", dashed "p" "u"))])
    (by decide +kernel) rfl
    [[("u", some 1), ("r", none), ("d", some 0)], [("u", some 1), ("d", none)], [("u", some 0), ("d", none)]]
    (by decide +kernel) (by decide +kernel) (fun list => ⟨rfl, _, rfl, rfl, rfl, rfl, rfl⟩) (by decide +kernel) ?_ ?_
    (rev := [("au", "u", "p", "u"), ("ad", "u", "p", "d")]) rfl
    [("p-r", "p", "r"), ("au-d", "au", "d"), ("ad-d", "ad", "d")] (by decide +kernel) ?_ ?_
  network [tags_vEdgeBuild, hi, hj] [vEdgeBuildArr_labels] [vEdgeBuildArr_dim]

theorem tags_evenZ :
    withTag "ald" "r" = "ald-r" ∧ withTag "ald" "u" = "ald-u" ∧ withTag "alu" "r" = "alu-r" ∧ withTag "alu" "u" =
    "alu-u" ∧ withTag "ard" "r" = "ard-r" ∧ withTag "ard" "u" = "ard-u" ∧ withTag "aru" "r" = "aru-r" ∧ withTag "aru"
    "u" = "aru-u" := by
  decide +kernel

theorem evenZArr_labels (st : Store) (alu ald aru ard : Tensor R) :
    (evenZArr st alu ald aru ard).labels = [] := rfl

theorem evenZArr_dim (st : Store) (alu ald aru ard : Tensor R) (z : String) :
    (evenZArr st alu ald aru ard).dim z =
    (0) := rfl

/-- C49: `CTMRGEvenZFTN`. -/
theorem C49_evenZ {st : Store} {alu ald aru ard : Tensor R} (wf : WFStore st)
    (l0 : HasLabels st alu ["u", "r"]) (l1 : HasLabels st ald ["u", "r"]) (l2 : HasLabels st aru ["u", "r"]) (l3 :
    HasLabels st ard ["u", "r"])
    (hi : alu.dimOf st "u" = ald.dimOf st "u") (hj : aru.dimOf st "u" = ard.dimOf st "u") (hk : alu.dimOf st "r" =
    aru.dimOf st "r") (hm : ald.dimOf st "r" = ard.dimOf st "r") :
    Computes rand cast CTMRGEvenZFTN st [("alu", alu), ("ald", ald), ("aru", aru), ("ard", ard)]
      (evenZArr st alu ald aru ard) := by
  refine computes_table rand cast wf
    [("alu", alu, ["u", "r"]), ("ald", ald, ["u", "r"]), ("aru", aru, ["u", "r"]), ("ard", ard, ["u", "r"])]
    ["alu", "ald", "aru", "ard"]
    [("alu", ["u", "r"]), ("ald", ["u", "r"]), ("aru", ["u", "r"]), ("ard", ["u", "r"])]
    (by simp [l0, l1, l2, l3]) rfl (by decide) (by decide) (by decide) (by decide) _
    [("alu", "u", "ald", "u"), ("aru", "u", "ard", "u"), ("alu", "r", "aru", "r"), ("ald", "r", "ard", "r")]
    []
    []
    []
    (links' := [(("alu", dashed "alu" "u"), ("ald", dashed "ald" "u")), (("aru", dashed "aru" "u"), ("ard", dashed "ard" "u")),
    (("alu", dashed "alu" "r"), ("aru", dashed "aru" "r")), (("ald", dashed "ald" "r"), ("ard", dashed "ard" "r"))])
    (by decide +kernel) rfl
    [[("u", some 0), ("r", some 2)], [("u", some 0), ("r", some 3)], [("u", some 1), ("r", some 2)], [("u", some 1),
    ("r", some 3)]]
    (by decide +kernel) (by decide +kernel) (fun list => ⟨rfl, _, rfl, rfl, rfl, rfl, rfl⟩) (by decide +kernel) ?_ ?_
    (rev := [("ald", "r", "ard", "r"), ("alu", "r", "aru", "r"), ("aru", "u", "ard", "u"), ("alu", "u", "ald", "u")]) rfl
    [] (by decide +kernel) ?_ ?_
  network [tags_evenZ, hi, hj, hk, hm] [evenZArr_labels] [evenZArr_dim]

theorem tags_odd :
    withTag "ald" "r" = "ald-r" ∧ withTag "ald" "u" = "ald-u" ∧ withTag "alu" "r" = "alu-r" ∧ withTag "alu" "u" =
    "alu-u" ∧ withTag "ard" "r" = "ard-r" ∧ withTag "ard" "u" = "ard-u" ∧ withTag "aru" "r" = "aru-r" ∧ withTag "aru"
    "u" = "aru-u" ∧ withTag "pd" "l" = "pd-l" ∧ withTag "pd" "r" = "pd-r" ∧ withTag "pd" "u" = "pd-u" ∧ withTag "pl"
    "d" = "pl-d" ∧ withTag "pl" "r" = "pl-r" ∧ withTag "pl" "u" = "pl-u" ∧ withTag "pr" "d" = "pr-d" ∧ withTag "pr"
    "r" = "pr-r" ∧ withTag "pr" "u" = "pr-u" ∧ withTag "pu" "l" = "pu-l" ∧ withTag "pu" "r" = "pu-r" ∧ withTag "pu"
    "u" = "pu-u" ∧ withTag "w" "d" = "w-d" ∧ withTag "w" "l" = "w-l" ∧ withTag "w" "r" = "w-r" ∧ withTag "w" "u" =
    "w-u" := by
  decide +kernel

theorem oddArr_labels (st : Store) (alu ald aru ard pu pd pl pr w : Tensor R) :
    (oddArr st alu ald aru ard pu pd pl pr w).labels = [] := rfl

theorem oddArr_dim (st : Store) (alu ald aru ard pu pd pl pr w : Tensor R) (z : String) :
    (oddArr st alu ald aru ard pu pd pl pr w).dim z =
    (0) := rfl

/-- C49: `CTMRGOddFTN`. -/
theorem C49_odd {st : Store} {alu ald aru ard pu pd pl pr w : Tensor R} (wf : WFStore st)
    (l0 : HasLabels st alu ["u", "r"]) (l1 : HasLabels st ald ["u", "r"]) (l2 : HasLabels st aru ["u", "r"]) (l3 :
    HasLabels st ard ["u", "r"]) (l4 : HasLabels st pu ["l", "u", "r"]) (l5 : HasLabels st pd ["l", "u", "r"]) (l6 :
    HasLabels st pl ["u", "r", "d"]) (l7 : HasLabels st pr ["u", "r", "d"]) (l8 : HasLabels st w ["u", "l", "d", "r"])
    (hi : pu.dimOf st "l" = alu.dimOf st "r") (hj : pu.dimOf st "r" = aru.dimOf st "r") (hk : pd.dimOf st "l" =
    ald.dimOf st "r") (hm : pd.dimOf st "r" = ard.dimOf st "r") (hn : pl.dimOf st "u" = alu.dimOf st "u") (ha :
    pl.dimOf st "d" = ald.dimOf st "u") (hb : pr.dimOf st "u" = aru.dimOf st "u") (he : pr.dimOf st "d" = ard.dimOf st
    "u") (hf : pl.dimOf st "r" = w.dimOf st "l") (hg : pr.dimOf st "r" = w.dimOf st "r") (hh : pd.dimOf st "u" =
    w.dimOf st "d") (hq : pu.dimOf st "u" = w.dimOf st "u") :
    Computes rand cast CTMRGOddFTN st [("alu", alu), ("ald", ald), ("aru", aru), ("ard", ard), ("pu", pu), ("pd", pd), ("pl", pl), ("pr", pr), ("w", w)]
      (oddArr st alu ald aru ard pu pd pl pr w) := by
  refine computes_table rand cast wf
    [("alu", alu, ["u", "r"]), ("ald", ald, ["u", "r"]), ("aru", aru, ["u", "r"]), ("ard", ard, ["u", "r"]), ("pu",
    pu, ["l", "u", "r"]), ("pd", pd, ["l", "u", "r"]), ("pl", pl, ["u", "r", "d"]), ("pr", pr, ["u", "r", "d"]), ("w",
    w, ["u", "l", "d", "r"])]
    ["alu", "ald", "aru", "ard", "pu", "pd", "pl", "pr", "w"]
    [("alu", ["u", "r"]), ("ald", ["u", "r"]), ("aru", ["u", "r"]), ("ard", ["u", "r"]), ("pu", ["l", "u", "r"]),
    ("pd", ["l", "u", "r"]), ("pl", ["u", "r", "d"]), ("pr", ["u", "r", "d"]), ("w", ["u", "l", "d", "r"])]
    (by simp [l0, l1, l2, l3, l4, l5, l6, l7, l8]) rfl (by decide) (by decide) (by decide) (by decide) _
    [("pu", "l", "alu", "r"), ("pu", "r", "aru", "r"), ("pd", "l", "ald", "r"), ("pd", "r", "ard", "r"), ("pl", "u",
    "alu", "u"), ("pl", "d", "ald", "u"), ("pr", "u", "aru", "u"), ("pr", "d", "ard", "u"), ("pl", "r", "w", "l"),
    ("pr", "r", "w", "r"), ("pd", "u", "w", "d"), ("pu", "u", "w", "u")]
    []
    []
    []
    (links' := [(("pu", dashed "pu" "l"), ("alu", dashed "alu" "r")), (("pu", dashed "pu" "r"), ("aru", dashed "aru" "r")),
    (("pd", dashed "pd" "l"), ("ald", dashed "ald" "r")), (("pd", dashed "pd" "r"), ("ard", dashed "ard" "r")),
    (("pl", dashed "pl" "u"), ("alu", dashed "alu" "u")), (("pl", dashed "pl" "d"), ("ald", dashed "ald" "u")),
    (("pr", dashed "pr" "u"), ("aru", dashed "aru" "u")), (("pr", dashed "pr" "d"), ("ard", dashed "ard" "u")),
    (("pl", dashed "pl" "r"), ("w", dashed "w" "l")), (("pr", dashed "pr" "r"), ("w", dashed "w" "r")), (("pd", dashed
    "pd" "u"), ("w", dashed "w" "d")), (("pu", dashed "pu" "u"), ("w", dashed "w" "u"))])
    (by decide +kernel) rfl
    [[("u", some 4), ("r", some 0)], [("u", some 5), ("r", some 2)], [("u", some 6), ("r", some 1)], [("u", some 7),
    ("r", some 3)], [("l", some 0), ("u", some 11), ("r", some 1)], [("l", some 2), ("u", some 10), ("r", some 3)],
    [("u", some 4), ("r", some 8), ("d", some 5)], [("u", some 6), ("r", some 9), ("d", some 7)], [("u", some 11),
    ("l", some 8), ("d", some 10), ("r", some 9)]]
    (by decide +kernel) (by decide +kernel) (fun list => ⟨rfl, _, rfl, rfl, rfl, rfl, rfl⟩) (by decide +kernel) ?_ ?_
    (rev := [("pu", "u", "w", "u"), ("pd", "u", "w", "d"), ("pr", "r", "w", "r"), ("pl", "r", "w", "l"), ("pr", "d", "ard",
    "u"), ("pr", "u", "aru", "u"), ("pl", "d", "ald", "u"), ("pl", "u", "alu", "u"), ("pd", "r", "ard", "r"), ("pd",
    "l", "ald", "r"), ("pu", "r", "aru", "r"), ("pu", "l", "alu", "r")]) rfl
    [] (by decide +kernel) ?_ ?_
  network [tags_odd, hi, hj, hk, hm, hn, ha, hb, he, hf, hg, hh, hq] [oddArr_labels] [oddArr_dim]

theorem tags_horizontalL :
    withTag "dl" "d" = "dl-d" ∧ withTag "dl" "l" = "dl-l" ∧ withTag "dl" "r" = "dl-r" ∧ withTag "dl" "u" = "dl-u" ∧
    withTag "dr" "d" = "dr-d" ∧ withTag "dr" "l" = "dr-l" ∧ withTag "dr" "r" = "dr-r" ∧ withTag "dr" "u" = "dr-u" ∧
    withTag "res" "l" = "res-l" ∧ withTag "res" "r" = "res-r" ∧ withTag "ul" "d" = "ul-d" ∧ withTag "ul" "l" = "ul-l"
    ∧ withTag "ul" "r" = "ul-r" ∧ withTag "ul" "u" = "ul-u" ∧ withTag "ur" "d" = "ur-d" ∧ withTag "ur" "l" = "ur-l" ∧
    withTag "ur" "r" = "ur-r" ∧ withTag "ur" "u" = "ur-u" ∧ withoutTag "res-l" = "l" ∧ withoutTag "res-r" = "r" := by
  decide +kernel

theorem horizontalLArr_labels (st : Store) (ul ur dr dl : Tensor R) :
    (horizontalLArr st ul ur dr dl).labels = ["l", "r"] := rfl

theorem horizontalLArr_dim (st : Store) (ul ur dr dl : Tensor R) (z : String) :
    (horizontalLArr st ul ur dr dl).dim z =
    (if z = "l" then ul.dimOf st "l" * dl.dimOf st "l"
    else ur.dimOf st "l" * dr.dimOf st "l") := rfl

/-- C49: `squareHorizontalContractFTN("l")`. -/
theorem C49_horizontalL {st : Store} {ul ur dr dl : Tensor R} (wf : WFStore st)
    (l0 : HasLabels st ul ["u", "l", "d", "r"]) (l1 : HasLabels st ur ["u", "l", "d", "r"]) (l2 : HasLabels st dr
    ["u", "l", "d", "r"]) (l3 : HasLabels st dl ["u", "l", "d", "r"])
    (hi : ul.dimOf st "d" = dl.dimOf st "u") (hj : ul.dimOf st "r" = ur.dimOf st "r") (hk : ur.dimOf st "d" = dr.dimOf
    st "u") (hm : dl.dimOf st "r" = dr.dimOf st "r") (hn : ul.dimOf st "u" = ur.dimOf st "u") (ha : dl.dimOf st "d" =
    dr.dimOf st "d") :
    Computes rand cast (fun list => squareHorizontalContractFTN list "l") st [("ul", ul), ("ur", ur), ("dr", dr), ("dl", dl)]
      (horizontalLArr st ul ur dr dl) := by
  refine computes_table rand cast wf
    [("ul", ul, ["u", "l", "d", "r"]), ("ur", ur, ["u", "l", "d", "r"]), ("dr", dr, ["u", "l", "d", "r"]), ("dl", dl,
    ["u", "l", "d", "r"])]
    ["ul", "ur", "dr", "dl"]
    [("ul", ["u", "l", "d", "r"]), ("ur", ["u", "l", "d", "r"]), ("dr", ["u", "l", "d", "r"]), ("dl", ["u", "l", "d",
    "r"])]
    (by simp [l0, l1, l2, l3]) rfl (by decide) (by decide) (by decide) (by decide) _
    [("ul", "d", "dl", "u"), ("ul", "r", "ur", "r"), ("ur", "d", "dr", "u"), ("dl", "r", "dr", "r"), ("ul", "u", "ur",
    "u"), ("dl", "d", "dr", "d")]
    [([.plain "ul-l", .plain "dl-l"], "l"), ([.plain "ur-l", .plain "dr-l"], "r")]
    []
    ["res-r", "res-l"]
    (links' := [(("ul", dashed "ul" "d"), ("dl", dashed "dl" "u")), (("ul", dashed "ul" "r"), ("ur", dashed "ur" "r")), (("ur",
    dashed "ur" "d"), ("dr", dashed "dr" "u")), (("dl", dashed "dl" "r"), ("dr", dashed "dr" "r")), (("ul", dashed
    "ul" "u"), ("ur", dashed "ur" "u")), (("dl", dashed "dl" "d"), ("dr", dashed "dr" "d"))])
    (fus' := [([.plain (dashed ("u" ++ "l") "l"), .plain (dashed ("d" ++ "l") "l")], "l"), ([.plain (dashed ("u" ++ "r") "l"),
    .plain (dashed ("d" ++ "r") "l")], "r")])
    (by decide +kernel) (by decide +kernel)
    [[("u", some 4), ("l", none), ("d", some 0), ("r", some 1)], [("u", some 4), ("l", none), ("d", some 2), ("r",
    some 1)], [("u", some 2), ("l", none), ("d", some 5), ("r", some 3)], [("u", some 0), ("l", none), ("d", some 5),
    ("r", some 3)]]
    (by decide +kernel) (by decide +kernel) (fun list => ⟨by simp [squareHorizontalContractFTN]; rfl, _, rfl, rfl, rfl, rfl, rfl⟩) (by decide +kernel) ?_ ?_
    (rev := [("dl", "d", "dr", "d"), ("ul", "u", "ur", "u"), ("dl", "r", "dr", "r"), ("ur", "d", "dr", "u"), ("ul", "r", "ur",
    "r"), ("ul", "d", "dl", "u")]) rfl
    [("ul-l", "ul", "l"), ("ur-l", "ur", "l"), ("dr-l", "dr", "l"), ("dl-l", "dl", "l")] (by decide +kernel) ?_ ?_
  network [tags_horizontalL, hi, hj, hk, hm, hn, ha] [horizontalLArr_labels] [horizontalLArr_dim]

theorem tags_horizontalR :
    withTag "dl" "d" = "dl-d" ∧ withTag "dl" "l" = "dl-l" ∧ withTag "dl" "r" = "dl-r" ∧ withTag "dl" "u" = "dl-u" ∧
    withTag "dr" "d" = "dr-d" ∧ withTag "dr" "l" = "dr-l" ∧ withTag "dr" "r" = "dr-r" ∧ withTag "dr" "u" = "dr-u" ∧
    withTag "res" "l" = "res-l" ∧ withTag "res" "r" = "res-r" ∧ withTag "ul" "d" = "ul-d" ∧ withTag "ul" "l" = "ul-l"
    ∧ withTag "ul" "r" = "ul-r" ∧ withTag "ul" "u" = "ul-u" ∧ withTag "ur" "d" = "ur-d" ∧ withTag "ur" "l" = "ur-l" ∧
    withTag "ur" "r" = "ur-r" ∧ withTag "ur" "u" = "ur-u" ∧ withoutTag "res-r" = "r" ∧ withoutTag "res-l" = "l" := by
  decide +kernel

theorem horizontalRArr_labels (st : Store) (ul ur dr dl : Tensor R) :
    (horizontalRArr st ul ur dr dl).labels = ["r", "l"] := rfl

theorem horizontalRArr_dim (st : Store) (ul ur dr dl : Tensor R) (z : String) :
    (horizontalRArr st ul ur dr dl).dim z =
    (if z = "r" then ur.dimOf st "r" * dr.dimOf st "r"
    else ul.dimOf st "r" * dl.dimOf st "r") := rfl

/-- C49: `squareHorizontalContractFTN("r")`. -/
theorem C49_horizontalR {st : Store} {ul ur dr dl : Tensor R} (wf : WFStore st)
    (l0 : HasLabels st ul ["u", "l", "d", "r"]) (l1 : HasLabels st ur ["u", "l", "d", "r"]) (l2 : HasLabels st dr
    ["u", "l", "d", "r"]) (l3 : HasLabels st dl ["u", "l", "d", "r"])
    (hi : ul.dimOf st "d" = dl.dimOf st "u") (hj : ul.dimOf st "l" = ur.dimOf st "l") (hk : ur.dimOf st "d" = dr.dimOf
    st "u") (hm : dl.dimOf st "l" = dr.dimOf st "l") (hn : ul.dimOf st "u" = ur.dimOf st "u") (ha : dl.dimOf st "d" =
    dr.dimOf st "d") :
    Computes rand cast (fun list => squareHorizontalContractFTN list "r") st [("ul", ul), ("ur", ur), ("dr", dr), ("dl", dl)]
      (horizontalRArr st ul ur dr dl) := by
  refine computes_table rand cast wf
    [("ul", ul, ["u", "l", "d", "r"]), ("ur", ur, ["u", "l", "d", "r"]), ("dr", dr, ["u", "l", "d", "r"]), ("dl", dl,
    ["u", "l", "d", "r"])]
    ["ul", "ur", "dr", "dl"]
    [("ul", ["u", "l", "d", "r"]), ("ur", ["u", "l", "d", "r"]), ("dr", ["u", "l", "d", "r"]), ("dl", ["u", "l", "d",
    "r"])]
    (by simp [l0, l1, l2, l3]) rfl (by decide) (by decide) (by decide) (by decide) _
    [("ul", "d", "dl", "u"), ("ul", "l", "ur", "l"), ("ur", "d", "dr", "u"), ("dl", "l", "dr", "l"), ("ul", "u", "ur",
    "u"), ("dl", "d", "dr", "d")]
    [([.plain "ur-r", .plain "dr-r"], "r"), ([.plain "ul-r", .plain "dl-r"], "l")]
    []
    ["res-l", "res-r"]
    (links' := [(("ul", dashed "ul" "d"), ("dl", dashed "dl" "u")), (("ul", dashed "ul" "l"), ("ur", dashed "ur" "l")), (("ur",
    dashed "ur" "d"), ("dr", dashed "dr" "u")), (("dl", dashed "dl" "l"), ("dr", dashed "dr" "l")), (("ul", dashed
    "ul" "u"), ("ur", dashed "ur" "u")), (("dl", dashed "dl" "d"), ("dr", dashed "dr" "d"))])
    (fus' := [([.plain (dashed ("u" ++ "r") "r"), .plain (dashed ("d" ++ "r") "r")], "r"), ([.plain (dashed ("u" ++ "l") "r"),
    .plain (dashed ("d" ++ "l") "r")], "l")])
    (by decide +kernel) (by decide +kernel)
    [[("u", some 4), ("l", some 1), ("d", some 0), ("r", none)], [("u", some 4), ("l", some 1), ("d", some 2), ("r",
    none)], [("u", some 2), ("l", some 3), ("d", some 5), ("r", none)], [("u", some 0), ("l", some 3), ("d", some 5),
    ("r", none)]]
    (by decide +kernel) (by decide +kernel) (fun list => ⟨by simp [squareHorizontalContractFTN]; rfl, _, rfl, rfl, rfl, rfl, rfl⟩) (by decide +kernel) ?_ ?_
    (rev := [("dl", "d", "dr", "d"), ("ul", "u", "ur", "u"), ("dl", "l", "dr", "l"), ("ur", "d", "dr", "u"), ("ul", "l", "ur",
    "l"), ("ul", "d", "dl", "u")]) rfl
    [("ul-r", "ul", "r"), ("ur-r", "ur", "r"), ("dr-r", "dr", "r"), ("dl-r", "dl", "r")] (by decide +kernel) ?_ ?_
  network [tags_horizontalR, hi, hj, hk, hm, hn, ha] [horizontalRArr_labels] [horizontalRArr_dim]

theorem tags_verticalU :
    withTag "dl" "d" = "dl-d" ∧ withTag "dl" "l" = "dl-l" ∧ withTag "dl" "r" = "dl-r" ∧ withTag "dl" "u" = "dl-u" ∧
    withTag "dr" "d" = "dr-d" ∧ withTag "dr" "l" = "dr-l" ∧ withTag "dr" "r" = "dr-r" ∧ withTag "dr" "u" = "dr-u" ∧
    withTag "res" "d" = "res-d" ∧ withTag "res" "u" = "res-u" ∧ withTag "ul" "d" = "ul-d" ∧ withTag "ul" "l" = "ul-l"
    ∧ withTag "ul" "r" = "ul-r" ∧ withTag "ul" "u" = "ul-u" ∧ withTag "ur" "d" = "ur-d" ∧ withTag "ur" "l" = "ur-l" ∧
    withTag "ur" "r" = "ur-r" ∧ withTag "ur" "u" = "ur-u" ∧ withoutTag "res-u" = "u" ∧ withoutTag "res-d" = "d" := by
  decide +kernel

theorem verticalUArr_labels (st : Store) (ul ur dr dl : Tensor R) :
    (verticalUArr st ul ur dr dl).labels = ["u", "d"] := rfl

theorem verticalUArr_dim (st : Store) (ul ur dr dl : Tensor R) (z : String) :
    (verticalUArr st ul ur dr dl).dim z =
    (if z = "u" then ul.dimOf st "u" * ur.dimOf st "u"
    else dl.dimOf st "u" * dr.dimOf st "u") := rfl

/-- C49: `squareVerticalContractFTN("u")`. -/
theorem C49_verticalU {st : Store} {ul ur dr dl : Tensor R} (wf : WFStore st)
    (l0 : HasLabels st ul ["u", "l", "d", "r"]) (l1 : HasLabels st ur ["u", "l", "d", "r"]) (l2 : HasLabels st dr
    ["u", "l", "d", "r"]) (l3 : HasLabels st dl ["u", "l", "d", "r"])
    (hi : ul.dimOf st "d" = dl.dimOf st "d") (hj : ul.dimOf st "r" = ur.dimOf st "l") (hk : ur.dimOf st "d" = dr.dimOf
    st "d") (hm : dl.dimOf st "r" = dr.dimOf st "l") (hn : ul.dimOf st "l" = dl.dimOf st "l") (ha : ur.dimOf st "r" =
    dr.dimOf st "r") :
    Computes rand cast (fun list => squareVerticalContractFTN list "u") st [("ul", ul), ("ur", ur), ("dr", dr), ("dl", dl)]
      (verticalUArr st ul ur dr dl) := by
  refine computes_table rand cast wf
    [("ul", ul, ["u", "l", "d", "r"]), ("ur", ur, ["u", "l", "d", "r"]), ("dr", dr, ["u", "l", "d", "r"]), ("dl", dl,
    ["u", "l", "d", "r"])]
    ["ul", "ur", "dr", "dl"]
    [("ul", ["u", "l", "d", "r"]), ("ur", ["u", "l", "d", "r"]), ("dr", ["u", "l", "d", "r"]), ("dl", ["u", "l", "d",
    "r"])]
    (by simp [l0, l1, l2, l3]) rfl (by decide) (by decide) (by decide) (by decide) _
    [("ul", "d", "dl", "d"), ("ul", "r", "ur", "l"), ("ur", "d", "dr", "d"), ("dl", "r", "dr", "l"), ("ul", "l", "dl",
    "l"), ("ur", "r", "dr", "r")]
    [([.plain "ul-u", .plain "ur-u"], "u"), ([.plain "dl-u", .plain "dr-u"], "d")]
    []
    ["res-d", "res-u"]
    (links' := [(("ul", dashed "ul" "d"), ("dl", dashed "dl" "d")), (("ul", dashed "ul" "r"), ("ur", dashed "ur" "l")), (("ur",
    dashed "ur" "d"), ("dr", dashed "dr" "d")), (("dl", dashed "dl" "r"), ("dr", dashed "dr" "l")), (("ul", dashed
    "ul" "l"), ("dl", dashed "dl" "l")), (("ur", dashed "ur" "r"), ("dr", dashed "dr" "r"))])
    (fus' := [([.plain (dashed ("u" ++ "l") "u"), .plain (dashed ("u" ++ "r") "u")], "u"), ([.plain (dashed ("d" ++ "l") "u"),
    .plain (dashed ("d" ++ "r") "u")], "d")])
    (by decide +kernel) (by decide +kernel)
    [[("u", none), ("l", some 4), ("d", some 0), ("r", some 1)], [("u", none), ("l", some 1), ("d", some 2), ("r",
    some 5)], [("u", none), ("l", some 3), ("d", some 2), ("r", some 5)], [("u", none), ("l", some 4), ("d", some 0),
    ("r", some 3)]]
    (by decide +kernel) (by decide +kernel) (fun list => ⟨by simp [squareVerticalContractFTN]; rfl, _, rfl, rfl, rfl, rfl, rfl⟩) (by decide +kernel) ?_ ?_
    (rev := [("ur", "r", "dr", "r"), ("ul", "l", "dl", "l"), ("dl", "r", "dr", "l"), ("ur", "d", "dr", "d"), ("ul", "r", "ur",
    "l"), ("ul", "d", "dl", "d")]) rfl
    [("ul-u", "ul", "u"), ("ur-u", "ur", "u"), ("dr-u", "dr", "u"), ("dl-u", "dl", "u")] (by decide +kernel) ?_ ?_
  network [tags_verticalU, hi, hj, hk, hm, hn, ha] [verticalUArr_labels] [verticalUArr_dim]

theorem tags_verticalD :
    withTag "dl" "d" = "dl-d" ∧ withTag "dl" "l" = "dl-l" ∧ withTag "dl" "r" = "dl-r" ∧ withTag "dl" "u" = "dl-u" ∧
    withTag "dr" "d" = "dr-d" ∧ withTag "dr" "l" = "dr-l" ∧ withTag "dr" "r" = "dr-r" ∧ withTag "dr" "u" = "dr-u" ∧
    withTag "res" "d" = "res-d" ∧ withTag "res" "u" = "res-u" ∧ withTag "ul" "d" = "ul-d" ∧ withTag "ul" "l" = "ul-l"
    ∧ withTag "ul" "r" = "ul-r" ∧ withTag "ul" "u" = "ul-u" ∧ withTag "ur" "d" = "ur-d" ∧ withTag "ur" "l" = "ur-l" ∧
    withTag "ur" "r" = "ur-r" ∧ withTag "ur" "u" = "ur-u" ∧ withoutTag "res-d" = "d" ∧ withoutTag "res-u" = "u" := by
  decide +kernel

theorem verticalDArr_labels (st : Store) (ul ur dr dl : Tensor R) :
    (verticalDArr st ul ur dr dl).labels = ["d", "u"] := rfl

theorem verticalDArr_dim (st : Store) (ul ur dr dl : Tensor R) (z : String) :
    (verticalDArr st ul ur dr dl).dim z =
    (if z = "d" then dl.dimOf st "d" * dr.dimOf st "d"
    else ul.dimOf st "d" * ur.dimOf st "d") := rfl

/-- C49: `squareVerticalContractFTN("d")`. -/
theorem C49_verticalD {st : Store} {ul ur dr dl : Tensor R} (wf : WFStore st)
    (l0 : HasLabels st ul ["u", "l", "d", "r"]) (l1 : HasLabels st ur ["u", "l", "d", "r"]) (l2 : HasLabels st dr
    ["u", "l", "d", "r"]) (l3 : HasLabels st dl ["u", "l", "d", "r"])
    (hi : ul.dimOf st "u" = dl.dimOf st "u") (hj : ul.dimOf st "r" = ur.dimOf st "l") (hk : ur.dimOf st "u" = dr.dimOf
    st "u") (hm : dl.dimOf st "r" = dr.dimOf st "l") (hn : ul.dimOf st "l" = dl.dimOf st "l") (ha : ur.dimOf st "r" =
    dr.dimOf st "r") :
    Computes rand cast (fun list => squareVerticalContractFTN list "d") st [("ul", ul), ("ur", ur), ("dr", dr), ("dl", dl)]
      (verticalDArr st ul ur dr dl) := by
  refine computes_table rand cast wf
    [("ul", ul, ["u", "l", "d", "r"]), ("ur", ur, ["u", "l", "d", "r"]), ("dr", dr, ["u", "l", "d", "r"]), ("dl", dl,
    ["u", "l", "d", "r"])]
    ["ul", "ur", "dr", "dl"]
    [("ul", ["u", "l", "d", "r"]), ("ur", ["u", "l", "d", "r"]), ("dr", ["u", "l", "d", "r"]), ("dl", ["u", "l", "d",
    "r"])]
    (by simp [l0, l1, l2, l3]) rfl (by decide) (by decide) (by decide) (by decide) _
    [("ul", "u", "dl", "u"), ("ul", "r", "ur", "l"), ("ur", "u", "dr", "u"), ("dl", "r", "dr", "l"), ("ul", "l", "dl",
    "l"), ("ur", "r", "dr", "r")]
    [([.plain "dl-d", .plain "dr-d"], "d"), ([.plain "ul-d", .plain "ur-d"], "u")]
    []
    ["res-u", "res-d"]
    (links' := [(("ul", dashed "ul" "u"), ("dl", dashed "dl" "u")), (("ul", dashed "ul" "r"), ("ur", dashed "ur" "l")), (("ur",
    dashed "ur" "u"), ("dr", dashed "dr" "u")), (("dl", dashed "dl" "r"), ("dr", dashed "dr" "l")), (("ul", dashed
    "ul" "l"), ("dl", dashed "dl" "l")), (("ur", dashed "ur" "r"), ("dr", dashed "dr" "r"))])
    (fus' := [([.plain (dashed ("d" ++ "l") "d"), .plain (dashed ("d" ++ "r") "d")], "d"), ([.plain (dashed ("u" ++ "l") "d"),
    .plain (dashed ("u" ++ "r") "d")], "u")])
    (by decide +kernel) (by decide +kernel)
    [[("u", some 0), ("l", some 4), ("d", none), ("r", some 1)], [("u", some 2), ("l", some 1), ("d", none), ("r",
    some 5)], [("u", some 2), ("l", some 3), ("d", none), ("r", some 5)], [("u", some 0), ("l", some 4), ("d", none),
    ("r", some 3)]]
    (by decide +kernel) (by decide +kernel) (fun list => ⟨by simp [squareVerticalContractFTN]; rfl, _, rfl, rfl, rfl, rfl, rfl⟩) (by decide +kernel) ?_ ?_
    (rev := [("ur", "r", "dr", "r"), ("ul", "l", "dl", "l"), ("dl", "r", "dr", "l"), ("ur", "u", "dr", "u"), ("ul", "r", "ur",
    "l"), ("ul", "u", "dl", "u")]) rfl
    [("ul-d", "ul", "d"), ("ur-d", "ur", "d"), ("dr-d", "dr", "d"), ("dl-d", "dl", "d")] (by decide +kernel) ?_ ?_
  network [tags_verticalD, hi, hj, hk, hm, hn, ha] [verticalDArr_labels] [verticalDArr_dim]

theorem tags_hotrgH :
    withTag "d" "d" = "d-d" ∧ withTag "d" "l" = "d-l" ∧ withTag "d" "r" = "d-r" ∧ withTag "d" "u" = "d-u" ∧ withTag
    "l" "d" = "l-d" ∧ withTag "l" "l" = "l-l" ∧ withTag "l" "o" = "l-o" ∧ withTag "l" "u" = "l-u" ∧ withTag "r" "d" =
    "r-d" ∧ withTag "r" "o" = "r-o" ∧ withTag "r" "r" = "r-r" ∧ withTag "r" "u" = "r-u" ∧ withTag "u" "d" = "u-d" ∧
    withTag "u" "l" = "u-l" ∧ withTag "u" "r" = "u-r" ∧ withTag "u" "u" = "u-u" ∧ withoutTag "u-u" = "u" ∧ withoutTag
    "d-d" = "d" ∧ withoutTag "l-l" = "l" ∧ withoutTag "r-r" = "r" := by
  decide +kernel

theorem hotrgHArr_labels (st : Store) (u d l r : Tensor R) :
    (hotrgHArr st u d l r).labels = ["u", "d", "l", "r"] := rfl

theorem hotrgHArr_dim (st : Store) (u d l r : Tensor R) (z : String) :
    (hotrgHArr st u d l r).dim z =
    (if z = "u" then u.dimOf st "u"
    else if z = "d" then d.dimOf st "d"
    else if z = "l" then l.dimOf st "o"
    else r.dimOf st "o") := rfl

/-- C49: `HOTRGHorizontalContractFTN`. -/
theorem C49_hotrgH {st : Store} {u d l r : Tensor R} (wf : WFStore st)
    (l0 : HasLabels st u ["u", "l", "d", "r"]) (l1 : HasLabels st d ["u", "l", "d", "r"]) (l2 : HasLabels st l ["u",
    "d", "o"]) (l3 : HasLabels st r ["u", "d", "o"])
    (hi : u.dimOf st "l" = l.dimOf st "u") (hj : u.dimOf st "r" = r.dimOf st "u") (hk : d.dimOf st "l" = l.dimOf st
    "d") (hm : d.dimOf st "r" = r.dimOf st "d") (hn : u.dimOf st "d" = d.dimOf st "u") :
    Computes rand cast HOTRGHorizontalContractFTN st [("u", u), ("d", d), ("l", l), ("r", r)]
      (hotrgHArr st u d l r) := by
  refine computes_table rand cast wf
    [("u", u, ["u", "l", "d", "r"]), ("d", d, ["u", "l", "d", "r"]), ("l", l, ["u", "d", "o"]), ("r", r, ["u", "d",
    "o"])]
    ["u", "d", "l", "r"]
    [("u", ["u", "l", "d", "r"]), ("d", ["u", "l", "d", "r"]), ("l", ["u", "d", "o"]), ("r", ["u", "d", "o"])]
    (by simp [l0, l1, l2, l3]) rfl (by decide) (by decide) (by decide) (by decide) _
    [("u", "l", "l", "u"), ("u", "r", "r", "u"), ("d", "l", "l", "d"), ("d", "r", "r", "d"), ("u", "d", "d", "u")]
    []
    [("l", "o", "l"), ("r", "o", "r")]
    ["u-u", "d-d", "l-o", "r-o"]
    (links' := [(("u", dashed "u" "l"), ("l", dashed "l" "u")), (("u", dashed "u" "r"), ("r", dashed "r" "u")), (("d", dashed "d"
    "l"), ("l", dashed "l" "d")), (("d", dashed "d" "r"), ("r", dashed "r" "d")), (("u", dashed "u" "d"), ("d", dashed
    "d" "u"))])
    (by decide +kernel) rfl
    [[("u", none), ("l", some 0), ("d", some 4), ("r", some 1)], [("u", some 4), ("l", some 2), ("d", none), ("r",
    some 3)], [("u", some 0), ("d", some 2), ("o", none)], [("u", some 1), ("d", some 3), ("o", none)]]
    (by decide +kernel) (by decide +kernel) (fun list => ⟨rfl, _, rfl, rfl, rfl, rfl, rfl⟩) (by decide +kernel) ?_ ?_
    (rev := [("u", "d", "d", "u"), ("d", "r", "r", "d"), ("d", "l", "l", "d"), ("u", "r", "r", "u"), ("u", "l", "l", "u")]) rfl
    [("u-u", "u", "u"), ("d-d", "d", "d"), ("l-o", "l", "o"), ("r-o", "r", "o")] (by decide +kernel) ?_ ?_
  network [tags_hotrgH, hi, hj, hk, hm, hn] [hotrgHArr_labels] [hotrgHArr_dim]

theorem tags_hotrgV :
    withTag "d" "d" = "d-d" ∧ withTag "d" "l" = "d-l" ∧ withTag "d" "o" = "d-o" ∧ withTag "d" "r" = "d-r" ∧ withTag
    "l" "d" = "l-d" ∧ withTag "l" "l" = "l-l" ∧ withTag "l" "r" = "l-r" ∧ withTag "l" "u" = "l-u" ∧ withTag "r" "d" =
    "r-d" ∧ withTag "r" "l" = "r-l" ∧ withTag "r" "r" = "r-r" ∧ withTag "r" "u" = "r-u" ∧ withTag "u" "l" = "u-l" ∧
    withTag "u" "o" = "u-o" ∧ withTag "u" "r" = "u-r" ∧ withTag "u" "u" = "u-u" ∧ withoutTag "u-u" = "u" ∧ withoutTag
    "d-d" = "d" ∧ withoutTag "l-l" = "l" ∧ withoutTag "r-r" = "r" := by
  decide +kernel

theorem hotrgVArr_labels (st : Store) (u d l r : Tensor R) :
    (hotrgVArr st u d l r).labels = ["u", "d", "l", "r"] := rfl

theorem hotrgVArr_dim (st : Store) (u d l r : Tensor R) (z : String) :
    (hotrgVArr st u d l r).dim z =
    (if z = "u" then u.dimOf st "o"
    else if z = "d" then d.dimOf st "o"
    else if z = "l" then l.dimOf st "l"
    else r.dimOf st "r") := rfl

/-- C49: `HOTRGVerticalContractFTN`. -/
theorem C49_hotrgV {st : Store} {u d l r : Tensor R} (wf : WFStore st)
    (l0 : HasLabels st u ["l", "r", "o"]) (l1 : HasLabels st d ["l", "r", "o"]) (l2 : HasLabels st l ["u", "l", "d",
    "r"]) (l3 : HasLabels st r ["u", "l", "d", "r"])
    (hi : u.dimOf st "l" = l.dimOf st "u") (hj : u.dimOf st "r" = r.dimOf st "u") (hk : d.dimOf st "l" = l.dimOf st
    "d") (hm : d.dimOf st "r" = r.dimOf st "d") (hn : l.dimOf st "r" = r.dimOf st "l") :
    Computes rand cast HOTRGVerticalContractFTN st [("u", u), ("d", d), ("l", l), ("r", r)]
      (hotrgVArr st u d l r) := by
  refine computes_table rand cast wf
    [("u", u, ["l", "r", "o"]), ("d", d, ["l", "r", "o"]), ("l", l, ["u", "l", "d", "r"]), ("r", r, ["u", "l", "d",
    "r"])]
    ["u", "d", "l", "r"]
    [("u", ["l", "r", "o"]), ("d", ["l", "r", "o"]), ("l", ["u", "l", "d", "r"]), ("r", ["u", "l", "d", "r"])]
    (by simp [l0, l1, l2, l3]) rfl (by decide) (by decide) (by decide) (by decide) _
    [("u", "l", "l", "u"), ("u", "r", "r", "u"), ("d", "l", "l", "d"), ("d", "r", "r", "d"), ("l", "r", "r", "l")]
    []
    [("u", "o", "u"), ("d", "o", "d")]
    ["u-o", "d-o", "l-l", "r-r"]
    (links' := [(("u", dashed "u" "l"), ("l", dashed "l" "u")), (("u", dashed "u" "r"), ("r", dashed "r" "u")), (("d", dashed "d"
    "l"), ("l", dashed "l" "d")), (("d", dashed "d" "r"), ("r", dashed "r" "d")), (("l", dashed "l" "r"), ("r", dashed
    "r" "l"))])
    (by decide +kernel) rfl
    [[("l", some 0), ("r", some 1), ("o", none)], [("l", some 2), ("r", some 3), ("o", none)], [("u", some 0), ("l",
    none), ("d", some 2), ("r", some 4)], [("u", some 1), ("l", some 4), ("d", some 3), ("r", none)]]
    (by decide +kernel) (by decide +kernel) (fun list => ⟨rfl, _, rfl, rfl, rfl, rfl, rfl⟩) (by decide +kernel) ?_ ?_
    (rev := [("l", "r", "r", "l"), ("d", "r", "r", "d"), ("d", "l", "l", "d"), ("u", "r", "r", "u"), ("u", "l", "l", "u")]) rfl
    [("u-o", "u", "o"), ("d-o", "d", "o"), ("l-l", "l", "l"), ("r-r", "r", "r")] (by decide +kernel) ?_ ?_
  network [tags_hotrgV, hi, hj, hk, hm, hn] [hotrgVArr_labels] [hotrgVArr_dim]

theorem tags_evenbly :
    withTag "ddl" "d" = "ddl-d" ∧ withTag "ddl" "l" = "ddl-l" ∧ withTag "ddl" "r" = "ddl-r" ∧ withTag "ddl" "u" =
    "ddl-u" ∧ withTag "ddr" "d" = "ddr-d" ∧ withTag "ddr" "l" = "ddr-l" ∧ withTag "ddr" "r" = "ddr-r" ∧ withTag "ddr"
    "u" = "ddr-u" ∧ withTag "dul" "d" = "dul-d" ∧ withTag "dul" "l" = "dul-l" ∧ withTag "dul" "r" = "dul-r" ∧ withTag
    "dul" "u" = "dul-u" ∧ withTag "dur" "d" = "dur-d" ∧ withTag "dur" "l" = "dur-l" ∧ withTag "dur" "r" = "dur-r" ∧
    withTag "dur" "u" = "dur-u" ∧ withTag "res" "1" = "res-1" ∧ withTag "res" "2" = "res-2" ∧ withTag "udl" "d" =
    "udl-d" ∧ withTag "udl" "l" = "udl-l" ∧ withTag "udl" "r" = "udl-r" ∧ withTag "udl" "u" = "udl-u" ∧ withTag "udr"
    "d" = "udr-d" ∧ withTag "udr" "l" = "udr-l" ∧ withTag "udr" "r" = "udr-r" ∧ withTag "udr" "u" = "udr-u" ∧ withTag
    "uul" "d" = "uul-d" ∧ withTag "uul" "l" = "uul-l" ∧ withTag "uul" "r" = "uul-r" ∧ withTag "uul" "u" = "uul-u" ∧
    withTag "uur" "d" = "uur-d" ∧ withTag "uur" "l" = "uur-l" ∧ withTag "uur" "r" = "uur-r" ∧ withTag "uur" "u" =
    "uur-u" ∧ withoutTag "res-1" = "1" ∧ withoutTag "res-2" = "2" := by
  decide +kernel

theorem evenblyArr_labels (st : Store) (uul uur udl udr dul dur ddl ddr : Tensor R) :
    (evenblyArr st uul uur udl udr dul dur ddl ddr).labels = ["1", "2"] := rfl

theorem evenblyArr_dim (st : Store) (uul uur udl udr dul dur ddl ddr : Tensor R) (z : String) :
    (evenblyArr st uul uur udl udr dul dur ddl ddr).dim z =
    (if z = "1" then uul.dimOf st "l" * uul.dimOf st "u"
    else ddl.dimOf st "l" * ddl.dimOf st "u") := rfl

/-- C49: `EvenblyTNRQEnvFTN`. -/
theorem C49_evenbly {st : Store} {uul uur udl udr dul dur ddl ddr : Tensor R} (wf : WFStore st)
    (l0 : HasLabels st uul ["u", "l", "d", "r"]) (l1 : HasLabels st uur ["u", "l", "d", "r"]) (l2 : HasLabels st udl
    ["u", "l", "d", "r"]) (l3 : HasLabels st udr ["u", "l", "d", "r"]) (l4 : HasLabels st dul ["u", "l", "d", "r"])
    (l5 : HasLabels st dur ["u", "l", "d", "r"]) (l6 : HasLabels st ddl ["u", "l", "d", "r"]) (l7 : HasLabels st ddr
    ["u", "l", "d", "r"])
    (hi : udl.dimOf st "r" = dul.dimOf st "r") (hj : udl.dimOf st "d" = dul.dimOf st "d") (hk : udr.dimOf st "r" =
    dur.dimOf st "r") (hm : udr.dimOf st "d" = dur.dimOf st "d") (hn : udl.dimOf st "l" = udr.dimOf st "l") (ha :
    dul.dimOf st "l" = dur.dimOf st "l") (hb : uur.dimOf st "l" = ddr.dimOf st "l") (he : uur.dimOf st "u" = ddr.dimOf
    st "u") (hf : udr.dimOf st "u" = uur.dimOf st "d") (hg : dur.dimOf st "u" = ddr.dimOf st "d") (hh : uul.dimOf st
    "r" = uur.dimOf st "r") (hq : uul.dimOf st "d" = udl.dimOf st "u") (hs : ddl.dimOf st "r" = ddr.dimOf st "r") (hx
    : ddl.dimOf st "d" = dul.dimOf st "u") :
    Computes rand cast EvenblyTNRQEnvFTN st [("uul", uul), ("uur", uur), ("udl", udl), ("udr", udr), ("dul", dul), ("dur", dur), ("ddl", ddl), ("ddr", ddr)]
      (evenblyArr st uul uur udl udr dul dur ddl ddr) := by
  refine computes_table rand cast wf
    [("uul", uul, ["u", "l", "d", "r"]), ("uur", uur, ["u", "l", "d", "r"]), ("udl", udl, ["u", "l", "d", "r"]),
    ("udr", udr, ["u", "l", "d", "r"]), ("dul", dul, ["u", "l", "d", "r"]), ("dur", dur, ["u", "l", "d", "r"]),
    ("ddl", ddl, ["u", "l", "d", "r"]), ("ddr", ddr, ["u", "l", "d", "r"])]
    ["uul", "uur", "udl", "udr", "dul", "dur", "ddl", "ddr"]
    [("uul", ["u", "l", "d", "r"]), ("uur", ["u", "l", "d", "r"]), ("udl", ["u", "l", "d", "r"]), ("udr", ["u", "l",
    "d", "r"]), ("dul", ["u", "l", "d", "r"]), ("dur", ["u", "l", "d", "r"]), ("ddl", ["u", "l", "d", "r"]), ("ddr",
    ["u", "l", "d", "r"])]
    (by simp [l0, l1, l2, l3, l4, l5, l6, l7]) rfl (by decide) (by decide) (by decide) (by decide) _
    [("udl", "r", "dul", "r"), ("udl", "d", "dul", "d"), ("udr", "r", "dur", "r"), ("udr", "d", "dur", "d"), ("udl",
    "l", "udr", "l"), ("dul", "l", "dur", "l"), ("uur", "l", "ddr", "l"), ("uur", "u", "ddr", "u"), ("udr", "u",
    "uur", "d"), ("dur", "u", "ddr", "d"), ("uul", "r", "uur", "r"), ("uul", "d", "udl", "u"), ("ddl", "r", "ddr",
    "r"), ("ddl", "d", "dul", "u")]
    [([.plain "uul-l", .plain "uul-u"], "1"), ([.plain "ddl-l", .plain "ddl-u"], "2")]
    []
    ["res-2", "res-1"]
    (links' := [(("udl", dashed "udl" "r"), ("dul", dashed "dul" "r")), (("udl", dashed "udl" "d"), ("dul", dashed "dul" "d")),
    (("udr", dashed "udr" "r"), ("dur", dashed "dur" "r")), (("udr", dashed "udr" "d"), ("dur", dashed "dur" "d")),
    (("udl", dashed "udl" "l"), ("udr", dashed "udr" "l")), (("dul", dashed "dul" "l"), ("dur", dashed "dur" "l")),
    (("uur", dashed "uur" "l"), ("ddr", dashed "ddr" "l")), (("uur", dashed "uur" "u"), ("ddr", dashed "ddr" "u")),
    (("udr", dashed "udr" "u"), ("uur", dashed "uur" "d")), (("dur", dashed "dur" "u"), ("ddr", dashed "ddr" "d")),
    (("uul", dashed "uul" "r"), ("uur", dashed "uur" "r")), (("uul", dashed "uul" "d"), ("udl", dashed "udl" "u")),
    (("ddl", dashed "ddl" "r"), ("ddr", dashed "ddr" "r")), (("ddl", dashed "ddl" "d"), ("dul", dashed "dul" "u"))])
    (by decide +kernel) rfl
    [[("u", none), ("l", none), ("d", some 11), ("r", some 10)], [("u", some 7), ("l", some 6), ("d", some 8), ("r",
    some 10)], [("u", some 11), ("l", some 4), ("d", some 1), ("r", some 0)], [("u", some 8), ("l", some 4), ("d",
    some 3), ("r", some 2)], [("u", some 13), ("l", some 5), ("d", some 1), ("r", some 0)], [("u", some 9), ("l", some
    5), ("d", some 3), ("r", some 2)], [("u", none), ("l", none), ("d", some 13), ("r", some 12)], [("u", some 7),
    ("l", some 6), ("d", some 9), ("r", some 12)]]
    (by decide +kernel) (by decide +kernel) (fun list => ⟨rfl, _, rfl, rfl, rfl, rfl, rfl⟩) (by decide +kernel) ?_ ?_
    (rev := [("ddl", "d", "dul", "u"), ("ddl", "r", "ddr", "r"), ("uul", "d", "udl", "u"), ("uul", "r", "uur", "r"), ("dur",
    "u", "ddr", "d"), ("udr", "u", "uur", "d"), ("uur", "u", "ddr", "u"), ("uur", "l", "ddr", "l"), ("dul", "l",
    "dur", "l"), ("udl", "l", "udr", "l"), ("udr", "d", "dur", "d"), ("udr", "r", "dur", "r"), ("udl", "d", "dul",
    "d"), ("udl", "r", "dul", "r")]) rfl
    [("uul-u", "uul", "u"), ("uul-l", "uul", "l"), ("ddl-u", "ddl", "u"), ("ddl-l", "ddl", "l")] (by decide +kernel) ?_ ?_
  network [tags_evenbly, hi, hj, hk, hm, hn, ha, hb, he, hf, hg, hh, hq, hs, hx] [evenblyArr_labels] [evenblyArr_dim]


end CTL
