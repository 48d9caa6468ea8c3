import Verif.Props.ContractExp
import Verif.Spec.TNR

/-! C66: the networks of `TNR.py`. -/

namespace CTL
variable {R : Type} [CommSemiring R] (rand : List Nat → List Nat → R) (cast : R → R)

theorem tags_qxA :
    withTag "A" "d" = "A-d" ∧ withTag "A" "h" = "A-h" ∧ withTag "A" "l" = "A-l" ∧ withTag "A" "r" = "A-r" ∧ withTag
    "A" "u" = "A-u" ∧ withTag "A" "v" = "A-v" ∧ withTag "q" "h" = "q-h" ∧ withTag "q" "o" = "q-o" ∧ withTag "q" "v" =
    "q-v" ∧ withoutTag "q-o" = "o" ∧ withoutTag "A-v" = "v" ∧ withoutTag "A-h" = "h" := by
  decide +kernel

theorem qxAArr_labels (st : Store) (q A : Tensor R) :
    (qxAArr st q A).labels = ["o", "v", "h"] := rfl

theorem qxAArr_dim (st : Store) (q A : Tensor R) (z : String) :
    (qxAArr st q A).dim z =
    (if z = "o" then q.dimOf st "o"
    else if z = "v" then A.dimOf st "d"
    else A.dimOf st "r") := rfl

/-- C66: `createQxAFTN`. -/
theorem C66_qxA {st : Store} {q A : Tensor R} (wf : WFStore st)
    (l0 : HasLabels st q ["h", "v", "o"]) (l1 : HasLabels st A ["u", "l", "d", "r"])
    (hi : q.dimOf st "h" = A.dimOf st "l") (hj : q.dimOf st "v" = A.dimOf st "u") :
    Computes rand cast createQxAFTN st [("q", q), ("A", A)]
      (qxAArr st q A) := by
  refine computes_table rand cast wf
    [("q", q, ["h", "v", "o"]), ("A", A, ["u", "l", "d", "r"])]
    ["q", "A"]
    [("q", ["h", "v", "o"]), ("A", ["u", "l", "d", "r"])]
    (by simp [l0, l1]) rfl (by decide) (by decide) (by decide) (by decide) _
    [("q", "h", "A", "l"), ("q", "v", "A", "u")]
    []
    [("A", "r", "h"), ("A", "d", "v")]
    ["q-o", "A-d", "A-r"]
    (links' := [(("q", dashed "q" "h"), ("A", dashed "A" "l")), (("q", dashed "q" "v"), ("A", dashed "A" "u"))])
    (by decide +kernel) rfl
    [[("h", some 0), ("v", some 1), ("o", none)], [("u", some 1), ("l", some 0), ("d", none), ("r", none)]]
    (by decide +kernel) (by decide +kernel) (fun list => ⟨rfl, _, rfl, rfl, rfl, rfl, rfl⟩) (by decide +kernel) ?_ ?_
    (rev := [("q", "v", "A", "u"), ("q", "h", "A", "l")]) rfl
    [("q-o", "q", "o"), ("A-d", "A", "d"), ("A-r", "A", "r")] (by decide +kernel) ?_ ?_
  network [tags_qxA, hi, hj] [qxAArr_labels] [qxAArr_dim]

theorem tags_tnrC :
    withTag "dl" "dl" = "dl-dl" ∧ withTag "dl" "h" = "dl-h" ∧ withTag "dl" "o" = "dl-o" ∧ withTag "dl" "v" = "dl-v" ∧
    withTag "dr" "dr" = "dr-dr" ∧ withTag "dr" "h" = "dr-h" ∧ withTag "dr" "o" = "dr-o" ∧ withTag "dr" "v" = "dr-v" ∧
    withTag "ul" "h" = "ul-h" ∧ withTag "ul" "o" = "ul-o" ∧ withTag "ul" "ul" = "ul-ul" ∧ withTag "ul" "v" = "ul-v" ∧
    withTag "ur" "h" = "ur-h" ∧ withTag "ur" "o" = "ur-o" ∧ withTag "ur" "ur" = "ur-ur" ∧ withTag "ur" "v" = "ur-v" ∧
    withoutTag "ul-ul" = "ul" ∧ withoutTag "ur-ur" = "ur" ∧ withoutTag "dl-dl" = "dl" ∧ withoutTag "dr-dr" = "dr" := by
  decide +kernel

theorem tnrCArr_labels (st : Store) (ul ur dl dr : Tensor R) :
    (tnrCArr st ul ur dl dr).labels = ["ul", "ur", "dl", "dr"] := rfl

theorem tnrCArr_dim (st : Store) (ul ur dl dr : Tensor R) (z : String) :
    (tnrCArr st ul ur dl dr).dim z =
    (if z = "ul" then ul.dimOf st "o"
    else if z = "ur" then ur.dimOf st "o"
    else if z = "dl" then dl.dimOf st "o"
    else dr.dimOf st "o") := rfl

/-- C66: `createCFTN`. -/
theorem C66_tnrC {st : Store} {ul ur dl dr : Tensor R} (wf : WFStore st)
    (l0 : HasLabels st ul ["h", "v", "o"]) (l1 : HasLabels st ur ["h", "v", "o"]) (l2 : HasLabels st dl ["h", "v",
    "o"]) (l3 : HasLabels st dr ["h", "v", "o"])
    (hi : ul.dimOf st "v" = dl.dimOf st "v") (hj : ur.dimOf st "v" = dr.dimOf st "v") (hk : ul.dimOf st "h" = ur.dimOf
    st "h") (hm : dl.dimOf st "h" = dr.dimOf st "h") :
    Computes rand cast createCFTN st [("ul", ul), ("ur", ur), ("dl", dl), ("dr", dr)]
      (tnrCArr st ul ur dl dr) := by
  refine computes_table rand cast wf
    [("ul", ul, ["h", "v", "o"]), ("ur", ur, ["h", "v", "o"]), ("dl", dl, ["h", "v", "o"]), ("dr", dr, ["h", "v",
    "o"])]
    ["ul", "ur", "dl", "dr"]
    [("ul", ["h", "v", "o"]), ("ur", ["h", "v", "o"]), ("dl", ["h", "v", "o"]), ("dr", ["h", "v", "o"])]
    (by simp [l0, l1, l2, l3]) rfl (by decide) (by decide) (by decide) (by decide) _
    [("ul", "v", "dl", "v"), ("ur", "v", "dr", "v"), ("ul", "h", "ur", "h"), ("dl", "h", "dr", "h")]
    []
    [("ul", "o", "ul"), ("ur", "o", "ur"), ("dl", "o", "dl"), ("dr", "o", "dr")]
    ["ul-o", "ur-o", "dl-o", "dr-o"]
    (links' := [(("ul", dashed "ul" "v"), ("dl", dashed "dl" "v")), (("ur", dashed "ur" "v"), ("dr", dashed "dr" "v")), (("ul",
    dashed "ul" "h"), ("ur", dashed "ur" "h")), (("dl", dashed "dl" "h"), ("dr", dashed "dr" "h"))])
    (by decide +kernel) rfl
    [[("h", some 2), ("v", some 0), ("o", none)], [("h", some 2), ("v", some 1), ("o", none)], [("h", some 3), ("v",
    some 0), ("o", none)], [("h", some 3), ("v", some 1), ("o", none)]]
    (by decide +kernel) (by decide +kernel) (fun list => ⟨rfl, _, rfl, rfl, rfl, rfl, rfl⟩) (by decide +kernel) ?_ ?_
    (rev := [("dl", "h", "dr", "h"), ("ul", "h", "ur", "h"), ("ur", "v", "dr", "v"), ("ul", "v", "dl", "v")]) rfl
    [("ul-o", "ul", "o"), ("ur-o", "ur", "o"), ("dl-o", "dl", "o"), ("dr-o", "dr", "o")] (by decide +kernel) ?_ ?_
  network [tags_tnrC, hi, hj, hk, hm] [tnrCArr_labels] [tnrCArr_dim]

theorem tags_tnrCC :
    withTag "d" "dl" = "d-dl" ∧ withTag "d" "dr" = "d-dr" ∧ withTag "d" "ul" = "d-ul" ∧ withTag "d" "ur" = "d-ur" ∧
    withTag "u" "dl" = "u-dl" ∧ withTag "u" "dr" = "u-dr" ∧ withTag "u" "ul" = "u-ul" ∧ withTag "u" "ur" = "u-ur" ∧
    withoutTag "u-ul" = "ul" ∧ withoutTag "u-ur" = "ur" ∧ withoutTag "d-dl" = "dl" ∧ withoutTag "d-dr" = "dr" := by
  decide +kernel

theorem tnrCCArr_labels (st : Store) (u d : Tensor R) :
    (tnrCCArr st u d).labels = ["ul", "ur", "dl", "dr"] := rfl

theorem tnrCCArr_dim (st : Store) (u d : Tensor R) (z : String) :
    (tnrCCArr st u d).dim z =
    (if z = "ul" then u.dimOf st "ul"
    else if z = "ur" then u.dimOf st "ur"
    else if z = "dl" then d.dimOf st "ul"
    else d.dimOf st "ur") := rfl

/-- C66: `createCCFTN`. -/
theorem C66_tnrCC {st : Store} {u d : Tensor R} (wf : WFStore st)
    (l0 : HasLabels st u ["ul", "ur", "dl", "dr"]) (l1 : HasLabels st d ["ul", "ur", "dl", "dr"])
    (hi : u.dimOf st "dl" = d.dimOf st "dl") (hj : u.dimOf st "dr" = d.dimOf st "dr") :
    Computes rand cast createCCFTN st [("u", u), ("d", d)]
      (tnrCCArr st u d) := by
  refine computes_table rand cast wf
    [("u", u, ["ul", "ur", "dl", "dr"]), ("d", d, ["ul", "ur", "dl", "dr"])]
    ["u", "d"]
    [("u", ["ul", "ur", "dl", "dr"]), ("d", ["ul", "ur", "dl", "dr"])]
    (by simp [l0, l1]) rfl (by decide) (by decide) (by decide) (by decide) _
    [("u", "dl", "d", "dl"), ("u", "dr", "d", "dr")]
    []
    [("d", "ul", "dl"), ("d", "ur", "dr")]
    ["u-ul", "u-ur", "d-ul", "d-ur"]
    (links' := [(("u", dashed "u" "dl"), ("d", dashed "d" "dl")), (("u", dashed "u" "dr"), ("d", dashed "d" "dr"))])
    (by decide +kernel) rfl
    [[("ul", none), ("ur", none), ("dl", some 0), ("dr", some 1)], [("ul", none), ("ur", none), ("dl", some 0), ("dr",
    some 1)]]
    (by decide +kernel) (by decide +kernel) (fun list => ⟨rfl, _, rfl, rfl, rfl, rfl, rfl⟩) (by decide +kernel) ?_ ?_
    (rev := [("u", "dr", "d", "dr"), ("u", "dl", "d", "dl")]) rfl
    [("u-ul", "u", "ul"), ("u-ur", "u", "ur"), ("d-ul", "d", "ul"), ("d-ur", "d", "ur")] (by decide +kernel) ?_ ?_
  network [tags_tnrCC, hi, hj] [tnrCCArr_labels] [tnrCCArr_dim]

theorem tags_sCEnvS :
    withTag "CC" "dl" = "CC-dl" ∧ withTag "CC" "dr" = "CC-dr" ∧ withTag "CC" "ul" = "CC-ul" ∧ withTag "CC" "ur" =
    "CC-ur" ∧ withTag "ql" "h" = "ql-h" ∧ withTag "ql" "o" = "ql-o" ∧ withTag "ql" "v" = "ql-v" ∧ withTag "qr" "h" =
    "qr-h" ∧ withTag "qr" "o" = "qr-o" ∧ withTag "qr" "v" = "qr-v" ∧ withTag "u" "il" = "u-il" ∧ withTag "u" "ir" =
    "u-ir" ∧ withTag "u" "ol" = "u-ol" ∧ withTag "u" "or" = "u-or" ∧ withTag "yl" "dl" = "yl-dl" ∧ withTag "yl" "h" =
    "yl-h" ∧ withTag "yl" "o" = "yl-o" ∧ withTag "yl" "v" = "yl-v" ∧ withTag "yr" "dr" = "yr-dr" ∧ withTag "yr" "h" =
    "yr-h" ∧ withTag "yr" "o" = "yr-o" ∧ withTag "yr" "v" = "yr-v" ∧ withoutTag "CC-ul" = "ul" ∧ withoutTag "CC-ur" =
    "ur" ∧ withoutTag "yl-dl" = "dl" ∧ withoutTag "yr-dr" = "dr" := by
  decide +kernel

theorem sCEnvSArr_labels (st : Store) (CC ql qr u yl yr : Tensor R) :
    (sCEnvSArr st CC ql qr u yl yr).labels = ["ul", "ur", "dl", "dr"] := rfl

theorem sCEnvSArr_dim (st : Store) (CC ql qr u yl yr : Tensor R) (z : String) :
    (sCEnvSArr st CC ql qr u yl yr).dim z =
    (if z = "ul" then CC.dimOf st "ul"
    else if z = "ur" then CC.dimOf st "ur"
    else if z = "dl" then yl.dimOf st "o"
    else yr.dimOf st "o") := rfl

/-- C66: `createSCEnvSFTN`. -/
theorem C66_sCEnvS {st : Store} {CC ql qr u yl yr : Tensor R} (wf : WFStore st)
    (l0 : HasLabels st CC ["ul", "ur", "dl", "dr"]) (l1 : HasLabels st ql ["h", "v", "o"]) (l2 : HasLabels st qr ["h",
    "v", "o"]) (l3 : HasLabels st u ["ol", "or", "il", "ir"]) (l4 : HasLabels st yl ["h", "v", "o"]) (l5 : HasLabels
    st yr ["h", "v", "o"])
    (hi : CC.dimOf st "dl" = ql.dimOf st "o") (hj : CC.dimOf st "dr" = qr.dimOf st "o") (hk : ql.dimOf st "h" =
    yl.dimOf st "h") (hm : qr.dimOf st "h" = yr.dimOf st "h") (hn : ql.dimOf st "v" = u.dimOf st "or") (ha : qr.dimOf
    st "v" = u.dimOf st "ol") (hb : yl.dimOf st "v" = u.dimOf st "ir") (he : yr.dimOf st "v" = u.dimOf st "il") :
    Computes rand cast createSCEnvSFTN st [("CC", CC), ("ql", ql), ("qr", qr), ("u", u), ("yl", yl), ("yr", yr)]
      (sCEnvSArr st CC ql qr u yl yr) := by
  refine computes_table rand cast wf
    [("CC", CC, ["ul", "ur", "dl", "dr"]), ("ql", ql, ["h", "v", "o"]), ("qr", qr, ["h", "v", "o"]), ("u", u, ["ol",
    "or", "il", "ir"]), ("yl", yl, ["h", "v", "o"]), ("yr", yr, ["h", "v", "o"])]
    ["CC", "ql", "qr", "u", "yl", "yr"]
    [("CC", ["ul", "ur", "dl", "dr"]), ("ql", ["h", "v", "o"]), ("qr", ["h", "v", "o"]), ("u", ["ol", "or", "il",
    "ir"]), ("yl", ["h", "v", "o"]), ("yr", ["h", "v", "o"])]
    (by simp [l0, l1, l2, l3, l4, l5]) rfl (by decide) (by decide) (by decide) (by decide) _
    [("CC", "dl", "ql", "o"), ("CC", "dr", "qr", "o"), ("ql", "h", "yl", "h"), ("qr", "h", "yr", "h"), ("ql", "v",
    "u", "or"), ("qr", "v", "u", "ol"), ("yl", "v", "u", "ir"), ("yr", "v", "u", "il")]
    []
    [("yl", "o", "dl"), ("yr", "o", "dr")]
    ["CC-ul", "CC-ur", "yl-o", "yr-o"]
    (links' := [(("CC", dashed "CC" "dl"), ("ql", dashed "ql" "o")), (("CC", dashed "CC" "dr"), ("qr", dashed "qr" "o")), (("ql",
    dashed "ql" "h"), ("yl", dashed "yl" "h")), (("qr", dashed "qr" "h"), ("yr", dashed "yr" "h")), (("ql", dashed
    "ql" "v"), ("u", dashed "u" "or")), (("qr", dashed "qr" "v"), ("u", dashed "u" "ol")), (("yl", dashed "yl" "v"),
    ("u", dashed "u" "ir")), (("yr", dashed "yr" "v"), ("u", dashed "u" "il"))])
    (by decide +kernel) rfl
    [[("ul", none), ("ur", none), ("dl", some 0), ("dr", some 1)], [("h", some 2), ("v", some 4), ("o", some 0)],
    [("h", some 3), ("v", some 5), ("o", some 1)], [("ol", some 5), ("or", some 4), ("il", some 7), ("ir", some 6)],
    [("h", some 2), ("v", some 6), ("o", none)], [("h", some 3), ("v", some 7), ("o", none)]]
    (by decide +kernel) (by decide +kernel) (fun list => ⟨rfl, _, rfl, rfl, rfl, rfl, rfl⟩) (by decide +kernel) ?_ ?_
    (rev := [("yr", "v", "u", "il"), ("yl", "v", "u", "ir"), ("qr", "v", "u", "ol"), ("ql", "v", "u", "or"), ("qr", "h", "yr",
    "h"), ("ql", "h", "yl", "h"), ("CC", "dr", "qr", "o"), ("CC", "dl", "ql", "o")]) rfl
    [("CC-ul", "CC", "ul"), ("CC-ur", "CC", "ur"), ("yl-o", "yl", "o"), ("yr-o", "yr", "o")] (by decide +kernel) ?_ ?_
  network [tags_sCEnvS, hi, hj, hk, hm, hn, ha, hb, he] [sCEnvSArr_labels] [sCEnvSArr_dim]

/-- C66: the environment agrees with the formula in the comment of the code if exchanging left and right leaves `u` as it is. -/
theorem C66_sCEnvS_comment {st : Store} {CC ql qr u yl yr : Tensor R}
    (sym : ∀ a < qr.dimOf st "v", ∀ n < ql.dimOf st "v", ∀ e < yr.dimOf st "v", ∀ b < yl.dimOf st "v",
      u.at st [("ol", a), ("or", n), ("il", e), ("ir", b)] = u.at st [("ol", n), ("or", a), ("il", b), ("ir", e)])
    (τ : String → Nat) : (sCEnvSArr st CC ql qr u yl yr).val τ = sCEnvSNcon st CC ql qr u yl yr τ := by
  unfold sCEnvSArr sCEnvSNcon
  dsimp only
  refine Finset.sum_congr rfl fun e he => Finset.sum_congr rfl fun b hb => Finset.sum_congr rfl fun a ha =>
    Finset.sum_congr rfl fun n hn => Finset.sum_congr rfl fun m _ => Finset.sum_congr rfl fun k _ =>
    Finset.sum_congr rfl fun j _ => Finset.sum_congr rfl fun i _ => ?_
  rw [sym a (Finset.mem_range.mp ha) n (Finset.mem_range.mp hn) e (Finset.mem_range.mp he) b (Finset.mem_range.mp hb)]

end CTL
