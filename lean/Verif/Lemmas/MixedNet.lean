import Verif.Spec.CTMRGTensor
import Verif.Props.FTNDiag
import Verif.Props.ContractExp
import Verif.Props.ContractNets
import Verif.Lemmas.NetSteps

/-! The ready-made networks with diagonal tensors among their inputs. -/

namespace CTL
variable {K R : Type}

theorem HasLabels.any {st : Store} {t : Tensor R} {labels : List String} (h : HasLabels st t labels) : AnyLabels st t labels :=
  ⟨h.good, h.known, h.pos, h.labels⟩

theorem AnyLabels.same [Zero R] {st : Store} {t : Tensor R} {labels : List String} (h : AnyLabels st t labels) :
    (t.labelled st).Same (t.ordered st labels) := by
  refine ⟨h.labels, fun _ _ => rfl, fun τ _ => ?_⟩
  refine entry_congr t fun l hl => ?_
  exact (indexAt_map τ (h.labels.subset (List.mem_map_of_mem hl))).symm

theorem AnyLabels.kept {st st' : Store} {t : Tensor R} {labels : List String} (h : AnyLabels st t labels) (k : LegsUnchanged st st') :
    AnyLabels st' t labels :=
  ⟨k.good h.known h.good, fun l hl => (h.known l hl).trans_le k.le, fun l hl => by
    rw [k.dim (h.known l hl)]
    exact h.pos l hl, by rw [k.names h.known]; exact h.labels⟩

theorem Produced.kept [Zero R] {st st' : Store} {t : Tensor R} {A : LArr R} (o : Produced st st' t A) : LegsUnchanged st st' :=
  ⟨o.le, o.old.leg⟩

theorem runOps_mixedLife [CommSemiring R] {rand : List Nat → List Nat → R} {cast : R → R} {D : Nat → Prop} :
    ∀ (ops : List NetOp) {f : FTN} {names : List String} {f' : FTN} {names' : List String},
    FTN.MixedLife rand cast D false f names → FTN.runOps ops f names = .ok (f', names') →
    FTN.MixedLife rand cast D false f' names'
  | [], f, names, f', names', h, e => by
    cases e
    exact h
  | op :: ops, f, names, f', names', h, e => by
    rw [FTN.runOps] at e
    have hb := h.build op
    rcases ha : f.apply names op with ⟨n1, f1, _ | err⟩
    · rw [ha] at e hb
      exact runOps_mixedLife ops hb e
    · rw [ha] at e
      cases e

section
variable [Field K]

/-- The network returned by `make`, after any contractions with inputs that are diagonal at the places `D`. -/
def MixedNetOf (p : RGParams K) (make : Nat → Except PyErr (FTN × List String)) (D : Nat → Prop) (net : Net) : Prop :=
  ∃ list f b, make list = .ok (f, net.2) ∧ net.1.links = f.links ∧ net.1.changeNameBefore = f.changeNameBefore ∧
    net.1.changeNameAfter = f.changeNameAfter ∧ net.1.outProductAfter = f.outProductAfter ∧
    FTN.MixedLife p.rand p.cast D b net.1 net.2

theorem MixedNetOf.made {p : RGParams K} {make : Nat → Except PyErr (FTN × List String)} {D : Nat → Prop} {net : Net} {list : Nat}
    {names : List String} {ops : List NetOp} (h : FTN.made list names ops = .ok net) (hm : make list = FTN.made list names ops) :
    MixedNetOf p make D net :=
  ⟨list, net.1, false, hm.trans h, rfl, rfl, rfl, rfl, runOps_mixedLife ops (.new list names true 10 (Or.inl rfl)) h⟩

theorem mixedNet_settles [LinearOrder K] [Star K] {p : RGParams K} (hcast : ∀ x, p.cast x = x)
    {make : Nat → Except PyErr (FTN × List String)} {D : Nat → Prop} {net : Net} (hn : MixedNetOf p make D net) {names : List String}
    {links : List ((String × String) × (String × String))} {fus : List (List OutLabel × String)} {st : Store} (w : WFStore st)
    {ins : List (String × Tensor K × List String)} {S : LArr K} (M : NetMeans make names links fus st ins S)
    (h : ∀ q ∈ ins, AnyLabels st q.2.1 q.2.2) (hl : ∀ q ∈ ins, q.2.2.Nodup ∧ q.2.2 ≠ [])
    (hk : names.Perm (ins.map Prod.fst)) (nd : names.Nodup) (hne : names ≠ []) (hc : LinkConnected links names)
    (hf : fus = [] ∨ ∃ q ∈ ins, q.2.1.diag = false)
    (hD : ∀ i, (∃ q ∈ ins, names[i]? = some q.1 ∧ q.2.1.diag = true) ↔ D i)
    {dict : List (String × Tensor K)} (hd : dict.Perm (ins.map fun q => (q.1, q.2.1))) :
    ∃ net' st' t, Settles (fun fuel => contractNet p fuel net st dict) (net', st', t) ∧ MixedNetOf p make D net' ∧
      Produced st st' t S ∧ (t.diag = true ↔ ∀ q ∈ ins, q.2.1.diag = true) := by
  obtain ⟨list, f, b, hm, k1, k2, k3, k4, life⟩ := hn
  obtain ⟨ops, M⟩ := M
  obtain ⟨e1, f1, e2, hb, el, eo, A, hA, hS⟩ := M list
  rw [hm, e2] at e1
  obtain ⟨rfl, hnames⟩ := Prod.mk.inj (Except.ok.inj e1)
  have hmem : ∀ q ∈ dict, ∃ r ∈ ins, r.1 = q.1 ∧ r.2.1 = q.2 := by
    intro q hq
    obtain ⟨r, hr, rfl⟩ := List.mem_map.mp (hd.mem_iff.mp hq)
    exact ⟨r, hr, rfl, rfl⟩
  have hmem' : ∀ r ∈ ins, (r.1, r.2.1) ∈ dict := fun r hr => hd.mem_iff.mpr (List.mem_map.mpr ⟨r, hr, rfl⟩)
  have keys : (dict.map Prod.fst).Perm (ins.map Prod.fst) := by
    have := hd.map Prod.fst
    rw [List.map_map] at this
    exact this
  have inp : MixedInput st names dict := by
    refine ⟨w, hk.trans keys.symm, nd, hne, ?_, ?_, ?_, ?_, ?_⟩
    · intro q hq
      obtain ⟨r, hr, _, e⟩ := hmem q hq
      rw [← e]
      exact (h r hr).good
    · intro q hq e0
      obtain ⟨r, hr, _, e⟩ := hmem q hq
      rw [← e] at e0
      have := (h r hr).labels
      rw [e0] at this
      exact (hl r hr).2 this.symm.eq_nil
    · intro q hq
      obtain ⟨r, hr, _, e⟩ := hmem q hq
      rw [← e]
      exact (h r hr).known
    · intro q hq
      obtain ⟨r, hr, _, e⟩ := hmem q hq
      rw [← e]
      exact (h r hr).labels.nodup_iff.mpr (hl r hr).1
    · intro q hq
      obtain ⟨r, hr, _, e⟩ := hmem q hq
      rw [← e]
      exact (h r hr).pos
  have same : SameInputs (dict.map fun q => (q.1, q.2.labelled st)) (ins.map fun q => (q.1, q.2.1.ordered st q.2.2)) := by
    refine ⟨ins.map fun q => (q.1, q.2.1.labelled st), ?_, ?_⟩
    · have := hd.map fun q => (q.1, q.2.labelled st)
      rw [List.map_map] at this
      exact this
    · rw [List.forall₂_map_left_iff, List.forall₂_map_right_iff]
      exact List.forall₂_same.mpr fun q hq => ⟨rfl, (h q hq).same⟩
  obtain ⟨B, hB, sB⟩ := meaning_same hb same hA
  have hB' : net.1.meaning true (dict.map fun q => (q.1, q.2.labelled st)) = some B := by
    rw [← hB]
    unfold FTN.meaning
    rw [k1, k2, k3, k4]
  have diag : ∀ i, DiagNamed dict names i ↔ D i := by
    intro i
    rw [← hD i]
    constructor
    · rintro ⟨n, t, e, ht, hdg⟩
      obtain ⟨r, hr, e1, e2⟩ := hmem _ ht
      exact ⟨r, hr, by rw [e1]; exact e, by rw [e2]; exact hdg⟩
    · rintro ⟨r, hr, e, hdg⟩
      exact ⟨r.1, r.2.1, e, hmem' r hr, hdg⟩
  obtain ⟨c, ht, _⟩ := mixed_cache life
  rw [hnames] at c life
  obtain ⟨rounds, hr⟩ := contract_any p.rand p.cast inp (fun q hq => (c q hq).1) ht (Or.inr ⟨hcast, by rw [k1, el]; exact hc, by
      rw [k4, eo]
      rcases hf with hf | ⟨q, hq, hdq⟩
      · exact Or.inl hf
      · exact Or.inr ⟨_, hmem' q hq, hdq⟩, fun q hq =>
    ⟨(c q hq).1, stepsSafe_mono (fun _ _ h => h) (fun i h => (diag i).mp h) _ _ (c q hq).2⟩⟩) hB'
  obtain ⟨f', st', t, e, o, td, -⟩ := hr rounds le_rfl
  have life' := life.contract inp diag hB' rounds
  obtain ⟨_, _, h1, h2, h3, h4⟩ := contract_structure p.rand p.cast net.1 names st dict true rounds
  rw [e] at life' h1 h2 h3 h4
  refine ⟨(f', net.2), st', t, ⟨rounds, fun fuel hfu => ?_⟩, ⟨list, f, true, hm, h1.trans k1, h2.trans k2, h3.trans k3, h4.trans k4, ?_⟩,
    { o with rep := hS.represents (sB.represents o.rep) }, ?_⟩
  · beta_reduce
    unfold contractNet
    rw [hnames, contract_more _ _ _ _ _ _ _ hfu e]
  · rw [hnames]
    exact life'
  · rw [td]
    constructor
    · exact fun h r hr => h _ (hmem' r hr)
    · intro h q hq
      obtain ⟨r, hr, _, e⟩ := hmem q hq
      rw [← e]
      exact h r hr

end

section
variable [CommSemiring R]

/-- The links of `CTMRGCornerExtendFTN`. -/
def cornerExtendLinks : List (String × String × String × String) :=
  [("c", "u", "pv", "d"), ("c", "r", "ph", "l"), ("pv", "r", "w", "l"), ("ph", "u", "w", "d")]

theorem means_cornerExtend {st : Store} {c ph pv w : Tensor R}
    (hi : c.dimOf st "u" = pv.dimOf st "d") (hj : c.dimOf st "r" = ph.dimOf st "l") (hk : pv.dimOf st "r" = w.dimOf st
    "l") (hm : ph.dimOf st "u" = w.dimOf st "d") :
    NetMeans CTMRGCornerExtendFTN ["c", "ph", "pv", "w"] (cornerExtendLinks.map rawLink) [([.plain "pv-u", .plain "w-u"], "u"), ([.plain "ph-r", .plain "w-r"], "r")] st
      [("c", c, ["u", "r"]), ("ph", ph, ["l", "u", "r"]), ("pv", pv, ["u", "r", "d"]), ("w", w, ["u", "l", "d", "r"])] (cornerExtendArr st c ph pv w) := by
  unfold cornerExtendLinks
  refine means_table
    [("c", c, ["u", "r"]), ("ph", ph, ["l", "u", "r"]), ("pv", pv, ["u", "r", "d"]), ("w", w, ["u", "l", "d", "r"])]
    ["c", "ph", "pv", "w"]
    [("c", ["u", "r"]), ("ph", ["l", "u", "r"]), ("pv", ["u", "r", "d"]), ("w", ["u", "l", "d", "r"])]
    rfl (by decide) (by decide) _
    [("c", "u", "pv", "d"), ("c", "r", "ph", "l"), ("pv", "r", "w", "l"), ("ph", "u", "w", "d")]
    [([.plain "pv-u", .plain "w-u"], "u"), ([.plain "ph-r", .plain "w-r"], "r")]
    []
    ["res-r", "res-u"]
    (links' := [(("c", dashed "c" "u"), ("pv", dashed "pv" "d")), (("c", dashed "c" "r"), ("ph", dashed "ph" "l")), (("pv",
    dashed "pv" "r"), ("w", dashed "w" "l")), (("ph", dashed "ph" "u"), ("w", dashed "w" "d"))])
    (by decide +kernel) rfl
    [[("u", some 0), ("r", some 1)], [("l", some 1), ("u", some 3), ("r", none)], [("u", none), ("r", some 2), ("d",
    some 0)], [("u", none), ("l", some 2), ("d", some 3), ("r", none)]]
    (by decide +kernel) (by decide +kernel) (fun list => ⟨rfl, _, rfl, rfl, rfl, rfl, rfl⟩) (by decide +kernel) ?_ ?_
    (rev := [("ph", "u", "w", "d"), ("pv", "r", "w", "l"), ("c", "r", "ph", "l"), ("c", "u", "pv", "d")]) rfl
    [("ph-r", "ph", "r"), ("pv-u", "pv", "u"), ("w-u", "w", "u"), ("w-r", "w", "r")] (by decide +kernel) ?_ ?_
  network [tags_cornerExtend, hi, hj, hk, hm] [cornerExtendArr_labels] [cornerExtendArr_dim]

/-- The links of `CTMRGEvenZFTN`. -/
def evenZLinks : List (String × String × String × String) :=
  [("alu", "u", "ald", "u"), ("aru", "u", "ard", "u"), ("alu", "r", "aru", "r"), ("ald", "r", "ard", "r")]

theorem means_evenZ {st : Store} {alu ald aru ard : Tensor R}
    (hi : alu.dimOf st "u" = ald.dimOf st "u") (hj : aru.dimOf st "u" = ard.dimOf st "u") (hk : alu.dimOf st "r" =
    aru.dimOf st "r") (hm : ald.dimOf st "r" = ard.dimOf st "r") :
    NetMeans CTMRGEvenZFTN ["alu", "ald", "aru", "ard"] (evenZLinks.map rawLink) [] st
      [("alu", alu, ["u", "r"]), ("ald", ald, ["u", "r"]), ("aru", aru, ["u", "r"]), ("ard", ard, ["u", "r"])] (evenZArr st alu ald aru ard) := by
  unfold evenZLinks
  refine means_table
    [("alu", alu, ["u", "r"]), ("ald", ald, ["u", "r"]), ("aru", aru, ["u", "r"]), ("ard", ard, ["u", "r"])]
    ["alu", "ald", "aru", "ard"]
    [("alu", ["u", "r"]), ("ald", ["u", "r"]), ("aru", ["u", "r"]), ("ard", ["u", "r"])]
    rfl (by decide) (by decide) _
    [("alu", "u", "ald", "u"), ("aru", "u", "ard", "u"), ("alu", "r", "aru", "r"), ("ald", "r", "ard", "r")]
    []
    []
    []
    (links' := [(("alu", dashed "alu" "u"), ("ald", dashed "ald" "u")), (("aru", dashed "aru" "u"), ("ard", dashed "ard" "u")),
    (("alu", dashed "alu" "r"), ("aru", dashed "aru" "r")), (("ald", dashed "ald" "r"), ("ard", dashed "ard" "r"))])
    (by decide +kernel) rfl
    [[("u", some 0), ("r", some 2)], [("u", some 0), ("r", some 3)], [("u", some 1), ("r", some 2)], [("u", some 1),
    ("r", some 3)]]
    (by decide +kernel) (by decide +kernel) (fun list => ⟨rfl, _, rfl, rfl, rfl, rfl, rfl⟩) (by decide +kernel) ?_ ?_
    (rev := [("ald", "r", "ard", "r"), ("alu", "r", "aru", "r"), ("aru", "u", "ard", "u"), ("alu", "u", "ald", "u")]) rfl
    [] (by decide +kernel) ?_ ?_
  network [tags_evenZ, hi, hj, hk, hm] [evenZArr_labels] [evenZArr_dim]

/-- The links of `CTMRGOddFTN`. -/
def oddLinks : List (String × String × String × String) :=
  [("pu", "l", "alu", "r"), ("pu", "r", "aru", "r"), ("pd", "l", "ald", "r"), ("pd", "r", "ard", "r"), ("pl", "u", "alu", "u"), ("pl", "d", "ald", "u"), ("pr", "u", "aru", "u"), ("pr", "d", "ard", "u"), ("pl", "r", "w", "l"), ("pr", "r", "w", "r"), ("pd", "u", "w", "d"), ("pu", "u", "w", "u")]

theorem means_odd {st : Store} {alu ald aru ard pu pd pl pr w : Tensor R}
    (hi : pu.dimOf st "l" = alu.dimOf st "r") (hj : pu.dimOf st "r" = aru.dimOf st "r") (hk : pd.dimOf st "l" =
    ald.dimOf st "r") (hm : pd.dimOf st "r" = ard.dimOf st "r") (hn : pl.dimOf st "u" = alu.dimOf st "u") (ha :
    pl.dimOf st "d" = ald.dimOf st "u") (hb : pr.dimOf st "u" = aru.dimOf st "u") (he : pr.dimOf st "d" = ard.dimOf st
    "u") (hf : pl.dimOf st "r" = w.dimOf st "l") (hg : pr.dimOf st "r" = w.dimOf st "r") (hh : pd.dimOf st "u" =
    w.dimOf st "d") (hq : pu.dimOf st "u" = w.dimOf st "u") :
    NetMeans CTMRGOddFTN ["alu", "ald", "aru", "ard", "pu", "pd", "pl", "pr", "w"] (oddLinks.map rawLink) [] st
      [("alu", alu, ["u", "r"]), ("ald", ald, ["u", "r"]), ("aru", aru, ["u", "r"]), ("ard", ard, ["u", "r"]), ("pu", pu, ["l", "u", "r"]), ("pd", pd, ["l", "u", "r"]), ("pl", pl, ["u", "r", "d"]), ("pr", pr, ["u", "r", "d"]), ("w", w, ["u", "l", "d", "r"])] (oddArr st alu ald aru ard pu pd pl pr w) := by
  unfold oddLinks
  refine means_table
    [("alu", alu, ["u", "r"]), ("ald", ald, ["u", "r"]), ("aru", aru, ["u", "r"]), ("ard", ard, ["u", "r"]), ("pu",
    pu, ["l", "u", "r"]), ("pd", pd, ["l", "u", "r"]), ("pl", pl, ["u", "r", "d"]), ("pr", pr, ["u", "r", "d"]), ("w",
    w, ["u", "l", "d", "r"])]
    ["alu", "ald", "aru", "ard", "pu", "pd", "pl", "pr", "w"]
    [("alu", ["u", "r"]), ("ald", ["u", "r"]), ("aru", ["u", "r"]), ("ard", ["u", "r"]), ("pu", ["l", "u", "r"]),
    ("pd", ["l", "u", "r"]), ("pl", ["u", "r", "d"]), ("pr", ["u", "r", "d"]), ("w", ["u", "l", "d", "r"])]
    rfl (by decide) (by decide) _
    [("pu", "l", "alu", "r"), ("pu", "r", "aru", "r"), ("pd", "l", "ald", "r"), ("pd", "r", "ard", "r"), ("pl", "u",
    "alu", "u"), ("pl", "d", "ald", "u"), ("pr", "u", "aru", "u"), ("pr", "d", "ard", "u"), ("pl", "r", "w", "l"),
    ("pr", "r", "w", "r"), ("pd", "u", "w", "d"), ("pu", "u", "w", "u")]
    []
    []
    []
    (links' := [(("pu", dashed "pu" "l"), ("alu", dashed "alu" "r")), (("pu", dashed "pu" "r"), ("aru", dashed "aru" "r")),
    (("pd", dashed "pd" "l"), ("ald", dashed "ald" "r")), (("pd", dashed "pd" "r"), ("ard", dashed "ard" "r")),
    (("pl", dashed "pl" "u"), ("alu", dashed "alu" "u")), (("pl", dashed "pl" "d"), ("ald", dashed "ald" "u")),
    (("pr", dashed "pr" "u"), ("aru", dashed "aru" "u")), (("pr", dashed "pr" "d"), ("ard", dashed "ard" "u")),
    (("pl", dashed "pl" "r"), ("w", dashed "w" "l")), (("pr", dashed "pr" "r"), ("w", dashed "w" "r")), (("pd", dashed
    "pd" "u"), ("w", dashed "w" "d")), (("pu", dashed "pu" "u"), ("w", dashed "w" "u"))])
    (by decide +kernel) rfl
    [[("u", some 4), ("r", some 0)], [("u", some 5), ("r", some 2)], [("u", some 6), ("r", some 1)], [("u", some 7),
    ("r", some 3)], [("l", some 0), ("u", some 11), ("r", some 1)], [("l", some 2), ("u", some 10), ("r", some 3)],
    [("u", some 4), ("r", some 8), ("d", some 5)], [("u", some 6), ("r", some 9), ("d", some 7)], [("u", some 11),
    ("l", some 8), ("d", some 10), ("r", some 9)]]
    (by decide +kernel) (by decide +kernel) (fun list => ⟨rfl, _, rfl, rfl, rfl, rfl, rfl⟩) (by decide +kernel) ?_ ?_
    (rev := [("pu", "u", "w", "u"), ("pd", "u", "w", "d"), ("pr", "r", "w", "r"), ("pl", "r", "w", "l"), ("pr", "d", "ard",
    "u"), ("pr", "u", "aru", "u"), ("pl", "d", "ald", "u"), ("pl", "u", "alu", "u"), ("pd", "r", "ard", "r"), ("pd",
    "l", "ald", "r"), ("pu", "r", "aru", "r"), ("pu", "l", "alu", "r")]) rfl
    [] (by decide +kernel) ?_ ?_
  network [tags_odd, hi, hj, hk, hm, hn, ha, hb, he, hf, hg, hh, hq] [oddArr_labels] [oddArr_dim]

end

/-! ### The links make one piece -/

theorem linkedAt_symm {links : List ((String × String) × (String × String))} {names : List String} {i j : Nat}
    (h : LinkedAt links names i j) : LinkedAt links names j i := by
  obtain ⟨k, hk, h | h⟩ := h
  · exact ⟨k, hk, Or.inr h⟩
  · exact ⟨k, hk, Or.inl h⟩

theorem linkConnected_of {links : List ((String × String) × (String × String))} {names : List String} (parent : Nat → Nat) (n : Nat)
    (hp : ∀ i < names.length, parent i < names.length ∧ (parent i = i ∨ LinkedAt links names i (parent i)))
    (hr : ∀ i < names.length, parent^[n] i = parent^[n] 0) : LinkConnected links names := by
  have up : ∀ m i, i < names.length → Relation.ReflTransGen (LinkedAt links names) i (parent^[m] i) := by
    intro m
    induction m with
    | zero => exact fun i _ => .refl
    | succ m ih =>
      intro i hi
      rw [Function.iterate_succ_apply]
      rcases (hp i hi).2 with e | e
      · rw [e]
        exact ih i hi
      · exact .head e (ih _ (hp i hi).1)
  have symm : ∀ {i j}, Relation.ReflTransGen (LinkedAt links names) i j → Relation.ReflTransGen (LinkedAt links names) j i :=
    fun h => by
      haveI : Std.Symm (LinkedAt links names) := ⟨fun _ _ h => linkedAt_symm h⟩
      exact Relation.ReflTransGen.symmetric.symm _ _ h
  intro i j hi hj
  refine (up n i hi).trans ?_
  rw [hr i hi, ← hr j hj]
  exact symm (up n j hj)

theorem cornerExtend_connected : LinkConnected (cornerExtendLinks.map rawLink) ["c", "ph", "pv", "w"] := by
  refine linkConnected_of (fun i => [0, 0, 0, 1].getD i 0) 2 ?_ (by decide +kernel)
  unfold LinkedAt
  decide +kernel

theorem evenZ_connected : LinkConnected (evenZLinks.map rawLink) ["alu", "ald", "aru", "ard"] := by
  refine linkConnected_of (fun i => [0, 0, 0, 1].getD i 0) 2 ?_ (by decide +kernel)
  unfold LinkedAt
  decide +kernel

theorem odd_connected : LinkConnected (oddLinks.map rawLink) ["alu", "ald", "aru", "ard", "pu", "pd", "pl", "pr", "w"] := by
  refine linkConnected_of (fun i => [4, 5, 4, 5, 8, 8, 8, 8, 8].getD i 0) 2 ?_ (by decide +kernel)
  unfold LinkedAt
  decide +kernel

/-! ### The networks of `CTMRG` that a corner takes part in -/

section
variable [Field K] [LinearOrder K] [Star K] {p : RGParams K} (hcast : ∀ x, p.cast x = x) {st : Store} (wf : WFStore st)

/-- The corners come first in all three networks. -/
def FirstFour (i : Nat) : Prop := i < 4

include hcast wf in
theorem cornerExtend_settles {net : Net} (hn : MixedNetOf p CTMRGCornerExtendFTN (· = 0) net) {c ph pv w : Tensor K}
    (l0 : AnyLabels st c ["u", "r"]) (dc : c.diag = true) (l1 : HasLabels st ph ["l", "u", "r"]) (l2 : HasLabels st pv ["u", "r", "d"])
    (l3 : HasLabels st w ["u", "l", "d", "r"])
    (hi : c.dimOf st "u" = pv.dimOf st "d") (hj : c.dimOf st "r" = ph.dimOf st "l") (hk : pv.dimOf st "r" = w.dimOf st "l")
    (hm : ph.dimOf st "u" = w.dimOf st "d") :
    ∃ net' st' t, Settles (fun fuel => contractNet p fuel net st [("ph", ph), ("pv", pv), ("w", w), ("c", c)]) (net', st', t) ∧
      MixedNetOf p CTMRGCornerExtendFTN (· = 0) net' ∧ Outcome st st' t (cornerExtendArr st c ph pv w) := by
  obtain ⟨net', st', t, h1, h2, h3, h4⟩ := mixedNet_settles hcast hn wf (means_cornerExtend hi hj hk hm)
    (by simp [l0, l1.any, l2.any, l3.any]) (by simp) (List.Perm.refl _) (by decide) (by decide) cornerExtend_connected
    (Or.inr ⟨("ph", ph, ["l", "u", "r"]), by simp, l1.dense⟩) (by
      intro i
      rcases i with _ | _ | _ | _ | i <;> simp [dc, l1.dense, l2.dense, l3.dense])
    (dict := [("ph", ph), ("pv", pv), ("w", w), ("c", c)]) (by
      have : [("ph", ph), ("pv", pv), ("w", w), ("c", c)].Perm [("c", c), ("ph", ph), ("pv", pv), ("w", w)] :=
        List.perm_append_comm (l₁ := [("ph", ph), ("pv", pv), ("w", w)]) (l₂ := [("c", c)])
      exact this)
  refine ⟨net', st', t, h1, h2, { h3 with dense := ?_ }⟩
  cases hd : t.diag with
  | false => rfl
  | true =>
    have := h4.mp hd ("ph", ph, ["l", "u", "r"]) (by simp)
    rw [l1.dense] at this
    cases this

include hcast wf in
theorem evenZ_settles {net : Net} (hn : MixedNetOf p CTMRGEvenZFTN FirstFour net) {c : Tensor K} (l0 : AnyLabels st c ["u", "r"])
    (dc : c.diag = true) :
    ∃ net' st' t, Settles (fun fuel => contractNet p fuel net st [("alu", c), ("ald", c), ("aru", c), ("ard", c)]) (net', st', t) ∧
      MixedNetOf p CTMRGEvenZFTN FirstFour net' ∧ WFStore st' ∧ LegsUnchanged st st' ∧
      t.single st' = .ok ((evenZArr st c c c c).val fun _ => 0) := by
  obtain ⟨net', st', t, h1, h2, h3, -⟩ := mixedNet_settles hcast hn wf (means_evenZ (alu := c) (ald := c) (aru := c) (ard := c) rfl rfl rfl rfl)
    (by simp [l0]) (by simp) (List.Perm.refl _) (by decide) (by decide) evenZ_connected (Or.inl rfl) (by
      intro i
      unfold FirstFour
      rcases i with _ | _ | _ | _ | i <;> simp [dc])
    (dict := [("alu", c), ("ald", c), ("aru", c), ("ard", c)]) (List.Perm.refl _)
  exact ⟨net', st', t, h1, h2, h3.wf, h3.kept, single_of_represents h3.rep h3.good rfl _⟩

include hcast wf in
theorem odd_settles {net : Net} (hn : MixedNetOf p CTMRGOddFTN FirstFour net) {c h v w : Tensor K} (l0 : AnyLabels st c ["u", "r"])
    (dc : c.diag = true) (l1 : HasLabels st h ["l", "u", "r"]) (l2 : HasLabels st v ["u", "r", "d"]) (l3 : HasLabels st w ["u", "l", "d", "r"])
    (h1 : h.dimOf st "l" = c.dimOf st "r") (h2 : h.dimOf st "r" = c.dimOf st "r") (h3 : v.dimOf st "u" = c.dimOf st "u")
    (h4 : v.dimOf st "d" = c.dimOf st "u") (h5 : v.dimOf st "r" = w.dimOf st "l") (h6 : v.dimOf st "r" = w.dimOf st "r")
    (h7 : h.dimOf st "u" = w.dimOf st "d") (h8 : h.dimOf st "u" = w.dimOf st "u") :
    ∃ net' st' t, Settles (fun fuel => contractNet p fuel net st
        [("alu", c), ("ald", c), ("aru", c), ("ard", c), ("pl", v), ("pr", v), ("pd", h), ("pu", h), ("w", w)]) (net', st', t) ∧
      MixedNetOf p CTMRGOddFTN FirstFour net' ∧ WFStore st' ∧ LegsUnchanged st st' ∧
      t.single st' = .ok ((oddArr st c c c c h h v v w).val fun _ => 0) := by
  obtain ⟨net', st', t, k1, k2, k3, -⟩ := mixedNet_settles hcast hn wf
    (means_odd (alu := c) (ald := c) (aru := c) (ard := c) (pu := h) (pd := h) (pl := v) (pr := v) (w := w) h1 h2 h1 h2 h3 h4 h3 h4 h5 h6 h7 h8)
    (by simp [l0, l1.any, l2.any, l3.any]) (by simp) (List.Perm.refl _) (by decide) (by decide) odd_connected (Or.inl rfl) (by
      intro i
      unfold FirstFour
      rcases i with _ | _ | _ | _ | _ | _ | _ | _ | _ | i <;> simp [dc, l1.dense, l2.dense, l3.dense])
    (dict := [("alu", c), ("ald", c), ("aru", c), ("ard", c), ("pl", v), ("pr", v), ("pd", h), ("pu", h), ("w", w)]) (by
      simp only [List.map_cons, List.map_nil]
      refine .cons _ (.cons _ (.cons _ (.cons _ ?_)))
      have : ∀ a b c d e : String × Tensor K, [a, b, c, d, e].Perm [d, c, a, b, e] := by
        intro a b c d e
        have h1 : [a, b, c, d].Perm [d, c, a, b] :=
          (List.perm_append_comm (l₁ := [a, b]) (l₂ := [c, d])).trans (List.Perm.swap _ _ _)
        exact h1.append_right [e]
      exact this _ _ _ _ _)
  exact ⟨net', st', t, k1, k2, k3.wf, k3.kept, single_of_represents k3.rep k3.good rfl _⟩

end

end CTL
