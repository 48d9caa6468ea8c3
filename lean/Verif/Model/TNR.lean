import Verif.Model.ContractExp
import Verif.Model.Decompose
import Verif.Model.HOTRG
import Verif.Model.Funcs

/-!
Model of parts of `src/CTL/examples/TNR.py`: its four networks, the update of an isometry from its environment, and `doTNR`
up to the start of its iteration.  The updates of `sM` in the iteration are in `TNRStep.lean`, those of `uM` and `yM` in
`TNRDis.lean`; the rule that stops the iteration and the end of `doTNR` are not modelled.
-/

namespace CTL
variable {R : Type}

/-- `TNR.py` 20-29. -/
def createQxAFTN (list : Nat) : Except PyErr (FTN × List String) :=
  FTN.made list ["q", "A"]
    [.addLink "q" "h" "A" "l", .addLink "q" "v" "A" "u", .addPostNameChange "A" "r" "h", .addPostNameChange "A" "d" "v"]

/-- `TNR.py` 31-42. -/
def createCFTN (list : Nat) : Except PyErr (FTN × List String) :=
  FTN.made list ["ul", "ur", "dl", "dr"]
    ([.addLink "ul" "v" "dl" "v", .addLink "ur" "v" "dr" "v", .addLink "ul" "h" "ur" "h", .addLink "dl" "h" "dr" "h"] ++
      ["ul", "ur", "dl", "dr"].map fun name => .addPostNameChange name "o" name)

/-- `TNR.py` 44-53. -/
def createCCFTN (list : Nat) : Except PyErr (FTN × List String) :=
  FTN.made list ["u", "d"]
    [.addLink "u" "dl" "d" "dl", .addLink "u" "dr" "d" "dr", .addPostNameChange "d" "ul" "dl",
     .addPostNameChange "d" "ur" "dr"]

/-- `TNR.py` 58-74. -/
def createSCEnvSFTN (list : Nat) : Except PyErr (FTN × List String) :=
  FTN.made list ["CC", "ql", "qr", "u", "yl", "yr"]
    [.addLink "CC" "dl" "ql" "o", .addLink "CC" "dr" "qr" "o", .addLink "ql" "h" "yl" "h", .addLink "qr" "h" "yr" "h",
     .addLink "ql" "v" "u" "or", .addLink "qr" "v" "u" "ol", .addLink "yl" "v" "u" "ir", .addLink "yr" "v" "u" "il",
     .addPostNameChange "yl" "o" "dl", .addPostNameChange "yr" "o" "dr"]

/-- `TNR.py` 236-240 `TensorUpdateSVD`, for `leftnum ≥ 0`: the environment as a matrix, its decomposition
`full_matrices = False` (the first `min n m` columns and rows of the full one), and the product without the singular
values.  `numpy.prod` of no dimensions is the float 1.0, which `reshape` refuses. -/
def tensorUpdateSVD [NonUnitalNonAssocSemiring R] (la : LinAlg R) (wIn : NDArray R) (leftnum : Nat) : Except PyErr (NDArray R) := do
  let wSh := wIn.shape
  if wSh.take leftnum = [] ∨ wSh.drop leftnum = [] then .error .typeError
  else
    let mat ← wIn.reshape [(wSh.take leftnum).prod, (wSh.drop leftnum).prod]
    let o := la.svd mat
    let k := min (wSh.take leftnum).prod (wSh.drop leftnum).prod
    let prod ← (o.1.takeCols k).matmul (o.2.2.takeRows k)
    prod.reshape wSh

/-- `numpy.trace` of a matrix. -/
def NDArray.mtrace [AddCommMonoid R] (a : NDArray R) : R :=
  ((List.range (min (a.shape.getD 0 0) (a.shape.getD 1 0))).map fun i => a.get [i, i]).sum

/-- `TNR.py` 119-120 `SP1err`, 205-206 `SP3err` and 217-218 `SP4err`, for a trace other than 0:
`abs((exact - trace(q.T @ env @ q)) / exact)`. -/
def spErr [Field R] [LinearOrder R] (env q : NDArray R) : Except PyErr R := do
  let a ← (q.transpose [1, 0]).matmul env
  let b ← a.matmul q
  .ok |(env.mtrace - b.mtrace) / env.mtrace|

/-- What `doTNR` has at hand when its iteration starts, the store its tensors live in included. -/
structure TNRStart (K : Type) where
  st : Store
  aTensor : Tensor K
  qEnv : NDArray K
  qTemp : NDArray K
  qTensor : Tensor K
  sp1err : K
  qATensor : Tensor K
  cTensor : Tensor K
  cdubTensor : Tensor K
  sp2exact : K

/-- `TNR.py` 95-148, the tensors `doTNR` makes before the iteration, for `allchi[0] = chi0 ≥ 0`.  Left out: the start values of
`uM`, `yM` and `sM`.  The search for a sequence that is not finished after `fuel` rounds is reported as a `RuntimeError`. -/
def tnrStart {K : Type} [Field K] [LinearOrder K] [Star K] (p : RGParams K) (fuel : Nat) (st : Store) (A : NDArray K) (chi0 : Nat) :
    Except PyErr (TNRStart K) := do
  let chiHI ← pyGet A.shape 0
  let chiVI ← pyGet A.shape 1
  let (st, a) ← construct p.rand st { data := some A, labels := some ["l", "u", "r", "d"] }
  let net ← EvenblyTNRQEnvFTN 0
  let (_, st, t) ← contractNet p fuel net st (identicalTensorDict a ["uul", "uur", "udl", "udr", "dul", "dur", "ddl", "ddr"])
  let env ← t.toMatrix (some (t.legsOfLabels st ["1"])) (some (t.legsOfLabels st ["2"]))
  let q := (solveEnv p env (min chi0 (chiHI * chiVI))).1
  let (st, qT) ← construct p.rand st
    { data := some q, shape := some (.tuple [chiHI, chiVI, q.shape.getD 1 0]), labels := some ["h", "v", "o"] }
  let sp1 ← spErr env q
  let net ← createQxAFTN 1
  let (_, st, qA) ← contractNet p fuel net st [("A", a), ("q", qT)]
  let net ← createCFTN 2
  let (_, st, c) ← contractNet p fuel net st (identicalTensorDict qA ["ul", "ur", "dl", "dr"])
  let net ← createCCFTN 3
  let (_, st, cc) ← contractNet p fuel net st (identicalTensorDict c ["u", "d"])
  let (st, tr) ← selfTrace p.rand p.cast st c
  let sp2 ← tr.single st
  .ok ⟨st, a, env, q, qT, sp1, qA, c, cc, sp2⟩

end CTL
