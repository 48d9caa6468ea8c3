import Verif.Model.FTN

/-!
Model of `src/CTL/tensor/contract/contractExp.py`: the ready-made finite tensor networks and traces.

The list object a network stores as its names is new in every call; its identity is the argument `list`.
-/

namespace CTL
variable {R : Type}

/-- A sequence of method calls; the first exception ends it. -/
def FTN.runOps : List NetOp → FTN → List String → Except PyErr (FTN × List String)
  | [], f, names => .ok (f, names)
  | op :: ops, f, names =>
    match f.apply names op with
    | (names', f', none) => FTN.runOps ops f' names'
    | (_, _, some e) => .error e

/-- `FTN = FiniteTensorNetwork(tensorNames = names)` and then method calls: the network and the contents of its list. -/
def FTN.made (list : Nat) (names : List String) (ops : List NetOp) : Except PyErr (FTN × List String) :=
  FTN.runOps ops (FTN.new list) names

/-- `contractExp.py` 9-23. -/
def makeTriangleTensorDict (a : Tensor R) : List (String × Tensor R) := [("u", a), ("l", a), ("r", a)]

/-- `contractExp.py` 25-43. -/
def makeSquareTensorDict (a : Tensor R) (b : Option (Tensor R)) : List (String × Tensor R) :=
  let b := b.getD a
  [("ul", a), ("ur", b), ("dr", a), ("dl", b)]

/-- `contractExp.py` 45-64. -/
def triangleContractFTN (list : Nat) : Except PyErr (FTN × List String) :=
  FTN.made list ["u", "l", "r"]
    [.addLink "u" "2" "l" "3", .addLink "u" "3" "r" "2", .addLink "l" "2" "r" "3",
     .addPostNameChange "u" "1" "1", .addPostNameChange "l" "1" "2", .addPostNameChange "r" "1" "3"]

/-- `contractExp.py` 66-87. -/
def squareContractFTN (list : Nat) : Except PyErr (FTN × List String) :=
  FTN.made list ["ul", "ur", "dr", "dl"]
    [.addLink "ul" "d" "dl" "u", .addLink "ul" "r" "ur" "l", .addLink "ur" "d" "dr" "u", .addLink "dl" "r" "dr" "l",
     .addPostOutProduct [.plain "ul-u", .plain "ur-u"] "u", .addPostOutProduct [.plain "ul-l", .plain "dl-l"] "l",
     .addPostOutProduct [.plain "dl-d", .plain "dr-d"] "d", .addPostOutProduct [.plain "ur-r", .plain "dr-r"] "r"]

/-- `contractExp.py` 89-111. -/
def squareContractOutFTN (list : Nat) : Except PyErr (FTN × List String) :=
  FTN.made list ["ul", "ur", "dr", "dl"]
    [.addLink "ul" "d" "dl" "u", .addLink "ul" "r" "ur" "l", .addLink "ur" "d" "dr" "u", .addLink "dl" "r" "dr" "l",
     .addPostNameChange "ul" "o" "u", .addPostNameChange "ur" "o" "r", .addPostNameChange "dl" "o" "l",
     .addPostNameChange "dr" "o" "d"]

/-- `contractExp.py` 113-125. -/
def CTMRGHEdgeExtendFTN (list : Nat) : Except PyErr (FTN × List String) :=
  FTN.made list ["p", "w"]
    [.addLink "p" "u" "w" "d",
     .addPostOutProduct [.plain "p-l", .plain "w-l"] "l", .addPostOutProduct [.plain "p-r", .plain "w-r"] "r"]

/-- `contractExp.py` 127-139. -/
def CTMRGVEdgeExtendFTN (list : Nat) : Except PyErr (FTN × List String) :=
  FTN.made list ["p", "w"]
    [.addLink "p" "r" "w" "l",
     .addPostOutProduct [.plain "p-u", .plain "w-u"] "u", .addPostOutProduct [.plain "p-d", .plain "w-d"] "d"]

/-- `contractExp.py` 141-152. -/
def CTMRGCornerExtendFTN (list : Nat) : Except PyErr (FTN × List String) :=
  FTN.made list ["c", "ph", "pv", "w"]
    [.addLink "c" "u" "pv" "d", .addLink "c" "r" "ph" "l", .addLink "pv" "r" "w" "l", .addLink "ph" "u" "w" "d",
     .addPostOutProduct [.plain "pv-u", .plain "w-u"] "u", .addPostOutProduct [.plain "ph-r", .plain "w-r"] "r"]

/-- `contractExp.py` 154-161. -/
def CTMRGHEdgeBuildFTN (list : Nat) : Except PyErr (FTN × List String) :=
  FTN.made list ["p", "al", "ar"]
    [.addLink "al" "r" "p" "l", .addLink "ar" "r" "p" "r", .addPostNameChange "ar" "l" "r"]

/-- `contractExp.py` 163-170. -/
def CTMRGVEdgeBuildFTN (list : Nat) : Except PyErr (FTN × List String) :=
  FTN.made list ["p", "au", "ad"]
    [.addLink "ad" "u" "p" "d", .addLink "au" "u" "p" "u", .addPostNameChange "au" "d" "u"]

/-- `contractExp.py` 172-179. -/
def CTMRGEvenZFTN (list : Nat) : Except PyErr (FTN × List String) :=
  FTN.made list ["alu", "ald", "aru", "ard"]
    [.addLink "alu" "u" "ald" "u", .addLink "aru" "u" "ard" "u", .addLink "alu" "r" "aru" "r", .addLink "ald" "r" "ard" "r"]

/-- `contractExp.py` 181-199. -/
def CTMRGOddFTN (list : Nat) : Except PyErr (FTN × List String) :=
  FTN.made list ["alu", "ald", "aru", "ard", "pu", "pd", "pl", "pr", "w"]
    [.addLink "pu" "l" "alu" "r", .addLink "pu" "r" "aru" "r", .addLink "pd" "l" "ald" "r", .addLink "pd" "r" "ard" "r",
     .addLink "pl" "u" "alu" "u", .addLink "pl" "d" "ald" "u", .addLink "pr" "u" "aru" "u", .addLink "pr" "d" "ard" "u",
     .addLink "pl" "r" "w" "l", .addLink "pr" "r" "w" "r", .addLink "pd" "u" "w" "d", .addLink "pu" "u" "w" "u"]

/-- `contractExp.py` 220-221: the body of the loop over labels, which collects the bonds. -/
def linkLabel (ta tb : Tensor R) (s : Store × List BondId) (label : String) : Except PyErr (Store × List BondId) :=
  match makeLink s.1 [.label label] [.label label] (some ta) (some tb) with
  | (st, .ok bs) => .ok (st, s.2 ++ bs)
  | (_, .error e) => .error e

/-- `contractExp.py` 201-224 `triangleTensorTrace`. -/
def triangleTensorTrace [NonUnitalNonAssocSemiring R] [One R] (rand : List Nat → List Nat → R) (cast : R → R) (st : Store)
    (a b : Tensor R) : Except PyErr (Store × Tensor R) := do
  let (st1, ta) ← a.copy rand st
  let (st2, tb) ← b.copy rand st1
  let (st3, bonds) ← ["1", "2", "3"].foldlM (linkLabel ta tb) (st2, [])
  let o ← contractTwoTensors cast st3 ta tb (some bonds)
  pure (o.store, o.result)

/-- `contractExp.py` 226-242; `d` is one character or the assertion fails. -/
def squareHorizontalContractFTN (list : Nat) (d : String) : Except PyErr (FTN × List String) := do
  if d ≠ "l" ∧ d ≠ "r" then throw .assertionError
  let opd := if d = "l" then "r" else "l"
  FTN.made list ["ul", "ur", "dr", "dl"]
    [.addLink "ul" "d" "dl" "u", .addLink "ul" opd "ur" opd, .addLink "ur" "d" "dr" "u", .addLink "dl" opd "dr" opd,
     .addLink "ul" "u" "ur" "u", .addLink "dl" "d" "dr" "d",
     .addPostOutProduct [.plain (dashed ("u" ++ d) d), .plain (dashed ("d" ++ d) d)] d,
     .addPostOutProduct [.plain (dashed ("u" ++ opd) d), .plain (dashed ("d" ++ opd) d)] opd]

/-- `contractExp.py` 244-259. -/
def squareVerticalContractFTN (list : Nat) (d : String) : Except PyErr (FTN × List String) := do
  if d ≠ "u" ∧ d ≠ "d" then throw .assertionError
  let opd := if d = "u" then "d" else "u"
  FTN.made list ["ul", "ur", "dr", "dl"]
    [.addLink "ul" opd "dl" opd, .addLink "ul" "r" "ur" "l", .addLink "ur" opd "dr" opd, .addLink "dl" "r" "dr" "l",
     .addLink "ul" "l" "dl" "l", .addLink "ur" "r" "dr" "r",
     .addPostOutProduct [.plain (dashed (d ++ "l") d), .plain (dashed (d ++ "r") d)] d,
     .addPostOutProduct [.plain (dashed (opd ++ "l") d), .plain (dashed (opd ++ "r") d)] opd]

/-- `contractExp.py` 261-273. -/
def HOTRGHorizontalContractFTN (list : Nat) : Except PyErr (FTN × List String) :=
  FTN.made list ["u", "d", "l", "r"]
    [.addLink "u" "l" "l" "u", .addLink "u" "r" "r" "u", .addLink "d" "l" "l" "d", .addLink "d" "r" "r" "d",
     .addLink "u" "d" "d" "u", .addPostNameChange "l" "o" "l", .addPostNameChange "r" "o" "r"]

/-- `contractExp.py` 275-287. -/
def HOTRGVerticalContractFTN (list : Nat) : Except PyErr (FTN × List String) :=
  FTN.made list ["u", "d", "l", "r"]
    [.addLink "u" "l" "l" "u", .addLink "u" "r" "r" "u", .addLink "d" "l" "l" "d", .addLink "d" "r" "r" "d",
     .addLink "l" "r" "r" "l", .addPostNameChange "u" "o" "u", .addPostNameChange "d" "o" "d"]

/-- `contractExp.py` 289-290 `squareTrace`. -/
def squareTrace [NonUnitalNonAssocSemiring R] (st : Store) (a : Tensor R) : Except PyErr R :=
  a.trace (some (a.legsOfLabels st ["u", "l"])) (some (a.legsOfLabels st ["d", "r"]))

/-- `contractExp.py` 292-315. -/
def EvenblyTNRQEnvFTN (list : Nat) : Except PyErr (FTN × List String) :=
  FTN.made list ["uul", "uur", "udl", "udr", "dul", "dur", "ddl", "ddr"]
    [.addLink "udl" "r" "dul" "r", .addLink "udl" "d" "dul" "d", .addLink "udr" "r" "dur" "r", .addLink "udr" "d" "dur" "d",
     .addLink "udl" "l" "udr" "l", .addLink "dul" "l" "dur" "l", .addLink "uur" "l" "ddr" "l", .addLink "uur" "u" "ddr" "u",
     .addLink "udr" "u" "uur" "d", .addLink "dur" "u" "ddr" "d", .addLink "uul" "r" "uur" "r", .addLink "uul" "d" "udl" "u",
     .addLink "ddl" "r" "ddr" "r", .addLink "ddl" "d" "dul" "u",
     .addPostOutProduct [.plain "uul-l", .plain "uul-u"] "1", .addPostOutProduct [.plain "ddl-l", .plain "ddl-u"] "2"]

/-- `tensor.py` 686-695 `copyN`. -/
def Tensor.copyN [Zero R] [One R] (rand : List Nat → List Nat → R) (t : Tensor R) : Nat → Store → Except PyErr (Store × List (Tensor R))
  | 0, st => .ok (st, [])
  | n + 1, st => do
    let (st1, c) ← t.copy rand st
    let (st2, cs) ← t.copyN rand n st1
    pure (st2, c :: cs)

/-- `contractExp.py` 317-322 `selfTrace`. -/
def selfTrace [NonUnitalNonAssocSemiring R] [One R] (rand : List Nat → List Nat → R) (cast : R → R) (st : Store)
    (t : Tensor R) : Except PyErr (Store × Tensor R) := do
  match ← t.copyN rand 2 st with
  | (st1, [a, b]) =>
    let st2 ← (a.legs.zip b.legs).foldlM (fun s p => linkOr (makeLinkLegs s [p.1] [p.2])) st1
    let o ← contractTwoTensors cast st2 a b none
    pure (o.store, o.result)
  | _ => throw .valueError

end CTL
