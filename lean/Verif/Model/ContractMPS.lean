import Verif.Model.CreateMPS
import Verif.Model.Copy

/-!
Model of the contraction of a network by matrix product states in `src/CTL/examples/MPS.py` (325-485, 546-580).

A tensor object is known by its identity; `tensor in self._tensors` compares objects, because tensors define no `__eq__`.
-/

namespace CTL
variable {R : Type}

namespace MPS

/-- `MPS.py` 246-247 `hasTensor` for what a leg says about its tensor (`None` is in no chain). -/
def hasTensor (m : MPS R) (id : Option TensorId) : Bool := m.tensors.any fun t => id == some t.id

/-- `MPS.py` 249-250 `tensorIndex`. -/
def tensorIndex (m : MPS R) (id : Option TensorId) : Except PyErr Nat :=
  match m.tensors.findIdx? fun t => id == some t.id with
  | some i => .ok i
  | none => .error .valueError

end MPS

/-- The tensor at the other end of the leg `o` of a site, and the bond: the body of the loops `MPS.py` 329-333 and
344-349.  `None.bond` is an AttributeError. -/
def acrossO (st : Store) (t : Tensor R) : Except PyErr (Option (BondId × Option TensorId)) :=
  match t.getLeg st "o" with
  | none => .error .attributeError
  | some l =>
    match (st.leg l).bond with
    | none => .ok none
    | some b => do
      let m ← st.bondAnotherSide b l
      pure (some (b, (st.leg m).tensor))

/-- `MPS.py` 325-338 `commonLegs`, from position `i` on; the two lists are returned as a list of pairs. -/
def commonLegs (st : Store) (b : MPS R) : Nat → List (Tensor R) → Except PyErr (List (Nat × Nat))
  | _, [] => .ok []
  | i, t :: ts => do
    match ← acrossO st t with
    | none => commonLegs st b (i + 1) ts
    | some (_, id) =>
      if b.hasTensor id then
        let j ← b.tensorIndex id
        let rest ← commonLegs st b (i + 1) ts
        pure ((i, j) :: rest)
      else commonLegs st b (i + 1) ts

/-- `MPS.py` 340-350 `commonBonds`. -/
def commonBonds (st : Store) (b : MPS R) : List (Tensor R) → Except PyErr (List BondId)
  | [] => .ok []
  | t :: ts => do
    match ← acrossO st t with
    | none => commonBonds st b ts
    | some (c, id) =>
      let rest ← commonBonds st b ts
      pure (if b.hasTensor id then c :: rest else rest)

/-- One element of the list `mpses`. -/
inductive Slot (R : Type) where
  | mps (m : MPS R)
  | tensor (t : Tensor R)
  | gone

/-- `MPS.py` 352-406 `contractMPS`.  The chains are only used further through the result.  Simplification: the warning
for different `chi` is not modelled.  `mpsA.getTensor(-2)` is the site before the last one. -/
def contractMPS [NonUnitalNonAssocSemiring R] (la : LinAlg R) (cast castF : R → R) (st : Store) (a b : MPS R) :
    Except PyErr (Store × Slot R) := do
  match ← commonLegs st b 0 a.tensors with
  | [(i, j)] =>
    let (st1, a1) ← a.moveTensor la cast castF st i ((a.tensors.length : Int) - 1)
    let (st2, b1) ← b.moveTensor la cast castF st1 j 0
    match a1.tensors.getLast?, b1.tensors.head? with
    | some ta, some tb =>
      let o ← contractTwoTensors cast st2 ta tb none
      if o.result.legs.length = 0 then pure (o.store, .tensor o.result)
      else if a1.tensors.length > 1 then
        match a1.tensors[a1.tensors.length - 2]? with
        | some tc =>
          let o2 ← contractTwoTensors cast o.store tc o.result none
          let (st3, m) ← MPS.new o2.store (a1.tensors.take (a1.tensors.length - 2) ++ [o2.result] ++ b1.tensors.drop 1)
            (some (min a1.chi b1.chi))
          pure (st3, .mps m)
        | none => throw .indexError
      else
        match b1.tensors[1]? with
        | some tc =>
          let o2 ← contractTwoTensors cast o.store o.result tc none
          let (st3, m) ← MPS.new o2.store (a1.tensors.dropLast ++ [o2.result] ++ b1.tensors.drop 2)
            (some (min a1.chi b1.chi))
          pure (st3, .mps m)
        | none => throw .indexError
    | _, _ => throw .indexError
  | _ => throw .assertionError

/-- `MPS.py` 408-429 `doubleMerge`. -/
def doubleMerge [NonUnitalNonAssocSemiring R] (la : LinAlg R) (cast castF : R → R) (st : Store) (a b : MPS R)
    (i j : Nat) : Except PyErr (Store × MPS R × MPS R × BondId) := do
  match a.tensors[i]?, a.tensors[i + 1]?, b.tensors[j]?, b.tensors[j + 1]? with
  | some a0, some a1, some b0, some b1 =>
    let oa ← contractTwoTensors cast st a0 a1 none
    let ob ← contractTwoTensors cast oa.store b0 b1 none
    let (st1, ta, tb) ← merge la castF ob.store oa.result ob.result none (.one "o")
    let am ← a.mergeTensor i ta
    let bm ← b.mergeTensor j tb
    let (st2, ac) ← am.canonicalize la cast castF st1 i
    let (st3, bc) ← bm.canonicalize la cast castF st2 j
    match ac.tensors[i]?, bc.tensors[j]? with
    | some ta, some tb =>
      let (st4, ta, tb) ← merge la castF st3 ta tb (some (min ac.chi bc.chi)) (.one "o")
      let as ← ac.setTensor i ta
      let bs ← bc.setTensor j tb
      let (st5, sb) ← shareBonds st4 ta tb
      match sb with
      | [c] => pure (st5, as, bs, c)
      | _ => throw .assertionError
    | _, _ => throw .indexError
  | _, _, _, _ => throw .indexError

/-- `MPS.py` 431-441 `getBondTensorIndices`. -/
def getBondTensorIndices (st : Store) (a b : MPS R) (c : BondId) : Except PyErr (Nat × Nat) := do
  let t1 := (st.leg (st.bond c).1).tensor
  let t2 := (st.leg (st.bond c).2).tensor
  let p := if a.hasTensor t1 then (t1, t2) else (t2, t1)
  pyAssert (a.hasTensor p.1)
  pyAssert (b.hasTensor p.2)
  let i ← a.tensorIndex p.1
  let j ← b.tensorIndex p.2
  pure (i, j)

/-- `MPS.py` 443-455 `doubleMergeByBond`. -/
def doubleMergeByBond [NonUnitalNonAssocSemiring R] (la : LinAlg R) (cast castF : R → R) (st : Store) (a b : MPS R)
    (c1 c2 : BondId) : Except PyErr (Store × MPS R × MPS R × BondId) := do
  let (i1, j1) ← getBondTensorIndices st a b c1
  let (i2, j2) ← getBondTensorIndices st a b c2
  let (st1, a1, i, i') ← a.makeAdjacent la cast castF st i1 i2
  let (st2, b1, j, j') ← b.makeAdjacent la cast castF st1 j1 j2
  pyAssert (decide (i + 1 = i') && decide (j + 1 = j'))
  doubleMerge la cast castF st2 a1 b1 i.toNat j.toNat

/-- `MPS.py` 480-483: the loop of `mergeMPS`. -/
def mergeLoop [NonUnitalNonAssocSemiring R] (la : LinAlg R) (cast castF : R → R) :
    Store → MPS R → MPS R → List BondId → Except PyErr (Store × MPS R × MPS R)
  | st, a, b, c1 :: c2 :: cs => do
    let (st1, a1, b1, c) ← doubleMergeByBond la cast castF st a b c1 c2
    mergeLoop la cast castF st1 a1 b1 (c :: cs)
  | st, a, b, _ => .ok (st, a, b)
termination_by _ _ _ cs => cs.length

/-- `MPS.py` 457-485 `mergeMPS`. -/
def mergeMPS [NonUnitalNonAssocSemiring R] (la : LinAlg R) (cast castF : R → R) (st : Store) (a b : MPS R)
    (beginFlag : Bool) : Except PyErr (Store × MPS R × MPS R) := do
  let cs ← commonBonds st b a.tensors
  if cs.length ≤ 1 then pure (st, a, b)
  else
    pyAssert (beginFlag || decide (cs.length = 2))
    mergeLoop la cast castF st a b cs

/-- No leg `o` of the sites is bonded (and every site has one). -/
def unbonded (st : Store) (ts : List (Tensor R)) : Bool :=
  ts.all fun t =>
    match t.getLeg st "o" with
    | some l => (st.leg l).bond.isNone
    | none => false

/-- `mergeMPS(mpses[i], mpses[j], beginFlag)`, `MPS.py` 560-561 and 570-571.  A tensor in the place of the first chain has no
`_tensors`; in the place of the second one it has no `hasTensor`, but that is only looked up if the first chain has a
bonded leg `o` (`commonBonds` 344-348). -/
def mergeSlots [NonUnitalNonAssocSemiring R] (la : LinAlg R) (cast castF : R → R) (beginFlag : Bool)
    (s : Store × List (Slot R)) (p : Nat × Nat) : Except PyErr (Store × List (Slot R)) :=
  match s.2[p.1]?, s.2[p.2]? with
  | some (.mps a), some (.mps b) => do
    let (st1, a1, b1) ← mergeMPS la cast castF s.1 a b beginFlag
    pure (st1, (s.2.set p.1 (.mps a1)).set p.2 (.mps b1))
  | some (.mps a), some _ => if unbonded s.1 a.tensors then .ok s else .error .attributeError
  | some _, some _ => .error .attributeError
  | _, _ => .error .indexError

/-- `mpses[i] is not None`. -/
def Slot.present : Slot R → Bool
  | .gone => false
  | _ => true

/-- The body of the loop over the sequence, `MPS.py` 563-571.  `contractMPS` on a chain and something that is not a chain
looks up `hasTensor` if the chain has a bonded leg `o`, and finds no common leg otherwise. -/
def contractSlots [NonUnitalNonAssocSemiring R] (la : LinAlg R) (cast castF : R → R) (s : Store × List (Slot R))
    (p : Nat × Nat) : Except PyErr (Store × List (Slot R)) :=
  match s.2[p.1]?, s.2[p.2]? with
  | some (.mps a), some (.mps b) => do
    let (st1, c) ← contractMPS la cast castF s.1 a b
    let ms := (s.2.set (min p.1 p.2) c).set (max p.1 p.2) .gone
    (((List.range ms.length).filter fun i => i ≠ min p.1 p.2 && (ms.getD i .gone).present).map fun i =>
      (min p.1 p.2, i)).foldlM (mergeSlots la cast castF false) (st1, ms)
  | some (.mps a), some _ => .error (if unbonded s.1 a.tensors then .assertionError else .attributeError)
  | some _, some _ => .error .attributeError
  | _, _ => .error .indexError

/-- `MPS.py` 556: the chains of all tensors. -/
def createAll [NonUnitalNonAssocSemiring R] (la : LinAlg R) (castF : R → R) (chi : Nat) :
    Store → List (Tensor R) → Except PyErr (Store × List (Slot R))
  | st, [] => .ok (st, [])
  | st, t :: ts => do
    let (st1, m) ← createMPS la castF st t (some chi)
    let (st2, ms) ← createAll la castF chi st1 ts
    pure (st2, .mps m :: ms)

/-- The pairs `i < j < n` in the order of `MPS.py` 559-561. -/
def pairsBelow (n : Nat) : List (Nat × Nat) :=
  (List.range n).flatMap fun i => (List.range' (i + 1) (n - (i + 1))).map fun j => (i, j)

/-- `MPS.py` 546-575 `contractWithMPS` up to the final `toTensor`, with a given sequence. -/
def runMPS [NonUnitalNonAssocSemiring R] (la : LinAlg R) (cast castF : R → R) (chi : Nat) (st : Store)
    (ts : List (Tensor R)) (seq : List (Nat × Nat)) : Except PyErr (Store × List (Slot R)) := do
  let s0 ← createAll la castF chi st ts
  let s1 ← (pairsBelow ts.length).foldlM (mergeSlots la cast castF true) s0
  seq.foldlM (contractSlots la cast castF) s1

/-- `MPS.py` 546-580 `contractWithMPS` with a given sequence; `order` gives the contraction sequence that
`contractWithSequence` (253-254) finds for the last chain (C06). -/
def contractWithMPS [CommSemiring R] (la : LinAlg R) (rand : List Nat → List Nat → R) (cast castF : R → R)
    (order : Store → List (Tensor R) → List (Nat × Nat)) (chi : Nat) (st : Store) (ts : List (Tensor R))
    (seq : List (Nat × Nat)) : Except PyErr (Store × Tensor R) := do
  let (st1, ms) ← runMPS la cast castF chi st ts seq
  match ms with
  | .mps m :: _ =>
    let (st2, t, _) ← contractCopied rand cast st1 m.tensors (order st1 m.tensors)
    pure (st2, t)
  | .tensor t :: _ => pure (st1, t)
  | _ => throw .indexError

end CTL
