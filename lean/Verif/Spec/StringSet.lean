import Verif.Model.StringSet

/-! # Histories of a string set -/

namespace CTL

/-- The calls a client can make. -/
inductive NameOp where
  | newName (wish : Option String)
  | add (t : String)
  | remove (t : String)
  | contains (t : String)
deriving DecidableEq, Repr

/-- What the client observes of one call. -/
inductive NameObs where
  | named (t : String)
  | added (t : String)
  | removed (t : String)
  | answered (t : String) (b : Bool)
  | raised (op : NameOp) (e : PyErr)
deriving DecidableEq, Repr

/-- One call.  A call that raises leaves the objects as they are at that moment. -/
def nameStep (rng : Nat → Char) (fuel : Nat) (st : StringSet × Nat) (op : NameOp) :
    Option ((StringSet × Nat) × NameObs) :=
  match op with
  | .newName w => (st.1.newString rng fuel st.2 w).map fun r => match r with
    | .ok (s, t, pos) => ((s, pos), .named t)
    | .error e => (st, .raised op e)
  | .add t => match st.1.add t with
    | .ok s => some ((s, st.2), .added t)
    | .error e => some (st, .raised op e)
  | .remove t => match st.1.remove t with
    | .ok s => some ((s, st.2), .removed t)
    | .error e => some (st, .raised op e)
  | .contains t => some (st, .answered t (st.1.contains t))

/-- A sequence of calls; the observations come latest first. -/
inductive NameRun (rng : Nat → Char) (fuel : Nat) (n : Int) : StringSet × Nat → List NameObs → Prop
  | start : NameRun rng fuel n (StringSet.new n, 0) []
  | step {st st' : StringSet × Nat} {obs : List NameObs} {op : NameOp} {o : NameObs} :
      NameRun rng fuel n st obs → nameStep rng fuel st op = some (st', o) → NameRun rng fuel n st' (o :: obs)

/-- The name `t` is in use: it was handed out or added, and not removed since (latest observation first). -/
def InUse (t : String) : List NameObs → Prop
  | [] => False
  | .named u :: h => u = t ∨ InUse t h
  | .added u :: h => u = t ∨ InUse t h
  | .removed u :: h => u ≠ t ∧ InUse t h
  | .answered _ _ :: h => InUse t h
  | .raised _ _ :: h => InUse t h

end CTL
