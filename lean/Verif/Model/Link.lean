import Verif.Model.TensorOps

/-!
Model of `src/CTL/tensor/contract/link.py` (`makeLink`, `mergeLink`).

Both change the store as they go, so the store after the call is returned also when the call raises.
-/

namespace CTL
variable {R : Type}

/-- An element of the `legA` / `legB` argument of `makeLink`: a `Leg` object or a label. -/
inductive LegRef
  | leg (l : LegId)
  | label (s : String)
deriving DecidableEq, Repr

/-- `link.py` 7-24 `getLeg`: a label needs a tensor; an unknown label gives `None`. -/
def resolveRef (st : Store) (t : Option (Tensor R)) : LegRef → Except PyErr (Option LegId)
  | .leg l => .ok (some l)
  | .label s =>
    match t with
    | none => .error .assertionError
    | some t => .ok (t.getLeg st s)

/-- `link.py` 55-58, the loop of `makeLink`: `leg1.dim` fails on `None`; equal dimensions are asserted;
`Bond(leg1, leg2)` joins the legs.  Bonds made before a failing pair stay. -/
def linkLoop : Store → List (Option LegId × Option LegId) → Store × Except PyErr (List BondId)
  | st, [] => (st, .ok [])
  | st, (some l, some m) :: ps =>
    if st.dim l = st.dim m then
      match st.newBond l m with
      | .error e => (st, .error e)
      | .ok (st1, b) =>
        match linkLoop st1 ps with
        | (st2, .ok bs) => (st2, .ok (b :: bs))
        | (st2, .error e) => (st2, .error e)
    else (st, .error .assertionError)
  | st, _ :: _ => (st, .error .attributeError)

/-- `link.py` 26-60 `makeLink`, for lists (a single leg or label is wrapped into a list first, 45-48). -/
def makeLink (st : Store) (legA legB : List LegRef) (ta tb : Option (Tensor R)) :
    Store × Except PyErr (List BondId) :=
  match legA.mapM (resolveRef st ta) with
  | .error e => (st, .error e)
  | .ok la =>
    match legB.mapM (resolveRef st tb) with
    | .error e => (st, .error e)
    | .ok lb =>
      if la.length = lb.length then linkLoop st (la.zip lb) else (st, .error .assertionError)

/-- `makeLink` for lists of leg objects. -/
def makeLinkLegs (st : Store) (la lb : List LegId) : Store × Except PyErr (List BondId) :=
  makeLink (R := Unit) st (la.map .leg) (lb.map .leg) none none

/-- `link.py` 81-87: the legs of `ta` whose bond leads to a leg owned by `tb`, with that leg. -/
def mergeLegs (st : Store) (tb : TensorId) : List LegId → Except PyErr (List (LegId × LegId))
  | [] => .ok []
  | l :: ls => do
    match ← st.anotherSide l with
    | none => mergeLegs st tb ls
    | some m =>
      let rest ← mergeLegs st tb ls
      if (st.leg m).tensor = some tb then pure ((l, m) :: rest) else pure rest

/-- The `bondName` argument of `mergeLink`. -/
inductive BondName
  | none
  | one (s : String)
  | two (a b : String)
deriving DecidableEq, Repr

/-- `link.py` 103-112: the names of the two fused legs. -/
def mergeNames (st : Store) (ps : List (LegId × LegId)) : BondName → String × String
  | .none => ("|".intercalate (ps.map fun p => st.name p.1), "|".intercalate (ps.map fun p => st.name p.2))
  | .one s => (s, s)
  | .two a b => (a, b)

/-- `link.py` 62-120 `mergeLink` for two different tensor objects.  Simplification: with exactly one bond
and a pair as `bondName`, Python stores the pair itself as the name of both legs; names are strings here,
so this case leaves the names alone. -/
def mergeLink [Zero R] (st : Store) (ta tb : Tensor R) (bondName : BondName) :
    Store × Tensor R × Tensor R × Except PyErr Unit :=
  match mergeLegs st tb.id ta.legs with
  | .error e => (st, ta, tb, .error e)
  | .ok [] => (st, ta, tb, .ok ())
  | .ok [(l, m)] =>
    match bondName with
    | .one s => ((st.rename l s).rename m s, ta, tb, .ok ())
    | _ => (st, ta, tb, .ok ())
  | .ok ps =>
    let names := mergeNames st ps bondName
    match ta.outProduct st (ps.map Prod.fst) names.1 with
    | (st1, ta1, .error e) => (st1, ta1, tb, .error e)
    | (st1, ta1, .ok na) =>
      match tb.outProduct st1 (ps.map Prod.snd) names.2 with
      | (st2, tb1, .error e) => (st2, ta1, tb1, .error e)
      | (st2, tb1, .ok nb) =>
        match makeLinkLegs st2 [na] [nb] with
        | (st3, .ok _) => (st3, ta1, tb1, .ok ())
        | (st3, .error e) => (st3, ta1, tb1, .error e)

end CTL
