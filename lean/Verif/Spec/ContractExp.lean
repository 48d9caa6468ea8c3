import Verif.Model.ContractExp
import Verif.Spec.FTN
import Mathlib.Algebra.BigOperators.Group.Finset.Basic

/-!
# The contractions that the ready-made networks stand for

Each is an explicit sum of products of entries, with the axes of the tensors known by their labels.
-/

namespace CTL
variable {R : Type}

open Finset (range)

/-- The index the list gives to a label. -/
def indexAt : List (String × Nat) → String → Nat
  | [], _ => 0
  | (x, i) :: xs, z => if z = x then i else indexAt xs z

/-- The entry of a tensor at an index for each label. -/
def Tensor.at [Zero R] (t : Tensor R) (st : Store) (xs : List (String × Nat)) : R :=
  entry t fun l => indexAt xs (st.name l)

/-- The dimension of the axis with a label. -/
def Tensor.dimOf (t : Tensor R) (st : Store) (x : String) : Nat :=
  ((t.legs.find? fun l => st.name l == x).map st.dim).getD 0

/-- A dense tensor whose legs have the given labels, in any order, and no dimension 0. -/
structure HasLabels (st : Store) (t : Tensor R) (labels : List String) : Prop where
  good : GoodTensor st t
  dense : t.diag = false
  known : ∀ l ∈ t.legs, l < st.nextLeg
  pos : ∀ l ∈ t.legs, st.dim l ≠ 0
  labels : (t.legs.map st.name).Perm labels

/-- A network after earlier calls of `contract`, with any arguments and any outcome. -/
def FTN.after [CommSemiring R] (rand : List Nat → List Nat → R) (cast : R → R) (names : List String) (f : FTN)
    (calls : List (Store × List (String × Tensor R) × Bool × Nat)) : FTN :=
  calls.foldl (fun g c => (g.contract rand cast names c.1 c.2.1 c.2.2.1 c.2.2.2).1) f

/-- The network returned by `make` contracts the tensors `inputs`, given in a dictionary in any order, to the array `A`:
also after any earlier contractions with whatever tensors.  The inputs are not changed. -/
def Computes [CommSemiring R] (rand : List Nat → List Nat → R) (cast : R → R)
    (make : Nat → Except PyErr (FTN × List String)) (st : Store) (inputs : List (String × Tensor R)) (A : LArr R) : Prop :=
  ∀ list, ∃ f names, make list = .ok (f, names) ∧ ∀ calls (dict : List (String × Tensor R)), dict.Perm inputs →
    ∃ rounds, ∀ fuel, rounds ≤ fuel → ∃ f' st' t,
      (f.after rand cast names calls).contract rand cast names st dict true fuel = (f', some (.ok (st', t))) ∧
      Outcome st st' t A

/-- The network returned by `make` contracts the tensors to a tensor on which `single` returns `value`. -/
def ComputesNumber [CommSemiring R] (rand : List Nat → List Nat → R) (cast : R → R)
    (make : Nat → Except PyErr (FTN × List String)) (st : Store) (inputs : List (String × Tensor R)) (value : R) : Prop :=
  ∀ list, ∃ f names, make list = .ok (f, names) ∧ ∀ calls (dict : List (String × Tensor R)), dict.Perm inputs →
    ∃ rounds, ∀ fuel, rounds ≤ fuel → ∃ f' st' t,
      (f.after rand cast names calls).contract rand cast names st dict true fuel = (f', some (.ok (st', t))) ∧
      t.single st' = .ok value ∧ InputsKept st st'

/-- Three corners of a triangle; the leg `1` of each corner points outwards. -/
def triangleArr [CommSemiring R] (st : Store) (u l r : Tensor R) : LArr R where
  labels := ["1", "2", "3"]
  dim := fun z =>
    if z = "1" then u.dimOf st "1"
    else if z = "2" then l.dimOf st "1"
    else r.dimOf st "1"
  val := fun τ =>
    ∑ k ∈ range (l.dimOf st "2"), ∑ j ∈ range (u.dimOf st "3"), ∑ i ∈ range (u.dimOf st "2"),
      u.at st [("1", τ "1"), ("2", i), ("3", j)] * l.at st [("1", τ "2"), ("2", k), ("3", i)] *
      r.at st [("1", τ "3"), ("2", j), ("3", k)]

/-- A block of 2 x 2 tensors; the two legs of each side become one, the left or upper one being the more significant. -/
def squareArr [CommSemiring R] (st : Store) (ul ur dr dl : Tensor R) : LArr R where
  labels := ["u", "l", "d", "r"]
  dim := fun z =>
    if z = "u" then ul.dimOf st "u" * ur.dimOf st "u"
    else if z = "l" then ul.dimOf st "l" * dl.dimOf st "l"
    else if z = "d" then dl.dimOf st "d" * dr.dimOf st "d"
    else ur.dimOf st "r" * dr.dimOf st "r"
  val := fun τ =>
    ∑ m ∈ range (dl.dimOf st "r"), ∑ k ∈ range (ur.dimOf st "d"), ∑ j ∈ range (ul.dimOf st "r"),
    ∑ i ∈ range (ul.dimOf st "d"),
      ul.at st [("u", τ "u" / ur.dimOf st "u"), ("l", τ "l" / dl.dimOf st "l"), ("d", i), ("r", j)] *
      ur.at st [("u", τ "u" % ur.dimOf st "u"), ("l", j), ("d", k), ("r", τ "r" / dr.dimOf st "r")] *
      dr.at st [("u", k), ("l", m), ("d", τ "d" % dr.dimOf st "d"), ("r", τ "r" % dr.dimOf st "r")] *
      dl.at st [("u", i), ("l", τ "l" % dl.dimOf st "l"), ("d", τ "d" / dr.dimOf st "d"), ("r", m)]

/-- Four corners of a square, each with one leg `o` that points outwards. -/
def squareOutArr [CommSemiring R] (st : Store) (ul ur dr dl : Tensor R) : LArr R where
  labels := ["u", "r", "d", "l"]
  dim := fun z =>
    if z = "u" then ul.dimOf st "o"
    else if z = "r" then ur.dimOf st "o"
    else if z = "d" then dr.dimOf st "o"
    else dl.dimOf st "o"
  val := fun τ =>
    ∑ m ∈ range (dl.dimOf st "r"), ∑ k ∈ range (ur.dimOf st "d"), ∑ j ∈ range (ul.dimOf st "r"),
    ∑ i ∈ range (ul.dimOf st "d"),
      ul.at st [("d", i), ("r", j), ("o", τ "u")] * ur.at st [("d", k), ("l", j), ("o", τ "r")] *
      dr.at st [("u", k), ("l", m), ("o", τ "d")] * dl.at st [("u", i), ("r", m), ("o", τ "l")]

/-- A horizontal edge with a site above it. -/
def hEdgeExtendArr [CommSemiring R] (st : Store) (p w : Tensor R) : LArr R where
  labels := ["l", "r", "u"]
  dim := fun z =>
    if z = "l" then p.dimOf st "l" * w.dimOf st "l"
    else if z = "r" then p.dimOf st "r" * w.dimOf st "r"
    else w.dimOf st "u"
  val := fun τ =>
    ∑ i ∈ range (p.dimOf st "u"),
      p.at st [("l", τ "l" / w.dimOf st "l"), ("u", i), ("r", τ "r" / w.dimOf st "r")] *
      w.at st [("u", τ "u"), ("l", τ "l" % w.dimOf st "l"), ("d", i), ("r", τ "r" % w.dimOf st "r")]

/-- A vertical edge with a site to its right. -/
def vEdgeExtendArr [CommSemiring R] (st : Store) (p w : Tensor R) : LArr R where
  labels := ["u", "d", "r"]
  dim := fun z =>
    if z = "u" then p.dimOf st "u" * w.dimOf st "u"
    else if z = "d" then p.dimOf st "d" * w.dimOf st "d"
    else w.dimOf st "r"
  val := fun τ =>
    ∑ i ∈ range (p.dimOf st "r"),
      p.at st [("u", τ "u" / w.dimOf st "u"), ("r", i), ("d", τ "d" / w.dimOf st "d")] *
      w.at st [("u", τ "u" % w.dimOf st "u"), ("l", i), ("d", τ "d" % w.dimOf st "d"), ("r", τ "r")]

/-- A corner with the edge to its right, the edge above it and a site. -/
def cornerExtendArr [CommSemiring R] (st : Store) (c ph pv w : Tensor R) : LArr R where
  labels := ["u", "r"]
  dim := fun z =>
    if z = "u" then pv.dimOf st "u" * w.dimOf st "u"
    else ph.dimOf st "r" * w.dimOf st "r"
  val := fun τ =>
    ∑ m ∈ range (ph.dimOf st "u"), ∑ k ∈ range (pv.dimOf st "r"), ∑ j ∈ range (c.dimOf st "r"),
    ∑ i ∈ range (c.dimOf st "u"),
      c.at st [("u", i), ("r", j)] * ph.at st [("l", j), ("u", m), ("r", τ "r" / w.dimOf st "r")] *
      pv.at st [("u", τ "u" / w.dimOf st "u"), ("r", k), ("d", i)] *
      w.at st [("u", τ "u" % w.dimOf st "u"), ("l", k), ("d", m), ("r", τ "r" % w.dimOf st "r")]

/-- A horizontal edge with a matrix on either side. -/
def hEdgeBuildArr [CommSemiring R] (st : Store) (p al ar : Tensor R) : LArr R where
  labels := ["u", "l", "r"]
  dim := fun z =>
    if z = "u" then p.dimOf st "u"
    else if z = "l" then al.dimOf st "l"
    else ar.dimOf st "l"
  val := fun τ =>
    ∑ j ∈ range (ar.dimOf st "r"), ∑ i ∈ range (al.dimOf st "r"),
      p.at st [("l", i), ("u", τ "u"), ("r", j)] * al.at st [("l", τ "l"), ("r", i)] *
      ar.at st [("l", τ "r"), ("r", j)]

/-- A vertical edge with a matrix above and below. -/
def vEdgeBuildArr [CommSemiring R] (st : Store) (p au ad : Tensor R) : LArr R where
  labels := ["r", "u", "d"]
  dim := fun z =>
    if z = "r" then p.dimOf st "r"
    else if z = "u" then au.dimOf st "d"
    else ad.dimOf st "d"
  val := fun τ =>
    ∑ j ∈ range (au.dimOf st "u"), ∑ i ∈ range (ad.dimOf st "u"),
      p.at st [("u", j), ("r", τ "r"), ("d", i)] * au.at st [("u", j), ("d", τ "u")] *
      ad.at st [("u", i), ("d", τ "d")]

/-- Four corners in a ring. -/
def evenZArr [CommSemiring R] (st : Store) (alu ald aru ard : Tensor R) : LArr R where
  labels := []
  dim := fun _ =>
    0
  val := fun _ =>
    ∑ m ∈ range (ald.dimOf st "r"), ∑ k ∈ range (alu.dimOf st "r"), ∑ j ∈ range (aru.dimOf st "u"),
    ∑ i ∈ range (alu.dimOf st "u"),
      alu.at st [("u", i), ("r", k)] * ald.at st [("u", i), ("r", m)] * aru.at st [("u", j), ("r", k)] *
      ard.at st [("u", j), ("r", m)]

/-- Four corners, four edges and a site in the middle. -/
def oddArr [CommSemiring R] (st : Store) (alu ald aru ard pu pd pl pr w : Tensor R) : LArr R where
  labels := []
  dim := fun _ =>
    0
  val := fun _ =>
    ∑ q ∈ range (pu.dimOf st "u"), ∑ h ∈ range (pd.dimOf st "u"), ∑ g ∈ range (pr.dimOf st "r"),
    ∑ f ∈ range (pl.dimOf st "r"), ∑ e ∈ range (pr.dimOf st "d"), ∑ b ∈ range (pr.dimOf st "u"),
    ∑ a ∈ range (pl.dimOf st "d"), ∑ n ∈ range (pl.dimOf st "u"), ∑ m ∈ range (pd.dimOf st "r"),
    ∑ k ∈ range (pd.dimOf st "l"), ∑ j ∈ range (pu.dimOf st "r"), ∑ i ∈ range (pu.dimOf st "l"),
      alu.at st [("u", n), ("r", i)] * ald.at st [("u", a), ("r", k)] * aru.at st [("u", b), ("r", j)] *
      ard.at st [("u", e), ("r", m)] * pu.at st [("l", i), ("u", q), ("r", j)] *
      pd.at st [("l", k), ("u", h), ("r", m)] * pl.at st [("u", n), ("r", f), ("d", a)] *
      pr.at st [("u", b), ("r", g), ("d", e)] * w.at st [("u", q), ("l", f), ("d", h), ("r", g)]

/-- Two copies of a column of two tensors, joined at the three other sides; the legs `l` of either column become one. -/
def horizontalLArr [CommSemiring R] (st : Store) (ul ur dr dl : Tensor R) : LArr R where
  labels := ["l", "r"]
  dim := fun z =>
    if z = "l" then ul.dimOf st "l" * dl.dimOf st "l"
    else ur.dimOf st "l" * dr.dimOf st "l"
  val := fun τ =>
    ∑ a ∈ range (dl.dimOf st "d"), ∑ n ∈ range (ul.dimOf st "u"), ∑ m ∈ range (dl.dimOf st "r"),
    ∑ k ∈ range (ur.dimOf st "d"), ∑ j ∈ range (ul.dimOf st "r"), ∑ i ∈ range (ul.dimOf st "d"),
      ul.at st [("u", n), ("l", τ "l" / dl.dimOf st "l"), ("d", i), ("r", j)] *
      ur.at st [("u", n), ("l", τ "r" / dr.dimOf st "l"), ("d", k), ("r", j)] *
      dr.at st [("u", k), ("l", τ "r" % dr.dimOf st "l"), ("d", a), ("r", m)] *
      dl.at st [("u", i), ("l", τ "l" % dl.dimOf st "l"), ("d", a), ("r", m)]

/-- Two copies of a column of two tensors, joined at the three other sides; the legs `r` of either column become one. -/
def horizontalRArr [CommSemiring R] (st : Store) (ul ur dr dl : Tensor R) : LArr R where
  labels := ["r", "l"]
  dim := fun z =>
    if z = "r" then ur.dimOf st "r" * dr.dimOf st "r"
    else ul.dimOf st "r" * dl.dimOf st "r"
  val := fun τ =>
    ∑ a ∈ range (dl.dimOf st "d"), ∑ n ∈ range (ul.dimOf st "u"), ∑ m ∈ range (dl.dimOf st "l"),
    ∑ k ∈ range (ur.dimOf st "d"), ∑ j ∈ range (ul.dimOf st "l"), ∑ i ∈ range (ul.dimOf st "d"),
      ul.at st [("u", n), ("l", j), ("d", i), ("r", τ "l" / dl.dimOf st "r")] *
      ur.at st [("u", n), ("l", j), ("d", k), ("r", τ "r" / dr.dimOf st "r")] *
      dr.at st [("u", k), ("l", m), ("d", a), ("r", τ "r" % dr.dimOf st "r")] *
      dl.at st [("u", i), ("l", m), ("d", a), ("r", τ "l" % dl.dimOf st "r")]

/-- Two copies of a row of two tensors, joined at the three other sides; the legs `u` of either row become one. -/
def verticalUArr [CommSemiring R] (st : Store) (ul ur dr dl : Tensor R) : LArr R where
  labels := ["u", "d"]
  dim := fun z =>
    if z = "u" then ul.dimOf st "u" * ur.dimOf st "u"
    else dl.dimOf st "u" * dr.dimOf st "u"
  val := fun τ =>
    ∑ a ∈ range (ur.dimOf st "r"), ∑ n ∈ range (ul.dimOf st "l"), ∑ m ∈ range (dl.dimOf st "r"),
    ∑ k ∈ range (ur.dimOf st "d"), ∑ j ∈ range (ul.dimOf st "r"), ∑ i ∈ range (ul.dimOf st "d"),
      ul.at st [("u", τ "u" / ur.dimOf st "u"), ("l", n), ("d", i), ("r", j)] *
      ur.at st [("u", τ "u" % ur.dimOf st "u"), ("l", j), ("d", k), ("r", a)] *
      dr.at st [("u", τ "d" % dr.dimOf st "u"), ("l", m), ("d", k), ("r", a)] *
      dl.at st [("u", τ "d" / dr.dimOf st "u"), ("l", n), ("d", i), ("r", m)]

/-- Two copies of a row of two tensors, joined at the three other sides; the legs `d` of either row become one. -/
def verticalDArr [CommSemiring R] (st : Store) (ul ur dr dl : Tensor R) : LArr R where
  labels := ["d", "u"]
  dim := fun z =>
    if z = "d" then dl.dimOf st "d" * dr.dimOf st "d"
    else ul.dimOf st "d" * ur.dimOf st "d"
  val := fun τ =>
    ∑ a ∈ range (ur.dimOf st "r"), ∑ n ∈ range (ul.dimOf st "l"), ∑ m ∈ range (dl.dimOf st "r"),
    ∑ k ∈ range (ur.dimOf st "u"), ∑ j ∈ range (ul.dimOf st "r"), ∑ i ∈ range (ul.dimOf st "u"),
      ul.at st [("u", i), ("l", n), ("d", τ "u" / ur.dimOf st "d"), ("r", j)] *
      ur.at st [("u", k), ("l", j), ("d", τ "u" % ur.dimOf st "d"), ("r", a)] *
      dr.at st [("u", k), ("l", m), ("d", τ "d" % dr.dimOf st "d"), ("r", a)] *
      dl.at st [("u", i), ("l", n), ("d", τ "d" / dr.dimOf st "d"), ("r", m)]

/-- A column of two tensors with a projector at either side. -/
def hotrgHArr [CommSemiring R] (st : Store) (u d l r : Tensor R) : LArr R where
  labels := ["u", "d", "l", "r"]
  dim := fun z =>
    if z = "u" then u.dimOf st "u"
    else if z = "d" then d.dimOf st "d"
    else if z = "l" then l.dimOf st "o"
    else r.dimOf st "o"
  val := fun τ =>
    ∑ n ∈ range (u.dimOf st "d"), ∑ m ∈ range (d.dimOf st "r"), ∑ k ∈ range (d.dimOf st "l"),
    ∑ j ∈ range (u.dimOf st "r"), ∑ i ∈ range (u.dimOf st "l"),
      u.at st [("u", τ "u"), ("l", i), ("d", n), ("r", j)] * d.at st [("u", n), ("l", k), ("d", τ "d"), ("r", m)] *
      l.at st [("u", i), ("d", k), ("o", τ "l")] * r.at st [("u", j), ("d", m), ("o", τ "r")]

/-- A row of two tensors with a projector above and below. -/
def hotrgVArr [CommSemiring R] (st : Store) (u d l r : Tensor R) : LArr R where
  labels := ["u", "d", "l", "r"]
  dim := fun z =>
    if z = "u" then u.dimOf st "o"
    else if z = "d" then d.dimOf st "o"
    else if z = "l" then l.dimOf st "l"
    else r.dimOf st "r"
  val := fun τ =>
    ∑ n ∈ range (l.dimOf st "r"), ∑ m ∈ range (d.dimOf st "r"), ∑ k ∈ range (d.dimOf st "l"),
    ∑ j ∈ range (u.dimOf st "r"), ∑ i ∈ range (u.dimOf st "l"),
      u.at st [("l", i), ("r", j), ("o", τ "u")] * d.at st [("l", k), ("r", m), ("o", τ "d")] *
      l.at st [("u", i), ("l", τ "l"), ("d", k), ("r", n)] * r.at st [("u", j), ("l", n), ("d", m), ("r", τ "r")]

/-- Eight tensors; the legs `l` and `u` of two of them are left. -/
def evenblyArr [CommSemiring R] (st : Store) (uul uur udl udr dul dur ddl ddr : Tensor R) : LArr R where
  labels := ["1", "2"]
  dim := fun z =>
    if z = "1" then uul.dimOf st "l" * uul.dimOf st "u"
    else ddl.dimOf st "l" * ddl.dimOf st "u"
  val := fun τ =>
    ∑ x ∈ range (ddl.dimOf st "d"), ∑ s ∈ range (ddl.dimOf st "r"), ∑ q ∈ range (uul.dimOf st "d"),
    ∑ h ∈ range (uul.dimOf st "r"), ∑ g ∈ range (dur.dimOf st "u"), ∑ f ∈ range (udr.dimOf st "u"),
    ∑ e ∈ range (uur.dimOf st "u"), ∑ b ∈ range (uur.dimOf st "l"), ∑ a ∈ range (dul.dimOf st "l"),
    ∑ n ∈ range (udl.dimOf st "l"), ∑ m ∈ range (udr.dimOf st "d"), ∑ k ∈ range (udr.dimOf st "r"),
    ∑ j ∈ range (udl.dimOf st "d"), ∑ i ∈ range (udl.dimOf st "r"),
      uul.at st [("u", τ "1" % uul.dimOf st "u"), ("l", τ "1" / uul.dimOf st "u"), ("d", q), ("r", h)] *
      uur.at st [("u", e), ("l", b), ("d", f), ("r", h)] * udl.at st [("u", q), ("l", n), ("d", j), ("r", i)] *
      udr.at st [("u", f), ("l", n), ("d", m), ("r", k)] * dul.at st [("u", x), ("l", a), ("d", j), ("r", i)] *
      dur.at st [("u", g), ("l", a), ("d", m), ("r", k)] *
      ddl.at st [("u", τ "2" % ddl.dimOf st "u"), ("l", τ "2" / ddl.dimOf st "u"), ("d", x), ("r", s)] *
      ddr.at st [("u", e), ("l", b), ("d", g), ("r", s)]

end CTL
