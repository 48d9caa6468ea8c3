import Verif.Model.TNR
import Verif.Spec.ContractExp
import Verif.Spec.Decompose

/-! What the networks of `TNR.py` are expected to compute. -/

namespace CTL
variable {R : Type}

open Finset (range)

/-- The isometry `q` on the left and upper legs of a site. -/
def qxAArr [CommSemiring R] (st : Store) (q A : Tensor R) : LArr R where
  labels := ["o", "v", "h"]
  dim := fun z =>
    if z = "o" then q.dimOf st "o"
    else if z = "v" then A.dimOf st "d"
    else A.dimOf st "r"
  val := fun τ =>
    ∑ j ∈ range (q.dimOf st "v"), ∑ i ∈ range (q.dimOf st "h"),
      q.at st [("h", i), ("v", j), ("o", τ "o")] * A.at st [("u", j), ("l", i), ("d", τ "v"), ("r", τ "h")]

/-- Four tensors in a ring; each keeps the leg `o` under its own name. -/
def tnrCArr [CommSemiring R] (st : Store) (ul ur dl dr : Tensor R) : LArr R where
  labels := ["ul", "ur", "dl", "dr"]
  dim := fun z =>
    if z = "ul" then ul.dimOf st "o"
    else if z = "ur" then ur.dimOf st "o"
    else if z = "dl" then dl.dimOf st "o"
    else dr.dimOf st "o"
  val := fun τ =>
    ∑ m ∈ range (dl.dimOf st "h"), ∑ k ∈ range (ul.dimOf st "h"), ∑ j ∈ range (ur.dimOf st "v"),
    ∑ i ∈ range (ul.dimOf st "v"),
      ul.at st [("h", k), ("v", i), ("o", τ "ul")] * ur.at st [("h", k), ("v", j), ("o", τ "ur")] *
      dl.at st [("h", m), ("v", i), ("o", τ "dl")] * dr.at st [("h", m), ("v", j), ("o", τ "dr")]

/-- Two rings joined at the lower legs. -/
def tnrCCArr [CommSemiring R] (st : Store) (u d : Tensor R) : LArr R where
  labels := ["ul", "ur", "dl", "dr"]
  dim := fun z =>
    if z = "ul" then u.dimOf st "ul"
    else if z = "ur" then u.dimOf st "ur"
    else if z = "dl" then d.dimOf st "ul"
    else d.dimOf st "ur"
  val := fun τ =>
    ∑ j ∈ range (u.dimOf st "dr"), ∑ i ∈ range (u.dimOf st "dl"),
      u.at st [("ul", τ "ul"), ("ur", τ "ur"), ("dl", i), ("dr", j)] *
      d.at st [("ul", τ "dl"), ("ur", τ "dr"), ("dl", i), ("dr", j)]

/-- The doubled ring with two isometries `q`, the disentangler `u` and two isometries `y` below it. -/
def sCEnvSArr [CommSemiring R] (st : Store) (CC ql qr u yl yr : Tensor R) : LArr R where
  labels := ["ul", "ur", "dl", "dr"]
  dim := fun z =>
    if z = "ul" then CC.dimOf st "ul"
    else if z = "ur" then CC.dimOf st "ur"
    else if z = "dl" then yl.dimOf st "o"
    else yr.dimOf st "o"
  val := fun τ =>
    ∑ e ∈ range (yr.dimOf st "v"), ∑ b ∈ range (yl.dimOf st "v"), ∑ a ∈ range (qr.dimOf st "v"),
    ∑ n ∈ range (ql.dimOf st "v"), ∑ m ∈ range (qr.dimOf st "h"), ∑ k ∈ range (ql.dimOf st "h"),
    ∑ j ∈ range (CC.dimOf st "dr"), ∑ i ∈ range (CC.dimOf st "dl"),
      CC.at st [("ul", τ "ul"), ("ur", τ "ur"), ("dl", i), ("dr", j)] * ql.at st [("h", k), ("v", n), ("o", i)] *
      qr.at st [("h", m), ("v", a), ("o", j)] * u.at st [("ol", a), ("or", n), ("il", e), ("ir", b)] *
      yl.at st [("h", k), ("v", b), ("o", τ "dl")] * yr.at st [("h", m), ("v", e), ("o", τ "dr")]

/-- The same diagram with the formula in the comment of `TNR.py` 74: `u` is met from the left by its left legs. -/
def sCEnvSNcon [CommSemiring R] (st : Store) (CC ql qr u yl yr : Tensor R) (τ : String → Nat) : R :=
  ∑ e ∈ range (yr.dimOf st "v"), ∑ b ∈ range (yl.dimOf st "v"), ∑ a ∈ range (qr.dimOf st "v"),
  ∑ n ∈ range (ql.dimOf st "v"), ∑ m ∈ range (qr.dimOf st "h"), ∑ k ∈ range (ql.dimOf st "h"),
  ∑ j ∈ range (CC.dimOf st "dr"), ∑ i ∈ range (CC.dimOf st "dl"),
    CC.at st [("ul", τ "ul"), ("ur", τ "ur"), ("dl", i), ("dr", j)] * ql.at st [("h", k), ("v", n), ("o", i)] *
    qr.at st [("h", m), ("v", a), ("o", j)] * u.at st [("ol", n), ("or", a), ("il", b), ("ir", e)] *
    yl.at st [("h", k), ("v", b), ("o", τ "dl")] * yr.at st [("h", m), ("v", e), ("o", τ "dr")]

/-- A matrix of size `n × m` whose columns are orthonormal if it is tall, and whose rows are if it is wide. -/
def IsIsometry [CommSemiring R] (n m : Nat) (x : Nat → Nat → R) : Prop :=
  (m ≤ n → ∀ j < m, ∀ l < m, ∑ i ∈ range n, x i j * x i l = if j = l then 1 else 0) ∧
  (n ≤ m → ∀ i < n, ∀ l < n, ∑ j ∈ range m, x i j * x l j = if i = l then 1 else 0)

end CTL
