import Verif.Spec.Network

/-! # What it means that a TensorLike stands for a real tensor -/

namespace CTL
variable {R : Type}

/-- `s` is a shape-only object for the real tensor `t`: it is flagged as TensorLike, holds no data, and has the same
legs (in some order), the same class and, for a diagonal tensor, the same length. -/
structure ShapeOf (t s : Tensor R) : Prop where
  flag : s.like = true
  noData : s.a = none
  ident : s.id = t.id
  legs : s.legs.Perm t.legs
  diag : s.diag = t.diag
  length : s.length = t.length

/-- The shape-only object with the legs in the same order. -/
def Tensor.bare (t : Tensor R) : Tensor R := { t with a := none, like := true }

end CTL
