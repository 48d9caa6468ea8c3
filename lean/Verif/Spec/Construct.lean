import Verif.Model.Construct
import Verif.Spec.Links

/-! What the constructors are expected to accept and to return. -/

namespace CTL
variable {R : Type}

/-- The arguments of `Tensor(...)` fit together. -/
def Acceptable (st : Store) (c : CArgs R) : Prop :=
  match c.legs, c.shape, c.data with
  | some legs, sh, data =>
    (∀ ls, c.labels = some ls → ls = legs.map st.name) ∧ (∀ s, sh = some s → s = .tuple (legs.map st.dim)) ∧
      (∀ d, data = some d → d.shape.prod = (legs.map st.dim).prod)
  | none, some (.int _), _ => False
  | none, some (.tuple s), data =>
    (∀ ls, c.labels = some ls → ls.length = s.length) ∧ (c.labels = none → s.length ≤ 26) ∧
      (∀ d, data = some d → d.shape.prod = s.prod)
  | none, none, some d => (∀ ls, c.labels = some ls → ls.length = d.shape.length) ∧ (c.labels = none → d.shape.length ≤ 26)
  | none, none, none => c.like = true ∧ c.labels ≠ none

/-- A leg other than `legs` is the same in both stores. -/
def OthersSame (st st' : Store) (legs : List LegId) : Prop := ∀ l, l ∉ legs → st'.leg l = st.leg l

/-- The 1-d data of a diagonal tensor has the common dimension of its legs as length; without legs it is a scalar. -/
def DiagConsistent (st : Store) (t : Tensor R) : Prop :=
  ∃ a, t.a = some a ∧ a.WF ∧ ((t.legs = [] ∧ a.shape = []) ∨
    (t.legs ≠ [] ∧ ∃ n, a.shape = [n] ∧ ∀ l ∈ t.legs, st.dim l = n))

end CTL
