import Verif.Lemmas.HOTRGMath
import Verif.Lemmas.NetSteps
import Verif.Props.ContractExp
import Verif.Props.Construct

/-! The networks of HOTRG on the tensors of the square lattice. -/

namespace CTL
variable {K : Type}

open Finset (range)

section
variable [AddCommMonoid K] (A N M G J I : Finset Nat)

theorem sum6_first (F : Nat → Nat → Nat → Nat → Nat → Nat → K) :
    ∑ a ∈ A, ∑ n ∈ N, ∑ m ∈ M, ∑ k ∈ G, ∑ j ∈ J, ∑ i ∈ I, F a n m k j i =
    ∑ n ∈ N, ∑ a ∈ A, ∑ j ∈ J, ∑ m ∈ M, ∑ i ∈ I, ∑ k ∈ G, F a n m k j i := by
  rw [Finset.sum_comm]
  refine Finset.sum_congr rfl fun n _ => Finset.sum_congr rfl fun a _ => ?_
  rw [Finset.sum_congr rfl fun m _ => Finset.sum_comm, Finset.sum_comm]
  exact Finset.sum_congr rfl fun j _ => Finset.sum_congr rfl fun m _ => Finset.sum_comm

theorem sum6_second (F : Nat → Nat → Nat → Nat → Nat → Nat → K) :
    ∑ a ∈ A, ∑ n ∈ N, ∑ m ∈ M, ∑ k ∈ G, ∑ j ∈ J, ∑ i ∈ I, F a n m k j i =
    ∑ n ∈ N, ∑ a ∈ A, ∑ i ∈ I, ∑ k ∈ G, ∑ j ∈ J, ∑ m ∈ M, F a n m k j i := by
  rw [Finset.sum_comm]
  refine Finset.sum_congr rfl fun n _ => Finset.sum_congr rfl fun a _ => ?_
  calc
    _ = ∑ m ∈ M, ∑ i ∈ I, ∑ k ∈ G, ∑ j ∈ J, F a n m k j i := by
      refine Finset.sum_congr rfl fun m _ => ?_
      rw [Finset.sum_congr rfl fun k _ => Finset.sum_comm, Finset.sum_comm]
    _ = ∑ i ∈ I, ∑ k ∈ G, ∑ j ∈ J, ∑ m ∈ M, F a n m k j i := by
      rw [Finset.sum_comm]
      refine Finset.sum_congr rfl fun i _ => ?_
      rw [Finset.sum_comm]
      exact Finset.sum_congr rfl fun k _ => Finset.sum_comm

theorem sum5_first (F : Nat → Nat → Nat → Nat → Nat → K) :
    ∑ n ∈ N, ∑ m ∈ M, ∑ k ∈ G, ∑ j ∈ J, ∑ i ∈ I, F n m k j i =
    ∑ i ∈ I, ∑ k ∈ G, ∑ j ∈ J, ∑ m ∈ M, ∑ n ∈ N, F n m k j i := by
  calc
    _ = ∑ n ∈ N, ∑ i ∈ I, ∑ k ∈ G, ∑ j ∈ J, ∑ m ∈ M, F n m k j i := by
      refine Finset.sum_congr rfl fun n _ => ?_
      rw [Finset.sum_congr rfl fun m _ => Finset.sum_congr rfl fun k _ => Finset.sum_comm,
        Finset.sum_congr rfl fun m _ => Finset.sum_comm, Finset.sum_comm]
      refine Finset.sum_congr rfl fun i _ => ?_
      rw [Finset.sum_comm]
      exact Finset.sum_congr rfl fun k _ => Finset.sum_comm
    _ = _ := by
      rw [Finset.sum_comm]
      refine Finset.sum_congr rfl fun i _ => ?_
      rw [Finset.sum_comm]
      refine Finset.sum_congr rfl fun k _ => ?_
      rw [Finset.sum_comm]
      exact Finset.sum_congr rfl fun j _ => Finset.sum_comm

theorem sum5_second (F : Nat → Nat → Nat → Nat → Nat → K) :
    ∑ n ∈ N, ∑ m ∈ M, ∑ k ∈ G, ∑ j ∈ J, ∑ i ∈ I, F n m k j i =
    ∑ i ∈ I, ∑ j ∈ J, ∑ k ∈ G, ∑ m ∈ M, ∑ n ∈ N, F n m k j i := by
  rw [sum5_first]
  exact Finset.sum_congr rfl fun i _ => Finset.sum_comm

end

theorem SquareSite.kept {st st' : Store} {t : Tensor K} (h : SquareSite st t) (k : LegsUnchanged st st') : SquareSite st' t :=
  ⟨k.hasLabels h.labels, by rw [k.dimOf h.labels.known, k.dimOf h.labels.known]; exact h.v, by
    rw [k.dimOf h.labels.known, k.dimOf h.labels.known]; exact h.h⟩

theorem SquareSite.site_kept [Zero K] {st st' : Store} {t : Tensor K} (h : SquareSite st t) (k : LegsUnchanged st st') : t.site st' = t.site st := by
  funext u l d r
  exact k.at h.labels.known _

/-- Its array, for four times the same tensor. -/
def projectArr [CommSemiring K] (st : Store) (a : Tensor K) : RGDir → LArr K
  | .l => horizontalLArr st a a a a
  | .r => horizontalRArr st a a a a
  | .u => verticalUArr st a a a a
  | .d => verticalDArr st a a a a

theorem project_computes [CommSemiring K] (rand : List Nat → List Nat → K) (cast : K → K) {st : Store} {a : Tensor K} (wf : WFStore st)
    (h : SquareSite st a) (d : RGDir) :
    Computes rand cast (projectMake d) st (makeSquareTensorDict a none) (projectArr st a d) := by
  cases d
  · exact C49_verticalU rand cast wf h.labels h.labels h.labels h.labels rfl h.h.symm rfl h.h.symm rfl rfl
  · exact C49_verticalD rand cast wf h.labels h.labels h.labels h.labels rfl h.h.symm rfl h.h.symm rfl rfl
  · exact C49_horizontalL rand cast wf h.labels h.labels h.labels h.labels h.v.symm rfl h.v.symm rfl rfl rfl
  · exact C49_horizontalR rand cast wf h.labels h.labels h.labels h.labels h.v.symm rfl h.v.symm rfl rfl rfl

theorem project_labels [CommSemiring K] (st : Store) (a : Tensor K) (d : RGDir) :
    (projectArr st a d).labels.Perm [d.label, d.opposite.label] := by
  cases d <;> exact List.Perm.refl _

theorem project_dim [CommSemiring K] {st : Store} {a : Tensor K} (h : SquareSite st a) (d : RGDir) :
    (projectArr st a d).dim d.label = envSize (a.dimOf st "u") (a.dimOf st "l") d ∧
    (projectArr st a d).dim d.opposite.label = envSize (a.dimOf st "u") (a.dimOf st "l") d := by
  have hv := h.v
  have hh := h.h
  cases d <;> constructor <;>
    simp [projectArr, horizontalLArr, horizontalRArr, verticalUArr, verticalDArr, RGDir.label, RGDir.opposite, envSize, RGDir.horizontal, hv, hh]

theorem project_val [CommSemiring K] {st : Store} {a : Tensor K} (h : SquareSite st a) (d : RGDir) (i j : Nat) :
    ((projectArr st a d).val fun z => if z = d.label then i else j) =
      envEntry (a.dimOf st "u") (a.dimOf st "l") (a.site st) d i j := by
  have hv := h.v
  have hh := h.h
  cases d
  · simp only [projectArr, verticalUArr, RGDir.label, if_true, show ("d" = "u") = False by decide, if_false, envEntry, envLeft, ← hv, ← hh,
      stackedN, flipped]
    rw [sum6_second]
    refine Finset.sum_congr rfl fun _ _ => Finset.sum_congr rfl fun _ _ => Finset.sum_congr rfl fun _ _ => Finset.sum_congr rfl fun _ _ => ?_
    rw [Finset.sum_mul_sum]
    refine Finset.sum_congr rfl fun _ _ => Finset.sum_congr rfl fun _ _ => ?_
    unfold Tensor.site
    ring
  · simp only [projectArr, verticalDArr, RGDir.label, if_true, show ("u" = "d") = False by decide, if_false, envEntry, envRight, ← hv, ← hh,
      stackedN, flipped]
    rw [sum6_second]
    refine Finset.sum_congr rfl fun _ _ => Finset.sum_congr rfl fun _ _ => Finset.sum_congr rfl fun _ _ => Finset.sum_congr rfl fun _ _ => ?_
    rw [Finset.sum_mul_sum, Finset.sum_comm]
    refine Finset.sum_congr rfl fun _ _ => Finset.sum_congr rfl fun _ _ => ?_
    unfold Tensor.site
    ring
  · simp only [projectArr, horizontalLArr, RGDir.label, if_true, show ("r" = "l") = False by decide, if_false, envEntry, envLeft, ← hv, ← hh,
      stackedN]
    rw [sum6_first]
    refine Finset.sum_congr rfl fun _ _ => Finset.sum_congr rfl fun _ _ => Finset.sum_congr rfl fun _ _ => Finset.sum_congr rfl fun _ _ => ?_
    rw [Finset.sum_mul_sum]
    refine Finset.sum_congr rfl fun _ _ => Finset.sum_congr rfl fun _ _ => ?_
    unfold Tensor.site
    ring
  · simp only [projectArr, horizontalRArr, RGDir.label, if_true, show ("l" = "r") = False by decide, if_false, envEntry, envRight, ← hv, ← hh,
      stackedN]
    rw [sum6_first]
    refine Finset.sum_congr rfl fun _ _ => Finset.sum_congr rfl fun _ _ => Finset.sum_congr rfl fun _ _ => Finset.sum_congr rfl fun _ _ => ?_
    rw [Finset.sum_mul_sum, Finset.sum_comm]
    refine Finset.sum_congr rfl fun _ _ => Finset.sum_congr rfl fun _ _ => ?_
    unfold Tensor.site
    ring

end CTL
