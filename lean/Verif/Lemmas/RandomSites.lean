import Verif.Lemmas.RandomMPS
import Verif.Lemmas.Schmidt
import Verif.Props.Construct
import Verif.Spec.HOTRG

/-! The tensors of a random matrix product state. -/

namespace CTL
variable {R : Type}

/-- A new tensor with the shape `s.1` and the labels `s.2`. -/
structure NewSite (st st' : Store) (s : List Nat × List String) (t : Tensor R) : Prop where
  dims : t.legs.map st'.dim = s.1
  names : t.legs.map st'.name = s.2
  flags : t.diag = false ∧ t.like = false
  legs : ∀ l ∈ t.legs, st.nextLeg ≤ l ∧ l < st'.nextLeg ∧ (st'.leg l).bond = none ∧ (st'.leg l).tensor = some t.id
  id : st.nextTensor ≤ t.id ∧ t.id < st'.nextTensor

/-- What `randomTensors` makes. -/
structure NewSites (rands : Nat → List Nat → List Nat → R) (st st' : Store) (i : Nat) (ss : List (List Nat × List String)) (ts : List (Tensor R)) :
    Prop where
  sites : List.Forall₂ (NewSite st st') ss ts
  data : ∀ (j : Nat) (t : Tensor R) (s : List Nat × List String), ts[j]? = some t → ss[j]? = some s →
    t.a = some (NDArray.build s.1 (rands (i + j) s.1))
  flat : (ts.flatMap fun t => t.legs).Nodup
  ids : (ts.map fun t => t.id).Nodup
  kept : LegsUnchanged st st'
  le : st.nextTensor ≤ st'.nextTensor
  wf : WFStore st → WFStore st'

theorem randomTensors_ok (rands : Nat → List Nat → List Nat → R) : ∀ (ss : List (List Nat × List String)) (st : Store) (i : Nat),
    (∀ s ∈ ss, s.2.length = s.1.length) → ∃ st' ts, randomTensors rands st i ss = .ok (st', ts) ∧ NewSites rands st st' i ss ts
  | [], st, i, _ => ⟨st, [], rfl, .nil, by simp, by simp, by simp, ⟨le_rfl, fun _ _ => rfl⟩, le_rfl, id⟩
  | s :: ss, st, i, h => by
    let c : CArgs R := { shape := some (.tuple s.1), labels := some s.2 }
    have acc : Acceptable st c := by
      show (∀ ls, some s.2 = some ls → ls.length = s.1.length) ∧ (some s.2 = none → s.1.length ≤ 26) ∧
        (∀ d' : NDArray R, none = some d' → d'.shape.prod = s.1.prod)
      refine ⟨fun ls e => ?_, (fun e => by cases e), fun d' e => by cases e⟩
      rw [← Option.some.inj e]
      exact h s (by simp)
    obtain ⟨st1, t, e1, K⟩ := construct_ok (rands i) acc
    obtain ⟨st2, ts, e2, N⟩ := randomTensors_ok rands ss st1 (i + 1) fun s hs => h s (by simp [hs])
    have hf := K.fresh rfl
    have kept1 : LegsUnchanged st st1 := ⟨K.grows.le, fun l hl => K.others l (fun hm => absurd (hf.2 l hm).1 (by exact Nat.not_le.mpr hl)) hl⟩
    have same : ∀ l ∈ t.legs, st2.leg l = st1.leg l := fun l hl => N.kept.leg l (hf.2 l hl).2.1
    refine ⟨st2, t :: ts, ?_, .cons ?_ (N.sites.imp fun s u S => ?_), ?_, ?_, ?_, ?_, ?_, ?_⟩
    · unfold randomTensors
      rw [show construct (rands i) st { shape := some (.tuple s.1), labels := some s.2 } = .ok (st1, t) from e1]
      simp only [e2, bind, Except.bind, pure, Except.pure]
    · refine ⟨?_, ?_, K.flags, fun l hl => ?_, by rw [K.id.1], ?_⟩
      · rw [← K.shape s.1 rfl]
        exact List.map_congr_left fun l hl => by unfold Store.dim; rw [same l hl]
      · rw [← K.labels s.2 rfl]
        exact List.map_congr_left fun l hl => by unfold Store.name; rw [same l hl]
      · rw [same l hl]
        exact ⟨(hf.2 l hl).1, (hf.2 l hl).2.1.trans_le N.kept.le, (hf.2 l hl).2.2, K.owner l hl⟩
      · rw [K.id.1]
        exact Nat.lt_of_lt_of_le (by rw [K.id.2]; exact Nat.lt_succ_self _) N.le
    · refine ⟨S.dims, S.names, S.flags, fun l hl => ⟨kept1.le.trans (S.legs l hl).1, (S.legs l hl).2⟩, ?_, S.id.2⟩
      have := K.id.2
      have := S.id.1
      omega
    · rintro (_ | j) u v hu hv
      · obtain rfl := Option.some.inj hu
        obtain rfl := Option.some.inj hv
        obtain ⟨a, a1, a2, -, a4⟩ := K.data rfl
        have := a4 rfl
        rw [a2, K.shape s.1 rfl] at this
        rw [a1, this]
        rfl
      · have := N.data j u v (by simpa using hu) (by simpa using hv)
        rw [this, show i + 1 + j = i + (j + 1) by omega]
    · rw [List.flatMap_cons, List.nodup_append]
      refine ⟨hf.1, N.flat, fun x hx y hy e => ?_⟩
      obtain ⟨u, hu, hy⟩ := List.mem_flatMap.mp hy
      obtain ⟨k, hk, rfl⟩ := List.getElem_of_mem hu
      have S : NewSite st1 st2 _ ts[k] := (List.forall₂_iff_get.mp N.sites).2 k (N.sites.length_eq ▸ hk) hk
      exact absurd (S.legs y hy).1 (Nat.not_le.mpr (e ▸ (hf.2 x hx).2.1))
    · rw [List.map_cons, List.nodup_cons]
      refine ⟨fun hm => ?_, N.ids⟩
      obtain ⟨u, hu, e⟩ := List.mem_map.mp hm
      obtain ⟨k, hk, rfl⟩ := List.getElem_of_mem hu
      have S : NewSite st1 st2 _ ts[k] := (List.forall₂_iff_get.mp N.sites).2 k (N.sites.length_eq ▸ hk) hk
      exact absurd S.id.1 (Nat.not_le.mpr (by rw [e, K.id.1, K.id.2]; exact Nat.lt_succ_self _))
    · exact ⟨kept1.le.trans N.kept.le, fun l hl => (N.kept.leg l (hl.trans_le kept1.le)).trans (kept1.leg l hl)⟩
    · have := K.id.2
      have := N.le
      omega
    · exact fun w => N.wf (K.grows.wf w)

/-- Shape and labels of a site. -/
def siteShape (n : Nat) (P V : List Nat) (i : Nat) : List Nat × List String :=
  if i = 0 then ([P.getD 0 0, V.getD 0 0], ["p", "v"])
  else if i + 1 < n then ([P.getD i 0, V.getD (i - 1) 0, V.getD i 0], ["p", "vl", "vr"])
  else ([P.getD i 0, V.getD (i - 1) 0], ["p", "v"])

theorem randomShapes_length (n : Nat) (P V : List Nat) : (randomShapes n P V).length = n - 2 + 2 := by
  unfold randomShapes
  simp

theorem randomShapes_get {n : Nat} (hn : 2 ≤ n) {P V : List Nat} (hP : P.length = n) (hV : V.length = n - 1) {i : Nat} (hi : i < n) :
    (randomShapes n P V)[i]? = some (siteShape n P V i) := by
  have lastD : ∀ (l : List Nat) (m : Nat), l.length = m + 1 → l.getLastD 0 = l.getD m 0 := by
    intro l m h
    rw [List.getLastD_eq_getLast?, List.getLast?_eq_getElem?, h]
    simp
  unfold randomShapes siteShape
  obtain ⟨k, rfl⟩ : ∃ k, n = k + 2 := ⟨n - 2, by omega⟩
  rw [lastD P (k + 1) hP, lastD V k (by omega)]
  rcases i with _ | i
  · simp
  · rw [if_neg (by omega), List.append_assoc, List.singleton_append, List.getElem?_cons_succ]
    by_cases c : i < k
    · rw [if_pos (by omega), List.getElem?_append_left (by simpa using c)]
      simp [c]
    · obtain rfl : i = k := by omega
      rw [if_neg (by omega), List.getElem?_append_right (by simp)]
      simp

end CTL
