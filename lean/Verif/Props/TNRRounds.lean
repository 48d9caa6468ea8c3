import Verif.Props.TNRStep
import Verif.Props.TNRStart
import Verif.Props.Legs

/-! C67: the updates of `sM` with the tensors that `doTNR` starts its iteration with. -/

namespace CTL

open Finset (range)
variable {K : Type}

theorem IsCorners.toTensor [Zero K] (castF : K → K) {st : Store} {t : Tensor K} {k : Nat} {F : Nat → Nat → Nat → Nat → K}
    (h : IsCorners st t k F) : ∃ arr, (t.toTensor castF st (some ["ul", "ur", "dl", "dr"])).2 = .ok arr ∧ arr.WF ∧
      arr.shape = [k, k, k, k] ∧ ∀ a < k, ∀ b < k, ∀ c < k, ∀ d < k, arr.get [a, b, c, d] = F a b c d := by
  have nd : ["ul", "ur", "dl", "dr"].Nodup := by decide
  obtain ⟨t', arr, e, hn, hp, wa, sa, va⟩ := C15_toTensor castF h.labels.good (.inl h.labels.dense)
    (fun hd => by rw [h.labels.dense] at hd; cases hd) (some ["ul", "ur", "dl", "dr"]) (fun ls hls => by
      cases hls
      exact h.labels.labels)
  have hn : t'.legs.map st.name = ["ul", "ur", "dl", "dr"] := hn
  have hdim : ∀ l ∈ t.legs, st.dim l = k := by
    intro l hm
    rw [← dimOf_leg h.labels nd hm]
    exact h.dim _ (h.labels.labels.subset (List.mem_map_of_mem hm))
  obtain ⟨x1, x2, x3, x4, hl⟩ : ∃ x1 x2 x3 x4, t'.legs = [x1, x2, x3, x4] := by
    have := congrArg List.length hn
    rw [List.length_map] at this
    match t'.legs, this with
    | [a, b, c, d], _ => exact ⟨a, b, c, d, rfl⟩
  rw [hl] at hn sa hp va
  simp only [List.map_cons, List.map_nil, List.cons.injEq, and_true] at hn
  obtain ⟨n1, n2, n3, n4⟩ := hn
  refine ⟨arr, by rw [e], wa, ?_, fun a ha b hb c hc d hd => ?_⟩
  · rw [sa]
    simp only [List.map_cons, List.map_nil]
    rw [hdim x1 (hp.subset (by simp)), hdim x2 (hp.subset (by simp)), hdim x3 (hp.subset (by simp)), hdim x4 (hp.subset (by simp))]
  · rw [← h.val a ha b hb c hc d hd]
    unfold Tensor.at
    rw [← va _ fun l hm => ?_]
    · simp [n1, n2, n3, n4, indexAt]
    · rw [hdim l hm]
      have := h.labels.labels.subset (List.mem_map_of_mem (f := st.name) hm)
      simp only [List.mem_cons, List.not_mem_nil, or_false] at this
      rcases this with e | e | e | e <;> simp [indexAt, e, ha, hb, hc, hd]

variable [Field K] [LinearOrder K] [IsStrictOrderedRing K]

omit [IsStrictOrderedRing K] in

/-- C67: the tensors that `doTNR` starts its iteration with meet what the updates need: `sCenvD` is the double of the ring, and
`SP2exact` the sum of the squares of the ring. -/
theorem C67_start {p : RGParams K} {A : NDArray K} {H V chi0 k : Nat} {r : TNRStart K} (h : TNRStarted p A H V chi0 k r) (castF : K → K) :
    ∃ D, sCenvDOf castF r.st r.cdubTensor = .ok D ∧ D.shape = [k, k, k, k] ∧ IsDouble D (tnrRing A r.qTemp H V) k ∧
      r.sp2exact = ∑ a ∈ range k, ∑ b ∈ range k, ∑ i ∈ range k, ∑ j ∈ range k, tnrRing A r.qTemp H V a b i j ^ 2 := by
  obtain ⟨arr, e, _, sa, va⟩ := h.cc.toTensor castF
  refine ⟨arr.transpose [0, 2, 1, 3], by unfold sCenvDOf; simp only [bind, Except.bind, e], by simp [NDArray.transpose, sa], ?_, ?_⟩
  · intro a ha b hb c hc d hd
    unfold NDArray.m4 NDArray.transpose
    rw [NDArray.get_build _ (by rw [sa]; exact valid4 ha hb hc hd)]
    rw [sa]
    refine (va a ha c hc b hb d hd).trans ?_
    rw [Finset.sum_comm]
  · rw [h.sp2]
    simp only [sq]

/-- C67: from the start of the iteration on, as long as only `sM` is updated, no update raises the truncation error. -/
theorem C67_first_rounds {p : RGParams K} {A : NDArray K} {H V chi0 k : Nat} {r : TNRStart K} (h : TNRStarted p A H V chi0 k r)
    (castF : K → K) {pinv : NDArray K → NDArray K} {sqrt : K → K} (hp : ∀ a : NDArray K, a.shape = [k, k] → (pinv a).shape = [k, k])
    (hq : ∀ x, 0 ≤ x → sqrt x * sqrt x = x) {S : NDArray K} {m : Nat} (hS : S.shape = [k, m, k, m]) {s : NDArray K} (ws : s.WF)
    (hs : s.shape = [k, m]) (h0 : sNorm (tnrRing A r.qTemp H V) k m s.m2 ≠ 0) (rounds : Nat) :
    ∃ D t t', sCenvDOf castF r.st r.cdubTensor = .ok D ∧ sRounds pinv sqrt S D r.sp2exact rounds s = .ok t ∧
      sStep pinv sqrt S D r.sp2exact t = .ok t' ∧ sRounds pinv sqrt S D r.sp2exact (rounds + 1) s = .ok t' ∧
      sError S.m4 (tnrRing A r.qTemp H V) k m r.sp2exact t'.m2 ≤ sError S.m4 (tnrRing A r.qTemp H V) k m r.sp2exact t.m2 := by
  obtain ⟨D, e, sD, hD, h2⟩ := C67_start h castF
  obtain ⟨_, _, _, _, _, _, mono⟩ := C67_rounds hp hq hS sD hD h2 ws hs h0 (rounds + 1)
  obtain ⟨t, u, et, eu, eu', le⟩ := mono rounds (by omega)
  exact ⟨D, t, u, e, et, eu, eu', le⟩

end CTL
