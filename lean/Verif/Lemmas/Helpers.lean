import Verif.Model.Helpers
import Verif.Lemmas.NDArray
import Mathlib.Data.List.Nodup

namespace CTL
variable {R : Type}

theorem map_getD_idxOf {α : Type} [DecidableEq α] : ∀ (l : List α) (s : List Nat), l.Nodup → l.length = s.length →
    l.map (fun c => s.getD (l.idxOf c) 0) = s := by
  intro l s nd hl
  apply List.ext_getElem
  · simp [hl]
  · intro i h1 h2
    have hi : i < l.length := by simpa using h1
    simp only [List.getElem_map]
    rw [nd.idxOf_getElem i hi]
    simp [h2]

theorem map_update_notMem {l : List Char} {z : Char} (h : z ∉ l) (σ : Char → Nat) (t : Nat) :
    l.map (Function.update σ z t) = l.map σ := by
  apply List.map_congr_left
  intro c hc
  rw [Function.update_of_ne]
  rintro rfl
  exact h hc

theorem build_congr_valid (s : List Nat) (f g : List Nat → R) (h : ∀ i, ValidIdx s i → f i = g i) :
    NDArray.build s f = NDArray.build s g := by
  unfold NDArray.build
  rw [List.map_congr_left fun i hi => h i (mem_indices.mp hi)]

theorem insertIdx_left {α : Type} : ∀ (l l' : List α) (n : Nat), l.length = n → ∀ t, (l ++ l').insertIdx n t = l ++ t :: l' := by
  intro l
  induction l with
  | nil => rintro l' n rfl t; rfl
  | cons x l ih =>
    rintro l' n rfl t
    rw [List.cons_append, List.length_cons, List.insertIdx_succ_cons, ih l' _ rfl t]
    rfl

/-- `einsum('PzQ,z->PQ', a, w)`. -/
theorem einsum2_weight [NonUnitalNonAssocSemiring R] (P Q : List Char) (z : Char) (s1 s2 : List Nat) (d : Nat) (a w : NDArray R)
    (nd : (P ++ z :: Q).Nodup) (h1 : P.length = s1.length) (h2 : Q.length = s2.length) (ha : a.shape = s1 ++ d :: s2) :
    einsum2 (P ++ z :: Q) [z] (P ++ Q) a w =
      if w.shape = [d] then .ok (NDArray.build (s1 ++ s2) fun idx =>
        ((List.range d).map fun t => a.get (idx.insertIdx P.length t) * w.get [t]).sum)
      else .error .valueError := by
  have hzP : z ∉ P := fun h => by
    rw [List.nodup_append] at nd
    exact nd.2.2 z h z (by simp) rfl
  have hzQ : z ∉ Q := by
    rw [List.nodup_append, List.nodup_cons] at nd
    exact nd.2.1.1
  have ndPQ : (P ++ Q).Nodup := nd.sublist (List.Sublist.append (List.Sublist.refl P) (List.sublist_cons_self z Q))
  have hmap : (P ++ z :: Q).map (letterDim (P ++ z :: Q) a.shape) = s1 ++ d :: s2 := by
    rw [← ha]
    exact map_getD_idxOf _ _ nd (by rw [ha]; simp [h1, h2])
  rw [List.map_append, List.map_cons] at hmap
  obtain ⟨e1, e2⟩ := List.append_inj hmap (by simp [h1])
  injection e2 with e2 e3
  have hdim : ∀ c ∈ P ++ z :: Q, (if c ∈ P ++ z :: Q then letterDim (P ++ z :: Q) a.shape c else letterDim [z] w.shape c)
      = letterDim (P ++ z :: Q) a.shape c := fun c hc => if_pos hc
  have hzm : z ∈ P ++ z :: Q := by simp
  unfold einsum2
  by_cases hw : w.shape = [d]
  · rw [if_pos hw]
    have hcond : (P ++ z :: Q).length = a.shape.length ∧ [z].length = w.shape.length ∧ (P ++ z :: Q).Nodup ∧ [z].Nodup ∧
        (P ++ Q).Nodup ∧ (∀ c ∈ [z], letterDim [z] w.shape c
          = (if c ∈ P ++ z :: Q then letterDim (P ++ z :: Q) a.shape c else letterDim [z] w.shape c)) ∧
        (∀ c ∈ P ++ Q, c ∈ P ++ z :: Q ∨ c ∈ [z]) := by
      refine ⟨by rw [ha]; simp [h1, h2], by rw [hw]; rfl, nd, by simp, ndPQ, ?_, ?_⟩
      · intro c hc
        rw [List.mem_singleton] at hc
        subst hc
        rw [hdim _ hzm, e2, hw]
        simp [letterDim]
      · intro c hc
        left
        rw [List.mem_append] at hc ⊢
        rcases hc with h | h
        · exact .inl h
        · exact .inr (List.mem_cons_of_mem _ h)
    dsimp only
    rw [if_pos hcond]
    have hshape : (P ++ Q).map (fun c => if c ∈ P ++ z :: Q then letterDim (P ++ z :: Q) a.shape c else letterDim [z] w.shape c)
        = s1 ++ s2 := by
      rw [← e1, ← e3, List.map_append]
      congr 1
      · exact List.map_congr_left fun c hc => hdim c (List.mem_append_left _ hc)
      · exact List.map_congr_left fun c hc => hdim c (List.mem_append_right _ (List.mem_cons_of_mem _ hc))
    rw [hshape]
    have hfil : ((P ++ z :: Q) ++ [z].filter (fun c => decide (c ∉ P ++ z :: Q))).filter (fun c => decide (c ∉ P ++ Q)) = [z] := by
      have ez : [z].filter (fun c => decide (c ∉ P ++ z :: Q)) = [] := by simp
      rw [ez, List.append_nil, List.filter_append, List.filter_cons]
      have fP : P.filter (fun c => decide (c ∉ P ++ Q)) = [] := by
        rw [List.filter_eq_nil_iff]; intro c hc; simp [hc]
      have fQ : Q.filter (fun c => decide (c ∉ P ++ Q)) = [] := by
        rw [List.filter_eq_nil_iff]; intro c hc; simp [hc]
      rw [fP, fQ]
      simp [hzP, hzQ]
    rw [hfil]
    congr 1
    apply build_congr_valid
    intro idx hv
    have hlen : idx.length = P.length + Q.length := by
      rw [validIdx_iff] at hv
      rw [hv.1]; simp [h1, h2]
    have hσ : (P ++ Q).map (fun c => idx.getD ((P ++ Q).idxOf c) 0) = idx := map_getD_idxOf _ _ ndPQ (by simp [hlen])
    rw [List.map_append] at hσ
    simp only [sumLetters]
    rw [hdim z hzm, e2]
    congr 1
    apply List.map_congr_left
    intro t _
    have hi : idx.insertIdx P.length t
        = P.map (fun c => idx.getD ((P ++ Q).idxOf c) 0) ++ t :: Q.map (fun c => idx.getD ((P ++ Q).idxOf c) 0) := by
      conv_lhs => rw [← hσ]
      exact insertIdx_left _ _ _ (by simp) t
    rw [hi, List.map_append, List.map_cons, map_update_notMem hzP, map_update_notMem hzQ]
    simp
  · rw [if_neg hw]
    dsimp only
    rw [if_neg]
    rintro ⟨-, hl, -, -, -, hz, -⟩
    apply hw
    have := hz z (by simp)
    rw [hdim z hzm, e2] at this
    match hs : w.shape, hl with
    | [k], _ =>
      rw [hs] at this
      simp [letterDim] at this
      rw [this]

/-- Every position of the list of entries belongs to an index. -/
theorem exists_ravel (s : List Nat) : ∀ k, k < s.prod → ∃ i, ValidIdx s i ∧ ravel s i = k := by
  induction s with
  | nil => intro n hn; exact ⟨[], validIdx_nil, by simp [ravel] at hn ⊢; omega⟩
  | cons e es ih =>
    intro n hn
    simp only [List.prod_cons] at hn
    have hpos : 0 < es.prod := by
      rcases Nat.eq_zero_or_pos es.prod with h0 | h0
      · rw [h0] at hn; simp at hn
      · exact h0
    obtain ⟨i, hi, hr⟩ := ih (n % es.prod) (Nat.mod_lt _ hpos)
    refine ⟨n / es.prod :: i, ?_, ?_⟩
    · rw [validIdx_cons]; exact ⟨Nat.div_lt_of_lt_mul (by rw [Nat.mul_comm]; exact hn), hi⟩
    · simp only [ravel, hr]; exact Nat.div_add_mod' n es.prod

theorem letters_length : lowerLetters.length = 26 := by decide

theorem letters_nodup : lowerLetters.Nodup := by decide

theorem letter_inj {x y : Nat} (hx : x < 26) (hy : y < 26) (h : lowerLetters.getD x 'a' = lowerLetters.getD y 'a') : x = y := by
  rw [List.getD_eq_getElem?_getD, List.getD_eq_getElem?_getD,
    List.getElem?_eq_getElem (by rw [letters_length]; exact hx), List.getElem?_eq_getElem (by rw [letters_length]; exact hy)] at h
  exact (List.Nodup.getElem_inj_iff letters_nodup).mp h

end CTL
