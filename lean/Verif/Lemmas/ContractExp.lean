import Verif.Lemmas.SameArr
import Verif.Props.FTN
import Verif.Spec.ContractExp

/-! From the meaning of a ready-made network on arrays to its contraction of tensors. -/

namespace CTL
variable {R : Type}

/-- The array of a tensor, with the labels in a given order. -/
def Tensor.ordered [Zero R] (t : Tensor R) (st : Store) (labels : List String) : LArr R where
  labels := labels
  dim := t.dimOf st
  val := fun τ => t.at st (labels.map fun x => (x, τ x))

theorem indexAt_map (τ : String → Nat) : ∀ {labels : List String} {z : String}, z ∈ labels →
    indexAt (labels.map fun x => (x, τ x)) z = τ z
  | [], _, h => by cases h
  | x :: labels, z, h => by
    rw [List.map_cons, indexAt]
    split
    · rename_i e
      rw [e]
    · rename_i e
      exact indexAt_map τ ((List.mem_cons.mp h).resolve_left e)

theorem HasLabels.same [Zero R] {st : Store} {t : Tensor R} {labels : List String} (h : HasLabels st t labels) :
    (t.labelled st).Same (t.ordered st labels) := by
  refine ⟨h.labels, fun _ _ => rfl, fun τ _ => ?_⟩
  refine entry_congr t fun l hl => ?_
  exact (indexAt_map τ (h.labels.subset (List.mem_map_of_mem hl))).symm

theorem runOps_life [CommSemiring R] {rand : List Nat → List Nat → R} {cast : R → R} : ∀ (ops : List NetOp) {f : FTN} {names : List String}
    {f' : FTN} {names' : List String}, FTN.Life rand cast false f names → FTN.runOps ops f names = .ok (f', names') →
    FTN.Life rand cast false f' names'
  | [], f, names, f', names', h, e => by
    cases e
    exact h
  | op :: ops, f, names, f', names', h, e => by
    rw [FTN.runOps] at e
    have hb := h.build op
    rcases ha : f.apply names op with ⟨n1, f1, _ | err⟩
    · rw [ha] at e hb
      exact runOps_life ops hb e
    · rw [ha] at e
      cases e

theorem after_life [CommSemiring R] {rand : List Nat → List Nat → R} {cast : R → R} {names : List String} :
    ∀ (calls : List (Store × List (String × Tensor R) × Bool × Nat)) {f : FTN} {b : Bool}, FTN.Life rand cast b f names →
    (∃ b', FTN.Life rand cast b' (f.after rand cast names calls) names) ∧
      (f.after rand cast names calls).links = f.links ∧
      (f.after rand cast names calls).changeNameBefore = f.changeNameBefore ∧
      (f.after rand cast names calls).changeNameAfter = f.changeNameAfter ∧
      (f.after rand cast names calls).outProductAfter = f.outProductAfter
  | [], f, b, h => ⟨⟨b, h⟩, rfl, rfl, rfl, rfl⟩
  | c :: calls, f, b, h => by
    obtain ⟨_, _, h1, h2, h3, h4⟩ := contract_structure rand cast f names c.1 c.2.1 c.2.2.1 c.2.2.2
    obtain ⟨hl, k1, k2, k3, k4⟩ := after_life calls (h.contract c.1 c.2.1 c.2.2.1 c.2.2.2)
    exact ⟨hl, k1.trans h1, k2.trans h2, k3.trans h3, k4.trans h4⟩

theorem computes_of [CommSemiring R] (rand : List Nat → List Nat → R) (cast : R → R) {make : Nat → Except PyErr (FTN × List String)}
    {st : Store} (w : WFStore st) (ins : List (String × Tensor R × List String))
    (h : ∀ p ∈ ins, HasLabels st p.2.1 p.2.2) (hl : ∀ p ∈ ins, p.2.2.Nodup ∧ p.2.2 ≠ []) {names : List String}
    (hn : names.Perm (ins.map Prod.fst)) (nd : names.Nodup) (hne : names ≠ []) (ops : List NetOp) {S : LArr R}
    (hm : ∀ list, make list = FTN.made list names ops ∧ ∃ f, FTN.made list names ops = .ok (f, names) ∧ f.changeNameBefore = [] ∧
      ∃ A, f.meaning true (ins.map fun p => (p.1, p.2.1.ordered st p.2.2)) = some A ∧ A.Same S) :
    Computes rand cast make st (ins.map fun p => (p.1, p.2.1)) S := by
  intro list
  obtain ⟨e1, f, e2, hb, A, hA, hS⟩ := hm list
  refine ⟨f, names, e1.trans e2, fun calls dict hd => ?_⟩
  have life : FTN.Life rand cast false f names := runOps_life ops (.new list names true 10 (Or.inl rfl)) e2
  obtain ⟨⟨b, life'⟩, k1, k2, k3, k4⟩ := after_life calls life
  have hmem : ∀ p ∈ dict, ∃ q ∈ ins, q.1 = p.1 ∧ q.2.1 = p.2 := by
    intro p hp
    obtain ⟨q, hq, rfl⟩ := List.mem_map.mp (hd.mem_iff.mp hp)
    exact ⟨q, hq, rfl, rfl⟩
  have keys : (dict.map Prod.fst).Perm (ins.map Prod.fst) := by
    have := hd.map Prod.fst
    rw [List.map_map] at this
    exact this
  have inp : FTNInput st names dict := by
    refine ⟨w, hn.trans keys.symm, nd, hne, ?_, ?_, ?_, ?_, ?_⟩
    · intro p hp
      obtain ⟨q, hq, _, e⟩ := hmem p hp
      rw [← e]
      exact ⟨(h q hq).good, (h q hq).dense⟩
    · intro p hp e0
      obtain ⟨q, hq, _, e⟩ := hmem p hp
      rw [← e] at e0
      have := (h q hq).labels
      rw [e0] at this
      exact (hl q hq).2 this.symm.eq_nil
    · intro p hp
      obtain ⟨q, hq, _, e⟩ := hmem p hp
      rw [← e]
      exact (h q hq).known
    · intro p hp
      obtain ⟨q, hq, _, e⟩ := hmem p hp
      rw [← e]
      exact (h q hq).labels.nodup_iff.mpr (hl q hq).1
    · intro p hp
      obtain ⟨q, hq, _, e⟩ := hmem p hp
      rw [← e]
      exact (h q hq).pos
  have same : SameInputs (dict.map fun p => (p.1, p.2.labelled st)) (ins.map fun p => (p.1, p.2.1.ordered st p.2.2)) := by
    refine ⟨ins.map fun p => (p.1, p.2.1.labelled st), ?_, ?_⟩
    · have := hd.map fun p => (p.1, p.2.labelled st)
      rw [List.map_map] at this
      exact this
    · rw [List.forall₂_map_left_iff, List.forall₂_map_right_iff]
      exact List.forall₂_same.mpr fun p hp => ⟨rfl, (h p hp).same⟩
  obtain ⟨B, hB, sB⟩ := meaning_same hb same hA
  have hB' : (f.after rand cast names calls).meaning true (dict.map fun p => (p.1, p.2.labelled st)) = some B := by
    rw [← hB]
    unfold FTN.meaning
    rw [k1, k2, k3, k4]
  obtain ⟨rounds, hr⟩ := contract_outcome rand cast life' inp hB'
  refine ⟨rounds, fun fuel hf => ?_⟩
  obtain ⟨f', st', t, e, o⟩ := hr fuel hf
  exact ⟨f', st', t, e, { o with rep := hS.represents (sB.represents o.rep) }⟩

/-! ### Evaluation of the meaning on arrays with known labels -/

namespace LArr

/-- Summation over all links. -/
def joinAll [Zero R] [Add R] (A : LArr R) : List ((String × String) × (String × String)) → LArr R
  | [] => A
  | l :: ls => (A.join l.1.2 l.2.2).joinAll ls

/-- All fusions. -/
def fuseAll (A : LArr R) : List (List OutLabel × String) → LArr R
  | [] => A
  | f :: fs => (A.fuse (f.1.map OutLabel.meant) (withTag "res" f.2)).fuseAll fs

end LArr

/-- The labels after the links, if these fit. -/
def linkCheck (sig : List (String × List String)) : List String → List ((String × String) × (String × String)) →
    Option (List String)
  | L, [] => some L
  | L, ((a, x), (b, y)) :: ls =>
    if a ≠ b ∧ (∃ s ∈ sig, s.1 = a ∧ x ∈ s.2) ∧ (∃ s ∈ sig, s.1 = b ∧ y ∈ s.2) ∧ x ∈ L ∧ y ∈ L then
      linkCheck sig (L.filter fun z => decide (z ≠ x ∧ z ≠ y)) ls
    else none

/-- The labels after the fusions, if these fit. -/
def fuseCheck : List String → List (List OutLabel × String) → Option (List String)
  | L, [] => some L
  | L, (os, n) :: fs =>
    let xs := os.map OutLabel.meant
    if xs ≠ [] ∧ xs.Nodup ∧ (∀ x ∈ xs, x ∈ L) ∧ ∀ x ∈ L, x ∉ xs → x ≠ withTag "res" n then
      fuseCheck (withTag "res" n :: L.filter fun z => decide (z ∉ xs)) fs
    else none

/-- The new name of a label after the renames. -/
def newName (rs : List (String × String × String)) (z : String) : String :=
  rs.foldl (fun z r => renameTo (withTag r.1 r.2.1) (withTag r.1 r.2.2) z) z

/-- Do the renames keep the labels different? -/
def renameCheck : List String → List (String × String × String) → Bool
  | _, [] => true
  | L, (n, x, y) :: rs =>
    let L' := L.map (renameTo (withTag n x) (withTag n y))
    decide L'.Nodup && renameCheck L' rs

/-- Everything about the labels of a contraction: the labels before the renames, if all declarations fit. -/
def netCheck (sig : List (String × List String)) (links : List ((String × String) × (String × String)))
    (fus : List (List OutLabel × String)) (ren : List (String × String × String)) : Option (List String) :=
  let tagged := sig.map fun s => (s.1, s.2.map (withTag s.1))
  if (∀ s ∈ sig, ∀ x ∈ s.2, '-' ∉ x.toList) ∧ (tagged.flatMap Prod.snd).Nodup then
    (linkCheck tagged (tagged.flatMap Prod.snd) links).bind fun L => (fuseCheck L fus).bind fun L =>
      if renameCheck L ren = true ∧ (L.map fun z => withoutTag (newName ren z)).Nodup then some L else none
  else none

theorem LArr.Same.trans {A B C : LArr R} (h : A.Same B) (k : B.Same C) : A.Same C := by
  refine ⟨h.labels.trans k.labels, fun x hx => (h.dims x hx).trans (k.dims x (h.mem.mp hx)), fun τ hτ => ?_⟩
  rw [h.val τ hτ]
  refine k.val τ fun x hx => ?_
  rw [← h.dims x (h.mem.mpr hx)]
  exact hτ x (h.mem.mpr hx)

theorem joined_eval [Zero R] [Add R] {As : List (String × LArr R)} {sig : List (String × List String)}
    (hs : As.map (fun p => (p.1, p.2.labels)) = sig) :
    ∀ (ls : List ((String × String) × (String × String))) (A : LArr R) {L : List String}, linkCheck sig A.labels ls = some L →
      (∀ l ∈ ls, A.dim l.1.2 = A.dim l.2.2) →
      joined As A ls = some (A.joinAll ls) ∧ (A.joinAll ls).labels = L ∧ (A.joinAll ls).dim = A.dim
  | [], A, L, h, _ => ⟨rfl, Option.some.inj h, rfl⟩
  | ((a, x), (b, y)) :: ls, A, L, h, hd => by
    unfold linkCheck at h
    split at h
    · rename_i hc
      obtain ⟨h1, h2, h3, h4, h5⟩ := hc
      have ax : ∀ {a x : String}, (∃ s ∈ sig, s.1 = a ∧ x ∈ s.2) → HasAxis As a x := by
        rintro a x ⟨s, hm, e, hx⟩
        rw [← hs] at hm
        obtain ⟨p, hp, rfl⟩ := List.mem_map.mp hm
        exact ⟨p, hp, e, hx⟩
      have hd0 := hd _ (List.mem_cons_self ..)
      unfold joined
      rw [if_pos ⟨h1, ax h2, ax h3, h4, h5, hd0⟩]
      exact joined_eval hs ls (A.join x y) h fun l hl => hd l (List.mem_cons_of_mem _ hl)
    · cases h

theorem fused_eval : ∀ (fs : List (List OutLabel × String)) (A : LArr R) {L : List String}, fuseCheck A.labels fs = some L →
    fused A fs = some (A.fuseAll fs) ∧ (A.fuseAll fs).labels = L
  | [], A, L, h => ⟨rfl, Option.some.inj h⟩
  | (os, n) :: fs, A, L, h => by
    unfold fuseCheck at h
    simp only at h
    split at h
    · rename_i hc
      unfold fused
      simp only
      rw [if_pos hc]
      exact fused_eval fs (A.fuse (os.map OutLabel.meant) (withTag "res" n)) h
    · cases h

theorem renamedAfter_eval : ∀ (rs : List (String × String × String)) (A : LArr R), A.labels.Nodup →
    renameCheck A.labels rs = true →
    ∃ B, renamedAfter A rs = some B ∧ B.labels = A.labels.map (newName rs) ∧ B.labels.Nodup ∧
      (∀ w ∈ A.labels, B.dim (newName rs w) = A.dim w) ∧ ∀ τ, B.val τ = A.val fun z => τ (newName rs z)
  | [], A, nd, _ => ⟨A, rfl, by show A.labels = A.labels.map (fun z => z); rw [List.map_id'], nd, fun _ _ => rfl, fun _ => rfl⟩
  | (n, x, y) :: rs, A, nd, h => by
    unfold renameCheck at h
    simp only [Bool.and_eq_true, decide_eq_true_eq] at h
    obtain ⟨nd', h⟩ := h
    obtain ⟨B, e, el, ndB, hd, hv⟩ := renamedAfter_eval rs (A.relabel (renameTo (withTag n x) (withTag n y))) nd' h
    refine ⟨B, ?_, ?_, ndB, ?_, ?_⟩
    · unfold renamedAfter LArr.relabel?
      rw [if_pos nd', Option.bind_some]
      exact e
    · rw [el]
      unfold LArr.relabel
      simp only [List.map_map]
      rfl
    · intro w hw
      have := hd (renameTo (withTag n x) (withTag n y) w) (List.mem_map_of_mem hw)
      rw [A.relabel_dim nd' hw] at this
      exact this
    · intro τ
      rw [hv τ]
      rfl

/-- The meaning of a network, evaluated. -/
theorem meaning_eval [CommSemiring R] {f : FTN} (hb : f.changeNameBefore = []) {As : List (String × LArr R)}
    {sig : List (String × List String)} (hs : As.map (fun p => (p.1, p.2.labels)) = sig) {L : List String}
    (hc : netCheck sig f.links f.outProductAfter f.changeNameAfter = some L) {P : LArr R}
    (hP : (LArr.prod (As.map fun p => p.2.relabel (withTag p.1))).Same P)
    (hPl : P.labels = (sig.map fun s => (s.1, s.2.map (withTag s.1))).flatMap Prod.snd)
    (hd : ∀ l ∈ f.links, P.dim l.1.2 = P.dim l.2.2) {S : LArr R}
    (sl : (L.map fun z => withoutTag (newName f.changeNameAfter z)).Perm S.labels)
    (sd : ∀ w ∈ L, ((P.joinAll f.links).fuseAll f.outProductAfter).dim w = S.dim (withoutTag (newName f.changeNameAfter w)))
    (sv : ∀ τ, ((P.joinAll f.links).fuseAll f.outProductAfter).val (fun z => τ (withoutTag (newName f.changeNameAfter z)))
      = S.val τ) :
    ∃ A, f.meaning true As = some A ∧ A.Same S := by
  unfold netCheck at hc
  simp only at hc
  split at hc
  · rename_i hc1
    obtain ⟨hdash, nd⟩ := hc1
    rcases h1 : linkCheck (sig.map fun s => (s.1, s.2.map (withTag s.1)))
      ((sig.map fun s => (s.1, s.2.map (withTag s.1))).flatMap Prod.snd) f.links with _ | L1
    · simp [h1] at hc
    rw [h1, Option.bind_some] at hc
    rcases h2 : fuseCheck L1 f.outProductAfter with _ | L2
    · simp [h2] at hc
    rw [h2, Option.bind_some] at hc
    split at hc
    · rename_i hc2
      obtain ⟨hr, ndf⟩ := hc2
      cases hc
      have tags : As.mapM tagOne = some (As.map fun p => (p.1, p.2.relabel (withTag p.1))) := by
        have each : ∀ p ∈ As, tagOne p = some (p.1, p.2.relabel (withTag p.1)) := by
          intro p hp
          have hm : (p.1, p.2.labels) ∈ sig := by
            rw [← hs]
            exact List.mem_map.mpr ⟨p, hp, rfl⟩
          have ndp : (p.2.labels.map (withTag p.1)).Nodup :=
            (List.nodup_flatMap.mp nd).1 (p.1, p.2.labels.map (withTag p.1)) (List.mem_map.mpr ⟨_, hm, rfl⟩)
          unfold tagOne LArr.relabel?
          rw [if_pos fun x hx => hdash _ hm x hx, if_pos ndp, Option.map_some]
        clear * - each
        induction As with
        | nil => rfl
        | cons p As ih =>
          rw [List.mapM_cons, each p (List.mem_cons_self ..), ih fun q hq => each q (List.mem_cons_of_mem _ hq)]
          rfl
      have hs' : (As.map fun p => (p.1, p.2.relabel (withTag p.1))).map (fun p => (p.1, p.2.labels)) =
          sig.map fun s => (s.1, s.2.map (withTag s.1)) := by
        rw [← hs, List.map_map, List.map_map]
        rfl
      have ndP : P.labels.Nodup := by rw [hPl]; exact nd
      have hmap : (As.map fun p => (p.1, p.2.relabel (withTag p.1))).map Prod.snd = As.map fun p => p.2.relabel (withTag p.1) := by
        rw [List.map_map]
        rfl
      obtain ⟨eJ, lJ, _⟩ := joined_eval hs' f.links P (by rw [hPl]; exact h1) hd
      have self : ∀ Xs : List (String × LArr R), SameInputs Xs Xs := fun Xs =>
        ⟨Xs, .refl _, List.forall₂_same.mpr fun p _ => ⟨rfl, .refl _⟩⟩
      obtain ⟨J, eJ', sJ⟩ := joined_same (self _) f.links hP eJ
      obtain ⟨eF, lF⟩ := fused_eval f.outProductAfter (P.joinAll f.links) (by rw [lJ]; exact h2)
      obtain ⟨F, eF', sF⟩ := fused_same f.outProductAfter sJ eF
      have ndF : ((P.joinAll f.links).fuseAll f.outProductAfter).labels.Nodup := by
        rw [lF]
        have := ndf
        exact List.Nodup.of_map _ this
      obtain ⟨G, eG, lG, ndG, dG, vG⟩ := renamedAfter_eval f.changeNameAfter _ ndF (by rw [lF]; exact hr)
      obtain ⟨G', eG', sG⟩ := renamedAfter_same f.changeNameAfter sF eG
      have ndU : (G.labels.map withoutTag).Nodup := by
        rw [lG, lF, List.map_map]
        exact ndf
      have eU : G.relabel? withoutTag = some (G.relabel withoutTag) := by
        unfold LArr.relabel?
        rw [if_pos ndU]
      obtain ⟨A, eA, sA⟩ := sG.relabel? eU
      refine ⟨A, ?_, sA.trans ⟨?_, ?_, ?_⟩⟩
      · unfold FTN.meaning
        simp only [hb, renamed, Option.bind_eq_bind, Option.bind_some, tags]
        rw [if_neg (by rw [not_not, hmap]; exact hP.nodup.mpr ndP), hmap, eJ', Option.bind_some, eF', Option.bind_some, eG',
          Option.bind_some]
        exact eA
      · show (G.labels.map withoutTag).Perm _
        rw [lG, lF, List.map_map]
        exact sl
      · intro z hz
        obtain ⟨y, hy, rfl⟩ := List.mem_map.mp hz
        rw [G.relabel_dim ndU hy]
        rw [lG] at hy
        obtain ⟨w, hw, rfl⟩ := List.mem_map.mp hy
        rw [dG w hw]
        rw [lF] at hw
        exact sd w hw
      · intro τ _
        show G.val (fun x => τ (withoutTag x)) = _
        rw [vG, ← sv τ]
    · cases hc
  · cases hc

/-- The product of the tensors of a network, with tags. -/
def planArr [CommSemiring R] (st : Store) (ins : List (String × Tensor R × List String)) : LArr R where
  labels := ins.flatMap fun p => p.2.2.map (withTag p.1)
  dim := indexAt (ins.flatMap fun p => p.2.2.map fun x => (withTag p.1 x, p.2.1.dimOf st x))
  val := fun τ => (ins.map fun p => p.2.1.at st (p.2.2.map fun x => (x, τ (withTag p.1 x)))).prod

theorem indexAt_mem {d : List (String × Nat)} (nd : (d.map Prod.fst).Nodup) {x : String} {i : Nat} (h : (x, i) ∈ d) :
    indexAt d x = i := by
  induction d with
  | nil => cases h
  | cons p d ih =>
    rw [List.map_cons, List.nodup_cons] at nd
    obtain ⟨y, j⟩ := p
    rw [indexAt]
    rcases List.mem_cons.mp h with e | h
    · cases e
      rw [if_pos rfl]
    · have : x ≠ y := fun e => nd.1 (e ▸ List.mem_map.mpr ⟨_, h, rfl⟩)
      rw [if_neg this]
      exact ih nd.2 h

theorem planArr_same [CommSemiring R] (st : Store) (ins : List (String × Tensor R × List String))
    (nd : (ins.flatMap fun p => p.2.2.map (withTag p.1)).Nodup) :
    (LArr.prod ((ins.map fun p => (p.1, p.2.1.ordered st p.2.2)).map fun p => p.2.relabel (withTag p.1))).Same
      (planArr st ins) := by
  rw [List.map_map]
  have hl : ((ins.map ((fun p => p.2.relabel (withTag p.1)) ∘ fun p => (p.1, p.2.1.ordered st p.2.2))).flatMap
      fun A => A.labels) = ins.flatMap fun p => p.2.2.map (withTag p.1) := by
    rw [List.flatMap_map]
    rfl
  refine ⟨?_, ?_, ?_⟩
  · show List.Perm (List.flatMap _ _) _
    rw [hl]
    exact .refl _
  · intro z hz
    obtain ⟨A, hA, hzA⟩ := List.mem_flatMap.mp hz
    rw [prod_dim (by rw [hl]; exact nd) A hA z hzA]
    obtain ⟨p, hp, rfl⟩ := List.mem_map.mp hA
    obtain ⟨x, hx, rfl⟩ := List.mem_map.mp hzA
    have ndp : (p.2.2.map (withTag p.1)).Nodup := (List.nodup_flatMap.mp nd).1 p hp
    have e := (p.2.1.ordered st p.2.2).relabel_dim (f := withTag p.1) ndp hx
    refine e.trans (Eq.symm (indexAt_mem ?_ ?_))
    · rw [List.map_flatMap]
      simpa [List.map_map, Function.comp_def] using nd
    · exact List.mem_flatMap.mpr ⟨p, hp, List.mem_map.mpr ⟨x, hx, rfl⟩⟩
  · intro τ _
    show (List.map _ _).prod = _
    rw [List.map_map]
    rfl

/-- What the network returned by `make` says: the links, the fusions, and the array that its inputs stand for. -/
def NetMeans [CommSemiring R] (make : Nat → Except PyErr (FTN × List String)) (names : List String)
    (links : List ((String × String) × (String × String))) (fus : List (List OutLabel × String)) (st : Store)
    (ins : List (String × Tensor R × List String)) (S : LArr R) : Prop :=
  ∃ ops, ∀ list, make list = FTN.made list names ops ∧ ∃ f, FTN.made list names ops = .ok (f, names) ∧ f.changeNameBefore = [] ∧
    f.links = links ∧ f.outProductAfter = fus ∧
    ∃ A, f.meaning true (ins.map fun p => (p.1, p.2.1.ordered st p.2.2)) = some A ∧ A.Same S

/-- A ready-made network stands for the array `S` if the labels fit and `S` is the evaluated sum. -/
theorem means_eval [CommSemiring R] {make : Nat → Except PyErr (FTN × List String)}
    {st : Store} (ins : List (String × Tensor R × List String)) (names : List String)
    (sig : List (String × List String))
    (hsig : ins.map (fun p => (p.1, p.2.2)) = sig) (ops : List NetOp)
    {links' : List ((String × String) × (String × String))} {fus' : List (List OutLabel × String)}
    (links : List ((String × String) × (String × String))) (fus : List (List OutLabel × String))
    (ren : List (String × String × String)) (L : List String) (el : links' = links) (ef : fus' = fus)
    (hm : ∀ list, make list = FTN.made list names ops ∧ ∃ f, FTN.made list names ops = .ok (f, names) ∧ f.changeNameBefore = [] ∧
      f.links = links' ∧ f.outProductAfter = fus' ∧ f.changeNameAfter = ren)
    (hc : netCheck sig links fus ren = some L) (hd : ∀ l ∈ links, (planArr st ins).dim l.1.2 = (planArr st ins).dim l.2.2)
    {S : LArr R} (sl : (L.map fun z => withoutTag (newName ren z)).Perm S.labels)
    (sd : ∀ w ∈ L, (((planArr st ins).joinAll links).fuseAll fus).dim w = S.dim (withoutTag (newName ren w)))
    (sv : ∀ τ, (((planArr st ins).joinAll links).fuseAll fus).val (fun z => τ (withoutTag (newName ren z))) = S.val τ) :
    NetMeans make names links fus st ins S := by
  have hchk := hc
  unfold netCheck at hchk
  simp only at hchk
  split at hchk
  · rename_i hc1
    have ndt := hc1.2
    have eqt : (sig.map fun s => (s.1, s.2.map (withTag s.1))).flatMap Prod.snd = ins.flatMap fun p => p.2.2.map (withTag p.1) := by
      rw [← hsig, List.map_map, List.flatMap_map]
      rfl
    rw [eqt] at ndt
    refine ⟨ops, fun list => ?_⟩
    subst el ef
    obtain ⟨e1, f, e2, hb, el, eo, er⟩ := hm list
    refine ⟨e1, f, e2, hb, el, eo, ?_⟩
    subst el eo er
    refine meaning_eval hb ?_ hc (planArr_same st ins ndt) eqt.symm hd sl sd sv
    rw [List.map_map, ← hsig]
    rfl
  · cases hchk

/-- The sum over the indices of the links, the last link outermost. -/
def sumLinks [AddCommMonoid R] (dim : String → Nat) (v : (String → Nat) → R) :
    List ((String × String) × (String × String)) → (String → Nat) → R
  | [], τ => v τ
  | l :: ls, τ => ∑ k ∈ Finset.range (dim l.1.2), sumLinks dim v ls fun z => if z = l.1.2 ∨ z = l.2.2 then k else τ z

theorem sumLinks_append [AddCommMonoid R] (dim : String → Nat) (v : (String → Nat) → R)
    (l : (String × String) × (String × String)) : ∀ (ls : List ((String × String) × (String × String))) (τ : String → Nat),
    sumLinks dim v (ls ++ [l]) τ =
      sumLinks dim (fun τ => ∑ k ∈ Finset.range (dim l.1.2), v fun z => if z = l.1.2 ∨ z = l.2.2 then k else τ z) ls τ
  | [], _ => rfl
  | a :: ls, τ => Finset.sum_congr rfl fun k _ => sumLinks_append dim v l ls _

theorem joinAll_val [AddCommMonoid R] : ∀ (ls : List ((String × String) × (String × String))) (A : LArr R) (τ : String → Nat),
    (A.joinAll ls).val τ = sumLinks A.dim A.val ls.reverse τ
  | [], _, _ => rfl
  | l :: ls, A, τ => by
    rw [List.reverse_cons, sumLinks_append, LArr.joinAll, joinAll_val ls]
    rfl

theorem joinAll_dim [AddCommMonoid R] : ∀ (ls : List ((String × String) × (String × String))) (A : LArr R),
    (A.joinAll ls).dim = A.dim
  | [], _ => rfl
  | l :: ls, A => by
    rw [LArr.joinAll, joinAll_dim ls]
    rfl

/-- The dimensions after the fusions. -/
def fuseDim (dim : String → Nat) : List (List OutLabel × String) → String → Nat
  | [] => dim
  | f :: fs => fuseDim (fun z => if z = withTag "res" f.2 then ((f.1.map OutLabel.meant).map dim).prod else dim z) fs

/-- The index of each label from the indices after the fusions. -/
def fuseIdx (dim : String → Nat) : List (List OutLabel × String) → (String → Nat) → String → Nat
  | [], τ, z => τ z
  | f :: fs, τ, z =>
    let dim' := fun z => if z = withTag "res" f.2 then ((f.1.map OutLabel.meant).map dim).prod else dim z
    if z ∈ f.1.map OutLabel.meant then
      (LArr.digits ((f.1.map OutLabel.meant).map dim) (fuseIdx dim' fs τ (withTag "res" f.2))).getD
        ((f.1.map OutLabel.meant).idxOf z) 0
    else fuseIdx dim' fs τ z

theorem fuseAll_dim : ∀ (fs : List (List OutLabel × String)) (A : LArr R), (A.fuseAll fs).dim = fuseDim A.dim fs
  | [], _ => rfl
  | f :: fs, A => by
    rw [LArr.fuseAll, fuseAll_dim fs]
    rfl

theorem fuseAll_val : ∀ (fs : List (List OutLabel × String)) (A : LArr R) (τ : String → Nat),
    (A.fuseAll fs).val τ = A.val (fuseIdx A.dim fs τ)
  | [], _, _ => rfl
  | f :: fs, A, τ => by
    rw [LArr.fuseAll, fuseAll_val fs]
    rfl

/-- The number of the link a label belongs to. -/
def linkPos : List ((String × String) × (String × String)) → String → Option Nat
  | [], _ => none
  | l :: ls, z => if z = l.1.2 ∨ z = l.2.2 then some 0 else (linkPos ls z).map (· + 1)

/-- The index of a label: that of its link, or the given one. -/
def posIdx (ks : List Nat) (i : Nat) : Option Nat → Nat
  | none => i
  | some p => ks.getD p 0

/-- The sum over lists with one index for each link, the last link outermost. -/
def sumLists [AddCommMonoid R] (dim : String → Nat) (v : List Nat → R) :
    List ((String × String) × (String × String)) → List Nat → R
  | [], ks => v ks
  | l :: ls, ks => ∑ k ∈ Finset.range (dim l.1.2), sumLists dim v ls (k :: ks)

theorem sumLinks_lists [AddCommMonoid R] (dim : String → Nat) (v : (String → Nat) → R) (τ : String → Nat) :
    ∀ (ls D : List ((String × String) × (String × String))) (ks : List Nat),
      sumLinks dim v ls (fun z => posIdx ks (τ z) (linkPos D z)) =
        sumLists dim (fun ks => v fun z => posIdx ks (τ z) (linkPos (ls.reverse ++ D) z)) ls ks
  | [], D, ks => rfl
  | l :: ls, D, ks => by
    rw [sumLinks, sumLists]
    refine Finset.sum_congr rfl fun k _ => ?_
    have e : (fun z => if z = l.1.2 ∨ z = l.2.2 then k else posIdx ks (τ z) (linkPos D z)) =
        fun z => posIdx (k :: ks) (τ z) (linkPos (l :: D) z) := by
      funext z
      rw [linkPos]
      split
      · rfl
      · cases linkPos D z <;> rfl
    rw [e, sumLinks_lists dim v τ ls (l :: D) (k :: ks)]
    simp only [List.reverse_cons, List.append_assoc, List.singleton_append]

/-- The dimension of a leg of one of the tensors. -/
def dimN (st : Store) : List (String × Tensor R × List String) → String → String → Nat
  | [], _, _ => 0
  | p :: ps, a, x => if a = p.1 then p.2.1.dimOf st x else dimN st ps a x

theorem dimN_mem {st : Store} : ∀ {ins : List (String × Tensor R × List String)} (_ : (ins.map Prod.fst).Nodup)
    {p : String × Tensor R × List String} (_ : p ∈ ins) (x : String), dimN st ins p.1 x = p.2.1.dimOf st x
  | q :: ins, nd, p, hp, x => by
    rw [List.map_cons, List.nodup_cons] at nd
    unfold dimN
    rcases List.mem_cons.mp hp with rfl | hp
    · rw [if_pos rfl]
    · rw [if_neg fun e : p.1 = q.1 => nd.1 (e ▸ List.mem_map.mpr ⟨p, hp, rfl⟩)]
      exact dimN_mem nd.2 hp x

/-- `planArr` at a label. -/
theorem planArr_dim [CommSemiring R] {st : Store} {ins : List (String × Tensor R × List String)}
    (nd : (ins.flatMap fun p => p.2.2.map (withTag p.1)).Nodup) (ndn : (ins.map Prod.fst).Nodup) {a x : String}
    (h : ∃ s ∈ ins.map (fun p => (p.1, p.2.2)), s.1 = a ∧ x ∈ s.2) : (planArr st ins).dim (withTag a x) = dimN st ins a x := by
  obtain ⟨s, hs, rfl, hx⟩ := h
  obtain ⟨p, hp, rfl⟩ := List.mem_map.mp hs
  rw [dimN_mem ndn hp]
  refine indexAt_mem ?_ (List.mem_flatMap.mpr ⟨p, hp, List.mem_map.mpr ⟨x, hx, rfl⟩⟩)
  rw [List.map_flatMap]
  simpa [List.map_map, Function.comp_def] using nd

/-- The sum over the links, given by tensor and label. -/
def sumRaw [AddCommMonoid R] (dim : String → String → Nat) (v : List Nat → R) :
    List (String × String × String × String) → List Nat → R
  | [], ks => v ks
  | (a, x, _, _) :: ls, ks => ∑ k ∈ Finset.range (dim a x), sumRaw dim v ls (k :: ks)

theorem sumRaw_cons [AddCommMonoid R] {dim : String → String → Nat} {v : List Nat → R} {a x b y : String}
    {ls : List (String × String × String × String)} {ks : List Nat} {n : Nat} {F : Nat → R} (h : dim a x = n)
    (H : ∀ k, sumRaw dim v ls (k :: ks) = F k) : sumRaw dim v ((a, x, b, y) :: ls) ks = ∑ k ∈ Finset.range n, F k := by
  rw [sumRaw, h]
  exact Finset.sum_congr rfl fun k _ => H k

theorem sumRaw_nil [AddCommMonoid R] {dim : String → String → Nat} {v : List Nat → R} {ks : List Nat} {x : R} (h : v ks = x) :
    sumRaw dim v [] ks = x := h

/-- The link in the form of the specification. -/
def rawLink (l : String × String × String × String) : (String × String) × (String × String) :=
  ((l.1, withTag l.1 l.2.1), (l.2.2.1, withTag l.2.2.1 l.2.2.2))

theorem sumLists_raw [AddCommMonoid R] {dim : String → Nat} {dim' : String → String → Nat} (v : List Nat → R) :
    ∀ (ls : List (String × String × String × String)) (_ : ∀ l ∈ ls, dim (withTag l.1 l.2.1) = dim' l.1 l.2.1) (ks : List Nat),
      sumLists dim v (ls.map rawLink) ks = sumRaw dim' v ls ks
  | [], _, _ => rfl
  | l :: ls, h, ks => by
    rw [List.map_cons, sumLists, sumRaw]
    refine Finset.sum_congr ?_ fun k _ => sumLists_raw v ls (fun l hl => h l (List.mem_cons_of_mem _ hl)) _
    rw [← h l (List.mem_cons_self ..)]
    rfl

/-- The product of the entries, the indices being given by a table. -/
def tableProd [CommSemiring R] (st : Store) (τ : String → Nat) (ks : List Nat) :
    List (String × Tensor R × List String) → List (List (String × Option Nat)) → R
  | p :: ps, row :: rows =>
    p.2.1.at st (row.map fun c => (c.1, posIdx ks (τ (withTag p.1 c.1)) c.2)) * tableProd st τ ks ps rows
  | _, _ => 1

theorem tableProd_eq [CommSemiring R] (st : Store) (τ : String → Nat) (ks : List Nat)
    (D : List ((String × String) × (String × String))) : ∀ ins : List (String × Tensor R × List String),
    (ins.map fun p => p.2.1.at st (p.2.2.map fun x => (x, posIdx ks (τ (withTag p.1 x)) (linkPos D (withTag p.1 x))))).prod =
      tableProd st τ ks ins ((ins.map fun p => (p.1, p.2.2)).map fun s => s.2.map fun x => (x, linkPos D (withTag s.1 x)))
  | [] => rfl
  | p :: ins => by
    rw [List.map_cons, List.prod_cons, tableProd_eq st τ ks D ins]
    simp only [List.map_cons, tableProd, List.map_map]
    rfl

/-- `means_eval` with all the work on labels done beforehand. -/
theorem means_table [CommSemiring R]
    {make : Nat → Except PyErr (FTN × List String)} {st : Store}
    (ins : List (String × Tensor R × List String)) (names : List String)
    (sig : List (String × List String))
    (hsig : ins.map (fun p => (p.1, p.2.2)) = sig)
    (hn : names.Perm (sig.map Prod.fst)) (nd : names.Nodup) (ops : List NetOp)
    {links' : List ((String × String) × (String × String))} {fus' : List (List OutLabel × String)}
    (raw : List (String × String × String × String)) (fus : List (List OutLabel × String))
    (ren : List (String × String × String)) (L : List String) (el : links' = raw.map rawLink) (ef : fus' = fus)
    (tab : List (List (String × Option Nat)))
    (htab : (sig.map fun s => s.2.map fun x => (x, linkPos (raw.map rawLink) (withTag s.1 x))) = tab)
    (hraw : ∀ l ∈ raw, (∃ s ∈ sig, s.1 = l.1 ∧ l.2.1 ∈ s.2) ∧ ∃ s ∈ sig, s.1 = l.2.2.1 ∧ l.2.2.2 ∈ s.2)
    (hm : ∀ list, make list = FTN.made list names ops ∧ ∃ f, FTN.made list names ops = .ok (f, names) ∧ f.changeNameBefore = [] ∧
      f.links = links' ∧ f.outProductAfter = fus' ∧ f.changeNameAfter = ren)
    (hc : netCheck sig (raw.map rawLink) fus ren = some L)
    (hd : ∀ l ∈ raw, dimN st ins l.1 l.2.1 = dimN st ins l.2.2.1 l.2.2.2)
    {S : LArr R} (sl : (L.map fun z => withoutTag (newName ren z)).Perm S.labels)
    {rev : List (String × String × String × String)} (hrev : raw.reverse = rev) (need : List (String × String × String))
    (hneed : ∀ q ∈ need, q.1 = withTag q.2.1 q.2.2 ∧ ∃ s ∈ sig, s.1 = q.2.1 ∧ q.2.2 ∈ s.2)
    (sd : ∀ dim : String → Nat, (∀ q ∈ need, dim q.1 = dimN st ins q.2.1 q.2.2) →
      ∀ w ∈ L, fuseDim dim fus w = S.dim (withoutTag (newName ren w)))
    (sv : ∀ (dim : String → Nat) τ, (∀ q ∈ need, dim q.1 = dimN st ins q.2.1 q.2.2) → sumRaw (dimN st ins) (fun ks =>
      tableProd st (fuseIdx dim fus fun z => τ (withoutTag (newName ren z))) ks ins tab) rev [] = S.val τ) :
    NetMeans make names (raw.map rawLink) fus st ins S := by
  have hc1 : ((sig.map fun s => (s.1, s.2.map (withTag s.1))).flatMap Prod.snd).Nodup := by
    unfold netCheck at hc
    simp only at hc
    split at hc
    · rename_i hc1
      exact hc1.2
    · cases hc
  have ndt : (ins.flatMap fun p => p.2.2.map (withTag p.1)).Nodup := by
    rw [← hsig, List.map_map, List.flatMap_map] at hc1
    exact hc1
  have ndn : (ins.map Prod.fst).Nodup := by
    have e : ins.map Prod.fst = sig.map Prod.fst := by rw [← hsig, List.map_map]; rfl
    rw [e]
    exact hn.nodup_iff.mp nd
  have hdim : ∀ {a x : String}, (∃ s ∈ sig, s.1 = a ∧ x ∈ s.2) → (planArr st ins).dim (withTag a x) = dimN st ins a x := by
    intro a x hs
    refine planArr_dim ndt ndn ?_
    rw [hsig]
    exact hs
  have hall : ∀ q ∈ need, (planArr st ins).dim q.1 = dimN st ins q.2.1 q.2.2 := fun q hq => by
    rw [(hneed q hq).1]
    exact hdim (hneed q hq).2
  subst hrev
  refine means_eval ins names sig hsig ops (raw.map rawLink) fus ren L el ef hm hc ?_ sl ?_ ?_
  · intro l hl
    obtain ⟨r, hr, rfl⟩ := List.mem_map.mp hl
    obtain ⟨h1, h2⟩ := hraw r hr
    exact (hdim h1).trans ((hd r hr).trans (hdim h2).symm)
  · intro z hz
    rw [fuseAll_dim, joinAll_dim]
    exact sd _ hall z hz
  · intro τ
    rw [fuseAll_val, joinAll_val, joinAll_dim, ← sv _ τ hall]
    have e := sumLinks_lists (planArr st ins).dim (planArr st ins).val
      (fuseIdx (planArr st ins).dim fus fun z => τ (withoutTag (newName ren z))) (raw.map rawLink).reverse [] []
    refine e.trans ?_
    rw [List.reverse_reverse, List.append_nil, ← List.map_reverse,
      sumLists_raw (dim' := dimN st ins) _ raw.reverse fun l hl => hdim (hraw l (List.mem_reverse.mp hl)).1]
    congr 1
    funext ks
    refine (tableProd_eq st _ ks (raw.map rawLink) ins).trans ?_
    rw [hsig, htab]

/-- A ready-made network contracts dense tensors to the array it stands for. -/
theorem computes_table [CommSemiring R] (rand : List Nat → List Nat → R) (cast : R → R)
    {make : Nat → Except PyErr (FTN × List String)} {st : Store} (w : WFStore st)
    (ins : List (String × Tensor R × List String)) (names : List String)
    (sig : List (String × List String)) (h : ∀ p ∈ ins, HasLabels st p.2.1 p.2.2)
    (hsig : ins.map (fun p => (p.1, p.2.2)) = sig) (hl : ∀ s ∈ sig, s.2 ≠ [])
    (hn : names.Perm (sig.map Prod.fst)) (nd : names.Nodup) (hne : names ≠ []) (ops : List NetOp)
    {links' : List ((String × String) × (String × String))} {fus' : List (List OutLabel × String)}
    (raw : List (String × String × String × String)) (fus : List (List OutLabel × String))
    (ren : List (String × String × String)) (L : List String) (el : links' = raw.map rawLink) (ef : fus' = fus)
    (tab : List (List (String × Option Nat)))
    (htab : (sig.map fun s => s.2.map fun x => (x, linkPos (raw.map rawLink) (withTag s.1 x))) = tab)
    (hraw : ∀ l ∈ raw, (∃ s ∈ sig, s.1 = l.1 ∧ l.2.1 ∈ s.2) ∧ ∃ s ∈ sig, s.1 = l.2.2.1 ∧ l.2.2.2 ∈ s.2)
    (hm : ∀ list, make list = FTN.made list names ops ∧ ∃ f, FTN.made list names ops = .ok (f, names) ∧ f.changeNameBefore = [] ∧
      f.links = links' ∧ f.outProductAfter = fus' ∧ f.changeNameAfter = ren)
    (hc : netCheck sig (raw.map rawLink) fus ren = some L)
    (hd : ∀ l ∈ raw, dimN st ins l.1 l.2.1 = dimN st ins l.2.2.1 l.2.2.2)
    {S : LArr R} (sl : (L.map fun z => withoutTag (newName ren z)).Perm S.labels)
    {rev : List (String × String × String × String)} (hrev : raw.reverse = rev) (need : List (String × String × String))
    (hneed : ∀ q ∈ need, q.1 = withTag q.2.1 q.2.2 ∧ ∃ s ∈ sig, s.1 = q.2.1 ∧ q.2.2 ∈ s.2)
    (sd : ∀ dim : String → Nat, (∀ q ∈ need, dim q.1 = dimN st ins q.2.1 q.2.2) →
      ∀ w ∈ L, fuseDim dim fus w = S.dim (withoutTag (newName ren w)))
    (sv : ∀ (dim : String → Nat) τ, (∀ q ∈ need, dim q.1 = dimN st ins q.2.1 q.2.2) → sumRaw (dimN st ins) (fun ks =>
      tableProd st (fuseIdx dim fus fun z => τ (withoutTag (newName ren z))) ks ins tab) rev [] = S.val τ) :
    Computes rand cast make st (ins.map fun p => (p.1, p.2.1)) S := by
  have hc1 : ((sig.map fun s => (s.1, s.2.map (withTag s.1))).flatMap Prod.snd).Nodup := by
    unfold netCheck at hc
    simp only at hc
    split at hc
    · rename_i hc1
      exact hc1.2
    · cases hc
  have ndt : (ins.flatMap fun p => p.2.2.map (withTag p.1)).Nodup := by
    rw [← hsig, List.map_map, List.flatMap_map] at hc1
    exact hc1
  have each : ∀ p ∈ ins, p.2.2.Nodup ∧ p.2.2 ≠ [] := fun p hp =>
    ⟨List.Nodup.of_map _ ((List.nodup_flatMap.mp ndt).1 p hp), hl (p.1, p.2.2) (by rw [← hsig]; exact List.mem_map.mpr ⟨p, hp, rfl⟩)⟩
  have hkeys : ins.map Prod.fst = sig.map Prod.fst := by rw [← hsig, List.map_map]; rfl
  obtain ⟨ops', M⟩ := means_table ins names sig hsig hn nd ops raw fus ren L el ef tab htab hraw hm hc hd sl hrev need hneed sd sv
  refine computes_of rand cast w ins h each (by rw [hkeys]; exact hn) nd hne ops' fun list => ?_
  obtain ⟨e1, f, e2, hb, -, -, A⟩ := M list
  exact ⟨e1, f, e2, hb, A⟩

theorem list_range_sum [AddCommMonoid R] (n : Nat) (f : Nat → R) : ((List.range n).map f).sum = ∑ i ∈ Finset.range n, f i := rfl

end CTL
