import Verif.Model.TNREnd

/-!
Model of the scaling of `sM` and of the new site in `doTNR` (`src/CTL/examples/TNR.py` 192-194 and 221-225).  `ncon` is taken as in
`Verif/Model/TNREnd.lean`; the eighth root and `numpy.linalg.norm` are parameters.
-/

namespace CTL
variable {K : Type}

/-- `TNR.py` 192: `Cmod`, the ring with `sM` on its four legs. -/
def nconMod [CommSemiring K] (C s : NDArray K) : Except PyErr (NDArray K) :=
  match C.shape, s.shape with
  | [i, j, k, l], [m, n] =>
    if i = m ∧ j = m ∧ k = m ∧ l = m then
      .ok (.build [n, n, n, n] fun idx => sumIdx i fun x1 => sumIdx j fun x2 => sumIdx k fun x3 => sumIdx l fun x4 =>
        C.get [x1, x2, x3, x4] * s.get [x1, idx.getD 0 0] * s.get [x2, idx.getD 1 0] * s.get [x3, idx.getD 2 0] * s.get [x4, idx.getD 3 0])
    else .error .valueError
  | _, _ => .error .valueError

/-- `TNR.py` 193: `ncon([A,A],[[1,2,3,4],[1,2,3,4]])`. -/
def nconSq [CommSemiring K] (a : NDArray K) : Except PyErr K :=
  match a.shape with
  | [i, j, k, l] =>
    .ok (sumIdx i fun x1 => sumIdx j fun x2 => sumIdx k fun x3 => sumIdx l fun x4 => a.get [x1, x2, x3, x4] * a.get [x1, x2, x3, x4])
  | _ => .error .valueError

/-- `TNR.py` 192-194: `sM / (Cnorm**(1/8))`; `root` is the eighth root. -/
def normS [Field K] (root : K → K) (C s : NDArray K) : Except PyErr (NDArray K) := do
  let cmod ← nconMod C s
  let a ← nconSq cmod
  let b ← nconSq C
  .ok (.build s.shape fun idx => s.get idx / root (a / b))

/-- `TNR.py` 221-223: `Atemp`, with the numbers of the indices as in the call of `ncon`. -/
def nconSite [CommSemiring K] (vM wM y s qA : NDArray K) : Except PyErr (NDArray K) :=
  match vM.shape, wM.shape, y.shape, s.shape, qA.shape with
  | [w1, w2, d1], [u1, u2, d2], [h, u, k], [m, k'], [v, w, m'] =>
    if (w1 = w ∧ w2 = w) ∧ (u1 = u ∧ u2 = u) ∧ k' = k ∧ m' = m then
      .ok (.build [d1, d2, d1, d2] fun idx =>
        sumOver [(14, k), (19, k), (20, k), (15, k)] (fun t =>
        sumOver [(10, w), (9, w), (6, v), (7, m), (8, m), (17, u), (18, u), (16, h)] (fun t =>
        sumOver [(4, w), (5, w), (3, v), (2, m), (1, m), (13, u), (12, u), (11, h)] (fun t =>
          vM.get [t 10, t 9, idx.getD 0 0] * s.get [t 7, t 19] * qA.get [t 6, t 9, t 7] * qA.get [t 6, t 10, t 8] * s.get [t 8, t 14] *
          wM.get [t 17, t 18, idx.getD 1 0] * y.get [t 16, t 17, t 19] * y.get [t 16, t 18, t 20] *
          vM.get [t 4, t 5, idx.getD 2 0] * s.get [t 1, t 20] * qA.get [t 3, t 4, t 1] * qA.get [t 3, t 5, t 2] * s.get [t 2, t 15] *
          wM.get [t 13, t 12, idx.getD 3 0] * y.get [t 11, t 12, t 14] * y.get [t 11, t 13, t 15]) t) t) fun _ => 0)
    else .error .valueError
  | _, _, _, _, _ => .error .valueError

/-- `TNR.py` 221-225: `Aout` and `Anorm`; `norm` is `numpy.linalg.norm`. -/
def newSite [Field K] (norm : NDArray K → K) (vM wM y s qA : NDArray K) : Except PyErr (NDArray K × K) := do
  let a ← nconSite vM wM y s qA
  let n := norm a
  .ok (.build a.shape fun idx => a.get idx / n, n)

end CTL
