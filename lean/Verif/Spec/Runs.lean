import Verif.Model.CuttingPlane

/-! # Specification vocabulary for the loops

`Feas/OptimRun` describe sequences of completed iterations; the `record` wrappers observe the calls
made to an oracle or a search space without changing what they answer. -/

namespace Ellalgo
variable {Ω S X T α : Type} [Scalar α]

/-- `FeasRun orc sp tol k w s w' s'`: starting in `(w, s)`, `k` consecutive iterations in each of which
the oracle answered with a cut, the update by that cut returned `Success`, and the measure `tsq` was
not below `tol`, lead to `(w', s')`. -/
inductive FeasRun (orc : OracleFeas Ω X T α) (sp : Space S X T α) (tol : α) :
    Nat → Ω → S → Ω → S → Prop
  | nil (w : Ω) (s : S) : FeasRun orc sp tol 0 w s w s
  | cons {k : Nat} {w w1 w2 : Ω} {s s1 s2 : S} {c : X × T}
      (hq : orc.assess w (sp.xc s) = .ok (some c, w1))
      (hu : sp.updateBias s c = .ok (.success, s1))
      (ht : Scalar.lt (sp.tsq s1) tol = false)
      (hr : FeasRun orc sp tol k w1 s1 w2 s2) : FeasRun orc sp tol (k + 1) w s w2 s2

/-- `OptimRun orc sp tol k (w,s,g) (w',s',g')`: `k` consecutive iterations in each of which the oracle
answered, the space was cut centrally if the oracle reported an improvement and by a bias cut
otherwise, with status `Success` and `tsq` not below `tol`. -/
inductive OptimRun (orc : OracleOptim Ω X T α) (sp : Space S X T α) (tol : α) :
    Nat → Ω × S × α → Ω × S × α → Prop
  | nil (st : Ω × S × α) : OptimRun orc sp tol 0 st st
  | cons {k : Nat} {w w1 : Ω} {s s1 : S} {g g1 : α} {c : X × T} {shrunk : Bool}
      {st : Ω × S × α}
      (hq : orc.assess w (sp.xc s) g = .ok ((c, shrunk), g1, w1))
      (hc : shrunk = true → sp.updateCentral s c = .ok (.success, s1))
      (hb : shrunk = false → sp.updateBias s c = .ok (.success, s1))
      (ht : Scalar.lt (sp.tsq s1) tol = false)
      (hr : OptimRun orc sp tol k (w1, s1, g1) st) : OptimRun orc sp tol (k + 1) (w, s, g) st

/-- the `retry` flag of the next call: set by `NoEffect`, cleared by `Success`; with `Unknown` it stays as it was, unless
the oracle has just reported an improvement -/
def retryAfter (retry shrunk : Bool) : CutStatus → Bool
  | .noEffect => true
  | .unknown => !shrunk && retry
  | _ => false

/-- `OptimQRun orc sp tol k (w,s,g,retry,best) (w',s',g',retry',best')`: `k` consecutive iterations of the quantised
method in each of which the oracle answered, the update was not `NoSoln`, came with a further alternative if it was
`NoEffect`, and left `tsq` not below `tol`. -/
inductive OptimQRun (orc : OracleOptimQ Ω X T α) (sp : Space S X T α) (tol : α) :
    Nat → Ω × S × α × Bool × Option X → Ω × S × α × Bool × Option X → Prop
  | nil (st : Ω × S × α × Bool × Option X) : OptimQRun orc sp tol 0 st st
  | cons {k : Nat} {w w1 : Ω} {s s1 : S} {g g1 : α} {retry : Bool} {best : Option X} {c : X × T} {shrunk : Bool}
      {xq : X} {more : Bool} {status : CutStatus} {st : Ω × S × α × Bool × Option X}
      (hq : orc.assess w (sp.xc s) g retry = .ok ((c, shrunk, xq, more), g1, w1))
      (hu : sp.updateQ s c = .ok (status, s1))
      (h1 : status ≠ .noSoln) (h2 : status = .noEffect → more = true)
      (ht : Scalar.lt (sp.tsq s1) tol = false)
      (hr : OptimQRun orc sp tol k (w1, s1, g1, retryAfter retry shrunk status, if shrunk then some xq else best) st) :
      OptimQRun orc sp tol (k + 1) (w, s, g, retry, best) st

/-- An oracle that also keeps the list of points it was asked about. -/
def OracleFeas.record (orc : OracleFeas Ω X T α) : OracleFeas (Ω × List X) X T α where
  assess w x := do
    let (r, w') ← orc.assess w.1 x
    .ok (r, w', w.2 ++ [x])
  update w g := do
    let w' ← orc.update w.1 g
    .ok (w', w.2)

/-- One query to an optimisation oracle: the point, gamma before and after, improvement flag. -/
structure OptimEvent (X α : Type) where
  x : X
  gammaIn : α
  gammaOut : α
  shrunk : Bool

/-- An optimisation oracle that also keeps the history of its answers. -/
def OracleOptim.record (orc : OracleOptim Ω X T α) : OracleOptim (Ω × List (OptimEvent X α)) X T α where
  assess w x g := do
    let ((c, sh), g', w') ← orc.assess w.1 x g
    .ok ((c, sh), g', w', w.2 ++ [⟨x, g, g', sh⟩])

/-- One query to a quantised oracle. -/
structure QEvent (X α : Type) where
  x : X
  retry : Bool
  shrunk : Bool
  xq : X
  moreAlt : Bool
  gammaOut : α

/-- A quantised oracle that also keeps the history of its answers. -/
def OracleOptimQ.record (orc : OracleOptimQ Ω X T α) : OracleOptimQ (Ω × List (QEvent X α)) X T α where
  assess w x g retry := do
    let ((c, sh, xq, more), g', w') ← orc.assess w.1 x g retry
    .ok ((c, sh, xq, more), g', w', w.2 ++ [⟨x, retry, sh, xq, more, g'⟩])

/-- A search space that also keeps the list of statuses of its quantised updates. -/
def Space.recordQ (sp : Space S X T α) : Space (S × List CutStatus) X T α where
  xc s := sp.xc s.1
  tsq s := sp.tsq s.1
  updateBias s c := do
    let (st, s') ← sp.updateBias s.1 c
    .ok (st, s', s.2)
  updateCentral s c := do
    let (st, s') ← sp.updateCentral s.1 c
    .ok (st, s', s.2)
  updateQ s c := do
    let (st, s') ← sp.updateQ s.1 c
    .ok (st, s', s.2 ++ [st])
  setXc s x := (sp.setXc s.1 x, s.2)

/-- A binary-search oracle that also keeps the list of probes and answers. -/
def OracleBS.record (orc : OracleBS Ω α) : OracleBS (Ω × List (α × Bool)) α where
  assess w g := do
    let (b, w') ← orc.assess w.1 g
    .ok (b, w', w.2 ++ [(g, b)])

/-- the answers of an oracle to a sequence of queries, and its final state -/
def askAll (orc : OracleFeas Ω X T α) :
    Ω → List X → Res (List (Option (X × T)) × Ω)
  | w, [] => .ok ([], w)
  | w, x :: xs => do
    let (r, w) ← orc.assess w x
    let (rs, w) ← askAll orc w xs
    .ok (r :: rs, w)

end Ellalgo
