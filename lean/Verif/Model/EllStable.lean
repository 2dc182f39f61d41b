import Verif.Model.Arr
import Verif.Model.EllCalc

/-! # Model of `src/ell_stable.rs` -/

namespace Ellalgo

/-- `pub struct EllStable` (ell_stable.rs:8-15) -/
structure EllStable (α : Type) where
  mq : Arr α
  xc : Arr α
  kappa : α
  helper : EllCalc α
  tsq : α

namespace EllStable
variable {α : Type} [Scalar α]

/-- `EllStable::new_with_matrix` (ell_stable.rs:18-27) -/
def newWithMatrix (kappa : α) (mq xc : Arr α) : EllStable α :=
  { kappa, mq, xc, helper := EllCalc.new xc.len, tsq := 0 }
/-- `EllStable::new` (ell_stable.rs:29-31) -/
def new (val xc : Arr α) : Res (EllStable α) := do
  let mq ← Arr.fromDiag val
  .ok (newWithMatrix 1 mq xc)
/-- `EllStable::new_with_scalar` (ell_stable.rs:33-35) -/
def newWithScalar (val : α) (xc : Arr α) : Res (EllStable α) := do
  let mq ← Arr.eye xc.len
  .ok (newWithMatrix val mq xc)

/-- forward substitution (ell_stable.rs:61-69); also overwrites the strict lower triangle -/
def forward (ndim : Nat) (mq g : Arr α) : Res (Arr α × Arr α) :=
  forRange 1 ndim (mq, g) fun i st =>
    let rowStart := i * ndim
    forRange 0 i st fun j (mq, v) => do
      let m ← mq.get j i
      let vj ← v.idx j
      let val := m * vj
      let mq ← mq.setIdx (rowStart + j) val
      let vi ← v.idx i
      let v ← v.setIdx i (vi - val)
      .ok (mq, v)

/-- multiplication by the stored diagonal (ell_stable.rs:72-75) -/
def scaleDiag (ndim : Nat) (mq v : Arr α) : Res (Arr α) :=
  forRange 0 ndim v fun i v => do
    let x ← v.idx i
    let d ← mq.get i i
    v.setIdx i (x * d)

/-- `gg_t` and `omega` (ell_stable.rs:78-83) -/
def calcOmega (ndim : Nat) (z w : Arr α) : Res (Arr α × α) :=
  forRange 0 ndim (z, (0 : α)) fun i (ggT, omega) => do
    let x ← ggT.idx i
    let y ← w.idx i
    let ggT ← ggT.setIdx i (x * y)
    let p ← ggT.idx i
    .ok (ggT, omega + p)

/-- backward substitution (ell_stable.rs:93-98) -/
def backward (ndim : Nat) (mq z : Arr α) : Res (Arr α) :=
  forDown 1 ndim z fun i gT =>
    forRange i ndim gT fun j gT => do
      let x ← gT.idx (i - 1)
      let m ← mq.get j (i - 1)
      let gj ← gT.idx j
      gT.setIdx (i - 1) (x - m * gj)

/-- `xc` update (ell_stable.rs:101-104) -/
def updateXc (ndim : Nat) (xc gT : Arr α) (rhoOverOmega : α) : Res (Arr α) :=
  forRange 0 ndim xc fun i xc => do
    let x ← xc.idx i
    let g ← gT.idx i
    xc.setIdx i (x - rhoOverOmega * g)

/-- rank-one update of the factors (ell_stable.rs:107-121); `ndim - 1` underflows (panics in the
    debug profile) when `ndim = 0` -/
def rankOne (ndim : Nat) (mq z ggT : Arr α) (omega sigma : α) : Res (Arr α) := do
  let muVal := sigma / (1 - sigma)
  let oldt := omega / muVal
  Res.assert (decide (0 < ndim))
  let last := ndim - 1
  let (mq, oldt) ← forRange 0 last (mq, oldt) fun j (mq, oldt) => do
    let p ← ggT.idx j
    let temp := oldt + p
    let zj ← z.idx j
    let beta2 := zj / temp
    let d ← mq.idx (j * ndim + j)
    let mq ← mq.setIdx (j * ndim + j) (d * (oldt / temp))
    let rowStart := j * ndim
    let mq ← forRange (j + 1) ndim mq fun l mq => do
      let old ← mq.idx (rowStart + l)
      let m ← mq.get l j
      mq.setIdx (rowStart + l) (old + beta2 * m)
    .ok (mq, temp)
  let p ← ggT.idx last
  let temp := oldt + p
  let d ← mq.idx (last * ndim + last)
  mq.setIdx (last * ndim + last) (d * (oldt / temp))

/-- `EllStable::update_core` (ell_stable.rs:52-125).  The forward substitution writes scratch values
    into the lower triangle of `mq` even when the cut is later rejected. -/
def updateCore (e : EllStable α) (grad : Arr α) (strategy : α → CutStatus × Triple α) :
    Res (CutStatus × EllStable α) := do
  let ndim := e.xc.len
  let (mq, w) ← forward ndim e.mq grad
  let z ← scaleDiag ndim mq w
  let (ggT, omega) ← calcOmega ndim z w
  let tsq := e.kappa * omega
  let e := { e with mq := mq, tsq := tsq }
  let (status, (rho, sigma, delta)) := strategy tsq
  if status != .success then .ok (status, e)
  else do
    let gT ← backward ndim mq z
    let xc ← updateXc ndim e.xc gT (rho / omega)
    let mq ← rankOne ndim mq z ggT omega sigma
    .ok (status, { e with xc := xc, mq := mq, kappa := e.kappa * delta })

variable {T : Type} [CutType T α]

/-- `update_bias_cut` (ell_stable.rs:139-145, 171-174, 190-195) -/
def updateBias (e : EllStable α) (cut : Arr α × T) : Res (CutStatus × EllStable α) :=
  e.updateCore cut.1 fun tsq => CutType.callBias cut.2 e.helper tsq
/-- `update_central_cut` (ell_stable.rs:147-153, 176-179, 197-202) -/
def updateCentral (e : EllStable α) (cut : Arr α × T) : Res (CutStatus × EllStable α) :=
  e.updateCore cut.1 fun tsq => CutType.callCentral cut.2 e.helper tsq
/-- `update_q` (ell_stable.rs:155-161, 181-184, 204-209) -/
def updateQ (e : EllStable α) (cut : Arr α × T) : Res (CutStatus × EllStable α) :=
  e.updateCore cut.1 fun tsq => CutType.callQ cut.2 e.helper tsq

/-- `impl SearchSpace for EllStable` (ell_stable.rs:128-166) -/
def space : Space (EllStable α) (Arr α) T α where
  xc e := e.xc
  tsq e := e.tsq
  updateBias := updateBias
  updateCentral := updateCentral
  updateQ := updateQ
  setXc e x := { e with xc := x }

end EllStable
end Ellalgo
