import Verif.Model.Arr
import Verif.Model.EllCalc

/-! # Model of `src/ell.rs` -/

namespace Ellalgo

/-- `pub struct Ell` (ell.rs:8-16) -/
structure Ell (α : Type) where
  noDeferTrick : Bool
  mq : Arr α
  xc : Arr α
  kappa : α
  helper : EllCalc α
  tsq : α

namespace Ell
variable {α : Type} [Scalar α]

/-- `Ell::new_with_matrix` (ell.rs:31-41); also `from_covariance` with `kappa = 1` (ell.rs:76-78) -/
def newWithMatrix (kappa : α) (mq xc : Arr α) : Ell α :=
  { kappa, mq, xc, helper := EllCalc.new xc.len, noDeferTrick := false, tsq := 0 }

/-- `Ell::new` (ell.rs:55-57) -/
def new (val xc : Arr α) : Res (Ell α) := do
  let mq ← Arr.fromDiag val
  .ok (newWithMatrix 1 mq xc)

/-- `Ell::new_with_scalar` (ell.rs:71-73) -/
def newWithScalar (val : α) (xc : Arr α) : Res (Ell α) := do
  let mq ← Arr.eye xc.len
  .ok (newWithMatrix val mq xc)

/-- the loop updating `xc` (ell.rs:111-115) -/
def updateXc (xc gradT : Arr α) (rhoOverOmega : α) : Res (Arr α) :=
  forRange 0 xc.len xc fun i xc => do
    let x ← xc.idx i
    let g ← gradT.idx i
    xc.setIdx i (x - rhoOverOmega * g)

/-- the loops updating `mq` (ell.rs:117-128) -/
def updateMq (n : Nat) (mq gradT : Arr α) (ratio : α) : Res (Arr α) :=
  forRange 0 n mq fun i mq => do
    let gi ← gradT.idx i
    let rQg := ratio * gi
    forRange 0 (i + 1) mq fun j mq => do
      let gj ← gradT.idx j
      let update := rQg * gj
      let idx := i * n + j
      let old ← mq.idx idx
      let mq ← mq.setIdx idx (old - update)
      if i != j then do
        let v ← mq.idx idx
        mq.setIdx (j * n + i) v
      else .ok mq

/-- `Ell::update_core` (ell.rs:97-137); `strategy` is the closure applied to the fresh `tsq` -/
def updateCore (e : Ell α) (grad : Arr α) (strategy : α → CutStatus × Triple α) :
    Res (CutStatus × Ell α) := do
  let gradT ← e.mq.dotMv grad
  let omega ← grad.dot gradT
  let tsq := e.kappa * omega
  let e := { e with tsq := tsq }
  let (status, (rho, sigma, delta)) := strategy tsq
  if status != .success then .ok (status, e)
  else do
    let n := e.xc.len
    let rhoOverOmega := rho / omega
    let xc ← updateXc e.xc gradT rhoOverOmega
    let ratio := sigma / omega
    let mq ← updateMq n e.mq gradT ratio
    let kappa := e.kappa * delta
    let e := { e with xc := xc, mq := mq, kappa := kappa }
    if e.noDeferTrick then
      .ok (status, { e with mq := e.mq.smul e.kappa, kappa := 1 })
    else .ok (status, e)

variable {T : Type} [CutType T α]

/-- `update_bias_cut` (ell.rs:153-159, 215-218) -/
def updateBias (e : Ell α) (cut : Arr α × T) : Res (CutStatus × Ell α) :=
  e.updateCore cut.1 fun tsq => CutType.callBias cut.2 e.helper tsq
/-- `update_central_cut` (ell.rs:161-167, 220-223) -/
def updateCentral (e : Ell α) (cut : Arr α × T) : Res (CutStatus × Ell α) :=
  e.updateCore cut.1 fun tsq => CutType.callCentral cut.2 e.helper tsq
/-- `update_q` (ell.rs:169-175, 225-228) -/
def updateQ (e : Ell α) (cut : Arr α × T) : Res (CutStatus × Ell α) :=
  e.updateCore cut.1 fun tsq => CutType.callQ cut.2 e.helper tsq

/-- `impl SearchSpace for Ell` (ell.rs:140-180) -/
def space : Space (Ell α) (Arr α) T α where
  xc e := e.xc
  tsq e := e.tsq
  updateBias := updateBias
  updateCentral := updateCentral
  updateQ := updateQ
  setXc e x := { e with xc := x }

end Ell
end Ellalgo
