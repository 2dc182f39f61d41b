import Verif.Model.CuttingPlane

/-! # Model of `src/ell_calc.rs` -/

namespace Ellalgo

/-- `EllCalcCore` (ell_calc.rs:21-29) -/
structure EllCalcCore (α : Type) where
  nF : α
  nPlus1 : α
  halfN : α
  invN : α
  cst1 : α
  cst2 : α

/-- `(rho, sigma, delta)`, the result type of the calculators (ell_calc.rs:159, 225, 316) -/
abbrev Triple (α : Type) := α × α × α

namespace EllCalcCore
variable {α : Type} [Scalar α]

/-- `EllCalcCore::new` (ell_calc.rs:61-78) -/
def new (nF : α) : EllCalcCore α :=
  let nPlus1 := nF + 1
  let halfN := nF / nat 2
  let invN := 1 / nF
  let nSq := nF * nF
  let cst0 := 1 / (nF + 1)
  let cst1 := nSq / (nSq - 1)
  let cst2 := nat 2 * cst0
  ⟨nF, nPlus1, halfN, invN, cst1, cst2⟩

/-- `calc_parallel_bias_cut_fast_old` (ell_calc.rs:152-171) -/
def calcParallelBiasCutFastOld (c : EllCalcCore α) (beta0 beta1 tsq b0b1 eta : α) : Triple α :=
  let bavg := (beta0 + beta1) * dec 5 1
  let bavgsq := bavg * bavg
  let halfSum := (tsq + b0b1) * dec 5 1 + c.nF * bavgsq
  let kappa := halfSum + Scalar.sqrt (halfSum * halfSum - eta * c.nPlus1 * bavgsq)
  let invMuPlus1 := eta / kappa
  let invMu := eta / (kappa - eta)
  let rho := bavg * invMuPlus1
  let sigma := invMuPlus1
  let delta := (tsq + invMu * (bavgsq * invMuPlus1 - b0b1)) / tsq
  (rho, sigma, delta)

/-- `calc_parallel_bias_cut_fast` (ell_calc.rs:218-240) -/
def calcParallelBiasCutFast (c : EllCalcCore α) (beta0 beta1 tsq b0b1 eta : α) : Triple α :=
  let b0sq := beta0 * beta0
  let b1sq := beta1 * beta1
  let zeta0 := tsq - b0sq
  let zeta1 := tsq - b1sq
  let temp := c.halfN * (b1sq - b0sq)
  let xi := Scalar.sqrt (zeta0 * zeta1 + temp * temp)
  let bsum := beta0 + beta1
  let bsumsq := bsum * bsum
  let sigma := nat 2 * eta / (tsq + b0b1 + c.halfN * bsumsq + xi)
  let rho := sigma * (beta0 + beta1) / nat 2
  let delta := c.cst1 * ((zeta0 + zeta1) / nat 2 + xi / c.nF) / tsq
  (rho, sigma, delta)

/-- `EllCalcCore::calc_parallel_bias_cut` (ell_calc.rs:316-320) -/
def calcParallelBiasCut (c : EllCalcCore α) (beta0 beta1 tsq : α) : Triple α :=
  let b0b1 := beta0 * beta1
  let eta := tsq + c.nF * b0b1
  c.calcParallelBiasCutFast beta0 beta1 tsq b0b1 eta

/-- `EllCalcCore::calc_parallel_central_cut` (ell_calc.rs:383-394) -/
def calcParallelCentralCut (c : EllCalcCore α) (beta1 tsq : α) : Triple α :=
  let b1sq := beta1 * beta1
  let a1sq := b1sq / tsq
  let halfVal := c.halfN * a1sq
  let root := halfVal + Scalar.sqrt (1 - a1sq + halfVal * halfVal)
  let rPlus1 := root + 1
  let rho := beta1 / rPlus1
  let sigma := nat 2 / rPlus1
  let delta := root / (root - c.invN)
  (rho, sigma, delta)

/-- `EllCalcCore::calc_bias_cut_fast` (ell_calc.rs:453-459) -/
def calcBiasCutFast (c : EllCalcCore α) (beta tau eta : α) : Triple α :=
  let rho := eta / c.nPlus1
  let sigma := nat 2 * rho / (tau + beta)
  let alpha := beta / tau
  let delta := c.cst1 * (1 - alpha * alpha)
  (rho, sigma, delta)

/-- `EllCalcCore::calc_bias_cut` (ell_calc.rs:550-553) -/
def calcBiasCut (c : EllCalcCore α) (beta tau : α) : Triple α :=
  let eta := tau + c.nF * beta
  c.calcBiasCutFast beta tau eta

/-- `EllCalcCore::calc_central_cut` (ell_calc.rs:605-611) -/
def calcCentralCut (c : EllCalcCore α) (tsq : α) : Triple α :=
  let sigma := c.cst2
  let rho := Scalar.sqrt tsq / c.nPlus1
  let delta := c.cst1
  (rho, sigma, delta)

end EllCalcCore

/-- `EllCalc` (ell_calc.rs:626-631) -/
structure EllCalc (α : Type) where
  nF : α
  helper : EllCalcCore α
  useParallelCut : Bool

namespace EllCalc
variable {α : Type} [Scalar α]

/-- `EllCalc::new` (ell_calc.rs:653-662) -/
def new (n : Nat) : EllCalc α :=
  let nF := nat n
  ⟨nF, EllCalcCore.new nF, true⟩

/-- `EllCalc::calc_bias_cut` (ell_calc.rs:870-877) -/
def calcBiasCut (c : EllCalc α) (beta tsq : α) : CutStatus × Triple α :=
  if Scalar.lt tsq (beta * beta) then (.noSoln, (0, 0, 0))
  else
    let tau := Scalar.sqrt tsq
    (.success, c.helper.calcBiasCut beta tau)

/-- `EllCalc::calc_bias_cut_q` (ell_calc.rs:892-908) -/
def calcBiasCutQ (c : EllCalc α) (beta tsq : α) : CutStatus × Triple α :=
  let tau := Scalar.sqrt tsq
  if Scalar.lt tau beta then (.noSoln, (0, 0, 0))
  else
    let eta := tau + c.nF * beta
    if Scalar.lt eta 0 then (.noEffect, (0, 0, 1))
    else (.success, c.helper.calcBiasCutFast beta tau eta)

/-- `EllCalc::calc_central_cut` (ell_calc.rs:928-931) -/
def calcCentralCut (c : EllCalc α) (tsq : α) : CutStatus × Triple α :=
  (.success, c.helper.calcCentralCut tsq)

/-- `EllCalc::calc_parallel_bias_cut` (ell_calc.rs:751-769) -/
def calcParallelBiasCut (c : EllCalc α) (beta0 beta1 tsq : α) : CutStatus × Triple α :=
  if Scalar.lt beta1 beta0 then (.noSoln, (0, 0, 0))
  else if (Scalar.gt beta1 0 && Scalar.le tsq (beta1 * beta1)) || !c.useParallelCut then
    c.calcBiasCut beta0 tsq
  else (.success, c.helper.calcParallelBiasCut beta0 beta1 tsq)

/-- `EllCalc::calc_parallel_q` (ell_calc.rs:787-812) -/
def calcParallelQ (c : EllCalc α) (beta0 beta1 tsq : α) : CutStatus × Triple α :=
  if Scalar.lt beta1 beta0 then (.noSoln, (0, 0, 0))
  else if (Scalar.gt beta1 0 && Scalar.ge (beta1 * beta1) tsq) || !c.useParallelCut then
    c.calcBiasCutQ beta0 tsq
  else
    let b0b1 := beta0 * beta1
    let eta := tsq + c.nF * b0b1
    if Scalar.le eta 0 then (.noEffect, (0, 0, 1))
    else (.success, c.helper.calcParallelBiasCutFast beta0 beta1 tsq b0b1 eta)

/-- `EllCalc::calc_parallel_central_cut` (ell_calc.rs:836-847) -/
def calcParallelCentralCut (c : EllCalc α) (beta1 tsq : α) : CutStatus × Triple α :=
  if Scalar.lt beta1 0 then (.noSoln, (0, 0, 0))
  else if Scalar.le tsq (beta1 * beta1) || !c.useParallelCut then c.calcCentralCut tsq
  else (.success, c.helper.calcParallelCentralCut beta1 tsq)

/-- `calc_single_or_parallel_bias_cut` (ell_calc.rs:671-683) -/
def calcSingleOrParallelBiasCut (c : EllCalc α) (beta : ParallelCut α) (tsq : α) :
    CutStatus × Triple α :=
  match beta.beta1 with
  | some beta1 => c.calcParallelBiasCut beta.beta0 beta1 tsq
  | none => c.calcBiasCut beta.beta0 tsq

/-- `calc_single_or_parallel_central_cut` (ell_calc.rs:689-701) -/
def calcSingleOrParallelCentralCut (c : EllCalc α) (beta : ParallelCut α) (tsq : α) :
    CutStatus × Triple α :=
  match beta.beta1 with
  | some beta1 => c.calcParallelCentralCut beta1 tsq
  | none => c.calcCentralCut tsq

/-- `calc_single_or_parallel_q` (ell_calc.rs:707-719) -/
def calcSingleOrParallelQ (c : EllCalc α) (beta : ParallelCut α) (tsq : α) :
    CutStatus × Triple α :=
  match beta.beta1 with
  | some beta1 => c.calcParallelQ beta.beta0 beta1 tsq
  | none => c.calcBiasCutQ beta.beta0 tsq

end EllCalc

/-- `trait CutType` (ell.rs:182-186): how a cut chooses its strategy -/
class CutType (T : Type) (α : outParam Type) where
  callBias : T → EllCalc α → α → CutStatus × Triple α
  callCentral : T → EllCalc α → α → CutStatus × Triple α
  callQ : T → EllCalc α → α → CutStatus × Triple α

variable {α : Type} [Scalar α]

/-- `impl CutType for SingleCut` (ell.rs:188-198; the same closures in ell_stable.rs:168-185) -/
instance : CutType (SingleCut α) α where
  callBias c h tsq := h.calcBiasCut c.beta tsq
  callCentral _ h tsq := h.calcCentralCut tsq
  callQ c h tsq := h.calcBiasCutQ c.beta tsq

/-- `impl CutType for ParallelCut` (ell.rs:200-210; the same closures in ell_stable.rs:187-210) -/
instance : CutType (ParallelCut α) α where
  callBias c h tsq := h.calcSingleOrParallelBiasCut c tsq
  callCentral c h tsq := h.calcSingleOrParallelCentralCut c tsq
  callQ c h tsq := h.calcSingleOrParallelQ c tsq

end Ellalgo
