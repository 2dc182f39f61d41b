import Verif.Model.Arr

/-! # Model of `src/conjugate_gradient.rs` -/

namespace Ellalgo
variable {α : Type} [Scalar α]

/-- The two error messages of `conjugate_gradient` (conjugate_gradient.rs:43, 70) -/
inductive CgErr where
  /-- `"Conj Grad did not converge"` -/
  | breakdown
  /-- `"Conj Grad did not converge after max iterations"` -/
  | maxIters
  deriving DecidableEq, Repr

/-- `for i in 0..n { y[i] += s * d[i] }` (conjugate_gradient.rs:48-50) -/
def cgAxpy (n : Nat) (s : α) (d y : Arr α) : Res (Arr α) :=
  forRange 0 n y fun i y => do
    let yi ← y.idx i
    let di ← d.idx i
    y.setIdx i (yi + s * di)

/-- `for i in 0..n { y[i] -= s * d[i] }` (conjugate_gradient.rs:52-54) -/
def cgAxmy (n : Nat) (s : α) (d y : Arr α) : Res (Arr α) :=
  forRange 0 n y fun i y => do
    let yi ← y.idx i
    let di ← d.idx i
    y.setIdx i (yi - s * di)

/-- `for i in 0..n { p[i] = r[i] + s * p[i] }` (conjugate_gradient.rs:64-66) -/
def cgXpay (n : Nat) (s : α) (r p : Arr α) : Res (Arr α) :=
  forRange 0 n p fun i p => do
    let ri ← r.idx i
    let pi ← p.idx i
    p.setIdx i (ri + s * pi)

/-- the loop of `conjugate_gradient` (conjugate_gradient.rs:38-68), `k` iterations left; `rr` is
`residual_norm_sq` -/
def cgLoop (a : Arr α) (n : Nat) (tol : α) :
    Nat → Arr α → Arr α → Arr α → α → Res (Except CgErr (Arr α))
  | 0, _, _, _, _ => .ok (.error .maxIters)
  | k + 1, x, residual, direction, rr => do
    let aDir ← a.dotMv direction
    let dAd ← direction.dot aDir
    if Scalar.beq dAd 0 then .ok (.error .breakdown)
    else do
      let step := rr / dAd
      let x ← cgAxpy n step direction x
      let residual ← cgAxmy n step aDir residual
      let rrNew ← residual.dot residual
      if Scalar.lt (Scalar.sqrt rrNew) tol then .ok (.ok x)
      else do
        let ratio := rrNew / rr
        let direction ← cgXpay n ratio residual direction
        cgLoop a n tol k x residual direction rrNew

/-- `conjugate_gradient` (conjugate_gradient.rs:21-71) -/
def conjugateGradient (a b : Arr α) (x0 : Option (Arr α)) (tol : α) (maxIter : Nat) :
    Res (Except CgErr (Arr α)) := do
  let n := b.len
  let x := x0.getD (Arr.new n)
  let ax ← a.dotMv x
  let residual ← b.sub ax
  let rr ← residual.dot residual
  cgLoop a n tol maxIter x residual residual rr

end Ellalgo
