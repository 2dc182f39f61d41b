import Verif.Model.CuttingPlane
import Verif.Model.Arr

/-! # Model of `src/power_iteration.rs`

`x: &mut Arr` is returned next to the result.  `power_iteration::Options` (power_iteration.rs:19-22) has the
same two fields as `cutting_plane::Options`, whose model is reused. -/

namespace Ellalgo
variable {α : Type} [Scalar α]

/-- `norm_l1` (power_iteration.rs:30-32) -/
def normL1 (x : Arr α) : α := (x.data.map Scalar.abs).foldl (· + ·) 0

/-- `*x /= x.dot(x).sqrt()` (power_iteration.rs:64, 68, 97, 101, 118, 124, 157, 167) -/
def normalize2 (x : Arr α) : Res (Arr α) := do
  let d ← x.dot x
  .ok (x.divScalar (Scalar.sqrt d))

/-- `x.dot(&a.dot_mv(x))` (power_iteration.rs:71, 74, 98, 102) -/
def rayleigh (a x : Arr α) : Res α := do
  let ax ← a.dotMv x
  x.dot ax

/-- `norm_l1(&(x - x1)) <= tol || norm_l1(&(x + x1)) <= tol` (power_iteration.rs:69, 95); the sum is only
formed when the first test fails -/
def closeUpToSign (tol : α) (x x1 : Arr α) : Res Bool := do
  let d ← x.sub x1
  if Scalar.le (normL1 d) tol then .ok true
  else do
    let s ← x.add x1
    .ok (Scalar.le (normL1 s) tol)

/-- loop of `power_iteration` (power_iteration.rs:65-74); result `((eigenvalue, niter), x)` -/
def powerLoop (a : Arr α) (opts : Options α) : Nat → Nat → Arr α → Res ((α × Nat) × Arr α)
  | 0, _, x => do
    let l ← rayleigh a x
    .ok ((l, opts.maxIters), x)
  | k + 1, niter, x1 => do
    let x ← a.dotMv x1
    let x ← normalize2 x
    let stop ← closeUpToSign opts.tolerance x x1
    if stop then do
      let l ← rayleigh a x
      .ok ((l, niter), x)
    else powerLoop a opts k (niter + 1) x

/-- `power_iteration` (power_iteration.rs:63-75) -/
def powerIteration (a x : Arr α) (opts : Options α) : Res ((α × Nat) × Arr α) := do
  let x ← normalize2 x
  powerLoop a opts opts.maxIters 0 x

/-- loop of `power_iteration4` (power_iteration.rs:90-102) -/
def power4Loop (a : Arr α) (opts : Options α) : Nat → Nat → Arr α → Res ((α × Nat) × Arr α)
  | 0, _, x => do
    let x ← normalize2 x
    let l ← rayleigh a x
    .ok ((l, opts.maxIters), x)
  | k + 1, niter, x1 => do
    let x ← a.dotMv x1
    let x := x.divScalar (normL1 x)
    let stop ← closeUpToSign opts.tolerance x x1
    if stop then do
      let x ← normalize2 x
      let l ← rayleigh a x
      .ok ((l, niter), x)
    else power4Loop a opts k (niter + 1) x

/-- `power_iteration4` (power_iteration.rs:88-103) -/
def powerIteration4 (a x : Arr α) (opts : Options α) : Res ((α × Nat) × Arr α) :=
  power4Loop a opts opts.maxIters 0 (x.divScalar (normL1 x))

/-- loop of `power_iteration2` (power_iteration.rs:121-132) -/
def power2Loop (a : Arr α) (opts : Options α) :
    Nat → Nat → Arr α → Arr α → α → Res ((α × Nat) × Arr α)
  | 0, _, x, _, eig => .ok ((eig, opts.maxIters), x)
  | k + 1, niter, _, newVec, eigPrev => do
    let x ← normalize2 newVec
    let newVec ← a.dotMv x
    let eig ← x.dot newVec
    if Scalar.le (Scalar.abs (eigPrev - eig)) opts.tolerance then .ok ((eig, niter), x)
    else power2Loop a opts k (niter + 1) x newVec eig

/-- `power_iteration2` (power_iteration.rs:117-133) -/
def powerIteration2 (a x : Arr α) (opts : Options α) : Res ((α × Nat) × Arr α) := do
  let x ← normalize2 x
  let newVec ← a.dotMv x
  let eig ← x.dot newVec
  power2Loop a opts opts.maxIters 0 x newVec eig

/-- loop of `power_iteration3` (power_iteration.rs:152-173) -/
def power3Loop (a : Arr α) (opts : Options α) :
    Nat → Nat → Arr α → Arr α → α → Res ((α × Nat) × Arr α)
  | 0, _, x, _, eig => .ok ((eig, opts.maxIters), x)
  | k + 1, niter, _, newVec, eigPrev => do
    let x := newVec
    let dot ← x.dot x
    if Scalar.ge dot (nat (10 ^ 150)) then do
      let x ← normalize2 x
      let newVec ← a.dotMv x
      let eig ← x.dot newVec
      if Scalar.le (Scalar.abs (eigPrev - eig)) opts.tolerance then .ok ((eig, niter), x)
      else power3Loop a opts k (niter + 1) x newVec eig
    else do
      let newVec ← a.dotMv x
      let xn ← x.dot newVec
      let eig := xn / dot
      if Scalar.le (Scalar.abs (eigPrev - eig)) opts.tolerance then do
        let x ← normalize2 x
        .ok ((eig, niter), x)
      else power3Loop a opts k (niter + 1) x newVec eig

/-- `power_iteration3` (power_iteration.rs:148-174) -/
def powerIteration3 (a x : Arr α) (opts : Options α) : Res ((α × Nat) × Arr α) := do
  let newVec ← a.dotMv x
  let dot ← x.dot x
  let xn ← x.dot newVec
  power3Loop a opts opts.maxIters 0 x newVec (xn / dot)

end Ellalgo
