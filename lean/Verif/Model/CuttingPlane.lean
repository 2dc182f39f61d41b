import Verif.Model.Scalar

/-! # Model of `src/cutting_plane.rs`

Traits become structures of functions over an arbitrary state type; `&mut self` becomes an extra
result.  User callbacks may panic (`Res`). `verbose` is only read by the logging helpers. -/

namespace Ellalgo

/-- `SingleCut(beta)` (cutting_plane.rs:5-9) -/
structure SingleCut (α : Type) where
  beta : α
/-- `ParallelCut(beta0, beta1)` (cutting_plane.rs:11-30) -/
structure ParallelCut (α : Type) where
  beta0 : α
  beta1 : Option α

/-- `CutStatus` (cutting_plane.rs:31-37) -/
inductive CutStatus where
  | success | noSoln | noEffect | unknown
  deriving DecidableEq, Repr

/-- `Options` (cutting_plane.rs:50-54); `verbose` omitted (logging only) -/
structure Options (α : Type) where
  maxIters : Nat
  tolerance : α

/-- `Options::default` (cutting_plane.rs:97-99): 2000 iterations, tolerance 1e-20 -/
def Options.default {α} [Scalar α] : Options α := ⟨2000, dec 1 20⟩

/-- `trait SearchSpace` (cutting_plane.rs:154-182) together with `UpdateByCutChoice`
    (cutting_plane.rs:104-109) for one cut type `T` -/
structure Space (S X T α : Type) where
  xc : S → X
  tsq : S → α
  updateBias : S → X × T → Res (CutStatus × S)
  updateCentral : S → X × T → Res (CutStatus × S)
  updateQ : S → X × T → Res (CutStatus × S)
  setXc : S → X → S

/-- `trait OracleFeas` (cutting_plane.rs:119-126) -/
structure OracleFeas (Ω X T α : Type) where
  assess : Ω → X → Res (Option (X × T) × Ω)
  update : Ω → α → Res Ω

/-- `trait OracleOptim` (cutting_plane.rs:129-136); the result carries the new `gamma` -/
structure OracleOptim (Ω X T α : Type) where
  assess : Ω → X → α → Res (((X × T) × Bool) × α × Ω)

/-- `trait OracleOptimQ` (cutting_plane.rs:139-147) -/
structure OracleOptimQ (Ω X T α : Type) where
  assess : Ω → X → α → Bool → Res (((X × T) × Bool × X × Bool) × α × Ω)

/-- `trait OracleBS` (cutting_plane.rs:150-152) -/
structure OracleBS (Ω α : Type) where
  assess : Ω → α → Res (Bool × Ω)

section Loops
variable {Ω S X T α : Type} [Scalar α]

/-- body of `cutting_plane_feas` (cutting_plane.rs:215-225), `k` iterations left, counter `niter` -/
def feasLoop (orc : OracleFeas Ω X T α) (sp : Space S X T α) (tol : α) :
    Nat → Nat → Ω → S → Res ((Option X × Nat) × Ω × S)
  | 0, niter, w, s => .ok ((none, niter), w, s)
  | k + 1, niter, w, s => do
    let (cut, w) ← orc.assess w (sp.xc s)
    match cut with
    | none => .ok ((some (sp.xc s), niter), w, s)
    | some c => do
      let (status, s) ← sp.updateBias s c
      if status != .success || Scalar.lt (sp.tsq s) tol then .ok ((none, niter), w, s)
      else feasLoop orc sp tol k (niter + 1) w s

/-- `cutting_plane_feas` (cutting_plane.rs:205-227) -/
def cuttingPlaneFeas (orc : OracleFeas Ω X T α) (sp : Space S X T α) (w : Ω) (s : S)
    (opts : Options α) : Res ((Option X × Nat) × Ω × S) :=
  feasLoop orc sp opts.tolerance opts.maxIters 0 w s

/-- body of `cutting_plane_optim` (cutting_plane.rs:299-311) -/
def optimLoop (orc : OracleOptim Ω X T α) (sp : Space S X T α) (tol : α) :
    Nat → Nat → Option X → Ω → S → α → Res ((Option X × Nat) × α × Ω × S)
  | 0, niter, xb, w, s, g => .ok ((xb, niter), g, w, s)
  | k + 1, niter, xb, w, s, g => do
    let ((cut, shrunk), g, w) ← orc.assess w (sp.xc s) g
    let xb := if shrunk then some (sp.xc s) else xb
    let updated := if shrunk then sp.updateCentral s cut else sp.updateBias s cut
    let (status, s) ← updated
    if status != .success || Scalar.lt (sp.tsq s) tol then .ok ((xb, niter), g, w, s)
    else optimLoop orc sp tol k (niter + 1) xb w s g

/-- `cutting_plane_optim` (cutting_plane.rs:286-313); returns `(x_best, niter)`, the final
    `gamma`, oracle and space -/
def cuttingPlaneOptim (orc : OracleOptim Ω X T α) (sp : Space S X T α) (w : Ω) (s : S) (g : α)
    (opts : Options α) : Res ((Option X × Nat) × α × Ω × S) :=
  optimLoop orc sp opts.tolerance opts.maxIters 0 none w s g

/-- body of `cutting_plane_optim_q` (cutting_plane.rs:345-372) -/
def optimQLoop (orc : OracleOptimQ Ω X T α) (sp : Space S X T α) (tol : α) :
    Nat → Nat → Option X → Bool → Ω → S → α → Res ((Option X × Nat) × α × Ω × S)
  | 0, niter, xb, _, w, s, g => .ok ((xb, niter), g, w, s)
  | k + 1, niter, xb, retry, w, s, g => do
    let ((cut, shrunk, xq, moreAlt), g, w) ← orc.assess w (sp.xc s) g retry
    let xb := if shrunk then some xq else xb
    let retry := if shrunk then false else retry
    let (status, s) ← sp.updateQ s cut
    match status with
    | .noSoln => .ok ((xb, niter), g, w, s)
    | .noEffect =>
      if !moreAlt then .ok ((xb, niter), g, w, s)
      else if Scalar.lt (sp.tsq s) tol then .ok ((xb, niter), g, w, s)
      else optimQLoop orc sp tol k (niter + 1) xb true w s g
    | .success =>
      if Scalar.lt (sp.tsq s) tol then .ok ((xb, niter), g, w, s)
      else optimQLoop orc sp tol k (niter + 1) xb false w s g
    | .unknown =>
      if Scalar.lt (sp.tsq s) tol then .ok ((xb, niter), g, w, s)
      else optimQLoop orc sp tol k (niter + 1) xb retry w s g

/-- `cutting_plane_optim_q` (cutting_plane.rs:331-374) -/
def cuttingPlaneOptimQ (orc : OracleOptimQ Ω X T α) (sp : Space S X T α) (w : Ω) (s : S) (g : α)
    (opts : Options α) : Res ((Option X × Nat) × α × Ω × S) :=
  optimQLoop orc sp opts.tolerance opts.maxIters 0 none false w s g

/-- `BSearchAdaptor` (cutting_plane.rs:376-385) -/
structure BSearchAdaptor (Ω S α : Type) where
  omega : Ω
  space : S
  options : Options α

/-- `BSearchAdaptor::assess_bs` (cutting_plane.rs:408-418): works on a clone of the space -/
def BSearchAdaptor.assessBs (orc : OracleFeas Ω X T α) (sp : Space S X T α)
    (a : BSearchAdaptor Ω S α) (gamma : α) : Res (Bool × BSearchAdaptor Ω S α) := do
  let space := a.space
  let w ← orc.update a.omega gamma
  let ((xFeas, _), w, _) ← cuttingPlaneFeas orc sp w space a.options
  match xFeas with
  | some x => .ok (true, { a with omega := w, space := sp.setXc a.space x })
  | none => .ok (false, { a with omega := w })

/-- the adaptor seen as an `OracleBS` (cutting_plane.rs:402-419) -/
def BSearchAdaptor.oracle (orc : OracleFeas Ω X T α) (sp : Space S X T α) :
    OracleBS (BSearchAdaptor Ω S α) α := ⟨BSearchAdaptor.assessBs orc sp⟩

/-- loop of `bsearch` (cutting_plane.rs:451-464); result: final `(lower, upper)`, count, oracle -/
def bsearchLoop (orc : OracleBS Ω α) (tol : α) :
    Nat → Nat → Ω → α → α → Res ((α × α) × Nat × Ω)
  | 0, niter, w, lower, upper => .ok ((lower, upper), niter, w)
  | k + 1, niter, w, lower, upper => do
    let tau := (upper - lower) / nat 2
    if Scalar.lt tau tol then .ok ((lower, upper), niter, w)
    else do
      let gamma := lower + tau
      let (feas, w) ← orc.assess w gamma
      if feas then bsearchLoop orc tol k (niter + 1) w lower gamma
      else bsearchLoop orc tol k (niter + 1) w gamma upper

/-- `bsearch` (cutting_plane.rs:441-466).  The interval arrives by `&mut` but the code copies its
    bounds into locals and never writes them back: the last component is the caller's interval. -/
def bsearch (orc : OracleBS Ω α) (w : Ω) (intrvl : α × α) (opts : Options α) :
    Res ((Bool × Nat) × Ω × (α × α)) := do
  let (lower, upper) := intrvl
  Res.assert (Scalar.le lower upper)
  let uOrig := upper
  let ((_, upper), niter, w) ← bsearchLoop orc opts.tolerance opts.maxIters 0 w lower upper
  .ok ((!Scalar.beq upper uOrig, niter), w, intrvl)

end Loops
end Ellalgo
