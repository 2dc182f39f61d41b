import Verif.Model.Examples

/-! # Models of the oracles in `tests/`, `benches/` and `examples/`

They show how the library is meant to be used: user-written oracles passed to `cutting_plane_feas` and
`cutting_plane_optim`. -/

namespace Ellalgo
variable {α : Type} [Scalar α]

/-- the answer shared by all quadratic oracles: `if f < *gamma { *gamma = f; ((gradient, SingleCut(f)), true) } else
{ ((gradient, SingleCut(f)), false) }` (e.g. tests/integration_test.rs:16-21) -/
def quadAnswer {Ω : Type} (o : Ω) (gradient : Arr α) (f gamma : α) : Res (((Arr α × SingleCut α) × Bool) × α × Ω) :=
  if Scalar.lt f gamma then .ok (((gradient, ⟨f⟩), true), f, o) else .ok (((gradient, ⟨f⟩), false), gamma, o)

/-- `QuadraticOracle` (tests/regression_tests.rs:12-21 and 50-59, tests/integration_test.rs:12-22, also
`ConvergenceTestOracle`, `SimpleOracle` (tests/integration_test.rs), `NearSingularOracle`, `ToleranceOracle`,
`PrecisionOracle` (tests/numerical_stability.rs)).  `powi(2)` is one multiplication. -/
def quadAssess (o : Unit) (xc : Arr α) (gamma : α) : Res (((Arr α × SingleCut α) × Bool) × α × Unit) := do
  let x ← xc.idx 0
  let y ← xc.idx 1
  quadAnswer o (Arr.ofList [nat 2 * x, nat 2 * y]) (x * x + y * y) gamma

/-- `QuadraticOracle` as a trait object (integration_test.rs:9-23) -/
def quadOracle : OracleOptim Unit (Arr α) (SingleCut α) α := ⟨quadAssess⟩

/-- `KnownOptimalOracle` (tests/integration_test.rs:41-60) and `HighDimOracle` (tests/integration_test.rs:86-105); the
state is the field `target` -/
def targetAssess (target : Arr α) (xc : Arr α) (gamma : α) : Res (((Arr α × SingleCut α) × Bool) × α × Arr α) := do
  let diff ← xc.sub target
  let gradient := diff.smul (nat 2)
  let f ← diff.dot diff
  quadAnswer target gradient f gamma

/-- `KnownOptimalOracle` / `HighDimOracle` as a trait object (integration_test.rs:45-60, 90-105) -/
def targetOracle : OracleOptim (Arr α) (Arr α) (SingleCut α) α := ⟨targetAssess⟩

/-- `BenchOracle` (benches/ellipsoid.rs:8-23) -/
def benchAssess (o : Unit) (xc : Arr α) (gamma : α) : Res (((Arr α × SingleCut α) × Bool) × α × Unit) := do
  let gradient := xc.smul (nat 2)
  let f ← xc.dot xc
  quadAnswer o gradient f gamma

/-- `BenchOracle` as a trait object (ellipsoid.rs:10-23) -/
def benchOracle : OracleOptim Unit (Arr α) (SingleCut α) α := ⟨benchAssess⟩

/-- `IllConditionedOracle` (tests/numerical_stability.rs:7-25); the state is the field `condition_number` -/
def illAssess (cond : α) (xc : Arr α) (gamma : α) : Res (((Arr α × SingleCut α) × Bool) × α × α) := do
  let eps := 1 / cond
  let x ← xc.idx 0
  let y ← xc.idx 1
  quadAnswer cond (Arr.ofList [nat 2 * (1 + eps) * x, nat 2 * (1 / eps) * y])
    ((1 + eps) * (x * x) + (1 / eps) * (y * y)) gamma

/-- `IllConditionedOracle` as a trait object (numerical_stability.rs:11-25) -/
def illOracle : OracleOptim α (Arr α) (SingleCut α) α := ⟨illAssess⟩

/-- `ExtremeScaleOracle` (tests/numerical_stability.rs:90-108); the state is the field `scale` -/
def scaleAssess (s : α) (xc : Arr α) (gamma : α) : Res (((Arr α × SingleCut α) × Bool) × α × α) := do
  let x ← xc.idx 0
  let y ← xc.idx 1
  quadAnswer s (Arr.ofList [nat 2 * s * x, nat 2 * y]) (s * (x * x) + y * y) gamma

/-- `ExtremeScaleOracle` as a trait object (numerical_stability.rs:94-108) -/
def scaleOracle : OracleOptim α (Arr α) (SingleCut α) α := ⟨scaleAssess⟩

/-- `ScalingOracle` (tests/regression_tests.rs:173-194); the state is the field `ndim` -/
def scalingAssess (ndim : Nat) (xc : Arr α) (gamma : α) : Res (((Arr α × SingleCut α) × Bool) × α × Nat) := do
  let (gradient, f) ← forRange 0 ndim ((Arr.new ndim : Arr α), (0 : α)) fun i (gradient, f) => do
    let x ← xc.idx i
    let gradient ← gradient.setIdx i (nat 2 * x)
    .ok (gradient, f + x * x)
  quadAnswer ndim gradient f gamma

/-- `ScalingOracle` as a trait object (regression_tests.rs:177-194) -/
def scalingOracle : OracleOptim Nat (Arr α) (SingleCut α) α := ⟨scalingAssess⟩

/-- `MyLmiOracle<T>` (tests/lmi_tests.rs:121-126) -/
structure MyLmi (σ α : Type) where
  idx : Int
  c : Arr α
  lmi1 : σ
  lmi2 : σ

/-- one round of the loop in tests/lmi_tests.rs:147-169; the state is `gamma` and the two sub-oracles.  The update
`*gamma = f0` is made before the remaining rounds have been checked. -/
def myLmiBody {σ : Type} (orc : OracleFeas σ (Arr α) (SingleCut α) α) (c xc : Arr α) (f0 : α) (idx : Int)
    (s : α × σ × σ) : Res (Option (Arr α × SingleCut α) × (α × σ × σ)) :=
  if idx = 0 then do
    let (r, l1) ← orc.assess s.2.1 xc
    .ok (r, s.1, l1, s.2.2)
  else if idx = 1 then do
    let (r, l2) ← orc.assess s.2.2 xc
    .ok (r, s.1, s.2.1, l2)
  else if idx = 2 then
    let fj := f0 - s.1
    if Scalar.gt fj 0 then .ok (some (c, ⟨fj⟩), s) else .ok (none, f0, s.2)
  else .panic

/-- `MyLmiOracle::assess_optim` (tests/lmi_tests.rs:145-171), generic in the sub-oracle; `if self.idx == 2 { 0 } else
{ self.idx + 1 }` is the wrap-around of `rrLoop` -/
def MyLmi.assess {σ : Type} (orc : OracleFeas σ (Arr α) (SingleCut α) α) (o : MyLmi σ α) (xc : Arr α) (gamma : α) :
    Res (((Arr α × SingleCut α) × Bool) × α × MyLmi σ α) := do
  let f0 ← o.c.dot xc
  let (r, idx, g, l1, l2) ← rrLoop 0 3 (myLmiBody orc o.c xc f0) 3 o.idx (gamma, o.lmi1, o.lmi2)
  let o := { o with idx := idx, lmi1 := l1, lmi2 := l2 }
  match r with
  | some cut => .ok ((cut, false), g, o)
  | none => .ok (((o.c, ⟨0⟩), true), g, o)

/-- `MyLmiOracle` as a trait object (lmi_tests.rs:142-172) -/
def MyLmi.oracle {σ : Type} (orc : OracleFeas σ (Arr α) (SingleCut α) α) :
    OracleOptim (MyLmi σ α) (Arr α) (SingleCut α) α := ⟨MyLmi.assess orc⟩

/-- `PortfolioOracle` (examples/portfolio_optimization.rs:5-10) -/
structure Portfolio (α : Type) where
  expectedReturns : Arr α
  riskMatrix : Arr α
  maxRisk : α
  budget : α

/-- `self.risk_matrix[(i, j)]`: tuple `Index` on `Arr` (arr.rs:186-192), the flat index `i * cols + j` -/
def riskAt (p : Portfolio α) (i j : Nat) : Res α := p.riskMatrix.idx (i * p.riskMatrix.cols + j)

/-- `PortfolioOracle::assess_optim` (examples/portfolio_optimization.rs:26-71) -/
def Portfolio.assess (p : Portfolio α) (xc : Arr α) (gamma : α) :
    Res (((Arr α × SingleCut α) × Bool) × α × Portfolio α) := do
  let n := xc.len
  let gradient : Arr α := Arr.new n
  let sum ← forRange 0 n (0 : α) fun i acc => do
    let x ← xc.idx i
    .ok (acc + x)
  let budgetViolation := sum - p.budget
  if Scalar.gt budgetViolation 0 then do
    let gradient ← forRange 0 n gradient fun i g => g.setIdx i 1
    .ok (((gradient, ⟨budgetViolation⟩), false), gamma, p)
  else do
    let risk ← forRange 0 n (0 : α) fun i acc =>
      forRange 0 n acc fun j acc => do
        let xi ← xc.idx i
        let m ← riskAt p i j
        let xj ← xc.idx j
        .ok (acc + xi * m * xj)
    let riskViolation := risk - p.maxRisk
    if Scalar.gt riskViolation 0 then do
      let gradient ← forRange 0 n gradient fun i g => do
        let sum ← forRange 0 n (0 : α) fun j acc => do
          let a ← riskAt p i j
          let b ← riskAt p j i
          let xj ← xc.idx j
          .ok (acc + (a + b) * xj)
        g.setIdx i sum
      .ok (((gradient, ⟨riskViolation⟩), false), gamma, p)
    else do
      let ret ← p.expectedReturns.dot xc
      let obj := -ret
      if Scalar.lt obj gamma then do
        let gradient ← forRange 0 n gradient fun i g => do
          let r ← p.expectedReturns.idx i
          g.setIdx i (-r)
        .ok (((gradient, ⟨0⟩), true), obj, p)
      else .ok (((gradient, ⟨0⟩), false), gamma, p)

/-- `PortfolioOracle` as a trait object (portfolio_optimization.rs:23-72) -/
def Portfolio.oracle : OracleOptim (Portfolio α) (Arr α) (SingleCut α) α := ⟨Portfolio.assess⟩

/-- one round of the loop in tests/example2_tests.rs:30-45 -/
def ex2Body (x y : α) (idx : Int) (_ : Unit) : Res (Option (Arr α × SingleCut α) × Unit) :=
  if idx = 0 then cutIf (x + y - nat 3) [1, 1]
  else if idx = 1 then cutIf (-x + y + 1) [-1, 1]
  else .panic

/-- `MyOracle2::assess_feas` (tests/example2_tests.rs:25-47); the state is `idx`, initially `-1` -/
def ex2Assess (idx : Int) (xc : Arr α) : Res (Option (Arr α × SingleCut α) × Int) := do
  let x ← xc.idx 0
  let y ← xc.idx 1
  let (r, idx, _) ← rrLoop 0 2 (ex2Body x y) 2 idx ()
  .ok (r, idx)

/-- `MyOracle2` as a trait object; it has no `update` of its own, the trait's default does nothing
(cutting_plane.rs:123-125) -/
def ex2Oracle : OracleFeas Int (Arr α) (SingleCut α) α := ⟨ex2Assess, fun o _ => .ok o⟩

/-- one round of the loop in tests/quasicvx2_tests.rs:33-59 -/
def qcvx2Body (x y : α) (idx : Int) (_ : Unit) : Res (Option (Arr α × SingleCut α) × Unit) :=
  if idx = 0 then cutIf (Scalar.exp x - y) [Scalar.exp x, -1]
  else if idx = 1 then cutIf (-y) [0, -1]
  else if idx = 2 then cutIf (-x) [-1, 0]
  else .panic

/-- `MyQuasicvxOracle::assess_optim` (tests/quasicvx2_tests.rs:28-71); the state is `idx`, initially `-1` -/
def qcvx2Assess (idx : Int) (xc : Arr α) (gamma : α) : Res (((Arr α × SingleCut α) × Bool) × α × Int) := do
  let x ← xc.idx 0
  let y ← xc.idx 1
  let (r, idx, _) ← rrLoop 0 3 (qcvx2Body x y) 3 idx ()
  match r with
  | some cut => .ok ((cut, false), gamma, idx)
  | none =>
    let tmp2 := Scalar.sqrt x
    let fj := -tmp2 + gamma * y
    if Scalar.gt fj 0 then .ok (((Arr.ofList [-(dec 5 1) / tmp2, gamma], ⟨fj⟩), false), gamma, idx)
    else
      let g := tmp2 / y
      .ok (((Arr.ofList [-(dec 5 1) / tmp2, g], ⟨0⟩), true), g, idx)

/-- `MyQuasicvxOracle` as a trait object (quasicvx2_tests.rs:25-72) -/
def qcvx2Oracle : OracleOptim Int (Arr α) (SingleCut α) α := ⟨qcvx2Assess⟩

end Ellalgo
