import Verif.Model.RoundRobin

/-! # Model of `src/oracles/profit_oracle.rs` -/

namespace Ellalgo
variable {α : Type} [Scalar α]

/-- the fields of `ProfitOracle` that `assess_feas` writes besides `idx` (profit_oracle.rs:13-15) -/
structure ProfitCache (α : Type) where
  logCobb : α
  vx : α
  q : Arr α

/-- `ProfitOracle` (profit_oracle.rs:7-16) -/
structure ProfitOracle (α : Type) where
  idx : Int
  logPScale : α
  logK : α
  priceOut : Arr α
  elasticities : Arr α
  cache : ProfitCache α

/-- `ProfitOracle::new` (profit_oracle.rs:19-33); `params = (unit_price, scale, limit)` -/
def ProfitOracle.new (unitPrice scale limit : α) (elasticities priceOut : Arr α) : ProfitOracle α :=
  { idx := -1, logPScale := Scalar.ln (unitPrice * scale), logK := Scalar.ln limit, priceOut, elasticities,
    cache := ⟨0, 0, Arr.new 2⟩ }

/-- one round of the loop (profit_oracle.rs:42-61) -/
def ProfitOracle.body (o : ProfitOracle α) (y : Arr α) (gamma : α) (idx : Int) (c : ProfitCache α) :
    Res (Option (Arr α × α) × ProfitCache α) :=
  if idx = 0 then do
    let y0 ← y.idx 0
    let fj := y0 - o.logK
    if Scalar.gt fj 0 then .ok (some (Arr.ofList [1, 0], fj), c) else .ok (none, c)
  else if idx = 1 then do
    let d ← o.elasticities.dot y
    let logCobb := o.logPScale + d
    let q ← o.priceOut.mul (y.map Scalar.exp)
    let q0 ← q.idx 0
    let q1 ← q.idx 1
    let vx := q0 + q1
    let c : ProfitCache α := ⟨logCobb, vx, q⟩
    let fj := Scalar.ln (gamma + vx) - logCobb
    if Scalar.gt fj 0 then do
      let g ← (q.divScalar (gamma + vx)).sub o.elasticities
      .ok (some (g, fj), c)
    else .ok (none, c)
  else .panic

/-- `ProfitOracle::assess_feas` (profit_oracle.rs:35-64); `gamma` is only read -/
def ProfitOracle.assessFeas (o : ProfitOracle α) (y : Arr α) (gamma : α) :
    Res (Option (Arr α × α) × ProfitOracle α) := do
  let (r, idx, c) ← rrLoop 0 2 (o.body y gamma) 2 o.idx o.cache
  .ok (r, { o with idx := idx, cache := c })

/-- `ProfitOracle::assess_optim` (profit_oracle.rs:70-78) -/
def ProfitOracle.assess (o : ProfitOracle α) (y : Arr α) (gamma : α) :
    Res (((Arr α × SingleCut α) × Bool) × α × ProfitOracle α) := do
  let (r, o) ← o.assessFeas y gamma
  match r with
  | some (g, fj) => .ok (((g, ⟨fj⟩), false), gamma, o)
  | none => do
    let expVal := Scalar.exp o.cache.logCobb
    let grad ← (o.cache.q.divScalar expVal).sub o.elasticities
    .ok (((grad, ⟨0⟩), true), expVal - o.cache.vx, o)

/-- as a trait object (profit_oracle.rs:67-79) -/
def ProfitOracle.oracle : OracleOptim (ProfitOracle α) (Arr α) (SingleCut α) α := ⟨ProfitOracle.assess⟩

/-- `ProfitRbOracle` (profit_oracle.rs:81-86) -/
structure ProfitRbOracle (α : Type) where
  uie0 : α
  uie1 : α
  omega : ProfitOracle α
  elasticities : Arr α

/-- `ProfitRbOracle::new` (profit_oracle.rs:89-108) -/
def ProfitRbOracle.new (unitPrice scale limit : α) (elasticities priceOut : Arr α) (e1 e2 e3 e4 e5 : α) :
    Res (ProfitRbOracle α) := do
  let prices ← priceOut.add (Arr.ofList [e5, e5])
  .ok ⟨e1, e2, ProfitOracle.new (unitPrice - e3) scale (limit - e4) elasticities prices, elasticities⟩

/-- the worst elasticities at `y` (profit_oracle.rs:115-122) -/
def ProfitRbOracle.worst (o : ProfitRbOracle α) (y : Arr α) : Res (Arr α) :=
  forRange 0 2 o.elasticities fun i a => do
    let u ← Res.ofOption [o.uie0, o.uie1][i]?
    let yi ← y.idx i
    let old ← a.idx i
    a.setIdx i (old + (if Scalar.gt yi 0 then -u else u))

/-- `ProfitRbOracle::assess_optim` (profit_oracle.rs:114-125) -/
def ProfitRbOracle.assess (o : ProfitRbOracle α) (y : Arr α) (gamma : α) :
    Res (((Arr α × SingleCut α) × Bool) × α × ProfitRbOracle α) := do
  let aRb ← o.worst y
  let (r, gamma, omega) ← ({ o.omega with elasticities := aRb }).assess y gamma
  .ok (r, gamma, { o with omega := omega })

/-- as a trait object (profit_oracle.rs:111-126) -/
def ProfitRbOracle.oracle : OracleOptim (ProfitRbOracle α) (Arr α) (SingleCut α) α := ⟨ProfitRbOracle.assess⟩

/-- `ProfitOracleQ` (profit_oracle.rs:128-131) -/
structure ProfitOracleQ (α : Type) where
  omega : ProfitOracle α
  yd : Arr α

/-- `ProfitOracleQ::new` (profit_oracle.rs:134-139) -/
def ProfitOracleQ.new (unitPrice scale limit : α) (elasticities priceOut : Arr α) : ProfitOracleQ α :=
  ⟨ProfitOracle.new unitPrice scale limit elasticities priceOut, Arr.ofList [0, 0]⟩

/-- rounding of `exp y` to a positive integer vector, then back to logarithms (profit_oracle.rs:150-157) -/
def profitRound (y : Arr α) : Res (Arr α) := do
  let x := y.map fun v => Scalar.round (Scalar.exp v)
  let x0 ← x.idx 0
  let x ← if Scalar.beq x0 0 then x.setIdx 0 1 else .ok x
  let x1 ← x.idx 1
  let x ← if Scalar.beq x1 0 then x.setIdx 1 1 else .ok x
  .ok (x.map Scalar.ln)

/-- the second half of `assess_optim_q` (profit_oracle.rs:159-161) -/
def ProfitOracleQ.cutAtYd (o : ProfitOracleQ α) (y : Arr α) (gamma : α) (retry : Bool) :
    Res (((Arr α × SingleCut α) × Bool × Arr α × Bool) × α × ProfitOracleQ α) := do
  let (((grad, cut), shrunk), gamma, omega) ← o.omega.assess o.yd gamma
  let d ← o.yd.sub y
  let gd ← grad.dot d
  .ok (((grad, ⟨cut.beta + gd⟩), shrunk, o.yd, !retry), gamma, { o with omega := omega })

/-- `ProfitOracleQ::assess_optim_q` (profit_oracle.rs:145-162) -/
def ProfitOracleQ.assess (o : ProfitOracleQ α) (y : Arr α) (gamma : α) (retry : Bool) :
    Res (((Arr α × SingleCut α) × Bool × Arr α × Bool) × α × ProfitOracleQ α) :=
  if !retry then do
    let (r, omega) ← o.omega.assessFeas y gamma
    match r with
    | some (g, fj) => .ok (((g, ⟨fj⟩), false, y, true), gamma, { o with omega := omega })
    | none => do
      let yd ← profitRound y
      ({ omega := omega, yd := yd } : ProfitOracleQ α).cutAtYd y gamma retry
  else o.cutAtYd y gamma retry

/-- as a trait object (profit_oracle.rs:142-163) -/
def ProfitOracleQ.oracle : OracleOptimQ (ProfitOracleQ α) (Arr α) (SingleCut α) α := ⟨ProfitOracleQ.assess⟩

end Ellalgo
