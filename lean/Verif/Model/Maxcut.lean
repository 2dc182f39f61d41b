import Verif.Model.Arr
import Verif.Model.CuttingPlane

/-! # Model of `src/oracles/maxcut_oracle.rs` -/

namespace Ellalgo
variable {α : Type} [Scalar α]

/-- `MaxcutOracle` (maxcut_oracle.rs:4-7) -/
structure MaxcutOracle (α : Type) where
  weights : Arr α
  n : Nat

omit [Scalar α] in
/-- `MaxcutOracle::new` (maxcut_oracle.rs:10-15) -/
def MaxcutOracle.new (weights : Arr α) : Res (MaxcutOracle α) := do
  let n := weights.rows
  Res.assert (n == weights.cols)
  Res.assert weights.is2d
  .ok ⟨weights, n⟩

/-- `xc.map(|v| if v >= 0.0 { 1.0 } else { -1.0 })` (maxcut_oracle.rs:22) -/
def maxcutSigns (xc : Arr α) : Arr α := xc.map fun v => if Scalar.ge v 0 then 1 else -1

/-- `cut_value` (maxcut_oracle.rs:24-31) -/
def MaxcutOracle.cutValue (o : MaxcutOracle α) (x : Arr α) : Res α :=
  forRange 0 o.n (0 : α) fun i s =>
    forRange (i + 1) o.n s fun j s => do
      let xi ← x.idx i
      let xj ← x.idx j
      if !Scalar.beq xi xj then do
        let w ← o.weights.idx (i * o.weights.cols + j)
        .ok (s + w)
      else .ok s

/-- `grad` (maxcut_oracle.rs:33-41) -/
def MaxcutOracle.grad (o : MaxcutOracle α) (x : Arr α) : Res (Arr α) := do
  let g ← forRange 0 o.n (Arr.new o.n) fun i g =>
    forRange 0 o.n g fun j g => do
      let xi ← x.idx i
      let xj ← x.idx j
      if !Scalar.beq xi xj then do
        let w ← o.weights.idx (i * o.weights.cols + j)
        let old ← g.idx i
        g.setIdx i (old + w)
      else .ok g
  .ok (g.smul (nat 2))

/-- `MaxcutOracle::assess_optim` (maxcut_oracle.rs:21-49) -/
def MaxcutOracle.assess (o : MaxcutOracle α) (xc : Arr α) (gamma : α) :
    Res (((Arr α × SingleCut α) × Bool) × α × MaxcutOracle α) := do
  let x := maxcutSigns xc
  let cutValue ← o.cutValue x
  let grad ← o.grad x
  if Scalar.gt cutValue gamma then .ok (((grad.neg, ⟨-cutValue⟩), true), cutValue, o)
  else .ok (((grad.neg, ⟨gamma⟩), false), gamma, o)

/-- as a trait object (maxcut_oracle.rs:18-50) -/
def MaxcutOracle.oracle : OracleOptim (MaxcutOracle α) (Arr α) (SingleCut α) α := ⟨MaxcutOracle.assess⟩

end Ellalgo
