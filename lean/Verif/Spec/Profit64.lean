import Verif.Spec.Binary64Iter
import Verif.Spec.RoundedProfit

/-! The profit oracles in IEEE `f64`: vocabulary. -/

namespace Ellalgo

section generic
variable {α : Type} [Scalar α]

/-- the logarithm of the revenue as computed in the arithmetic `α` (profit_oracle.rs:48) -/
def ProfitOracle.logOf (o : ProfitOracle α) (y : Arr α) : α := o.logPScale + sumTo 2 fun j => o.elasticities.vec j * y.vec j
/-- the cost of the inputs as computed (profit_oracle.rs:49-50) -/
def ProfitOracle.costOf (o : ProfitOracle α) (y : Arr α) : α :=
  o.priceOut.vec 0 * Scalar.exp (y.vec 0) + o.priceOut.vec 1 * Scalar.exp (y.vec 1)
/-- the profit as computed (profit_oracle.rs:74-76) -/
def ProfitOracle.profitOf (o : ProfitOracle α) (y : Arr α) : α := Scalar.exp (o.logOf y) - o.costOf y

/-- two inputs, and a position in the round robin that the code can reach -/
structure ProfitOracle.Shaped (o : ProfitOracle α) : Prop where
  lo : -1 ≤ o.idx
  hi : o.idx < 2
  cost : o.priceOut.IsVecShape 2
  elas : o.elasticities.IsVecShape 2

/-- `o'` has the same data as `o` -/
structure ProfitOracle.SameData (o o' : ProfitOracle α) : Prop where
  scale : o'.logPScale = o.logPScale
  limit : o'.logK = o.logK
  cost : o'.priceOut = o.priceOut
  elas : o'.elasticities = o.elasticities

end generic

/-- the finite `f64` number `x` -/
def B64.Equals (a : B64) (x : ℝ) : Prop := a.Finite ∧ a.val = x

/-- prices, limit and costs of the data `d`, as a `ProfitOracle` in `f64` stores them -/
structure ProfitOracle.Stores (o : ProfitOracle B64) (d : ProfitData) : Prop where
  scale : o.logPScale.Equals (rnd53 (Real.log (rnd53 (d.price * d.scale))))
  limit : o.logK.Equals (rnd53 (Real.log d.limit))
  cost : ∀ i : Fin 2, (o.priceOut.vec i).Equals (d.cost i)

/-- a `ProfitOracle` in `f64` for the data `d`, at any time; the cached values are arbitrary -/
structure ProfitOracle.For64 (o : ProfitOracle B64) (d : ProfitData) : Prop where
  shaped : o.Shaped
  stores : o.Stores d
  elas : ∀ i : Fin 2, (o.elasticities.vec i).Equals (d.elas i)

/-- data of ordinary size -/
structure ProfitData.Tame (d : ProfitData) : Prop where
  pos : d.Pos
  scale : (2 : ℝ) ^ (-64 : ℤ) ≤ d.price * d.scale ∧ d.price * d.scale ≤ (2 : ℝ) ^ (64 : ℤ)
  cost : ∀ i, (2 : ℝ) ^ (-400 : ℤ) ≤ d.cost i ∧ d.cost i ≤ (2 : ℝ) ^ (400 : ℤ)

/-- a point `y` (logarithms of the inputs) of ordinary size: inputs between `e⁻²⁵⁶` and `e²⁵⁶`, the terms `elas i * y i` not beyond 64 and not
below the smallest normal number -/
structure ProfitData.TameAt (d : ProfitData) (y : Fin 2 → ℝ) : Prop where
  point : ∀ i, |y i| ≤ 256
  under : ∀ i, NoUnder (d.elas i * y i)
  over : ∀ i, |d.elas i * y i| ≤ 64

/-- every entry is a finite number -/
def Arr.AllFinite (a : Arr B64) : Prop := ∀ y ∈ a.data, y.Finite

/-- a `ProfitRbOracle` in `f64` whose reduced price and limit, raised costs and nominal elasticities are the data `d`, with elasticities uncertain
by `e1`, `e2` -/
structure ProfitRbOracle.For64 (o : ProfitRbOracle B64) (d : ProfitData) (e1 e2 : ℝ) : Prop where
  shaped : o.omega.Shaped
  stores : o.omega.Stores d
  elasShape : o.elasticities.IsVecShape 2
  elas : ∀ i : Fin 2, (o.elasticities.vec i).Equals (d.elas i)
  uie0 : o.uie0.Equals e1
  uie1 : o.uie1.Equals e2

/-- a number that, if finite, is the rounded logarithm of a positive integer -/
def B64.LogInt (a : B64) : Prop := a.Finite → ∃ k : ℕ, 1 ≤ k ∧ a.val = rnd53 (Real.log k)

/-- a `ProfitOracleQ` in `f64` for the data `d`, at any time -/
structure ProfitOracleQ.For64 (o : ProfitOracleQ B64) (d : ProfitData) : Prop where
  inner : o.omega.For64 d
  yd : o.yd.IsVecShape 2
  int : ∀ i < 2, (o.yd.vec i).LogInt

end Ellalgo
