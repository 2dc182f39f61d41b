import Verif.Spec.Rounded
import Verif.Spec.Profit
import Verif.Model.Profit

/-! What rounding can do to the profit of `profit_oracle.rs`. -/

namespace Ellalgo
open Matrix
variable {u : ℝ} {R : Rounding u}

/-- The state of a `ProfitOracle` built by `ProfitOracle::new` for the data `d` in rounded arithmetic; the cached values are
arbitrary and the round-robin position is one the code can reach. -/
structure ProfitOracle.FlFor (o : ProfitOracle (Fl R)) (d : ProfitData) : Prop where
  lo : -1 ≤ o.idx
  hi : o.idx < 2
  scale : o.logPScale.val = R.rnd (Real.log (R.rnd (d.price * d.scale)))
  limit : o.logK.val = R.rnd (Real.log d.limit)
  costShape : o.priceOut.IsVecShape 2
  cost : o.priceOut.flVec 2 = d.cost
  elasShape : o.elasticities.IsVecShape 2
  elas : o.elasticities.flVec 2 = d.elas

/-- `|ln(price · scale)| + Σ |elas_i| |y_i|`: the size of the terms that make up the logarithm of the revenue -/
noncomputable def ProfitData.logSize (d : ProfitData) (y : Fin 2 → ℝ) : ℝ :=
  |Real.log (d.price * d.scale)| + (|d.elas 0| * |y 0| + |d.elas 1| * |y 1|)

/-- a bound for the error of the computed logarithm of the revenue -/
noncomputable def ProfitData.logErr (u : ℝ) (d : ProfitData) (y : Fin 2 → ℝ) : ℝ :=
  ((1 + u) ^ 4 - 1) * d.logSize y - (1 + u) ^ 2 * Real.log (1 - u)

/-- a bound for the error of the computed profit -/
noncomputable def ProfitData.profitErr (u : ℝ) (d : ProfitData) (y : Fin 2 → ℝ) : ℝ :=
  (1 + u) * (((1 + u) * Real.exp (d.logErr u y) - 1) * d.revenue y + ((1 + u) ^ 3 - 1) * d.expense y) + u * |d.profit y|

/-- a bound for how far, on the logarithmic scale, the comparison of a profit with `γ` can be off -/
noncomputable def ProfitData.cmpErr (u : ℝ) (d : ProfitData) (y : Fin 2 → ℝ) : ℝ :=
  d.logErr u y + u / (1 - u) * (|Real.log (d.revenue y)| + d.logErr u y)

/-- the data with the elasticities moved against the sign of `y` by `e1`, `e2`, each sum rounded: the worst case at `y` -/
noncomputable def ProfitData.flWorstAt (R : Rounding u) (d : ProfitData) (e1 e2 : ℝ) (y : Fin 2 → ℝ) : ProfitData :=
  { d with elas := ![R.rnd (d.elas 0 + if 0 < y 0 then -e1 else e1), R.rnd (d.elas 1 + if 0 < y 1 then -e2 else e2)] }

/-- A `ProfitRbOracle` whose reduced price and limit, raised costs and nominal elasticities are the data `d`; the elasticities in
the inner oracle are left from the last query. -/
structure ProfitRbOracle.FlFor (o : ProfitRbOracle (Fl R)) (d : ProfitData) (e1 e2 : ℝ) : Prop where
  omega : ∃ el, o.omega.FlFor { d with elas := el }
  elasShape : o.elasticities.IsVecShape 2
  elas : o.elasticities.flVec 2 = d.elas
  uie0 : o.uie0.val = e1
  uie1 : o.uie1.val = e2

/-- `v` is the rounded logarithm of a vector of positive integers -/
def IsFlLogInt (R : Rounding u) (v : Fin 2 → ℝ) : Prop := ∃ k : Fin 2 → ℕ, (∀ i, 1 ≤ k i) ∧ ∀ i, v i = R.rnd (Real.log (k i))

/-- the state of a `ProfitOracleQ` for the data `d` in rounded arithmetic -/
structure ProfitOracleQ.FlFor (o : ProfitOracleQ (Fl R)) (d : ProfitData) : Prop where
  inner : o.omega.FlFor d
  yd : o.yd.IsVecShape 2
  int : IsFlLogInt R (o.yd.flVec 2)

end Ellalgo
