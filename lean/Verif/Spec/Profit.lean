import Verif.Spec.OptimAnswer
import Mathlib.Analysis.SpecialFunctions.Log.Basic

/-! The profit-maximisation problem of `profit_oracle.rs`, in textbook form. -/

namespace Ellalgo
open Matrix

/-- Data of the problem: unit price, production scale, limit on the first input, elasticities, input prices. -/
structure ProfitData where
  price : ℝ
  scale : ℝ
  limit : ℝ
  elas : Fin 2 → ℝ
  cost : Fin 2 → ℝ

/-- revenue of the Cobb-Douglas production function with inputs `exp z` -/
noncomputable def ProfitData.revenue (d : ProfitData) (z : Fin 2 → ℝ) : ℝ :=
  d.price * (d.scale * (Real.exp (z 0) ^ d.elas 0 * Real.exp (z 1) ^ d.elas 1))
/-- cost of the inputs `exp z` -/
noncomputable def ProfitData.expense (d : ProfitData) (z : Fin 2 → ℝ) : ℝ :=
  d.cost 0 * Real.exp (z 0) + d.cost 1 * Real.exp (z 1)
/-- profit -/
noncomputable def ProfitData.profit (d : ProfitData) (z : Fin 2 → ℝ) : ℝ := d.revenue z - d.expense z
/-- the first input is at most the limit -/
def ProfitData.feasible (d : ProfitData) : Set (Fin 2 → ℝ) := {z | Real.exp (z 0) ≤ d.limit}
/-- prices, scale and limit are positive -/
structure ProfitData.Pos (d : ProfitData) : Prop where
  price : 0 < d.price
  scale : 0 < d.scale
  limit : 0 < d.limit
  cost : ∀ i, 0 < d.cost i

/-- Uncertainty: half-widths for the two elasticities, the unit price, the limit and the input prices. -/
structure ProfitUncertainty where
  e1 : ℝ
  e2 : ℝ
  e3 : ℝ
  e4 : ℝ
  e5 : ℝ

/-- all data within the uncertainty around the nominal data `d` (the scale is certain) -/
def ProfitData.within (d : ProfitData) (u : ProfitUncertainty) : Set ProfitData :=
  {d' | |d'.elas 0 - d.elas 0| ≤ u.e1 ∧ |d'.elas 1 - d.elas 1| ≤ u.e2 ∧ |d'.price - d.price| ≤ u.e3 ∧
    |d'.limit - d.limit| ≤ u.e4 ∧ (∀ i, |d'.cost i - d.cost i| ≤ u.e5) ∧ d'.scale = d.scale}

/-- feasible whatever the data -/
def ProfitData.robustFeasible (d : ProfitData) (u : ProfitUncertainty) : Set (Fin 2 → ℝ) :=
  {z | ∀ d' ∈ d.within u, z ∈ d'.feasible}
/-- guaranteed profit -/
noncomputable def ProfitData.robustProfit (d : ProfitData) (u : ProfitUncertainty) (z : Fin 2 → ℝ) : ℝ :=
  sInf ((fun d' => d'.profit z) '' d.within u)
/-- nonnegative half-widths that leave price and limit positive -/
structure ProfitUncertainty.Ok (u : ProfitUncertainty) (d : ProfitData) : Prop where
  e1 : 0 ≤ u.e1
  e2 : 0 ≤ u.e2
  e3 : 0 ≤ u.e3
  e4 : 0 ≤ u.e4
  e5 : 0 ≤ u.e5
  price : u.e3 < d.price
  limit : u.e4 < d.limit

end Ellalgo
