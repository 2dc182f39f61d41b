import Verif.Spec.Mat
import Mathlib.Analysis.SpecialFunctions.Trigonometric.Basic

/-! Low-pass filter design in textbook form: bounds on the squared magnitude response
`R(ω) = x₀ + 2 ∑_{j ≥ 1} x_j cos(jω)` of an autocorrelation sequence `x` on a uniform grid of `[0, π]`. -/

namespace Ellalgo
open Matrix

/-- `R(ω)` -/
noncomputable def lpResponse {n : Nat} (x : Fin n → ℝ) (ω : ℝ) : ℝ :=
  ∑ j : Fin n, (if (j : Nat) = 0 then 1 else 2 * Real.cos (ω * j)) * x j

/-- A design problem: `m` grid points `π i / (m-1)`; the first `pass` form the passband with bounds `lp`, `up`; those
from `stop` on form the stopband. -/
structure LpData where
  m : Nat
  pass : Nat
  stop : Nat
  lp : ℝ
  up : ℝ

/-- grid point `i` -/
noncomputable def LpData.freq (d : LpData) (i : Nat) : ℝ := Real.pi / ((d.m - 1 : Nat) : ℝ) * i

/-- the bands are in order and within the grid -/
structure LpData.Ok (d : LpData) : Prop where
  order : d.pass ≤ d.stop
  inside : d.stop ≤ d.m
  grid : 2 ≤ d.m

/-- filters meeting the specification with stopband bound `σ` -/
def LpData.feasible (d : LpData) {n : Nat} (σ : ℝ) : Set (Fin n → ℝ) :=
  {x | (∀ i < d.pass, d.lp ≤ lpResponse x (d.freq i) ∧ lpResponse x (d.freq i) ≤ d.up) ∧
    (∀ i, d.stop ≤ i → i < d.m → 0 ≤ lpResponse x (d.freq i) ∧ lpResponse x (d.freq i) ≤ σ) ∧
    (∀ i, d.pass ≤ i → i < d.stop → 0 ≤ lpResponse x (d.freq i)) ∧
    (∀ j : Fin n, (j : Nat) = 0 → 0 ≤ x j)}

end Ellalgo
