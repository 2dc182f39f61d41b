import Verif.Spec.RoundedCut
import Verif.Model.CuttingPlane

/-! Specification for C104: honest oracles in rounded arithmetic, and when the precision is high enough for a run. -/

namespace Ellalgo
open Matrix
variable {u : ℝ} {R : Rounding u}

/-- A feasibility oracle in rounded arithmetic for the set `K`, at points of norm at most `X`.  `I` is an invariant of its internal
state.  It never panics; whenever it rejects a point it returns a nonzero gradient of norm at least `G` and a cut with `beta ≥ 0` that
every point of `K` satisfies. -/
def FlHonest {Ω : Type} (n : Nat) (orc : OracleFeas Ω (Arr (Fl R)) (SingleCut (Fl R)) (Fl R)) (I : Ω → Prop)
    (K : Set (Fin n → ℝ)) (G X : ℝ) : Prop :=
  ∀ w x, I w → x.IsVecShape n → norm2 (x.flVec n) ≤ X → ∃ r w', orc.assess w x = .ok (r, w') ∧ I w' ∧
    ∀ g beta, r = some (g, ⟨beta⟩) → g.IsVecShape n ∧ g.flVec n ≠ 0 ∧ G ^ 2 ≤ normSq (g.flVec n) ∧ 0 ≤ beta.val ∧
      ∀ y ∈ K, g.flVec n ⬝ᵥ (y - x.flVec n) + beta.val ≤ 0

/-- every cut the oracle returns at a point of norm at most `X` separates that point from `m` by at least `δ` -/
def FlSeparates {Ω : Type} (n : Nat) (orc : OracleFeas Ω (Arr (Fl R)) (SingleCut (Fl R)) (Fl R)) (I : Ω → Prop) (m : Fin n → ℝ)
    (δ X : ℝ) : Prop :=
  ∀ w x g beta w', I w → x.IsVecShape n → norm2 (x.flVec n) ≤ X → orc.assess w x = .ok (some (g, ⟨beta⟩), w') →
    g.flVec n ⬝ᵥ (m - x.flVec n) ≤ -δ

/-- all cuts of the oracle go through the point it was asked about -/
def OnlyCentral {Ω : Type} (orc : OracleFeas Ω (Arr (Fl R)) (SingleCut (Fl R)) (Fl R)) : Prop :=
  ∀ w x g beta w', orc.assess w x = .ok (some (g, ⟨beta⟩), w') → beta.val = 0

/-- The numbers of a run: at most `N` cuts from the size `κ` and a matrix with entries at most `B`, for a set that contains a ball of
radius `r` around a point of norm at most `P`.  The size grows at most `z` times per cut, every cut leaves at least the part `γ` of the radius,
the inflation stays below `t` and `ln det(κM)` falls by at least `ρ` per cut. -/
structure Plan where
  N : Nat
  B : ℝ
  κ : ℝ
  r : ℝ
  P : ℝ
  z : ℝ
  γ : ℝ
  t : ℝ
  ρ : ℝ

namespace Plan
variable (p : Plan) (n : Nat) (u : ℝ)

/-- no ellipsoid of the run extends further than this in any direction, -/
noncomputable def reach : ℝ := √(p.z ^ p.N * p.κ * (n * (2 * p.B)))
/-- the centres have at most this norm, -/
noncomputable def far : ℝ := p.P + p.t * p.reach n
/-- the matrices are bounded below by this number, -/
noncomputable def low : ℝ := p.r ^ 2 / (p.t ^ 2 * (p.z ^ p.N * p.κ))
/-- and the errors of one update are these. -/
noncomputable def err : ℝ := quadErr u n (2 * p.B) p.low
noncomputable def loss : ℝ := 97 / 96 * deepLoss u n (2 * p.B) p.low p.γ
noncomputable def drift : ℝ := deepDrift u n (2 * p.B) p.low ((p.γ / 2) ^ p.N * p.κ) (p.far n) p.γ
/-- inflation after `i` cuts -/
noncomputable def inflated (i : Nat) : ℝ := (deepInflation u n (p.err n u) (p.loss n u) (p.drift n u) p.γ)^[i] 1

/-- the unit `u` is small enough for the run -/
structure EnoughPrecision : Prop where
  gap_pos : 0 < p.γ
  gap_le : p.γ ≤ 1
  infl : 1 ≤ p.t
  grow : 1 ≤ p.z
  unit : u ≤ 1 / 64
  loss : p.loss n u ≤ 1 / 2
  entries : (1 + 33 * p.err n u) ^ p.N ≤ 2
  inflated : ∀ i ≤ p.N, p.inflated n u i ≤ p.t
  growth : (1 + 3 * p.err n u / p.γ) * ((n : ℝ) * n / (n * n - 1)) ≤ (1 - u) ^ 13 * p.z
  volume : ((1 + 3 * p.err n u / p.γ) * (1 + p.loss n u)) ^ n ≤ (1 - u) ^ (13 * n) * Real.exp (1 / ((n : ℝ) + 1) - p.ρ)

end Plan

end Ellalgo
