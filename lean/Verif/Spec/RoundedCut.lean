import Verif.Spec.Rounded
import Verif.Spec.RoundedPower

/-! Specification for C103: how well conditioned a stored ellipsoid is, and the size of the errors one update can make. -/

namespace Ellalgo
open Matrix
variable {u : ℝ} {R : Rounding u}

/-- A stored ellipsoid whose matrix `M` is symmetric with `lam I ⪯ M` and entries at most `B`, so that its condition number is
controlled by `B / lam`.  The remaining fields say that it is one the constructors make. -/
structure Ell.Conditioned (n : Nat) (lam B : ℝ) (e : Ell (Fl R)) : Prop where
  shaped : e.Shaped n
  dim : 2 ≤ n
  helper : e.helper = EllCalc.new n
  noDefer : e.noDeferTrick = false
  kappa : 0 < e.kappa.val
  symm : (e.mq.flMat n).IsSymm
  lam_pos : 0 < lam
  lower : ∀ v : Fin n → ℝ, lam * (v ⬝ᵥ v) ≤ v ⬝ᵥ (e.mq.flMat n *ᵥ v)
  entries : ∀ i j, |e.mq.flMat n i j| ≤ B

/-- the relative size of the error in `gᵀMg` for a matrix with `lam I ⪯ M` and entries at most `B` -/
noncomputable def quadErr (u : ℝ) (n : Nat) (B lam : ℝ) : ℝ := ((1 + u) ^ (2 * n + 2) - 1) * (n * (B / lam))

/-- the relative size of the error in the new matrix -/
noncomputable def cutLoss (u : ℝ) (n : Nat) (B lam : ℝ) : ℝ := 24 * quadErr u n B lam * (n * (B / lam))

/-- the size of the error in the new centre, in units of the radius; `X` is the norm of the old centre -/
noncomputable def cutDrift (u : ℝ) (n : Nat) (B lam κ X : ℝ) : ℝ :=
  2 * (u * X / √(κ * lam)) + 8 * quadErr u n B lam * √(n * (B / lam))

/-- An ellipsoid inflated `t` times is covered by the new one inflated this many times after a central cut.  Without rounding
(`u = η = ν = 0`) an ellipsoid that is not inflated stays so. -/
noncomputable def inflation (u : ℝ) (n : Nat) (η ν t : ℝ) : ℝ := (t + (t - 1) / n + ν) / √((1 - η) * (1 - u) ^ 11)

/-- `cutLoss` for cuts of depth `β ≤ (1 - γ) √(κ gᵀMg)` -/
noncomputable def deepLoss (u : ℝ) (n : Nat) (B lam γ : ℝ) : ℝ := 192 * quadErr u n B lam * (n * (B / lam)) / γ

/-- `cutDrift` for cuts of depth `β ≤ (1 - γ) √(κ gᵀMg)` -/
noncomputable def deepDrift (u : ℝ) (n : Nat) (B lam κ X γ : ℝ) : ℝ :=
  6 / γ ^ 2 * (u * X / √(κ * lam) + 16 * quadErr u n B lam * √(n * (B / lam)))

/-- `inflation` for cuts of depth `β ≤ (1 - γ) √(κ gᵀMg)`; `θ` is `quadErr` -/
noncomputable def deepInflation (u : ℝ) (n : Nat) (θ η ν γ t : ℝ) : ℝ :=
  (1 + (1 + 1 / (n : ℝ)) / γ ^ 2 * (t - 1) + ν) / √((1 - η) * ((1 - 3 * θ / γ) * (1 - u) ^ 13))

/-- what holds at every update of a run of central cuts: `P e g` for every gradient `g` and the state `e` it is applied to -/
def Ell.Along (P : Ell (Fl R) → Arr (Fl R) → Prop) : Ell (Fl R) → List (Arr (Fl R) × SingleCut (Fl R)) → Prop
  | _, [] => True
  | e, c :: cs => P e c.1 ∧ ∀ st e', Ell.space.update .central e c = .ok (st, e') → Ell.Along P e' cs

end Ellalgo
