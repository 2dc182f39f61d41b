import Verif.Spec.RoundedOptim

/-! Specification for C107: bisection in rounded arithmetic. -/

namespace Ellalgo
open Matrix
variable {u : ℝ} {R : Rounding u}

/-- Feasibility problems with a level `t`, in rounded arithmetic: `update` sets the level; at level `t` an accepted point satisfies the
inequalities `F t` up to `δ t`, and a cut keeps every point that satisfies them with margin `δ t` and has a gradient of norm at least
`G`.  `I w t`: the oracle's internal state is sound and its level is `t`. -/
structure FlLevels {Ω : Type} (n : Nat) (orc : OracleFeas Ω (Arr (Fl R)) (SingleCut (Fl R)) (Fl R)) (I : Ω → Fl R → Prop)
    (F : ℝ → ℝ → Set (Fin n → ℝ)) (δ : ℝ → (Fin n → ℝ) → ℝ) (G : ℝ) : Prop where
  update : ∀ w s t, I w s → ∃ w', orc.update w t = .ok w' ∧ I w' t
  answers : ∀ t, FlFeasible n orc (fun w => I w t) (F t.val) (δ t.val)
  gradients : ∀ t, CutGradientsAtLeast n orc (fun w => I w t) G
  margins : ∀ t, Antitone (F t)

end Ellalgo
