import Verif.Spec.Mat
import Verif.Spec.Ellipsoid
import Verif.Model.CuttingPlane

/-! What an optimisation oracle promises about one answer. -/

namespace Ellalgo
open Matrix

/-- The answer `(g, beta)`, `shrunk`, new value `γ'` to a query at `x` with current value `γ`, for the problem
"maximise `f` over `F`": improvement is reported exactly when `x` is feasible and at least as good as `γ`; then
`γ'` is its value and the central cut keeps every feasible point at least that good; otherwise `γ` is unchanged and
the cut is violated at `x` (`beta > 0`) and keeps every feasible point at least as good as `γ`. -/
structure MaxAnswer {n : Nat} (F : Set (Fin n → ℝ)) (f : (Fin n → ℝ) → ℝ) (x : Fin n → ℝ) (γ : ℝ)
    (g : Arr ℝ) (beta : ℝ) (shrunk : Bool) (γ' : ℝ) : Prop where
  shape : g.IsVecShape n
  improves : shrunk = true ↔ x ∈ F ∧ γ ≤ f x
  value : γ' = if shrunk then f x else γ
  rejected : shrunk = false → 0 < beta ∧ ∀ z ∈ F, γ ≤ f z → g.toVec n ⬝ᵥ (z - x) + beta ≤ 0
  accepted : shrunk = true → beta = 0 ∧ ∀ z ∈ F, γ' ≤ f z → g.toVec n ⬝ᵥ (z - x) ≤ 0

/-- An oracle for "maximise `f` over `F`": as long as the invariant `I` of its state and value holds, no query panics,
every answer is a `MaxAnswer` with a nonzero gradient of norm at least `G`, and `I` is kept. -/
def Maximizes {Ω : Type} (n : Nat) (orc : OracleOptim Ω (Arr ℝ) (SingleCut ℝ) ℝ) (I : Ω → ℝ → Prop)
    (F : Set (Fin n → ℝ)) (f : (Fin n → ℝ) → ℝ) (G : ℝ) : Prop :=
  ∀ w x γ, I w γ → x.IsVecShape n → ∃ g beta shrunk γ' w',
    orc.assess w x γ = .ok (((g, ⟨beta⟩), shrunk), γ', w') ∧ I w' γ' ∧
    MaxAnswer F f (x.toVec n) γ g beta shrunk γ' ∧ g.toVec n ≠ 0 ∧ G ^ 2 ≤ normSq (g.toVec n)

/-- A weaker contract that allows vanishing gradients, as at an interior optimum of a smooth objective.  `B` is a set of
interest (a bounded one).  Every answer is a `MaxAnswer`; and for every `ε > 0` there are `G, δ > 0` such that each answer
either has a gradient of norm at least `G` or separates the points of `F ∩ B` better than the new value by `ε` with
margin `δ`. -/
def Optimizes {Ω : Type} (n : Nat) (orc : OracleOptim Ω (Arr ℝ) (SingleCut ℝ) ℝ) (I : Ω → ℝ → Prop)
    (F : Set (Fin n → ℝ)) (f : (Fin n → ℝ) → ℝ) (B : Set (Fin n → ℝ)) : Prop :=
  ∀ ε > 0, ∃ G > 0, ∃ δ > 0, ∀ w x γ, I w γ → x.IsVecShape n → ∃ g beta shrunk γ' w',
    orc.assess w x γ = .ok (((g, ⟨beta⟩), shrunk), γ', w') ∧ I w' γ' ∧
    MaxAnswer F f (x.toVec n) γ g beta shrunk γ' ∧
    (G ^ 2 ≤ normSq (g.toVec n) ∨
      ∀ z ∈ F, z ∈ B → γ' + ε ≤ f z → g.toVec n ⬝ᵥ (z - x.toVec n) + beta ≤ -δ)

/-- The value never decreases. -/
theorem MaxAnswer.mono {n : Nat} {F : Set (Fin n → ℝ)} {f : (Fin n → ℝ) → ℝ} {x : Fin n → ℝ} {γ : ℝ}
    {g : Arr ℝ} {beta : ℝ} {shrunk : Bool} {γ' : ℝ} (h : MaxAnswer F f x γ g beta shrunk γ') : γ ≤ γ' := by
  rw [h.value]
  split
  · rename_i hs; exact (h.improves.1 hs).2
  · exact le_rfl

end Ellalgo
