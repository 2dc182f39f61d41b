import Verif.Spec.Honest

/-! Feasibility oracles with a target, as used below `bsearch`. -/

namespace Ellalgo
open Matrix

variable {Ω T : Type} [Cut T]

/-- A feasibility oracle for the family of problems "find `z ∈ F` with `f z ≤ t`"; `update` sets the target `t`, and
`I w t` is the invariant of its state under target `t`.  Updates and queries never panic; for every target the
oracle is honest; a point is accepted only if it is feasible for the current target. -/
structure FeasFamily (n : Nat) (orc : OracleFeas Ω (Arr ℝ) T ℝ) (I : Ω → ℝ → Prop) (F : Set (Fin n → ℝ))
    (f : (Fin n → ℝ) → ℝ) (G : ℝ) : Prop where
  update : ∀ w t t', I w t → ∃ w', orc.update w t' = .ok w' ∧ I w' t'
  honest : ∀ t, HonestFeas n orc (fun w => I w t) {z | z ∈ F ∧ f z ≤ t} G
  accepts : ∀ w x t w', I w t → x.IsVecShape n → orc.assess w x = .ok (none, w') →
    x.toVec n ∈ F ∧ f (x.toVec n) ≤ t

end Ellalgo
