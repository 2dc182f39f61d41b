import Verif.Spec.Rounded
import Verif.Spec.EllOps
import Verif.Model.CuttingPlane

/-!
# What an oracle owes its caller when it computes in rounded arithmetic

The problem "maximise `f` over the points satisfying some inequalities" is given with a dial: `F m` is the set of points that
satisfy every inequality with margin `m`.  `F 0` is the problem as written, `F m` for `m > 0` is stricter, `F (-m)` is laxer.
`δ x` is what rounding can do when the inequalities and the objective are evaluated at `x`.
-/

namespace Ellalgo
open Matrix
variable {u : ℝ} {R : Rounding u} {n : Nat}

/-- A search space in dimension `n` as far as sizes go: its centre has length `n` and a cut of that length can always be
applied.  Nothing is said about where the centre goes. -/
structure Space.Steady {S T α : Type} (sp : Space S (Arr α) T α) (n : Nat) (Q : S → Prop) : Prop where
  centre : ∀ s, Q s → (sp.xc s).IsVecShape n
  step : ∀ k s g t, Q s → g.IsVecShape n → ∃ st s', sp.update k s (g, t) = .ok (st, s') ∧ Q s'

/-- A correct answer of a maximising oracle at `x` with current value `γ`, in rounded arithmetic.
* Accepted: `x` satisfies the inequalities up to `δ x`, the new value is the objective at `x` up to `δ x` and no less than
  the old one, and the (central) cut keeps every point with a better objective.
* Rejected: the value stays, the cut is deep, and it keeps every point that satisfies the inequalities with margin `δ x` and
  beats `γ` by `δ x + 2 u |γ|`. -/
structure FlMaxAnswer (F : ℝ → Set (Fin n → ℝ)) (f δ : (Fin n → ℝ) → ℝ) (x : Fin n → ℝ) (γ : ℝ) (g : Arr (Fl R))
    (beta : ℝ) (shrunk : Bool) (γ' : ℝ) : Prop where
  shape : g.IsVecShape n
  nonzero : g.flVec n ≠ 0
  accepted : shrunk = true → x ∈ F (-δ x) ∧ |γ' - f x| ≤ δ x ∧ γ ≤ γ' ∧ beta = 0 ∧
    ∀ z, f x ≤ f z → g.flVec n ⬝ᵥ (z - x) ≤ 0
  rejected : shrunk = false → γ' = γ ∧ 0 < beta ∧
    ∀ z ∈ F (δ x), γ + (δ x + 2 * u * |γ|) ≤ f z → g.flVec n ⬝ᵥ (z - x) + beta ≤ 0

/-- A maximising oracle in rounded arithmetic: while its state satisfies `I` no query panics, every answer is a correct one
and `I` is kept. -/
def FlMaximizes {Ω : Type} (n : Nat) (orc : OracleOptim Ω (Arr (Fl R)) (SingleCut (Fl R)) (Fl R)) (I : Ω → Prop)
    (F : ℝ → Set (Fin n → ℝ)) (f δ : (Fin n → ℝ) → ℝ) : Prop :=
  ∀ w x γ, I w → x.IsVecShape n → ∃ g beta shrunk γ' w',
    orc.assess w x γ = .ok (((g, ⟨beta⟩), shrunk), γ', w') ∧ I w' ∧
    FlMaxAnswer F f δ (x.flVec n) γ.val g beta.val shrunk γ'.val

/-- A feasibility oracle in rounded arithmetic: an accepted point satisfies the inequalities up to `δ`, a cut is deep and keeps
every point that satisfies them with margin `δ`. -/
def FlFeasible {Ω : Type} (n : Nat) (orc : OracleFeas Ω (Arr (Fl R)) (SingleCut (Fl R)) (Fl R)) (I : Ω → Prop)
    (F : ℝ → Set (Fin n → ℝ)) (δ : (Fin n → ℝ) → ℝ) : Prop :=
  ∀ w x, I w → x.IsVecShape n → ∃ r w', orc.assess w x = .ok (r, w') ∧ I w' ∧
    (r = none → x.flVec n ∈ F (-δ (x.flVec n))) ∧
    ∀ g beta, r = some (g, ⟨beta⟩) → g.IsVecShape n ∧ g.flVec n ≠ 0 ∧ 0 < beta.val ∧
      ∀ z ∈ F (δ (x.flVec n)), g.flVec n ⬝ᵥ (z - x.flVec n) + beta.val ≤ 0

/-- `x + y ≤ 3`, `-x + y + 1 ≤ 0` with margin `m` (src/example1.rs:15-22, tests/example2_tests.rs:3-5) -/
def ex1With (m : ℝ) : Set (Fin 2 → ℝ) := {z | z 0 + z 1 + m ≤ 3 ∧ -z 0 + z 1 + 1 + m ≤ 0}

/-- `x ≥ -1`, `y ≥ -2`, `x + y ≤ 1` with margin `m` (src/example4.rs:33-47, src/example3.rs:35-49) -/
def ex4With (m : ℝ) : Set (Fin 2 → ℝ) := {z | -1 + m ≤ z 0 ∧ -2 + m ≤ z 1 ∧ z 0 + z 1 + m ≤ 1}

/-- the inequalities of `MyOracle3` with target `t` (src/example3.rs:35-53), with margin `m` -/
def ex3With (t m : ℝ) : Set (Fin 2 → ℝ) := {z | z ∈ ex4With m ∧ 2 * z 0 - 3 * z 1 + m ≤ t}

/-- eight units of roundoff, relative to the size of the point -/
def err2 (u : ℝ) (x : Fin 2 → ℝ) : ℝ := 8 * u * (1 + |x 0| + |x 1|)

end Ellalgo
