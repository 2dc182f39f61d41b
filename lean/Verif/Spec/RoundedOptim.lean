import Verif.Spec.RoundedConverge
import Verif.Spec.RoundedOracle

/-! Specification for C105: honest optimisation oracles in rounded arithmetic. -/

namespace Ellalgo
open Matrix
variable {u : ℝ} {R : Rounding u}

/-- An optimisation oracle in rounded arithmetic; `S γ` is the set of points that count as better than `γ`, and `I` an invariant of its
internal state and `γ`.  It never panics, and a query may only improve `γ` (`S γ' ⊆ S γ`).  At points of norm at most `X` it returns a
nonzero gradient of norm at least `G`, and every point better than the new `γ'` satisfies the returned cut: the one through the point
itself if an improvement was reported, the one with offset `beta ≥ 0` otherwise. -/
def FlHonestOptim {Ω : Type} (n : Nat) (orc : OracleOptim Ω (Arr (Fl R)) (SingleCut (Fl R)) (Fl R)) (I : Ω → Fl R → Prop)
    (S : ℝ → Set (Fin n → ℝ)) (G X : ℝ) : Prop :=
  ∀ w x γ, I w γ → x.IsVecShape n → ∃ g beta shrunk γ' w',
    orc.assess w x γ = .ok (((g, ⟨beta⟩), shrunk), γ', w') ∧ I w' γ' ∧ S γ'.val ⊆ S γ.val ∧ g.IsVecShape n ∧
    (norm2 (x.flVec n) ≤ X → g.flVec n ≠ 0 ∧ G ^ 2 ≤ normSq (g.flVec n) ∧
      (shrunk = true → ∀ y ∈ S γ'.val, g.flVec n ⬝ᵥ (y - x.flVec n) ≤ 0) ∧
      (shrunk = false → 0 ≤ beta.val ∧ ∀ y ∈ S γ'.val, g.flVec n ⬝ᵥ (y - x.flVec n) + beta.val ≤ 0))

/-- the cuts of the oracle all go through the point it was asked about -/
def OnlyCentralOptim {Ω : Type} (orc : OracleOptim Ω (Arr (Fl R)) (SingleCut (Fl R)) (Fl R)) : Prop :=
  ∀ w x γ g beta γ' w', orc.assess w x γ = .ok (((g, ⟨beta⟩), false), γ', w') → beta.val = 0

/-- all gradients of the oracle have norm at least `G`, in the states that satisfy `I` -/
def GradientsAtLeast {Ω : Type} (n : Nat) (orc : OracleOptim Ω (Arr (Fl R)) (SingleCut (Fl R)) (Fl R)) (I : Ω → Prop) (G : ℝ) : Prop :=
  ∀ w x γ g cut shrunk γ' w', I w → x.IsVecShape n → orc.assess w x γ = .ok (((g, cut), shrunk), γ', w') → G ^ 2 ≤ normSq (g.flVec n)

/-- the same for a feasibility oracle -/
def CutGradientsAtLeast {Ω : Type} (n : Nat) (orc : OracleFeas Ω (Arr (Fl R)) (SingleCut (Fl R)) (Fl R)) (I : Ω → Prop) (G : ℝ) : Prop :=
  ∀ w x g cut w', I w → x.IsVecShape n → orc.assess w x = .ok (some (g, cut), w') → G ^ 2 ≤ normSq (g.flVec n)

/-- the points that satisfy the inequalities with margin `Δ` and beat `γ` by `Δ + 2 u |γ|` -/
def clearlyBetter {n : Nat} (u : ℝ) (F : ℝ → Set (Fin n → ℝ)) (f : (Fin n → ℝ) → ℝ) (Δ γ : ℝ) : Set (Fin n → ℝ) :=
  {z | z ∈ F Δ ∧ γ + (Δ + 2 * u * |γ|) < f z}

end Ellalgo
