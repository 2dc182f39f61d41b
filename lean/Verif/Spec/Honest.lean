import Verif.Spec.Cuts
import Verif.Model.CuttingPlane

/-! Honest oracles: what a cutting-plane oracle promises about its answers. -/

namespace Ellalgo
open Matrix

variable {Ω T : Type} [Cut T]

/-- A feasibility oracle for the set `K` in dimension `n`.  `I` is an invariant of its internal state
(`fun _ => True` if it has none that matters).  It never panics; whenever it rejects the point `x` it returns
a nonzero gradient of norm at least `G` and a cut with `beta ≥ 0` that every point of `K` satisfies. -/
def HonestFeas (n : Nat) (orc : OracleFeas Ω (Arr ℝ) T ℝ) (I : Ω → Prop) (K : Set (Fin n → ℝ)) (G : ℝ) :
    Prop :=
  ∀ w x, I w → x.IsVecShape n → ∃ r w', orc.assess w x = .ok (r, w') ∧ I w' ∧
    ∀ g c, r = some (g, c) →
      g.IsVecShape n ∧ g.toVec n ≠ 0 ∧ G ^ 2 ≤ normSq (g.toVec n) ∧ 0 ≤ Cut.lo c ∧
      ∀ y ∈ K, Cut.Sat .bias c (g.toVec n ⬝ᵥ (y - x.toVec n))

/-- The oracle accepts the points of `K`, and its two planes (if there are two) are distinct. -/
def CompleteFeas (n : Nat) (orc : OracleFeas Ω (Arr ℝ) T ℝ) (I : Ω → Prop) (K : Set (Fin n → ℝ)) : Prop :=
  ∀ w x g c w', I w → x.IsVecShape n → orc.assess w x = .ok (some (g, c), w') →
    x.toVec n ∉ K ∧ Cut.hi c ≠ some (Cut.lo c)

/-- An optimisation oracle; `S γ` is the set of points strictly better than `γ`.  `I` is an invariant of its
internal state and `γ`.  It never panics; a query at `x` may only improve `γ` (`S γ' ⊆ S γ`), and every point
better than the new `γ'` satisfies the returned cut: the central cut if an improvement was reported, the bias
cut (`beta ≥ 0`) otherwise. -/
def HonestOptim (n : Nat) (orc : OracleOptim Ω (Arr ℝ) T ℝ) (I : Ω → ℝ → Prop)
    (S : ℝ → Set (Fin n → ℝ)) (G : ℝ) : Prop :=
  ∀ w x γ, I w γ → x.IsVecShape n → ∃ g c shrunk γ' w',
    orc.assess w x γ = .ok (((g, c), shrunk), γ', w') ∧ I w' γ' ∧ S γ' ⊆ S γ ∧
    g.IsVecShape n ∧ g.toVec n ≠ 0 ∧ G ^ 2 ≤ normSq (g.toVec n) ∧
    (shrunk = true → ∀ y ∈ S γ', Cut.Sat .central c (g.toVec n ⬝ᵥ (y - x.toVec n))) ∧
    (shrunk = false → 0 ≤ Cut.lo c ∧ ∀ y ∈ S γ', Cut.Sat .bias c (g.toVec n ⬝ᵥ (y - x.toVec n)))

/-- After a query at `x`, `x` itself is not better than the (possibly new) `γ'`; and the two planes (if there
are two) are distinct. -/
def CompleteOptim (n : Nat) (orc : OracleOptim Ω (Arr ℝ) T ℝ) (I : Ω → ℝ → Prop)
    (S : ℝ → Set (Fin n → ℝ)) : Prop :=
  ∀ w x γ g c shrunk γ' w', I w γ → x.IsVecShape n →
    orc.assess w x γ = .ok (((g, c), shrunk), γ', w') →
    x.toVec n ∉ S γ' ∧ (shrunk = true → Cut.hi c ≠ some 0) ∧ (shrunk = false → Cut.hi c ≠ some (Cut.lo c))

/-- A discrete optimisation oracle; `S γ` is the set of (discrete) points strictly better than `γ`.  It never panics, on a
first attempt or a retry; a query at `x` may only improve `γ`; `x` itself is not better than the new `γ'`; the gradient is
nonzero, the two planes (if there are two) are distinct, and every point better than `γ'` satisfies the returned cut.  The
offset `beta` may have either sign. -/
def HonestOptimQ (n : Nat) (orc : OracleOptimQ Ω (Arr ℝ) T ℝ) (I : Ω → ℝ → Prop)
    (S : ℝ → Set (Fin n → ℝ)) : Prop :=
  ∀ w x γ retry, I w γ → x.IsVecShape n → ∃ g c shrunk xq more γ' w',
    orc.assess w x γ retry = .ok (((g, c), shrunk, xq, more), γ', w') ∧ I w' γ' ∧ S γ' ⊆ S γ ∧ x.toVec n ∉ S γ' ∧
    g.IsVecShape n ∧ g.toVec n ≠ 0 ∧ Cut.hi c ≠ some (Cut.lo c) ∧
    ∀ y ∈ S γ', Cut.Sat .q c (g.toVec n ⬝ᵥ (y - x.toVec n))

end Ellalgo
