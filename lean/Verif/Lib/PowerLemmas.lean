import Verif.Lib.VecOps
import Verif.Lib.CgMath
import Verif.Spec.Power

/-! Specifications of the pieces of the power iterations. -/

namespace Ellalgo
open Matrix

variable {n : Nat} {a x y : Arr ℝ} {A : Matrix (Fin n) (Fin n) ℝ} {v w : Fin n → ℝ}

theorem norm1_pos (h : v ≠ 0) : 0 < norm1 v := by
  obtain ⟨i, hi⟩ := Function.ne_iff.1 h
  have : |v i| ≤ norm1 v := Finset.single_le_sum (f := fun i => |v i|) (fun j _ => abs_nonneg _) (Finset.mem_univ i)
  exact lt_of_lt_of_le (abs_pos.2 hi) this

theorem norm1_smul (c : ℝ) (v : Fin n → ℝ) : norm1 (c • v) = |c| * norm1 v := by
  simp [norm1, abs_mul, Finset.mul_sum]

theorem normalize2_spec (hx : RV x v) :
    ∃ z, normalize2 x = .ok z ∧ RV z ((Real.sqrt (v ⬝ᵥ v))⁻¹ • v) := by
  refine ⟨_, ?_, hx.divScalar _⟩
  simp only [normalize2, hx.dot hx, Res.ok_bind, Scalar.real_sqrt]

theorem unit_normalize (h : v ≠ 0) :
    0 < (Real.sqrt (v ⬝ᵥ v))⁻¹ ∧ ((Real.sqrt (v ⬝ᵥ v))⁻¹ • v) ⬝ᵥ ((Real.sqrt (v ⬝ᵥ v))⁻¹ • v) = 1 := by
  have h1 := dot_self_pos h
  have h2 := Real.sqrt_pos.2 h1
  refine ⟨inv_pos.2 h2, ?_⟩
  rw [smul_dotProduct, dotProduct_smul, smul_eq_mul, smul_eq_mul, ← mul_assoc]
  have h3 := Real.mul_self_sqrt h1.le
  rw [← mul_inv, h3, inv_mul_cancel₀ h1.ne']

theorem rayleigh_spec (hn : 0 < n) (ha : RM a A) (hx : RV x v) : rayleigh a x = .ok (v ⬝ᵥ (A *ᵥ v)) := by
  obtain ⟨y, h1, h2⟩ := ha.dotMv hx hn
  simp only [rayleigh, h1, Res.ok_bind, hx.dot h2]

theorem closeUpToSign_spec (tol : ℝ) (hx : RV x v) (hy : RV y w) :
    ∃ b, closeUpToSign tol x y = .ok b ∧ (b = true ↔ norm1 (v - w) ≤ tol ∨ norm1 (v + w) ≤ tol) := by
  obtain ⟨d, h1, hd⟩ := hx.sub hy
  obtain ⟨s, h2, hs⟩ := hx.add hy
  unfold closeUpToSign
  rw [h1, Res.ok_bind, hd.normL1]
  by_cases h : norm1 (v - w) ≤ tol
  · refine ⟨true, ?_, by simp [h]⟩
    rw [Scalar.real_le, if_pos (by simpa [norm1] using h)]
  · refine ⟨decide (norm1 (v + w) ≤ tol), ?_, by simp [h]⟩
    rw [Scalar.real_le, if_neg (by simpa [norm1] using h), h2, Res.ok_bind, hs.normL1]
    rfl

/-- unit vector in the direction of `A^j x0` -/
def Dir (A : Matrix (Fin n) (Fin n) ℝ) (x0 : Fin n → ℝ) (j : Nat) (v : Fin n → ℝ) : Prop :=
  ∃ c : ℝ, 0 < c ∧ v = c • ((A ^ j) *ᵥ x0)

theorem Dir.ne_zero {x0 : Fin n → ℝ} {j : Nat} (h : Dir A x0 j v) (h0 : (A ^ j) *ᵥ x0 ≠ 0) : v ≠ 0 := by
  obtain ⟨c, hc, rfl⟩ := h
  exact smul_ne_zero hc.ne' h0

theorem Dir.smul {x0 : Fin n → ℝ} {j : Nat} (h : Dir A x0 j v) {c : ℝ} (hc : 0 < c) : Dir A x0 j (c • v) := by
  obtain ⟨d, hd, rfl⟩ := h
  exact ⟨c * d, mul_pos hc hd, by rw [smul_smul]⟩

theorem Dir.mulVec {x0 : Fin n → ℝ} {j : Nat} (h : Dir A x0 j v) : Dir A x0 (j + 1) (A *ᵥ v) := by
  obtain ⟨d, hd, rfl⟩ := h
  exact ⟨d, hd, by rw [mulVec_smul, mulVec_mulVec, pow_succ']⟩

/-- one step of the first loop -/
theorem power_mul_normalize (hn : 0 < n) (ha : RM a A) (hx : RV x v) (h0 : A *ᵥ v ≠ 0) :
    ∃ (y z : Arr ℝ) (c : ℝ), a.dotMv x = .ok y ∧ RV y (A *ᵥ v) ∧ normalize2 y = .ok z ∧ 0 < c ∧ RV z (c • (A *ᵥ v)) ∧
      (c • (A *ᵥ v)) ⬝ᵥ (c • (A *ᵥ v)) = 1 := by
  obtain ⟨y, h1, hy⟩ := ha.dotMv hx hn
  obtain ⟨z, h2, hz⟩ := normalize2_spec hy
  obtain ⟨h3, h4⟩ := unit_normalize h0
  exact ⟨y, z, (Real.sqrt ((A *ᵥ v) ⬝ᵥ (A *ᵥ v)))⁻¹, h1, hy, h2, h3, hz, h4⟩

end Ellalgo
