import Verif.Props.RoundedDeepCut
import Verif.Spec.RoundedConverge
import Verif.Lib.CgFl

/-! Lemmas for C104: what a ball inside an ellipsoid says about it. -/

namespace Ellalgo
open Matrix
open scoped ComplexOrder
variable {u : ℝ} {R : Rounding u} {n : Nat} {M : Matrix (Fin n) (Fin n) ℝ}

/-- the form of a matrix with bounded entries -/
theorem quad_le_entries {B : ℝ} (hB0 : 0 ≤ B) (hB : ∀ i j, |M i j| ≤ B) (v : Fin n → ℝ) : v ⬝ᵥ (M *ᵥ v) ≤ n * B * (v ⬝ᵥ v) := by
  have := (abs_le.1 (entries_quad hB0 hB v)).2
  linarith

/-- a point of the ellipsoid is not far from its centre -/
theorem ellipsoid_far (hM : M.PosDef) {B K ρ : ℝ} (hB0 : 0 ≤ B) (hB : ∀ i j, |M i j| ≤ B) {c x : Fin n → ℝ} (hx : x ∈ ellipsoid M K c)
    (hρ : 0 ≤ ρ) (hK : K * (n * B) ≤ ρ ^ 2) : norm2 (x - c) ≤ ρ := by
  have h1 := cs_inv hM (x - c) (x - c)
  have h2 : (x - c) ⬝ᵥ (M⁻¹ *ᵥ (x - c)) ≤ K := hx
  have h3 := quad_le_entries hB0 hB (x - c)
  have h4 : 0 ≤ (x - c) ⬝ᵥ (M⁻¹ *ᵥ (x - c)) := quad_nonneg hM.inv _
  have h5 : 0 ≤ (x - c) ⬝ᵥ (x - c) := dot_self_nonneg' _
  rw [norm2, Real.sqrt_le_iff]
  refine ⟨hρ, ?_⟩
  rcases h5.lt_or_eq with h5 | h5
  · have h6 : ((x - c) ⬝ᵥ (x - c)) * ((x - c) ⬝ᵥ (x - c)) ≤ ((x - c) ⬝ᵥ (x - c)) * ρ ^ 2 := by
      calc _ = ((x - c) ⬝ᵥ (x - c)) ^ 2 := by ring
        _ ≤ _ := h1
        _ ≤ n * B * ((x - c) ⬝ᵥ (x - c)) * K := mul_le_mul h3 h2 h4 (by positivity)
        _ = ((x - c) ⬝ᵥ (x - c)) * (K * (n * B)) := by ring
        _ ≤ _ := mul_le_mul_of_nonneg_left hK h5.le
    exact le_of_mul_le_mul_left h6 h5
  · rw [← h5]; positivity

/-- a valid cut cannot be deeper than the ellipsoid minus the width of the ball -/
theorem ball_depth (hM : M.PosDef) {κ r t β : ℝ} {c p g : Fin n → ℝ} (hr : 0 ≤ r) (hg : g ≠ 0) (hκ : 0 ≤ κ) (ht : 0 ≤ t)
    (hb : ball p r ⊆ ellipsoid M (t ^ 2 * κ) c) (hcut : ∀ x ∈ ball p r, g ⬝ᵥ (x - c) + β ≤ 0) :
    β + 2 * (r * norm2 g) ≤ t * √(κ * (g ⬝ᵥ (M *ᵥ g))) := by
  have hgg : 0 < g ⬝ᵥ g := lt_of_le_of_ne (dot_self_nonneg' g) (fun h => hg (dotProduct_self_eq_zero.1 h.symm))
  have hN : norm2 g * norm2 g = g ⬝ᵥ g := norm2_sq g
  have hN0 : 0 < norm2 g := Real.sqrt_pos.2 hgg
  have hmem : ∀ s : ℝ, s ^ 2 = r ^ 2 → p + (s / norm2 g) • g ∈ ball p r := by
    intro s hs
    show normSq _ ≤ _
    rw [add_sub_cancel_left]
    unfold normSq
    rw [smul_dotProduct, dotProduct_smul, smul_eq_mul, smul_eq_mul, ← hN, ← hs]
    apply le_of_eq
    field_simp
  have hval : ∀ s : ℝ, g ⬝ᵥ (p + (s / norm2 g) • g - c) = g ⬝ᵥ (p - c) + s * norm2 g := by
    intro s
    have : p + (s / norm2 g) • g - c = (p - c) + (s / norm2 g) • g := by abel
    rw [this, dotProduct_add, dotProduct_smul, smul_eq_mul, ← hN]
    congr 1
    field_simp
  have h1 := hcut _ (hmem r rfl)
  rw [hval] at h1
  have h2 : (p + (-r / norm2 g) • g - c) ⬝ᵥ (M⁻¹ *ᵥ (p + (-r / norm2 g) • g - c)) ≤ t ^ 2 * κ := hb (hmem (-r) (by ring))
  have h3 := cs_inv hM (p + (-r / norm2 g) • g - c) g
  have hω := quad_pos hM hg
  have h4 : (g ⬝ᵥ (p + (-r / norm2 g) • g - c)) ^ 2 ≤ (t * √(κ * (g ⬝ᵥ (M *ᵥ g)))) ^ 2 := by
    rw [mul_pow, Real.sq_sqrt (mul_nonneg hκ hω.le)]
    have := mul_le_mul_of_nonneg_left h2 hω.le
    linarith
  have h5 := abs_le_of_sq_le_sq h4 (mul_nonneg ht (Real.sqrt_nonneg _))
  have h6 := (abs_le.1 h5).1
  rw [hval] at h6
  linarith

end Ellalgo
