import Verif.Lib.MinVolume
import Mathlib.MeasureTheory.Measure.Lebesgue.EqHaar

/-! Lebesgue measure of an ellipsoid. -/

namespace Ellalgo
open Matrix MeasureTheory
open scoped ComplexOrder

variable {n : Nat}

theorem ellipsoid_image {M B : Matrix (Fin n) (Fin n) ℝ} {κ : ℝ} (hM : M.PosDef) (hκ : 0 < κ) (hB : κ • M = Bᵀ * B)
    (c : Fin n → ℝ) : ellipsoid M κ c = (fun y => c + y) '' (toLin' Bᵀ '' ball 0 1) := by
  have hS : (κ • M).PosDef := hM.smul hκ
  have hdet : IsUnit (Bᵀ).det := by
    have := hS.det_pos.ne'
    rw [hB, det_mul] at this
    exact isUnit_iff_ne_zero.mpr (fun h => this (by rw [h, zero_mul]))
  ext x
  rw [ellipsoid, Set.mem_ofPred_eq, Set.image_image, Set.mem_image]
  constructor
  · intro hx
    refine ⟨(Bᵀ)⁻¹ *ᵥ (x - c), ?_, ?_⟩
    · have h := quad_of_factor hM hκ hB ((Bᵀ)⁻¹ *ᵥ (x - c))
      rw [mulVec_mulVec, mul_nonsing_inv _ hdet, one_mulVec] at h
      rw [h] at hx
      rw [ball, Set.mem_ofPred_eq, sub_zero, normSq]
      nlinarith
    · rw [toLin'_apply, mulVec_mulVec, mul_nonsing_inv _ hdet, one_mulVec]
      abel
  · rintro ⟨y, hy, rfl⟩
    rw [ball, Set.mem_ofPred_eq, sub_zero, normSq] at hy
    rw [toLin'_apply, add_sub_cancel_left, quad_of_factor hM hκ hB]
    nlinarith

theorem volume_ellipsoid {M : Matrix (Fin n) (Fin n) ℝ} {κ : ℝ} (hM : M.PosDef) (hκ : 0 < κ) (c : Fin n → ℝ) :
    volume (ellipsoid M κ c) = ENNReal.ofReal (√((κ • M).det)) * volume (ball (0 : Fin n → ℝ) 1) := by
  obtain ⟨B, hB⟩ := exists_factor (hM.smul hκ).posSemidef
  rw [ellipsoid_image hM hκ hB, Set.image_add_left, measure_preimage_add, Measure.addHaar_image_linearMap,
    LinearMap.det_toLin', det_transpose, hB, det_mul, det_transpose, Real.sqrt_mul_self_eq_abs]

end Ellalgo
