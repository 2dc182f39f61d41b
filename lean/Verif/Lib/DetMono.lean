import Verif.Lib.MinVolume
import Mathlib.Analysis.Matrix.PosDef
import Mathlib.Analysis.Matrix.Order

/-! Determinants of `P + c I` under the rank-one updates of a cut, for a positive semidefinite `P`. -/

namespace Ellalgo
open Matrix
open scoped ComplexOrder

variable {n : Nat}

theorem one_le_det {X : Matrix (Fin n) (Fin n) ℝ} (hX : (X - 1).PosSemidef) : 1 ≤ X.det := by
  have hh : X.IsHermitian := by
    have := hX.isHermitian.add (isHermitian_one (α := ℝ) (n := Fin n))
    simpa using this
  rw [hh.det_eq_prod_eigenvalues]
  have : ∀ i, (1 : ℝ) ≤ hh.eigenvalues i := by
    intro i
    have h1 := hX.dotProduct_mulVec_nonneg (hh.eigenvectorBasis i)
    have h2 := hh.mulVec_eigenvectorBasis i
    rw [sub_mulVec, h2, one_mulVec] at h1
    have h3 : (hh.eigenvectorBasis i : Fin n → ℝ) ⬝ᵥ (hh.eigenvectorBasis i : Fin n → ℝ) = 1 := by
      have := hh.eigenvectorBasis.orthonormal.1 i
      rw [EuclideanSpace.norm_eq, Real.sqrt_eq_one] at this
      rw [← this, dotProduct]
      exact Finset.sum_congr rfl fun j _ => by rw [Real.norm_eq_abs, sq_abs, sq]
    simp only [star_trivial] at h1
    rw [dotProduct_sub, dotProduct_smul, h3] at h1
    simp at h1
    exact h1
  calc (1 : ℝ) = ∏ _i : Fin n, 1 := by simp
    _ ≤ ∏ i, ((hh.eigenvalues i : ℝ) : ℝ) := Finset.prod_le_prod (fun _ _ => zero_le_one) (fun i _ => this i)

/-- the determinant is monotone -/
theorem det_le_det_add {A B : Matrix (Fin n) (Fin n) ℝ} (hA : A.PosDef) (hB : B.PosSemidef) : A.det ≤ (A + B).det := by
  obtain ⟨D, hD⟩ := exists_factor hA.posSemidef
  rw [← conjTranspose_eq_transpose_of_trivial] at hD
  have hdet : A.det = D.det * D.det := by rw [hD, det_mul, det_conjTranspose]; simp
  have hDu : IsUnit D.det := by
    have := hA.det_pos
    rw [hdet] at this
    exact Ne.isUnit (by rintro h; rw [h] at this; simp at this)
  have h1 : D⁻¹ * D = 1 := nonsing_inv_mul _ hDu
  have e : A + B = Dᴴ * (1 + (D⁻¹)ᴴ * B * D⁻¹) * D := by
    have h2 : Dᴴ * (D⁻¹)ᴴ = 1 := by rw [← conjTranspose_mul, h1, conjTranspose_one]
    rw [mul_add, add_mul, mul_one, ← hD]
    congr 1
    calc B = (Dᴴ * (D⁻¹)ᴴ) * B * (D⁻¹ * D) := by rw [h1, h2]; simp
      _ = _ := by simp only [Matrix.mul_assoc]
  have h3 : 1 ≤ (1 + (D⁻¹)ᴴ * B * D⁻¹).det := one_le_det (by
    rw [add_sub_cancel_left]
    exact hB.conjTranspose_mul_mul_same _)
  rw [e, det_mul, det_mul, det_conjTranspose, hdet]
  have : 0 ≤ D.det * D.det := mul_self_nonneg _
  simp only [star_trivial]
  nlinarith

/-- Cauchy-Schwarz: the rank-one update of a positive semidefinite matrix with `σ ≤ 1` is positive semidefinite -/
theorem cutM_psd {P : Matrix (Fin n) (Fin n) ℝ} (hP : P.PosSemidef) {g : Fin n → ℝ} (hω : 0 < g ⬝ᵥ (P *ᵥ g)) {σ : ℝ}
    (h1 : σ ≤ 1) : (cutM P g σ).PosSemidef := by
  have hs : P.IsSymm := by simpa [IsHermitian, IsSymm, conjTranspose_eq_transpose_of_trivial] using hP.isHermitian
  refine .of_dotProduct_mulVec_nonneg ?_ fun x => ?_
  · rw [IsHermitian, conjTranspose_eq_transpose_of_trivial, cutM, transpose_sub, transpose_smul, transpose_vecMulVec, hs.eq]
  · simp only [star_trivial]
    set ω := g ⬝ᵥ (P *ᵥ g) with hωd
    set t := g ⬝ᵥ (P *ᵥ x) with ht
    have hxg : x ⬝ᵥ (P *ᵥ g) = t := by rw [ht, PosDef.symm_dot hs, dotProduct_comm]
    have h2 := hP.dotProduct_mulVec_nonneg (x - (t / ω) • g)
    simp only [star_trivial] at h2
    rw [mulVec_sub, mulVec_smul, sub_dotProduct, dotProduct_sub, dotProduct_sub, smul_dotProduct, smul_dotProduct,
      dotProduct_smul, dotProduct_smul, hxg, ← ht, ← hωd] at h2
    simp only [smul_eq_mul] at h2
    have e1 : x ⬝ᵥ (P *ᵥ x) - t / ω * t - (t / ω * t - t / ω * (t / ω * ω)) = x ⬝ᵥ (P *ᵥ x) - t * t / ω := by
      field_simp; ring
    rw [e1] at h2
    have e2 : x ⬝ᵥ (cutM P g σ *ᵥ x) = x ⬝ᵥ (P *ᵥ x) - σ * (t * t / ω) := by
      rw [cutM, sub_mulVec, smul_mulVec, dotProduct_sub, dotProduct_smul, vecMulVec_mulVec]
      have : (P *ᵥ g) ⬝ᵥ x = t := by rw [dotProduct_comm, hxg]
      rw [this]
      simp only [dotProduct_smul, smul_eq_mul, MulOpposite.smul_eq_mul_unop, MulOpposite.unop_op, hxg]
      rw [← hωd]
      ring
    rw [e2]
    have : 0 ≤ t * t / ω := div_nonneg (mul_self_nonneg _) hω.le
    nlinarith

theorem psd_add_pos {P : Matrix (Fin n) (Fin n) ℝ} (hP : P.PosSemidef) {c : ℝ} (hc : 0 < c) :
    (P + c • (1 : Matrix (Fin n) (Fin n) ℝ)).PosDef :=
  Matrix.PosDef.posSemidef_add hP (PosDef.one.smul hc)

/-- a rank-one cut lowers `det (P + c I)` -/
theorem det_cut_add {P : Matrix (Fin n) (Fin n) ℝ} (hP : P.PosSemidef) {g : Fin n → ℝ} (hω : 0 < g ⬝ᵥ (P *ᵥ g))
    {σ c θ : ℝ} (hc : 0 < c) (h0 : 0 ≤ σ) (hθ : c * normSq g ≤ θ * (g ⬝ᵥ (P *ᵥ g))) :
    (cutM P g σ + c • (1 : Matrix (Fin n) (Fin n) ℝ)).det ≤ (1 - σ * (1 - θ)) * (P + c • (1 : Matrix (Fin n) (Fin n) ℝ)).det := by
  have hA := psd_add_pos hP hc
  set A := P + c • (1 : Matrix (Fin n) (Fin n) ℝ) with hAd
  set ω := g ⬝ᵥ (P *ᵥ g) with hωd
  have hu : IsUnit A.det := Ne.isUnit hA.det_pos.ne'
  have hAs := isSymm_of_posDef hA
  set v := P *ᵥ g with hv
  have hvA : v = A *ᵥ g - c • g := by rw [hAd, add_mulVec, smul_mulVec, one_mulVec, add_sub_cancel_right]
  set h := A⁻¹ *ᵥ v with hh
  have hAh : A *ᵥ h = v := by rw [hh, mulVec_mulVec, mul_nonsing_inv _ hu, one_mulVec]
  have hne : h ≠ 0 := by
    rintro h0
    rw [h0, mulVec_zero] at hAh
    rw [hωd, ← hAh, dotProduct_zero] at hω
    exact lt_irrefl _ hω
  have hω' : 0 < h ⬝ᵥ (A *ᵥ h) := quad_pos hA hne
  have hhg : h = g - c • (A⁻¹ *ᵥ g) := by
    rw [hh, hvA, mulVec_sub, mulVec_mulVec, nonsing_inv_mul _ hu, one_mulVec, mulVec_smul]
  have hlow : ω - c * normSq g ≤ h ⬝ᵥ (A *ᵥ h) := by
    have e : h ⬝ᵥ (A *ᵥ h) = ω - c * normSq g + c * c * (g ⬝ᵥ (A⁻¹ *ᵥ g)) := by
      rw [hAh]
      have e1 : h ⬝ᵥ v = g ⬝ᵥ v - c * ((A⁻¹ *ᵥ g) ⬝ᵥ v) := by rw [hhg, sub_dotProduct, smul_dotProduct, smul_eq_mul]
      have e2 : (A⁻¹ *ᵥ g) ⬝ᵥ v = normSq g - c * (g ⬝ᵥ (A⁻¹ *ᵥ g)) := by
        rw [hvA, dotProduct_sub, dotProduct_smul, smul_eq_mul, dotProduct_comm (A⁻¹ *ᵥ g) g]
        congr 1
        rw [PosDef.symm_dot hAs]
        rw [mulVec_mulVec, mul_nonsing_inv _ hu, one_mulVec]
        rfl
      rw [e1, e2]
      ring
    have hpos : 0 ≤ g ⬝ᵥ (A⁻¹ *ᵥ g) := by
      have := hA.inv.posSemidef.dotProduct_mulVec_nonneg g
      simpa using this
    rw [e]
    have := mul_nonneg (mul_self_nonneg c) hpos
    linarith
  have e : cutM P g σ + c • (1 : Matrix (Fin n) (Fin n) ℝ) = cutM A h (σ * (h ⬝ᵥ (A *ᵥ h)) / ω) := by
    rw [cutM, cutM, hAh, ← hv, ← hωd]
    have : σ * (h ⬝ᵥ v) / ω / (h ⬝ᵥ v) = σ / ω := by
      rw [hAh] at hω'
      field_simp
    rw [this, hAd]
    abel
  rw [e, cutM_det hA _ hne]
  refine mul_le_mul_of_nonneg_right ?_ hA.det_pos.le
  have : σ * (1 - θ) ≤ σ * (h ⬝ᵥ (A *ᵥ h)) / ω := by
    rw [le_div_iff₀ hω]
    nlinarith
  linarith

/-- a cut with parameters `σ`, `δ` lowers `det (P + c I)` by a fixed factor -/
theorem det_cut_scale {P : Matrix (Fin n) (Fin n) ℝ} (hP : P.PosSemidef) {g : Fin n → ℝ} (hω : 0 < g ⬝ᵥ (P *ᵥ g))
    {σ δ c θ : ℝ} (hc : 0 < c) (h0 : 0 ≤ σ) (h1 : σ ≤ 1) (hδ : 0 ≤ δ) (hθ : c * normSq g ≤ θ * (g ⬝ᵥ (P *ᵥ g))) :
    (δ • cutM P g σ + c • (1 : Matrix (Fin n) (Fin n) ℝ)).det ≤
      (if 1 ≤ δ then δ ^ n * (1 - σ * (1 - θ)) else 1 - (1 - δ * (1 - σ)) * (1 - θ)) *
        (P + c • (1 : Matrix (Fin n) (Fin n) ℝ)).det := by
  have hN := cutM_psd hP hω h1
  have hδN : (δ • cutM P g σ).PosSemidef := hN.smul hδ
  split
  · rename_i hge
    have e : δ • (cutM P g σ + c • (1 : Matrix (Fin n) (Fin n) ℝ)) =
        (δ • cutM P g σ + c • (1 : Matrix (Fin n) (Fin n) ℝ)) + ((δ - 1) * c) • (1 : Matrix (Fin n) (Fin n) ℝ) := by
      rw [smul_add, smul_smul, add_assoc, ← add_smul]
      congr 2
      ring
    have h2 := det_le_det_add (psd_add_pos hδN hc)
      (B := ((δ - 1) * c) • (1 : Matrix (Fin n) (Fin n) ℝ)) (PosSemidef.one.smul (mul_nonneg (by linarith) hc.le))
    rw [← e, det_smul, Fintype.card_fin] at h2
    have h3 := det_cut_add hP hω hc h0 hθ
    calc _ ≤ _ := h2
      _ ≤ δ ^ n * ((1 - σ * (1 - θ)) * (P + c • (1 : Matrix (Fin n) (Fin n) ℝ)).det) := by gcongr
      _ = _ := by ring
  · rename_i hlt
    have hlt := not_le.1 hlt
    have e : cutM P g (1 - δ * (1 - σ)) + c • (1 : Matrix (Fin n) (Fin n) ℝ) =
        (δ • cutM P g σ + c • (1 : Matrix (Fin n) (Fin n) ℝ)) + (1 - δ) • cutM P g 1 := by
      simp only [cutM]
      ext i j
      simp only [Matrix.add_apply, Matrix.sub_apply, Matrix.smul_apply, smul_eq_mul]
      ring
    have h2 := det_le_det_add (psd_add_pos hδN hc) (B := (1 - δ) • cutM P g 1)
      ((cutM_psd hP hω le_rfl).smul (by linarith))
    rw [← e] at h2
    exact h2.trans (det_cut_add hP hω hc (by nlinarith) hθ)

theorem pow_le_det_add {P : Matrix (Fin n) (Fin n) ℝ} (hP : P.PosSemidef) {c : ℝ} (hc : 0 < c) :
    c ^ n ≤ (P + c • (1 : Matrix (Fin n) (Fin n) ℝ)).det := by
  have := det_le_det_add (A := c • (1 : Matrix (Fin n) (Fin n) ℝ)) (PosDef.one.smul hc) hP
  rw [det_smul, Fintype.card_fin, det_one, mul_one, add_comm] at this
  exact this

end Ellalgo
