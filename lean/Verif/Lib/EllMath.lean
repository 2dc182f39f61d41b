import Verif.Spec.Ellipsoid
import Verif.Lib.CutVolume
import Mathlib.Analysis.Matrix.PosDef
import Mathlib.LinearAlgebra.Matrix.SchurComplement

/-! Linear algebra of the ellipsoid update (no model code). -/

namespace Ellalgo
open Matrix
open scoped ComplexOrder

variable {n : Nat} {M : Matrix (Fin n) (Fin n) ℝ}

theorem PosDef.symm_dot (hM : M.IsSymm) (u v : Fin n → ℝ) : u ⬝ᵥ (M *ᵥ v) = v ⬝ᵥ (M *ᵥ u) := by
  rw [dotProduct_mulVec, ← mulVec_transpose, hM.eq, dotProduct_comm]

theorem isSymm_of_posDef (hM : M.PosDef) : M.IsSymm := by
  have := hM.isHermitian
  rw [IsHermitian, conjTranspose_eq_transpose_of_trivial] at this
  exact this

theorem posDef_iff_real : M.PosDef ↔ M.IsSymm ∧ ∀ x, x ≠ 0 → 0 < x ⬝ᵥ (M *ᵥ x) := by
  constructor
  · intro h
    exact ⟨isSymm_of_posDef h, fun x hx => by simpa using h.dotProduct_mulVec_pos hx⟩
  · rintro ⟨h1, h2⟩
    refine PosDef.of_dotProduct_mulVec_pos ?_ (fun {x} hx => by simpa using h2 x hx)
    rw [IsHermitian, conjTranspose_eq_transpose_of_trivial]
    exact h1

theorem quad_pos (hM : M.PosDef) {x : Fin n → ℝ} (hx : x ≠ 0) : 0 < x ⬝ᵥ (M *ᵥ x) :=
  (posDef_iff_real.mp hM).2 x hx

theorem quad_nonneg (hM : M.PosDef) (x : Fin n → ℝ) : 0 ≤ x ⬝ᵥ (M *ᵥ x) := by
  by_cases h : x = 0
  · simp [h]
  · exact (quad_pos hM h).le

theorem det_ne (hM : M.PosDef) : M.det ≠ 0 := hM.det_pos.ne'

theorem inv_mulVec_mulVec (hM : M.PosDef) (g : Fin n → ℝ) : M⁻¹ *ᵥ (M *ᵥ g) = g := by
  rw [mulVec_mulVec, nonsing_inv_mul _ (Ne.isUnit (det_ne hM)), one_mulVec]

theorem mulVec_inv_mulVec (hM : M.PosDef) (g : Fin n → ℝ) : M *ᵥ (M⁻¹ *ᵥ g) = g := by
  rw [mulVec_mulVec, mul_nonsing_inv _ (Ne.isUnit (det_ne hM)), one_mulVec]

theorem dot_inv_mulVec (hM : M.PosDef) (d g : Fin n → ℝ) : d ⬝ᵥ (M⁻¹ *ᵥ (M *ᵥ g)) = g ⬝ᵥ d := by
  rw [inv_mulVec_mulVec hM, dotProduct_comm]

theorem dot_mulVec_inv (hM : M.PosDef) (d g : Fin n → ℝ) : (M *ᵥ g) ⬝ᵥ (M⁻¹ *ᵥ d) = g ⬝ᵥ d := by
  have hs := isSymm_of_posDef hM.inv
  rw [PosDef.symm_dot hs, dot_inv_mulVec hM]

/-- expansion of the inverse quadratic form along `M g` -/
theorem quad_inv_add (hM : M.PosDef) (d g : Fin n → ℝ) (s : ℝ) :
    (d + s • (M *ᵥ g)) ⬝ᵥ (M⁻¹ *ᵥ (d + s • (M *ᵥ g))) =
      d ⬝ᵥ (M⁻¹ *ᵥ d) + 2 * s * (g ⬝ᵥ d) + s ^ 2 * (g ⬝ᵥ (M *ᵥ g)) := by
  rw [mulVec_add, mulVec_smul, dotProduct_add, add_dotProduct, add_dotProduct, smul_dotProduct,
    dotProduct_smul, smul_dotProduct, dotProduct_smul, dot_mulVec_inv hM, dot_inv_mulVec hM,
    inv_mulVec_mulVec hM, dotProduct_comm (M *ᵥ g) g]
  simp only [smul_eq_mul]
  ring

theorem quad_add (hM : M.IsSymm) (d g : Fin n → ℝ) (s : ℝ) :
    (d + s • g) ⬝ᵥ (M *ᵥ (d + s • g)) =
      d ⬝ᵥ (M *ᵥ d) + 2 * s * (d ⬝ᵥ (M *ᵥ g)) + s ^ 2 * (g ⬝ᵥ (M *ᵥ g)) := by
  rw [mulVec_add, mulVec_smul, dotProduct_add, add_dotProduct, add_dotProduct, smul_dotProduct,
    dotProduct_smul, smul_dotProduct, dotProduct_smul, PosDef.symm_dot hM g d]
  simp only [smul_eq_mul]
  ring

/-- Cauchy–Schwarz between `M` and `M⁻¹` -/
theorem cs_inv (hM : M.PosDef) (d g : Fin n → ℝ) :
    (g ⬝ᵥ d) ^ 2 ≤ (g ⬝ᵥ (M *ᵥ g)) * (d ⬝ᵥ (M⁻¹ *ᵥ d)) := by
  by_cases hg : g = 0
  · simp [hg]
  have hω := quad_pos hM hg
  have h := quad_nonneg hM.inv (d + (-(g ⬝ᵥ d) / (g ⬝ᵥ (M *ᵥ g))) • (M *ᵥ g))
  rw [quad_inv_add hM] at h
  set ω := g ⬝ᵥ (M *ᵥ g)
  set t := g ⬝ᵥ d
  have e : d ⬝ᵥ (M⁻¹ *ᵥ d) + 2 * (-t / ω) * t + (-t / ω) ^ 2 * ω = d ⬝ᵥ (M⁻¹ *ᵥ d) - t ^ 2 / ω := by
    field_simp; ring
  rw [e, sub_nonneg, div_le_iff₀ hω] at h
  linarith

/-- Cauchy–Schwarz in `M` -/
theorem cs_self (hM : M.PosDef) (v g : Fin n → ℝ) :
    (v ⬝ᵥ (M *ᵥ g)) ^ 2 ≤ (g ⬝ᵥ (M *ᵥ g)) * (v ⬝ᵥ (M *ᵥ v)) := by
  have h := cs_inv hM (M *ᵥ v) g
  rw [PosDef.symm_dot (isSymm_of_posDef hM) g v, dot_mulVec_inv hM] at h
  exact h

/-- the shape matrix after a cut -/
noncomputable def cutM (M : Matrix (Fin n) (Fin n) ℝ) (g : Fin n → ℝ) (σ : ℝ) : Matrix (Fin n) (Fin n) ℝ :=
  M - (σ / (g ⬝ᵥ (M *ᵥ g))) • vecMulVec (M *ᵥ g) (M *ᵥ g)

theorem cutM_quad (M : Matrix (Fin n) (Fin n) ℝ) (g v : Fin n → ℝ) (σ : ℝ) :
    v ⬝ᵥ (cutM M g σ *ᵥ v) = v ⬝ᵥ (M *ᵥ v) - σ / (g ⬝ᵥ (M *ᵥ g)) * (v ⬝ᵥ (M *ᵥ g)) ^ 2 := by
  rw [cutM, sub_mulVec, dotProduct_sub, smul_mulVec, dotProduct_smul, vecMulVec_mulVec]
  simp only [smul_eq_mul]
  rw [dotProduct_comm (M *ᵥ g) v, op_smul_eq_smul, dotProduct_smul, smul_eq_mul]
  ring

theorem cutM_symm (hM : M.IsSymm) (g : Fin n → ℝ) (σ : ℝ) : (cutM M g σ).IsSymm := by
  unfold cutM
  apply IsSymm.sub hM
  apply IsSymm.smul
  ext i j
  simp [vecMulVec_apply, mul_comm]

/-- positive definiteness survives a cut with `σ < 1` -/
theorem cutM_posDef (hM : M.PosDef) {g : Fin n → ℝ} {σ : ℝ} (hg : g ≠ 0) (hσ : σ < 1) :
    (cutM M g σ).PosDef := by
  rw [posDef_iff_real]
  refine ⟨cutM_symm (isSymm_of_posDef hM) g σ, fun v hv => ?_⟩
  rw [cutM_quad]
  have hω := quad_pos hM hg
  have hv' := quad_pos hM hv
  have hcs := cs_self hM v g
  set ω := g ⬝ᵥ (M *ᵥ g)
  set q := v ⬝ᵥ (M *ᵥ v)
  set s := v ⬝ᵥ (M *ᵥ g)
  have h1 : s ^ 2 / ω ≤ q := by rw [div_le_iff₀ hω]; linarith
  have h2 : σ / ω * s ^ 2 = σ * (s ^ 2 / ω) := by ring
  rw [h2]
  have h3 : 0 ≤ s ^ 2 / ω := by positivity
  rcases le_total σ 0 with h | h
  · nlinarith
  · nlinarith

theorem cutM_inv (hM : M.PosDef) {g : Fin n → ℝ} {σ : ℝ} (hg : g ≠ 0) (hσ : σ < 1) :
    (cutM M g σ)⁻¹ = M⁻¹ + (σ / (1 - σ) / (g ⬝ᵥ (M *ᵥ g))) • vecMulVec g g := by
  have hω := (quad_pos hM hg).ne'
  have h1 : (1 - σ) ≠ 0 := by linarith
  apply inv_eq_left_inv
  have hs := isSymm_of_posDef hM
  have e1 : M⁻¹ * M = 1 := nonsing_inv_mul _ (Ne.isUnit (det_ne hM))
  have e2 : M⁻¹ * vecMulVec (M *ᵥ g) (M *ᵥ g) = vecMulVec g (M *ᵥ g) := by
    rw [mul_vecMulVec, inv_mulVec_mulVec hM]
  have e3 : vecMulVec g g * M = vecMulVec g (M *ᵥ g) := by
    rw [vecMulVec_mul, ← mulVec_transpose, hs.eq]
  have e4 : vecMulVec g g * vecMulVec (M *ᵥ g) (M *ᵥ g) =
      (g ⬝ᵥ (M *ᵥ g)) • vecMulVec g (M *ᵥ g) := by
    rw [vecMulVec_mul_vecMulVec]
    ext i j
    simp only [vecMulVec_apply, Pi.smul_apply, Matrix.smul_apply, smul_eq_mul]
    ring
  rw [cutM, add_mul, mul_sub, mul_sub, e1, mul_smul_comm, e2, smul_mul_assoc, e3, smul_mul_assoc,
    mul_smul_comm, e4]
  set ω := g ⬝ᵥ (M *ᵥ g)
  have : (σ / (1 - σ) / ω) • vecMulVec g (M *ᵥ g) - (σ / (1 - σ) / ω) • (σ / ω) • ω • vecMulVec g (M *ᵥ g) =
      (σ / ω) • vecMulVec g (M *ᵥ g) := by
    rw [smul_smul, smul_smul, ← sub_smul]
    congr 1
    field_simp
  rw [this]
  simp

theorem cutM_det (hM : M.PosDef) {g : Fin n → ℝ} (σ : ℝ) (hg : g ≠ 0) :
    (cutM M g σ).det = (1 - σ) * M.det := by
  have hω := (quad_pos hM hg).ne'
  have hs := isSymm_of_posDef hM
  set ω := g ⬝ᵥ (M *ᵥ g) with hωd
  have e : cutM M g σ = M * (1 + replicateCol Unit ((-(σ / ω)) • g) * replicateRow Unit (M *ᵥ g)) := by
    rw [mul_add, mul_one, cutM, sub_eq_add_neg]
    congr 1
    rw [← hωd, ← Matrix.mul_assoc]
    ext i j
    simp only [Matrix.neg_apply, Matrix.smul_apply, vecMulVec_apply, smul_eq_mul, mul_apply, replicateCol_apply,
      replicateRow_apply, Finset.univ_unique, Finset.sum_singleton, Pi.smul_apply, mulVec, dotProduct]
    have : ∀ x, M i x * (-(σ / ω) * g x) = -(σ / ω) * (M i x * g x) := fun x => by ring
    simp only [this, ← Finset.mul_sum]
    ring
  rw [e, det_mul, det_one_add_replicateCol_mul_replicateRow, dotProduct_smul, dotProduct_comm, ← hωd, smul_eq_mul]
  field_simp
  ring

/-- the inverse quadratic form at a point, relative to the shifted centre -/
theorem cut_quad (hM : M.PosDef) {g : Fin n → ℝ} {σ : ℝ} (ρ : ℝ) (hg : g ≠ 0) (hσ : σ < 1) (x c : Fin n → ℝ) :
    (x - (c - (ρ / (g ⬝ᵥ (M *ᵥ g))) • (M *ᵥ g))) ⬝ᵥ
      ((cutM M g σ)⁻¹ *ᵥ (x - (c - (ρ / (g ⬝ᵥ (M *ᵥ g))) • (M *ᵥ g)))) =
    (x - c) ⬝ᵥ (M⁻¹ *ᵥ (x - c)) +
      (σ / (1 - σ) * (g ⬝ᵥ (x - c) + ρ) ^ 2 + 2 * ρ * (g ⬝ᵥ (x - c)) + ρ ^ 2) / (g ⬝ᵥ (M *ᵥ g)) := by
  have hω := (quad_pos hM hg).ne'
  rw [cutM_inv hM hg hσ]
  have e : x - (c - (ρ / (g ⬝ᵥ (M *ᵥ g))) • (M *ᵥ g)) =
      (x - c) + (ρ / (g ⬝ᵥ (M *ᵥ g))) • (M *ᵥ g) := by
    rw [sub_sub_eq_add_sub, add_sub_right_comm]
  rw [e, add_mulVec, dotProduct_add, quad_inv_add hM, smul_mulVec, dotProduct_smul, vecMulVec_mulVec]
  have e2 : g ⬝ᵥ (x - c + (ρ / (g ⬝ᵥ (M *ᵥ g))) • (M *ᵥ g)) = g ⬝ᵥ (x - c) + ρ := by
    rw [dotProduct_add, dotProduct_smul, smul_eq_mul]
    field_simp
  have e3 : (x - c + (ρ / (g ⬝ᵥ (M *ᵥ g))) • (M *ᵥ g)) ⬝ᵥ g = g ⬝ᵥ (x - c) + ρ := by
    rw [dotProduct_comm, e2]
  have e4 : ∀ (a : ℝ) (u w : Fin n → ℝ), u ⬝ᵥ (MulOpposite.op a • w) = a * (u ⬝ᵥ w) := by
    intro a u w
    simp [dotProduct_smul]
  rw [e4, e2, e3]
  simp only [smul_eq_mul]
  set ω := g ⬝ᵥ (M *ᵥ g)
  set t := g ⬝ᵥ (x - c)
  field_simp
  ring

/-- **containment**: a good cut keeps every point of the slab -/
theorem cut_contains (hM : M.PosDef) {g : Fin n → ℝ} {κ b0 b1 ρ σ δ : ℝ} (hg : g ≠ 0)
    (hgood : GoodCut (κ * (g ⬝ᵥ (M *ᵥ g))) b0 b1 ρ σ δ) {x c : Fin n → ℝ} (hx : x ∈ ellipsoid M κ c)
    (h0 : g ⬝ᵥ (x - c) + b0 ≤ 0) (h1 : 0 ≤ g ⬝ᵥ (x - c) + b1) :
    x ∈ ellipsoid (cutM M g σ) (κ * δ) (c - (ρ / (g ⬝ᵥ (M *ᵥ g))) • (M *ᵥ g)) := by
  have hω := quad_pos hM hg
  show (x - _) ⬝ᵥ (_ *ᵥ (x - _)) ≤ κ * δ
  rw [cut_quad hM ρ hg hgood.sig1]
  have hx' : (x - c) ⬝ᵥ (M⁻¹ *ᵥ (x - c)) ≤ κ := hx
  have hc := hgood.contains h0 h1
  set ω := g ⬝ᵥ (M *ᵥ g)
  have : (σ / (1 - σ) * (g ⬝ᵥ (x - c) + ρ) ^ 2 + 2 * ρ * (g ⬝ᵥ (x - c)) + ρ ^ 2) / ω ≤ (δ - 1) * κ := by
    rw [div_le_iff₀ hω]; linarith
  linarith

/-- on the ellipsoid, `(gᵀ(x-c))² ≤ τ²` -/
theorem dot_sq_le (hM : M.PosDef) {κ : ℝ} {x c : Fin n → ℝ} (hx : x ∈ ellipsoid M κ c) (g : Fin n → ℝ) :
    (g ⬝ᵥ (x - c)) ^ 2 ≤ κ * (g ⬝ᵥ (M *ᵥ g)) := by
  have h := cs_inv hM (x - c) g
  have hx' : (x - c) ⬝ᵥ (M⁻¹ *ᵥ (x - c)) ≤ κ := hx
  calc _ ≤ _ := h
    _ ≤ (g ⬝ᵥ (M *ᵥ g)) * κ := mul_le_mul_of_nonneg_left hx' (quad_nonneg hM g)
    _ = _ := mul_comm _ _

theorem dot_abs_le (hM : M.PosDef) {κ τ : ℝ} {x c : Fin n → ℝ} (hx : x ∈ ellipsoid M κ c) (g : Fin n → ℝ)
    (hτ : 0 ≤ τ) (ht : τ * τ = κ * (g ⬝ᵥ (M *ᵥ g))) : |g ⬝ᵥ (x - c)| ≤ τ := by
  apply abs_le_of_sq_le_sq _ hτ
  have := dot_sq_le hM hx g
  nlinarith

/-- a ball of radius `r` inside the ellipsoid bounds `τ²` from below -/
theorem ball_tsq (hM : M.PosDef) {κ r : ℝ} {c p : Fin n → ℝ} (hκ : 0 ≤ κ) (hr : 0 ≤ r)
    (hb : ball p r ⊆ ellipsoid M κ c) (g : Fin n → ℝ) :
    r ^ 2 * normSq g ≤ κ * (g ⬝ᵥ (M *ᵥ g)) := by
  by_cases hg : g = 0
  · simp [hg, normSq]
  have hgg : 0 < normSq g := by
    have h0 : 0 ≤ normSq g := by
      unfold normSq dotProduct; exact Finset.sum_nonneg (fun i _ => mul_self_nonneg _)
    rcases h0.lt_or_eq with h | h
    · exact h
    · exact absurd (dotProduct_self_eq_zero.mp h.symm) hg
  set N := Real.sqrt (normSq g) with hN
  have hNpos : 0 < N := Real.sqrt_pos.mpr hgg
  have hNN : N * N = normSq g := Real.mul_self_sqrt hgg.le
  set τ := Real.sqrt (κ * (g ⬝ᵥ (M *ᵥ g))) with hτ
  have hττ : τ * τ = κ * (g ⬝ᵥ (M *ᵥ g)) := Real.mul_self_sqrt (mul_nonneg hκ (quad_nonneg hM g))
  have hτ0 : 0 ≤ τ := Real.sqrt_nonneg _
  have key : ∀ s : ℝ, s ^ 2 = r ^ 2 → |g ⬝ᵥ (p - c) + s * N| ≤ τ := by
    intro s hs
    have hmem : p + (s / N) • g ∈ ball p r := by
      show normSq _ ≤ _
      rw [add_sub_cancel_left]
      unfold normSq
      rw [smul_dotProduct, dotProduct_smul, smul_eq_mul, smul_eq_mul]
      have : g ⬝ᵥ g = N * N := hNN.symm
      rw [this]
      have : s / N * (s / N * (N * N)) = s ^ 2 := by field_simp
      rw [this, hs]
    have := dot_abs_le hM (hb hmem) g hτ0 hττ
    have e : g ⬝ᵥ (p + (s / N) • g - c) = g ⬝ᵥ (p - c) + s * N := by
      rw [add_sub_right_comm, dotProduct_add, dotProduct_smul, smul_eq_mul]
      have : g ⬝ᵥ g = N * N := hNN.symm
      rw [this]; field_simp
    rwa [e] at this
  have h1 := abs_le.mp (key r rfl)
  have h2 := abs_le.mp (key (-r) (by ring))
  have h3 : r * N ≤ τ := by linarith [h1.2, h2.1]
  have h4 : (r * N) * (r * N) ≤ τ * τ := mul_self_le_mul_self (by positivity) h3
  rw [hττ] at h4
  calc r ^ 2 * normSq g = (r * N) * (r * N) := by rw [← hNN]; ring
    _ ≤ _ := h4

/-- a ball of radius `r` inside the ellipsoid bounds the volume from below -/
theorem ball_det (hM : M.PosDef) {κ r : ℝ} {c p : Fin n → ℝ} (hκ : 0 < κ) (hr : 0 ≤ r)
    (hb : ball p r ⊆ ellipsoid M κ c) : (r ^ 2) ^ n ≤ (κ • M).det := by
  have hS : (κ • M).PosDef := hM.smul hκ
  rw [hS.isHermitian.det_eq_prod_eigenvalues]
  have hev : ∀ i, r ^ 2 ≤ hS.isHermitian.eigenvalues i := by
    intro i
    rw [hS.isHermitian.eigenvalues_eq]
    set v : Fin n → ℝ := ⇑(hS.isHermitian.eigenvectorBasis i) with hv
    have hnorm : normSq v = 1 := by
      have h1 := hS.isHermitian.eigenvectorBasis.orthonormal.1 i
      have h2 : ‖hS.isHermitian.eigenvectorBasis i‖ ^ 2 = 1 := by rw [h1]; norm_num
      rw [EuclideanSpace.norm_sq_eq] at h2
      unfold normSq dotProduct
      rw [← h2]
      apply Finset.sum_congr rfl
      intro j _
      rw [hv, Real.norm_eq_abs, sq_abs, sq]
    have := ball_tsq hM hκ.le hr hb v
    rw [hnorm, mul_one] at this
    simp only [star_trivial, smul_mulVec, dotProduct_smul, smul_eq_mul, RCLike.re_to_real]
    exact this
  calc (r ^ 2) ^ n = ∏ _i : Fin n, r ^ 2 := by simp
    _ ≤ ∏ i, hS.isHermitian.eigenvalues i :=
        Finset.prod_le_prod (fun _ _ => by positivity) (fun i _ => hev i)
    _ = _ := by simp

end Ellalgo
