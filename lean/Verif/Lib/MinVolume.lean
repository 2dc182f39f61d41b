import Verif.Lib.EllBridge
import Mathlib.Analysis.Matrix.PosDef
import Mathlib.Analysis.Matrix.Order
import Mathlib.LinearAlgebra.Matrix.Trace

/-! Least volume among all ellipsoids containing a slab of an ellipsoid (John's argument with two rims). -/

namespace Ellalgo
open Matrix
open scoped ComplexOrder

variable {n : Nat}

/-- AM-GM for a positive semidefinite matrix -/
theorem det_le_one_of_trace_le {X : Matrix (Fin n) (Fin n) ℝ} (hX : X.PosSemidef) (ht : X.trace ≤ n) :
    X.det ≤ 1 := by
  rw [hX.isHermitian.det_eq_prod_eigenvalues]
  have htr : X.trace = ∑ i, hX.isHermitian.eigenvalues i := by
    have := hX.isHermitian.trace_eq_sum_eigenvalues
    simpa using this
  calc (∏ i, ((hX.isHermitian.eigenvalues i : ℝ) : ℝ)) ≤ ∏ i, Real.exp (hX.isHermitian.eigenvalues i - 1) := by
        apply Finset.prod_le_prod
        · intro i _; exact hX.eigenvalues_nonneg i
        · intro i _; linarith [Real.add_one_le_exp (hX.isHermitian.eigenvalues i - 1)]
    _ = Real.exp (∑ i, (hX.isHermitian.eigenvalues i - 1)) := (Real.exp_sum _ _).symm
    _ ≤ Real.exp 0 := by
        apply Real.exp_le_exp.mpr
        rw [Finset.sum_sub_distrib, ← htr]
        simp only [Finset.sum_const, Finset.card_univ, Fintype.card_fin, nsmul_eq_mul, mul_one]
        linarith
    _ = 1 := Real.exp_zero

/-- the projections of the unit vectors on the complement of `v` -/
theorem proj_sums {v : Fin n → ℝ} (hv : v ⬝ᵥ v = 1) {W : Matrix (Fin n) (Fin n) ℝ} (hW : W.IsSymm) :
    (∑ j, (Pi.single j 1 - v j • v) ⬝ᵥ (Pi.single j 1 - v j • v) = (n : ℝ) - 1) ∧
    (∑ j, (Pi.single j 1 - v j • v) ⬝ᵥ (W *ᵥ (Pi.single j 1 - v j • v)) = W.trace - v ⬝ᵥ (W *ᵥ v)) ∧
    (∀ j, v ⬝ᵥ (Pi.single j 1 - v j • v) = 0) := by
  have h3 : ∀ j, v ⬝ᵥ (Pi.single j (1 : ℝ) - v j • v) = 0 := by
    intro j
    rw [dotProduct_sub, dotProduct_smul, hv]
    simp
  refine ⟨?_, ?_, h3⟩
  · have : ∀ j, (Pi.single j (1 : ℝ) - v j • v) ⬝ᵥ (Pi.single j 1 - v j • v) = 1 - v j * v j := by
      intro j
      rw [sub_dotProduct, smul_dotProduct, h3, smul_zero, sub_zero, dotProduct_sub, dotProduct_smul]
      simp
    rw [Finset.sum_congr rfl fun j _ => this j, Finset.sum_sub_distrib]
    have : ∑ j, v j * v j = 1 := hv
    rw [this]; simp
  · have : ∀ j, (Pi.single j (1 : ℝ) - v j • v) ⬝ᵥ (W *ᵥ (Pi.single j 1 - v j • v)) =
        W j j - 2 * (v j * (W *ᵥ v) j) + v j * v j * (v ⬝ᵥ (W *ᵥ v)) := by
      intro j
      rw [mulVec_sub, mulVec_smul, sub_dotProduct, dotProduct_sub, dotProduct_sub, smul_dotProduct, smul_dotProduct,
        dotProduct_smul, dotProduct_smul]
      have e1 : v ⬝ᵥ (W *ᵥ Pi.single j 1) = (W *ᵥ v) j := by
        rw [PosDef.symm_dot hW]; simp
      rw [e1]
      simp only [single_one_dotProduct, smul_eq_mul, mulVec_single_one, col_apply]
      ring
    rw [Finset.sum_congr rfl fun j _ => this j, Finset.sum_add_distrib, Finset.sum_sub_distrib, ← Finset.sum_mul,
      ← Finset.mul_sum]
    have e1 : ∑ j, v j * v j = 1 := hv
    have e2 : ∑ j, v j * (W *ᵥ v) j = v ⬝ᵥ (W *ᵥ v) := rfl
    rw [e1, e2, Matrix.trace]
    simp only [diag_apply]
    ring

/-- a square root -/
theorem exists_factor {S : Matrix (Fin n) (Fin n) ℝ} (hS : S.PosSemidef) :
    ∃ B : Matrix (Fin n) (Fin n) ℝ, S = Bᵀ * B := by
  open scoped MatrixOrder Matrix.Norms.L2Operator in
  obtain ⟨B, h⟩ := CStarAlgebra.nonneg_iff_eq_star_mul_self.mp hS.nonneg
  exact ⟨B, by rw [h, star_eq_conjTranspose, conjTranspose_eq_transpose_of_trivial]⟩

/-- combination of the two rims -/
theorem rims_combine {N tsq τ b0 b1 b ρ σ δ m u a t : ℝ} (hN : 1 < N) (hτ : 0 < τ) (hts : τ * τ = tsq) (h01 : b0 < b1)
    (hb : b = (b0 + b1) / 2) (hρ : ρ = σ * b) (hσ1 : σ < 1) (hδ : 0 < δ) (hm : 0 ≤ m)
    (hdel : δ * tsq * (1 - σ) = tsq * (1 - σ) + σ * (σ * b ^ 2 - b0 * b1))
    (hq : (N + 1) * b ^ 2 * σ ^ 2 - 2 * ((tsq + b0 * b1) / 2 + N * b ^ 2) * σ + (tsq + N * (b0 * b1)) = 0)
    (h0 : (N - 1) * (m - 2 * ((b0 - ρ) / τ) * u + ((b0 - ρ) / τ) ^ 2 * a) + (1 - b0 * b0 / tsq) * (t - a) ≤ N - 1)
    (h1 : (N - 1) * (m - 2 * ((b1 - ρ) / τ) * u + ((b1 - ρ) / τ) ^ 2 * a) + (1 - b1 * b1 / tsq) * (t - a) ≤ N - 1) :
    δ * (t - σ * a) ≤ N := by
  have hts0 : 0 < tsq := by rw [← hts]; positivity
  have hd : 0 < b1 - b0 := by linarith
  have hs : 0 < 1 - σ := by linarith
  have hb1 : b1 = 2 * b - b0 := by linarith
  have hA : (ρ - b0) * (b1 - ρ) * N = δ * tsq * (1 - σ) := by
    rw [hdel, hρ, hb1]; rw [hb1] at hq
    linear_combination (-1) * hq
  have hApos : 0 < (ρ - b0) * (b1 - ρ) := by
    have : 0 < (ρ - b0) * (b1 - ρ) * N := by rw [hA]; positivity
    exact (pos_iff_pos_of_mul_pos this).mpr (by linarith)
  have hw : 0 < ρ - b0 ∧ 0 < b1 - ρ := by
    rcases mul_pos_iff.mp hApos with h | h
    · exact h
    · exfalso; linarith [h.1, h.2]
  have hB : ((b1 - ρ) * (tsq - b0 * b0) + (ρ - b0) * (tsq - b1 * b1)) * N = (N - 1) * (δ * tsq) * (b1 - b0) := by
    have h3 : ((b1 - ρ) * (tsq - b0 * b0) + (ρ - b0) * (tsq - b1 * b1)) * N * (1 - σ) =
        (N - 1) * (b1 - b0) * (δ * tsq * (1 - σ)) := by
      rw [hdel, hρ, hb1]; rw [hb1] at hq
      linear_combination (2 * b - b0 - b0) * hq
    have h4 : ((b1 - ρ) * (tsq - b0 * b0) + (ρ - b0) * (tsq - b1 * b1)) * N * (1 - σ) =
        (N - 1) * (δ * tsq) * (b1 - b0) * (1 - σ) := by rw [h3]; ring
    exact mul_right_cancel₀ hs.ne' h4
  have e0 := mul_le_mul_of_nonneg_left h0 hw.2.le
  have e1 := mul_le_mul_of_nonneg_left h1 hw.1.le
  have e2 : (b1 - ρ) * ((N - 1) * (m - 2 * ((b0 - ρ) / τ) * u + ((b0 - ρ) / τ) ^ 2 * a) + (1 - b0 * b0 / tsq) * (t - a)) +
      (ρ - b0) * ((N - 1) * (m - 2 * ((b1 - ρ) / τ) * u + ((b1 - ρ) / τ) ^ 2 * a) + (1 - b1 * b1 / tsq) * (t - a)) =
      (N - 1) * (b1 - b0) * m + (N - 1) * (b1 - b0) * ((ρ - b0) * (b1 - ρ)) / tsq * a +
      ((b1 - ρ) * (tsq - b0 * b0) + (ρ - b0) * (tsq - b1 * b1)) / tsq * (t - a) := by
    rw [← hts]; field_simp; ring
  have e3 : (N - 1) * (b1 - b0) * ((ρ - b0) * (b1 - ρ)) / tsq * a +
      ((b1 - ρ) * (tsq - b0 * b0) + (ρ - b0) * (tsq - b1 * b1)) / tsq * (t - a) =
      (N - 1) * (b1 - b0) / N * (δ * (t - σ * a)) := by
    have hN0 : N ≠ 0 := by linarith
    have f1 : (ρ - b0) * (b1 - ρ) = δ * tsq * (1 - σ) / N := by rw [eq_div_iff hN0]; exact hA
    have f2 : (b1 - ρ) * (tsq - b0 * b0) + (ρ - b0) * (tsq - b1 * b1) = (N - 1) * (δ * tsq) * (b1 - b0) / N := by
      rw [eq_div_iff hN0]; exact hB
    rw [f1, f2]; field_simp; ring
  have hN1 : 0 < N - 1 := by linarith
  have e4 : 0 ≤ (N - 1) * (b1 - b0) * m := by positivity
  have e5 : (N - 1) * (b1 - b0) / N * (δ * (t - σ * a)) ≤ (N - 1) * (b1 - b0) / N * N := by
    have : (N - 1) * (b1 - b0) / N * N = (N - 1) * (b1 - b0) := by field_simp
    rw [this, ← e3]
    have e6 := add_le_add e0 e1
    rw [e2] at e6
    have e7 : (b1 - ρ) * (N - 1) + (ρ - b0) * (N - 1) = (N - 1) * (b1 - b0) := by ring
    linarith
  exact le_of_mul_le_mul_left e5 (by positivity)

/-- `(Bᵀy)ᵀ M⁻¹ (Bᵀy) = κ yᵀy` when `κ M = BᵀB` -/
theorem quad_of_factor {M B : Matrix (Fin n) (Fin n) ℝ} {κ : ℝ} (hM : M.PosDef) (hκ : 0 < κ) (hB : κ • M = Bᵀ * B)
    (y : Fin n → ℝ) : (Bᵀ *ᵥ y) ⬝ᵥ (M⁻¹ *ᵥ (Bᵀ *ᵥ y)) = κ * (y ⬝ᵥ y) := by
  have hS : (κ • M).PosDef := hM.smul hκ
  have hdet : IsUnit B.det := by
    have := hS.det_pos.ne'
    rw [hB, det_mul, det_transpose] at this
    exact isUnit_iff_ne_zero.mpr (fun h => this (by rw [h, zero_mul]))
  have hdet' : IsUnit (Bᵀ).det := by rwa [det_transpose]
  have hinv : M⁻¹ = κ • (B⁻¹ * (Bᵀ)⁻¹) := by
    apply inv_eq_left_inv
    have : M = κ⁻¹ • (Bᵀ * B) := by rw [← hB, smul_smul, inv_mul_cancel₀ hκ.ne', one_smul]
    rw [this, smul_mul_assoc, mul_smul_comm, smul_smul, mul_inv_cancel₀ hκ.ne', one_smul, Matrix.mul_assoc,
      ← Matrix.mul_assoc (Bᵀ)⁻¹, nonsing_inv_mul _ hdet', Matrix.one_mul, nonsing_inv_mul _ hdet]
  rw [hinv, smul_mulVec, dotProduct_smul, smul_eq_mul, ← mulVec_mulVec, mulVec_mulVec _ (Bᵀ)⁻¹,
    nonsing_inv_mul _ hdet', one_mulVec, mulVec_transpose, ← dotProduct_mulVec, mulVec_mulVec,
    mul_nonsing_inv _ hdet, one_mulVec]

/-- **John's argument**: every ellipsoid containing the slab has at least the volume of the new one -/
theorem minvol_core {M N : Matrix (Fin n) (Fin n) ℝ} {κ b0 b1 ρ σ δ : ℝ} {c c' g : Fin n → ℝ} (hn : 2 ≤ n)
    (hM : M.PosDef) (hκ : 0 < κ) (hg : g ≠ 0) (hgood : GoodCut (κ * (g ⬝ᵥ (M *ᵥ g))) b0 b1 ρ σ δ) (hδ : 0 < δ)
    (hq : ((n : ℝ) + 1) * ((b0 + b1) / 2) ^ 2 * σ ^ 2 -
      2 * ((κ * (g ⬝ᵥ (M *ᵥ g)) + b0 * b1) / 2 + n * ((b0 + b1) / 2) ^ 2) * σ +
        (κ * (g ⬝ᵥ (M *ᵥ g)) + n * (b0 * b1)) = 0)
    (h01 : b0 < b1) (hb0 : b0 ^ 2 ≤ κ * (g ⬝ᵥ (M *ᵥ g))) (hb1 : b1 ^ 2 ≤ κ * (g ⬝ᵥ (M *ᵥ g)))
    (hN : N.PosDef)
    (hcon : ∀ x ∈ ellipsoid M κ c, g ⬝ᵥ (x - c) + b0 ≤ 0 → 0 ≤ g ⬝ᵥ (x - c) + b1 → x ∈ ellipsoid N 1 c') :
    ((κ * δ) • cutM M g σ).det ≤ N.det := by
  have hS : (κ • M).PosDef := hM.smul hκ
  obtain ⟨B, hB⟩ := exists_factor hS.posSemidef
  set tsq := κ * (g ⬝ᵥ (M *ᵥ g)) with htsq
  have htp : 0 < tsq := mul_pos hκ (quad_pos hM hg)
  set τ := √tsq with hτd
  have hτ : 0 < τ := Real.sqrt_pos.mpr htp
  have hττ : τ * τ = tsq := Real.mul_self_sqrt htp.le
  have hP : N⁻¹.PosDef := hN.inv
  have hPs : (N⁻¹).IsSymm := isSymm_of_posDef hP
  set P := N⁻¹ with hPd
  set W := B * P * Bᵀ with hW
  have hWs : W.IsSymm := by
    unfold IsSymm
    rw [hW, transpose_mul, transpose_mul, transpose_transpose, hPs.eq, Matrix.mul_assoc]
  have hWq : ∀ y z : Fin n → ℝ, (Bᵀ *ᵥ y) ⬝ᵥ (P *ᵥ (Bᵀ *ᵥ z)) = y ⬝ᵥ (W *ᵥ z) := by
    intro y z
    rw [hW, ← mulVec_mulVec, ← mulVec_mulVec, mulVec_transpose, ← dotProduct_mulVec]
  obtain ⟨v, hvd⟩ : ∃ v : Fin n → ℝ, v = τ⁻¹ • (B *ᵥ g) := ⟨_, rfl⟩
  have hBB : (B *ᵥ g) ⬝ᵥ (B *ᵥ g) = tsq := by
    rw [dotProduct_mulVec, ← mulVec_transpose, mulVec_mulVec, ← hB, dotProduct_comm, smul_mulVec, dotProduct_smul,
      smul_eq_mul]
  have hv : v ⬝ᵥ v = 1 := by
    rw [hvd, smul_dotProduct, dotProduct_smul, hBB, smul_eq_mul, smul_eq_mul, ← hττ]; field_simp
  have hgB : ∀ y, g ⬝ᵥ (Bᵀ *ᵥ y) = τ * (v ⬝ᵥ y) := by
    intro y
    rw [hvd, smul_dotProduct, smul_eq_mul, ← mul_assoc, mul_inv_cancel₀ hτ.ne', one_mul, dotProduct_mulVec,
      vecMul_transpose]
  obtain ⟨f, hf⟩ : ∃ f, f = Bᵀ *ᵥ v := ⟨_, rfl⟩
  set a := v ⬝ᵥ (W *ᵥ v) with ha
  set q := c - (ρ / τ) • f - c' with hqd
  -- one rim
  have rim : ∀ b : ℝ, b ^ 2 ≤ tsq → b0 ≤ b → b ≤ b1 →
      ((n : ℝ) - 1) * (q ⬝ᵥ (P *ᵥ q) - 2 * ((b - ρ) / τ) * (q ⬝ᵥ (P *ᵥ f)) + ((b - ρ) / τ) ^ 2 * a) +
        (1 - b * b / tsq) * (W.trace - a) ≤ (n : ℝ) - 1 := by
    intro b hb hbl hbu
    set qb := q - ((b - ρ) / τ) • f with hqb
    have hz : 0 ≤ 1 - b * b / tsq := by
      rw [sub_nonneg, div_le_one htp]; nlinarith
    have hQ : qb ⬝ᵥ (P *ᵥ qb) =
        q ⬝ᵥ (P *ᵥ q) - 2 * ((b - ρ) / τ) * (q ⬝ᵥ (P *ᵥ f)) + ((b - ρ) / τ) ^ 2 * a := by
      rw [hqb, sub_eq_add_neg, ← neg_smul, quad_add hPs, hf, hWq]
      ring
    rw [← hQ]
    -- one direction
    have dir : ∀ h : Fin n → ℝ, v ⬝ᵥ h = 0 →
        (h ⬝ᵥ h) * (qb ⬝ᵥ (P *ᵥ qb)) + (1 - b * b / tsq) * (h ⬝ᵥ (W *ᵥ h)) ≤ h ⬝ᵥ h := by
      intro h hvh
      by_cases h0 : h = 0
      · simp [h0]
      have hhp : 0 < h ⬝ᵥ h := by
        rcases (show 0 ≤ h ⬝ᵥ h from Finset.sum_nonneg fun i _ => mul_self_nonneg _).lt_or_eq with h1 | h1
        · exact h1
        · exact absurd (dotProduct_self_eq_zero.mp h1.symm) h0
      have pt : ∀ s : ℝ, s ^ 2 * (h ⬝ᵥ h) = 1 - b * b / tsq →
          qb ⬝ᵥ (P *ᵥ qb) + 2 * s * (qb ⬝ᵥ (P *ᵥ (Bᵀ *ᵥ h))) + s ^ 2 * (h ⬝ᵥ (W *ᵥ h)) ≤ 1 := by
        intro s hs
        have hmem := hcon (c + Bᵀ *ᵥ (-(b / τ) • v + s • h)) ?_ ?_ ?_
        · rw [ellipsoid, Set.mem_ofPred_eq] at hmem
          have e : c + Bᵀ *ᵥ (-(b / τ) • v + s • h) - c' = qb + s • (Bᵀ *ᵥ h) := by
            rw [hqb, hqd, mulVec_add, mulVec_smul, mulVec_smul, ← hf]
            ext i
            simp only [Pi.add_apply, Pi.sub_apply, Pi.smul_apply, smul_eq_mul]
            field_simp
            ring
          rw [e, quad_add hPs, hWq] at hmem
          linarith
        · rw [ellipsoid, Set.mem_ofPred_eq, add_sub_cancel_left, quad_of_factor hM hκ hB]
          have : (-(b / τ) • v + s • h) ⬝ᵥ (-(b / τ) • v + s • h) = 1 := by
            rw [add_dotProduct, dotProduct_add, dotProduct_add]
            simp only [smul_dotProduct, dotProduct_smul, smul_eq_mul, hv, hvh, dotProduct_comm h v]
            have : b / τ * (b / τ) = b * b / tsq := by rw [← hττ]; field_simp
            nlinarith
          rw [this, mul_one]
        · rw [add_sub_cancel_left, hgB, dotProduct_add, dotProduct_smul, dotProduct_smul, hv, hvh]
          simp only [smul_eq_mul, mul_zero, add_zero, mul_one]
          have : τ * -(b / τ) = -b := by field_simp
          rw [this]; linarith
        · rw [add_sub_cancel_left, hgB, dotProduct_add, dotProduct_smul, dotProduct_smul, hv, hvh]
          simp only [smul_eq_mul, mul_zero, add_zero, mul_one]
          have : τ * -(b / τ) = -b := by field_simp
          rw [this]; linarith
      have hss : (√((1 - b * b / tsq) / (h ⬝ᵥ h))) ^ 2 * (h ⬝ᵥ h) = 1 - b * b / tsq := by
        rw [Real.sq_sqrt (div_nonneg hz hhp.le), div_mul_cancel₀ _ hhp.ne']
      have p1 := pt _ hss
      have p2 := pt (-√((1 - b * b / tsq) / (h ⬝ᵥ h))) (by rw [neg_sq]; exact hss)
      have p3 : qb ⬝ᵥ (P *ᵥ qb) + (√((1 - b * b / tsq) / (h ⬝ᵥ h))) ^ 2 * (h ⬝ᵥ (W *ᵥ h)) ≤ 1 := by
        rw [neg_sq] at p2; linarith
      have p4 := mul_le_mul_of_nonneg_left p3 hhp.le
      rw [mul_add, ← mul_assoc, mul_comm (h ⬝ᵥ h) (_ ^ 2), hss, mul_one] at p4
      exact p4
    obtain ⟨s1, s2, s3⟩ := proj_sums hv hWs
    have := Finset.sum_le_sum (s := Finset.univ) fun j _ => dir _ (s3 j)
    rw [Finset.sum_add_distrib, ← Finset.sum_mul, ← Finset.mul_sum, s1, s2] at this
    exact this
  have hn' : (1 : ℝ) < n := by exact_mod_cast (by omega : 1 < n)
  have hdel : δ * tsq * (1 - σ) = tsq * (1 - σ) + σ * (σ * ((b0 + b1) / 2) ^ 2 - b0 * b1) := by
    rw [hgood.del, add_mul]
    congr 1
    rw [div_mul_eq_mul_div, div_mul_cancel₀ _ (by linarith [hgood.sig1])]
  have key : δ * (W.trace - σ * a) ≤ n :=
    rims_combine hn' hτ hττ h01 rfl hgood.rho hgood.sig1 hδ (quad_nonneg hP q) hdel hq
      (rim b0 hb0 le_rfl h01.le) (rim b1 hb1 h01.le le_rfl)
  -- the new matrix
  set N' := (κ * δ) • cutM M g σ with hN'
  have hN'p : N'.PosDef := (cutM_posDef hM hg hgood.sig1).smul (mul_pos hκ hδ)
  have hN'e : N' = δ • (κ • M - σ • vecMulVec f f) := by
    have hfe : f = (κ / τ) • (M *ᵥ g) := by
      rw [hf, hvd, mulVec_smul, mulVec_mulVec, ← hB, smul_mulVec, smul_smul]
      congr 1; field_simp
    have hgg : 0 < g ⬝ᵥ (M *ᵥ g) := quad_pos hM hg
    rw [hN', cutM, hfe]
    ext i j
    simp only [Matrix.smul_apply, Matrix.sub_apply, vecMulVec_apply, Pi.smul_apply, smul_eq_mul]
    have : κ / τ * (M *ᵥ g) i * (κ / τ * (M *ᵥ g) j) = κ / (g ⬝ᵥ (M *ᵥ g)) * ((M *ᵥ g) i * (M *ᵥ g) j) := by
      have : κ / τ * (κ / τ) = κ / (g ⬝ᵥ (M *ᵥ g)) := by
        rw [div_mul_div_comm, hττ, htsq]; field_simp
      rw [← this]; ring
    rw [this]; field_simp
  obtain ⟨H, hH⟩ := exists_factor hN'p.posSemidef
  have hX : (H * P * Hᵀ).PosSemidef := by
    have := hP.posSemidef.mul_mul_conjTranspose_same H
    rwa [conjTranspose_eq_transpose_of_trivial] at this
  have htr : (H * P * Hᵀ).trace = δ * (W.trace - σ * a) := by
    have t1 : (κ • M * P).trace = W.trace := by
      rw [hB, hW, trace_mul_comm (B * P), Matrix.mul_assoc]
    have t2 : (vecMulVec f f * P).trace = a := by
      rw [ha, ← hWq, ← hf, vecMulVec_mul, trace_vecMulVec, dotProduct_comm, ← dotProduct_mulVec]
    rw [trace_mul_comm, ← Matrix.mul_assoc, ← hH, hN'e, smul_mul_assoc, trace_smul, Matrix.sub_mul, trace_sub, t1,
      smul_mul_assoc, trace_smul, t2, smul_eq_mul, smul_eq_mul]
  have hd := det_le_one_of_trace_le hX (by rw [htr]; exact key)
  rw [det_mul, det_mul, mul_comm H.det, mul_assoc, ← det_mul, ] at hd
  have hdet : (H * Hᵀ).det = N'.det := by rw [hH, det_mul, det_mul, mul_comm]
  rw [hdet, hPd, det_nonsing_inv, Ring.inverse_eq_inv'] at hd
  have hNp := hN.det_pos
  rwa [inv_mul_le_iff₀ hNp, mul_one] at hd

end Ellalgo
