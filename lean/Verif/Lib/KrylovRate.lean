import Verif.Lib.Krylov
import Verif.Props.PowerProps
import Mathlib.Analysis.Matrix.PosDef
import Mathlib.Analysis.SpecialFunctions.Trigonometric.Chebyshev.RootsExtrema

/-! How good the best point of a Krylov space is. -/

namespace Ellalgo
open Matrix Polynomial

variable {n : Nat} {A : Matrix (Fin n) (Fin n) ℝ}

theorem eig_pow (hA : A.IsHermitian) (i : Fin n) (k : Nat) (v : Fin n → ℝ) :
    eigVec hA i ⬝ᵥ ((A ^ k) *ᵥ v) = hA.eigenvalues i ^ k * (eigVec hA i ⬝ᵥ v) := by
  induction k with
  | zero => simp
  | succ k ih => rw [pow_succ', ← mulVec_mulVec, eig_mulVec, ih, pow_succ']; ring

/-- `q(A) v` written out -/
theorem aeval_mulVec (q : ℝ[X]) {k : Nat} (hk : q.natDegree < k) (v : Fin n → ℝ) :
    aeval A q *ᵥ v = ∑ i : Fin k, q.coeff i • ((A ^ (i : Nat)) *ᵥ v) := by
  rw [aeval_eq_sum_range' hk, Matrix.sum_mulVec, Finset.sum_range]
  exact Finset.sum_congr rfl fun i _ => smul_mulVec _ _ _

theorem eig_aeval (hA : A.IsHermitian) (i : Fin n) (q : ℝ[X]) (v : Fin n → ℝ) :
    eigVec hA i ⬝ᵥ (aeval A q *ᵥ v) = q.eval (hA.eigenvalues i) * (eigVec hA i ⬝ᵥ v) := by
  rw [aeval_mulVec q (Nat.lt_succ_self _), dotProduct_sum, eval_eq_sum_range, Finset.sum_mul, Finset.sum_range]
  refine Finset.sum_congr rfl fun j _ => ?_
  rw [dotProduct_smul, eig_pow, smul_eq_mul, mul_assoc]

theorem energy_err (hA : A.IsSymm) {b xs : Fin n → ℝ} (hxs : A *ᵥ xs = b) (y : Fin n → ℝ) :
    energy A b y = (y - xs) ⬝ᵥ (A *ᵥ (y - xs)) - xs ⬝ᵥ (A *ᵥ xs) := by
  simp only [energy, mulVec_sub, sub_dotProduct, dotProduct_sub, ← hxs]
  rw [sym_dot hA xs y, dotProduct_comm (A *ᵥ xs) y]
  ring

theorem best_poly (hA : A.PosDef) {b x0 x xs : Fin n → ℝ} {k : Nat} (hk : 1 ≤ k) (hxs : A *ᵥ xs = b)
    (hx : KrylovBest A b x0 k x) (q : ℝ[X]) (hq : q.natDegree ≤ k) (hq0 : q.eval 0 = 1) {M : ℝ}
    (hM : ∀ i, |q.eval (hA.1.eigenvalues i)| ≤ M) :
    (x - xs) ⬝ᵥ (A *ᵥ (x - xs)) ≤ M ^ 2 * ((x0 - xs) ⬝ᵥ (A *ᵥ (x0 - xs))) := by
  have hs : A.IsSymm := by
    have := hA.1
    rw [IsHermitian, conjTranspose_eq_transpose_of_trivial] at this
    exact this
  have hdeg : q.divX.natDegree < k := by
    rw [natDegree_divX_eq_natDegree_tsub_one]; omega
  set y := x0 - aeval A q.divX *ᵥ (b - A *ᵥ x0) with hy
  have hyk : InKrylov A (b - A *ᵥ x0) k (y - x0) := by
    refine ⟨fun i => - q.divX.coeff i, ?_⟩
    rw [hy, sub_sub_cancel_left, aeval_mulVec q.divX hdeg, ← Finset.sum_neg_distrib]
    exact Finset.sum_congr rfl fun i _ => (neg_smul _ _).symm
  have hye : y - xs = aeval A q *ᵥ (x0 - xs) := by
    have e : aeval A q = aeval A q.divX * A + 1 := by
      conv_lhs => rw [← divX_mul_X_add q]
      rw [map_add, map_mul, aeval_X, aeval_C, coeff_zero_eq_eval_zero, hq0, map_one]
    rw [e, add_mulVec, one_mulVec, ← mulVec_mulVec, hy, ← hxs, ← mulVec_sub,
      show xs - x0 = -(x0 - xs) by abel, mulVec_neg, mulVec_neg]
    abel
  have h1 := hx.2 y hyk
  rw [energy_err hs hxs, energy_err hs hxs] at h1
  have h2 : (y - xs) ⬝ᵥ (A *ᵥ (y - xs)) ≤ M ^ 2 * ((x0 - xs) ⬝ᵥ (A *ᵥ (x0 - xs))) := by
    rw [hye, eig_quad hA.1, eig_quad hA.1, Finset.mul_sum]
    refine Finset.sum_le_sum fun i _ => ?_
    rw [eig_aeval, mul_pow]
    have hl := (hA.eigenvalues_pos i).le
    have h3 : q.eval (hA.1.eigenvalues i) ^ 2 ≤ M ^ 2 := by
      rw [← sq_abs]
      exact pow_le_pow_left₀ (abs_nonneg _) (hM i) 2
    have h4 := mul_le_mul_of_nonneg_right h3 (mul_nonneg hl (sq_nonneg (eigVec hA.1 i ⬝ᵥ (x0 - xs))))
    nlinarith
  linarith

/-- the polynomial that vanishes at the points of a finite set of non-zero numbers -/
theorem exists_vanishing (S : Finset ℝ) (hS : ∀ l ∈ S, l ≠ 0) :
    ∃ q : ℝ[X], q.natDegree ≤ S.card ∧ q.eval 0 = 1 ∧ ∀ l ∈ S, q.eval l = 0 := by
  refine ⟨∏ l ∈ S, (1 - C l⁻¹ * X), ?_, ?_, ?_⟩
  · refine (natDegree_prod_le _ _).trans ?_
    refine (Finset.sum_le_sum (g := fun _ => 1) fun l _ => ?_).trans (by simp)
    refine (natDegree_sub_le _ _).trans ?_
    simp only [natDegree_one, zero_le, sup_of_le_right]
    exact ((natDegree_C_mul_le _ _).trans natDegree_X_le)
  · rw [eval_prod]
    simp
  · intro l hl
    rw [eval_prod]
    refine Finset.prod_eq_zero hl ?_
    simp [hS l hl]

/-- Chebyshev: a polynomial that is small on an interval and `1` at zero -/
theorem exists_chebyshev {lo hi : ℝ} (hlo : 0 < lo) (hle : lo ≤ hi) {k : Nat} (hk : 1 ≤ k) :
    ∃ q : ℝ[X], q.natDegree ≤ k ∧ q.eval 0 = 1 ∧
      ∀ l, lo ≤ l → l ≤ hi → |q.eval l| ≤ 2 * ((√hi - √lo) / (√hi + √lo)) ^ k := by
  rcases hle.eq_or_lt with rfl | hlt
  · refine ⟨1 - C lo⁻¹ * X, ?_, by simp, ?_⟩
    · refine (natDegree_sub_le _ _).trans ?_
      simp only [natDegree_one, zero_le, sup_of_le_right]
      exact (((natDegree_C_mul_le _ _).trans natDegree_X_le)).trans hk
    · intro l h1 h2
      obtain rfl : l = lo := le_antisymm h2 h1
      have : k ≠ 0 := by omega
      simp [hlo.ne', this]
  · set a := √lo with ha
    set b := √hi with hb
    have ha0 : 0 < a := Real.sqrt_pos.mpr hlo
    have hab : a < b := Real.sqrt_lt_sqrt hlo.le hlt
    have ha2 : a ^ 2 = lo := Real.sq_sqrt hlo.le
    have hb2 : b ^ 2 = hi := Real.sq_sqrt (by linarith)
    have hd : 0 < hi - lo := by linarith
    set z := (b + a) / (b - a) with hz
    have hba : 0 < b - a := by linarith
    have hz0 : 0 < z := div_pos (by linarith) hba
    -- affine map sending [lo, hi] to [-1, 1]
    set L : ℝ[X] := C ((hi + lo) / (hi - lo)) - C (2 / (hi - lo)) * X with hL
    have hLe : ∀ l, L.eval l = (hi + lo - 2 * l) / (hi - lo) := by
      intro l
      simp only [hL, eval_sub, eval_mul, eval_C, eval_X]
      field_simp
    have hc : L.eval 0 = Real.cosh (Real.log z) := by
      rw [hLe, Real.cosh_log hz0, hz, ← ha2, ← hb2]
      have : b ^ 2 - a ^ 2 ≠ 0 := by nlinarith
      have h2 : b + a ≠ 0 := by linarith
      field_simp
      ring
    set D := (Chebyshev.T ℝ k).eval (L.eval 0) with hD
    have hDz : z ^ k / 2 ≤ D := by
      rw [hD, hc, Chebyshev.T_real_cosh, Real.cosh_eq]
      have : Real.exp ((k : ℤ) * Real.log z) = z ^ k := by
        rw [Int.cast_natCast, ← Real.log_pow, Real.exp_log (by positivity)]
      rw [this]
      have := Real.exp_pos (-((k : ℤ) * Real.log z))
      linarith
    have hzk : 0 < z ^ k := by positivity
    have hD0 : 0 < D := by linarith
    refine ⟨C D⁻¹ * (Chebyshev.T ℝ k).comp L, ?_, ?_, ?_⟩
    · refine (natDegree_C_mul_le _ _).trans ?_
      rw [natDegree_comp]
      have h1 : (Chebyshev.T ℝ k).natDegree = k := by
        rw [Chebyshev.natDegree_T]; simp
      have h2 : L.natDegree ≤ 1 := by
        refine (natDegree_sub_le _ _).trans ?_
        simp only [natDegree_C, zero_le, sup_of_le_right]
        exact ((natDegree_C_mul_le _ _).trans natDegree_X_le)
      rw [h1]
      nlinarith
    · rw [eval_mul, eval_C, eval_comp, ← hD, inv_mul_cancel₀ hD0.ne']
    · intro l h1 h2
      rw [eval_mul, eval_C, eval_comp, abs_mul, abs_of_pos (inv_pos.mpr hD0)]
      have h3 : |(Chebyshev.T ℝ k).eval (L.eval l)| ≤ 1 := by
        refine Chebyshev.abs_eval_T_real_le_one k ?_
        rw [hLe, abs_le]
        constructor
        · rw [le_div_iff₀ hd]; linarith
        · rw [div_le_iff₀ hd]; linarith
      have h4 : D⁻¹ ≤ 2 * ((b - a) / (b + a)) ^ k := by
        have e : ((b - a) / (b + a)) ^ k = (z ^ k)⁻¹ := by
          rw [hz, ← inv_pow, inv_div]
        rw [e, ← div_eq_mul_inv, inv_le_comm₀ hD0 (by positivity), inv_div]
        exact hDz
      have := inv_pos.mpr hD0
      nlinarith [abs_nonneg ((Chebyshev.T ℝ k).eval (L.eval l))]

end Ellalgo
