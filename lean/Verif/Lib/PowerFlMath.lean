import Verif.Lib.PowerFl
import Verif.Props.PowerProps

/-! Residual and eigenvalue bounds for a perturbed step of the power iteration. -/

namespace Ellalgo
open Matrix
variable {u : ℝ} {n : Nat}

theorem norm2_eq (v : Fin n → ℝ) : norm2 v = ‖WithLp.toLp 2 v‖ := by
  rw [EuclideanSpace.norm_eq, norm2]
  congr 1
  exact Finset.sum_congr rfl fun i _ => by simp [sq]

theorem norm2_nonneg (v : Fin n → ℝ) : 0 ≤ norm2 v := Real.sqrt_nonneg _
theorem norm2_sq (v : Fin n → ℝ) : norm2 v * norm2 v = v ⬝ᵥ v := Real.mul_self_sqrt (dot_self_nonneg' v)

theorem norm2_add (v w : Fin n → ℝ) : norm2 (v + w) ≤ norm2 v + norm2 w := by
  simp only [norm2_eq, WithLp.toLp_add]
  exact norm_add_le _ _

theorem norm2_smul (c : ℝ) (v : Fin n → ℝ) : norm2 (c • v) = |c| * norm2 v := by
  simp only [norm2_eq, WithLp.toLp_smul, norm_smul, Real.norm_eq_abs]

theorem norm2_mono {v w : Fin n → ℝ} (h : ∀ i, |v i| ≤ w i) : norm2 v ≤ norm2 w := by
  refine Real.sqrt_le_sqrt (Finset.sum_le_sum fun i _ => ?_)
  have := h i
  have h0 := abs_nonneg (v i)
  rw [← abs_mul_abs_self]
  exact mul_le_mul this this h0 (h0.trans this)

theorem norm2_abs (v : Fin n → ℝ) : norm2 (fun i => |v i|) = norm2 v := by
  unfold norm2
  congr 1
  exact Finset.sum_congr rfl fun i _ => abs_mul_abs_self _

theorem norm2_le_norm1 (v : Fin n → ℝ) : norm2 v ≤ norm1 v :=
  Real.sqrt_le_iff.2 ⟨norm1_nonneg v, sq_le_norm1 v⟩

theorem dot_le_norm2 (v w : Fin n → ℝ) : |v ⬝ᵥ w| ≤ norm2 v * norm2 w := by
  have := abs_real_inner_le_norm (WithLp.toLp 2 w) (WithLp.toLp 2 v)
  rw [EuclideanSpace.inner_eq_star_dotProduct, ← norm2_eq, ← norm2_eq] at this
  simp only [star_trivial] at this
  rw [mul_comm]
  exact this

section
variable {A : Matrix (Fin n) (Fin n) ℝ} {L : ℝ}
  (hop : ∀ w : Fin n → ℝ, norm2 (absMat A *ᵥ w) ≤ L * norm2 w)
include hop

theorem absMat_bound (v : Fin n → ℝ) : norm2 (absMat A *ᵥ fun j => |v j|) ≤ L * norm2 v := by
  have := hop fun j => |v j|
  rwa [norm2_abs] at this

theorem mulVec_bound (v : Fin n → ℝ) : norm2 (A *ᵥ v) ≤ L * norm2 v := by
  refine (norm2_mono fun i => ?_).trans (absMat_bound hop v)
  show |∑ j, A i j * v j| ≤ ∑ j, |A i j| * |v j|
  refine (Finset.abs_sum_le_sum_abs _ _).trans (le_of_eq ?_)
  exact Finset.sum_congr rfl fun j _ => abs_mul _ _

theorem absQuad_bound (v : Fin n → ℝ) : absQuad A v ≤ L * (v ⬝ᵥ v) := by
  have e : absQuad A v = (fun i => |v i|) ⬝ᵥ (absMat A *ᵥ fun j => |v j|) := by
    simp only [absQuad, dotProduct, mulVec, Finset.mul_sum]
    exact Finset.sum_congr rfl fun i _ => Finset.sum_congr rfl fun j _ => by
      simp [absMat, mul_assoc]
  have h1 := (le_abs_self _).trans (dot_le_norm2 (fun i => |v i|) (absMat A *ᵥ fun j => |v j|))
  have h2 := absMat_bound hop v
  have h3 := mul_le_mul_of_nonneg_left h2 (norm2_nonneg v)
  rw [norm2_abs] at h1
  rw [e, ← norm2_sq]
  linarith

/-- the residual of `v` for the multiplier the step suggests -/
theorem residualF {v v1 y : Fin n → ℝ} {c γ T sg : ℝ} (h0 : 0 ≤ u) (hγ : 0 ≤ γ) (hc : 0 < c) (hsg : |sg| = 1)
    (hy : ∀ i, |y i - (A *ᵥ v1) i| ≤ γ * (absMat A *ᵥ fun j => |v1 j|) i) (hv : ∀ i, |v i - c * y i| ≤ u * |c * y i|)
    (hT : norm1 (v - sg • v1) ≤ T) (hL : 0 ≤ L) :
    norm2 (A *ᵥ v - (sg / c) • v) ≤ L * (T + ((1 + u) * (1 + γ) - 1) * norm2 v1) := by
  have hss : sg * sg = 1 := by rw [← abs_mul_abs_self, hsg, one_mul]
  set d := v - sg • v1 with hd
  set e1 := y - A *ᵥ v1 with he1
  set e2 := y - c⁻¹ • v with he2
  have hb : 0 ≤ norm2 v1 := norm2_nonneg v1
  have key : A *ᵥ v - (sg / c) • v = A *ᵥ d + (-sg • e1 + sg • e2) := by
    rw [hd, he1, he2, mulVec_sub, mulVec_smul, div_eq_mul_inv, mul_smul]
    module
  have n1 : norm2 (A *ᵥ d) ≤ L * T :=
    (mulVec_bound hop d).trans (mul_le_mul_of_nonneg_left ((norm2_le_norm1 d).trans hT) hL)
  have ne1 : norm2 e1 ≤ γ * (L * norm2 v1) := by
    have : norm2 e1 ≤ norm2 (γ • (absMat A *ᵥ fun j => |v1 j|)) := norm2_mono fun i => hy i
    rw [norm2_smul, abs_of_nonneg hγ] at this
    exact this.trans (mul_le_mul_of_nonneg_left (absMat_bound hop v1) hγ)
  have ny : norm2 y ≤ (1 + γ) * (L * norm2 v1) := by
    have e : y = A *ᵥ v1 + e1 := by rw [he1]; abel
    rw [e]
    refine (norm2_add _ _).trans ?_
    have := mulVec_bound hop v1
    linarith
  have ne2 : norm2 e2 ≤ u * ((1 + γ) * (L * norm2 v1)) := by
    have : norm2 e2 ≤ norm2 (u • fun i => |y i|) := norm2_mono fun i => by
      have := hv i
      rw [abs_mul, abs_of_pos hc] at this
      have e : e2 i = -(c⁻¹ * (v i - c * y i)) := by
        simp only [he2, Pi.sub_apply, Pi.smul_apply, smul_eq_mul]
        field_simp
        ring
      rw [e, abs_neg, abs_mul, abs_of_pos (inv_pos.2 hc)]
      show _ ≤ u * |y i|
      calc c⁻¹ * |v i - c * y i| ≤ c⁻¹ * (u * (c * |y i|)) := mul_le_mul_of_nonneg_left this (inv_pos.2 hc).le
        _ = u * |y i| := by field_simp
    rw [norm2_smul, abs_of_nonneg h0, norm2_abs] at this
    exact this.trans (mul_le_mul_of_nonneg_left ny h0)
  rw [key]
  have t1 := norm2_add (A *ᵥ d) (-sg • e1 + sg • e2)
  have t2 := norm2_add (-sg • e1) (sg • e2)
  rw [norm2_smul, norm2_smul, abs_neg, hsg, one_mul, one_mul] at t2
  nlinarith

end

/-- the Rayleigh quotient minimises the residual -/
theorem residual_minF {A : Matrix (Fin n) (Fin n) ℝ} {v : Fin n → ℝ} (hv : 0 < v ⬝ᵥ v) (mu : ℝ) :
    norm2 (A *ᵥ v - ((v ⬝ᵥ (A *ᵥ v)) / (v ⬝ᵥ v)) • v) ≤ norm2 (A *ᵥ v - mu • v) := by
  refine Real.sqrt_le_sqrt ?_
  have e : ∀ t : ℝ, (A *ᵥ v - t • v) ⬝ᵥ (A *ᵥ v - t • v)
      = (A *ᵥ v) ⬝ᵥ (A *ᵥ v) - 2 * t * (v ⬝ᵥ (A *ᵥ v)) + t ^ 2 * (v ⬝ᵥ v) := by
    intro t
    rw [sub_dotProduct, dotProduct_sub, dotProduct_sub, smul_dotProduct, smul_dotProduct, dotProduct_smul,
      dotProduct_smul, dotProduct_comm (A *ᵥ v) v]
    simp only [smul_eq_mul]; ring
  rw [e, e]
  set p := v ⬝ᵥ (A *ᵥ v)
  set N := v ⬝ᵥ v
  have h1 : p = p / N * N := by field_simp
  set q := p / N
  rw [h1]
  nlinarith [mul_nonneg (sq_nonneg (mu - q)) hv.le]

/-- a symmetric matrix has an eigenvalue within `‖Av - qv‖ / ‖v‖` of `q` -/
theorem eigenvalue_nearF {A : Matrix (Fin n) (Fin n) ℝ} (hA : A.IsHermitian) {v : Fin n → ℝ} (hv : 0 < v ⬝ᵥ v) (q : ℝ) :
    ∃ i, |hA.eigenvalues i - q| * norm2 v ≤ norm2 (A *ᵥ v - q • v) := by
  by_contra hcon
  push Not at hcon
  set B := norm2 (A *ᵥ v - q • v) with hB
  have hB0 : 0 ≤ B := norm2_nonneg _
  have e1 : B * B = ∑ i, (hA.eigenvalues i - q) ^ 2 * (eigVec hA i ⬝ᵥ v) ^ 2 := by
    rw [hB, norm2_sq, eig_parseval hA]
    refine Finset.sum_congr rfl fun i _ => ?_
    rw [dotProduct_sub, eig_mulVec, dotProduct_smul, smul_eq_mul]
    ring
  have e2 : v ⬝ᵥ v = ∑ i, (eigVec hA i ⬝ᵥ v) ^ 2 := by
    rw [eig_parseval hA]
    exact Finset.sum_congr rfl fun i _ => by ring
  have h1 : ∀ i, B * B < (hA.eigenvalues i - q) ^ 2 * (v ⬝ᵥ v) := by
    intro i
    have := mul_self_lt_mul_self hB0 (hcon i)
    rw [← norm2_sq, ← sq_abs (hA.eigenvalues i - q)]
    linarith
  have h2 : (B * B) * (v ⬝ᵥ v) < (v ⬝ᵥ v) * (B * B) := by
    calc (B * B) * (v ⬝ᵥ v) = ∑ i, (B * B) * (eigVec hA i ⬝ᵥ v) ^ 2 := by rw [e2, Finset.mul_sum]
      _ < ∑ i, ((hA.eigenvalues i - q) ^ 2 * (v ⬝ᵥ v)) * (eigVec hA i ⬝ᵥ v) ^ 2 := by
        refine Finset.sum_lt_sum (fun i _ => mul_le_mul_of_nonneg_right (h1 i).le (sq_nonneg _)) ?_
        rw [e2] at hv
        obtain ⟨i, -, hi⟩ := Finset.exists_ne_zero_of_sum_ne_zero hv.ne'
        exact ⟨i, Finset.mem_univ i, mul_lt_mul_of_pos_right (h1 i) (lt_of_le_of_ne (sq_nonneg _) (Ne.symm hi))⟩
      _ = (v ⬝ᵥ v) * (B * B) := by
        rw [e1, Finset.mul_sum]
        exact Finset.sum_congr rfl fun i _ => by ring
  linarith [mul_comm (B * B) (v ⬝ᵥ v)]

theorem pow_add_le (h0 : 0 ≤ u) {k : ℕ} {h : ℝ} (hk : k * u ≤ h) : (1 + u) ^ k * (1 - h) ≤ 1 := by
  have h1 : ∀ m : ℕ, (1 + u) ^ m * (1 - m * u) ≤ 1 := by
    intro m
    induction m with
    | zero => simp
    | succ m ih =>
      have hp : 0 ≤ (1 + u) ^ m := pow_nonneg (by linarith) m
      have e : (1 + u) ^ (m + 1) * (1 - (m + 1 : ℕ) * u) = (1 + u) ^ m * (1 - m * u) - (1 + u) ^ m * ((m + 1) * (u * u)) := by
        push_cast; ring
      rw [e]
      have : 0 ≤ (1 + u) ^ m * ((m + 1) * (u * u)) := by positivity
      linarith
  have := h1 k
  have hp : 0 ≤ (1 + u) ^ k := pow_nonneg (by linarith) k
  nlinarith

theorem pow_sub_ge (hu : u < 1) {k : ℕ} {h : ℝ} (hk : k * u ≤ h) : 1 - h ≤ (1 - u) ^ k := by
  have := one_add_mul_le_pow (show (-2 : ℝ) ≤ -u by linarith) k
  rw [show (1 : ℝ) + -u = 1 - u by ring] at this
  linarith

end Ellalgo
