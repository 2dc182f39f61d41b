import Verif.Props.CgKrylov
import Mathlib.Algebra.Order.Star.Real

/-! Concrete systems that meet the hypotheses of C80. -/

namespace Ellalgo
open Matrix
namespace ExCg

/-- the system of the repository's test: `2 ‖v‖² ≤ vᵀ A v ≤ 5 ‖v‖²` -/
theorem a2_quad (v : Fin 2 → ℝ) : 2 * (v ⬝ᵥ v) ≤ v ⬝ᵥ (a2.toMat 2 2 *ᵥ v) ∧
    v ⬝ᵥ (a2.toMat 2 2 *ᵥ v) ≤ 5 * (v ⬝ᵥ v) := by
  rw [a2_mat]
  simp only [dotProduct, mulVec, Fin.sum_univ_two, of_apply, cons_val', cons_val_zero, cons_val_one, cons_val_fin_one]
  constructor <;> nlinarith [sq_nonneg (v 0 + v 1), sq_nonneg (v 0 - v 1), sq_nonneg (v 0), sq_nonneg (v 1)]

theorem a2_start : ((none : Option (Arr ℝ)).getD (Arr.new 2)).toVec 2 = 0 := rv_new.2

/-- two iterations reach the tolerance 1 (C80_rate), and then the error is below 1/2 (C80_error_bound) -/
example : ∃ x, conjugateGradient a2 b2 none 1 2 = .ok (.ok x) ∧
    ∀ xs, a2.toMat 2 2 *ᵥ xs = b2.toVec 2 → √((x.toVec 2 - xs) ⬝ᵥ (x.toVec 2 - xs)) < 1 / 2 := by
  obtain ⟨x, hx⟩ := C80_rate (tol := 1) (maxIter := 2) (lo := 2) (hi := 5) a2_shape b2_shape (fun y h => by simp at h)
    a2_posDef one_pos start_not_exact two_pos one_le_two a2_quad (by
      have e : resNorm (a2.toMat 2 2) (b2.toVec 2) (((none : Option (Arr ℝ)).getD (Arr.new 2)).toVec 2) = √5 := by
        rw [resNorm, a2_start, mulVec_zero, sub_zero, b2_vec]
        congr 1
        simp [dotProduct, Fin.sum_univ_two]
        norm_num
      rw [e]
      have h5 : √5 ^ 2 = (5 : ℝ) := Real.sq_sqrt (by norm_num)
      have h2 : √2 ^ 2 = (2 : ℝ) := Real.sq_sqrt (by norm_num)
      have h50 : (0 : ℝ) ≤ √5 := Real.sqrt_nonneg _
      have h20 : (0 : ℝ) ≤ √2 := Real.sqrt_nonneg _
      have h52 : √(5 / 2 : ℝ) ≤ 2 := by
        rw [Real.sqrt_le_left (by norm_num)]; norm_num
      have h54 : √5 < (9 / 4 : ℝ) := by nlinarith
      have h55 : (2 : ℝ) < √5 := by nlinarith
      have h24 : (7 / 5 : ℝ) < √2 := by nlinarith
      have hth : (√5 - √2) / (√5 + √2) ≤ (1 / 4 : ℝ) := by
        rw [div_le_div_iff₀ (by linarith) (by norm_num)]
        nlinarith
      have hth0 : 0 ≤ (√5 - √2) / (√5 + √2) := div_nonneg (by nlinarith) (by linarith)
      have hth2 : ((√5 - √2) / (√5 + √2)) ^ 2 ≤ (1 / 16 : ℝ) := by nlinarith
      calc 2 * √(5 / 2) * ((√5 - √2) / (√5 + √2)) ^ 2 * √5 ≤ 2 * 2 * (1 / 16) * (9 / 4) := by gcongr
        _ < 1 := by norm_num)
  exact ⟨x, hx, fun xs hxs => C80_error_bound a2_shape b2_shape (fun y h => by simp at h) two_pos
    (fun v => (a2_quad v).1) hxs hx⟩

/-- the identity matrix of size 3 has one eigenvalue, so one iteration is enough -/
example : ∃ x, conjugateGradient (⟨[1, 0, 0, 0, 1, 0, 0, 0, 1], 3, 3⟩ : Arr ℝ) ⟨[1, 2, 3], 3, 0⟩ none (1 / 1000) 1
    = .ok (.ok x) := by
  have hI : (⟨[1, 0, 0, 0, 1, 0, 0, 0, 1], 3, 3⟩ : Arr ℝ).toMat 3 3 = 1 := by
    ext i j; fin_cases i <;> fin_cases j <;> simp [Arr.toMat, Arr.mat]
  have hpd : ((⟨[1, 0, 0, 0, 1, 0, 0, 0, 1], 3, 3⟩ : Arr ℝ).toMat 3 3).PosDef := by rw [hI]; exact PosDef.one
  refine C80_distinct_eigenvalues (n := 3) ⟨rfl, rfl, rfl⟩ ⟨rfl, rfl, rfl⟩ (fun y h => by simp at h) hpd (by norm_num)
    ?_ ?_
  · rw [hI, one_mulVec]
    intro h
    have h0 := congrFun h 0
    have : ((none : Option (Arr ℝ)).getD (Arr.new 3)).toVec 3 = 0 := rv_new.2
    rw [this] at h0
    simp [Arr.toVec, Arr.vec] at h0
  · have h1 : ∀ i, hpd.1.eigenvalues i = 1 := by
      intro i
      have := eig_bounds (lo := 1) (hi := 1) hpd.1 (fun v => by rw [hI, one_mulVec]; simp) i
      linarith [this.1, this.2]
    refine Finset.card_le_one.mpr ?_
    intro x hx y hy
    obtain ⟨i, -, rfl⟩ := Finset.mem_image.mp hx
    obtain ⟨j, -, rfl⟩ := Finset.mem_image.mp hy
    rw [h1, h1]

end ExCg
end Ellalgo
