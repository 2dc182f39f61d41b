import Verif.Props.CgHighPrecision
import Verif.Lib.BinP

/-! C116 on the system `2 x + y = 1`, `x + 2 y = 0` with the tolerance `1/100`. -/

namespace Ellalgo.ExCgHigh
open Ellalgo Matrix
variable {u : ℝ} (R : Rounding u)

noncomputable def a : Arr (Fl R) := ⟨[⟨2⟩, ⟨1⟩, ⟨1⟩, ⟨2⟩], 2, 2⟩
noncomputable def b : Arr (Fl R) := ⟨[⟨1⟩, ⟨0⟩], 2, 0⟩

theorem mat_a : (a R).flMat 2 = !![2, 1; 1, 2] := by
  funext i j; fin_cases i <;> fin_cases j <;> rfl
theorem vec_b : (b R).flVec 2 = ![1, 0] := by
  funext i; fin_cases i <;> rfl

/-- C116: the hypotheses are met: from some precision on, two steps are enough for a point within `1/50` of the solution -/
example : ∃ u0 > 0, ∀ u ≤ u0, ∀ R : Rounding u, ∃ x, conjugateGradient (a R) (b R) none ⟨1 / 100⟩ 2 = .ok (.ok x) ∧
    norm2 (x.flVec 2 - ![2 / 3, -1 / 3]) ≤ 1 / 50 := by
  obtain ⟨u0, h0, h⟩ := C116_cg_solves (n := 2) (lo := 1) (M := 2) (ρ := 1) (tol0 := 1 / 100) (ε := 1 / 100) (by norm_num)
    one_pos one_pos (by norm_num) (by norm_num)
  refine ⟨u0, h0, fun u hu R => ?_⟩
  obtain ⟨x, h1, -, -, h2⟩ := h u hu R (a R) (b R) none ⟨1 / 100⟩ 2 ⟨rfl, rfl, rfl⟩ ⟨rfl, rfl, rfl⟩ (fun _ h => nomatch h)
    (by rw [mat_a]; ext i j; fin_cases i <;> fin_cases j <;> rfl)
    (by
      intro v
      rw [mat_a]
      simp only [dotProduct, mulVec, Fin.sum_univ_two, of_apply, cons_val_zero, cons_val_one]
      nlinarith [sq_nonneg (v 0 + v 1)])
    (by rw [mat_a]; intro i j; fin_cases i <;> fin_cases j <;> norm_num)
    (by rw [vec_b]; intro i; fin_cases i <;> norm_num)
    (by intro i; show |(0 : ℝ)| ≤ 2; norm_num)
    (by
      have e : (a R).flMat 2 *ᵥ flStart 2 (none : Option (Arr (Fl R))) = 0 := mulVec_zero _
      rw [resNorm, e, vec_b, sub_zero]
      simp [dotProduct, Fin.sum_univ_two])
    (show (1 : ℝ) / 100 ≤ 1 / 100 from le_rfl) le_rfl
  refine ⟨x, h1, (h2 ![2 / 3, -1 / 3] ?_).trans ?_⟩
  · rw [mat_a, vec_b]
    funext i
    fin_cases i <;> simp [mulVec, dotProduct, Fin.sum_univ_two] <;> norm_num
  · show ((1 : ℝ) / 100 + 1 / 100) / 1 ≤ 1 / 50
    norm_num

/-- and there are such arithmetics: binary floating point with enough digits -/
example : ∃ q, ∃ x, conjugateGradient (a (binP q)) (b (binP q)) none ⟨1 / 100⟩ 2 = .ok (.ok x) := by
  obtain ⟨u0, h0, h⟩ := C116_cg_solves (n := 2) (lo := 1) (M := 2) (ρ := 1) (tol0 := 1 / 100) (ε := 1 / 100) (by norm_num)
    one_pos one_pos (by norm_num) (by norm_num)
  obtain ⟨q, hq⟩ := exists_pow_lt_of_lt_one h0 (show (1 / 2 : ℝ) < 1 by norm_num)
  have hq' : (2 : ℝ) ^ (-((q : ℤ) + 1)) ≤ u0 := by
    refine le_trans ?_ hq.le
    rw [_root_.zpow_neg, show ((q : ℤ) + 1) = ((q + 1 : ℕ) : ℤ) by push_cast; ring, zpow_natCast, pow_succ, one_div, inv_pow, mul_inv]
    have : (0 : ℝ) < (2 ^ q)⁻¹ := by positivity
    linarith
  obtain ⟨x, h1, -⟩ := h _ hq' (binP q) (a _) (b _) none ⟨1 / 100⟩ 2 ⟨rfl, rfl, rfl⟩ ⟨rfl, rfl, rfl⟩ (fun _ h => nomatch h)
    (by rw [mat_a]; ext i j; fin_cases i <;> fin_cases j <;> rfl)
    (by
      intro v
      rw [mat_a]
      simp only [dotProduct, mulVec, Fin.sum_univ_two, of_apply, cons_val_zero, cons_val_one]
      nlinarith [sq_nonneg (v 0 + v 1)])
    (by rw [mat_a]; intro i j; fin_cases i <;> fin_cases j <;> norm_num)
    (by rw [vec_b]; intro i; fin_cases i <;> norm_num)
    (by intro i; show |(0 : ℝ)| ≤ 2; norm_num)
    (by
      have e : (a (binP q)).flMat 2 *ᵥ flStart 2 (none : Option (Arr (Fl (binP q)))) = 0 := mulVec_zero _
      rw [resNorm, e, vec_b, sub_zero]
      simp [dotProduct, Fin.sum_univ_two])
    (show (1 : ℝ) / 100 ≤ 1 / 100 from le_rfl) le_rfl
  exact ⟨q, x, h1⟩

end Ellalgo.ExCgHigh
