import Verif.Props.RoundedLmiConverge
import Verif.Props.RoundedBsearchSolve
import Mathlib.Analysis.Complex.ExponentialBounds

/-! A linear matrix inequality that C108 solves: `[[2 - y1, -y2], [-y2, y1]] ≻ 0`, the open disc of radius one about `(1, 0)`. -/

namespace Ellalgo.ExLmiFl
open Ellalgo Matrix Finset
open scoped ComplexOrder
variable {u : ℝ} {R : Rounding u}

noncomputable def F1 : Arr (Fl R) := ⟨[1, 0, 0, -1], 2, 2⟩
noncomputable def F2 : Arr (Fl R) := ⟨[0, 1, 1, 0], 2, 2⟩
noncomputable def B : Arr (Fl R) := ⟨[⟨2⟩, 0, 0, 0], 2, 2⟩
noncomputable def o : LMIOracle (Fl R) := LMIOracle.new [F1, F2] B

theorem F1_mat : (F1 (R := R)).flMat 2 = !![1, 0; 0, -1] := by
  ext i j
  fin_cases i <;> fin_cases j <;> rfl
theorem F2_mat : (F2 (R := R)).flMat 2 = !![0, 1; 1, 0] := by
  ext i j
  fin_cases i <;> fin_cases j <;> rfl
theorem B_mat : (B (R := R)).flMat 2 = !![2, 0; 0, 0] := by
  ext i j
  fin_cases i <;> fin_cases j <;> rfl
theorem at0 : flMatAt 2 [F1 (R := R), F2] 0 = !![1, 0; 0, -1] := F1_mat
theorem at1 : flMatAt 2 [F1 (R := R), F2] 1 = !![0, 1; 1, 0] := F2_mat
theorem syms : FlSymMats 2 2 [F1 (R := R), F2] := by
  refine ⟨rfl, fun f hf => ?_⟩
  simp only [List.mem_cons, List.not_mem_nil, or_false] at hf
  rcases hf with rfl | rfl
  · refine ⟨⟨rfl, rfl, rfl⟩, ?_⟩
    rw [F1_mat, IsSymm]
    ext i j
    fin_cases i <;> fin_cases j <;> rfl
  · refine ⟨⟨rfl, rfl, rfl⟩, ?_⟩
    rw [F2_mat, IsSymm]
    ext i j
    fin_cases i <;> fin_cases j <;> rfl

theorem lmi_at (y : Fin 2 → ℝ) : flLmiMat 2 [F1 (R := R), F2] B y = !![2 - y 0, -y 1; -y 1, y 0] := by
  unfold flLmiMat flLinMat
  rw [B_mat, Fin.sum_univ_two]
  simp only [Fin.val_zero, Fin.val_one, at0, at1]
  ext i j
  fin_cases i <;> fin_cases j <;> simp

/-- the points within 1/4 of `(1, 0)` have margin 1/2 -/
theorem margin {y : Fin 2 → ℝ} (hy : y ∈ ball (![1, 0] : Fin 2 → ℝ) (1 / 4)) :
    (flLmiMat 2 [F1 (R := R), F2] B y - (1 / 2 : ℝ) • (1 : Matrix (Fin 2) (Fin 2) ℝ)).PosSemidef := by
  have a := ball_coord (by norm_num) hy 0
  have b := ball_coord (by norm_num) hy 1
  simp only [cons_val_zero, cons_val_one, sub_zero] at a b
  rw [abs_le] at a b
  rw [lmi_at]
  refine PosSemidef.of_dotProduct_mulVec_nonneg ?_ fun v => ?_
  · rw [IsHermitian, conjTranspose_eq_transpose_of_trivial]
    ext i j
    fin_cases i <;> fin_cases j <;> simp
  · rw [star_trivial]
    simp only [dotProduct, mulVec, Fin.sum_univ_two, Matrix.sub_apply, Matrix.smul_apply, one_apply, of_apply, cons_val', cons_val_zero, cons_val_one,
      cons_val_fin_one, smul_eq_mul, Fin.isValue, if_true, zero_ne_one, one_ne_zero, if_false]
    have c1 := mul_nonneg (sub_nonneg.2 a.1) (sq_nonneg (v 1))
    have c2 := mul_nonneg (sub_nonneg.2 a.2) (sq_nonneg (v 0))
    have c3 := mul_nonneg (sub_nonneg.2 b.1) (sq_nonneg (v 0 - v 1))
    have c4 := mul_nonneg (sub_nonneg.2 b.2) (sq_nonneg (v 0 + v 1))
    nlinarith

/-- **C108** (example)  For every `η > 0`, in every arithmetic of high enough precision the feasibility loop started at the disc of radius two
about the origin, with the default tolerance, finds a point of `[[2 - y1, -y2], [-y2, y1]] ≻ -η I` in at most 66 cuts.  The
origin, the centre of the start, does not meet the strict inequality. -/
theorem C108_example (η : ℝ) (hη : 0 < η) : ∃ u0 > 0, ∀ u ≤ u0, ∀ (R : Rounding u) (e : Ell (Fl R)),
    Ell.newWithScalar ⟨4⟩ (Arr.ofList [0, 0]) = .ok e → ∃ x k o' e',
      cuttingPlaneFeas LMIOracle.oracle Ell.space (LMIOracle.new [F1, F2] B) e ⟨2000, ⟨1 / 10 ^ 20⟩⟩ = .ok ((some x, k), o', e') ∧
      x.IsVecShape 2 ∧ (!![2 - x.flVec 2 0, -x.flVec 2 1; -x.flVec 2 1, x.flVec 2 0] + η • (1 : Matrix (Fin 2) (Fin 2) ℝ)).PosDef ∧ k ≤ 66 := by
  obtain ⟨u0, h0, h⟩ := C108_lmi_feasible 2 2 67 1 4 (1 / 4) 1 (1 / 2) η 1 2 le_rfl one_pos (by norm_num) (by norm_num) (by norm_num) hη
  have hlog : 2 * (((2 : Nat) : ℝ) + 1) * Real.log (4 ^ 2 * ((4 : ℝ) • (1 : Matrix (Fin 2) (Fin 2) ℝ)).det / ((1 / 4 : ℝ) ^ 2) ^ 2) < 67 := by
    rw [show (4 : ℝ) ^ 2 * ((4 : ℝ) • (1 : Matrix (Fin 2) (Fin 2) ℝ)).det / ((1 / 4 : ℝ) ^ 2) ^ 2 = 2 ^ 16 by simp; norm_num, Real.log_pow]
    have := Real.log_two_lt_d9
    push_cast
    linarith
  refine ⟨u0, h0, fun u hu R e he => ?_⟩
  obtain ⟨e', h1, h2, h4, -, h6, h7, h8⟩ := disc_new_fl (R := R) ⟨4⟩
  rw [he] at h1
  obtain rfl : e = e' := by simpa using h1
  obtain ⟨x, k, o', e', a1, a2, a3, a4⟩ := h u hu R [F1, F2] B (LMIOracle.new [F1, F2] B) ![1, 0] e ⟨2000, ⟨1 / 10 ^ 20⟩⟩ syms ⟨rfl, rfl, rfl⟩
    (by
      rw [B_mat, IsSymm]
      ext i j
      fin_cases i <;> fin_cases j <;> rfl) (by
      intro k i j
      fin_cases k
      · show |flMatAt 2 [F1 (R := R), F2] 0 i j| ≤ 1
        rw [at0]
        fin_cases i <;> fin_cases j <;> simp
      · show |flMatAt 2 [F1 (R := R), F2] 1 i j| ≤ 1
        rw [at1]
        fin_cases i <;> fin_cases j <;> simp) (by
      intro i j
      rw [B_mat]
      fin_cases i <;> fin_cases j <;> simp) ⟨rfl, rfl, ⟨rfl, ⟨rfl, rfl, rfl⟩, ⟨rfl, rfl, rfl⟩⟩⟩ h2 h4 (by rw [h6])
    (by rw [h7]; exact PosDef.one) (by
      rw [h7]
      intro i j
      fin_cases i <;> fin_cases j <;> simp) (by
      refine Real.sqrt_le_iff.2 ⟨zero_le_one, ?_⟩
      simp [dotProduct, Fin.sum_univ_two]) (by
      intro y hy
      have a := ball_coord (by norm_num) hy 0
      have b := ball_coord (by norm_num) hy 1
      simp only [cons_val_zero, cons_val_one, sub_zero] at a b
      rw [abs_le] at a b
      refine disc_ellipsoid h7 h8 ?_
      nlinarith) (fun y hy => margin hy) (by norm_num) (by rw [h7]; exact hlog) (by norm_num)
  rw [lmi_at] at a3
  refine ⟨x, k, o', e', a1, a2, a3, ?_⟩
  rw [h7] at a4
  have : (k : ℝ) < 67 := a4.trans_lt hlog
  exact Nat.le_of_lt_succ (by exact_mod_cast this)

/-- C108: there are such arithmetics -/
example : ∃ (u : ℝ) (R : Rounding u) (e : Ell (Fl R)) (x : Arr (Fl R)) (k : Nat) (o' : LMIOracle (Fl R)) (e' : Ell (Fl R)),
    cuttingPlaneFeas LMIOracle.oracle Ell.space (LMIOracle.new [F1, F2] B) e ⟨2000, ⟨1 / 10 ^ 20⟩⟩ = .ok ((some x, k), o', e') ∧
      (!![2 - x.flVec 2 0, -x.flVec 2 1; -x.flVec 2 1, x.flVec 2 0] + (1 / 1000 : ℝ) • (1 : Matrix (Fin 2) (Fin 2) ℝ)).PosDef := by
  obtain ⟨u0, h0, h⟩ := C108_example (1 / 1000) (by norm_num)
  obtain ⟨u, hu, R, -⟩ := fine_int u0 h0
  obtain ⟨e, he, -⟩ := disc_new_fl (R := R) ⟨4⟩
  obtain ⟨x, k, o', e', a1, a2, a3, a4⟩ := h u hu R e he
  exact ⟨u, R, e, x, k, o', e', a1, a3⟩

end Ellalgo.ExLmiFl
