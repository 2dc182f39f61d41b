import Verif.Props.RoundedPower
import Verif.Lib.Bin53

/-! A run that meets the hypotheses of C97, in `f64` rounding (`bin53`). -/

namespace Ellalgo.ExPowerFl
open Ellalgo Matrix

noncomputable def two : Fl bin53 := ⟨2⟩
/-- `diag(2, 1)` -/
noncomputable def a : Arr (Fl bin53) := ⟨[two, 0, 0, 1], 2, 2⟩
/-- start `(1, 0)` -/
noncomputable def x : Arr (Fl bin53) := ⟨[1, 0], 2, 0⟩
/-- ten iterations, tolerance `1/4` -/
noncomputable def opts : Options (Fl bin53) := ⟨10, ⟨1 / 4⟩⟩

theorem r0 : bin53.rnd 0 = 0 := bin53.zero
theorem r1 : bin53.rnd 1 = 1 := bin53.one
theorem r2 : bin53.rnd 2 = 2 := bin53.two
theorem r4 : bin53.rnd 4 = 4 := by
  have := bin53.double 2
  rw [bin53.two] at this
  norm_num at this
  exact this
theorem rh : bin53.rnd (1 / 2) = 1 / 2 := by rw [bin53.half, r1]

theorem shape_a : a.IsMatShape 2 2 := ⟨rfl, rfl, rfl⟩
theorem shape_x : x.IsVecShape 2 := ⟨rfl, rfl, rfl⟩

theorem m00 : (0 : Fl bin53) * 0 = 0 := Fl.ext (by simp [r0])
theorem m01 : (0 : Fl bin53) * 1 = 0 := Fl.ext (by simp [r0])
theorem m10 : (1 : Fl bin53) * 0 = 0 := Fl.ext (by simp [r0])
theorem m11 : (1 : Fl bin53) * 1 = 1 := Fl.ext (by simp [r1])
theorem m20 : two * 0 = 0 := Fl.ext (by simp [r0])
theorem m21 : two * 1 = two := Fl.ext (by simp [two, r2])
theorem m12 : (1 : Fl bin53) * two = two := Fl.ext (by simp [two, r2])
theorem m02 : (0 : Fl bin53) * two = 0 := Fl.ext (by simp [two, r0])
theorem m22 : two * two = ⟨4⟩ := Fl.ext (by norm_num [two, r4])
theorem a00 : (0 : Fl bin53) + 0 = 0 := Fl.ext (by simp [r0])
theorem a01 : (0 : Fl bin53) + 1 = 1 := Fl.ext (by simp [r1])
theorem a10 : (1 : Fl bin53) + 0 = 1 := Fl.ext (by simp [r1])
theorem a02 : (0 : Fl bin53) + two = two := Fl.ext (by simp [two, r2])
theorem a20 : two + 0 = two := Fl.ext (by simp [two, r2])
theorem a04 : (0 : Fl bin53) + ⟨4⟩ = ⟨4⟩ := Fl.ext (by simp [r4])
theorem a40 : (⟨4⟩ : Fl bin53) + 0 = ⟨4⟩ := Fl.ext (by simp [r4])
theorem s00 : (0 : Fl bin53) - 0 = 0 := Fl.ext (by simp [r0])
theorem s11 : (1 : Fl bin53) - 1 = 0 := Fl.ext (by simp [r0])
theorem q1 : Scalar.sqrt (1 : Fl bin53) = 1 := Fl.ext (by simp [r1])
theorem q4 : Scalar.sqrt (⟨4⟩ : Fl bin53) = two := Fl.ext (by
  have : √(4 : ℝ) = 2 := by rw [show (4 : ℝ) = 2 ^ 2 by norm_num]; exact Real.sqrt_sq (by norm_num)
  simp [two, this, r2])
theorem d11 : (1 : Fl bin53) / 1 = 1 := Fl.ext (by simp [r1])
theorem two_half : two * (1 / two) = 1 := Fl.ext (by
  simp only [two, Fl.mul_val, Fl.div_val, Fl.one_val, rh]
  norm_num [r1])
theorem zero_mul' (y : Fl bin53) : 0 * y = 0 := Fl.ext (by simp [r0])

theorem dotMv_x : a.dotMv x = .ok ⟨[two, 0], 2, 0⟩ := by
  have : a.dotMv x = .ok ⟨[0 + two * 1 + 0 * 0, 0 + 0 * 1 + 1 * 0], 2, 0⟩ := rfl
  rw [this, m21, m00, m01, m10, a02, a20, a00, a00]
theorem norm_x : normalize2 x = .ok x := by
  have : normalize2 x = .ok ⟨[1 * (1 / Scalar.sqrt (0 + 1 * 1 + 0 * 0)), 0 * (1 / Scalar.sqrt (0 + 1 * 1 + 0 * 0))], 2, 0⟩ := rfl
  rw [this, m11, m00, a01, a10, q1, d11, m11, m01]
  rfl
theorem norm_y : normalize2 (⟨[two, 0], 2, 0⟩ : Arr (Fl bin53)) = .ok x := by
  have : normalize2 (⟨[two, 0], 2, 0⟩ : Arr (Fl bin53)) =
    .ok ⟨[two * (1 / Scalar.sqrt (0 + two * two + 0 * 0)), 0 * (1 / Scalar.sqrt (0 + two * two + 0 * 0))], 2, 0⟩ := rfl
  rw [this, m22, m00, a04, a40, q4, two_half, zero_mul']
  rfl
theorem close_x : closeUpToSign opts.tolerance x x = .ok true := by
  have hd : x.sub x = .ok ⟨[1 - 1, 0 - 0], 2, 0⟩ := rfl
  have hz : Scalar.abs (0 : Fl bin53) = 0 := Fl.ext (abs_zero (α := ℝ))
  have hn : normL1 (⟨[0, 0], 2, 0⟩ : Arr (Fl bin53)) = 0 := by
    have : normL1 (⟨[0, 0], 2, 0⟩ : Arr (Fl bin53)) = 0 + Scalar.abs 0 + Scalar.abs 0 := rfl
    rw [this, hz, a00, a00]
  have hle : Scalar.le (0 : Fl bin53) opts.tolerance = true := decide_eq_true (by show (0 : ℝ) ≤ 1 / 4; norm_num)
  rw [s11, s00] at hd
  simp only [closeUpToSign, hd, Res.ok_bind, hn, hle, if_true]
theorem rayleigh_x : rayleigh a x = .ok two := by
  have : x.dot (⟨[two, 0], 2, 0⟩ : Arr (Fl bin53)) = .ok (0 + 1 * two + 0 * 0) := rfl
  rw [m12, m00, a02, a20] at this
  simp only [rayleigh, dotMv_x, Res.ok_bind, this]

/-- the run stops at the first test, with value `2` and the vector `(1, 0)` -/
theorem run : powerIteration a x opts = .ok ((two, 0), x) := by
  have h : opts.maxIters = 9 + 1 := rfl
  simp only [powerIteration, norm_x, Res.ok_bind, h, powerLoop, dotMv_x, norm_y, close_x, if_true, rayleigh_x]

theorem x_ne : x.flVec 2 ≠ 0 := fun h => one_ne_zero (α := ℝ) (congrFun h 0)
theorem small : ((2 : ℕ) + 5 : ℝ) * (2 : ℝ) ^ (-53 : ℤ) ≤ 1 / 16 := by norm_num

theorem a_eq : a.flMat 2 = diagonal ![2, 1] := by
  ext i j
  fin_cases i <;> fin_cases j <;> rfl

/-- the norm of `|a|` is at most `2` -/
theorem hop (w : Fin 2 → ℝ) : norm2 (absMat (a.flMat 2) *ᵥ w) ≤ 2 * norm2 w := by
  have h : absMat (a.flMat 2) = diagonal ![2, 1] := by
    rw [a_eq]
    ext i j
    fin_cases i <;> fin_cases j <;> simp [absMat]
  rw [h, ← abs_of_pos (two_pos : (0 : ℝ) < 2), ← norm2_smul, abs_of_pos (two_pos : (0 : ℝ) < 2)]
  refine Real.sqrt_le_sqrt ?_
  simp only [dotProduct, Fin.sum_univ_two, mulVec_diagonal, Pi.smul_apply, smul_eq_mul]
  simp
  nlinarith [sq_nonneg (w 1)]

/-- C97: all hypotheses are met, and a true eigenvalue lies within `3/4` of the value `2` -/
example : ∃ (h : (a.flMat 2).IsHermitian) (i : Fin 2), |h.eigenvalues i - 2| ≤ 3 / 4 := by
  have h : (a.flMat 2).IsHermitian := by rw [a_eq]; exact isHermitian_diagonal _
  obtain ⟨i, hi⟩ := C97_eigenvalue_near (n := 2) two_pos small shape_a h shape_x run (by show 0 < 10; norm_num) x_ne two_pos.le hop
  refine ⟨h, i, le_trans hi ?_⟩
  show (2 : ℝ) * ((1 + 3 * (((2 : ℕ) + 5) * (2 : ℝ) ^ (-53 : ℤ))) * (1 / 4) + 7 * (((2 : ℕ) + 5) * (2 : ℝ) ^ (-53 : ℤ))) ≤ 3 / 4
  norm_num

/-- C97: the residual of that run -/
example : norm2 (a.flMat 2 *ᵥ x.flVec 2 - two.val • x.flVec 2) ≤
    2 * ((1 + 3 * (((2 : ℕ) + 5) * (2 : ℝ) ^ (-53 : ℤ))) * opts.tolerance.val + 7 * (((2 : ℕ) + 5) * (2 : ℝ) ^ (-53 : ℤ))) :=
  C97_residual (n := 2) two_pos small shape_a shape_x run (by show 0 < 10; norm_num) x_ne two_pos.le hop

end Ellalgo.ExPowerFl
