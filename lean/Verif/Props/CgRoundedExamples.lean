import Verif.Props.CgRounded
import Verif.Lib.Bin53

/-! C98 in `f64` rounding (`bin53`): the system `3 x = 1`. -/

namespace Ellalgo.ExCgFl
open Ellalgo Matrix

noncomputable def three : Fl bin53 := ⟨3⟩
/-- the double nearest to `1/3` -/
noncomputable def third : Fl bin53 := ⟨6004799503160661 * (2 : ℝ) ^ (-54 : ℤ)⟩
/-- the matrix `(3)` -/
noncomputable def a : Arr (Fl bin53) := ⟨[three], 1, 1⟩
/-- the right-hand side `(1)` -/
noncomputable def b : Arr (Fl bin53) := ⟨[1], 1, 0⟩

theorem shape_a : a.IsMatShape 1 1 := ⟨rfl, rfl, rfl⟩
theorem shape_b : b.IsVecShape 1 := ⟨rfl, rfl, rfl⟩

theorem r0 : bin53.rnd 0 = 0 := bin53.zero
theorem r1 : bin53.rnd 1 = 1 := bin53.one
theorem r3 : bin53.rnd 3 = 3 := by
  have := rnd53_rep 3 0 (by norm_num)
  show rnd53 3 = 3
  simpa using this
theorem rthird : bin53.rnd (1 / 3) = third.val := by
  have := rnd53_eq (x := 1 / 3) (-2) 6004799503160661 (by rw [abs_of_pos] <;> norm_num) (by rw [abs_of_pos] <;> norm_num)
    (by rw [abs_lt]; norm_num)
  rw [show (-2 : ℤ) - 52 = -54 by norm_num] at this
  exact_mod_cast this
theorem rthird' : bin53.rnd third.val = third.val := by rw [← rthird]; exact bin53.idem _
/-- three times that double is halfway between `1 - 2⁻⁵³` and `1`, and the tie goes to `1` -/
theorem rone : bin53.rnd (third.val * 3) = 1 := by
  have hv : third.val * 3 = 1 - (2 : ℝ) ^ (-54 : ℤ) := by norm_num [third]
  have he : expo53 (third.val * 3) = -1 - 52 := by
    rw [hv]
    exact expo53_eq (by rw [abs_of_pos] <;> norm_num) (by rw [abs_of_pos] <;> norm_num)
  have ht : roundEven (third.val * 3 / (2 : ℝ) ^ (-1 - 52 : ℤ)) = 2 ^ 53 := by
    rw [roundEven_tie (k := 2 ^ 53 - 1) (by rw [hv]; norm_num)]
    rw [if_neg (by decide)]
    norm_num
  show rnd53 _ = 1
  unfold rnd53
  rw [he, ht]
  norm_num

theorem m30 : three * 0 = 0 := Fl.ext (by simp [r0])
theorem m31 : three * 1 = three := Fl.ext (by simp [three, r3])
theorem m13 : (1 : Fl bin53) * three = three := Fl.ext (by simp [three, r3])
theorem m11 : (1 : Fl bin53) * 1 = 1 := Fl.ext (by simp [r1])
theorem m00 : (0 : Fl bin53) * 0 = 0 := Fl.ext (by simp [r0])
theorem mt1 : third * 1 = third := Fl.ext (by simp [rthird'])
theorem mt3 : third * three = 1 := Fl.ext (by simp only [Fl.mul_val, three, Fl.one_val, rone])
theorem a00 : (0 : Fl bin53) + 0 = 0 := Fl.ext (by simp [r0])
theorem a01 : (0 : Fl bin53) + 1 = 1 := Fl.ext (by simp [r1])
theorem a03 : (0 : Fl bin53) + three = three := Fl.ext (by simp [three, r3])
theorem a0t : (0 : Fl bin53) + third = third := Fl.ext (by simp [rthird'])
theorem s10 : (1 : Fl bin53) - 0 = 1 := Fl.ext (by simp [r1])
theorem s11 : (1 : Fl bin53) - 1 = 0 := Fl.ext (by simp [r0])
theorem d13 : (1 : Fl bin53) / three = third := Fl.ext (by
  simp only [Fl.div_val, Fl.one_val, three, rthird])
theorem q0 : Scalar.sqrt (0 : Fl bin53) = 0 := Fl.ext (by simp [r0])

/-- **C98** (the carried residual is not the true one)  For `3 x = 1` in `f64`, starting from zero, the method answers `Ok` after one
step for every positive tolerance, however small; the true residual of the answer is `2⁻⁵⁴`.  So `Ok(x)` does not mean
`‖b - A x‖ < tol` in floating point, which it does in exact arithmetic (C37). -/
theorem C98_f64_below_tol_fails (tol : Fl bin53) (ht : 0 < tol.val) (m : Nat) :
    ∃ x : Arr (Fl bin53), conjugateGradient a b none tol (m + 1) = .ok (.ok x) ∧ x.IsVecShape 1 ∧
      norm2 (b.flVec 1 - a.flMat 1 *ᵥ x.flVec 1) = (2 : ℝ) ^ (-54 : ℤ) := by
  have hlt : Scalar.lt (0 : Fl bin53) tol = true := decide_eq_true ht
  have hb0 : Scalar.beq three (0 : Fl bin53) = false := decide_eq_false (by show ¬ (3 : ℝ) = 0; norm_num)
  have h1 : a.dotMv (Arr.new b.len) = .ok ⟨[0 + three * 0], 1, 0⟩ := rfl
  have h2 : b.sub (⟨[0], 1, 0⟩ : Arr (Fl bin53)) = .ok ⟨[1 - 0], 1, 0⟩ := rfl
  have h3 : (⟨[1], 1, 0⟩ : Arr (Fl bin53)).dot ⟨[1], 1, 0⟩ = .ok (0 + 1 * 1) := rfl
  have h4 : a.dotMv (⟨[1], 1, 0⟩ : Arr (Fl bin53)) = .ok ⟨[0 + three * 1], 1, 0⟩ := rfl
  have h5 : (⟨[1], 1, 0⟩ : Arr (Fl bin53)).dot ⟨[three], 1, 0⟩ = .ok (0 + 1 * three) := rfl
  have h6 : cgAxpy b.len third (⟨[1], 1, 0⟩ : Arr (Fl bin53)) (Arr.new b.len) = .ok ⟨[0 + third * 1], 1, 0⟩ := rfl
  have h7 : cgAxmy b.len third (⟨[three], 1, 0⟩ : Arr (Fl bin53)) ⟨[1], 1, 0⟩ = .ok ⟨[1 - third * three], 1, 0⟩ := rfl
  have h8 : (⟨[0], 1, 0⟩ : Arr (Fl bin53)).dot ⟨[0], 1, 0⟩ = .ok (0 + 0 * 0) := rfl
  rw [m30, a00] at h1
  rw [s10] at h2
  rw [m11, a01] at h3
  rw [m31, a03] at h4
  rw [m13, a03] at h5
  rw [mt1, a0t] at h6
  rw [mt3, s11] at h7
  rw [m00, a00] at h8
  refine ⟨⟨[third], 1, 0⟩, ?_, ⟨rfl, rfl, rfl⟩, ?_⟩
  · simp only [conjugateGradient, Option.getD_none, h1, h2, h3, Res.ok_bind, cgLoop, h4, h5, hb0, Bool.false_eq_true, if_false, d13, h6, h7, h8, q0,
      hlt, if_true]
  · have e1 : ∀ i, (b.flVec 1 - a.flMat 1 *ᵥ (⟨[third], 1, 0⟩ : Arr (Fl bin53)).flVec 1) i = (2 : ℝ) ^ (-54 : ℤ) := by
      intro i
      fin_cases i
      have e2 : (a.flMat 1 *ᵥ (⟨[third], 1, 0⟩ : Arr (Fl bin53)).flVec 1) 0 = 3 * third.val := by
        simp only [mulVec, dotProduct, Fin.sum_univ_one]
        rfl
      have e3 : b.flVec 1 0 = 1 := rfl
      show b.flVec 1 0 - (a.flMat 1 *ᵥ (⟨[third], 1, 0⟩ : Arr (Fl bin53)).flVec 1) 0 = _
      rw [e2, e3]
      norm_num [third]
    unfold norm2
    simp only [dotProduct, Fin.sum_univ_one, e1]
    exact Real.sqrt_mul_self (by positivity)

theorem small : ((1 : ℕ) + 5 : ℝ) * (2 : ℝ) ^ (-53 : ℤ) ≤ 1 / 16 := by norm_num

theorem hop (w : Fin 1 → ℝ) : norm2 (absMat (a.flMat 1) *ᵥ w) ≤ 3 * norm2 w := by
  have h : absMat (a.flMat 1) *ᵥ w = (3 : ℝ) • w := by
    ext i
    fin_cases i
    simp only [mulVec, dotProduct, Fin.sum_univ_one, absMat]
    show |(3 : ℝ)| * w 0 = 3 * w 0
    rw [abs_of_pos (by norm_num)]
  rw [h, norm2_smul, abs_of_pos (by norm_num : (0 : ℝ) < 3)]

/-- C98: a run that meets the hypotheses of the theorem on the true residual, with tolerance one -/
example : ∃ x k, conjugateGradient a b none 1 10 = .ok (.ok x) ∧ 1 ≤ k ∧ k ≤ 10 ∧
    x.flVec 1 = realVec 1 (cgAt 1 a.mat b.vec (fun _ => 0) k).x := by
  obtain ⟨x, h1, -⟩ := C98_f64_below_tol_fails 1 one_pos 9
  obtain ⟨k, h2, h3, h4, -⟩ := C98_true_residual (n := 1) one_pos small (x0 := none) shape_a shape_b (fun _ h => nomatch h)
    (by norm_num) hop h1
  exact ⟨x, k, h1, h2, h3, h4⟩

/-- the first iterate is the double nearest to `1/3` -/
theorem it1 : (cgAt 1 a.mat b.vec (fun _ => (0 : Fl bin53)) 1).x 0 = third := by
  have : (cgAt 1 a.mat b.vec (fun _ => (0 : Fl bin53)) 1).x 0 = 0 + (0 + (1 - (0 + three * 0)) * (1 - (0 + three * 0))) /
    (0 + (1 - (0 + three * 0)) * (0 + three * (1 - (0 + three * 0)))) * (1 - (0 + three * 0)) := rfl
  rw [this, m30, a00, s10, m11, a01, m31, a03, m13, a03, d13, mt1, a0t]

/-- C98 (drift): the hypotheses are met for the first iterate, with `X = 1` -/
example : norm2 (realVec 1 b.vec - realMat 1 a.mat *ᵥ realVec 1 (cgAt 1 a.mat b.vec (fun _ => 0) 1).x -
    realVec 1 (cgAt 1 a.mat b.vec (fun _ => 0) 1).r) ≤ 4 * ((1 : ℕ) + 1) * (((1 : ℕ) + 5) * (2 : ℝ) ^ (-53 : ℤ)) *
      (3 * 1 + norm2 (realVec 1 b.vec)) := by
  refine C98_residual_drift (n := 1) (R := bin53) one_pos small (k := 1) (by norm_num) (by norm_num) hop ?_
  intro j hj
  have hn1 : ∀ v : Fin 1 → ℝ, norm2 v = |v 0| := by
    intro v
    unfold norm2
    simp only [dotProduct, Fin.sum_univ_one]
    exact Real.sqrt_mul_self_eq_abs _
  rw [hn1]
  rcases Nat.le_one_iff_eq_zero_or_eq_one.1 hj with rfl | rfl
  · show |(0 : ℝ)| ≤ 1
    norm_num
  · show |((cgAt 1 a.mat b.vec (fun _ => (0 : Fl bin53)) 1).x 0).val| ≤ 1
    rw [it1, third, abs_of_pos (by positivity)]
    norm_num

end Ellalgo.ExCgFl
