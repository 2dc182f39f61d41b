import Verif.Props.Binary64Cg
import Verif.Props.CgRoundedExamples

/-! C123: the system `3 x = 1` in IEEE-754 `f64`. -/

namespace Ellalgo.ExCg64
open Ellalgo Matrix Ellalgo.ExCgFl

theorem over {x : ℝ} (h : |x| ≤ 32) : NoOver x := by
  have e : (2 : ℝ) ^ (5 : ℤ) = 32 := by norm_num
  obtain ⟨h1, h2⟩ := abs_le.1 h
  have h3 := rnd53_mono _ _ h1
  have h4 := rnd53_mono _ _ h2
  rw [← e, rnd53_neg_pow] at h3
  rw [← e, rnd53_pow] at h4
  exact (abs_le.2 ⟨h3, h4⟩).trans_lt (zpow_lt_zpow_right₀ (by norm_num) (by norm_num))

theorem under {x : ℝ} (h : x = 0 ∨ 1 / 4 ≤ |x|) : NoUnder x := by
  refine h.imp_right fun h => le_trans ?_ h
  have : (2 : ℝ) ^ (-1022 : ℤ) ≤ (2 : ℝ) ^ (-2 : ℤ) := zpow_le_zpow_right₀ (by norm_num) (by norm_num)
  refine this.trans ?_
  norm_num

/-- the number three, the matrix `(3)` and the right-hand side `(1)` in `f64` -/
noncomputable def a64 : Arr B64 := ⟨[nat 3], 1, 1⟩
noncomputable def b64 : Arr B64 := ⟨[1], 1, 0⟩

theorem same_three : Same (nat 3) three := by
  have h := Same.nat 3 (by
    have : (2 : ℝ) ^ (2 : ℤ) ≤ (2 : ℝ) ^ (1000 : ℤ) := zpow_le_zpow_right₀ (by norm_num) (by norm_num)
    refine le_trans ?_ this
    norm_num)
  refine ⟨h.1, h.2.trans ?_⟩
  show bin53.rnd ((3 : Nat) : ℝ) = 3
  exact_mod_cast r3

theorem same_a : a64.Same a := ⟨rfl, rfl, .cons same_three .nil⟩
theorem same_b : b64.Same b := ⟨rfl, rfl, .cons Same.one .nil⟩

theorem third_lo : 1 / 4 ≤ third.val := by norm_num [third]
theorem third_hi : third.val ≤ 1 := by norm_num [third]

section
variable {v w : Nat → Fl bin53}

theorem dot1 : dotV 1 v w = 0 + v 0 * w 0 := rfl

theorem dot_safe (h : v 0 * w 0 = 0 ∨ 1 / 4 ≤ |(v 0).val * (w 0).val|) (h0 : v 0 * w 0 = 0 → (v 0).val * (w 0).val = 0)
    (h1 : |(v 0).val * (w 0).val| ≤ 32) (h2 : |(v 0 * w 0).val| ≤ 32) : DotSafe 1 v w := by
  refine ⟨fun i hi => ?_, fun k hk => ?_⟩
  · obtain rfl : i = 0 := by omega
    exact ⟨under (h.imp_left h0), over h1⟩
  · obtain rfl : k = 0 := by omega
    show NoOver ((0 : ℝ) + (v 0 * w 0).val)
    rw [zero_add]
    exact over h2

end

theorem mat0 : a.mat 0 0 = three := rfl
theorem vec0 : b.vec 0 = 1 := rfl

theorem mul0 : mulV 1 a.mat (fun _ => 0) 0 = 0 := by
  show 0 + three * 0 = 0
  rw [m30, a00]
theorem first_r : (cgFirst 1 a.mat b.vec fun _ => 0).r 0 = 1 := by
  show 1 - mulV 1 a.mat (fun _ => 0) 0 = 1
  rw [mul0, s10]
theorem first_p : (cgFirst 1 a.mat b.vec fun _ => 0).p 0 = 1 := first_r
theorem first_rr : (cgFirst 1 a.mat b.vec fun _ => 0).rr = 1 := by
  show 0 + (cgFirst 1 a.mat b.vec fun _ => 0).r 0 * (cgFirst 1 a.mat b.vec fun _ => 0).r 0 = 1
  rw [first_r, m11, a01]
theorem mul1 : mulV 1 a.mat (cgFirst 1 a.mat b.vec fun _ => 0).p 0 = three := by
  show 0 + three * (cgFirst 1 a.mat b.vec fun _ => 0).p 0 = three
  rw [first_p, m31, a03]
theorem curv : (cgFirst 1 a.mat b.vec fun _ => 0).curv 1 a.mat = three := by
  show 0 + (cgFirst 1 a.mat b.vec fun _ => 0).p 0 * mulV 1 a.mat (cgFirst 1 a.mat b.vec fun _ => 0).p 0 = three
  rw [first_p, mul1, m13, a03]
theorem step : (cgFirst 1 a.mat b.vec fun _ => 0).rr / (cgFirst 1 a.mat b.vec fun _ => 0).curv 1 a.mat = third := by
  rw [first_rr, curv, d13]
theorem next_r : (cgNext 1 a.mat (cgFirst 1 a.mat b.vec fun _ => 0)).r 0 = 0 := by
  show (cgFirst 1 a.mat b.vec fun _ => 0).r 0 - (cgFirst 1 a.mat b.vec fun _ => 0).rr / (cgFirst 1 a.mat b.vec fun _ => 0).curv 1 a.mat *
    mulV 1 a.mat (cgFirst 1 a.mat b.vec fun _ => 0).p 0 = 0
  rw [step, first_r, mul1, mt3, s11]
theorem next_rr : (cgNext 1 a.mat (cgFirst 1 a.mat b.vec fun _ => 0)).rr = 0 := by
  show 0 + (cgNext 1 a.mat (cgFirst 1 a.mat b.vec fun _ => 0)).r 0 * (cgNext 1 a.mat (cgFirst 1 a.mat b.vec fun _ => 0)).r 0 = 0
  rw [next_r, m00, a00]

theorem next_done (tol : Fl bin53) (ht : 0 < tol.val) : (cgNext 1 a.mat (cgFirst 1 a.mat b.vec fun _ => 0)).done tol = true := by
  unfold CgIt.done
  rw [next_rr, q0]
  exact decide_eq_true ht

theorem safe (tol : Fl bin53) (ht : 0 < tol.val) (m : Nat) : CgSafe 1 a.mat tol b.vec (fun _ => 0) m := by
  refine ⟨⟨fun i hi => ?_, fun i hi => ?_, ?_⟩, fun j _ hl => ?_⟩
  · obtain rfl : i = 0 := by omega
    have e : (0 : Fl bin53).val = 0 := rfl
    exact dot_safe (.inl m30) (fun _ => mul_zero _) (by show |three.val * 0| ≤ 32; norm_num) (by show |(three * 0).val| ≤ 32; rw [m30, e]; norm_num)
  · obtain rfl : i = 0 := by omega
    rw [mul0]
    exact over (by show |(1 : ℝ) - 0| ≤ 32; norm_num)
  · have e : (1 : Fl bin53).val = 1 := rfl
    refine dot_safe ?_ ?_ ?_ ?_
    · rw [first_r, e]; right; norm_num
    · intro h; rw [first_r, m11] at h; rw [first_r]; have := congrArg Fl.val h; rw [Fl.one_val, Fl.zero_val] at this; norm_num at this
    · rw [first_r, e]; norm_num
    · rw [first_r, m11, e]; norm_num
  · rcases Nat.eq_zero_or_pos j with rfl | hj
    · have e1 : (1 : Fl bin53).val = 1 := rfl
      have e0 : (0 : Fl bin53).val = 0 := rfl
      have e3 : three.val = 3 := rfl
      have l := third_lo
      have h := third_hi
      show (cgFirst 1 a.mat b.vec fun _ => 0).NextSafe 1 a.mat tol
      refine ⟨fun i hi => ?_, ?_, fun _ => ⟨?_, fun i hi => ?_, fun i hi => ?_, ?_, fun hd => ?_⟩⟩
      · obtain rfl : i = 0 := by omega
        refine dot_safe ?_ ?_ ?_ ?_
        · rw [first_p, mat0, e1, e3]; right; norm_num
        · intro h; rw [first_p, mat0, m31] at h; have := congrArg Fl.val h; rw [e3, e0] at this; norm_num at this
        · rw [first_p, mat0, e1, e3]; norm_num
        · rw [first_p, mat0, m31, e3]; norm_num
      · refine dot_safe ?_ ?_ ?_ ?_
        · rw [first_p, mul1, e1, e3]; right; norm_num
        · intro h; rw [first_p, mul1, m13] at h; have := congrArg Fl.val h; rw [e3, e0] at this; norm_num at this
        · rw [first_p, mul1, e1, e3]; norm_num
        · rw [first_p, mul1, m13, e3]; norm_num
      · rw [first_rr, curv]
        exact ⟨by rw [e3]; norm_num, under (by rw [e1, e3]; right; norm_num), over (by rw [e1, e3]; norm_num)⟩
      · obtain rfl : i = 0 := by omega
        rw [step, first_p, mt1]
        refine ⟨⟨under (.inr ?_), over ?_⟩, over ?_⟩
        · rw [e1, mul_one, abs_of_nonneg (by linarith)]; exact l
        · rw [e1, mul_one, abs_of_nonneg (by linarith)]; linarith
        · show |(0 : ℝ) + third.val| ≤ 32
          rw [zero_add, abs_of_nonneg (by linarith)]; linarith
      · obtain rfl : i = 0 := by omega
        rw [step, mul1, mt3, first_r]
        refine ⟨⟨under (.inr ?_), over ?_⟩, over ?_⟩
        · rw [e3, abs_of_nonneg (by linarith)]; linarith
        · rw [e3, abs_of_nonneg (by linarith)]; linarith
        · rw [e1]; norm_num
      · refine dot_safe ?_ ?_ ?_ ?_
        · rw [next_r]; left; exact m00
        · intro _; rw [next_r, e0]; norm_num
        · rw [next_r, e0]; norm_num
        · rw [next_r, m00, e0]; norm_num
      · rw [next_done tol ht] at hd
        cases hd
    · have := hl.1 1 le_rfl hj
      have e : (cgAt 1 a.mat b.vec (fun _ => 0) 1).done tol = true := next_done tol ht
      rw [e] at this
      cases this

/-- **C123** (the carried residual is not the true one)  `conjugate_gradient` in IEEE-754 `f64` on `3 x = 1`, starting from zero, answers
`Ok` after one step for every finite positive tolerance, however small, and the residual of the answer is `2⁻⁵⁴`. -/
theorem C123_below_tol_fails (tol : B64) (ht : tol.Finite) (h0 : 0 < tol.val) (m : Nat) :
    ∃ x : Arr B64, conjugateGradient a64 b64 none tol (m + 1) = .ok (.ok x) ∧ x.IsVecShape 1 ∧ (x.vec 0).Finite ∧
      |1 - 3 * (x.vec 0).val| = (2 : ℝ) ^ (-54 : ℤ) := by
  obtain ⟨x', h1, h2, h3⟩ := C98_f64_below_tol_fails ⟨tol.val⟩ h0 m
  have h := C123_cg (x0 := none) (x0' := none) Nat.one_pos shape_a shape_b (by intro x hx; cases hx) same_a same_b trivial
    (⟨ht, rfl⟩ : Same tol ⟨tol.val⟩) (safe ⟨tol.val⟩ h0 (m + 1))
  rw [h1] at h
  cases hr : conjugateGradient a64 b64 none tol (m + 1) with
  | panic => rw [hr] at h; exact h.elim
  | ok r =>
    rw [hr] at h
    cases r with
    | error e => exact h.elim
    | ok x =>
      have hx : x.Same x' := h
      have h4 := hx.vec h2 0 Nat.one_pos
      refine ⟨x, rfl, hx.vecShape h2, h4.1, ?_⟩
      rw [h4.2, ← h3]
      unfold norm2
      simp only [dotProduct, Fin.sum_univ_one]
      rw [Real.sqrt_mul_self_eq_abs]
      congr 1
      show _ = b.flVec 1 0 - (a.flMat 1 *ᵥ x'.flVec 1) 0
      simp only [mulVec, dotProduct, Fin.sum_univ_one]
      rfl

/-- C123: the theorem on the true residual applies to this run with tolerance one -/
example : ∃ x : Arr B64, conjugateGradient a64 b64 none 1 10 = .ok (.ok x) ∧ (∀ i < 1, (x.vec i).Finite) ∧ ∃ k, 1 ≤ k ∧ k ≤ 10 ∧
    ∀ i < 1, (x.vec i).val = ((cgAt 1 a.mat b.vec (fun _ => 0) k).x i).val := by
  have h1 : (1 : B64).val = 1 := Same.one.2
  obtain ⟨x, h2, -⟩ := C123_below_tol_fails 1 Same.one.1 (by rw [h1]; exact one_pos) 9
  obtain ⟨h3, k, h4, h5, h6, -⟩ := C123_true_residual (n := 1) (L := 3) Nat.one_pos small shape_a shape_b (x0 := none) (x0' := none)
    (fun _ h => nomatch h) same_a same_b trivial Same.one (safe 1 one_pos 10) (by norm_num) (by
      have e : a64.mat64 1 = a.flMat 1 := by
        ext i j
        exact (same_a.mat shape_a i j i.2 j.2).2
      rw [e]
      exact hop) h2
  exact ⟨x, h2, h3, k, h4, h5, h6⟩

end Ellalgo.ExCg64
