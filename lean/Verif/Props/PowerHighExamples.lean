import Verif.Props.PowerHighPrecision
import Verif.Props.PowerDominantExamples

/-! C118 on the matrix `[[3, 1], [1, 3]]` and the start `(1, 0)`. -/

namespace Ellalgo.ExPowHigh
open Ellalgo Matrix
variable {u : ℝ} (R : Rounding u)

noncomputable def a : Arr (Fl R) := ⟨[⟨3⟩, ⟨1⟩, ⟨1⟩, ⟨3⟩], 2, 2⟩
noncomputable def x : Arr (Fl R) := ⟨[⟨1⟩, ⟨0⟩], 2, 0⟩

theorem mat_a : (a R).flMat 2 = ExPow.a2.toMat 2 2 := by
  rw [ExPow.a2_mat]
  funext i j; fin_cases i <;> fin_cases j <;> rfl
theorem vec_x : (x R).flVec 2 = ExPow.x2.toVec 2 := by
  rw [ExPow.x2_vec]
  funext i; fin_cases i <;> rfl

theorem facts (A : Matrix (Fin 2) (Fin 2) ℝ) (v : Fin 2 → ℝ) (h : A = ExPow.a2.toMat 2 2) (hv : v = ExPow.x2.toVec 2) :
    ∃ (hA : A.IsHermitian) (i : Fin 2), hA.eigenvalues i = 4 ∧ (∀ j, j ≠ i → |hA.eigenvalues j| ≤ 1 / 2 * |hA.eigenvalues i|) ∧
      1 / 2 ≤ |(hA.eigenvectorBasis i).ofLp ⬝ᵥ v| ∧ tanSq (hA.eigenvectorBasis i).ofLp v = 1 := by
  subst h hv
  obtain ⟨i, hi, hj⟩ := ExPow.a2_eig
  obtain ⟨-, hsq⟩ := ExPow.a2_start hi
  refine ⟨ExPow.a2_herm, i, hi, fun j h => by rw [hj j h, hi]; norm_num, ?_, ?_⟩
  · refine abs_le_of_sq_le_sq' ?_ (abs_nonneg _) |>.2
    rw [sq_abs, hsq]; norm_num
  · rw [tanSq, hsq, ExPow.x2_vec]
    simp [dotProduct, Fin.sum_univ_two]; norm_num

/-- C118: the hypotheses are met: from some precision on all variants stop, with a value within `8 / 4 ^ k + 1/100` of the
eigenvalue 4 after `k` multiplications -/
example : ∃ N : Nat, ∃ u0 > 0, ∀ u ≤ u0, ∀ (R : Rounding u) (m : Nat),
    ∀ run ∈ [powerIteration (α := Fl R), powerIteration2, powerIteration3, powerIteration4],
      ∃ l niter xf, run (a R) (x R) ⟨m, ⟨1 / 1000⟩⟩ = .ok ((l, niter), xf) ∧ niter ≤ N ∧
        |l.val - 4| ≤ 8 * (1 / 2) ^ (2 * min (niter + 1) m) + 1 / 100 := by
  obtain ⟨N, u0, h0, h⟩ := C118_dominant (n := 2) (lo := 4) (M := 3) (s := 1 / 2) (rho := 1 / 2) (tol0 := 1 / 1000) (eps := 1 / 100)
    (by norm_num) (by norm_num) (by norm_num) (by norm_num) (by norm_num) (by norm_num) (by norm_num) (by norm_num)
  refine ⟨N, u0, h0, fun u hu R m run hrun => ?_⟩
  obtain ⟨hA, i, e, hd, hs, ht⟩ := facts _ _ (mat_a R) (vec_x R)
  obtain ⟨l, niter, xf, h1, -, h2, -, h3, -⟩ := h u hu R (a R) (x R) ⟨1 / 1000⟩ m ⟨rfl, rfl, rfl⟩ ⟨rfl, rfl, rfl⟩
    (by rw [mat_a, ExPow.a2_mat]; intro i j; fin_cases i <;> fin_cases j <;> norm_num)
    (by rw [vec_x, ExPow.x2_vec]; intro i; fin_cases i <;> norm_num)
    hA i (by rw [e]; norm_num) hd hs le_rfl run hrun
  refine ⟨l, niter, xf, h1, h2, ?_⟩
  rw [e, ht, mul_one, abs_of_pos (by norm_num : (0 : ℝ) < 4)] at h3
  norm_num at h3 ⊢
  exact h3

end Ellalgo.ExPowHigh
