import Verif.Props.PowerDominant

/-! # Property C79: concrete runs, and a run of the Rayleigh-quotient variants that stops at a wrong value -/

namespace Ellalgo
open Matrix

namespace ExPow

/-- the diagonal matrix with entries `3, -1, -2` -/
def d3 : Arr ℝ := ⟨[3, 0, 0, 0, -1, 0, 0, 0, -2], 3, 3⟩
/-- the start `(1, 3, 12)` -/
def s3 : Arr ℝ := ⟨[1, 3, 12], 3, 0⟩

theorem d3_shape : d3.IsMatShape 3 3 := ⟨rfl, rfl, rfl⟩
theorem s3_shape : s3.IsVecShape 3 := ⟨rfl, rfl, rfl⟩
theorem d3_mat : d3.toMat 3 3 = diagonal ![3, -1, -2] := by
  ext i j; fin_cases i <;> fin_cases j <;> rfl
theorem s3_vec : s3.toVec 3 = ![1, 3, 12] := by
  ext i; fin_cases i <;> rfl

theorem d3_pow (k : Nat) : (d3.toMat 3 3 ^ k) *ᵥ s3.toVec 3 = ![3 ^ k, (-1) ^ k * 3, (-2) ^ k * 12] := by
  rw [d3_mat, s3_vec, diagonal_pow]
  ext i
  rw [mulVec_diagonal]
  fin_cases i <;> simp

theorem d3_pow_ne (k : Nat) : (d3.toMat 3 3 ^ k) *ᵥ s3.toVec 3 ≠ 0 := by
  rw [d3_pow]
  intro h
  have := congrFun h 0
  simp at this

theorem d3_ray : rayAt (d3.toMat 3 3) (s3.toVec 3) 0 = -21 / 11 ∧ rayAt (d3.toMat 3 3) (s3.toVec 3) 1 = -21 / 11 := by
  constructor
  · rw [rayAt, d3_pow, d3_mat]
    simp [dotProduct, mulVec_diagonal, Fin.sum_univ_three]; norm_num
  · rw [rayAt, d3_pow, d3_mat]
    simp [dotProduct, mulVec_diagonal, Fin.sum_univ_three]; norm_num

end ExPow

open ExPow in
/-- **C79 refuted for `power_iteration2` and `power_iteration3` on indefinite matrices**: for `diag(3, -1, -2)` and the
start `(1, 3, 12)`, which has a component along the dominant eigenvector, both report `-21/11` after the first step for
every tolerance `≥ 0` and every `max_iters ≥ 1`. -/
theorem C79_rayleigh_stop_wrong :
    d3.toMat 3 3 = diagonal ![3, -1, -2] ∧ s3.toVec 3 = ![1, 3, 12] ∧
    ∀ m tol, 1 ≤ m → 0 ≤ tol → ∀ run ∈ [powerIteration2 (α := ℝ), powerIteration3],
      ∃ xf, run d3 s3 ⟨m, tol⟩ = .ok ((-21 / 11, 0), xf) := by
  refine ⟨d3_mat, s3_vec, fun m tol hm htol run hrun => ?_⟩
  obtain ⟨e0, e1⟩ := d3_ray
  have hP : |rayAt (d3.toMat 3 3) (s3.toVec 3) 0 - rayAt (d3.toMat 3 3) (s3.toVec 3) (0 + 1)| ≤ tol := by
    rw [e0, zero_add, e1, sub_self, abs_zero]; exact htol
  have hne : ∀ k ≤ m, (d3.toMat 3 3 ^ k) *ᵥ s3.toVec 3 ≠ 0 := fun k _ => d3_pow_ne k
  have e2 : rayAt (d3.toMat 3 3) (s3.toVec 3) (min (0 + 1) m) = -21 / 11 := by
    rw [min_eq_left (by omega)]; exact e1
  simp only [List.mem_cons, List.not_mem_nil, or_false] at hrun
  rcases hrun with rfl | rfl
  · obtain ⟨niter, xf, h1, -, -, h2⟩ := C79_power_iteration2 (tol := tol) d3_shape s3_shape hne
    obtain rfl : niter = 0 := Nat.le_zero.1 (h2.le (K := 0) hP (by omega))
    exact ⟨xf, by rw [h1, e2]⟩
  · obtain ⟨niter, xf, h1, -, -, -, h2⟩ := C79_power_iteration3 (tol := tol) d3_shape s3_shape hne
    obtain rfl : niter = 0 := Nat.le_zero.1 (h2.le (K := 0) hP (by omega))
    exact ⟨xf, by rw [h1, e2]⟩

namespace ExPow

/-- the start `(1,0)` is not orthogonal to an eigenvector of `[[3,1],[1,3]]` for the eigenvalue 4 -/
theorem a2_start {i : Fin 2} (hi : a2_herm.eigenvalues i = 4) :
    (a2_herm.eigenvectorBasis i).ofLp ⬝ᵥ x2.toVec 2 ≠ 0 ∧
      ((a2_herm.eigenvectorBasis i).ofLp ⬝ᵥ x2.toVec 2) ^ 2 = 1 / 2 := by
  have hAu := a2_herm.mulVec_eigenvectorBasis i
  have hu : eigVec a2_herm i ⬝ᵥ eigVec a2_herm i = 1 := eigVec_unit a2_herm i
  rw [hi] at hAu
  change a2.toMat 2 2 *ᵥ eigVec a2_herm i = (4 : ℝ) • eigVec a2_herm i at hAu
  change eigVec a2_herm i ⬝ᵥ x2.toVec 2 ≠ 0 ∧ (eigVec a2_herm i ⬝ᵥ x2.toVec 2) ^ 2 = 1 / 2
  generalize eigVec a2_herm i = u at *
  rw [x2_vec]
  rw [a2_mat] at hAu
  have e0 := congrFun hAu 0
  simp [mulVec, dotProduct, Fin.sum_univ_two] at e0 hu ⊢
  have h1 : u 1 = u 0 := by linarith
  rw [h1] at hu
  constructor
  · intro h
    rw [h] at hu
    simp at hu
  · nlinarith

/-- For `[[3,1],[1,3]]` from `(1,0)` all variants return, after `k` multiplications, a value within `8 / 4^k` of the
dominant eigenvalue 4, and with tolerance `1e-6` the second and third variant stop within 13 iterations. -/
example (m : Nat) (hm : 13 < m) :
    (∀ run ∈ [powerIteration (α := ℝ), powerIteration2, powerIteration3, powerIteration4],
      ∃ l niter xf, run a2 x2 ⟨m, 1 / 1000000⟩ = .ok ((l, niter), xf) ∧ niter ≤ m ∧
        |l - 4| ≤ 8 * (1 / 2) ^ (2 * min (niter + 1) m)) ∧
    (∀ run ∈ [powerIteration2 (α := ℝ), powerIteration3],
      ∃ l niter xf, run a2 x2 ⟨m, 1 / 1000000⟩ = .ok ((l, niter), xf) ∧ niter ≤ 13) := by
  obtain ⟨i, hi, hj⟩ := a2_eig
  obtain ⟨hst, hsq⟩ := a2_start hi
  have hdom : ∀ j, j ≠ i → |a2_herm.eigenvalues j| ≤ 1 / 2 * |a2_herm.eigenvalues i| := by
    intro j h
    rw [hj j h, hi]; norm_num
  have htan : tanSq (a2_herm.eigenvectorBasis i).ofLp (x2.toVec 2) = 1 := by
    rw [tanSq, hsq, x2_vec]
    simp [dotProduct, Fin.sum_univ_two]; norm_num
  have hi0 : a2_herm.eigenvalues i ≠ 0 := by rw [hi]; norm_num
  constructor
  · intro run hrun
    obtain ⟨l, niter, xf, h1, h2, h3⟩ := C79_error (m := m) (tol := 1 / 1000000) a2_shape x2_shape a2_herm i
      (by norm_num) (by norm_num) hi0 hdom hst run hrun
    rw [htan, hi, mul_one, abs_of_pos (by norm_num : (0 : ℝ) < 4)] at h3
    refine ⟨l, niter, xf, h1, h2, h3.trans (le_of_eq ?_)⟩
    norm_num
  · refine C79_stop_bound_value a2_shape x2_shape a2_herm i (by norm_num) (by norm_num) hi0 hdom hst hm ?_
    rw [htan, hi, abs_of_pos (by norm_num : (0 : ℝ) < 4)]
    norm_num

/-- the accuracy theorems apply to `[[3,1],[1,3]]` from `(1,0)` -/
example (eps : ℝ) (heps : 0 < eps) : ∃ tol0 > 0, ∀ tol, 0 < tol → tol ≤ tol0 → ∃ N, ∀ m, N < m →
    ∀ run ∈ [powerIteration2 (α := ℝ), powerIteration3],
      ∃ l niter xf, run a2 x2 ⟨m, tol⟩ = .ok ((l, niter), xf) ∧ niter ≤ N ∧ |l - 4| ≤ eps := by
  obtain ⟨i, hi, hj⟩ := a2_eig
  have h := C79_accuracy_psd a2_shape x2_shape a2_herm (fun w => by
    rw [a2_mat]
    simp [mulVec, dotProduct, Fin.sum_univ_two]
    nlinarith [sq_nonneg (w 0 + w 1), sq_nonneg (w 0), sq_nonneg (w 1)]) i (by rw [hi]; norm_num)
    (fun j h => by rw [hj j h, hi]; norm_num) (a2_start hi).1 heps
  rw [hi] at h
  exact h

end ExPow
end Ellalgo
