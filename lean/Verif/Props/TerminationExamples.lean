import Verif.Props.Termination
import Verif.Props.CertificateExamples

/-! C78 applied to the repository's first example. -/

namespace Ellalgo
open Matrix

/-- the gradients of `example1` have norm `√2` -/
theorem ex1_bounded : BoundedOptim 2 (ex1Oracle (α := ℝ)) (fun _ _ => True) (√2) := by
  intro o x γ _ hx
  obtain ⟨hx0, hx1⟩ := idx_pair hx
  have h2 : (√2 : ℝ) ^ 2 = 2 := Real.sq_sqrt (by norm_num)
  simp only [ex1Oracle, ex1Assess, hx0, hx1, Res.ok_bind, Scalar.real_gt, decide_eq_true_eq, nat]
  push_cast
  split
  · rename_i h
    exact ⟨_, _, _, _, _, rfl, trivial, pair_shape _ _, by rw [h2]; pair_norm, fun _ => by simp; linarith⟩
  · split
    · rename_i h
      exact ⟨_, _, _, _, _, rfl, trivial, pair_shape _ _, by rw [h2]; pair_norm, fun _ => by simp; linarith⟩
    · split
      · rename_i h
        exact ⟨_, _, _, _, _, rfl, trivial, pair_shape _ _, by rw [h2]; pair_norm, fun _ => by simp; linarith⟩
      · exact ⟨_, _, _, _, _, rfl, trivial, pair_shape _ _, by rw [h2]; pair_norm, by simp⟩

/-- the iteration bound for `Ell::new_with_scalar(10.0, [0, 0])`, gradients of norm `√2` and a tolerance of `1e-20` or more -/
theorem disc10_stop {e : Ell ℝ} (he : Ell.newWithScalar (10 : ℝ) (Arr.ofList [0, 0]) = .ok e) {tol : ℝ}
    (h1 : 1 / 10 ^ 20 ≤ tol) (h2 : tol ≤ 1 / 4) : stopBoundSingle 2 (e.kappa • e.M 2) tol (√2) < 900 := by
  have hP : e.kappa • e.M 2 = (10 : ℝ) • (1 : Matrix (Fin 2) (Fin 2) ℝ) := by
    obtain ⟨y, a1, a2⟩ := eye_spec (α := ℝ) 2
    have hl : (Arr.ofList [(0 : ℝ), 0]).len = 2 := rfl
    simp only [Ell.newWithScalar, hl, a1, Res.ok_bind, Res.ok.injEq] at he
    subst he
    have hy : y.toMat 2 2 = 1 := by
      rw [a2.toMat]
      ext i j
      simp only [of_apply, one_apply, Fin.ext_iff]
    show (10 : ℝ) • y.toMat 2 2 = _
    rw [hy]
  have h3 : (√2 : ℝ) ^ 2 = 2 := Real.sq_sqrt (by norm_num)
  rw [stopBoundSingle, hP, h3, ← add_smul, det_smul, det_one, Fintype.card_fin]
  have e1 : (((2 : Nat) : ℝ) - 1) * tol / (4 * (((2 : Nat) : ℝ) + 1) * 2) = tol / 24 := by norm_num
  rw [e1, mul_one, ← div_pow, Real.log_pow]
  have ht : 0 < tol := lt_of_lt_of_le (by norm_num) h1
  have h4 : (10 + tol / 24) / (tol / 24) ≤ 10 ^ 23 := by
    rw [div_le_iff₀ (by positivity)]
    have := mul_le_mul_of_nonneg_left h1 (by norm_num : (0 : ℝ) ≤ 10 ^ 23 / 24)
    linarith
  have h5 : Real.log ((10 + tol / 24) / (tol / 24)) ≤ 23 * Real.log 10 := by
    have := Real.log_le_log (by positivity) h4
    rwa [Real.log_pow] at this
  have := log_ten_lt
  push_cast
  linarith

/-- **C78** `example1` as in its test, with any tolerance from `1e-20` to `1/4` (so also with `Options::default()`): the run
ends by itself within 900 iterations, and the value it returns is optimal to within `8 √tol`. -/
theorem C78_example1 {γ : ℝ} (hγ : γ ≤ 3) (opts : Options ℝ) (h1 : 1 / 10 ^ 20 ≤ opts.tolerance)
    (h2 : opts.tolerance ≤ 1 / 4) (h3 : 900 ≤ opts.maxIters) :
    ∃ e, Ell.newWithScalar (10 : ℝ) (Arr.ofList [0, 0]) = .ok e ∧
      ∃ xb k γ' e', cuttingPlaneOptim ex1Oracle Ell.space () e γ opts = .ok ((xb, k), γ', (), e') ∧ k < 900 ∧
        3 - 8 * √opts.tolerance ≤ γ' ∧ γ' ≤ 3 := by
  obtain ⟨e, he, hv, hreg, -⟩ := disc10
  have ht : 0 < opts.tolerance := lt_of_lt_of_le (by norm_num) h1
  obtain ⟨xb, k, γ', w', e', a1, a2⟩ := C78_optim_stops_single ex1Oracle _ (by positivity) ex1_bounded () e γ opts trivial hv
    ht (N := 900) (by exact_mod_cast disc10_stop he h1 h2) h3
  refine ⟨e, he, xb, k, γ', e', a1, a2, C77_example1 opts ht h2 he a1 (by omega), ?_⟩
  have hA := optimLoop_attained (n := 2) (by norm_num) C58_example1 opts.maxIters 0 none () e γ trivial hv.shaped
    (Or.inl ⟨rfl, rfl⟩) xb k γ' w' e' a1
  rcases hA with ⟨-, rfl⟩ | ⟨x, -, -, hx, rfl⟩
  · exact hγ
  · exact hx.1

namespace ExR

theorem half_bounded (a : ℝ) : BoundedFeas 2 (half a) (fun _ => True) 1 := by
  intro w x _ _
  by_cases h : a ≤ x.toVec 2 0
  · exact ⟨none, (), by simp [half, h], trivial, by simp⟩
  · refine ⟨some (gm, ⟨a - x.toVec 2 0⟩), (), by simp [half, h], trivial, ?_⟩
    intro g c hc
    simp only [Option.some.injEq, Prod.mk.injEq] at hc
    obtain ⟨rfl, rfl⟩ := hc
    push Not at h
    exact ⟨gm_shape, by rw [gm_norm]; norm_num, by simp; linarith⟩

/-- C78: the search for `y₀ ≥ a` in the disc of radius 2 with tolerance 1/100 ends within 1000 iterations for every `a` -/
example (a : ℝ) : ∃ x k w' e', cuttingPlaneFeas (half a) Ell.space () disc ⟨1000, 1/100⟩ = .ok ((x, k), w', e') ∧
    k < 1000 ∧ (x = none → ∀ (p : Fin 2 → ℝ) (r : ℝ), 0 < r → ball p r ⊆ halfK a ∩ disc.region 2 → r ^ 2 * 1 ^ 2 < 1/100) := by
  refine C78_feas_decides (half a) _ (halfK a) one_pos (half_bounded a) (half_honest a (G := 1) (by norm_num)) () disc
    ⟨1000, 1/100⟩ trivial disc_valid (by norm_num) (N := 1000) ?_ le_rfl
  have hκ : disc.kappa = 4 := rfl
  rw [stopBound, disc_M, hκ, ← add_smul, det_smul, det_one, Fintype.card_fin, mul_one, ← div_pow, Real.log_pow]
  have h1 : (4 + (1 / 100 : ℝ) / (32 * ((2 : Nat) : ℝ) * (((2 : Nat) : ℝ) + 1) * 1 ^ 2)) /
      ((1 / 100 : ℝ) / (32 * ((2 : Nat) : ℝ) * (((2 : Nat) : ℝ) + 1) * 1 ^ 2)) ≤ 10 ^ 5 := by norm_num
  have h2 := Real.log_le_log (by positivity) h1
  rw [Real.log_pow] at h2
  have := log_ten_lt
  push_cast at h2 ⊢
  norm_num at h2 ⊢
  linarith

end ExR
end Ellalgo
