import Verif.Props.QuadProps
import Verif.Props.RateExamples

/-! C73 applied to the repository's tests, with their own settings. -/

namespace Ellalgo
open Matrix

/-- the squared volume of `Ell::new_with_scalar(val, xc)` -/
theorem scalar_det {n : Nat} {val : ℝ} {xc : Arr ℝ} (hx : xc.IsVecShape n) {e : Ell ℝ} (h : Ell.newWithScalar val xc = .ok e) :
    (e.kappa • e.M n).det = val ^ n := by
  obtain ⟨y, a1, a2⟩ := eye_spec (α := ℝ) n
  have hl : xc.len = n := hx.2.2
  simp only [Ell.newWithScalar, hl, a1, Res.ok_bind, Res.ok.injEq] at h
  subst h
  have hy : y.toMat n n = 1 := by
    rw [a2.toMat]
    ext i j
    simp only [of_apply, one_apply, Fin.ext_iff]
  show (val • y.toMat n n).det = val ^ n
  rw [hy, det_smul, det_one]
  simp

/-- the disc of squared radius 10 around `(1, 1)` contains every disc of radius at most 1 around the origin -/
theorem disc_one_one {e : Ell ℝ} (h : e.region 2 = {x | normSq (x - (Arr.ofList [(1 : ℝ), 1]).toVec 2) ≤ 10}) {r : ℝ}
    (hr : r ^ 2 ≤ 1) : ball (0 : Fin 2 → ℝ) r ⊆ e.region 2 := by
  intro z hz
  have h1 := mem_ball_pair hz
  rw [h, Set.mem_ofPred_eq, pair_toVec, normSq, dotProduct, Fin.sum_univ_two]
  simp only [Pi.zero_apply, sub_zero, Pi.sub_apply, cons_val_zero, cons_val_one] at h1 ⊢
  nlinarith [sq_nonneg (z 0 + 1), sq_nonneg (z 1 + 1)]

theorem log_bound {x : ℝ} {k : Nat} (hx : 0 < x) (h : x ≤ 10 ^ k) {N : ℝ} (hN : 9 * (k : ℝ) < N) :
    (((2 : Nat) : ℝ) + 1) * Real.log x < N := by
  have h1 : Real.log x ≤ k * Real.log 10 := by
    rw [← Real.log_pow]; exact Real.log_le_log hx h
  have h2 : (k : ℝ) * Real.log 10 ≤ k * 3 := mul_le_mul_of_nonneg_left log_ten_lt.le (Nat.cast_nonneg k)
  push_cast
  linarith

/-- **C73** `test_different_initial_conditions` (tests/integration_test.rs:172-220), first starting point: from the disc of
squared radius 10 around `(1, 1)` with 1000 iterations and tolerance `1e-10` the final value is at most `1e-5` (the test asks
for 100), whatever the initial `γ` above that. -/
theorem C73_integration_test (γ : ℝ) (hγ : 1 / 10 ^ 5 < γ) :
    ∃ e, Ell.newWithScalar (10 : ℝ) (Arr.ofList [1, 1]) = .ok e ∧ ∃ x k γ' e',
      cuttingPlaneOptim quadOracle Ell.space () e γ ⟨1000, dec 1 10⟩ = .ok ((some x, k), γ', (), e') ∧
      γ' ≤ 1 / 10 ^ 5 ∧ quadVal 1 0 (x.toVec 2) = γ' := by
  obtain ⟨e, h1, h2, h3⟩ := C13_valid_with_scalar (n := 2) 10 (Arr.ofList [1, 1]) le_rfl (pair_shape _ _) (by norm_num)
  have hdet := scalar_det (pair_shape _ _) h1
  have hr2 : √(1 / (4 * 10 ^ 5) : ℝ) ^ 2 = 1 / (4 * 10 ^ 5) := Real.sq_sqrt (by norm_num)
  obtain ⟨xb, k, γ', w', e', r1, r2, r3⟩ := C73_quadratic_solved C73_quadratic_oracle (m := 1) (M := 1) (ε := 1 / 10 ^ 5)
    (r := √(1 / (4 * 10 ^ 5))) (w := ()) (e := e) one_pos (by simp) (Real.sqrt_pos.2 (by norm_num)) (by rw [hr2]; norm_num)
    trivial h2 (disc_one_one h3 (by rw [hr2]; norm_num)) γ (opts := ⟨1000, dec 1 10⟩) (by rw [hr2]; simp [dec]; norm_num)
    (by rw [hdet, hr2]; exact log_bound (k := 14) (by norm_num) (by norm_num) (by norm_num))
  obtain ⟨x, x1, x2, x3, -⟩ := r3 hγ
  subst x1
  exact ⟨e, h1, x, k, γ', e', r1, r2, x3⟩

/-- **C73** `test_ill_conditioned_quadratic` (tests/numerical_stability.rs:6-49): for every condition number between 1 and
`1e7` the run from the disc of squared radius 10 around `(1, 1)` with 2000 iterations and tolerance `1e-12` ends with a value of
at most `0.01` (the test only asks for a finite one). -/
theorem C73_ill_conditioned_test (κ : ℝ) (h1κ : 1 ≤ κ) (hκ : κ ≤ 10 ^ 7) (γ : ℝ) (hγ : 1 / 100 < γ) :
    ∃ e, Ell.newWithScalar (10 : ℝ) (Arr.ofList [1, 1]) = .ok e ∧ ∃ x k γ' w' e',
      cuttingPlaneOptim illOracle Ell.space κ e γ ⟨2000, dec 1 12⟩ = .ok ((some x, k), γ', w', e') ∧
      γ' ≤ 1 / 100 ∧ (1 + 1 / κ) * x.toVec 2 0 ^ 2 + κ * x.toVec 2 1 ^ 2 = γ' := by
  have hκ0 : 0 < κ := by linarith
  obtain ⟨e, h1, h2, h3⟩ := C13_valid_with_scalar (n := 2) 10 (Arr.ofList [1, 1]) le_rfl (pair_shape _ _) (by norm_num)
  have hdet := scalar_det (pair_shape _ _) h1
  have hr2 : √(1 / (800 * κ) : ℝ) ^ 2 = 1 / (800 * κ) := Real.sq_sqrt (by positivity)
  have hk1 : 1 / κ ≤ 1 := by rw [div_le_one hκ0]; exact h1κ
  have hk0 : 0 < 1 / κ := by positivity
  obtain ⟨xb, k, γ', w', e', r1, r2, r3⟩ := C73_quadratic_solved (C73_ill_conditioned_oracle κ) (m := 1) (M := 2 * κ)
    (ε := 1 / 100) (r := √(1 / (800 * κ))) (w := κ) (e := e) one_pos
    (by
      intro i
      fin_cases i
      · simp only [Fin.zero_eta, cons_val_zero]
        constructor <;> linarith
      · show 1 ≤ κ ∧ κ ≤ 2 * κ
        constructor <;> linarith)
    (Real.sqrt_pos.2 (by positivity)) (by rw [hr2]; field_simp; norm_num) rfl h2
    (disc_one_one h3 (by rw [hr2, div_le_one (by positivity)]; linarith)) γ (opts := ⟨2000, dec 1 12⟩)
    (by
      rw [hr2]
      have : 4 * 1 * (1 / (800 * κ)) * (1 / 100) = 1 / (20000 * κ) := by field_simp; norm_num
      rw [this, le_div_iff₀ (by positivity)]
      simp only [dec]
      norm_num
      linarith)
    (by
      rw [hdet, hr2]
      refine log_bound (k := 22) (by positivity) ?_ (by norm_num)
      have : (10 : ℝ) ^ 2 / (1 / (800 * κ)) ^ 2 = 64000000 * κ ^ 2 := by field_simp; norm_num
      rw [this]
      have : κ ^ 2 ≤ (10 ^ 7) ^ 2 := pow_le_pow_left₀ hκ0.le hκ 2
      calc 64000000 * κ ^ 2 ≤ 64000000 * (10 ^ 7) ^ 2 := by linarith
        _ ≤ _ := by norm_num)
  obtain ⟨x, x1, x2, x3, -⟩ := r3 hγ
  subst x1
  refine ⟨e, h1, x, k, γ', w', e', r1, r2, ?_⟩
  rw [← x3]
  simp [quadVal, Fin.sum_univ_two]

/-- the benchmark's setting in dimension 10 -/
example : ∃ e e', Ell.newWithScalar (10 : ℝ) (Arr.new 10) = .ok e ∧
    cuttingPlaneOptim benchOracle Ell.space () e (-1) Options.default = .ok ((none, 0), -1, (), e') :=
  C73_bench_stops_at_once (by norm_num) (by norm_num) (by norm_num) (by simp [Options.default, dec]) (by simp [Options.default])

/-- a target in five dimensions meets the hypothesis of `C73_target_oracle` -/
example : (Arr.ofList [(1 : ℝ), 2, 3, 4, 5]).IsVecShape 5 := ⟨rfl, rfl, rfl⟩

end Ellalgo
