import Verif.Props.TestOracleProps
import Verif.Props.QuadExamples
import Verif.Props.EllRealExamples

/-! C83 and C84 on concrete cases: the repository's tests with their own settings. -/

namespace Ellalgo
open Matrix

/-- C83: a fresh `MyOracle2` at the origin, which violates the second constraint -/
example : ∃ r o', ex2Oracle.assess (-1) (Arr.ofList [(0 : ℝ), 0]) = .ok (r, o') ∧ r ≠ none := by
  obtain ⟨r, o', h, -, hr, -⟩ := C83_example2 (-1) le_rfl (by norm_num) (Arr.ofList [(0 : ℝ), 0]) (pair_shape _ _)
  refine ⟨r, o', h, fun hn => ?_⟩
  have := (hr.1 hn).2
  rw [pair_toVec] at this
  norm_num at this

/-- **C83** `test_case_feasible` (tests/example2_tests.rs:49-57): with 2000 iterations and tolerance `1e-20` from the disc of
squared radius 10 around the origin the run returns a feasible point. -/
theorem C83_example2_test_feasible :
    ∃ e, Ell.newWithScalar (10 : ℝ) (Arr.ofList [0, 0]) = .ok e ∧ ∃ x k o' e',
      cuttingPlaneFeas ex2Oracle Ell.space (-1) e ⟨2000, dec 1 20⟩ = .ok ((some x, k), o', e') ∧ x.toVec 2 ∈ ex2K := by
  obtain ⟨e, h1, h2, h3⟩ := C13_valid_with_scalar (n := 2) 10 (Arr.ofList [0, 0]) le_rfl (pair_shape _ _) (by norm_num)
  have hdet := scalar_det (pair_shape _ _) h1
  obtain ⟨x, k, o', e', a1, a2, -⟩ := C83_example2_solved (-1) le_rfl (by norm_num) e h2 ![1, -1] (r := 1 / 2) (by norm_num)
    (by
      intro z hz
      have h := mem_ball_pair hz
      simp only [cons_val_zero, cons_val_one] at h
      have b1 : |z 0 - 1| ≤ 1 / 2 := abs_le_of_sq_le_sq (by nlinarith [sq_nonneg (z 1 - -1)]) (by norm_num)
      have b2 : |z 1 - -1| ≤ 1 / 2 := abs_le_of_sq_le_sq (by nlinarith [sq_nonneg (z 0 - 1)]) (by norm_num)
      rw [abs_le] at b1 b2
      exact ⟨by linarith, by linarith⟩)
    (by
      intro z hz
      have h := mem_ball_pair hz
      simp only [cons_val_zero, cons_val_one] at h
      have b1 : |z 0 - 1| ≤ 1 / 2 := abs_le_of_sq_le_sq (by nlinarith [sq_nonneg (z 1 - -1)]) (by norm_num)
      have b2 : |z 1 - -1| ≤ 1 / 2 := abs_le_of_sq_le_sq (by nlinarith [sq_nonneg (z 0 - 1)]) (by norm_num)
      rw [abs_le] at b1 b2
      rw [h3, Set.mem_ofPred_eq, pair_toVec, normSq, dotProduct, Fin.sum_univ_two]
      simp only [Pi.sub_apply, cons_val_zero, cons_val_one]
      nlinarith)
    ⟨2000, dec 1 20⟩ (by simp [dec]; norm_num)
    (by
      rw [hdet]
      have := log_bound (x := (10 : ℝ) ^ 2 / (1 / 2) ^ 4) (k := 4) (N := 2000) (by norm_num) (by norm_num) (by norm_num)
      push_cast at this ⊢
      linarith)
  exact ⟨e, h1, x, k, o', e', a1, a2⟩

/-- **C83** `test_case_infeasible` (tests/example2_tests.rs:59-67): from the disc of squared radius 10 around `(100, 100)` the
answer is `None` after 0 cuts, whatever the options. -/
theorem C83_example2_test_infeasible (opts : Options ℝ) (hm : 1 ≤ opts.maxIters) :
    ∃ e, Ell.newWithScalar (10 : ℝ) (Arr.ofList [100, 100]) = .ok e ∧ ∃ o' e',
      cuttingPlaneFeas ex2Oracle Ell.space (-1) e opts = .ok ((none, 0), o', e') := by
  obtain ⟨e, h1, h2, h3⟩ := C13_valid_with_scalar (n := 2) 10 (Arr.ofList [100, 100]) le_rfl (pair_shape _ _) (by norm_num)
  refine ⟨e, h1, C83_example2_infeasible e h2 ?_ opts hm⟩
  intro z hz
  rw [h3, Set.mem_ofPred_eq, pair_toVec, normSq, dotProduct, Fin.sum_univ_two] at hz
  simp only [Pi.sub_apply, cons_val_zero, cons_val_one] at hz
  nlinarith [sq_nonneg (z 0 - 97), sq_nonneg (z 1 - 97)]

/-- C83: the query of `MyQuasicvxOracle` at `(1, 4)` with `γ = 0` is answered with an improvement to `1/4` -/
example : ∃ g beta o', qcvx2Oracle.assess (-1) (Arr.ofList [(1 : ℝ), 4]) 0 = .ok (((g, ⟨beta⟩), true), 1 / 4, o') := by
  obtain ⟨g, b, s, γ', o', h, -, a, -⟩ := C83_quasicvx2_partial (-1) le_rfl (by norm_num) (Arr.ofList [(1 : ℝ), 4])
    (pair_shape _ _) 0 (by rw [pair_toVec]; exact Or.inl one_ne_zero)
  have he : Real.exp 1 ≤ 4 := by
    have h1 : (1 : ℝ) - 1 / 2 ≤ Real.exp (-(1 / 2)) := by
      have := Real.add_one_le_exp (-(1 / 2) : ℝ); linarith
    have h2 : Real.exp (-(1 / 2)) * Real.exp (-(1 / 2)) * Real.exp 1 = 1 := by
      rw [← Real.exp_add, ← Real.exp_add]; norm_num
    have h3 := Real.exp_pos 1
    have h4 : (1 / 4 : ℝ) ≤ Real.exp (-(1 / 2)) * Real.exp (-(1 / 2)) := by nlinarith
    nlinarith [mul_le_mul_of_nonneg_right h4 h3.le]
  have hs : s = true := a.improves.2 (by
    rw [pair_toVec]
    refine ⟨⟨he, by norm_num, by norm_num⟩, ?_⟩
    simp [qcvx2Obj])
  subst hs
  have hv := a.value
  rw [pair_toVec] at hv
  simp [qcvx2Obj] at hv
  subst hv
  exact ⟨g, b, o', by rw [h]; norm_num⟩

open Classical in
/-- C83: the setting of `test_case_feasible` (tests/quasicvx2_tests.rs:73-82) meets the hypotheses -/
example : ∃ e, Ell.newWithScalar (10 : ℝ) (Arr.ofList [1, 1]) = .ok e ∧ ∃ (N : Nat) (tol0 : ℝ), 0 < tol0 ∧
    ∀ opts : Options ℝ, N ≤ opts.maxIters → opts.tolerance ≤ tol0 →
      cuttingPlaneOptim (qcvx2Oracle.onlyAt fun x => decide (¬ (x.toVec 2 0 = 0 ∧ x.toVec 2 ∈ qcvx2F))) Ell.space (-1) e 0 opts
        = .panic ∨
      ∃ xb k γ' o' e', cuttingPlaneOptim qcvx2Oracle Ell.space (-1) e 0 opts = .ok ((xb, k), γ', o', e') ∧
        Real.exp (-(1 / 2)) / √2 - 1 / 1000 ≤ γ' ∧ γ' ≤ Real.exp (-(1 / 2)) / √2 ∧
        ((xb = none ∧ γ' = 0) ∨ ∃ x, xb = some x ∧ x.toVec 2 ∈ qcvx2F ∧ qcvx2Obj (x.toVec 2) = γ') := by
  obtain ⟨e, h1, h2, h3⟩ := C13_valid_with_scalar (n := 2) 10 (Arr.ofList [1, 1]) le_rfl (pair_shape _ _) (by norm_num)
  refine ⟨e, h1, C83_quasicvx2_solved_partial (-1) le_rfl (by norm_num) e h2 ?_ (by positivity) (by norm_num) _
    (fun x => by simp only [decide_eq_true_eq])⟩
  rw [h3, mem_interior]
  refine ⟨{x | normSq (x - (Arr.ofList [(1 : ℝ), 1]).toVec 2) < 10}, fun z hz => ?_, ?_, ?_⟩
  · have hz : normSq (z - (Arr.ofList [(1 : ℝ), 1]).toVec 2) < 10 := hz
    exact hz.le
  · refine isOpen_lt ?_ continuous_const
    unfold normSq dotProduct
    fun_prop
  · show normSq (qcvx2Opt - _) < 10
    rw [pair_toVec, normSq, dotProduct, Fin.sum_univ_two]
    simp only [qcvx2Opt, Pi.sub_apply, cons_val_zero, cons_val_one]
    have h1 : (1 : ℝ) - 1 / 2 ≤ Real.exp (-(1 / 2)) := by
      have := Real.add_one_le_exp (-(1 / 2) : ℝ); linarith
    have h2 : Real.exp (-(1 / 2)) * Real.exp (1 / 2) = 1 := by rw [← Real.exp_add]; norm_num
    have h3 := Real.exp_pos (1 / 2)
    have h4 : Real.exp (1 / 2) ≤ 2 := by nlinarith
    nlinarith

/-- C83: the ellipsoid `Ell::new_with_scalar(10, [0, 2])`, with `γ = 0` and the default options -/
example : ∃ x γ' o' e', cuttingPlaneOptim qcvx2Oracle Ell.space (-1)
    (Ell.newWithMatrix (.val 10) ⟨[.val 1, .val 0, .val 0, .val 1], 2, 2⟩ (Arr.ofList [.val 0, .val 2])) (Chk.val 0)
    ⟨2000, .val 0⟩ = .ok ((some x, 2000), γ', o', e') ∧ x.AllNan fun a : Chk => a = .bad :=
  C83_quasicvx2_zero_run (-1) le_rfl (by norm_num) 2 (by norm_num) _ _ ⟨⟨rfl, rfl, rfl⟩, rfl, rfl, rfl⟩ rfl ⟨2000, .val 0⟩
    (by norm_num)

/-! ## C84 on the disc of radius 2 around `(1, 1)` with gradient `(3/5, 4/5)` (`τ = 2`) -/

open ExR in
/-- a cut at distance 3 misses the disc and is reported as `NoSoln`, as a bias cut, as a quantised cut and as the first of two
parallel planes -/
example : (∃ e', Ell.space.update .bias disc (g, (⟨3⟩ : SingleCut ℝ)) = .ok (.noSoln, e')) ∧
    (∃ e', Ell.space.update .q disc (g, (⟨3⟩ : SingleCut ℝ)) = .ok (.noSoln, e')) ∧
    (∃ e', Ell.space.update .bias disc (g, (⟨3, some 4⟩ : ParallelCut ℝ)) = .ok (.noSoln, e')) := by
  have hm : ∀ x ∈ disc.region 2, -2 ≤ g.toVec 2 ⬝ᵥ (x - disc.c 2) := by
    intro x hx
    have := (abs_le.mp (dot_abs_le disc_valid.posDef hx (g.toVec 2) (Real.sqrt_nonneg _) (Ell.tau_sq disc_valid _))).1
    have h2 : -disc.tau 2 (g.toVec 2) ≤ g.toVec 2 ⬝ᵥ (x - disc.c 2) := this
    rw [disc_tau] at h2
    exact h2
  refine ⟨(C84_noSoln_iff .bias disc disc_valid (g, (⟨3⟩ : SingleCut ℝ)) g_shape g_ne (by norm_num) (by simp)).2 ?_,
    C84_noSoln_complete_partial .q disc disc_valid (g, (⟨3⟩ : SingleCut ℝ)) g_shape g_ne (by simp) ?_,
    C84_noSoln_complete_partial .bias disc disc_valid (g, (⟨3, some 4⟩ : ParallelCut ℝ)) g_shape g_ne ?_ ?_⟩
  · rintro x hx ⟨h, -⟩
    have h : g.toVec 2 ⬝ᵥ (x - disc.c 2) + 3 ≤ 0 := h
    linarith [hm x hx]
  · rintro x hx ⟨h, -⟩
    have h : g.toVec 2 ⬝ᵥ (x - disc.c 2) + 3 ≤ 0 := h
    linarith [hm x hx]
  · rintro b hb
    have : (4 : ℝ) = b := by simpa using hb
    rw [disc_tau]; linarith
  · rintro x hx ⟨h, -⟩
    have h : g.toVec 2 ⬝ᵥ (x - disc.c 2) + 3 ≤ 0 := h
    linarith [hm x hx]

open ExR in
/-- both planes beyond the disc on the far side: missed, but `Success` -/
example : ∃ e', Ell.space.update .bias disc (g, (⟨-4, some (-3)⟩ : ParallelCut ℝ)) = .ok (.success, e') :=
  (C84_missed_parallel_cut_succeeds .bias (Or.inl rfl) disc disc_valid g g_shape (-4) (-3) (by norm_num)
    (by rw [disc_tau]; norm_num)).2

end Ellalgo
