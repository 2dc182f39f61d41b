import Verif.Props.QcvxProps
import Verif.Props.ExampleProps
import Verif.Props.EllReal

/-! Non-vacuity of C52, C56-C59: the disc of squared radius 100 around the origin, as in the tests of the repository. -/

namespace Ellalgo
open Matrix

/-- `Ell::new_with_scalar(100.0, [0, 0])` exists, is valid and contains every point of squared norm below 100 in its
interior -/
theorem disc100 : ∃ e, Ell.newWithScalar (100 : ℝ) (Arr.ofList [0, 0]) = .ok e ∧ e.Valid 2 ∧
    ∀ x : Fin 2 → ℝ, x 0 ^ 2 + x 1 ^ 2 < 100 → x ∈ interior (e.region 2) := by
  obtain ⟨e, h1, h2, h3⟩ := C13_valid_with_scalar (n := 2) 100 (Arr.ofList [0, 0]) le_rfl (pair_shape _ _) (by norm_num)
  refine ⟨e, h1, h2, fun x hx => ?_⟩
  rw [mem_interior]
  refine ⟨{x | x 0 ^ 2 + x 1 ^ 2 < 100}, ?_, isOpen_lt (by fun_prop) (by fun_prop), hx⟩
  intro z hz
  have hz' : z 0 ^ 2 + z 1 ^ 2 < 100 := hz
  rw [h3]
  show normSq (z - _) ≤ 100
  rw [pair_toVec, normSq, dotProduct, Fin.sum_univ_two]
  simp only [Pi.sub_apply, cons_val_zero, cons_val_one]
  nlinarith

/-- C57 with `γ = 0`, fresh oracle, `ε = 1/1000` -/
example : ∃ e, Ell.newWithScalar (100 : ℝ) (Arr.ofList [0, 0]) = .ok e ∧
    ∃ (N : Nat) (tol0 : ℝ), 0 < tol0 ∧ ∀ opts : Options ℝ, N ≤ opts.maxIters → opts.tolerance ≤ tol0 →
      ∃ xb k γ' w' e', cuttingPlaneOptim QcvxOracle.oracle Ell.space QcvxOracle.default e 0 opts =
        .ok ((xb, k), γ', w', e') ∧ Real.exp (-(1 / 2)) / √2 - 1 / 1000 ≤ γ' := by
  obtain ⟨e, h1, h2, h3⟩ := disc100
  refine ⟨e, h1, ?_⟩
  obtain ⟨N, t, ht, h⟩ := C57_quasicvx_solved QcvxOracle.default qcvx_default_reach e h2
    (h3 _ (by
      show (1 / √2) ^ 2 + (1 / 2 : ℝ) ^ 2 < 100
      rw [div_pow, Real.sq_sqrt (by norm_num)]; norm_num)) le_rfl (by positivity) (ε := 1 / 1000) (by norm_num)
  refine ⟨N, t, ht, fun opts a b => ?_⟩
  obtain ⟨xb, k, γ', w', e', c, d, -⟩ := h opts a b
  exact ⟨xb, k, γ', w', e', c, d⟩

/-- C59 (example1) with `γ = -100`, optimal point `(2, 1)` -/
example : ∃ e, Ell.newWithScalar (100 : ℝ) (Arr.ofList [0, 0]) = .ok e ∧
    ∃ (N : Nat) (tol0 : ℝ), 0 < tol0 ∧ ∀ opts : Options ℝ, N ≤ opts.maxIters → opts.tolerance ≤ tol0 →
      ∃ xb k γ' e', cuttingPlaneOptim ex1Oracle Ell.space () e (-100) opts =
        .ok ((xb, k), γ', (), e') ∧ 3 - 1 / 1000 ≤ γ' := by
  obtain ⟨e, h1, h2, h3⟩ := disc100
  refine ⟨e, h1, ?_⟩
  obtain ⟨N, t, ht, h⟩ := C59_example1_solved e h2 ![2, 1] (by norm_num) (h3 _ (by norm_num)) (γ := -100)
    (by norm_num) (ε := 1 / 1000) (by norm_num)
  refine ⟨N, t, ht, fun opts a b => ?_⟩
  obtain ⟨xb, k, γ', e', c, d, -⟩ := h opts a b
  exact ⟨xb, k, γ', e', c, d⟩

/-- C59 (example4) with `γ = -100` from the initial position `idx = -1` -/
example : ∃ e, Ell.newWithScalar (100 : ℝ) (Arr.ofList [0, 0]) = .ok e ∧
    ∃ (N : Nat) (tol0 : ℝ), 0 < tol0 ∧ ∀ opts : Options ℝ, N ≤ opts.maxIters → opts.tolerance ≤ tol0 →
      ∃ xb k γ' i' e', cuttingPlaneOptim ex4Oracle Ell.space (-1) e (-100) opts =
        .ok ((xb, k), γ', i', e') ∧ 12 - 1 / 1000 ≤ γ' := by
  obtain ⟨e, h1, h2, h3⟩ := disc100
  refine ⟨e, h1, ?_⟩
  obtain ⟨N, t, ht, h⟩ := C59_example4_solved (-1) le_rfl (by norm_num) e h2 (h3 _ (by norm_num)) (γ := -100)
    (by norm_num) (ε := 1 / 1000) (by norm_num)
  refine ⟨N, t, ht, fun opts a b => ?_⟩
  obtain ⟨xb, k, γ', i', e', c, d, -⟩ := h opts a b
  exact ⟨xb, k, γ', i', e', c, d⟩

/-- C52, C58: concrete answers.  At `(2, 1)` with `γ = 0` the quasiconvex oracle rejects (`4 > 1`). -/
example : ∃ g beta w', QcvxOracle.oracle.assess QcvxOracle.default (Arr.ofList [2, 1]) (0 : ℝ) =
    .ok (((g, ⟨beta⟩), false), 0, w') ∧ 0 < beta := by
  obtain ⟨g, b, s, γ', w', h, -, ha, -⟩ := C52_quasicvx QcvxOracle.default (Arr.ofList [2, 1]) 0
    ⟨qcvx_default_reach, le_rfl⟩ (pair_shape _ _)
  have hs : s = false := by
    rw [← Bool.not_eq_true, ha.improves]
    rintro ⟨h, -⟩
    have : (![2, 1] : Fin 2 → ℝ) 0 ^ 2 ≤ (![2, 1] : Fin 2 → ℝ) 1 := by rw [← pair_toVec]; exact h
    norm_num at this
  subst hs
  exact ⟨g, b, w', by rw [h, ha.value]; rfl, (ha.rejected rfl).1⟩

end Ellalgo
